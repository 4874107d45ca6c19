import Verif.ApRun

/-!
# The access point keeps going: C34 (CTSs are sent), C40 (ACKs are sent), C74 (one sweep, for ever)
-/

namespace Thz.Ap

open Thz Thz.Central
open Thz.Nano (Body Kind bcast)

/-! ## The log only grows -/

/-- The log grew. -/
abbrev Grew (s s' : St) : Prop := s.log <+: s'.log

theorem grew_emit (s : St) (o : Obs) : Grew s (s.emit o) := ⟨[o], rfl⟩

theorem grew_sendPacket (c : Cfg) (f : Frame) (s : St) : Grew s (sendPacket c f s) := by
  unfold sendPacket
  split
  · split
    · exact ⟨[.handed s.now f], rfl⟩
    · exact ⟨[.refused f], rfl⟩
  · exact grew_emit s _

theorem grew_wrapDown (n : Nat) (s : St) : Grew s (wrapDown n s) := by
  induction n generalizing s with
  | zero => exact List.prefix_refl _
  | succ n ih =>
    unfold wrapDown
    split
    · refine List.IsPrefix.trans ?_ (ih _)
      exact ⟨[.cycle], rfl⟩
    · exact List.prefix_refl _

theorem grew_turn (c : Cfg) (me : Mac48) (s : St) : Grew s (turn c me s) := by
  unfold turn
  dsimp only
  set a := wrapUp (rounds (s.angle + c.beamwidth)) (s.angle + c.beamwidth)
  have h1 : Grew s (wrapDown (rounds a) { s with angle := a }) := grew_wrapDown (rounds a) { s with angle := a }
  generalize wrapDown (rounds a) { s with angle := a } = s1 at h1 ⊢
  have h2 : Grew s (s1.emit (.turned s1.angle)) := List.IsPrefix.trans h1 (grew_emit _ _)
  generalize s1.emit (.turned s1.angle) = s2 at h2 ⊢
  split
  · unfold sendCta3
    exact List.IsPrefix.trans h2 (grew_sendPacket c _ { s2.sched c.waitTime .waitTime with nextId := s2.nextId + 1 })
  · refine List.IsPrefix.trans h2 ?_
    have h3 : s2.log = ({ s2.sched c.tSector .sectorTimeout with sectorEv := some s2.nextTid } : St).log := rfl
    rw [h3]
    generalize ({ s2.sched c.tSector .sectorTimeout with sectorEv := some s2.nextTid } : St) = s3
    unfold sendCta1
    dsimp only
    exact grew_sendPacket c _ { s3.sched c.dataTimeout .dataTimeout with dataEv := some s3.nextTid, nextId := s3.nextId + 1 }

theorem grew_sendAck (c : Cfg) (s : St) : Grew s (sendAck c s) := by
  unfold sendAck
  split
  · exact List.prefix_refl _
  · exact grew_sendPacket c _ s

theorem answer_log (c : Cfg) (i : Nat) (w : ℤ) (l : List (Frame × ℚ)) (s : St) : (answer c i w l s).log = s.log :=
  (answer_keep c i w l s).2.2.2.2.1

theorem grew_assign (c : Cfg) (i : Nat) (l : List (Mac48 × List (ℚ × ℚ))) (s : St) : Grew s (assign c i l s) := by
  induction l generalizing i s with
  | nil => exact List.prefix_refl _
  | cons e rest ih =>
    unfold assign
    dsimp only
    refine List.IsPrefix.trans ?_ (ih _ _)
    exact ⟨[.listed e.1 (bestSector e.2)], rfl⟩

theorem grew_cancel (s : St) (t : Option Nat) : (s.cancel t).log = s.log := by cases t <;> rfl

theorem grew_waitTime (c : Cfg) (me : Mac48) (s : St) : Grew s (waitTimeExpired c me s) := by
  unfold waitTimeExpired
  dsimp only
  have h0 : Grew s (s.emit .closed) := grew_emit s _
  generalize s.emit .closed = s1 at h0 ⊢
  split
  · exact List.IsPrefix.trans h0 (grew_turn c me s1)
  · split
    · split
      · unfold initNodeMap
        dsimp only
        refine List.IsPrefix.trans h0 ?_
        exact grew_assign c 0 _ { s1 with
          sectorMap := record s1.angle s1.rtsList s1.sectorMap, rtsList := [], recording := false,
          nodeMap := byNode (record s1.angle s1.rtsList s1.sectorMap) s1.nodeMap }
      · refine List.IsPrefix.trans h0 ?_
        exact grew_turn c me { s1 with sectorMap := record s1.angle s1.rtsList s1.sectorMap, rtsList := [] }
    · refine List.IsPrefix.trans h0 ?_
      show s1.log <+: (answer c 0 _ s1.rtsList s1).log
      rw [answer_log]

theorem grew_forward (f : Frame) (s : St) : Grew s (forwardIfNew f s) := by
  unfold forwardIfNew
  dsimp only
  split
  · exact ⟨[.up f.body f.src f.dst f.seq], rfl⟩
  · exact List.prefix_refl _

theorem grew_step (c : Cfg) (me : Mac48) (s : St) (op : Op) : Grew s (step c me s op) := by
  cases op with
  | advance d => exact List.prefix_refl _
  | rxStart =>
    show s.log <+: (receivePacket s).log
    have h := grew_cancel s s.dataEv
    unfold receivePacket
    dsimp only
    split
    · rw [h]
    · rw [h]
    · show s.log <+: (s.cancel s.dataEv).log
      rw [h]
  | rxDone f ok p =>
    show s.log <+: (receivePacketDone c me f ok p s).log
    unfold receivePacketDone
    dsimp only
    split
    · exact List.prefix_refl _
    · have h1 : s.log <+: (({ s with state := .idle } : St).emit (.rx f p)).log := ⟨[.rx f p], rfl⟩
      split
      · exact h1
      · unfold receiveData
        dsimp only
        refine List.IsPrefix.trans ?_ (grew_forward f _)
        split
        · refine List.IsPrefix.trans ?_ (grew_sendAck c _)
          show s.log <+: (St.cancel _ _).log
          rw [grew_cancel]
          exact h1
        · exact h1
      · exact h1
  | fire tid =>
    show s.log <+: (fire c me tid s).log
    unfold fire
    split
    · exact List.prefix_refl _
    · rename_i due e _
      dsimp only
      have e0 : s.log = ({ s with pend := s.pend.filter (fun e => e.1 ≠ tid), now := max s.now due } : St).log := rfl
      rw [e0]
      generalize ({ s with pend := s.pend.filter (fun e => e.1 ≠ tid), now := max s.now due } : St) = s0
      cases e with
      | turn => exact grew_turn c me s0
      | dataTimeout =>
        show s0.log <+: (turn c me (s0.cancel s0.sectorEv)).log
        rw [← grew_cancel s0 s0.sectorEv]
        exact grew_turn c me _
      | waitTime => exact grew_waitTime c me s0
      | sectorTimeout =>
        show s0.log <+: (sectorTimeout c me s0).log
        unfold sectorTimeout
        split
        · exact grew_sendAck c s0
        · exact grew_turn c me s0
      | sendCts d q t g => exact grew_sendPacket c _ { s0 with nextId := s0.nextId + 1 }
      | sendAck => exact grew_sendAck c s0
      | feedback a d => exact grew_sendPacket c _ { s0 with nextId := s0.nextId + 1 }
      | phyDone f =>
        show s0.log <+: (sendPacketDone c f s0).log
        unfold sendPacketDone
        dsimp only
        have h1 : s0.log <+: (({ s0 with phyTx := none } : St).emit (.txEnd f)).log := ⟨[.txEnd f], rfl⟩
        split
        · exact h1
        · split
          · split <;> exact h1
          · exact h1

theorem grew_run (c : Cfg) (me : Mac48) (s : St) (ops : List Op) : Grew s (run c me s ops) := by
  induction ops generalizing s with
  | nil => exact List.prefix_refl _
  | cons o rest ih => exact List.IsPrefix.trans (grew_step c me s o) (ih _)

/-! ## C74: the sweep goes on -/

/-- The PHY and the clients behave (`okOp`) at each operation of a run. -/
def good (c : Cfg) (me : Mac48) : St → List Op → Bool
  | _, [] => true
  | s, o :: rest => okOp s o && good c me (step c me s o) rest

theorem Drv.run {s : St} (c : Cfg) (hw : c.ways = 3) (me : Mac48) (ops : List Op) (h : Drv 1 s) (hk : AkInv s)
    (hg : good c me s ops = true) (hok : AcksOk (Ap.run c me s ops)) : Drv 1 (Ap.run c me s ops) := by
  induction ops generalizing s with
  | nil => exact h
  | cons o rest ih =>
    have hok1 : AcksOk (Ap.step c me s o) := by
      intro f hf hm
      exact hok f hf ((grew_run c me (Ap.step c me s o) rest).subset hm)
    simp only [good, Bool.and_eq_true] at hg
    exact ih (h.step c hw me o hk hg.1 hok1) (hk.step c me o) hg.2 hok

theorem Drv.init (c : Cfg) : Drv 1 (init c) := by
  refine ⟨⟨by simp [Ap.init], by simp [Ap.init], by simp [Ap.init], by simp [Ap.init]⟩, ⟨rfl, by simp [Ap.init]⟩,
    ⟨by simp [Ap.init], by simp [Ap.init], rfl⟩, rfl, ?_, rfl⟩
  rintro ⟨e, he, hs⟩
  simp [Ap.init] at he
  rw [he] at hs
  simp at hs

/-- Three-way protocol: as long as intact data frames arrive within a data window, no reception ends during an
own transmission, and no ACK was suppressed because of a reception, exactly one pending event drives the sweep,
and the access point never reads an empty ACK list. -/
theorem C74_sweep_partial (c : Cfg) (hw : c.ways = 3) (me : Mac48) (ops : List Op) (hg : good c me (init c) ops = true)
    (hok : ∀ f : Frame, f.kind = .ack → .blocked f ∉ (after c me ops).log) :
    (after c me ops).pend.countP drives = 1 ∧ (after c me ops).ub = false := by
  have h := Drv.run c hw me ops (Drv.init c) (AkInv.after c me []) hg hok
  exact ⟨h.count, h.ub⟩

/-- Two clients with strong signals: both data frames arrive and are acknowledged, the sweep goes on. -/
def okRun : List Op :=
  openRun [(1, -30), (2, -30)] ++ [.fire 1, .fire 3, .fire 6, .fire 4, .fire 7,
    .advance 67712, .rxStart, .advance 380450, .rxDone (exData 1) true (-30),
    .advance 11000, .rxStart, .advance 380450, .rxDone (exData 2) true (-30),
    .fire 8, .fire 9, .fire 10, .fire 11]

example : timely (exCfg 3) exAp (init (exCfg 3)) okRun = true ∧ good (exCfg 3) exAp (init (exCfg 3)) okRun = true ∧
    (after (exCfg 3) exAp okRun).log.all (fun o => match o with | .blocked _ => false | _ => true) = true ∧
    acksSent (after (exCfg 3) exAp okRun).log = [(exCl 1, 1), (exCl 2, 1)] ∧
    turnsOf (after (exCfg 3) exAp okRun).log = [12, 24] := by
  decide +kernel

/-- Default attributes, one client with a strong and one with a weak signal.  The second data frame is still
being received when the data window ends: the first ACK is dropped without being sent, no event is left, and the
second data frame does not revive the access point. -/
def deadRun : List Op :=
  openRun [(1, -30), (2, -46)] ++ [.fire 1, .fire 3, .fire 6, .fire 4, .fire 7,
    .advance 67712, .rxStart, .advance 380450, .rxDone (exData 1) true (-30),
    .advance 11000, .rxStart, .fire 5, .advance 1036369, .rxDone (exData 2) true (-46)]

theorem C74_dead_violated :
    timely (exCfg 3) exAp (init (exCfg 3)) deadRun = true ∧ (after (exCfg 3) exAp deadRun).pend = [] ∧
      (after (exCfg 3) exAp deadRun).state = .idle := by
  decide +kernel

/-- In the same run two data frames were received and passed on, and no ACK was sent. -/
theorem C40_lost_violated :
    timely (exCfg 3) exAp (init (exCfg 3)) deadRun = true ∧
      dataOf (after (exCfg 3) exAp deadRun).log = [(exCl 1, 1), (exCl 2, 1)] ∧
      acksSent (after (exCfg 3) exAp deadRun).log = [] ∧ (after (exCfg 3) exAp deadRun).pend = [] := by
  decide +kernel

/-- Default attributes, a single client with a weak signal: its data frame arrives after the data window has
ended and the sweep has gone on (with all its CTAs suppressed by the reception). -/
def twinRun : List Op :=
  openRun [(1, -46)] ++ [.fire 1, .fire 3, .fire 5, .advance 67712, .rxStart, .fire 4] ++
    (List.range 18).map (fun i => .fire (i + 6)) ++ [.advance 44508, .rxDone (exData 1) true (-46), .fire 25, .fire 26]

/-- Now two sweeps run at the same time. -/
theorem C74_twin_violated :
    timely (exCfg 3) exAp (init (exCfg 3)) twinRun = true ∧
      ((after (exCfg 3) exAp twinRun).pend.filter drives).map (fun e => e.2) = [(2493104, .waitTime), (2539801, .waitTime)] := by
  decide +kernel

/-- From there: the two sweeps collect RTSs of three clients, the data of two of them arrive; the first ACK has
been sent when the data window of the other sweep ends, just before the second is due. -/
def emptyRun : List Op :=
  twinRun ++ [.fire 28, .advance 3000, .rxStart, .advance 1243, .rxDone (exRts 5) true (-30), .fire 24, .fire 29, .fire 31,
    .advance 10000, .rxStart, .advance 1243, .rxDone (exRts 6) true (-30),
    .rxStart, .advance 1243, .rxDone (exRts 7) true (-30), .fire 27, .fire 32, .fire 35, .fire 33, .fire 36,
    .advance 66712, .rxStart, .advance 380450, .rxDone (exData 6) true (-30), .advance 12130,
    .rxStart, .advance 380450, .rxDone (exData 7) true (-30), .fire 37, .fire 30, .fire 38]

/-- The access point takes the first element of an empty ACK list. -/
theorem C40_empty_violated :
    timely (exCfg 3) exAp (init (exCfg 3)) emptyRun = true ∧ (after (exCfg 3) exAp emptyRun).ub = true := by
  decide +kernel

/-! ## C40: an undisturbed drain -/

/-- Recipient and number of an ACK. -/
def ackKey (a : Frame) : Mac48 × UInt16 := (a.dst, a.seq)

/-- Where the drain stands. -/
inductive Stage (L : List Frame) (s : St) (k : Nat) : Prop
  | sending (a : Frame) (t : Nat) (d : ℤ) (h1 : s.pend = [(t, d, .phyDone a)]) (h2 : s.state = .tx)
      (h3 : s.pktTx = some a) (h4 : a.kind = .ack)
  | waiting (t : Nat) (d : ℤ) (h1 : s.pend = [(t, d, .sendAck)]) (h2 : s.state = .idle) (h3 : s.phyTx = none)
      (h4 : k < L.length)
  | last (t : Nat) (d : ℤ) (h1 : s.pend = [(t, d, .turn)]) (h2 : k = L.length) (h3 : s.state = .idle)

/-- Events still to come. -/
def toGo (s : St) : Nat := 2 * s.ackList.length + (if s.state = .tx then 2 else 1)

/-- Invariant of the drain of the list `L` that started in `s0`. -/
structure Drain (s0 : St) (L : List Frame) (s : St) : Prop where
  inv : AkInv s
  turns : turnsOf s.log = turnsOf s0.log
  ub : s.ub = s0.ub
  stage : ∃ k, k ≤ L.length ∧ acksSent s.log = acksSent s0.log ++ (L.take k).map ackKey ∧ s.ackList = L.drop k ∧ Stage L s k

theorem sendAck_ready (c : Cfg) (s : St) (a : Frame) (rest : List Frame) (hl : s.ackList = a :: rest) (hk : AkInv s)
    (hs : s.state = .idle ∨ s.state = .waitTx) (hp : s.phyTx = none) :
    (sendAck c s).log = s.log ++ [.handed s.now a] ∧ (sendAck c s).ackList = rest ∧ (sendAck c s).state = .tx ∧
      (sendAck c s).pktTx = some a ∧ (sendAck c s).ub = s.ub ∧
      (sendAck c s).pend = s.pend ++ [(s.nextTid, s.now + c.ctrlDur a.kind, .phyDone a)] := by
  have hn := hk.nodup
  unfold sendAck sendPacket
  rw [hl] at hn ⊢
  dsimp only
  rw [if_pos hs, hp]
  simp only [Option.isNone_none, if_true]
  refine ⟨rfl, ?_, rfl, rfl, rfl, rfl⟩
  show s.ackList.filter _ = rest
  rw [hl]
  exact filter_head a rest hn

theorem acksSent_ack (l : List Obs) (t : ℤ) (a : Frame) (h : a.kind = .ack) :
    acksSent (l ++ [.handed t a]) = acksSent l ++ [ackKey a] := by
  simp [acksSent, h, ackKey]

theorem Drain.start (c : Cfg) (s : St) (a : Frame) (rest : List Frame) (hl : s.ackList = a :: rest) (hk : AkInv s)
    (hs : s.state = .idle ∨ s.state = .waitTx) (hp : s.phyTx = none) (he : s.pend = []) :
    Drain s (a :: rest) (sendAck c s) := by
  obtain ⟨h1, h2, h3, h4, h5, h6⟩ := sendAck_ready c s a rest hl hk hs hp
  have ha : a.kind = .ack := hk.kinds a (by rw [hl]; simp)
  refine ⟨hk.sendAck c, ?_, h5, 1, by simp, ?_, by rw [h2]; rfl, ?_⟩
  · rw [h1]; simp [turnsOf]
  · rw [h1, acksSent_ack _ _ _ ha]; simp
  · exact .sending a _ _ (by rw [h6, he]; rfl) h3 h4 ha

/-- The antenna was turned when all ACKs had been sent. -/
theorem Drain.step (c : Cfg) (me : Mac48) {s0 s : St} {L : List Frame} (h : Drain s0 L s) (op : Op)
    (hop : (∃ t, op = .fire t) ∨ ∃ d, op = .advance d) :
    (Drain s0 L (step c me s op) ∧ (∀ t d e, op = .fire t → s.pend = [(t, d, e)] → toGo (step c me s op) < toGo s)) ∨
      (acksSent s.log = acksSent s0.log ++ L.map ackKey ∧ ∃ a, turnsOf (step c me s op).log = turnsOf s0.log ++ [a]) := by
  obtain ⟨k, hk, h1, h2, hst⟩ := h.stage
  have hinv := h.inv.step c me op
  rcases hop with ⟨tid, rfl⟩ | ⟨d, rfl⟩
  · show (Drain s0 L (fire c me tid s) ∧ (∀ t d e, Op.fire tid = .fire t → s.pend = [(t, d, e)] → toGo (fire c me tid s) < toGo s)) ∨
      (_ ∧ ∃ a, turnsOf (fire c me tid s).log = turnsOf s0.log ++ [a])
    have hinv' : AkInv (fire c me tid s) := hinv
    cases hst with
    | sending a t d e1 e2 e3 e4 =>
      by_cases htt : t = tid
      · subst htt
        have hf : fire c me t s = sendPacketDone c a { s with pend := [], now := max s.now d } := by
          unfold fire
          rw [e1]
          simp
        rw [hf] at hinv' ⊢
        unfold sendPacketDone at hinv' ⊢
        dsimp only at hinv' ⊢
        rw [if_neg (by
          rintro (x | x)
          · exact x e2
          · exact x e3)] at hinv' ⊢
        rw [e4] at hinv' ⊢
        dsimp only at hinv' ⊢
        have el : (({ s with pend := [], now := max s.now d, phyTx := none } : St).emit (.txEnd a)).ackList = s.ackList := rfl
        have lg : ∀ x : List Obs, x = s.log ++ [.txEnd a] → turnsOf x = turnsOf s0.log ∧
            acksSent x = acksSent s0.log ++ (L.take k).map ackKey := by
          intro x hx
          rw [hx]
          constructor
          · rw [← h.turns]; simp [turnsOf]
          · rw [← h1]; simp [acksSent]
        by_cases hemp : s.ackList = []
        · rw [if_pos (by rw [el]; exact hemp)] at hinv' ⊢
          have hkL : k = L.length := by
            rw [h2] at hemp
            have := List.drop_eq_nil_iff.1 hemp
            omega
          refine .inl ⟨⟨hinv', (lg _ rfl).1, h.ub, k, hk, (lg _ rfl).2, h2, .last s.nextTid _ rfl hkL rfl⟩, ?_⟩
          intro _ _ _ _ _
          unfold toGo
          rw [e2]
          show 2 * s.ackList.length + (if State.idle = .tx then 2 else 1) < _
          simp
        · rw [if_neg (by rw [el]; exact hemp)] at hinv' ⊢
          have hkL : k < L.length := by
            rcases Nat.lt_or_ge k L.length with x | x
            · exact x
            · rw [h2, List.drop_eq_nil_of_le x] at hemp
              exact absurd rfl hemp
          refine .inl ⟨⟨hinv', (lg _ rfl).1, h.ub, k, hk, (lg _ rfl).2, h2, .waiting s.nextTid _ rfl rfl rfl hkL⟩, ?_⟩
          intro _ _ _ _ _
          unfold toGo
          rw [e2]
          show 2 * s.ackList.length + (if State.idle = .tx then 2 else 1) < _
          simp
      · have hf : fire c me tid s = s := by
          unfold fire
          rw [e1]
          simp [htt]
        rw [hf]
        refine .inl ⟨h, ?_⟩
        intro t' d' e' q1 q2
        rw [e1] at q2
        injection q1 with q1
        simp only [List.cons.injEq, Prod.mk.injEq, and_true] at q2
        exact absurd (q2.1.trans q1.symm) htt
    | waiting t d e1 e2 e3 e4 =>
      by_cases htt : t = tid
      · subst htt
        have hf : fire c me t s = sendAck c { s with pend := [], now := max s.now d } := by
          unfold fire
          rw [e1]
          simp
        rw [hf]
        have hl : s.ackList = L[k] :: L.drop (k + 1) := by rw [h2]; exact List.drop_eq_getElem_cons e4
        have hk' : AkInv { s with pend := [], now := max s.now d } :=
          ⟨h.inv.order, h.inv.kinds, h.inv.ids, h.inv.nodup⟩
        obtain ⟨g1, g2, g3, g4, g5, g6⟩ := sendAck_ready c { s with pend := [], now := max s.now d } L[k] (L.drop (k + 1))
          hl hk' (.inl e2) e3
        have ha : L[k].kind = .ack := h.inv.kinds L[k] (by rw [hl]; exact List.mem_cons_self)
        refine .inl ⟨⟨hk'.sendAck c, ?_, g5.trans h.ub, k + 1, e4, ?_, g2, ?_⟩, ?_⟩
        · rw [g1]
          show turnsOf (s.log ++ [_]) = _
          rw [← h.turns]; simp [turnsOf]
        · rw [g1]
          show acksSent (s.log ++ [_]) = _
          rw [acksSent_ack _ _ _ ha, h1, List.take_add_one, List.getElem?_eq_getElem e4, List.map_append, List.append_assoc]
          rfl
        · exact .sending _ _ _ (by rw [g6]; rfl) g3 g4 ha
        · intro _ _ _ _ _
          have q2 := congrArg List.length g2
          have q3 := congrArg List.length hl
          simp only [List.length_cons] at q3
          unfold toGo
          rw [if_pos g3, if_neg (by rw [e2]; simp), q2]
          have q4 : s.ackList.length = (L.drop (k + 1)).length + 1 := q3
          omega
      · have hf : fire c me tid s = s := by
          unfold fire
          rw [e1]
          simp [htt]
        rw [hf]
        refine .inl ⟨h, ?_⟩
        intro t' d' e' q1 q2
        rw [e1] at q2
        injection q1 with q1
        simp only [List.cons.injEq, Prod.mk.injEq, and_true] at q2
        exact absurd (q2.1.trans q1.symm) htt
    | last t d e1 e2 e3 =>
      by_cases htt : t = tid
      · subst htt
        right
        refine ⟨by rw [h1, e2, List.take_length], ?_⟩
        have hf : fire c me t s = turn c me { s with pend := [], now := max s.now d } := by
          unfold fire
          rw [e1]
          simp
        obtain ⟨a, m, -, -, -, -, h3, -⟩ := turn_spec c me { s with pend := [], now := max s.now d }
        rw [hf, h3]
        exact ⟨_, by rw [← h.turns]⟩
      · have hf : fire c me tid s = s := by
          unfold fire
          rw [e1]
          simp [htt]
        rw [hf]
        refine .inl ⟨h, ?_⟩
        intro t' d' e' q1 q2
        rw [e1] at q2
        injection q1 with q1
        simp only [List.cons.injEq, Prod.mk.injEq, and_true] at q2
        exact absurd (q2.1.trans q1.symm) htt
  · left
    refine ⟨⟨hinv, h.turns, h.ub, k, hk, h1, h2, ?_⟩, by intro _ _ _ q; simp at q⟩
    cases hst with
    | sending a t d e1 e2 e3 e4 => exact .sending a t d e1 e2 e3 e4
    | waiting t d e1 e2 e3 e4 => exact .waiting t d e1 e2 e3 e4
    | last t d e1 e2 e3 => exact .last t d e1 e2 e3

/-- An operation that is not a reception. -/
def noRx : Op → Bool
  | .rxStart => false
  | .rxDone _ _ _ => false
  | _ => true

theorem acksSent_grew {l l' : List Obs} (h : l <+: l') : acksSent l <+: acksSent l' := by
  obtain ⟨x, rfl⟩ := h
  unfold acksSent
  rw [List.filterMap_append]
  exact List.prefix_append _ _

theorem turnsOf_grew {l l' : List Obs} (h : l <+: l') : turnsOf l <+: turnsOf l' := by
  obtain ⟨x, rfl⟩ := h
  unfold turnsOf
  rw [List.filterMap_append]
  exact List.prefix_append _ _

theorem Drain.run (c : Cfg) (me : Mac48) {s0 s : St} {L : List Frame} (h : Drain s0 L s) (ops : List Op)
    (hop : ops.all noRx = true) :
    Drain s0 L (run c me s ops) ∨ (acksSent s0.log ++ L.map ackKey <+: acksSent (run c me s ops).log ∧
      ∃ a, turnsOf s0.log ++ [a] <+: turnsOf (run c me s ops).log) := by
  induction ops generalizing s with
  | nil => exact .inl h
  | cons o rest ih =>
    simp only [List.all_cons, Bool.and_eq_true] at hop
    have ho : (∃ t, o = .fire t) ∨ ∃ d, o = .advance d := by
      cases o with
      | fire t => exact .inl ⟨t, rfl⟩
      | advance d => exact .inr ⟨d, rfl⟩
      | rxStart => simp [noRx] at hop
      | rxDone f ok p => simp [noRx] at hop
    rcases h.step c me o ho with h1 | ⟨h1, a, h2⟩
    · exact ih h1.1 hop.2
    · right
      refine ⟨?_, a, ?_⟩
      · rw [← h1]
        exact acksSent_grew (grew_run c me s (o :: rest))
      · rw [← h2]
        exact turnsOf_grew (grew_run c me (Ap.step c me s o) rest)

/-- The observable part of the invariant. -/
theorem Drain.obs {s0 s : St} {L : List Frame} (h : Drain s0 L s) :
    acksSent s.log <+: acksSent s0.log ++ L.map ackKey ∧ s.ub = s0.ub ∧ s.pend ≠ [] ∧ turnsOf s.log = turnsOf s0.log := by
  obtain ⟨k, hk, h1, h2, hst⟩ := h.stage
  refine ⟨?_, h.ub, ?_, h.turns⟩
  · rw [h1, List.prefix_append_right_inj]
    exact (List.take_prefix k L).map ackKey
  · cases hst with
    | sending a t d e1 => rw [e1]; simp
    | waiting t d e1 => rw [e1]; simp
    | last t d e1 => rw [e1]; simp

/-- The drain finishes by its own events. -/
theorem Drain.finish (c : Cfg) (me : Mac48) (n : Nat) {s0 s : St} {L : List Frame} (h : Drain s0 L s) (hn : toGo s ≤ n) :
    ∃ ops, ops.all noRx = true ∧ ops.length ≤ n ∧ ∃ a, turnsOf (Ap.run c me s ops).log = turnsOf s0.log ++ [a] := by
  induction n generalizing s with
  | zero =>
    unfold toGo at hn
    split at hn <;> omega
  | succ n ih =>
    have hp : ∃ t d e, s.pend = [(t, d, e)] := by
      obtain ⟨k, -, -, -, hst⟩ := h.stage
      cases hst with
      | sending a t d e1 => exact ⟨_, _, _, e1⟩
      | waiting t d e1 => exact ⟨_, _, _, e1⟩
      | last t d e1 => exact ⟨_, _, _, e1⟩
    obtain ⟨t, d, e, he⟩ := hp
    rcases h.step c me (.fire t) (.inl ⟨t, rfl⟩) with ⟨h1, h2⟩ | ⟨-, a, h2⟩
    · have := h2 t d e rfl he
      obtain ⟨ops, o1, o2, o3⟩ := ih h1 (by omega)
      exact ⟨.fire t :: ops, by simpa [noRx] using o1, by simpa using o2, o3⟩
    · exact ⟨[.fire t], rfl, by simp, a, h2⟩

/-- What is claimed about a drain of `L` that started in `s0`, seen after some operations. -/
def DrainOk (s0 s' : St) (L : List Frame) : Prop :=
  (turnsOf s'.log = turnsOf s0.log → acksSent s'.log <+: acksSent s0.log ++ L.map ackKey ∧ s'.ub = s0.ub ∧ s'.pend ≠ []) ∧
    (turnsOf s'.log ≠ turnsOf s0.log → acksSent s0.log ++ L.map ackKey <+: acksSent s'.log)

theorem Drain.ok (c : Cfg) (me : Mac48) {s0 s : St} {L : List Frame} (h : Drain s0 L s) (ops : List Op)
    (hop : ops.all noRx = true) : DrainOk s0 (Ap.run c me s ops) L := by
  rcases h.run c me ops hop with h1 | ⟨h1, a, h2⟩
  · obtain ⟨a1, a2, a3, a4⟩ := h1.obs
    exact ⟨fun _ => ⟨a1, a2, a3⟩, fun hne => absurd a4 hne⟩
  · refine ⟨fun he => ?_, fun _ => h1⟩
    exfalso
    rw [he] at h2
    have := h2.length_le
    simp at this

/-- When the data window ends with nothing else pending and no reception disturbs the ACKs: they are sent one by
one, in order; until all are out the access point does not turn, reads no empty list, and something is pending
that continues; when it turns, all have been sent; and its own events lead there. -/
theorem C40_drain_partial (c : Cfg) (me : Mac48) (before : List Op) (s : St) (hs : s = after c me before)
    (hl : s.ackList ≠ []) (hst : s.state = .idle ∨ s.state = .waitTx) (hp : s.phyTx = none) (t : Nat) (d : ℤ)
    (he : s.pend = [(t, d, .sectorTimeout)]) :
    (∀ ops, ops.all noRx = true → DrainOk s (run c me s (.fire t :: ops)) s.ackList) ∧
      ∃ ops, ops.all noRx = true ∧ turnsOf (run c me s (.fire t :: ops)).log ≠ turnsOf s.log := by
  have hk : AkInv s := by rw [hs]; exact AkInv.after c me before
  have hk0 : AkInv { s with pend := [], now := max s.now d } := ⟨hk.order, hk.kinds, hk.ids, hk.nodup⟩
  have hstep : step c me s (.fire t) = sendAck c { s with pend := [], now := max s.now d } := by
    show fire c me t s = _
    unfold fire
    rw [he]
    simp [sectorTimeout, hl]
  cases hL : s.ackList with
  | nil => exact absurd hL hl
  | cons a rest =>
    have h0 := Drain.start c { s with pend := [], now := max s.now d } a rest hL hk0 hst hp rfl
    rw [← hstep] at h0
    have h1 : Drain s (a :: rest) (step c me s (.fire t)) := ⟨h0.inv, h0.turns, h0.ub, h0.stage⟩
    refine ⟨fun ops hop => h1.ok c me ops hop, ?_⟩
    obtain ⟨ops, o1, -, x, o3⟩ := h1.finish c me (toGo (step c me s (.fire t))) le_rfl
    refine ⟨ops, o1, ?_⟩
    show turnsOf (run c me (step c me s (.fire t)) ops).log ≠ _
    rw [o3]
    intro h
    have := congrArg List.length h
    simp at this

/-- The same when the last expected data frame arrives before the window ends. -/
theorem C40_complete_partial (c : Cfg) (hw : c.ways = 3) (me : Mac48) (before : List Op) (s : St)
    (hs : s = after c me before) (hp : s.phyTx = none) (t : Nat) (d : ℤ) (he : s.pend = [(t, d, .sectorTimeout)])
    (hse : s.sectorEv = some t) (f : Frame) (p : ℚ) (hf : f.kind = .data)
    (hx : s.expected.toNat = s.ackList.length + 1) :
    ∃ ack : Frame, ack.dst = f.src ∧ ack.seq = f.seq ∧
      (∀ ops, ops.all noRx = true → DrainOk s (run c me s (.rxDone f true p :: ops)) (s.ackList ++ [ack])) ∧
      ∃ ops, ops.all noRx = true ∧ turnsOf (run c me s (.rxDone f true p :: ops)).log ≠ turnsOf s.log := by
  have hk : AkInv s := by rw [hs]; exact AkInv.after c me before
  set s1 : St := { s with
    state := .waitTx, ackList := s.ackList ++ [ackFrame me s.nextId f], nextId := s.nextId + 1, pend := [],
    log := s.log ++ [.rx f p] } with hs1
  have hk1 : AkInv s1 := by
    refine ⟨?_, ?_, ?_, ?_⟩
    · show ackTries (s.log ++ [.rx f p]) ++ (s.ackList ++ [ackFrame me s.nextId f]).map _ = dataOf (s.log ++ [.rx f p])
      have e1 : ackTries (s.log ++ [.rx f p]) = ackTries s.log := by simp [ackTries, ackTry]
      have e2 : dataOf (s.log ++ [.rx f p]) = dataOf s.log ++ [(f.src, f.seq)] := by simp [dataOf, hf]
      rw [e1, e2, ← hk.order]
      simp [ackFrame]
    · intro a ha
      rcases List.mem_append.1 ha with ha | ha
      · exact hk.kinds a ha
      · rw [List.mem_singleton.1 ha]; rfl
    · intro a ha
      rcases List.mem_append.1 ha with ha | ha
      · exact Nat.lt_succ_of_lt (hk.ids a ha)
      · rw [List.mem_singleton.1 ha]; exact Nat.lt_succ_self _
    · show ((s.ackList ++ [ackFrame me s.nextId f]).map _).Nodup
      rw [List.map_append, List.nodup_append]
      refine ⟨hk.nodup, by simp, ?_⟩
      intro x hx y hy
      obtain ⟨a, ha, rfl⟩ := List.mem_map.1 hx
      simp only [List.map_cons, List.map_nil, List.mem_singleton] at hy
      rw [hy]
      exact ne_of_lt (hk.ids a ha)
  have hstep : step c me s (.rxDone f true p) = forwardIfNew f (sendAck c s1) := by
    show receivePacketDone c me f true p s = _
    unfold receivePacketDone
    dsimp only
    simp only [Bool.not_true, Bool.false_eq_true, if_false, hf]
    unfold receiveData
    dsimp only
    rw [if_pos (.inl (by
      show s.expected.toNat = (s.ackList ++ [_]).length
      rw [hx]; simp))]
    have key : ∀ u : St, u.sectorEv = some t → u.pend = [(t, d, .sectorTimeout)] →
        ({ u.cancel u.sectorEv with state := .waitTx } : St) = { u with pend := [], state := .waitTx } := by
      intro u h1 h2
      conv_lhs => rw [h1]
      unfold St.cancel
      rw [h2]
      simp
    exact congrArg (fun u => forwardIfNew f (sendAck c u)) ((key { s with
      state := .idle, ackList := s.ackList ++ [ackFrame me s.nextId f], nextId := s.nextId + 1,
      log := s.log ++ [.rx f p] } hse he).trans rfl)
  have hL : ∃ a rest, s1.ackList = a :: rest := by
    cases hh : s1.ackList with
    | nil => exact absurd hh (by show s.ackList ++ [_] ≠ []; simp)
    | cons a rest => exact ⟨a, rest, rfl⟩
  obtain ⟨a, rest, hL⟩ := hL
  have h0 := Drain.start c s1 a rest hL hk1 (.inr rfl) hp rfl
  have h1 : Drain s (a :: rest) (step c me s (.rxDone f true p)) := by
    rw [hstep]
    have e1 : acksSent s1.log = acksSent s.log := by
      show acksSent (s.log ++ [_]) = _
      simp [acksSent]
    have e2 : turnsOf s1.log = turnsOf s.log := by
      show turnsOf (s.log ++ [_]) = _
      simp [turnsOf]
    obtain ⟨k, k1, k2, k3, k4⟩ := h0.stage
    have hfw : ∀ u : St, acksSent (forwardIfNew f u).log = acksSent u.log ∧ turnsOf (forwardIfNew f u).log = turnsOf u.log := by
      intro u
      unfold forwardIfNew
      dsimp only
      split
      · constructor
        · show acksSent (u.log ++ [_]) = _
          simp [acksSent]
        · show turnsOf (u.log ++ [_]) = _
          simp [turnsOf]
      · exact ⟨rfl, rfl⟩
    have hco := forward_core f (sendAck c s1)
    have c1 : (forwardIfNew f (sendAck c s1)).state = (sendAck c s1).state := congrArg (fun x => x.1) hco
    have c4 : (forwardIfNew f (sendAck c s1)).pktTx = (sendAck c s1).pktTx := congrArg (fun x => x.2.2.2.1) hco
    have c5 : (forwardIfNew f (sendAck c s1)).phyTx = (sendAck c s1).phyTx := congrArg (fun x => x.2.2.2.2.1) hco
    have c6 : (forwardIfNew f (sendAck c s1)).ackList = (sendAck c s1).ackList := congrArg (fun x => x.2.2.2.2.2.1) hco
    have c7 : (forwardIfNew f (sendAck c s1)).ub = (sendAck c s1).ub := congrArg (fun x => x.2.2.2.2.2.2.1) hco
    have c9 : (forwardIfNew f (sendAck c s1)).pend = (sendAck c s1).pend := congrArg (fun x => x.2.2.2.2.2.2.2.2) hco
    refine ⟨h0.inv.ak (ak_forward f _), ?_, ?_, k, k1, ?_, ?_, ?_⟩
    · rw [(hfw _).2, h0.turns, e2]
    · rw [c7, h0.ub]
    · rw [(hfw _).1, k2, e1]
    · rw [c6, k3]
    · cases k4 with
      | sending a t d q1 q2 q3 q4 => exact .sending a t d (c9.trans q1) (c1.trans q2) (c4.trans q3) q4
      | waiting t d q1 q2 q3 q4 => exact .waiting t d (c9.trans q1) (c1.trans q2) (c5.trans q3) q4
      | last t d q1 q2 q3 => exact .last t d (c9.trans q1) q2 (c1.trans q3)
  refine ⟨ackFrame me s.nextId f, rfl, rfl, ?_, ?_⟩
  · intro ops hop
    have := h1.ok c me ops hop
    rw [← hL] at this
    exact this
  · obtain ⟨ops, o1, -, x, o3⟩ := h1.finish c me _ le_rfl
    refine ⟨ops, o1, ?_⟩
    show turnsOf (run c me (step c me s (.rxDone f true p)) ops).log ≠ _
    rw [o3]
    intro h
    have := congrArg List.length h
    simp at this

/-- The first data frame has arrived and its window is about to end. -/
def drainRun : List Op :=
  openRun [(1, -30), (2, -30)] ++ [.fire 1, .fire 3, .fire 6, .fire 4, .fire 7,
    .advance 67712, .rxStart, .advance 380450, .rxDone (exData 1) true (-30)]

example : let s := after (exCfg 3) exAp drainRun
    s.ackList.length = 1 ∧ s.state = .idle ∧ s.phyTx = none ∧ s.pend = [(5, 1793880, .sectorTimeout)] ∧
      s.sectorEv = some 5 ∧ s.expected.toNat = s.ackList.length + 1 := by
  decide +kernel

end Thz.Ap
