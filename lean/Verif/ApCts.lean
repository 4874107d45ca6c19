import Verif.ApRec

/-!
# C34: the CTSs are sent

After a window closes and as long as nothing is received, the scheduled CTSs go out one after the other at
their times.
-/

namespace Thz.Ap

open Thz Thz.Central
open Thz.Nano (Body Kind bcast)
open scoped List

/-! ## Time does not go back -/

theorem now_sendPacket (c : Cfg) (f : Frame) (s : St) : (sendPacket c f s).now = s.now := by
  unfold sendPacket
  split
  · split <;> rfl
  · rfl

theorem now_wrapDown (n : Nat) (s : St) : (wrapDown n s).now = s.now := by
  induction n generalizing s with
  | zero => rfl
  | succ n ih =>
    unfold wrapDown
    split
    · rw [ih]; rfl
    · rfl

theorem now_turn (c : Cfg) (me : Mac48) (s : St) : (turn c me s).now = s.now := by
  unfold turn
  dsimp only
  have h := now_wrapDown (rounds (wrapUp (rounds (s.angle + c.beamwidth)) (s.angle + c.beamwidth)))
    { s with angle := wrapUp (rounds (s.angle + c.beamwidth)) (s.angle + c.beamwidth) }
  generalize wrapDown (rounds (wrapUp (rounds (s.angle + c.beamwidth)) (s.angle + c.beamwidth)))
    { s with angle := wrapUp (rounds (s.angle + c.beamwidth)) (s.angle + c.beamwidth) } = s1 at h ⊢
  split
  · exact (now_sendPacket c _ _).trans h
  · exact (now_sendPacket c _ _).trans h

theorem now_sendAck (c : Cfg) (s : St) : (sendAck c s).now = s.now := by
  unfold sendAck
  split
  · rfl
  · exact now_sendPacket c _ s

theorem now_assign (c : Cfg) (i : Nat) (nm : List (Mac48 × List (ℚ × ℚ))) (s : St) : (assign c i nm s).now = s.now := by
  induction nm generalizing i s with
  | nil => rfl
  | cons e rest ih =>
    unfold assign
    dsimp only
    rw [ih]; rfl

theorem now_cancel (s : St) (o : Option Nat) : (s.cancel o).now = s.now := by cases o <;> rfl

theorem now_step (c : Cfg) (me : Mac48) (s : St) (o : Op) : s.now ≤ (step c me s o).now := by
  cases o with
  | advance d =>
    show s.now ≤ s.now + d
    omega
  | rxStart =>
    show s.now ≤ (receivePacket s).now
    unfold receivePacket
    dsimp only
    split <;> exact le_of_eq (now_cancel _ _).symm
  | rxDone f ok p =>
    show s.now ≤ (receivePacketDone c me f ok p s).now
    unfold receivePacketDone
    dsimp only
    split
    · exact le_rfl
    · split
      · exact le_rfl
      · unfold receiveData
        dsimp only
        have fw : ∀ u : St, (forwardIfNew f u).now = u.now := by
          intro u
          unfold forwardIfNew
          dsimp only
          split <;> rfl
        rw [fw]
        split
        · rw [now_sendAck]
          exact le_of_eq (now_cancel { s with
            state := .idle, ackList := s.ackList ++ [ackFrame me s.nextId f], nextId := s.nextId + 1,
            log := s.log ++ [.rx f p] } _).symm
        · exact le_rfl
      · exact le_rfl
  | fire tid =>
    show s.now ≤ (fire c me tid s).now
    unfold fire
    split
    · exact le_rfl
    · rename_i due e _
      dsimp only
      have e0 : s.now ≤ ({ s with pend := s.pend.filter (fun e => e.1 ≠ tid), now := max s.now due } : St).now :=
        le_max_left _ _
      refine le_trans e0 (le_of_eq ?_)
      generalize ({ s with pend := s.pend.filter (fun e => e.1 ≠ tid), now := max s.now due } : St) = s0
      symm
      cases e with
      | turn => exact now_turn c me s0
      | dataTimeout => exact (now_turn c me _).trans (now_cancel _ _)
      | waitTime =>
        show (waitTimeExpired c me s0).now = _
        unfold waitTimeExpired
        dsimp only
        split
        · exact now_turn c me _
        · split
          · split
            · unfold initNodeMap
              dsimp only
              exact now_assign c 0 _ _
            · exact now_turn c me _
          · exact (answer_keep c 0 _ _ (s0.emit .closed)).2.1
      | sectorTimeout =>
        show (sectorTimeout c me s0).now = _
        unfold sectorTimeout
        split
        · exact now_sendAck c s0
        · exact now_turn c me s0
      | sendCts d q t g => exact now_sendPacket c _ { s0 with nextId := s0.nextId + 1 }
      | sendAck => exact now_sendAck c s0
      | feedback a d => exact now_sendPacket c _ { s0 with nextId := s0.nextId + 1 }
      | phyDone f =>
        show (sendPacketDone c f s0).now = _
        unfold sendPacketDone
        dsimp only
        split
        · rfl
        · split
          · split <;> rfl
          · rfl

theorem now_run (c : Cfg) (me : Mac48) (s : St) (ops : List Op) : s.now ≤ (run c me s ops).now := by
  induction ops generalizing s with
  | nil => exact le_rfl
  | cons o rest ih => exact le_trans (now_step c me s o) (ih _)

/-! ## The plan -/

/-- CTSs handed to the PHY: time, addressee and sequence number. -/
def ctsSent (log : List Obs) : List (ℤ × Mac48 × UInt16) :=
  log.filterMap fun | .handed t f => if f.kind = .cts then some (t, f.dst, f.seq) else none | _ => none

/-- What should be sent for a list of RTSs when the window closes at `t0`. -/
def ctsPlan (c : Cfg) (t0 : ℤ) (l : List (Frame × ℚ)) : List (ℤ × Mac48 × UInt16) :=
  l.mapIdx (fun j r => (t0 + (c.ctrlDur .cts + c.ps 1) * j, r.1.src, r.1.seq))

/-- The plan entry of a pending event. -/
def planOf : Nat × ℤ × Ev → Option (ℤ × Mac48 × UInt16)
  | (_, due, .sendCts d q _ _) => some (due, d, q)
  | _ => none

/-- The PHY's part of the invariant. -/
inductive CtsTail (s : St) (R : List (Nat × ℤ × Ev)) : List (Nat × ℤ × Ev) → Prop
  | free (h1 : s.state = .idle) (h2 : s.phyTx = none) : CtsTail s R []
  | busy (t : Nat) (d : ℤ) (f : Frame) (h1 : s.state = .tx) (h2 : s.pktTx = some f) (h3 : f.kind = .cts)
      (h4 : ∀ e ∈ R, d < e.2.1) : CtsTail s R [(t, d, .phyDone f)]

/-- The invariant while CTSs are being sent: `H` was sent before, `E` is the plan, the event number `ts` ends the
window at `ds`. -/
structure Cts (c : Cfg) (H E : List (ℤ × Mac48 × UInt16)) (ts : Nat) (ds : ℤ) (s : St) : Prop where
  shape : ∃ R tl, s.pend = R ++ [(ts, ds, .sectorTimeout)] ++ tl ∧ CtsTail s (R ++ [(ts, ds, .sectorTimeout)]) tl ∧
    (∀ e ∈ R, (planOf e).isSome) ∧ ctsSent s.log ++ R.filterMap planOf = H ++ E ∧
    (R ++ [(ts, ds, .sectorTimeout)]).Pairwise (fun e e' => e.2.1 + c.ctrlDur .cts < e'.2.1)
  nodup : (s.pend.map (·.1)).Nodup
  tids : ∀ e ∈ s.pend, e.1 < s.nextTid
  time : ∀ e ∈ s.pend, s.now ≤ e.2.1

theorem filter_tid {l1 l2 : List (Nat × ℤ × Ev)} {e : Nat × ℤ × Ev} (h : ((l1 ++ e :: l2).map (·.1)).Nodup) :
    (l1 ++ e :: l2).filter (fun x => x.1 ≠ e.1) = l1 ++ l2 := by
  rw [List.map_append, List.map_cons, List.nodup_append, List.nodup_cons] at h
  obtain ⟨-, ⟨h2, -⟩, h3⟩ := h
  rw [List.filter_append, List.filter_cons_of_neg (by simp)]
  congr 1
  · rw [List.filter_eq_self]
    intro x hx
    simpa using h3 x.1 (List.mem_map.2 ⟨x, hx, rfl⟩) e.1 List.mem_cons_self
  · rw [List.filter_eq_self]
    intro x hx
    have : x.1 ≠ e.1 := fun q => h2 (q ▸ List.mem_map.2 ⟨x, hx, rfl⟩)
    simpa using this

theorem ctsSent_skip (l : List Obs) (o : Obs) (h : ∀ t f, o ≠ .handed t f) : ctsSent (l ++ [o]) = ctsSent l := by
  unfold ctsSent
  rw [List.filterMap_append]
  cases o <;> first | (simp; done) | exact absurd rfl (h _ _)

theorem Cts.step {c : Cfg} {H E : List (ℤ × Mac48 × UInt16)} {ts : Nat} {ds : ℤ} {s : St} (me : Mac48)
    (hc : 0 ≤ c.ctrlDur .cts) (h : Cts c H E ts ds s) (o : Op) (ho : noRx o = true) (ht : timelyOp s o = true) :
    Cts c H E ts ds (step c me s o) ∨ (ctsSent s.log = H ++ E ∧ ds ≤ (step c me s o).now) := by
  obtain ⟨R, tl, hp, htl, hR, hE, hsep⟩ := h.shape
  cases o with
  | rxStart => simp [noRx] at ho
  | rxDone f ok p => simp [noRx] at ho
  | advance d =>
    left
    refine ⟨⟨R, tl, hp, ?_, hR, hE, hsep⟩, h.nodup, h.tids, ?_⟩
    · cases htl with
      | free h1 h2 => exact .free h1 h2
      | busy t d f h1 h2 h3 h4 => exact .busy t d f h1 h2 h3 h4
    · intro e he
      have := List.all_eq_true.1 ht e he
      show s.now + d ≤ e.2.1
      simpa using this
  | fire tid =>
    show Cts c H E ts ds (fire c me tid s) ∨ (_ ∧ ds ≤ (fire c me tid s).now)
    cases hf : s.pend.find? (fun e => e.1 = tid) with
    | none =>
      left
      unfold fire
      rw [hf]
      exact h
    | some e =>
      have hmem := List.mem_of_find?_eq_some hf
      have htid : e.1 = tid := by simpa using List.find?_some hf
      have hmin : ∀ e' ∈ s.pend, e.2.1 ≤ e'.2.1 := by
        intro e' he'
        have h1 := List.all_eq_true.1 ht e hmem
        have h2 := List.all_eq_true.1 h1 e' he'
        simpa [htid] using h2
      have hnow : max s.now e.2.1 = e.2.1 := max_eq_right (h.time e hmem)
      have hfire : fire c me tid s = (match e.2.2 with
          | .turn => turn c me
          | .dataTimeout => dataTimeout c me
          | .waitTime => waitTimeExpired c me
          | .sectorTimeout => sectorTimeout c me
          | .sendCts d q t g => sendCts c me d q t g
          | .sendAck => sendAck c
          | .feedback a d => feedback c me a d
          | .phyDone f => sendPacketDone c f)
          { s with pend := s.pend.filter (fun x => x.1 ≠ e.1), now := e.2.1 } := by
        unfold fire
        rw [hf]
        obtain ⟨e1, e2, e3⟩ := e
        dsimp only at hnow htid ⊢
        rw [hnow, htid]
        cases e3 <;> rfl
      have hsub : ∀ P : List (Nat × ℤ × Ev), P = s.pend.filter (fun x => x.1 ≠ e.1) → (P.map (·.1)).Nodup ∧
          (∀ x ∈ P, x.1 < s.nextTid) ∧ ∀ x ∈ P, e.2.1 ≤ x.2.1 := by
        rintro P rfl
        refine ⟨(List.Sublist.map _ List.filter_sublist).nodup h.nodup, ?_, ?_⟩
        · intro x hx; exact h.tids x (List.mem_filter.1 hx).1
        · intro x hx; exact hmin x (List.mem_filter.1 hx).1
      rw [hfire]
      rw [hp] at hmem
      rcases List.mem_append.1 hmem with hmem' | hmem'
      · cases htl with
        | busy t d f h1 h2 h3 h4 =>
          exfalso
          have a1 := h4 e hmem'
          have a2 := hmin (t, d, .phyDone f) (by rw [hp]; simp)
          dsimp only at a2
          omega
        | free h1 h2 =>
          rw [List.append_nil] at hp
          cases R with
          | nil =>
            right
            simp only [List.nil_append, List.mem_singleton] at hmem'
            subst hmem'
            simp only [List.filterMap_nil, List.append_nil] at hE
            refine ⟨hE, ?_⟩
            show ds ≤ (sectorTimeout c me _).now
            unfold sectorTimeout
            split
            · rw [now_sendAck]
            · rw [now_turn]
          | cons r R' =>
            left
            have hsep' := List.pairwise_cons.1 hsep
            have her : e = r := by
              rcases List.mem_cons.1 hmem' with h3 | h3
              · exact h3
              · exfalso
                have a1 := hsep'.1 e h3
                have a2 := hmin r (by rw [hp]; simp)
                omega
            subst her
            have hP : s.pend.filter (fun x => x.1 ≠ e.1) = R' ++ [(ts, ds, .sectorTimeout)] := by
              rw [hp]
              have := filter_tid (l1 := []) (e := e) (l2 := R' ++ [(ts, ds, .sectorTimeout)]) (by
                have := h.nodup
                rw [hp] at this
                exact this)
              exact this
            obtain ⟨q1, q2, q3⟩ := hsub _ rfl
            have hpl := hR e List.mem_cons_self
            obtain ⟨e1, e2, e3⟩ := e
            cases e3 with
            | sendCts dd qq ww gg =>
              show Cts c H E ts ds (sendCts c me dd qq ww gg _)
              unfold sendCts sendPacket
              rw [if_pos (.inl h1), if_pos (by show s.phyTx.isNone; rw [h2]; rfl)]
              refine ⟨⟨R', [(s.nextTid, e2 + c.ctrlDur .cts, .phyDone (ctsFrame c me dd s.nextId qq ww gg))], ?_, ?_, ?_, ?_,
                hsep'.2⟩, ?_, ?_, ?_⟩
              · show s.pend.filter _ ++ [_] = _
                rw [hP]
                rfl
              · exact .busy _ _ _ rfl rfl rfl hsep'.1
              · intro x hx; exact hR x (List.mem_cons_of_mem _ hx)
              · show ctsSent (s.log ++ [.handed e2 (ctsFrame c me dd s.nextId qq ww gg)]) ++ _ = _
                rw [← hE]
                simp [ctsSent, ctsFrame, planOf]
              · show ((s.pend.filter _ ++ [_]).map _).Nodup
                rw [List.map_append, List.nodup_append]
                refine ⟨q1, by simp, ?_⟩
                intro a ha b hb
                obtain ⟨x, hx, rfl⟩ := List.mem_map.1 ha
                simp only [List.map_cons, List.map_nil, List.mem_singleton] at hb
                subst hb
                exact ne_of_lt (q2 x hx)
              · intro x hx
                show x.1 < s.nextTid + 1
                rcases List.mem_append.1 hx with hx | hx
                · exact Nat.lt_succ_of_lt (q2 x hx)
                · rw [List.mem_singleton.1 hx]; exact Nat.lt_succ_self _
              · intro x hx
                show e2 ≤ x.2.1
                rcases List.mem_append.1 hx with hx | hx
                · exact q3 x hx
                · rw [List.mem_singleton.1 hx]
                  show e2 ≤ e2 + c.ctrlDur .cts
                  omega
            | _ => simp [planOf] at hpl
      · cases htl with
        | free h1 h2 => simp at hmem'
        | busy t d f h1 h2 h3 h4 =>
          left
          rw [List.mem_singleton] at hmem'
          subst hmem'
          have hP : s.pend.filter (fun x => x.1 ≠ t) = R ++ [(ts, ds, .sectorTimeout)] := by
            rw [hp]
            have := filter_tid (l1 := R ++ [(ts, ds, .sectorTimeout)]) (e := (t, d, .phyDone f)) (l2 := []) (by
              have := h.nodup
              rw [hp] at this
              exact this)
            rw [List.append_nil] at this
            exact this
          obtain ⟨q1, q2, q3⟩ := hsub _ rfl
          show Cts c H E ts ds (sendPacketDone c f _)
          unfold sendPacketDone
          dsimp only
          rw [if_neg (by
            rintro (x | x)
            · exact x h1
            · exact x h2)]
          rw [h3]
          refine ⟨⟨R, [], ?_, .free rfl rfl, hR, ?_, hsep⟩, q1, q2, q3⟩
          · show s.pend.filter _ = _
            rw [List.append_nil]
            exact hP
          · show ctsSent (s.log ++ [_]) ++ _ = _
            rw [ctsSent_skip _ _ (by simp)]
            exact hE

theorem ctsSent_grew {l l' : List Obs} (h : l <+: l') : ctsSent l <+: ctsSent l' := by
  obtain ⟨x, rfl⟩ := h
  unfold ctsSent
  rw [List.filterMap_append]
  exact List.prefix_append _ _

theorem Cts.run {c : Cfg} {H E : List (ℤ × Mac48 × UInt16)} {ts : Nat} {ds : ℤ} {s : St} (me : Mac48)
    (hc : 0 ≤ c.ctrlDur .cts) (h : Cts c H E ts ds s) (ops : List Op) (ho : ops.all noRx = true)
    (ht : timely c me s ops = true) :
    Cts c H E ts ds (run c me s ops) ∨ (H ++ E <+: ctsSent (run c me s ops).log ∧ ds ≤ (run c me s ops).now) := by
  induction ops generalizing s with
  | nil => exact .inl h
  | cons o rest ih =>
    simp only [List.all_cons, Bool.and_eq_true] at ho
    simp only [timely, Bool.and_eq_true] at ht
    rcases h.step me hc o ho.1 ht.1 with h1 | ⟨h1, h2⟩
    · exact ih h1 ho.2 ht.2
    · right
      refine ⟨?_, le_trans h2 (now_run c me _ rest)⟩
      rw [← h1]
      exact ctsSent_grew (grew_run c me s (o :: rest))

/-- `waitTimeExpired` with RTSs starts the sending. -/
theorem Cts.start (c : Cfg) (me : Mac48) (s : St) (hl : s.rtsList ≠ []) (hr : s.recording = false)
    (hp : s.pend = []) (hst : s.state = .idle) (hphy : s.phyTx = none) (hc : 0 ≤ c.ctrlDur .cts) (hps : 1 ≤ c.ps 1)
    (hn : s.rtsList.length < 65536) (h1 : 0 ≤ c.tProp) (h2 : 0 ≤ c.sifs)
    (h3 : c.ps 1 ≤ c.tData + c.maxBo + c.ctrlDur .ack) :
    Cts c (ctsSent s.log) (ctsPlan c s.now s.rtsList) (s.nextTid + s.rtsList.length)
      (s.now + c.sectorTime (UInt16.ofNat s.rtsList.length)) (waitTimeExpired c me s) := by
  have hpe := close_pend c me s hl hr
  rw [hp, List.nil_append] at hpe
  have hkeep : (waitTimeExpired c me s).state = .idle ∧ (waitTimeExpired c me s).phyTx = none ∧
      (waitTimeExpired c me s).now = s.now ∧ (waitTimeExpired c me s).nextTid = s.nextTid + s.rtsList.length + 1 ∧
      (waitTimeExpired c me s).log = s.log ++ [.closed] := by
    unfold waitTimeExpired
    dsimp only
    rw [if_neg (show (s.emit .closed).rtsList ≠ [] from hl),
      if_neg (by rw [show (s.emit .closed).recording = s.recording from rfl, hr]; simp)]
    obtain ⟨k1, k2, k3, k4, k5, -⟩ := answer_keep c 0 ((s.emit .closed).rtsList.length * c.ctrlDur .cts)
      (s.emit .closed).rtsList (s.emit .closed)
    exact ⟨k3.trans hst, k4.trans hphy, k2, congrArg (· + 1) k1, k5⟩
  obtain ⟨k1, k2, k3, k4, k5⟩ := hkeep
  have hsec : ∀ j : ℕ, j < s.rtsList.length → s.now + (c.ctrlDur .cts + c.ps 1) * j + c.ctrlDur .cts <
      s.now + c.sectorTime (UInt16.ofNat s.rtsList.length) := by
    intro j hj
    unfold Cfg.sectorTime
    have e1 : (UInt16.ofNat s.rtsList.length).toNat = s.rtsList.length := by
      rw [UInt16.toNat_ofNat']
      exact Nat.mod_eq_of_lt hn
    rw [e1]
    have hj' : (j : ℤ) + 1 ≤ (s.rtsList.length : ℤ) := by exact_mod_cast hj
    have hn0 : (0 : ℤ) ≤ s.rtsList.length := by omega
    have a1 : (c.ctrlDur .cts + c.ps 1) * ((j : ℤ) + 1) ≤ (c.ctrlDur .cts + c.ps 1) * s.rtsList.length := by
      apply mul_le_mul_of_nonneg_left hj'
      omega
    have a2 : (c.ctrlDur .cts + c.ps 1) * s.rtsList.length ≤
        (c.ctrlDur .cts + c.tData + c.maxBo + c.ctrlDur .ack) * s.rtsList.length := by
      apply mul_le_mul_of_nonneg_right _ hn0
      omega
    have a3 : (c.ctrlDur .cts + c.ps 1) * ((j : ℤ) + 1) = (c.ctrlDur .cts + c.ps 1) * j + (c.ctrlDur .cts + c.ps 1) := by ring
    omega
  refine ⟨⟨s.rtsList.mapIdx (fun j r => ctsEv c s.nextTid s.now s.rtsList j r), [], ?_, .free k1 k2, ?_, ?_, ?_⟩, ?_, ?_, ?_⟩
  · rw [hpe, List.append_nil]
  · intro e he
    obtain ⟨j, hj, rfl⟩ := List.mem_mapIdx.1 he
    rfl
  · rw [k5, ctsSent_skip _ _ (by simp)]
    congr 1
    unfold ctsPlan
    apply List.ext_getElem?
    intro i
    have : (s.rtsList.mapIdx (fun j r => ctsEv c s.nextTid s.now s.rtsList j r)).filterMap planOf =
        (s.rtsList.mapIdx (fun j r => ctsEv c s.nextTid s.now s.rtsList j r)).map
          (fun e => (planOf e).getD (0, exAp, 0)) := by
      have gen : ∀ L : List (Nat × ℤ × Ev), (∀ e ∈ L, (planOf e).isSome) →
          L.filterMap planOf = L.map (fun e => (planOf e).getD (0, exAp, 0)) := by
        intro L
        induction L with
        | nil => intro _; rfl
        | cons x rest ih =>
          intro hx
          obtain ⟨y, hy⟩ := Option.isSome_iff_exists.1 (hx x List.mem_cons_self)
          rw [List.filterMap_cons, hy, ih (fun e he => hx e (List.mem_cons_of_mem _ he))]
          simp [hy]
      apply gen
      intro e he
      obtain ⟨j, hj, rfl⟩ := List.mem_mapIdx.1 he
      rfl
    rw [this]
    simp only [List.getElem?_map, List.getElem?_mapIdx, Option.map_map]
    rfl
  · rw [List.pairwise_append]
    refine ⟨?_, by simp, ?_⟩
    · rw [List.pairwise_iff_getElem]
      intro i j hi hj hij
      simp only [List.getElem_mapIdx]
      unfold ctsEv
      dsimp only
      have : (i : ℤ) + 1 ≤ j := by exact_mod_cast hij
      nlinarith
    · intro e he x hx
      rw [List.mem_singleton.1 hx]
      obtain ⟨j, hj, rfl⟩ := List.mem_mapIdx.1 he
      exact hsec j hj
  · rw [hpe, List.map_append, List.nodup_append]
    refine ⟨?_, by simp, ?_⟩
    · unfold List.Nodup
      rw [List.pairwise_iff_getElem]
      intro i j hi hj hij
      simp only [List.getElem_map, List.getElem_mapIdx]
      unfold ctsEv
      dsimp only
      omega
    · intro a ha b hb
      obtain ⟨x, hx, rfl⟩ := List.mem_map.1 ha
      obtain ⟨j, hj, rfl⟩ := List.mem_mapIdx.1 hx
      simp only [List.map_cons, List.map_nil, List.mem_singleton] at hb
      subst hb
      show s.nextTid + j ≠ _
      omega
  · rw [hpe, k4]
    intro e he
    rcases List.mem_append.1 he with he | he
    · obtain ⟨j, hj, rfl⟩ := List.mem_mapIdx.1 he
      show s.nextTid + j < _
      omega
    · rw [List.mem_singleton.1 he]
      exact Nat.lt_succ_self _
  · rw [hpe, k3]
    intro e he
    rcases List.mem_append.1 he with he | he
    · obtain ⟨j, hj, rfl⟩ := List.mem_mapIdx.1 he
      show s.now ≤ s.now + (c.ctrlDur .cts + c.ps 1) * (j : ℤ)
      have : 0 ≤ (c.ctrlDur .cts + c.ps 1) * (j : ℤ) := by positivity
      omega
    · rw [List.mem_singleton.1 he]
      have hlen : 0 < s.rtsList.length := List.length_pos_iff.2 hl
      have := hsec 0 hlen
      simp only [Nat.cast_zero, mul_zero, add_zero] at this
      show s.now ≤ s.now + c.sectorTime _
      omega

/-- The window closes while nothing else is pending and nothing is being sent or received.  Then, in time order
and as long as nothing is received: at every moment, the CTSs of the plan that were due before have been sent, at
exactly their times and in their order, and until the data window ends no other CTS. -/
theorem C34_sent_partial (c : Cfg) (me : Mac48) (s : St) (t : Nat) (d t0 : ℤ) (hp : s.pend = [(t, d, .waitTime)])
    (ht0 : t0 = max s.now d) (hl : s.rtsList ≠ []) (hr : s.recording = false) (hst : s.state = .idle)
    (hphy : s.phyTx = none) (hc : 0 ≤ c.ctrlDur .cts) (hps : 1 ≤ c.ps 1)
    (hn : s.rtsList.length < 65536) (h1 : 0 ≤ c.tProp) (h2 : 0 ≤ c.sifs)
    (h3 : c.ps 1 ≤ c.tData + c.maxBo + c.ctrlDur .ack) (ops : List Op) (ho : ops.all noRx = true)
    (hti : timely c me s (.fire t :: ops) = true) (s' : St) (hs' : s' = run c me s (.fire t :: ops)) :
    ctsSent s.log ++ (ctsPlan c t0 s.rtsList).takeWhile (fun e => e.1 < s'.now) <+: ctsSent s'.log ∧
      (s'.now < t0 + c.sectorTime (UInt16.ofNat s.rtsList.length) →
        ctsSent s'.log <+: ctsSent s.log ++ ctsPlan c t0 s.rtsList) := by
  have hstep : step c me s (.fire t) = waitTimeExpired c me { s with pend := [], now := t0 } := by
    show fire c me t s = _
    unfold fire
    rw [hp, ht0]
    simp
  have hS := Cts.start c me { s with pend := [], now := t0 } hl hr rfl hst hphy hc hps hn h1 h2 h3
  rw [← hstep] at hS
  simp only [timely, Bool.and_eq_true] at hti
  have hR := hS.run me hc ops ho hti.2
  have e0 : run c me s (.fire t :: ops) = run c me (step c me s (.fire t)) ops := rfl
  rw [← e0, ← hs'] at hR
  rcases hR with hR | ⟨hR, hR2⟩
  · obtain ⟨R, tl, q1, -, -, q4, -⟩ := hR.shape
    change ctsSent s'.log ++ R.filterMap planOf = ctsSent s.log ++ ctsPlan c t0 s.rtsList at q4
    refine ⟨?_, fun _ => ⟨_, q4⟩⟩
    have hlate : ∀ e ∈ R.filterMap planOf, s'.now ≤ e.1 := by
      intro e he
      obtain ⟨x, hx, hxe⟩ := List.mem_filterMap.1 he
      have := hR.time x (by rw [q1]; simp [hx])
      obtain ⟨x1, x2, x3⟩ := x
      cases x3 <;> simp [planOf] at hxe
      rw [← hxe]
      exact this
    have hpre : ctsSent s.log <+: ctsSent s'.log := by
      rw [hs']
      exact ctsSent_grew (grew_run c me s _)
    obtain ⟨done, hd⟩ := hpre
    rw [← hd, List.append_assoc] at q4
    have q5 := List.append_cancel_left q4
    rw [← q5, ← hd]
    refine (List.prefix_append_right_inj _).2 ?_
    generalize R.filterMap planOf = E' at hlate
    clear * - hlate
    induction done with
    | nil =>
      cases E' with
      | nil => simp
      | cons x rest =>
        rw [List.nil_append, List.takeWhile_cons, if_neg]
        have := hlate x List.mem_cons_self
        simpa using this
    | cons y ys ih =>
      rw [List.cons_append, List.takeWhile_cons]
      split
      · exact (List.prefix_cons_inj y).2 ih
      · exact List.nil_prefix
  · refine ⟨?_, fun hlt => absurd hR2 (not_le.2 hlt)⟩
    refine List.IsPrefix.trans ?_ hR
    exact (List.prefix_append_right_inj _).2 (List.takeWhile_prefix _)

example : exTwo.pend = [(1, 80144, .waitTime)] ∧ exTwo.rtsList.length = 2 ∧ exTwo.recording = false ∧ exTwo.state = .idle ∧
    exTwo.phyTx = none ∧ 1 ≤ (exCfg 3).ps 1 ∧
    (exCfg 3).ps 1 ≤ (exCfg 3).tData + (exCfg 3).maxBo + (exCfg 3).ctrlDur .ack ∧
    timely (exCfg 3) exAp exTwo [.fire 1, .fire 3, .fire 6, .fire 4, .fire 7] = true ∧
    ctsSent (run (exCfg 3) exAp exTwo [.fire 1, .fire 3, .fire 6, .fire 4, .fire 7]).log =
      [(80144, exCl 1, 1), (81442, exCl 2, 1)] := by
  decide +kernel

/-- A third client's RTS is still arriving when the window closes. -/
def lateRun : List Op := openRun [(1, -30), (2, -30)] ++ [.advance 67000, .rxStart, .fire 1, .fire 3, .fire 4]

/-- Its reception keeps the access point from sending the CTSs: they are dropped. -/
theorem C34_blocked_violated :
    timely (exCfg 3) exAp (init (exCfg 3)) lateRun = true ∧
      (after (exCfg 3) exAp lateRun).pend.all (fun e => (planOf e).isNone) = true ∧
      ctsSent (after (exCfg 3) exAp lateRun).log = [] ∧
      (after (exCfg 3) exAp lateRun).log.countP (fun o => match o with | .blocked _ => true | _ => false) = 2 := by
  decide +kernel

/-- ns-3's default time resolution, 1 ns: `PicoSeconds (1)` is 0. -/
def nsCfg : Cfg :=
  { exCfg 3 with tpn := 1, slot := 2, slot3 := 2, tProp := 33, ctrlDur := fun _ => 1, dataDur := fun _ _ => 380 }

/-- Two RTSs; the second CTS is due at the end of the first one, and runs first because it was scheduled
earlier. -/
def nsRun : List Op :=
  [.fire 0, .fire 2, .advance 5, .rxStart, .advance 1, .rxDone (exRts 1) true (-30), .rxStart, .advance 1,
    .rxDone (exRts 2) true (-30), .fire 1, .fire 3, .fire 4, .fire 6]

/-- The second client gets no CTS. -/
theorem C34_resolution_violated :
    timely nsCfg exAp (init nsCfg) nsRun = true ∧
      (after nsCfg exAp nsRun).pend.all (fun e => (planOf e).isNone) = true ∧
      (ctsSent (after nsCfg exAp nsRun).log).map (·.2) = [(exCl 1, 1)] := by
  decide +kernel

end Thz.Ap
