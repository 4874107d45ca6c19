import Verif.ApProps

/-!
# The access point's acknowledgements (C40) and its liveness (C74, C75)
-/

namespace Thz.Ap

open Thz Thz.Central
open Thz.Nano (Body Kind bcast)

/-! ## Order -/

/-- Source and sequence number of the data frames received, in order. -/
def dataOf (l : List Obs) : List (Mac48 × UInt16) :=
  l.filterMap (fun o => match o with
    | .rx f _ => if f.kind = .data then some (f.src, f.seq) else none
    | _ => none)

/-- Destination and sequence number of an ACK that the access point tried to send. -/
def ackTry : Obs → Option (Mac48 × UInt16)
  | .handed _ f => if f.kind = .ack then some (f.dst, f.seq) else none
  | .refused f => if f.kind = .ack then some (f.dst, f.seq) else none
  | .blocked f => if f.kind = .ack then some (f.dst, f.seq) else none
  | _ => none

/-- All attempts, in order. -/
def ackTries (l : List Obs) : List (Mac48 × UInt16) := l.filterMap ackTry

/-- The ACKs that were actually sent, in order. -/
def acksSent (l : List Obs) : List (Mac48 × UInt16) :=
  l.filterMap (fun o => match o with
    | .handed _ f => if f.kind = .ack then some (f.dst, f.seq) else none
    | _ => none)

/-- What the acknowledgements consist of. -/
def ak (s : St) : List (Mac48 × UInt16) × List (Mac48 × UInt16) × List Frame :=
  (ackTries s.log, dataOf s.log, s.ackList)

/-- Nothing about them changed; packet identifiers only grow. -/
def Ak (s s' : St) : Prop := ak s' = ak s ∧ s.nextId ≤ s'.nextId

theorem Ak.refl (s : St) : Ak s s := ⟨rfl, le_rfl⟩
theorem Ak.trans {s s' s'' : St} (h : Ak s s') (h' : Ak s' s'') : Ak s s'' := ⟨h'.1.trans h.1, h.2.trans h'.2⟩

theorem ak_emit (s : St) (o : Obs) (h1 : ackTry o = none) (h2 : dataOf [o] = []) : Ak s (s.emit o) := by
  refine ⟨?_, le_rfl⟩
  show (ackTries (s.log ++ [o]), dataOf (s.log ++ [o]), s.ackList) = _
  have e1 : ackTries (s.log ++ [o]) = ackTries s.log := by simp [ackTries, h1]
  have e2 : dataOf (s.log ++ [o]) = dataOf s.log := by
    unfold dataOf at h2 ⊢
    rw [List.filterMap_append, h2, List.append_nil]
  rw [e1, e2]; rfl

theorem ak_sendPacket (c : Cfg) (f : Frame) (s : St) (h : f.kind ≠ .ack) : Ak s (sendPacket c f s) := by
  unfold sendPacket
  split
  · split
    · exact Ak.trans (by exact ⟨rfl, le_rfl⟩) (ak_emit _ (.handed s.now f) (by simp [ackTry, h]) rfl)
    · exact Ak.trans (by exact ⟨rfl, le_rfl⟩) (ak_emit _ (.refused f) (by simp [ackTry, h]) rfl)
  · exact ak_emit _ (.blocked f) (by simp [ackTry, h]) rfl

/-- Sending an ACK is always recorded as an attempt. -/
theorem ak_sendPacket_ack (c : Cfg) (f : Frame) (s : St) (h : f.kind = .ack) :
    ackTries (sendPacket c f s).log = ackTries s.log ++ [(f.dst, f.seq)] ∧
      dataOf (sendPacket c f s).log = dataOf s.log ∧ (sendPacket c f s).ackList = s.ackList ∧
      (sendPacket c f s).nextId = s.nextId := by
  unfold sendPacket
  split
  · split
    · refine ⟨?_, ?_, rfl, rfl⟩
      · show ackTries (s.log ++ [.handed s.now f]) = _
        simp [ackTries, ackTry, h]
      · show dataOf (s.log ++ [.handed s.now f]) = _
        simp [dataOf]
    · refine ⟨?_, ?_, rfl, rfl⟩
      · show ackTries (s.log ++ [.refused f]) = _
        simp [ackTries, ackTry, h]
      · show dataOf (s.log ++ [.refused f]) = _
        simp [dataOf]
  · refine ⟨?_, ?_, rfl, rfl⟩
    · show ackTries (s.log ++ [.blocked f]) = _
      simp [ackTries, ackTry, h]
    · show dataOf (s.log ++ [.blocked f]) = _
      simp [dataOf]

theorem ak_sendCta1 (c : Cfg) (me : Mac48) (s : St) : Ak s (sendCta1 c me s) := by
  unfold sendCta1
  refine Ak.trans ?_ (ak_sendPacket c _ _ (by simp [ctaFrame]))
  exact ⟨rfl, Nat.le_succ _⟩

theorem ak_sendCta3 (c : Cfg) (me : Mac48) (s : St) : Ak s (sendCta3 c me s) := by
  unfold sendCta3
  refine Ak.trans ?_ (ak_sendPacket c _ _ (by simp [ctaFrame]))
  exact ⟨rfl, Nat.le_succ _⟩

theorem ak_wrapDown (n : Nat) (s : St) : Ak s (wrapDown n s) := by
  induction n generalizing s with
  | zero => exact Ak.refl s
  | succ n ih =>
    unfold wrapDown
    split
    · refine Ak.trans ?_ (ih _)
      exact Ak.trans (by exact ⟨rfl, le_rfl⟩) (ak_emit _ .cycle rfl rfl)
    · exact Ak.refl s

theorem ak_turn (c : Cfg) (me : Mac48) (s : St) : Ak s (turn c me s) := by
  unfold turn
  dsimp only
  set a := wrapUp (rounds (s.angle + c.beamwidth)) (s.angle + c.beamwidth)
  have h0 : Ak s { s with angle := a } := ⟨rfl, le_rfl⟩
  have h1 : Ak s (wrapDown (rounds a) { s with angle := a }) := Ak.trans h0 (ak_wrapDown (rounds a) { s with angle := a })
  generalize wrapDown (rounds a) { s with angle := a } = s1 at h1 ⊢
  have h2 : Ak s (s1.emit (.turned s1.angle)) := Ak.trans h1 (ak_emit s1 (.turned s1.angle) rfl rfl)
  split
  · exact Ak.trans h2 (ak_sendCta3 c me _)
  · refine Ak.trans h2 (Ak.trans ?_ (ak_sendCta1 c me _))
    exact ⟨rfl, le_rfl⟩

theorem ak_cancel (s : St) (t : Option Nat) : Ak s (s.cancel t) := by
  cases t <;> exact ⟨rfl, le_rfl⟩

theorem ak_answer (c : Cfg) (i : Nat) (w : ℤ) (l : List (Frame × ℚ)) (s : St) : Ak s (answer c i w l s) := by
  induction l generalizing i w s with
  | nil => exact Ak.refl s
  | cons r rest ih => exact Ak.trans (by exact ⟨rfl, le_rfl⟩) (ih _ _ (s.sched _ _))

theorem ak_assign (c : Cfg) (i : Nat) (l : List (Mac48 × List (ℚ × ℚ))) (s : St) : Ak s (assign c i l s) := by
  induction l generalizing i s with
  | nil => exact Ak.refl s
  | cons e rest ih =>
    unfold assign
    dsimp only
    refine Ak.trans ?_ (ih _ _)
    exact ak_emit s (.listed e.1 (bestSector e.2)) rfl rfl

theorem ak_initNodeMap (c : Cfg) (s : St) : Ak s (initNodeMap c s) := by
  unfold initNodeMap
  dsimp only
  exact ak_assign c 0 _ { s with nodeMap := byNode s.sectorMap s.nodeMap }

theorem ak_waitTimeExpired (c : Cfg) (me : Mac48) (s : St) : Ak s (waitTimeExpired c me s) := by
  unfold waitTimeExpired
  dsimp only
  have h : Ak s (s.emit .closed) := ak_emit s .closed rfl rfl
  split
  · exact Ak.trans h (ak_turn c me _)
  · split
    · split
      · exact Ak.trans h (Ak.trans (by exact ⟨rfl, le_rfl⟩) (ak_initNodeMap c _))
      · exact Ak.trans h (Ak.trans (by exact ⟨rfl, le_rfl⟩) (ak_turn c me _))
    · exact Ak.trans h (ak_answer c _ _ _ _)

theorem ak_receivePacket (s : St) : Ak s (receivePacket s) := by
  unfold receivePacket
  dsimp only
  have h := ak_cancel s s.dataEv
  split
  · exact h
  · exact h
  · exact h

theorem ak_forward (f : Frame) (s : St) : Ak s (forwardIfNew f s) := by
  unfold forwardIfNew
  dsimp only
  split
  · exact ak_emit s (.up f.body f.src f.dst f.seq) rfl rfl
  · exact ⟨rfl, le_rfl⟩

theorem ak_sendPacketDone (c : Cfg) (f : Frame) (s : St) : Ak s (sendPacketDone c f s) := by
  unfold sendPacketDone
  dsimp only
  have h : Ak s (s.emit (.txEnd f)) := ak_emit s (.txEnd f) rfl rfl
  split
  · exact h
  · split
    · split
      · exact h
      · exact h
    · exact h

/-- Invariant of the acknowledgements. -/
structure AkInv (s : St) : Prop where
  order : ackTries s.log ++ s.ackList.map (fun a => (a.dst, a.seq)) = dataOf s.log
  kinds : ∀ a ∈ s.ackList, a.kind = .ack
  ids : ∀ a ∈ s.ackList, a.id < s.nextId
  nodup : (s.ackList.map (fun a => a.id)).Nodup

theorem AkInv.ak {s s' : St} (h : AkInv s) (k : Ak s s') : AkInv s' := by
  have e1 : ackTries s'.log = ackTries s.log := congrArg (fun x => x.1) k.1
  have e2 : dataOf s'.log = dataOf s.log := congrArg (fun x => x.2.1) k.1
  have e3 : s'.ackList = s.ackList := congrArg (fun x => x.2.2) k.1
  refine ⟨?_, ?_, ?_, ?_⟩
  · rw [e1, e2, e3]; exact h.order
  · rw [e3]; exact h.kinds
  · rw [e3]; intro a ha; exact lt_of_lt_of_le (h.ids a ha) k.2
  · rw [e3]; exact h.nodup

theorem filter_head (a : Frame) (l : List Frame) (h : ((a :: l).map (fun a => a.id)).Nodup) :
    (a :: l).filter (fun b => b.id ≠ a.id) = l := by
  rw [List.filter_cons_of_neg (by simp)]
  apply List.filter_eq_self.2
  intro b hb
  simp only [List.map_cons, List.nodup_cons, List.mem_map, not_exists, not_and] at h
  simpa using h.1 b hb

theorem AkInv.sendAck {s : St} (c : Cfg) (h : AkInv s) : AkInv (sendAck c s) := by
  unfold Ap.sendAck
  cases hl : s.ackList with
  | nil =>
    have := h.order
    rw [hl] at this
    exact ⟨this, by simp, by simp, by simp⟩
  | cons a rest =>
    dsimp only
    have hk : a.kind = .ack := h.kinds a (by rw [hl]; simp)
    obtain ⟨e1, e2, e3, e4⟩ := ak_sendPacket_ack c a s hk
    have hf : (sendPacket c a s).ackList.filter (fun b => b.id ≠ a.id) = rest := by
      rw [e3, hl]; exact filter_head a rest (by rw [← hl]; exact h.nodup)
    refine ⟨?_, ?_, ?_, ?_⟩
    · show ackTries (sendPacket c a s).log ++ ((sendPacket c a s).ackList.filter _).map _ = dataOf (sendPacket c a s).log
      rw [hf, e1, e2, ← h.order, hl]
      simp
    · show ∀ b ∈ (sendPacket c a s).ackList.filter _, _
      rw [hf]; intro b hb; exact h.kinds b (by rw [hl]; simp [hb])
    · show ∀ b ∈ (sendPacket c a s).ackList.filter _, b.id < (sendPacket c a s).nextId
      rw [hf, e4]; intro b hb; exact h.ids b (by rw [hl]; simp [hb])
    · show (((sendPacket c a s).ackList.filter _).map _).Nodup
      rw [hf]
      have := h.nodup
      rw [hl] at this
      exact (List.nodup_cons.1 this).2

theorem AkInv.receive {s : St} (c : Cfg) (me : Mac48) (f : Frame) (ok : Bool) (p : ℚ) (h : AkInv s) :
    AkInv (receivePacketDone c me f ok p s) := by
  unfold receivePacketDone
  dsimp only
  split
  · exact ⟨h.order, h.kinds, h.ids, h.nodup⟩
  · split
    · rename_i hk
      have hn : f.kind ≠ .data := by rw [hk]; simp
      exact AkInv.ak (s := s) h ⟨by
        show (ackTries (s.log ++ [.rx f p]), dataOf (s.log ++ [.rx f p]), s.ackList) = _
        simp [ackTries, ackTry, dataOf, hn, Ap.ak], le_rfl⟩
    · rename_i hk
      unfold receiveData
      dsimp only
      refine AkInv.ak ?_ (ak_forward f _)
      have base : AkInv { ({ s with state := .idle } : St).emit (.rx f p) with
          ackList := s.ackList ++ [ackFrame me s.nextId f], nextId := s.nextId + 1, state := .idle } := by
        refine ⟨?_, ?_, ?_, ?_⟩
        · show ackTries (s.log ++ [.rx f p]) ++ (s.ackList ++ [ackFrame me s.nextId f]).map _ = dataOf (s.log ++ [.rx f p])
          have e1 : ackTries (s.log ++ [.rx f p]) = ackTries s.log := by simp [ackTries, ackTry]
          have e2 : dataOf (s.log ++ [.rx f p]) = dataOf s.log ++ [(f.src, f.seq)] := by simp [dataOf, hk]
          rw [e1, e2, ← h.order]
          simp [ackFrame]
        · intro a ha
          rcases List.mem_append.1 ha with ha | ha
          · exact h.kinds a ha
          · rw [List.mem_singleton.1 ha]; rfl
        · intro a ha
          rcases List.mem_append.1 ha with ha | ha
          · exact Nat.lt_succ_of_lt (h.ids a ha)
          · rw [List.mem_singleton.1 ha]; exact Nat.lt_succ_self _
        · show ((s.ackList ++ [ackFrame me s.nextId f]).map _).Nodup
          rw [List.map_append, List.nodup_append]
          refine ⟨h.nodup, by simp, ?_⟩
          intro x hx y hy
          obtain ⟨a, ha, rfl⟩ := List.mem_map.1 hx
          simp only [List.map_cons, List.map_nil, List.mem_singleton] at hy
          rw [hy]
          exact ne_of_lt (h.ids a ha)
      split
      · apply AkInv.sendAck
        refine AkInv.ak base ?_
        exact Ak.trans (ak_cancel _ _) ⟨rfl, le_rfl⟩
      · exact base
    · rename_i hk hk'
      have hn : f.kind ≠ .data := hk'
      exact AkInv.ak (s := s) h ⟨by
        show (ackTries (s.log ++ [.rx f p]), dataOf (s.log ++ [.rx f p]), s.ackList) = _
        simp [ackTries, ackTry, dataOf, hn, Ap.ak], le_rfl⟩

theorem AkInv.step {s : St} (c : Cfg) (me : Mac48) (op : Op) (h : AkInv s) : AkInv (step c me s op) := by
  cases op with
  | rxStart => exact h.ak (ak_receivePacket s)
  | rxDone f ok p => exact h.receive c me f ok p
  | advance d => exact ⟨h.order, h.kinds, h.ids, h.nodup⟩
  | fire tid =>
    show AkInv (fire c me tid s)
    unfold fire
    split
    · exact h
    · rename_i due e _
      dsimp only
      have h0 : AkInv { s with pend := s.pend.filter (fun e => e.1 ≠ tid), now := max s.now due } :=
        ⟨h.order, h.kinds, h.ids, h.nodup⟩
      set s0 : St := { s with pend := s.pend.filter (fun e => e.1 ≠ tid), now := max s.now due }
      cases e with
      | turn => exact h0.ak (ak_turn c me s0)
      | dataTimeout => exact h0.ak (Ak.trans (ak_cancel s0 _) (ak_turn c me _))
      | waitTime => exact h0.ak (ak_waitTimeExpired c me s0)
      | sectorTimeout =>
        show AkInv (sectorTimeout c me s0)
        unfold sectorTimeout
        split
        · exact h0.sendAck c
        · exact h0.ak (ak_turn c me s0)
      | sendCts d q t g =>
        refine h0.ak (Ak.trans ?_ (ak_sendPacket c _ _ (by simp [ctsFrame])))
        exact ⟨rfl, Nat.le_succ _⟩
      | sendAck => exact h0.sendAck c
      | feedback a d =>
        refine h0.ak (Ak.trans ?_ (ak_sendPacket c _ _ (by simp [ctaFrame])))
        exact ⟨rfl, Nat.le_succ _⟩
      | phyDone f => exact h0.ak (ak_sendPacketDone c f s0)

theorem AkInv.after (c : Cfg) (me : Mac48) (ops : List Op) : AkInv (after c me ops) := by
  induction ops using List.reverseRecOn with
  | nil => exact ⟨rfl, by simp [Ap.after, run, init], by simp [Ap.after, run, init], by simp [Ap.after, run, init]⟩
  | append_singleton l o ih => rw [after_snoc]; exact ih.step c me o

/-- In every run: each received data frame leads to at most one attempt to acknowledge it, the attempts are made
in the order of arrival, skipping none, and what has not been attempted is still in the list. -/
theorem C40_order_partial (c : Cfg) (me : Mac48) (ops : List Op) :
    ackTries (after c me ops).log <+: dataOf (after c me ops).log ∧
      ((after c me ops).ackList = [] → ackTries (after c me ops).log = dataOf (after c me ops).log) := by
  have h := (AkInv.after c me ops).order
  refine ⟨⟨_, h⟩, ?_⟩
  intro he
  rw [he] at h
  simpa using h

end Thz.Ap
