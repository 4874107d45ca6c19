import Verif.ClientAir

/-!
# What a client hears, with the time (helper lemmas)
-/

namespace Thz.Client

open Thz Thz.Central
open Thz.Nano (Body Kind bcast)

variable {c : Cfg} {me : Mac48}

/-- The frames received intact, with the time. -/
def rxT (l : List Obs) : List (ℤ × Frame) := l.filterMap fun o => match o with
  | .rx t f => some (t, f)
  | _ => none

/-- The frames received intact, in a state. -/
def frT (s : St) : List (ℤ × Frame) := rxT s.log

theorem frT_of {s s' : St} (h : s'.log = s.log) : frT s' = frT s := by unfold frT; rw [h]

theorem frT_emit (s : St) (o : Obs) (h : ∀ t f, o ≠ .rx t f) : frT (s.emit o) = frT s := by
  unfold frT rxT St.emit
  simp only [List.filterMap_append]
  cases o <;> simp
  exact absurd rfl (h _ _)

theorem frT_sendPacket (c : Cfg) (f : Frame) (m : Nat) (s : St) : frT (sendPacket c f m s).2 = frT s := by
  unfold Client.sendPacket
  split
  · split
    · exact (frT_emit _ _ (by simp)).trans (frT_of rfl)
    · exact (frT_emit _ _ (by simp)).trans (frT_of rfl)
  · exact frT_emit _ _ (by simp)

theorem frT_sendData (p : Pkt) (m : Nat) (s : St) : frT (sendData c me p m s) = frT s := by
  unfold Client.sendData
  dsimp only
  split
  · exact frT_of rfl
  · have h := frT_sendPacket c (dataFrame me p) m { s with state := .waitTx }
    split
    · rename_i e; rw [e] at h; exact (frT_of rfl).trans (h.trans (frT_of rfl))
    · rename_i e; rw [e] at h; exact (frT_of rfl).trans (h.trans (frT_of rfl))

theorem frT_sendPacketDone (f : Frame) (s : St) : frT (sendPacketDone f s) = frT s := by
  unfold Client.sendPacketDone
  dsimp only
  have h : frT (({ s with phyTx := none } : St).emit (.txEnd f)) = frT s := (frT_emit _ _ (by simp)).trans (frT_of rfl)
  split
  · exact h
  · split
    · exact (frT_of rfl).trans h
    · exact (frT_of rfl).trans h

theorem frT_settle (ok : Bool) (r : Rec) (s : St) : frT (settle ok r s) = frT s := by
  unfold Client.settle
  split <;> exact (frT_emit _ _ (by simp)).trans (frT_of rfl)

theorem frT_doneLoop (ok : Bool) (q : UInt16) : ∀ (n : Nat) (rest pre : List Rec) (s : St), rest.length ≤ n →
    frT (doneLoop ok q pre rest s) = frT s := by
  intro n
  induction n with
  | zero =>
    intro rest pre s h
    rw [List.length_eq_zero_iff.1 (Nat.le_zero.1 h)]
    unfold Client.doneLoop; exact frT_of rfl
  | succ n ih =>
    intro rest pre s h
    cases rest with
    | nil => unfold Client.doneLoop; exact frT_of rfl
    | cons r rest =>
      unfold Client.doneLoop
      split
      · split
        · exact frT_of rfl
        · cases rest with
          | nil => exact (frT_of rfl).trans (frT_settle ok r s)
          | cons r' rest' =>
            refine (ih rest' _ _ ?_).trans (frT_settle ok r s)
            simp only [List.length_cons] at h; omega
      · exact ih rest _ _ (by simp only [List.length_cons] at h; omega)

theorem frT_charge (limit : UInt16) (r : Rec) (s : St) : frT (charge c limit r s).2 = frT s := by
  unfold Client.charge
  dsimp only
  split
  · refine (frT_emit _ _ (by simp)).trans ((frT_of rfl).trans (frT_emit s (.timedOut r.pkt (r.retry + 1)) (by simp)))
  · exact (frT_of rfl).trans (frT_emit s (.timedOut r.pkt (r.retry + 1)) (by simp))

theorem frT_chargeLoop (limit q : UInt16) : ∀ (rest pre : List Rec) (s : St), frT (chargeLoop c limit q pre rest s) = frT s := by
  intro rest
  induction rest with
  | nil => intro pre s; exact frT_of rfl
  | cons r rest ih =>
    intro pre s
    unfold Client.chargeLoop
    split
    · exact (frT_of rfl).trans (frT_charge limit r s)
    · exact ih _ s

theorem frT_ctsTimeout (q : UInt16) (s : St) : frT (ctsTimeout c q s) = frT s := by
  unfold Client.ctsTimeout
  dsimp only
  have h := (frT_chargeLoop (c := c) c.rtsRetryLimit q s.recs [] { s with state := .idle }).trans (frT_of (s := s) rfl)
  split
  · exact (frT_of rfl).trans h
  · exact h

theorem frT_ackTimeout (q : UInt16) (s : St) : frT (ackTimeout c q s) = frT s :=
  (frT_chargeLoop (c := c) c.dataRetryLimit q s.recs [] _).trans (frT_of rfl)

theorem frT_tickLoop (q : UInt16) : ∀ (rest pre : List Rec) (s : St), frT (tickLoop q pre rest s) = frT s := by
  intro rest
  induction rest with
  | nil => intro pre s; exact frT_of rfl
  | cons r rest ih =>
    intro pre s
    unfold Client.tickLoop
    split
    · exact frT_of rfl
    · exact ih _ s

theorem frT_contend (f : Frame) (s : St) : frT (contend c f s) = frT s := by
  unfold Client.contend
  split
  · exact frT_tickLoop _ _ _ _
  · dsimp only
    split
    · exact frT_of rfl
    · split <;> exact frT_of rfl

theorem frT_receiveCta3 (f : Frame) (g : UInt16) (s : St) : frT (receiveCta3 c me f g s) = frT s := by
  unfold Client.receiveCta3
  dsimp only
  split
  · exact frT_of rfl
  · split
    · exact frT_of rfl
    · split
      · exact frT_of rfl
      · split
        · exact (frT_contend f _).trans ((frT_of rfl).trans ((frT_ctsTimeout _ _).trans (frT_of rfl)))
        · exact (frT_contend f _).trans (frT_of rfl)

theorem frT_receiveCta1 (s : St) : frT (receiveCta1 c s) = frT s := by
  unfold Client.receiveCta1
  dsimp only
  split
  · exact frT_of rfl
  · split
    · exact (frT_tickLoop _ _ _ _).trans (frT_of rfl)
    · split <;> exact frT_of rfl

theorem frT_grantLoop (f : Frame) : ∀ (l : List Rec) (s : St), frT (grantLoop c f l s) = frT s := by
  intro l
  induction l with
  | nil => intro s; rfl
  | cons r l ih =>
    intro s
    unfold Client.grantLoop
    split
    · exact (ih _).trans (frT_of rfl)
    · exact ih s

theorem frT_receiveCts (f : Frame) (s : St) : frT (receiveCts c me f s) = frT s := by
  unfold Client.receiveCts
  dsimp only
  split
  · exact (frT_grantLoop f _ _).trans (frT_of rfl)
  · exact frT_of rfl

theorem frT_receiveAck (f : Frame) (s : St) : frT (receiveAck c me f s) = frT s := by
  unfold Client.receiveAck
  split
  · dsimp only
    split <;> exact frT_of rfl
  · rfl

/-- What a step hears. -/
theorem step_frT (s : St) (op : Op) : frT (step c me s op) = frT s ∨
    ∃ f g, op = .rxDone f true g ∧ frT (step c me s op) = frT s ++ [(s.now, f)] := by
  cases op with
  | advance d => exact .inl (frT_of rfl)
  | enqueue b d =>
    left
    show frT (enqueue c b d s).2 = _
    unfold Client.enqueue
    split
    · exact frT_emit _ _ (by simp)
    · exact (frT_of rfl).trans (frT_emit s (.accepted ⟨s.nextUid, s.seq + 1, d, b⟩) (by simp))
  | rxStart =>
    left
    show frT (receivePacket s) = _
    unfold Client.receivePacket
    dsimp only
    split <;> split <;> exact frT_of rfl
  | rxDone f ok g =>
    have e : frT (s.emit (.rx s.now f)) = frT s ++ [(s.now, f)] := by simp [frT, rxT, St.emit]
    cases ok with
    | false =>
      left
      show frT (receivePacketDone c me f false g s) = _
      unfold Client.receivePacketDone
      split <;> rfl
    | true =>
      by_cases h : s.state = .rx ∨ (s.state = .waitAck ∧ f.kind = .ack)
      · right
        refine ⟨f, g, rfl, ?_⟩
        show frT (receivePacketDone c me f true g s) = _
        unfold Client.receivePacketDone
        rw [if_pos h]
        simp only [Bool.true_eq_false, if_false]
        rw [← e]
        split
        · split
          · exact frT_receiveCta1 _
          · split
            · exact frT_receiveCta3 f g _
            · rfl
        · exact frT_receiveCts f _
        · exact frT_receiveAck f _
        · rfl
      · left
        show frT (receivePacketDone c me f true g s) = _
        unfold Client.receivePacketDone
        rw [if_neg h]
  | fire t =>
    left
    show frT (fire c me t s) = _
    unfold Client.fire
    split
    · rfl
    · rename_i t' due e hf
      unfold runEv
      split
      · exact (frT_sendPacket c _ _ _).trans (frT_of rfl)
      · exact (frT_sendPacket c _ _ _).trans (frT_of rfl)
      · exact (frT_sendData _ _ _).trans (frT_of rfl)
      · exact (frT_ackTimeout _ _).trans (frT_of rfl)
      · exact (frT_doneLoop _ _ _ _ _ _ (Nat.le_refl _)).trans (frT_of rfl)
      · unfold resultsRecord
        split
        · exact frT_of rfl
        · exact (frT_emit _ _ (by simp)).trans (frT_of rfl)
      · exact (frT_sendPacketDone _ _).trans (frT_of rfl)

end Thz.Client
