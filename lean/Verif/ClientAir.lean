import Verif.ClientInv

/-!
# What a client hears, and in which order it serves its packets

Single-node facts about the client that the network properties need, and property C100.
-/

namespace Thz.Client

open Thz Thz.Central
open Thz.Nano (Body Kind bcast)

variable {c : Cfg} {me : Mac48}

/-! ## Receptions are brought by the operation -/

/-- The frames received intact. -/
def rxs (l : List Obs) : List Frame := l.filterMap fun o => match o with
  | .rx _ f => some f
  | _ => none

theorem mem_rxs {l : List Obs} {f : Frame} : f ∈ rxs l ↔ ∃ t, Obs.rx t f ∈ l := by
  unfold rxs
  rw [List.mem_filterMap]
  constructor
  · rintro ⟨o, ho, h⟩
    cases o <;> simp at h
    rw [← h]; exact ⟨_, ho⟩
  · rintro ⟨p, h⟩
    exact ⟨_, h, rfl⟩

/-- The frames received intact, in a state. -/
def fr (s : St) : List Frame := rxs s.log

theorem fr_of {s s' : St} (h : s'.log = s.log) : fr s' = fr s := by unfold fr; rw [h]

theorem fr_emit (s : St) (o : Obs) (h : ∀ t f, o ≠ .rx t f) : fr (s.emit o) = fr s := by
  unfold fr rxs St.emit
  simp only [List.filterMap_append]
  cases o <;> simp
  exact absurd rfl (h _ _)

theorem fr_sendPacket (c : Cfg) (f : Frame) (m : Nat) (s : St) : fr (sendPacket c f m s).2 = fr s := by
  unfold Client.sendPacket
  split
  · split
    · exact (fr_emit _ _ (by simp)).trans (fr_of rfl)
    · exact (fr_emit _ _ (by simp)).trans (fr_of rfl)
  · exact fr_emit _ _ (by simp)

theorem fr_sendData (p : Pkt) (m : Nat) (s : St) : fr (sendData c me p m s) = fr s := by
  unfold Client.sendData
  dsimp only
  split
  · exact fr_of rfl
  · have h := fr_sendPacket c (dataFrame me p) m { s with state := .waitTx }
    split
    · rename_i e; rw [e] at h; exact (fr_of rfl).trans (h.trans (fr_of rfl))
    · rename_i e; rw [e] at h; exact (fr_of rfl).trans (h.trans (fr_of rfl))

theorem fr_sendPacketDone (f : Frame) (s : St) : fr (sendPacketDone f s) = fr s := by
  unfold Client.sendPacketDone
  dsimp only
  have h : fr (({ s with phyTx := none } : St).emit (.txEnd f)) = fr s := (fr_emit _ _ (by simp)).trans (fr_of rfl)
  split
  · exact h
  · split
    · exact (fr_of rfl).trans h
    · exact (fr_of rfl).trans h

theorem fr_settle (ok : Bool) (r : Rec) (s : St) : fr (settle ok r s) = fr s := by
  unfold Client.settle
  split <;> exact (fr_emit _ _ (by simp)).trans (fr_of rfl)

theorem fr_doneLoop (ok : Bool) (q : UInt16) : ∀ (n : Nat) (rest pre : List Rec) (s : St), rest.length ≤ n →
    fr (doneLoop ok q pre rest s) = fr s := by
  intro n
  induction n with
  | zero =>
    intro rest pre s h
    rw [List.length_eq_zero_iff.1 (Nat.le_zero.1 h)]
    unfold Client.doneLoop; exact fr_of rfl
  | succ n ih =>
    intro rest pre s h
    cases rest with
    | nil => unfold Client.doneLoop; exact fr_of rfl
    | cons r rest =>
      unfold Client.doneLoop
      split
      · split
        · exact fr_of rfl
        · cases rest with
          | nil => exact (fr_of rfl).trans (fr_settle ok r s)
          | cons r' rest' =>
            refine (ih rest' _ _ ?_).trans (fr_settle ok r s)
            simp only [List.length_cons] at h; omega
      · exact ih rest _ _ (by simp only [List.length_cons] at h; omega)

theorem fr_charge (limit : UInt16) (r : Rec) (s : St) : fr (charge c limit r s).2 = fr s := by
  unfold Client.charge
  dsimp only
  split
  · refine (fr_emit _ _ (by simp)).trans ((fr_of rfl).trans (fr_emit s (.timedOut r.pkt (r.retry + 1)) (by simp)))
  · exact (fr_of rfl).trans (fr_emit s (.timedOut r.pkt (r.retry + 1)) (by simp))

theorem fr_chargeLoop (limit q : UInt16) : ∀ (rest pre : List Rec) (s : St), fr (chargeLoop c limit q pre rest s) = fr s := by
  intro rest
  induction rest with
  | nil => intro pre s; exact fr_of rfl
  | cons r rest ih =>
    intro pre s
    unfold Client.chargeLoop
    split
    · exact (fr_of rfl).trans (fr_charge limit r s)
    · exact ih _ s

theorem fr_ctsTimeout (q : UInt16) (s : St) : fr (ctsTimeout c q s) = fr s := by
  unfold Client.ctsTimeout
  dsimp only
  have h := (fr_chargeLoop (c := c) c.rtsRetryLimit q s.recs [] { s with state := .idle }).trans (fr_of (s := s) rfl)
  split
  · exact (fr_of rfl).trans h
  · exact h

theorem fr_ackTimeout (q : UInt16) (s : St) : fr (ackTimeout c q s) = fr s :=
  (fr_chargeLoop (c := c) c.dataRetryLimit q s.recs [] _).trans (fr_of rfl)

theorem fr_tickLoop (q : UInt16) : ∀ (rest pre : List Rec) (s : St), fr (tickLoop q pre rest s) = fr s := by
  intro rest
  induction rest with
  | nil => intro pre s; exact fr_of rfl
  | cons r rest ih =>
    intro pre s
    unfold Client.tickLoop
    split
    · exact fr_of rfl
    · exact ih _ s

theorem fr_contend (f : Frame) (s : St) : fr (contend c f s) = fr s := by
  unfold Client.contend
  split
  · exact fr_tickLoop _ _ _ _
  · dsimp only
    split
    · exact fr_of rfl
    · split <;> exact fr_of rfl

theorem fr_receiveCta3 (f : Frame) (g : UInt16) (s : St) : fr (receiveCta3 c me f g s) = fr s := by
  unfold Client.receiveCta3
  dsimp only
  split
  · exact fr_of rfl
  · split
    · exact fr_of rfl
    · split
      · exact fr_of rfl
      · split
        · exact (fr_contend f _).trans ((fr_of rfl).trans ((fr_ctsTimeout _ _).trans (fr_of rfl)))
        · exact (fr_contend f _).trans (fr_of rfl)

theorem fr_receiveCta1 (s : St) : fr (receiveCta1 c s) = fr s := by
  unfold Client.receiveCta1
  dsimp only
  split
  · exact fr_of rfl
  · split
    · exact (fr_tickLoop _ _ _ _).trans (fr_of rfl)
    · split <;> exact fr_of rfl

theorem fr_grantLoop (f : Frame) : ∀ (l : List Rec) (s : St), fr (grantLoop c f l s) = fr s := by
  intro l
  induction l with
  | nil => intro s; rfl
  | cons r l ih =>
    intro s
    unfold Client.grantLoop
    split
    · exact (ih _).trans (fr_of rfl)
    · exact ih s

theorem fr_receiveCts (f : Frame) (s : St) : fr (receiveCts c me f s) = fr s := by
  unfold Client.receiveCts
  dsimp only
  split
  · exact (fr_grantLoop f _ _).trans (fr_of rfl)
  · exact fr_of rfl

theorem fr_receiveAck (f : Frame) (s : St) : fr (receiveAck c me f s) = fr s := by
  unfold Client.receiveAck
  split
  · dsimp only
    split <;> exact fr_of rfl
  · rfl

/-- What a step hears. -/
theorem step_fr (s : St) (op : Op) : fr (step c me s op) = fr s ∨
    ∃ f g, op = .rxDone f true g ∧ fr (step c me s op) = fr s ++ [f] := by
  cases op with
  | advance d => exact .inl (fr_of rfl)
  | enqueue b d =>
    left
    show fr (enqueue c b d s).2 = _
    unfold Client.enqueue
    split
    · exact fr_emit _ _ (by simp)
    · exact (fr_of rfl).trans (fr_emit s (.accepted ⟨s.nextUid, s.seq + 1, d, b⟩) (by simp))
  | rxStart =>
    left
    show fr (receivePacket s) = _
    unfold Client.receivePacket
    dsimp only
    split <;> split <;> exact fr_of rfl
  | rxDone f ok g =>
    have e : fr (s.emit (.rx s.now f)) = fr s ++ [f] := by simp [fr, rxs, St.emit]
    cases ok with
    | false =>
      left
      show fr (receivePacketDone c me f false g s) = _
      unfold Client.receivePacketDone
      split <;> rfl
    | true =>
      by_cases h : s.state = .rx ∨ (s.state = .waitAck ∧ f.kind = .ack)
      · right
        refine ⟨f, g, rfl, ?_⟩
        show fr (receivePacketDone c me f true g s) = _
        unfold Client.receivePacketDone
        rw [if_pos h]
        simp only [Bool.true_eq_false, if_false]
        rw [← e]
        split
        · split
          · exact fr_receiveCta1 _
          · split
            · exact fr_receiveCta3 f g _
            · rfl
        · exact fr_receiveCts f _
        · exact fr_receiveAck f _
        · rfl
      · left
        show fr (receivePacketDone c me f true g s) = _
        unfold Client.receivePacketDone
        rw [if_neg h]
  | fire t =>
    left
    show fr (fire c me t s) = _
    unfold Client.fire
    split
    · rfl
    · rename_i t' due e hf
      unfold runEv
      split
      · exact (fr_sendPacket c _ _ _).trans (fr_of rfl)
      · exact (fr_sendPacket c _ _ _).trans (fr_of rfl)
      · exact (fr_sendData _ _ _).trans (fr_of rfl)
      · exact (fr_ackTimeout _ _).trans (fr_of rfl)
      · exact (fr_doneLoop _ _ _ _ _ _ (Nat.le_refl _)).trans (fr_of rfl)
      · unfold resultsRecord
        split
        · exact fr_of rfl
        · exact (fr_emit _ _ (by simp)).trans (fr_of rfl)
      · exact (fr_sendPacketDone _ _).trans (fr_of rfl)

theorem step_rx (s : St) (op : Op) {f : Frame} {t : ℤ} (h : Obs.rx t f ∈ (step c me s op).log) :
    (∃ t, Obs.rx t f ∈ s.log) ∨ ∃ g, op = .rxDone f true g := by
  have h0 : f ∈ fr (step c me s op) := mem_rxs.2 ⟨t, h⟩
  rcases step_fr (c := c) (me := me) s op with e | ⟨f', g, rfl, e⟩
  · rw [e] at h0; exact .inl (mem_rxs.1 h0)
  · rw [e] at h0
    rcases List.mem_append.1 h0 with h0 | h0
    · exact .inl (mem_rxs.1 h0)
    · rw [List.mem_singleton.1 h0]; exact .inr ⟨g, rfl⟩

/-! ## The order of acceptance -/

/-- The accepted packets, oldest first. -/
def accs (l : List Obs) : List Pkt := l.filterMap fun o => match o with
  | .accepted p => some p
  | _ => none

theorem mem_accs {l : List Obs} {p : Pkt} : p ∈ accs l ↔ Obs.accepted p ∈ l := by
  unfold accs
  rw [List.mem_filterMap]
  constructor
  · rintro ⟨o, ho, h⟩
    cases o <;> simp at h
    rw [← h]; exact ho
  · intro h
    exact ⟨_, h, rfl⟩

theorem accs_append (l m : List Obs) : accs (l ++ m) = accs l ++ accs m := List.filterMap_append

theorem accs_neutral {l : List Obs} (h : ∀ o ∈ l, Neutral o) : accs l = [] := by
  unfold accs
  rw [List.filterMap_eq_nil_iff]
  intro o ho
  have := h o ho
  cases o <;> first | rfl | exact this.elim

theorem accs_uids (seq0 last0 : UInt16) (ops : List Op) :
    (accs (after c me seq0 last0 ops).log).map (·.uid) = List.range (after c me seq0 last0 ops).nextUid :=
  run_inv (P := fun v => (accs v.log).map (·.uid) = List.range v.nextUid) False (fun h => h.elim) (Basic.init seq0 last0) rfl
    (fun v w _ i h => by
      cases h.eff with
      | silent l _ _ hu _ hl hn => rw [hl, hu, accs_append, accs_neutral hn, List.append_nil]; exact i
      | life k pre r rest _ _ _ hu _ hl => rw [hl, hu]; exact i
      | accept b dst t _ _ hu _ hl => rw [hl, hu, accs_append, List.map_append, i, List.range_succ]; rfl
      | settle ok pre r rest _ _ _ _ hu _ hl => rw [hl, hu, accs_append]; simpa [accs] using i
      | charge life pre r rest _ _ _ _ hu _ hl => rw [hl, hu, accs_append]; simpa [accs] using i
      | giveUp limit pre r rest _ _ _ _ _ _ hu _ hl _ _ => rw [hl, hu, accs_append]; simpa [accs] using i)

/-- A packet accepted after another has the greater identity. -/
theorem uid_lt_of_after {seq0 last0 : UInt16} {ops : List Op} {l1 l2 : List Obs} (h : (after c me seq0 last0 ops).log = l1 ++ l2)
    {p q : Pkt} (hp : Obs.accepted p ∈ l1) (hq : Obs.accepted q ∈ l2) : p.uid < q.uid := by
  have e := accs_uids (c := c) (me := me) seq0 last0 ops
  have hs : ((accs (after c me seq0 last0 ops).log).map (·.uid)).Pairwise (· < ·) := by rw [e]; exact List.pairwise_lt_range
  rw [h, accs_append, List.map_append, List.pairwise_append] at hs
  exact hs.2.2 _ (List.mem_map.2 ⟨p, mem_accs.2 hp, rfl⟩) _ (List.mem_map.2 ⟨q, mem_accs.2 hq, rfl⟩)

/-- If `p` was the oldest open packet at some time, it is not newer than any packet open later. -/
theorem oldest_le {seq0 last0 : UInt16} {ops : List Op} {l1 l2 : List Obs} (h : (after c me seq0 last0 ops).log = l1 ++ l2)
    {p q : Pkt} (hp : Oldest l1 p) (hq : Obs.accepted q ∈ (after c me seq0 last0 ops).log)
    (hd : ∀ ok, Obs.done ok q ∉ l1) : p.uid ≤ q.uid := by
  rw [h] at hq
  rcases List.mem_append.1 hq with hq | hq
  · exact hp.2 q ⟨hq, hd⟩
  · exact Nat.le_of_lt (uid_lt_of_after h hp.1.1 hq)

end Thz.Client
