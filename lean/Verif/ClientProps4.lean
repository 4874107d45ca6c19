import Verif.ClientProps3

/-!
# C82: no timer of the client is set to run in the past
-/

namespace Thz.Client

open Thz Thz.Central
open Thz.Nano (Body Kind bcast)

variable {c : Cfg} {me : Mac48}

/-- All the times a client is configured with are nonnegative. -/
structure Nonneg (c : Cfg) : Prop where
  slot : 0 ≤ c.slotTime
  tpn : 0 ≤ c.tpn
  ps : 0 ≤ c.ps 1
  ns : 0 ≤ c.ns 1
  fairness : 0 ≤ c.fairness
  sifs : 0 ≤ c.sifs
  tProp : 0 ≤ c.tProp
  tData : 0 ≤ c.tData
  ctrl : ∀ k, 0 ≤ c.ctrlDur k
  data : ∀ n m, 0 ≤ c.dataDur n m

/-- A timer nobody forgot about: everything except, in the three-way protocol, ACK timeouts. -/
def Sound (c : Cfg) (e : Ev) : Prop := c.ways = 3 → ∀ q, e ≠ .ackTimeout q

/-- Every pending event lies ahead. -/
def Fut (c : Cfg) (s : St) : Prop := ∀ e ∈ s.pend, Sound c e.2.2 → s.now ≤ e.2.1

theorem Fut.same {s s' : St} (i : Fut c s) (h1 : s'.now = s.now) (h2 : ∀ e ∈ s'.pend, e ∈ s.pend) : Fut c s' :=
  fun e he hs => by rw [h1]; exact i e (h2 e he) hs

theorem Fut.sched {s : St} (i : Fut c s) (d : ℤ) (e : Ev) (hd : Sound c e → 0 ≤ d) : Fut c (s.sched d e) := by
  intro x hx hs
  rcases List.mem_append.1 hx with hx | hx
  · exact i x hx hs
  · rw [List.mem_singleton.1 hx] at hs ⊢
    have := hd hs
    show s.now ≤ s.now + d
    omega

theorem fut_charge (n : Nonneg c) (limit : UInt16) (r : Rec) (s : St) (i : Fut c s) : Fut c (charge c limit r s).2 := by
  unfold charge
  dsimp only
  split
  · exact (Fut.sched (s := { s.emit (.timedOut r.pkt (r.retry + 1)) with
      queue := s.queue.filter (fun p => p.uid ≠ r.pkt.uid) }) (i.same rfl (fun e he => he)) (c.ps 1)
      (.sendDataDone false r.pkt.seq) (fun _ => n.ps)).same rfl (fun e he => he)
  · exact i.same rfl (fun e he => he)

theorem fut_chargeLoop (n : Nonneg c) (limit q : UInt16) : ∀ (rest pre : List Rec) (s : St), Fut c s →
    Fut c (chargeLoop c limit q pre rest s)
  | [], pre, s, i => by unfold chargeLoop; exact i.same rfl (fun e he => he)
  | r :: rest, pre, s, i => by
    unfold chargeLoop
    split
    · exact (fut_charge n limit r s i).same rfl (fun e he => he)
    · exact fut_chargeLoop n limit q rest (pre ++ [r]) s i

theorem fut_settle (ok : Bool) (r : Rec) (s : St) (i : Fut c s) : Fut c (settle ok r s) := by
  unfold settle
  split <;> exact (i.sched 0 .results (fun _ => Int.le_refl 0)).same rfl (fun e he => he)

theorem fut_doneLoop (ok : Bool) (q : UInt16) : ∀ (rest pre : List Rec) (s : St), Fut c s →
    Fut c (doneLoop ok q pre rest s)
  | [], pre, s, i => by unfold doneLoop; exact i.same rfl (fun e he => he)
  | r :: rest, pre, s, i => by
    unfold doneLoop
    split
    · split
      · exact i.same rfl (fun e he => he)
      · match rest with
        | [] => exact (fut_settle ok r s i).same rfl (fun e he => he)
        | r' :: rest' => exact fut_doneLoop ok q rest' (pre ++ [r']) _ (fut_settle ok r s i)
    · exact fut_doneLoop ok q rest (pre ++ [r]) s i

theorem fut_tickLoop (q : UInt16) : ∀ (rest pre : List Rec) (s : St), Fut c s → Fut c (tickLoop q pre rest s)
  | [], pre, s, i => by unfold tickLoop; exact i.same rfl (fun e he => he)
  | r :: rest, pre, s, i => by
    unfold tickLoop
    split
    · exact i.same rfl (fun e he => he)
    · exact fut_tickLoop q rest (pre ++ [r]) s i

theorem drawSlot_nonneg (k : Nat) : 0 ≤ c.drawSlot k := by unfold Cfg.drawSlot; omega

theorem slots_nonneg (n : Nonneg c) (k : Nat) : 0 ≤ c.slotTime * c.drawSlot k :=
  Int.mul_nonneg n.slot (drawSlot_nonneg k)

theorem fut_contend (n : Nonneg c) (f : Frame) (s : St) (i : Fut c s) : Fut c (contend c f s) := by
  unfold contend
  split
  · exact fut_tickLoop _ _ _ _ i
  · dsimp only
    split
    · exact i.same rfl (fun e he => he)
    · split
      · exact i.same rfl (fun e he => he)
      · exact (Fut.sched (s := { s with ctsReceived := 0 }) (i.same rfl (fun e he => he)) _ _
          (fun _ => slots_nonneg n _)).same rfl (fun e he => he)

theorem fut_ctsTimeout (n : Nonneg c) (q : UInt16) (s : St) (i : Fut c s) : Fut c (ctsTimeout c q s) := by
  unfold ctsTimeout
  dsimp only
  have h := fut_chargeLoop n c.rtsRetryLimit q s.recs [] { s with state := .idle } (i.same rfl (fun e he => he))
  split
  · exact h.same rfl (fun e he => he)
  · exact h

theorem fut_receiveCta3 (n : Nonneg c) (f : Frame) (g : UInt16) (s : St) (i : Fut c s) : Fut c (receiveCta3 c me f g s) := by
  have i' : Fut c { s with state := .idle } := i.same rfl (fun e he => he)
  unfold receiveCta3
  dsimp only
  split
  · exact (Fut.sched (s := { s with state := .idle }) i' _ _ (fun _ => slots_nonneg n _)).same rfl (fun e he => he)
  · split
    · exact i.same rfl (fun e he => he)
    · split
      · exact i'
      · split
        · exact fut_contend n f _ ((fut_ctsTimeout n s.lastSeq _ i').same rfl (fun e he => he))
        · exact fut_contend n f _ i'

theorem fut_receiveCta1 (n : Nonneg c) (s : St) (i : Fut c s) : Fut c (receiveCta1 c s) := by
  have i' : Fut c { s with state := .idle } := i.same rfl (fun e he => he)
  unfold receiveCta1
  dsimp only
  split
  · exact i'
  · split
    · exact fut_tickLoop _ _ _ _ i'
    · split
      · exact i.same rfl (fun e he => he)
      · refine (Fut.sched (s := { s with state := .idle }) i' (c.fairness + c.slotTime * c.drawSlot s.rngIdx) _
          (fun _ => ?_)).same rfl (fun e he => he)
        have := slots_nonneg n s.rngIdx
        have := n.fairness
        omega

theorem durTime_nonneg (n : Nonneg c) (d : UInt16) : 0 ≤ durTime c.tpn d := by
  unfold durTime
  exact Int.mul_nonneg (Int.natCast_nonneg _) n.tpn

theorem fut_grantLoop (n : Nonneg c) (f : Frame) : ∀ (rest : List Rec) (s : St), Fut c s →
    Fut c (grantLoop c f rest s)
  | [], s, i => by unfold grantLoop; exact i
  | r :: rest, s, i => by
    unfold grantLoop
    split
    · exact fut_grantLoop n f rest _ ((i.sched _ _ (fun _ => durTime_nonneg n f.dur)).same rfl (fun e he => he))
    · exact fut_grantLoop n f rest s i

theorem frameDur_nonneg (n : Nonneg c) (f : Frame) (m : Nat) : 0 ≤ c.frameDur f m := by
  unfold Cfg.frameDur
  split
  · exact n.data _ _
  · exact n.ctrl _

theorem fut_sendPacket (n : Nonneg c) (f : Frame) (m : Nat) (s : St) (i : Fut c s) : Fut c (sendPacket c f m s).2 := by
  unfold sendPacket
  split
  · split
    · exact (i.sched (c.frameDur f m) (.phyDone f) (fun _ => frameDur_nonneg n f m)).same rfl (fun e he => he)
    · exact i.same rfl (fun e he => he)
  · exact i.same rfl (fun e he => he)

theorem fut_sendData (n : Nonneg c) (p : Pkt) (m : Nat) (s : St) (i : Fut c s) : Fut c (sendData c me p m s) := by
  unfold sendData
  dsimp only
  split
  · exact i.same rfl (fun e he => he)
  · have h := fut_sendPacket n (dataFrame me p) m { s with state := .waitTx } (i.same rfl (fun e he => he))
    generalize sendPacket c (dataFrame me p) m { s with state := .waitTx } = r at h
    obtain ⟨ok, s1⟩ := r
    cases ok
    · exact h.same rfl (fun e he => he)
    · refine (Fut.sched h (ackTimeoutDur c s1) (.ackTimeout p.seq) ?_).same rfl (fun e he => he)
      intro hs
      unfold ackTimeoutDur
      split
      · rename_i hw; exact absurd rfl (hs hw p.seq)
      · have h1 := n.tData
        have h2 := n.tProp
        have h3 := n.sifs
        have h4 := n.ctrl .ack
        have h5 := n.ns
        omega

theorem fut_step (n : Nonneg c) (s : St) (o : Op) (ht : timelyOp s o = true)
    (i : Fut c s) : Fut c (step c me s o) := by
  cases o with
  | enqueue bd dst =>
    show Fut c (enqueue c bd dst s).2
    unfold enqueue
    split <;> exact i.same rfl (fun e he => he)
  | advance d =>
    intro e he _
    have h := List.all_eq_true.1 ht e he
    exact of_decide_eq_true h
  | rxStart =>
    show Fut c (receivePacket s)
    have hf : ∀ t, ∀ e ∈ s.pend.filter (fun e => e.1 ≠ t), e ∈ s.pend := fun t e he => (List.mem_filter.1 he).1
    unfold receivePacket
    cases s.sendDataEv with
    | none => dsimp only; split <;> exact i.same rfl (fun e he => he)
    | some t => dsimp only [St.cancel]; split <;> exact i.same rfl (hf t)
  | rxDone f ok g =>
    show Fut c (receivePacketDone c me f ok g s)
    have i' : Fut c (s.emit (.rx s.now f)) := i.same rfl (fun e he => he)
    unfold receivePacketDone
    split
    · split
      · exact i
      · dsimp only
        split
        · split
          · exact fut_receiveCta1 n _ i'
          · split
            · exact fut_receiveCta3 n f g _ i'
            · exact i'
        · unfold receiveCts
          dsimp only
          split
          · exact fut_grantLoop n f _ _ (i'.same rfl (fun e he => he))
          · exact i'.same rfl (fun e he => he)
        · unfold receiveAck
          dsimp only
          split
          · split
            · rename_i t _
              have ic : Fut c (({ s.emit (.rx s.now f) with state := .idle } : St).cancel t.tid) :=
                i'.same rfl (fun e he => (List.mem_filter.1 he).1)
              exact (ic.sched (c.ps 1) (.sendDataDone true f.seq) (fun _ => n.ps)).same rfl (fun e he => he)
            · exact i'.same rfl (fun e he => he)
          · exact i'
        · exact i'
    · exact i
  | fire tid =>
    show Fut c (fire c me tid s)
    unfold fire
    split
    · exact i
    · rename_i t due e hf
      have hm : (t, due, e) ∈ s.pend := List.mem_of_find?_eq_some hf
      have htt : t = tid := by simpa using List.find?_some hf
      have h := List.all_eq_true.1 ht _ hm
      simp only [htt, ne_eq, not_true_eq_false, decide_false, Bool.false_or, Bool.and_eq_true, decide_eq_true_eq,
        List.all_eq_true] at h
      have i1 : Fut c { s with pend := s.pend.filter (fun e => e.1 ≠ tid), now := max s.now due } := by
        intro x hx _
        have h1 := h.2 x (List.mem_filter.1 hx).1
        show max s.now due ≤ x.2.1
        rw [Int.max_eq_right h.1]
        exact h1
      generalize ({ s with pend := s.pend.filter (fun e => e.1 ≠ tid), now := max s.now due } : St) = s1 at i1 ⊢
      cases e with
      | dummyRts f => exact fut_sendPacket n f 0 s1 i1
      | sendRts p =>
        exact fut_sendPacket n (rtsFrame me s1.nextId p) 0 { s1 with nextId := s1.nextId + 1 } (i1.same rfl (fun e he => he))
      | sendData p m => exact fut_sendData n p m s1 i1
      | ackTimeout q =>
        exact fut_chargeLoop n _ q _ _ { s1 with state := .idle, ackTO := s1.ackTO.eraseP (fun t => t.seq = q) }
          (i1.same rfl (fun e he => he))
      | sendDataDone ok q => exact fut_doneLoop ok q _ _ s1 i1
      | results =>
        show Fut c (resultsRecord s1)
        unfold resultsRecord
        split <;> exact i1.same rfl (fun e he => he)
      | phyDone f =>
        show Fut c (sendPacketDone f s1)
        unfold sendPacketDone
        dsimp only
        split
        · exact i1.same rfl (fun e he => he)
        · split <;> exact i1.same rfl (fun e he => he)

/-- **C82, what holds.**  With nonnegative configured times, every run in time order leaves every pending event of the
client ahead of the clock, except for ACK timeouts of the three-way protocol. -/
theorem C82_timers_ahead_partial (n : Nonneg c) (seq0 last0 : UInt16)
    (ops : List Op) (ht : timely c me (init seq0 last0) ops = true) :
    ∀ tid due e, (tid, due, e) ∈ (after c me seq0 last0 ops).pend → (c.ways = 3 → ∀ q, e ≠ .ackTimeout q) →
      (after c me seq0 last0 ops).now ≤ due := by
  have key : ∀ (ops : List Op) (s : St), timely c me s ops = true → Fut c s → Fut c (run c me s ops) := by
    intro ops
    induction ops with
    | nil => intro s _ i; exact i
    | cons o ops ih =>
      intro s ht i
      simp only [timely, Bool.and_eq_true] at ht
      exact ih _ ht.2 (fut_step n s o ht.1 i)
  intro tid due e he hs
  exact key ops (init seq0 last0) ht (fun e he => by simp [init] at he) _ he hs

example : Nonneg (exCfg 1 0) := by
  constructor <;> try decide
  · intro k; cases k <;> decide
  · intro n m
    show 0 ≤ calTx 0 n m
    unfold calTx; exact Int.add_nonneg (Int.natCast_nonneg _) (Int.natCast_nonneg _)

/-- A CTS for the first packet; two CTAs before the granted time; then the DATA. -/
def runPast : List Op :=
  [.enqueue exBody exAp, .enqueue exBody exAp] ++ hears exCta ++ [.fire 0, .fire 1] ++
    hears (exCts exMe 1 20) ++ hears exCta ++ [.fire 3, .fire 4] ++ hears exCta ++ [.fire 2]

/-- **C82 fails.**  In the three-way protocol the ACK timeout is measured from the CTS, in units of the number of CTSs
received since the last CTA: CTAs between the CTS and the DATA reset that number to 0, and the timeout is set to run
before now (`Simulator::Schedule` with a negative delay, which ns-3 refuses with an assertion). -/
theorem C82_ack_timer_past_violated : timely (exCfg 3 1) exMe (init 0 0) runPast = true ∧
    Obs.handed (after (exCfg 3 1) exMe 0 0 runPast).now (dataFrame exMe exP1) ∈ (after (exCfg 3 1) exMe 0 0 runPast).log ∧
    ∃ e ∈ (after (exCfg 3 1) exMe 0 0 runPast).pend, e.2.2 = .ackTimeout 1 ∧
      e.2.1 < (after (exCfg 3 1) exMe 0 0 runPast).now := by
  refine ⟨by decide +kernel, by decide +kernel, ?_⟩
  exact ⟨((after (exCfg 3 1) exMe 0 0 runPast).pend.getLast?).getD (0, 0, .results), by decide +kernel, by decide +kernel,
    by decide +kernel⟩

end Thz.Client
