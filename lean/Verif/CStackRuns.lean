import Verif.CStackProps

/-!
# Runs of complete devices of the centralised scenario: cases of C124 and C125; C101 and C103 violated by complete devices

The events run in time order: `nextOp` chooses the next one, and every operation it chooses is one of `CStack.step`.
-/

namespace Thz.CStack

open Thz Thz.Central Thz.TxV
open Thz.Nano (Body bcast)
open Thz.CNet (exA exB exC exPlan body1 body2 body3)

/-- Delay and power of a transmission, by sender and time. -/
abbrev Links := Nat → ℤ → Link ℕ

/-- The next thing the simulator does: an event that is due now (those of the MACs first, then arrivals, then those of the PHYs), or
time passes until the next event.  `g` is the content of uninitialised header fields. -/
def nextOp (w : World ℕ) (lk : Links) (g : UInt16) (s : St ℕ) : Option (Op ℕ) :=
  let macs := (List.range w.num).filterMap (fun i =>
    ((view w i s.net).pend.find? (fun e => e.2.2.isNone && decide (e.2.1 ≤ s.air.now))).map (fun e => Op.mac i e.1 (lk i s.air.now)))
  let ends := (List.range w.num).filterMap (fun i =>
    ((s.air.phy i).pend.find? (fun e => decide (e.2.1 ≤ s.air.now))).map (fun e => Op.phy i e.1 g (lk i s.air.now)))
  match macs with
  | o :: _ => some o
  | [] =>
    match s.air.fly.find? (fun z => Air.dueBy s.air s.air.now z) with
    | some z => some (.land z.1 z.2 (lk z.2 s.air.now))
    | none =>
      match ends with
      | o :: _ => some o
      | [] =>
        let dues := s.air.fly.filterMap (fun z => s.air.sent[z.1]?.map (fun x => x.first z.2)) ++
          ((List.range w.num).map (fun i => ((view w i s.net).pend.filter (fun e => e.2.2.isNone)).map (·.2.1) ++
            (s.air.phy i).pend.map (·.2.1))).flatten
        match dues with
        | [] => none
        | d :: ds => some (.tick ((ds.foldl min d) - s.air.now).toNat)

/-- The first operations of a simulation that starts in a state. -/
def auto (w : World ℕ) (lk : Links) (g : UInt16) : Nat → St ℕ → List (Op ℕ)
  | 0, _ => []
  | n + 1, s => match nextOp w lk g s with
    | none => []
    | some o => o :: auto w lk g n (step w s o)

/-- The same, and the state they lead to. -/
def autoRun (w : World ℕ) (lk : Links) (g : UInt16) : Nat → St ℕ → St ℕ
  | 0, s => s
  | n + 1, s => match nextOp w lk g s with
    | none => s
    | some o => autoRun w lk g n (step w s o)

theorem autoRun_eq (w : World ℕ) (lk : Links) (g : UInt16) (n : Nat) (s : St ℕ) :
    autoRun w lk g n s = (auto w lk g n s).foldl (step w) s := by
  induction n generalizing s with
  | zero => rfl
  | succ n ih =>
    unfold autoRun auto
    cases nextOp w lk g s with
    | none => rfl
    | some o => exact ih _

/-- A client (device 0) and two access points (1 and 2). -/
def exAddr (i : Nat) : Mac48 := if i = 0 then exC else if i = 1 then exA else exB

/-- The scenario; every frame arrives with -30 dBm as far as the MAC is told. -/
def exW (ways : Nat) (wa wb : Bool) (q : UInt16) : World ℕ :=
  { num := 3, addr := exAddr, plan := exPlan ways wa wb q, pcfg := fun _ => PhyMacro.exCfg, dbm := fun _ => -30 }

theorem exW_wf (ways : Nat) (wa wb : Bool) (q : UInt16) : (exW ways wa wb q).Wf where
  inj := by
    show ∀ i < 3, ∀ j < 3, exAddr i = exAddr j → i = j
    decide
  dur := by
    have hk : ∀ k, 0 ≤ ctrlDurDefault k := by intro k; cases k <;> decide
    intro i _ f d h
    unfold takes at h
    split at h
    · rw [show d = _ from h]
      exact hk _
    · obtain ⟨m, rfl⟩ := h
      unfold Client.Cfg.frameDur
      show 0 ≤ match f.kind with
        | .data => calTx 0 (f.body.size + 17) m
        | k => ctrlDurDefault k
      split
      · unfold calTx
        positivity
      · exact hk _
  ns := fun _ => by show (0 : ℤ) ≤ 1000; decide

/-- The client's packets are there at the start. -/
def exStart (l : List (Body × Mac48)) : List (Op ℕ) := l.map (fun x => .enqueue 0 x.1 x.2 ⟨fun _ => 0, fun _ => 0⟩)

/-- The operations of the simulation. -/
def exOps (w : World ℕ) (lk : Links) (g : UInt16) (l : List (Body × Mac48)) (n : Nat) : List (Op ℕ) :=
  exStart l ++ auto w lk g n ((exStart l).foldl (step w) (init w))

theorem exOps_after (w : World ℕ) (lk : Links) (g : UInt16) (l : List (Body × Mac48)) (n : Nat) :
    after w (exOps w lk g l n) = autoRun w lk g n ((exStart l).foldl (step w) (init w)) := by
  unfold after exOps
  rw [List.foldl_append, autoRun_eq]

/-- Only the client and the second access point hear each other; they are 1 m apart, the first access point is 6 m away. -/
def onlyB : Links := fun i _ => ⟨fun j => if i + j = 2 then 3333 else 20000, fun j => if i + j = 2 then 1000 else 0⟩

/-- At the start the client hears the first access point better, later only the second one. -/
def firstA : Links := fun i t => ⟨fun j => if i + j = 2 then 3333 else if i = 0 ∨ i + j = 1 ∧ t = 0 then 3000 else 20000,
  fun j => if i + j = 2 then 1000 else if i + j = 1 ∧ t = 0 then 100000 else 0⟩

/-- The end of the run. -/
def exRun (ways : Nat) (wa : Bool) (q : UInt16) (lk : Links) (g : UInt16) (l : List (Body × Mac48)) (n : Nat) : St ℕ :=
  autoRun (exW ways wa false q) lk g n ((exStart l).foldl (step (exW ways wa false q)) (init (exW ways wa false q)))

theorem exRun_after (ways : Nat) (wa : Bool) (q : UInt16) (lk : Links) (g : UInt16) (l : List (Body × Mac48)) (n : Nat) :
    after (exW ways wa false q) (exOps (exW ways wa false q) lk g l n) = exRun ways wa q lk g l n := exOps_after _ _ _ _ _

/-! Where no client is, nothing happens. -/

section
variable {w : World P} {a : Mac48}

theorem macStep_other (ha : ∀ i, w.plan.isAp (w.addr i) = false → w.addr i ≠ a) (i : Nat) (o : MOp) (n : CNet.Net) :
    (macStep w i o n).cl a = n.cl a := by
  unfold macStep
  by_cases h : w.plan.isAp (w.addr i) = true
  · rw [if_pos h]
  · rw [if_neg h]
    exact Function.update_of_ne (Ne.symm (ha i (by simpa using h))) _ _

theorem devStep_other (ha : ∀ i, w.plan.isAp (w.addr i) = false → w.addr i ≠ a) (i : Nat) (o : MOp) (L : Link P) (s : St P) :
    (devStep w i o L s).net.cl a = s.net.cl a := macStep_other ha i o s.net

theorem step_other (ha : ∀ i, w.plan.isAp (w.addr i) = false → w.addr i ≠ a) (s : St P) (o : Op P) :
    (step w s o).net.cl a = s.net.cl a := by
  unfold step
  by_cases h : allowed w s o = true
  · rw [if_pos h]
    cases o with
    | enqueue i b dst L => exact devStep_other ha _ _ _ _
    | mac i tid L => exact devStep_other ha _ _ _ _
    | land n j L =>
      show (landStep w n j L s).net.cl a = _
      unfold landStep
      dsimp only
      split_ifs
      · exact devStep_other ha _ _ _ _
      · rfl
    | phy i tid g L =>
      show (phyStep w i tid g L s).net.cl a = _
      unfold phyStep
      dsimp only
      split
      · rfl
      · split
        · rfl
        · exact devStep_other ha _ _ _ _
      · rename_i pw _
        have : ∀ (l : List (Nat × Bool)) (s' : St P), (l.foldl (report w i g pw L) s').net.cl a = s'.net.cl a := by
          intro l
          induction l with
          | nil => intro s'; rfl
          | cons x l ih =>
            intro s'
            rw [List.foldl_cons, ih]
            unfold report
            split
            · rfl
            · split
              · rfl
              · exact devStep_other ha _ _ _ _
        exact this _ _
    | tick d =>
      show (tickStep w d s).net.cl a = _
      unfold tickStep
      dsimp only
      have : ∀ (l : List Nat) (n : CNet.Net), (l.foldl (fun n i => macStep w i (.advance d) n) n).cl a = n.cl a := by
        intro l
        induction l with
        | nil => intro n; rfl
        | cons x l ih => intro n; rw [List.foldl_cons, ih, macStep_other ha]
      exact this _ _
  · rw [if_neg h]

theorem after_other (ha : ∀ i, w.plan.isAp (w.addr i) = false → w.addr i ≠ a) (ops : List (Op P)) :
    (after w ops).net.cl a = (init w).net.cl a := by
  unfold after
  have : ∀ s : St P, (ops.foldl (step w) s).net.cl a = s.net.cl a := by
    induction ops with
    | nil => intro s; rfl
    | cons o l ih => intro s; rw [List.foldl_cons, ih, step_other ha]
  exact this _

end

/-- The counters of the example did not wrap if the client's did not. -/
theorem exW_noWrap {ways : Nat} {wa wb : Bool} {q : UInt16} {ops : List (Op ℕ)}
    (h : q.toNat + CNet.numAccepted ((after (exW ways wa wb q) ops).net.cl exC).log ≤ 65535) :
    CNet.NoWrap (exW ways wa wb q).plan (after (exW ways wa wb q) ops).net := by
  intro x
  by_cases e : x = exC
  · subst e
    have e1 : (exW ways wa wb q).plan.seq0 exC = q := by simp [exW, exPlan]
    rw [e1]; exact h
  · have e1 : (exW ways wa wb q).plan.seq0 x = 0 := by simp [exW, exPlan, e]
    rw [e1, after_other (a := x)]
    · show 0 + 0 ≤ 65535
      decide
    · intro i hi he
      apply e
      rw [← he]
      have : ∀ i, exAddr i = exC ∨ exAddr i = exA ∨ exAddr i = exB := by
        intro i; unfold exAddr; split_ifs <;> simp
      rcases this i with h1 | h1 | h1
      · exact h1
      · have : (exW ways wa wb q).addr i = exA := h1
        rw [this] at hi
        simp [exW, exPlan] at hi
      · have : (exW ways wa wb q).addr i = exB := h1
        rw [this] at hi
        simp [exW, exPlan] at hi

/-! ## Cases of C124 and C125 -/

/-- The three-way exchange for two packets, 1 m apart. -/
def exNear (n : Nat) : St ℕ := exRun 3 false 0 onlyB 0 [(body1, exB), (body2, exB)] n

/-- The frames of the first exchange. -/
def exCta : Frame := Ap.ctaFrame exB bcast 0 12 0
def exRts : Frame := ⟨1, .rts, exC, exB, 1, 0, 0, 0, noBody⟩
def exCts : Frame := ⟨1, .cts, exB, exC, 1, 1, 14, 0, noBody⟩
def exData : Frame := ⟨0, .data, exC, exB, 1, 0, 0, 0, body1⟩
def exAck : Frame := ⟨2, .ack, exB, exC, 1, 0, 0, 0, noBody⟩

-- CTA, RTS, CTS, DATA and ACK are transmitted and received
example : sentBy 0 (exNear 112).air.log = [(6522, exRts), (85774, exData)] ∧
    receivedBy 0 (exNear 112).air.log = [(4522, exCta), (84774, exCts), (474510, exAck)] ∧
    (receivedBy 2 (exNear 112).air.log) = [(11098, exRts), (469988, exData)] ∧
    clientHeard ((exNear 112).net.cl exC).log = [(4522, exCta), (84774, exCts), (474510, exAck)] ∧
    apHeard ((exNear 112).net.ap exB).log = [exRts, exData] := by decide +kernel

/-- The hypotheses of C101-C103 hold: the client reports success and the packet was passed up. -/
example : ∃ ops, CNet.NoWrap (exW 3 false false 0).plan (after (exW 3 false false 0) ops).net ∧
    CNet.Solicited (after (exW 3 false false 0) ops).net ∧
    Client.Obs.done true ⟨0, 1, exB, body1⟩ ∈ ((after (exW 3 false false 0) ops).net.cl exC).log ∧
    CNet.deliveries exC ((after (exW 3 false false 0) ops).net.ap exB).log = [(body1, exB, 1)] ∧
    CNet.acceptances ((after (exW 3 false false 0) ops).net.cl exC).log = [(body1, exB, 1), (body2, exB, 2)] := by
  refine ⟨exOps (exW 3 false false 0) onlyB 0 [(body1, exB), (body2, exB)] 125, exW_noWrap ?_,
    (inv_after (exW_wf _ _ _ _) _).reach.solicited (fun b => by simp [exW, exPlan]), ?_⟩ <;> rw [exRun_after] <;> decide +kernel

/-- The hypotheses of C125 hold for the first CTA at the client. -/
example : ∃ ops x, Air.Obs.tx 1 x ∈ (after (exW 3 false false 0) ops).air.log ∧ x.f = exCta ∧ x.i = 2 ∧ 0 < x.dur ∧
    ((exW 3 false false 0).pcfg 0).loud (x.pw 0) = true ∧ ((exW 3 false false 0).pcfg 0).sinr (x.pw 0) [] = true ∧
    Undisturbed (after (exW 3 false false 0) ops).air.log 1 x 0 ∧ x.t + x.delay 0 + x.dur < (after (exW 3 false false 0) ops).air.now := by
  have hx : (exNear 10).air.sent[1]?.map (fun x => (x.t, x.i, x.f, x.dur, x.delay 0, x.pw 0)) = some (0, 2, exCta, 1189, 3333, 1000) := by
    decide +kernel
  obtain ⟨x, hn, hx⟩ := Option.map_eq_some_iff.1 hx
  simp only [Prod.mk.injEq] at hx
  obtain ⟨e1, e2, e3, e4, e5, e6⟩ := hx
  refine ⟨exOps (exW 3 false false 0) onlyB 0 [(body1, exB), (body2, exB)] 10, x, ?_⟩
  have hi := (inv_after (exW_wf 3 false false 0) (exOps (exW 3 false false 0) onlyB 0 [(body1, exB), (body2, exB)] 10)).ai (exW_wf _ _ _ _)
  rw [exRun_after] at hi ⊢
  have hall : (exNear 10).air.log.all (fun o => match o with
      | .tx n x => decide (x.i ≠ 0 ∧ (n = 1 ∨ x.t = 0 ∧ x.delay 0 = 20000))
      | _ => true) = true := by decide +kernel
  rw [e1, e2, e3, e4, e5, e6]
  refine ⟨(hi.logTx _ _).2 hn, rfl, rfl, by decide, by decide, by decide, ⟨fun a z n' x' e h => ?_, fun n' x' h1 h2 h3 => ?_⟩, by decide +kernel⟩
  · have e' : (exNear 10).air.log = _ := e
    rw [e', List.all_append, List.all_cons, Bool.and_eq_true, Bool.and_eq_true] at hall
    simp only [decide_eq_true_eq] at hall
    exact absurd h hall.2.1.1
  · have := List.all_eq_true.1 hall _ h1
    simp only [decide_eq_true_eq] at this
    obtain ⟨h4, h5⟩ := this.2.resolve_left h3
    right
    rw [h4, h5, e1, e4, e5]
    decide

/-! ## C101 and C103 violated by complete devices -/

/-- The packet was for the first access point, which never heard it; the second one passed it up, and the client reports success. -/
theorem C101_complete_other_ap_violated : (exW 1 false false 0).Wf ∧ ∃ ops,
    CNet.NoWrap (exW 1 false false 0).plan (after (exW 1 false false 0) ops).net ∧
    Client.Obs.done true ⟨0, 1, exA, body1⟩ ∈ ((after (exW 1 false false 0) ops).net.cl exC).log ∧
    CNet.deliveries exC ((after (exW 1 false false 0) ops).net.ap exA).log = [] ∧
    CNet.deliveries exC ((after (exW 1 false false 0) ops).net.ap exB).log = [(body1, exA, 1)] ∧
    ((after (exW 1 false false 0) ops).net.cl exC).ub = false := by
  refine ⟨exW_wf _ _ _ _, exOps (exW 1 false false 0) onlyB 0 [(body1, exA), (body2, exA)] 165, exW_noWrap ?_, ?_⟩ <;> rw [exRun_after] <;> decide +kernel

/-- The counter starts at 65534, so the second packet has number 0 and is taken for an old one; it is acknowledged. -/
theorem C101_complete_wrap_violated : (exW 1 false false 65534).Wf ∧ ∃ ops,
    Client.Obs.done true ⟨1, 0, exB, body2⟩ ∈ ((after (exW 1 false false 65534) ops).net.cl exC).log ∧
    CNet.deliveries exC ((after (exW 1 false false 65534) ops).net.ap exB).log = [(body1, exB, 65535)] ∧
    CNet.deliveries exC ((after (exW 1 false false 65534) ops).net.ap exA).log = [] ∧
    ((after (exW 1 false false 65534) ops).net.cl exC).ub = false := by
  refine ⟨exW_wf _ _ _ _, exOps (exW 1 false false 65534) onlyB 0 [(body1, exB), (body2, exB), (body3, exB)] 285, ?_⟩
  rw [exRun_after]
  decide +kernel

/-- The first access point is sounding; the number in the client's dummy RTS is whatever the uninitialised header contains, here 2.
The second access point grants it: the second packet overtakes the first, which is then taken for an old one and acknowledged. -/
theorem C101_complete_overtake_violated : (exW 3 true false 0).Wf ∧ ∃ ops,
    CNet.NoWrap (exW 3 true false 0).plan (after (exW 3 true false 0) ops).net ∧
    Client.Obs.done true ⟨0, 1, exB, body1⟩ ∈ ((after (exW 3 true false 0) ops).net.cl exC).log ∧
    CNet.deliveries exC ((after (exW 3 true false 0) ops).net.ap exB).log = [(body2, exB, 2)] ∧
    CNet.deliveries exC ((after (exW 3 true false 0) ops).net.ap exA).log = [] ∧
    ((after (exW 3 true false 0) ops).net.cl exC).ub = false := by
  refine ⟨exW_wf _ _ _ _, exOps (exW 3 true false 0) firstA 2 [(body1, exB), (body2, exB), (body3, exB)] 250, exW_noWrap ?_, ?_⟩ <;> rw [exRun_after] <;> decide +kernel

/-- An access point passes up and acknowledges a packet for another one. -/
theorem C103_complete_stranger_violated : (exW 1 false false 0).Wf ∧ ∃ ops t f,
    Ap.Obs.up body1 exC exA 1 ∈ ((after (exW 1 false false 0) ops).net.ap exB).log ∧
    Ap.Obs.handed t f ∈ ((after (exW 1 false false 0) ops).net.ap exB).log ∧ f.kind = .ack ∧ f.dst = exC ∧ f.seq = 1 ∧
    exB ≠ exA ∧ exA ≠ bcast := by
  refine ⟨exW_wf _ _ _ _, exOps (exW 1 false false 0) onlyB 0 [(body1, exA), (body2, exA)] 165, 825132, CNet.ackB 1 1, ?_⟩
  rw [exRun_after]
  decide +kernel

end Thz.CStack
