import Verif.PhyMacroProps
import Mathlib.Logic.Function.Basic

/-!
# Macro PHYs on one channel, under any MACs

`num` macro PHYs (`PhyMacro`, model/thz-phy-macro.cc) on one `THzChannel` (model/thz-channel.cc:107-208).  What the MACs hand over,
and when, is left open here: every MAC that uses `THzPhyMacro` is covered.  `CStack` puts access points and clients of the
centralised scenario on top.

One clock: nothing runs before it is due and time does not pass beyond anything that is due.  Events due at the same time run in any
order (the simulator runs them in the order in which they were scheduled: one of the orders considered here).

Simplifications: times are integers; the propagation delays and the powers with which a transmission arrives are arbitrary and may be
different for every transmission and receiver (they come from the mobility, propagation-loss and antenna models, evaluated when the
transmission starts); the noise entries of the channel, which nothing reads, are left out.
-/

namespace Thz.Air

/-- A transmission: when it started, who transmits, the frame, how long it takes, and the delay and the power of its arrival at each
device (`THzSpectrumSignalParameters` and the values computed in model/thz-channel.cc:139-177). -/
structure Tx (F P : Type) where
  t : ℤ
  i : Nat
  f : F
  dur : Nat
  delay : Nat → Nat
  pw : Nat → P

variable {F P : Type}

/-- When it starts to arrive at device `j` (model/thz-channel.cc:176-181). -/
def Tx.first (x : Tx F P) (j : Nat) : ℤ := x.t + x.delay j

/-- When it has completely arrived at device `j` (model/thz-channel.cc:199). -/
def Tx.last (x : Tx F P) (j : Nat) : ℤ := x.t + x.delay j + x.dur

/-- What is seen on the air. -/
inductive Obs (F P : Type)
  /-- transmission `n` starts. -/
  | tx (n : Nat) (x : Tx F P)
  /-- device `j` received transmission `n` without error and gives frame `f` to its MAC. -/
  | rx (t : ℤ) (n j : Nat) (f : F)

/-- The devices and the parameters of their PHYs. -/
structure World (P : Type) where
  num : Nat
  pcfg : Nat → PhyMacro.Cfg P

/-- The state: `sent` are the transmissions so far, `fly` the (transmission, receiver) pairs on their way, `heard j` the transmissions
that have begun to arrive at `j`, in this order. -/
structure St (F P : Type) where
  now : ℤ
  phy : Nat → PhyMacro.St P
  sent : List (Tx F P)
  fly : List (Nat × Nat)
  heard : Nat → List Nat
  log : List (Obs F P)

/-- The start. -/
def init (F P : Type) : St F P :=
  { now := 0, phy := fun _ => PhyMacro.init P, sent := [], fly := [], heard := fun _ => [], log := [] }

/-- `THzPhyMacro::SendPacket` (model/thz-phy-macro.cc:242-277) with `THzChannel::SendPacket` (model/thz-channel.cc:107-184): an arrival
at every other device. -/
def send (w : World P) (i : Nat) (f : F) (dur : Nat) (delay : Nat → Nat) (pw : Nat → P) (s : St F P) : St F P :=
  let r := PhyMacro.sendPacket s.sent.length dur (s.phy i)
  if r.1 = true then
    { s with
      phy := Function.update s.phy i r.2
      sent := s.sent ++ [⟨s.now, i, f, dur, delay, pw⟩]
      fly := s.fly ++ ((List.range w.num).filter (fun j => j ≠ i)).map (fun j => (s.sent.length, j))
      log := s.log ++ [.tx s.sent.length ⟨s.now, i, f, dur, delay, pw⟩] }
  else { s with phy := Function.update s.phy i r.2 }

/-- `THzChannel::ReceivePacket` (model/thz-channel.cc:193-200) → `THzPhyMacro::ReceivePacket` (model/thz-phy-macro.cc:287-329). -/
def land (w : World P) (n j : Nat) (s : St F P) : St F P :=
  match s.sent[n]? with
  | none => s
  | some x =>
    { s with
      fly := s.fly.filter (fun z => z ≠ (n, j))
      heard := Function.update s.heard j (s.heard j ++ [n])
      phy := Function.update s.phy j (PhyMacro.step (w.pcfg j) (s.phy j) (.arrive x.dur (x.pw j))) }

/-- The arrivals reported to the MAC without error in a piece of the PHY's log. -/
def okIn (l : List (PhyMacro.Obs P)) : List Nat := l.filterMap (fun o => match o with
  | .notice _ id true => some id
  | _ => none)

/-- What the MAC of device `i` is given for arrival `id`. -/
def given (i : Nat) (s : St F P) (id : Nat) : Option (Obs F P) :=
  match (s.heard i)[id]? with
  | none => none
  | some n =>
    match s.sent[n]? with
    | none => none
    | some x => some (.rx s.now n i x.f)

/-- An event of PHY `i`: `THzChannel::SendPacketDone` → `THzPhyMacro::SendPacketDone` (model/thz-channel.cc:186-191,
model/thz-phy-macro.cc:279-285) or `THzChannel::ReceivePacketDone` → `THzPhyMacro::ReceivePacketDone` (model/thz-channel.cc:202-208,
model/thz-phy-macro.cc:331-396). -/
def fire (w : World P) (i tid : Nat) (s : St F P) : St F P :=
  let p' := PhyMacro.fire (w.pcfg i) tid (s.phy i)
  { s with
    phy := Function.update s.phy i p'
    log := s.log ++ (okIn (p'.log.drop (s.phy i).log.length)).filterMap (given i s) }

/-- Time passes. -/
def tick (w : World P) (d : Nat) (s : St F P) : St F P :=
  { s with now := s.now + d, phy := fun i => PhyMacro.step (w.pcfg i) (s.phy i) (.advance d) }

/-! ## Runs -/

/-- What can happen. -/
inductive Op (F P : Type)
  /-- the MAC of device `i` calls `SendPacket`. -/
  | send (i : Nat) (f : F) (dur : Nat) (delay : Nat → Nat) (pw : Nat → P)
  /-- transmission `n` begins to arrive at device `j`. -/
  | land (n j : Nat)
  /-- an event of PHY `i`. -/
  | fire (i tid : Nat)
  /-- time passes. -/
  | tick (d : Nat)

/-- Is the arrival due by this time? -/
def dueBy (s : St F P) (t : ℤ) (z : Nat × Nat) : Bool := s.sent[z.1]?.any (fun x => decide (x.first z.2 ≤ t))

/-- Is the arrival due at this time or later? -/
def dueFrom (s : St F P) (t : ℤ) (z : Nat × Nat) : Bool := s.sent[z.1]?.all (fun x => decide (t ≤ x.first z.2))

/-- The operation respects time. -/
def allowed (w : World P) (s : St F P) : Op F P → Bool
  | .send i _ _ _ _ => decide (i < w.num)
  | .land n j => decide ((n, j) ∈ s.fly) && dueBy s s.now (n, j)
  | .fire i tid => decide (i < w.num) && (s.phy i).pend.all (fun e => e.1 ≠ tid || decide (e.2.1 ≤ s.now))
  | .tick d => s.fly.all (dueFrom s (s.now + d)) &&
    (List.range w.num).all (fun i => (s.phy i).pend.all (fun e => decide (s.now + d ≤ e.2.1)))

/-- One operation; what is not allowed does nothing. -/
def step (w : World P) (s : St F P) (o : Op F P) : St F P :=
  if allowed w s o = true then
    match o with
    | .send i f dur delay pw => send w i f dur delay pw s
    | .land n j => land w n j s
    | .fire i tid => fire w i tid s
    | .tick d => tick w d s
  else s

/-- The state after a history. -/
def after (w : World P) (ops : List (Op F P)) : St F P := ops.foldl (step w) (init F P)

theorem after_snoc (w : World P) (ops : List (Op F P)) (o : Op F P) : after w (ops ++ [o]) = step w (after w ops) o := by
  unfold after
  rw [List.foldl_append]; rfl

/-- The nanosecond of model/thz-phy-macro.cc:337 is not negative. -/
def World.Wf (w : World P) : Prop := ∀ i, 0 ≤ (w.pcfg i).ns

end Thz.Air
