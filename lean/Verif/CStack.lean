import Verif.AirRx
import Verif.CentralNet
import Verif.ClientTx
import Verif.ApTx

/-!
# Complete devices of the centralised scenario on one channel

`num` devices, each an access point (`Ap`) or a client (`Client`) on top of a macro PHY and the channel (`Air`).  This file only
connects the models the way the code does; the behaviour of each layer is in its own file.

* MAC to PHY to channel: `SendPacket` (model/thz-mac-macro-ap.cc:571-590, model/thz-mac-macro-client.cc:612-631,
  model/thz-phy-macro.cc:242-277, model/thz-channel.cc:107-184).
* channel to PHY to MAC: `SendPacketDone` (model/thz-channel.cc:186-191, model/thz-phy-macro.cc:279-285), `ReceivePacket`
  (model/thz-channel.cc:193-200, model/thz-phy-macro.cc:287-329) and `ReceivePacketDone` (model/thz-channel.cc:202-208,
  model/thz-phy-macro.cc:331-396).

There is one clock.  Nothing runs before it is due and time does not pass beyond anything that is due.  Events due at the same time
run in any order (the simulator runs them in the order in which they were scheduled: one of the orders considered here).

Simplifications: times are integers; delays and powers of a transmission are chosen afresh and arbitrarily whenever a MAC could start
one (they come from the positions of the nodes, the propagation-loss model and the antennas, which the access point turns).
-/

namespace Thz.CStack

open Thz Thz.Central Thz.TxV
open Thz.Nano (Body bcast)

/-- The scenario: number of devices, their addresses, who is an access point and with which attributes (`CNet.Plan`), the parameters
of the PHYs, and a received power as the MAC gets it (dBm). -/
structure World (P : Type) where
  num : Nat
  addr : Nat → Mac48
  plan : CNet.Plan
  pcfg : Nat → PhyMacro.Cfg P
  dbm : P → ℚ

variable {P : Type}

/-- The PHYs and the channel. -/
def World.air (w : World P) : Air.World P := ⟨w.num, w.pcfg⟩

/-- Delay and power with which a transmission arrives at each device (model/thz-channel.cc:139-177). -/
structure Link (P : Type) where
  delay : Nat → Nat
  pw : Nat → P

/-- All MACs, and all PHYs with the channel. -/
structure St (P : Type) where
  net : CNet.Net
  air : Air.St Frame P

/-- The start. -/
def init (w : World P) : St P := ⟨CNet.start w.plan, Air.init Frame P⟩

/-- What the rest of the device can do to a MAC: `Enqueue`, run an event, `ReceivePacket`, `ReceivePacketDone`, and time. -/
inductive MOp
  | enqueue (b : Body) (dst : Mac48)
  | fire (tid : Nat)
  | rxStart
  | rxDone (f : Frame) (ok : Bool) (power : ℚ) (g : UInt16)
  | advance (d : Nat)

/-- For a client (the received power is not used: model/thz-mac-macro-client.cc:280-330). -/
def MOp.cl : MOp → Client.Op
  | .enqueue b dst => .enqueue b dst
  | .fire t => .fire t
  | .rxStart => .rxStart
  | .rxDone f ok _ g => .rxDone f ok g
  | .advance d => .advance d

/-- For an access point, whose `Enqueue` does nothing (model/thz-mac-macro-ap.cc:219-223). -/
def MOp.ap : MOp → Ap.Op
  | .enqueue _ _ => .advance 0
  | .fire t => .fire t
  | .rxStart => .rxStart
  | .rxDone f ok p _ => .rxDone f ok p
  | .advance d => .advance d

/-- One operation of the MAC of device `i`. -/
def macStep (w : World P) (i : Nat) (o : MOp) (n : CNet.Net) : CNet.Net :=
  if w.plan.isAp (w.addr i) = true then
    { n with ap := Function.update n.ap (w.addr i) (Ap.step (w.plan.acfg (w.addr i)) (w.addr i) (n.ap (w.addr i)) o.ap) }
  else
    { n with cl := Function.update n.cl (w.addr i) (Client.step (w.plan.ccfg (w.addr i)) (w.addr i) (n.cl (w.addr i)) o.cl) }

/-- The part of the MAC of device `i` that concerns its transmitter. -/
def view (w : World P) (i : Nat) (n : CNet.Net) : View :=
  if w.plan.isAp (w.addr i) = true then Ap.tv (n.ap (w.addr i)) else Client.tv (n.cl (w.addr i))

/-- What a MAC handed over in an operation, with the time it takes: the PHY's duration (model/thz-phy-macro.cc:254-263) is in the
MAC's model the time until the end of the transmission. -/
def newTx (v v' : View) : List (Frame × Nat) :=
  (v'.out.drop v.out.length).map (fun o => (o.2, match (txs v'.pend).find? (fun e => e.2.2 = o.2) with
    | some e => (e.2.1 - v'.now).toNat
    | none => 0))

/-- One operation of the MAC of device `i`; what it hands over is transmitted. -/
def devStep (w : World P) (i : Nat) (o : MOp) (L : Link P) (s : St P) : St P :=
  let n := macStep w i o s.net
  { net := n
    air := (newTx (view w i s.net) (view w i n)).foldl (fun a x => Air.send w.air i x.1 x.2 L.delay L.pw a) s.air }

/-- Transmission `n` begins to arrive at device `j`; the MAC is told if the PHY locked on to it. -/
def landStep (w : World P) (n j : Nat) (L : Link P) (s : St P) : St P :=
  let a := Air.land w.air n j s.air
  if Stack.announcedIn ((a.phy j).log.drop (s.air.phy j).log.length) = true then devStep w j .rxStart L { s with air := a }
  else { s with air := a }

/-- `m_mac->ReceivePacketDone` for arrival `x.1` (model/thz-phy-macro.cc:366-391).  `g` is the content of an uninitialised header
field (see `Client.dummyFrame`). -/
def report (w : World P) (i : Nat) (g : UInt16) (pw : P) (L : Link P) (s : St P) (x : Nat × Bool) : St P :=
  match (s.air.heard i)[x.1]? with
  | none => s
  | some n =>
    match s.air.sent[n]? with
    | none => s
    | some y => devStep w i (.rxDone y.f x.2 (w.dbm pw) g) L s

/-- The event number of the MAC's pending end of transmission. -/
def macTxTid (v : View) : Option Nat := (txs v.pend).head?.map (·.1)

/-- An event of PHY `i`, with the calls of the MAC in it.  The end of a transmission is pending in the models of both layers; it is
one event of the simulator. -/
def phyStep (w : World P) (i tid : Nat) (g : UInt16) (L : Link P) (s : St P) : St P :=
  let a := Air.fire w.air i tid s.air
  match (s.air.phy i).pend.find? (fun e => e.1 = tid) with
  | none => s
  | some (_, _, .txDone _) =>
    match macTxTid (view w i s.net) with
    | none => { s with air := a }
    | some t => devStep w i (.fire t) L { s with air := a }
  | some (_, _, .rxDone _ pw) =>
    (Stack.noticesIn ((a.phy i).log.drop (s.air.phy i).log.length)).foldl (report w i g pw L) { s with air := a }

/-- Time passes. -/
def tickStep (w : World P) (d : Nat) (s : St P) : St P :=
  { net := (List.range w.num).foldl (fun n i => macStep w i (.advance d) n) s.net, air := Air.tick w.air d s.air }

/-! ## Runs -/

/-- What can happen. -/
inductive Op (P : Type)
  /-- a packet is handed to the MAC of client `i`. -/
  | enqueue (i : Nat) (b : Body) (dst : Mac48) (L : Link P)
  /-- an event of the MAC of device `i` other than the end of a transmission. -/
  | mac (i tid : Nat) (L : Link P)
  /-- transmission `n` begins to arrive at device `j`. -/
  | land (n j : Nat) (L : Link P)
  /-- an event of PHY `i`. -/
  | phy (i tid : Nat) (g : UInt16) (L : Link P)
  /-- time passes. -/
  | tick (d : Nat)

/-- The operation respects time and is one of this scenario. -/
def allowed (w : World P) (s : St P) : Op P → Bool
  | .enqueue i _ _ _ => decide (i < w.num) && !w.plan.isAp (w.addr i)
  | .mac i tid _ => decide (i < w.num) && (view w i s.net).pend.any (fun e => e.1 = tid && e.2.2.isNone && decide (e.2.1 ≤ s.air.now))
  | .land n j _ => Air.allowed w.air s.air (.land n j)
  | .phy i tid _ _ => Air.allowed w.air s.air (.fire i tid)
  | .tick d => Air.allowed w.air s.air (.tick d) &&
    (List.range w.num).all (fun i => (view w i s.net).pend.all (fun e => e.2.2.isSome || decide (s.air.now + d ≤ e.2.1)))

/-- One operation; what is not allowed does nothing. -/
def step (w : World P) (s : St P) (o : Op P) : St P :=
  if allowed w s o = true then
    match o with
    | .enqueue i b dst L => devStep w i (.enqueue b dst) L s
    | .mac i tid L => devStep w i (.fire tid) L s
    | .land n j L => landStep w n j L s
    | .phy i tid g L => phyStep w i tid g L s
    | .tick d => tickStep w d s
  else s

/-- The state after a history. -/
def after (w : World P) (ops : List (Op P)) : St P := ops.foldl (step w) (init w)

theorem after_snoc (w : World P) (ops : List (Op P)) (o : Op P) : after w (ops ++ [o]) = step w (after w ops) o := by
  unfold after
  rw [List.foldl_append]; rfl

/-- How long a frame of device `i` may take. -/
def takes (w : World P) (i : Nat) : Frame → ℤ → Prop :=
  if w.plan.isAp (w.addr i) = true then (w.plan.acfg (w.addr i)).takes else (w.plan.ccfg (w.addr i)).takes

/-- The addresses are different, durations are not negative, the nanosecond of model/thz-phy-macro.cc:337 is not negative. -/
structure World.Wf (w : World P) : Prop where
  inj : ∀ i < w.num, ∀ j < w.num, w.addr i = w.addr j → i = j
  dur : ∀ i < w.num, ∀ f d, takes w i f d → 0 ≤ d
  ns : ∀ i, 0 ≤ (w.pcfg i).ns

end Thz.CStack
