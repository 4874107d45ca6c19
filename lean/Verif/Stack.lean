import Verif.Macro
import Verif.PhyMacro
import Verif.Channel

/-!
# Complete macro devices on one channel

`num` nodes, each a macro MAC (`Macro`), a macro PHY (`PhyMacro`) and an entry in the device list of one `THzChannel` (`Channel`).
This file only connects the three models the way the code does; the behaviour of each layer is in its own file.

* MAC to PHY to channel: `THzMacMacro::SendPacket` → `THzPhyMacro::SendPacket` → `THzChannel::SendPacket`
  (model/thz-mac-macro.cc:786-805, model/thz-phy-macro.cc:242-277, model/thz-channel.cc:107-184).
* channel to PHY to MAC: `SendPacketDone` (model/thz-channel.cc:186-191, model/thz-phy-macro.cc:279-285),
  `ReceivePacket` (model/thz-channel.cc:193-200, model/thz-phy-macro.cc:287-329) and
  `ReceivePacketDone` (model/thz-channel.cc:202-208, model/thz-phy-macro.cc:331-396).
* the MAC asks the PHY whether it is idle (model/thz-mac-macro.cc:329, 357): in the MAC model that is `phyTx` and `sense`;
  `sense` is set to the carrier sense of the PHY before every call of the MAC that can follow a change.

There is one clock.  Nothing runs before it is due and time does not pass beyond anything that is due.  Events due at the same time
run in any order (the simulator runs them in the order in which they were scheduled: one of the orders considered here).

Simplifications: the devices are attached before anything else happens; propagation delays and powers are given functions of time,
sender and receiver (they come from the mobility, propagation-loss and antenna models).
-/

namespace Thz.Stack

open Thz
open Thz.Nano (Body bcast)
open Thz.Macro (Frame)

/-- The scenario: number of devices, their addresses and attributes, first (uninitialised) sequence numbers, and the propagation
from a sender to a receiver at a time. -/
structure World (P : Type) where
  num : Nat
  addr : Nat → Mac48
  mcfg : Mac48 → Macro.Cfg
  seq0 : Mac48 → UInt16
  pcfg : Nat → PhyMacro.Cfg P
  delay : ℤ → Nat → Nat → Nat
  power : ℤ → Nat → Nat → P

/-- What passes between MAC and PHY, with the time: transmission number `n`, the device, the frame. -/
inductive AObs
  /-- the PHY of device `i` starts to transmit frame `f`: transmission `n`. -/
  | tx (t : ℤ) (n i : Nat) (f : Frame)
  /-- the PHY of device `i` reports to its MAC that it received transmission `n`, frame `f`, without error. -/
  | rx (t : ℤ) (n i : Nat) (f : Frame)
deriving DecidableEq

/-- The state: all MACs, all PHYs, the channel; the frame of each transmission; for each PHY, which copy (number `k`) of which
transmission (number `n`) its arrival number 0, 1, ... was. -/
structure St (P : Type) where
  mac : Mac48 → Macro.St
  phy : Nat → PhyMacro.St P
  ch : Channel.St P
  frames : List Frame
  heard : Nat → List (Nat × Nat)
  air : List AObs

variable {P : Type}

/-- All devices are attached (`AddDevice`, model/thz-channel.cc:100-105). -/
def init (w : World P) : St P :=
  { mac := fun a => Macro.init (w.seq0 a), phy := fun _ => PhyMacro.init P
    ch := Channel.after ((List.range w.num).map .attach), frames := [], heard := fun _ => [], air := [] }

/-- How long device `i` transmits a frame (model/thz-phy-macro.cc:256-269; durations are not negative). -/
def World.airtime (w : World P) (i : Nat) (f : Frame) : Nat := ((w.mcfg (w.addr i)).frameDur f).toNat

/-- Delay and power from device `i` to each device (model/thz-channel.cc:135-182). -/
def World.links (w : World P) (t : ℤ) (i : Nat) : List (Nat × P) :=
  (List.range w.num).map (fun j => (w.delay t i j, w.power t i j))

/-- `THzPhyMacro::SendPacket` and `THzChannel::SendPacket` for a frame the MAC of device `i` hands over
(model/thz-phy-macro.cc:242-277, model/thz-channel.cc:107-184). -/
def transmit (w : World P) (i : Nat) (f : Frame) (s : St P) : St P :=
  let n := s.frames.length
  let r := PhyMacro.sendPacket n (w.airtime i f) (s.phy i)
  if r.1 = true then
    { s with
      phy := Function.update s.phy i r.2
      ch := Channel.step s.ch (.send i (w.airtime i f) (w.links s.ch.now i))
      frames := s.frames ++ [f]
      air := s.air ++ [.tx s.ch.now n i f] }
  else { s with phy := Function.update s.phy i r.2 }

/-- The frames handed to the PHY in a piece of the MAC's log. -/
def handedIn (l : List Macro.Obs) : List Frame := l.filterMap (fun o => match o with
  | .handed f => some f
  | _ => none)

/-- One operation of the MAC of device `i`; what it hands over is transmitted. -/
def macStep (w : World P) (i : Nat) (op : Macro.Op) (s : St P) : St P :=
  let m := s.mac (w.addr i)
  let m' := Macro.step (w.mcfg (w.addr i)) (w.addr i) m op
  (handedIn (m'.log.drop m.log.length)).foldl (fun s f => transmit w i f s)
    { s with mac := Function.update s.mac (w.addr i) m' }

/-- The event number of the PHY's pending end of transmission. -/
def phyTxTid (p : PhyMacro.St P) : Option Nat :=
  (p.pend.find? (fun e => match e.2.2 with | .txDone _ => true | _ => false)).map (·.1)

/-- The event number of the PHY's pending end of arrival `id`. -/
def phyRxTid (id : Nat) (p : PhyMacro.St P) : Option Nat :=
  (p.pend.find? (fun e => match e.2.2 with | .rxDone j _ => decide (j = id) | _ => false)).map (·.1)

/-- The event number of the MAC's pending end of transmission. -/
def macTxTid (m : Macro.St) : Option Nat :=
  (m.pend.find? (fun e => match e.2.2 with | .phyDone _ => true | _ => false)).map (·.1)

/-- Run an event of PHY `i`. -/
def phyFire (w : World P) (i tid : Nat) (s : St P) : St P :=
  { s with phy := Function.update s.phy i (PhyMacro.fire (w.pcfg i) tid (s.phy i)) }

/-- Tell the MAC what its PHY senses. -/
def tellSense (w : World P) (i : Nat) (s : St P) : St P := macStep w i (.sense (s.phy i).csBusy) s

/-- `THzChannel::SendPacketDone` → `THzPhyMacro::SendPacketDone` → `THzMacMacro::SendPacketDone`
(model/thz-channel.cc:186-191, model/thz-phy-macro.cc:279-285, model/thz-mac-macro.cc:807-840).  The events are pending in the
models of all three layers; they are one event of the simulator. -/
def onTxEnd (w : World P) (i : Nat) (s : St P) : St P :=
  match phyTxTid (s.phy i), macTxTid (s.mac (w.addr i)) with
  | some t, some t' => macStep w i (.fire t') (tellSense w i (phyFire w i t s))
  | _, _ => s

/-- Did the PHY lock on to a frame in this piece of its log? -/
def announcedIn (l : List (PhyMacro.Obs P)) : Bool := l.any (fun o => match o with
  | .announced _ _ => true
  | _ => false)

/-- `THzPhyMacro::ReceivePacket` (model/thz-phy-macro.cc:287-329) for copy `k` of transmission `n`. -/
def onArrival (w : World P) (i k n dur : Nat) (pw : P) (s : St P) : St P :=
  let p := s.phy i
  let p' := PhyMacro.step (w.pcfg i) p (.arrive dur pw)
  let s := tellSense w i { s with phy := Function.update s.phy i p', heard := Function.update s.heard i (s.heard i ++ [(k, n)]) }
  if announcedIn (p'.log.drop p.log.length) = true then macStep w i .rxStart s else s

/-- The results reported to the MAC in a piece of the PHY's log. -/
def noticesIn (l : List (PhyMacro.Obs P)) : List (Nat × Bool) := l.filterMap (fun o => match o with
  | .notice _ id ok => some (id, ok)
  | _ => none)

/-- `m_mac->ReceivePacketDone` for arrival `id` (model/thz-phy-macro.cc:366-391).  `g` is the content of the uninitialised
duration field (see `Macro.receiveRts`). -/
def report (w : World P) (i : Nat) (g : UInt16) (s : St P) (x : Nat × Bool) : St P :=
  match (s.heard i)[x.1]? with
  | none => s
  | some (_, n) =>
    match s.frames[n]? with
    | none => s
    | some f =>
      let s := macStep w i (.rxDone f x.2 g) s
      if x.2 = true then { s with air := s.air ++ [.rx s.ch.now n i f] } else s

/-- `THzPhyMacro::ReceivePacketDone` (model/thz-phy-macro.cc:331-396) for copy `k`. -/
def onFinish (w : World P) (i k : Nat) (g : UInt16) (s : St P) : St P :=
  let p := s.phy i
  match phyRxTid ((s.heard i).findIdx (fun x => x.1 = k)) p with
  | none => s
  | some t =>
    let s := tellSense w i (phyFire w i t s)
    (noticesIn ((s.phy i).log.drop p.log.length)).foldl (report w i g) s

/-- An event of the channel, with the call of the PHY and the MAC in it (model/thz-channel.cc:186-223). -/
def chanStep (w : World P) (tid : Nat) (g : UInt16) (s : St P) : St P :=
  let ch := Channel.step s.ch (.fire tid)
  let s' := { s with ch := ch }
  match ch.log.drop s.ch.log.length with
  | [.txEnd _ _ i] => onTxEnd w i s'
  | [.arrival _ k n _ i dur pw] =>
    let s'' := onArrival w i k n dur.toNat pw s'
    { s'' with ch := Channel.step s''.ch .ret }
  | [.finish _ k _ _ i _] =>
    let s'' := onFinish w i k g s'
    { s'' with ch := Channel.step s''.ch .ret }
  | _ => s'

/-- Time passes. -/
def tickStep (w : World P) (d : Nat) (s : St P) : St P :=
  let s := (List.range w.num).foldl (fun s i => macStep w i (.advance d) s) s
  { s with
    phy := fun i => if i < w.num then PhyMacro.step (w.pcfg i) (s.phy i) (.advance d) else s.phy i
    ch := Channel.step s.ch (.advance d) }

/-! ## Runs -/

/-- What can happen. -/
inductive Op
  /-- a packet is handed to the MAC of device `i`. -/
  | enqueue (i : Nat) (b : Body) (dst : Mac48) (g : UInt16)
  /-- an event of the MAC of device `i` other than the end of a transmission. -/
  | mac (i tid : Nat)
  /-- an event of the channel. -/
  | chan (tid : Nat) (g : UInt16)
  /-- time passes. -/
  | tick (d : Nat)
deriving DecidableEq

/-- A MAC event that is not the end of a transmission. -/
def own : Macro.Ev → Bool
  | .phyDone _ => false
  | _ => true

/-- The operation respects time and is one of this scenario. -/
def allowed (w : World P) (s : St P) : Op → Bool
  | .enqueue i _ _ _ => decide (i < w.num)
  | .mac i tid => decide (i < w.num) &&
    match (s.mac (w.addr i)).pend.find? (fun e => e.1 = tid) with
    | none => false
    | some (_, due, e) => decide (due ≤ s.ch.now) && own e
  | .chan tid _ =>
    match s.ch.pend.find? (fun e => e.1 = tid) with
    | none => false
    | some (_, due, _) => decide (due ≤ s.ch.now)
  | .tick d =>
    s.ch.pend.all (fun e => decide (s.ch.now + d ≤ e.2.1)) &&
    (List.range w.num).all (fun i => (s.mac (w.addr i)).pend.all (fun e => !own e.2.2 || decide (s.ch.now + d ≤ e.2.1)))

/-- One operation; what is not allowed does nothing. -/
def step (w : World P) (s : St P) (o : Op) : St P :=
  if allowed w s o = true then
    match o with
    | .enqueue i b dst g => macStep w i (.enqueue b dst g) s
    | .mac i tid => macStep w i (.fire tid) s
    | .chan tid g => chanStep w tid g s
    | .tick d => tickStep w d s
  else s

/-- The state after a history. -/
def after (w : World P) (ops : List Op) : St P := ops.foldl (step w) (init w)

/-- The addresses are different and none is the broadcast address. -/
structure World.Wf (w : World P) : Prop where
  inj : ∀ i < w.num, ∀ j < w.num, w.addr i = w.addr j → i = j
  uni : ∀ i < w.num, w.addr i ≠ bcast
  dur : ∀ i < w.num, ∀ f, 0 ≤ (w.mcfg (w.addr i)).frameDur f
  ns : ∀ i < w.num, 0 ≤ (w.pcfg i).ns

end Thz.Stack
