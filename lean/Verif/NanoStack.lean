import Verif.NanoNetProps
import Verif.PhyNanoProps

/-!
# Complete nano devices on one channel

`num` nodes, each a nano MAC (`Nano`) with its energy store and a nano PHY (`PhyNano`), on one `THzChannel`.  This file connects the
models the way the code does; the behaviour of each layer is in its own file.

* MAC to PHY: `THzMacNano::SendPacket` → `THzPhyNano::SendPacket`; the MAC ignores the answer
  (model/thz-mac-nano.cc:468-486, model/thz-phy-nano.cc:171-308).
* PHY to channel: `ScheduleSendPacket` → `THzChannel::SendPacket`, which schedules one arrival per other device
  (model/thz-phy-nano.cc:311-325, model/thz-channel.cc:107-184).
* channel to PHY to MAC: `ReceivePacket` (model/thz-channel.cc:193-200, model/thz-phy-nano.cc:350-430) and
  `ReceivePacketDone` (model/thz-channel.cc:202-208, model/thz-phy-nano.cc:432-460, model/thz-mac-nano.cc:769-797).

The model of the MAC alone lets its events run at any time.  Here they get the due times of the code, and there is one clock: nothing
runs before it is due and time does not pass beyond anything that is due.  Events due at the same time run in any order (the simulator
runs them in the order in which they were scheduled: one of the orders considered here).

Simplifications: times are integers; propagation delays and powers are given functions of time, sender and receiver (they come from
the mobility, propagation-loss and antenna models); the duration of a frame is a given function of the device and the size
(`CalTxDuration`, model/thz-phy-nano.cc:462-471; it does not depend on `rate`); the random back-off and the times of the energy events are arbitrary; the noise entries
of the channel, which nothing reads, are left out.
-/

namespace Thz.NStack

open Thz
open Thz.Nano (Body bcast Frame Pkt Kind)

/-- The scenario: number of devices, addresses, attributes of MAC, energy and PHY, first contents of the energy stores, duration of a
frame by device and size, delay and power from a sender to a receiver at a time, and the length of a picosecond. -/
structure World (P : Type) where
  num : Nat
  addr : Nat → Mac48
  mcfg : Mac48 → Nano.Cfg
  e0 : Mac48 → ℚ
  pcfg : Nat → PhyNano.Cfg P
  airtime : Nat → Nat → Nat
  delay : ℤ → Nat → Nat → Nat
  power : ℤ → Nat → Nat → P
  ps : Nat

/-- A signal on its way to a device: when it arrives, the number of the transmission, the device, its duration and power
(the event `THzChannel::ReceivePacket` scheduled at model/thz-channel.cc:174-179). -/
structure Sig (P : Type) where
  due : ℤ
  n : Nat
  dst : Nat
  dur : Nat
  pw : P

/-- What passes between MAC, PHY and channel, with the time. -/
inductive AObs
  /-- the MAC of device `i` hands frame `f` to its PHY. -/
  | handed (t : ℤ) (i : Nat) (f : Frame)
  /-- the PHY of device `i` accepts frame `f`; its pulse train is to start at `start`. -/
  | accepted (t : ℤ) (i : Nat) (f : Frame) (start : ℤ)
  /-- device `i` starts to transmit frame `f`: transmission `n`. -/
  | tx (t : ℤ) (n i : Nat) (f : Frame)
  /-- the PHY of device `i` reports to its MAC that it received transmission `n`, frame `f`, without error. -/
  | rx (t : ℤ) (n i : Nat) (f : Frame)
deriving DecidableEq

/-- The state: the clock; all MACs, with the due times of their events; all PHYs, with the frames each has accepted (by transmission
number of the PHY) and the transmissions that arrived (by arrival number of the PHY); the frame of each transmission; the signals on
their way. -/
structure St (P : Type) where
  now : ℤ
  mac : Mac48 → Nano.St
  due : Nat → Nat → ℤ
  phy : Nat → PhyNano.St P
  acc : Nat → List Frame
  heard : Nat → List Nat
  frames : List Frame
  flight : List (Sig P)
  air : List AObs

variable {P : Type}

/-- The devices are installed; nothing has happened. -/
def init (w : World P) : St P :=
  { now := 0, mac := fun a => Nano.St.init (w.e0 a), due := fun _ _ => 0, phy := fun _ => PhyNano.init P, acc := fun _ => []
    heard := fun _ => [], frames := [], flight := [], air := [] }

/-- The timeout for an acknowledgement of a packet of this size (model/thz-mac-nano.cc:436). -/
def ackWait (w : World P) (i size : Nat) : Nat := w.airtime i size + w.airtime i 17 + 676 * w.ps

/-- The timeout for a CTS (model/thz-mac-nano.cc:385). -/
def ctsWait (w : World P) (i : Nat) : Nat := w.airtime i 18 + w.airtime i 19 + 676 * w.ps

/-- The timeout for DATA (model/thz-mac-nano.cc:618). -/
def dataWait (w : World P) (i : Nat) : Nat := w.airtime i 19 + 676 * w.ps

/-- The frames in a piece of the MAC's log, oldest first. -/
def framesIn (l : List Nano.Obs) : List Frame := l.reverse.filterMap (fun o => match o with
  | .tx f => some f
  | _ => none)

/-- Was a back-off started in this piece of the MAC's log? -/
def backedOff (l : List Nano.Obs) : Bool := l.any (fun o => match o with
  | .backoff _ => true
  | _ => false)

/-- How long after its scheduling event `tid` of a MAC is due: CTS, ACK and DATA timeouts (model/thz-mac-nano.cc:392, 442, 620), the
random back-off `g` (339), nothing for the next packet (530). -/
def wait (w : World P) (i g : Nat) (m : Nano.St) (new : List Nano.Obs) (tid : Nat) : Nat :=
  match m.pend.find? (fun e => e.1 = tid) with
  | none => 0
  | some (_, .ctsTimeout _) => ctsWait w i
  | some (_, .dataTimeout _) => dataWait w i
  | some (_, .ackTimeout _) =>
    match m.ackTO.find? (fun t => t.tid = tid) with
    | none => 0
    | some t => ackWait w i t.pkt.size
  | some (_, .checkResources _) => if backedOff new = true then g else 0

variable [AddCommMonoid P]

/-- `THzPhyNano::SendPacket` for a frame the MAC of device `i` hands over (model/thz-phy-nano.cc:171-308). -/
def transmit (w : World P) (i : Nat) (s : St P) (f : Frame) : St P :=
  let p' := PhyNano.step (w.pcfg i) (s.phy i) (.send (w.airtime i f.size))
  match p'.log.getLast? with
  | some (.accepted _ _ start _) =>
    { s with phy := Function.update s.phy i p', acc := Function.update s.acc i (s.acc i ++ [f])
             air := s.air ++ [.handed s.now i f, .accepted s.now i f start] }
  | _ => { s with phy := Function.update s.phy i p', air := s.air ++ [.handed s.now i f] }

/-- One operation of the MAC of device `i`: the events it schedules get their due times, what it hands over goes to the PHY. -/
def macStep (w : World P) (i g : Nat) (op : Nano.Op) (s : St P) : St P :=
  let m := s.mac (w.addr i)
  let m' := Nano.step (w.mcfg (w.addr i)) (w.addr i) m op
  let new := m'.log.take (m'.log.length - m.log.length)
  (framesIn new).foldl (transmit w i)
    { s with mac := Function.update s.mac (w.addr i) m'
             due := Function.update s.due i (fun tid => if m.nextTid ≤ tid then s.now + wait w i g m' new tid else s.due i tid) }

/-- `THzChannel::SendPacket` for transmission `id` of PHY `i` (model/thz-channel.cc:107-184): an arrival at every other device. -/
def launched (w : World P) (i id dur : Nat) (s : St P) : St P :=
  match (s.acc i)[id]? with
  | none => s
  | some f =>
    { s with
      frames := s.frames ++ [f]
      flight := s.flight ++ ((List.range w.num).filter (fun j => j ≠ i)).map
        (fun j => ⟨s.now + w.delay s.now i j, s.frames.length, j, dur, w.power s.now i j⟩)
      air := s.air ++ [.tx s.now s.frames.length i f] }

/-- `THzMacNano::ReceivePacketDone` called by the PHY of device `i` about arrival `id` (model/thz-phy-nano.cc:437-458). -/
def report (w : World P) (i id : Nat) (ok : Bool) (s : St P) : St P :=
  match (s.heard i)[id]? with
  | none => s
  | some n =>
    match s.frames[n]? with
    | none => s
    | some f => macStep w i 0 (.recv f ok) (if ok = true then { s with air := s.air ++ [.rx s.now n i f] } else s)

/-- The rest of `THzPhyNano::ReceivePacketDone` after the MAC has returned (model/thz-phy-nano.cc:446, 454). -/
def phyRet (w : World P) (i : Nat) (s : St P) : St P :=
  { s with phy := Function.update s.phy i (PhyNano.step (w.pcfg i) (s.phy i) .ret) }

/-- An event of PHY `i`, with the calls of the channel and of the MAC in it. -/
def phyStep (w : World P) (i tid : Nat) (s : St P) : St P :=
  match (s.phy i).pend.find? (fun e => e.1 = tid) with
  | none => s
  | some (_, _, e) =>
    let p' := PhyNano.step (w.pcfg i) (s.phy i) (.fire tid)
    let s := { s with phy := Function.update s.phy i p' }
    match e, p'.log.getLast? with
    | .launch id dur, _ => launched w i id dur.toNat s
    | .rxDone id, some (.notice _ _ ok) => phyRet w i (report w i id ok s)
    | _, _ => s

/-- `THzChannel::ReceivePacket` for transmission `n` at device `j` (model/thz-channel.cc:193-200); `junk` is the content of the uninitialised
interference field (see `PhyNano.Obs.arrived`). -/
def land (w : World P) (n j : Nat) (junk : P) (s : St P) : St P :=
  match s.flight.find? (fun x => x.n = n ∧ x.dst = j) with
  | none => s
  | some x =>
    { s with
      flight := s.flight.filter (fun x => ¬ (x.n = n ∧ x.dst = j))
      heard := Function.update s.heard j (s.heard j ++ [n])
      phy := Function.update s.phy j (PhyNano.step (w.pcfg j) (s.phy j) (.arrive x.dur x.pw junk)) }

/-- Time passes. -/
def tick (w : World P) (d : Nat) (s : St P) : St P :=
  { s with now := s.now + d, phy := fun i => PhyNano.step (w.pcfg i) (s.phy i) (.advance d) }

/-! ## Runs -/

/-- What can happen. -/
inductive Op (P : Type)
  /-- a packet is handed to the MAC of device `i`. -/
  | enqueue (i : Nat) (b : Body) (dst : Mac48)
  /-- an event of the MAC of device `i`; `g` is the length of the back-off if one starts. -/
  | mac (i tid g : Nat)
  /-- the energy store of device `i` is refilled. -/
  | harvest (i : Nat)
  /-- the energy model of device `i` is initialised again. -/
  | einit (i : Nat)
  /-- an event of the PHY of device `i`. -/
  | phy (i tid : Nat)
  /-- transmission `n` arrives at device `j`. -/
  | land (n j : Nat) (junk : P)
  /-- time passes. -/
  | tick (d : Nat)

/-- The operation respects time and is one of this scenario. -/
def allowed (w : World P) (s : St P) : Op P → Bool
  | .enqueue i _ _ => decide (i < w.num)
  | .mac i tid _ => decide (i < w.num) && decide (s.due i tid ≤ s.now)
  | .harvest i => decide (i < w.num)
  | .einit i => decide (i < w.num)
  | .phy i tid => decide (i < w.num) && (s.phy i).pend.all (fun e => e.1 ≠ tid || decide (e.2.1 ≤ s.now))
  | .land n j _ => s.flight.all (fun x => ¬ (x.n = n ∧ x.dst = j) || decide (x.due ≤ s.now))
  | .tick d =>
    s.flight.all (fun x => decide (s.now + d ≤ x.due)) &&
    (List.range w.num).all (fun i => (s.phy i).pend.all (fun e => decide (s.now + d ≤ e.2.1)) &&
      (s.mac (w.addr i)).pend.all (fun e => decide (s.now + d ≤ s.due i e.1)))

/-- One operation; what is not allowed does nothing. -/
def step (w : World P) (s : St P) (o : Op P) : St P :=
  if allowed w s o = true then
    match o with
    | .enqueue i b dst => macStep w i 0 (.enqueue b dst) s
    | .mac i tid g => macStep w i g (.fire tid) s
    | .harvest i => macStep w i 0 .harvest s
    | .einit i => macStep w i 0 .einit s
    | .phy i tid => phyStep w i tid s
    | .land n j junk => land w n j junk s
    | .tick d => tick w d s
  else s

/-- The state after a history. -/
def after (w : World P) (ops : List (Op P)) : St P := ops.foldl (step w) (init w)

omit [AddCommMonoid P] in
/-- The addresses are different and none is the broadcast address; pulses and symbols have a length. -/
structure World.Wf (w : World P) : Prop where
  inj : ∀ i < w.num, ∀ j < w.num, w.addr i = w.addr j → i = j
  uni : ∀ i < w.num, w.addr i ≠ bcast
  pulse : ∀ i, 0 < (w.pcfg i).p
  symbol : ∀ i, 0 < (w.pcfg i).ts

end Thz.NStack
