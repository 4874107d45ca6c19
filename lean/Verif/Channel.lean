import Mathlib.Data.Int.Notation
import Mathlib.Tactic.Common

/-!
# The channel (model/thz-channel.{h,cc})

PHYs are numbers.  A call of `SendPacket` by a PHY is an operation whose argument `link` gives, for every position of the
device list, the propagation delay and the received power from this sender at this time: mobility, antenna gains and
propagation loss (model/thz-channel.cc:140-161) are outside this model (the gains and the loss are in `Antenna` and
`Spectrum`).  The calls the channel makes to PHYs are log entries.  While a PHY is being told of an arrival or of the end of
one it may call `SendPacket`, and the channel goes on when it returns: `inside`, `ret`.

Time order is part of the semantics: an event runs only if no pending event is due earlier, and time passes only up to the
next event.  Events due at the same time may run in any order (ns-3 runs them in the order of scheduling, one of these).
-/

namespace Thz.Channel

/-- `NoiseEntry` (model/thz-channel.h:65-72): `k` stands for the copy of the packet made for this receiver
(model/thz-channel.cc:169), `n` for the transmission; `txEnd` is never read. -/
structure Ne (P : Type) where
  k : Nat
  n : Nat
  phy : Nat
  dur : ℤ
  pw : P
deriving DecidableEq

/-- Scheduled events. -/
inductive Ev (P : Type)
  /-- `SendPacketDone` (model/thz-channel.cc:130). -/
  | txDone (n phy : Nat)
  /-- `ReceivePacket` (174). -/
  | rx (i : Nat) (ne : Ne P)
  /-- `ReceivePacketDone` (199). -/
  | rxEnd (i : Nat) (ne : Ne P)
  /-- `DeleteNoiseEntry` (207). -/
  | del (ne : Ne P)
deriving DecidableEq

/-- What happens, with the time. -/
inductive Obs (P : Type)
  /-- a device with this PHY is attached. -/
  | attached (phy : Nat)
  /-- `SendPacket` was called for transmission `n`. -/
  | sent (t : ℤ) (n phy : Nat) (dur : ℤ) (link : List (Nat × P))
  /-- `SendPacket` was called by a PHY that is not attached: null pointers are used. -/
  | crash (t : ℤ)
  /-- the sender is told that the transmission is over. -/
  | txEnd (t : ℤ) (n phy : Nat)
  /-- the PHY at position `i` is told of the arrival of copy `k`. -/
  | arrival (t : ℤ) (k n i phy : Nat) (dur : ℤ) (pw : P)
  /-- the PHY at position `i` is told of the end of copy `k`. -/
  | finish (t : ℤ) (k n i phy : Nat) (pw : P)
  /-- the noise entry of copy `k` is erased. -/
  | erased (t : ℤ) (k : Nat)
deriving DecidableEq

/-- What the channel still has to do after a call to a PHY. -/
inductive Inside (P : Type)
  | rx (i : Nat) (ne : Ne P)
  | rxEnd (ne : Ne P)
deriving DecidableEq

/-- The state: `m_devList`, `m_noiseEntry`, the pending events. -/
structure St (P : Type) where
  now : ℤ
  devs : List Nat
  noise : List (Ne P)
  inside : Option (Inside P)
  pend : List (Nat × ℤ × Ev P)
  nextTid : Nat
  nextN : Nat
  nextK : Nat
  log : List (Obs P)

/-- A new channel (model/thz-channel.cc:72-79). -/
def init (P : Type) : St P :=
  { now := 0, devs := [], noise := [], inside := none, pend := [], nextTid := 0, nextN := 0, nextK := 0, log := [] }

variable {P : Type}

/-- Append to the log. -/
def St.emit (s : St P) (o : Obs P) : St P := { s with log := s.log ++ [o] }

/-- `AddDevice` (model/thz-channel.cc:100-105). -/
def addDevice (phy : Nat) (s : St P) : St P := { s.emit (.attached phy) with devs := s.devs ++ [phy] }

/-- The loop over the devices in `SendPacket` (model/thz-channel.cc:135-182), from position `j` on: the events for the
other PHYs, with fresh event numbers from `tid` and fresh copies from `k`.  There is one `link` entry per position
(see `step`). -/
def fanout (a n : Nat) (now dur : ℤ) : Nat → Nat → Nat → List Nat → List (Nat × P) → List (Nat × ℤ × Ev P)
  | j, tid, k, b :: rest, (delay, pw) :: link =>
    if a ≠ b then
      (tid, now + delay, .rx j ⟨k, n, b, dur, pw⟩) :: fanout a n now dur (j + 1) (tid + 1) (k + 1) rest link
    else fanout a n now dur (j + 1) tid k rest link
  | _, _, _, _, _ => []

/-- `SendPacket` (model/thz-channel.cc:107-184). -/
def sendPacket (a : Nat) (dur : ℤ) (link : List (Nat × P)) (s : St P) : St P :=
  if a ∈ s.devs then
    let evs := fanout a s.nextN s.now dur 0 (s.nextTid + 1) s.nextK s.devs link
    { s.emit (.sent s.now s.nextN a dur link) with
      pend := s.pend ++ (s.nextTid, s.now + dur, .txDone s.nextN a) :: evs
      nextTid := s.nextTid + 1 + evs.length, nextN := s.nextN + 1, nextK := s.nextK + evs.length }
  else s.emit (.crash s.now)

/-- `SendPacketDone` (model/thz-channel.cc:186-191). -/
def sendPacketDone (n phy : Nat) (s : St P) : St P := s.emit (.txEnd s.now n phy)

/-- `ReceivePacket` (model/thz-channel.cc:193-200) up to the call of the PHY at position `i`. -/
def receivePacket (i : Nat) (ne : Ne P) (s : St P) : St P :=
  match s.devs[i]? with
  | none => s.emit (.crash s.now)
  | some phy => { s.emit (.arrival s.now ne.k ne.n i phy ne.dur ne.pw) with
      noise := s.noise ++ [ne], inside := some (.rx i ne) }

/-- `ReceivePacketDone` (model/thz-channel.cc:202-208) up to the call of the PHY. -/
def receivePacketDone (i : Nat) (ne : Ne P) (s : St P) : St P :=
  match s.devs[i]? with
  | none => s.emit (.crash s.now)
  | some phy => { s.emit (.finish s.now ne.k ne.n i phy ne.pw) with inside := some (.rxEnd ne) }

/-- `DeleteNoiseEntry` (model/thz-channel.cc:210-223). -/
def deleteNoiseEntry (ne : Ne P) (s : St P) : St P :=
  { s.emit (.erased s.now ne.k) with noise := s.noise.eraseP (fun e => e.k = ne.k ∧ e.phy = ne.phy) }

/-- The PHY returns: 199, 207. -/
def ret (s : St P) : St P :=
  match s.inside with
  | none => s
  | some (.rx i ne) => { s with
      inside := none, pend := s.pend ++ [(s.nextTid, s.now + ne.dur, .rxEnd i ne)], nextTid := s.nextTid + 1 }
  | some (.rxEnd ne) => { s with
      inside := none, pend := s.pend ++ [(s.nextTid, s.now, .del ne)], nextTid := s.nextTid + 1 }

/-! ## Runs -/

/-- Run the body of an event. -/
def runEv : Ev P → St P → St P
  | .txDone n phy, s => sendPacketDone n phy s
  | .rx i ne, s => receivePacket i ne s
  | .rxEnd i ne, s => receivePacketDone i ne s
  | .del ne, s => deleteNoiseEntry ne s

/-- Run a pending event if none is due earlier; time moves on to its due time. -/
def fire (tid : Nat) (s : St P) : St P :=
  match s.pend.find? (fun e => e.1 = tid) with
  | none => s
  | some (_, due, e) =>
    if s.pend.all (fun e' => decide (due ≤ e'.2.1)) = true then
      runEv e { s with pend := s.pend.filter (fun e => e.1 ≠ tid), now := due }
    else s

/-- What can happen. -/
inductive Op (P : Type)
  | attach (phy : Nat)
  | send (a : Nat) (dur : Nat) (link : List (Nat × P))
  | ret
  | fire (tid : Nat)
  | advance (d : Nat)
deriving DecidableEq

/-- One operation.  A send comes with one link per device.  A PHY that has been called can attach devices, send, or return. -/
def step (s : St P) : Op P → St P
  | .attach phy => addDevice phy s
  | .send a dur link => if link.length = s.devs.length then sendPacket a dur link s else s
  | .ret => ret s
  | .fire t => if s.inside = none then fire t s else s
  | .advance d =>
    if s.inside = none ∧ s.pend.all (fun e => decide (s.now + d ≤ e.2.1)) = true then { s with now := s.now + d } else s

/-- The state after a history. -/
def after (ops : List (Op P)) : St P := ops.foldl step (init P)

end Thz.Channel
