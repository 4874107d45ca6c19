import Mathlib.Data.Int.Notation
import Mathlib.Algebra.Group.Defs
import Mathlib.Tactic.Common

/-!
# The nano PHY (model/thz-phy-nano.{h,cc})

One `THzPhyNano`.  The channel (model/thz-channel.cc) is what calls `ReceivePacket` when a signal arrives, schedules
`ReceivePacketDone` exactly the duration later (193-200), and `SendPacketDone` exactly the duration after
`ScheduleSendPacket` called `THzChannel::SendPacket` (130-133): these events are pending in the state.

Simplifications: times are integer femtoseconds (the resolution examples/thz-nano-adhoc.cc:62 sets) and `double`
arithmetic on them is exact (true below 2^53 fs); `fmod` is then the truncating remainder `Int.tmod`.  The symbol duration
`Ts` (174, `FemtoSeconds (m_beta * pulse)`) is a parameter.  The duration of a frame is an argument of `send` (`CalTxDuration`, 462-471).
Powers are in watts, elements of a commutative monoid `P`; the SINR comparison is a parameter.  `FemtoSeconds (fmod (..))` in
`ReceivePacket` converts a possibly negative `double`; the model keeps its sign, as the signed overload does (with an unsigned
one the conversion of a negative value would be undefined behaviour in C++).  `CalTxPsd` and the parameters passed to the
channel are not modelled.  The log statement at 243 dereferences the end iterator `it` when logging is compiled in and on; log
statements are not modelled.
-/

namespace Thz.PhyNano

/-- `m_pulseDuration`, `Ts`, and `sinr < m_sinrTh` for a signal and the interference (model/thz-phy-nano.cc:398-401, 416-420). -/
structure Cfg (P : Type) where
  p : ℤ
  ts : ℤ
  bad : P → P → Bool

/-- `OngoingTx` (model/thz-phy-nano.h:55-59), with an id for the transmission (not in the code). -/
structure Tx where
  id : Nat
  start : ℤ
  dur : ℤ
deriving DecidableEq, Repr

/-- `OngoingRx` (model/thz-phy-nano.h:62-70); `id` stands for the packet pointer: each arriving packet is a fresh copy
(model/thz-channel.cc:169).  `interference` is read only within the call that sets it. -/
structure Rx (P : Type) where
  id : Nat
  start : ℤ
  dur : ℤ
  pw : P
  coll : Bool
deriving DecidableEq

/-- Events scheduled by the PHY and, for it, by the channel. -/
inductive Ev (P : Type)
  /-- `ScheduleSendPacket` (model/thz-phy-nano.cc:259, 300). -/
  | launch (id : Nat) (dur : ℤ)
  /-- `DeleteOngoingTx` (271, 306). -/
  | erase (start dur : ℤ)
  /-- `SendPacketDone` (model/thz-channel.cc:130-133). -/
  | txDone (id : Nat)
  /-- `ReceivePacketDone` (model/thz-channel.cc:199). -/
  | rxDone (id : Nat)
deriving DecidableEq

/-- What happens at the PHY, with the time. -/
inductive Obs (P : Type)
  /-- `SendPacket` answered true; the pulse train is to start at `start`. -/
  | accepted (t : ℤ) (id : Nat) (start dur : ℤ)
  /-- `SendPacket` answered false. -/
  | refused (t : ℤ)
  /-- `SendPacket` read past the end of its array. -/
  | wild (t : ℤ)
  /-- the frame is handed to the channel. -/
  | onAir (t : ℤ) (id : Nat)
  /-- the record of a transmission is erased. -/
  | forgotten (t : ℤ) (id : Nat)
  /-- the MAC is told that the frame was sent. -/
  | sent (t : ℤ) (id : Nat)
  /-- a signal of this duration and power starts to arrive and is received; `junk` is the content of the memory that
  becomes the interference field of the new record. -/
  | arrived (t : ℤ) (id : Nat) (dur : ℤ) (pw junk : P)
  /-- a signal starts to arrive and is ignored because of half duplex. -/
  | ignored (t : ℤ) (id : Nat) (dur : ℤ) (pw : P)
  /-- the MAC is told of the end of a reception. -/
  | notice (t : ℤ) (id : Nat) (ok : Bool)
  /-- `ReceivePacketDone` for this signal has returned. -/
  | over (t : ℤ) (id : Nat)
deriving DecidableEq

/-- The state of the PHY.  `inside` says that `ReceivePacketDone` has called the MAC about this packet and the MAC has not yet
returned. -/
structure St (P : Type) where
  now : ℤ
  tx : List Tx
  rx : List (Rx P)
  inside : Option Nat
  pend : List (Nat × ℤ × Ev P)
  nextTid : Nat
  nextTx : Nat
  nextRx : Nat
  log : List (Obs P)

/-- The constructor (model/thz-phy-nano.cc:84-90). -/
def init (P : Type) : St P :=
  { now := 0, tx := [], rx := [], inside := none, pend := [], nextTid := 0, nextTx := 0, nextRx := 0, log := [] }

/-! ## The search for a gap -/

/-- One pass of the inner loop of `SortArray` (model/thz-phy-nano.cc:481-489): `x` is the content of position `i`, the list
positions `i + 1 ..`; the result is their content afterwards. -/
def pass (x : ℤ) : List ℤ → ℤ × List ℤ
  | [] => (x, [])
  | y :: ys => if x > y then ((pass y ys).1, x :: (pass y ys).2) else ((pass x ys).1, y :: (pass x ys).2)

/-- The outer loop, over the positions `i` (479-490). -/
def passes : Nat → List ℤ → List ℤ
  | 0, l => l
  | _ + 1, [] => []
  | n + 1, x :: xs => (pass x xs).1 :: passes n (pass x xs).2

/-- `SortArray` (model/thz-phy-nano.cc:473-494): `n` is the length of the array. -/
def sortArray (l : List ℤ) : List ℤ := passes l.length l

/-- The pulse of an ongoing train put into the current symbol (model/thz-phy-nano.cc:209-222, 228-245). -/
def image {P : Type} (c : Cfg P) (now start : ℤ) : ℤ :=
  if Int.tmod (now - start) c.ts < c.p then now - Int.tmod (now - start) c.ts
  else now + c.ts - Int.tmod (now - start) c.ts

/-- The array `nextPulse` (model/thz-phy-nano.cc:198-247). -/
def nextPulse {P : Type} (c : Cfg P) (s : St P) : List ℤ :=
  s.now :: (s.tx.map (fun r => image c s.now r.start) ++ s.rx.map (fun r => image c s.now r.start)) ++ [s.now + c.ts]

/-- The outcome of the search. -/
inductive Found
  | gap (x : ℤ)
  | full
  | wild
deriving DecidableEq, Repr

/-- The loop over `j` (model/thz-phy-nano.cc:253-282), on the rest of the array from position `j - 1`; `lim` is
`nowD + TsD`.  The second condition is evaluated only if the first holds; it reads position `j`. -/
def search (p lim : ℤ) : List ℤ → Found
  | [] => .full
  | [x] => if x ≠ lim then .wild else .full
  | x :: y :: rest => if x ≠ lim ∧ x + 2 * p ≤ y then .gap x else search p lim (y :: rest)

variable {P : Type}

/-- Append to the log. -/
def St.emit (s : St P) (o : Obs P) : St P := { s with log := s.log ++ [o] }

/-- Accept a frame with this start (model/thz-phy-nano.cc:256-279, 300-308). -/
def accept (start dur : ℤ) (s : St P) : St P :=
  { s.emit (.accepted s.now s.nextTx start dur) with
    tx := s.tx ++ [⟨s.nextTx, start, dur⟩]
    pend := s.pend ++ [(s.nextTid, start, .launch s.nextTx dur), (s.nextTid + 1, start + dur, .erase start dur)]
    nextTid := s.nextTid + 2, nextTx := s.nextTx + 1 }

/-- `SendPacket` (model/thz-phy-nano.cc:171-308); the answer is in the log. -/
def sendPacket (c : Cfg P) (dur : ℤ) (s : St P) : St P :=
  if s.tx ≠ [] ∨ s.rx ≠ [] then
    match search c.p (s.now + c.ts) (sortArray (nextPulse c s)) with
    | .gap x => accept (x + c.p) dur s
    | .full => s.emit (.refused s.now)
    | .wild => s.emit (.wild s.now)
  else accept s.now dur s

/-- `ScheduleSendPacket` (model/thz-phy-nano.cc:311-325) with `THzChannel::SendPacket` scheduling the end. -/
def launch (id : Nat) (dur : ℤ) (s : St P) : St P :=
  { s.emit (.onAir s.now id) with
    pend := s.pend ++ [(s.nextTid, s.now + dur, .txDone id)], nextTid := s.nextTid + 1 }

/-- `DeleteOngoingTx` (model/thz-phy-nano.cc:327-341): the first record with this start and duration. -/
def deleteOngoingTx (start dur : ℤ) (s : St P) : St P :=
  match s.tx.find? (fun r => r.start = start ∧ r.dur = dur) with
  | none => s
  | some r => { s.emit (.forgotten s.now r.id) with tx := s.tx.eraseP (fun r => r.start = start ∧ r.dur = dur) }

/-- `SendPacketDone` (model/thz-phy-nano.cc:343-348). -/
def sendPacketDone (id : Nat) (s : St P) : St P := s.emit (.sent s.now id)

/-- The test whether an arriving train meets another one (model/thz-phy-nano.cc:370, 383, 393). -/
def meets (c : Cfg P) (now start : ℤ) : Bool := Int.tmod (now - (start - c.p)) c.ts < 2 * c.p

variable [AddCommMonoid P]

/-- What the arrival does to the records of ongoing receptions (model/thz-phy-nano.cc:378-411). -/
def disturb (c : Cfg P) (now : ℤ) (pw : P) (l : List (Rx P)) : List (Rx P) :=
  l.map fun r =>
    if meets c now r.start = true then
      if c.bad r.pw (pw + ((l.filter (fun r1 => r1.id ≠ r.id ∧ meets c now r1.start = true)).map (·.pw)).sum) = true then
        { r with coll := true }
      else r
    else r

/-- The interference of the new record (model/thz-phy-nano.cc:385), added to what the memory contained. -/
def interference (c : Cfg P) (now : ℤ) (junk : P) (l : List (Rx P)) : P :=
  junk + ((l.filter (fun r => meets c now r.start = true)).map (·.pw)).sum

/-- `ReceivePacket` (model/thz-phy-nano.cc:350-430), called by the channel, which also schedules the end. -/
def receivePacket (c : Cfg P) (dur : ℤ) (pw junk : P) (s : St P) : St P :=
  if s.tx.any (fun r => meets c s.now r.start) = true then
    { s.emit (.ignored s.now s.nextRx dur pw) with
      pend := s.pend ++ [(s.nextTid, s.now + dur, .rxDone s.nextRx)], nextTid := s.nextTid + 1, nextRx := s.nextRx + 1 }
  else
    { s.emit (.arrived s.now s.nextRx dur pw junk) with
      rx := disturb c s.now pw s.rx ++ [⟨s.nextRx, s.now, dur, pw, c.bad pw (interference c s.now junk s.rx)⟩]
      pend := s.pend ++ [(s.nextTid, s.now + dur, .rxDone s.nextRx)], nextTid := s.nextTid + 1, nextRx := s.nextRx + 1 }

omit [AddCommMonoid P]

/-- `ReceivePacketDone` (model/thz-phy-nano.cc:432-460) up to the call of the MAC. -/
def receivePacketDone (id : Nat) (s : St P) : St P :=
  match s.rx.find? (fun r => r.id = id) with
  | none => s.emit (.over s.now id)
  | some r => { s.emit (.notice s.now id (!r.coll)) with inside := some id }

/-- The rest: the record is erased (446, 454). -/
def ret (s : St P) : St P :=
  match s.inside with
  | none => s
  | some id => { s.emit (.over s.now id) with rx := s.rx.eraseP (fun r => r.id = id), inside := none }

/-! ## Runs -/

/-- Run the body of an event. -/
def runEv : Ev P → St P → St P
  | .launch id dur, s => launch id dur s
  | .erase start dur, s => deleteOngoingTx start dur s
  | .txDone id, s => sendPacketDone id s
  | .rxDone id, s => receivePacketDone id s

/-- Run a pending event; time moves on to its due time. -/
def fire (tid : Nat) (s : St P) : St P :=
  match s.pend.find? (fun e => e.1 = tid) with
  | none => s
  | some (_, due, e) => runEv e { s with pend := s.pend.filter (fun e => e.1 ≠ tid), now := max s.now due }

/-- What can happen. -/
inductive Op (P : Type)
  /-- the MAC calls `SendPacket` with a frame that takes this long, possibly while it is being told of a reception. -/
  | send (dur : Nat)
  /-- the MAC returns from being told of a reception. -/
  | ret
  /-- a signal starts to arrive. -/
  | arrive (dur : Nat) (pw junk : P)
  /-- a pending event is run. -/
  | fire (tid : Nat)
  /-- time passes. -/
  | advance (d : Nat)
deriving DecidableEq

/-- One operation; while the MAC is being told of a reception it can only call `SendPacket` or return. -/
def step [AddCommMonoid P] (c : Cfg P) (s : St P) : Op P → St P
  | .send dur => sendPacket c dur s
  | .ret => ret s
  | .arrive dur pw junk => if s.inside = none then receivePacket c dur pw junk s else s
  | .fire t => if s.inside = none then fire t s else s
  | .advance d => if s.inside = none then { s with now := s.now + d } else s

/-- The state after a history. -/
def after [AddCommMonoid P] (c : Cfg P) (ops : List (Op P)) : St P := ops.foldl (step c) (init P)

/-- Time order: the event that runs is due first and not overdue, time does not pass beyond an event due. -/
def timelyOp (s : St P) : Op P → Bool
  | .fire t => s.pend.all (fun e => e.1 ≠ t || (decide (s.now ≤ e.2.1) && s.pend.all (fun e' => decide (e.2.1 ≤ e'.2.1))))
  | .advance d => s.pend.all (fun e => decide (s.now + d ≤ e.2.1))
  | _ => true

/-- A run in time order. -/
def timely [AddCommMonoid P] (c : Cfg P) : St P → List (Op P) → Bool
  | _, [] => true
  | s, o :: rest => timelyOp s o && timely c (step c s o) rest

end Thz.PhyNano
