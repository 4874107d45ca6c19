import Mathlib.Data.Int.Notation
import Mathlib.Tactic.Common

/-!
# The macro PHY (model/thz-phy-macro.{h,cc})

One `THzPhyMacro`.  The channel (model/thz-channel.cc) is what calls `ReceivePacket` when a signal arrives, schedules the
matching `ReceivePacketDone` exactly the duration later (193-200) and `SendPacketDone` exactly the duration after
`SendPacket` (130-133): these events are pending in the state.  Time is in ticks, powers are elements of an arbitrary type
`P`; the two comparisons the PHY makes with powers are parameters here and are given over the reals in `PhyMacroProps`
(`realCfg`).

Simplifications: `CalTxPsd` and the parameters it hands to the channel are not modelled; the transmission duration is an
argument of `send` (computed by `CalTxDuration`, model/thz-phy-macro.cc:408-414, see `Central.calTx`).  The calls to the MAC
are log entries: no MAC calls the PHY back from within `ReceivePacket`, or from within `ReceivePacketDone` with a failure
(their only call of `SendPacket` is in scheduled functions); after a success the PHY does nothing more, so a MAC calling
back then is the same as an operation that follows.
-/

namespace Thz.PhyMacro

/-- What the PHY asks about powers: `loud p` is `rxPower > m_csTh` (model/thz-phy-macro.cc:308), `sinr p is` is
`sinrDb > m_sinrTh` with interference from `is` (361-372).  `ns` is one nanosecond in ticks. -/
structure Cfg (P : Type) where
  loud : P → Bool
  sinr : P → List P → Bool
  ns : ℤ

/-- `State` (model/thz-phy-macro.h:200-206); `COLL` is never entered. -/
inductive State | idle | tx | rx
deriving DecidableEq, Repr

/-- `OngoingRx` (model/thz-phy-macro.h:55-62); `interference` is neither set nor read. -/
structure Rx (P : Type) where
  id : Nat
  start : ℤ
  dur : ℤ
  pw : P
deriving DecidableEq

/-- Events the channel scheduled for this PHY: `SendPacketDone` (model/thz-channel.cc:130-133) and
`ReceivePacketDone` (199). -/
inductive Ev (P : Type)
  | txDone (id : Nat)
  | rxDone (id : Nat) (pw : P)
deriving DecidableEq

/-- What happens at the PHY, with the time. -/
inductive Obs (P : Type)
  /-- the PHY took a frame and started to transmit. -/
  | txStart (t : ℤ) (id : Nat)
  /-- `SendPacket` answered false. -/
  | refused (t : ℤ) (id : Nat)
  /-- a transmission ended; the MAC is told. -/
  | txEnd (t : ℤ) (id : Nat)
  /-- a signal of this duration and power started to arrive. -/
  | rxBegin (t : ℤ) (id : Nat) (dur : ℤ) (pw : P)
  /-- `m_mac->ReceivePacket`: the PHY locked on to a frame. -/
  | announced (t : ℤ) (id : Nat)
  /-- a signal ended. -/
  | rxEnd (t : ℤ) (id : Nat)
  /-- `m_mac->ReceivePacketDone` with this result. -/
  | notice (t : ℤ) (id : Nat) (ok : Bool)
deriving DecidableEq

/-- The state of the PHY; `nextId` counts arriving packets (each is a fresh copy, model/thz-channel.cc:169). -/
structure St (P : Type) where
  now : ℤ
  state : State
  csBusy : Bool
  csBusyEnd : ℤ
  pktRx : Option Nat
  ongoing : List (Rx P)
  pend : List (Nat × ℤ × Ev P)
  nextTid : Nat
  nextId : Nat
  log : List (Obs P)

/-- The constructor (model/thz-phy-macro.cc:50-63). -/
def init (P : Type) : St P :=
  { now := 0, state := .idle, csBusy := false, csBusyEnd := 0, pktRx := none, ongoing := [], pend := [], nextTid := 0
    nextId := 0, log := [] }

variable {P : Type}

/-- Append to the log. -/
def St.emit (s : St P) (o : Obs P) : St P := { s with log := s.log ++ [o] }

/-- `SendPacket` (model/thz-phy-macro.cc:242-277) with `THzChannel::SendPacket` scheduling the end
(model/thz-channel.cc:130-133): the answer and the new state. -/
def sendPacket (id : Nat) (dur : ℤ) (s : St P) : Bool × St P :=
  if s.state = .tx then (false, s.emit (.refused s.now id))
  else
    (true, { s.emit (.txStart s.now id) with
      state := .tx
      pend := s.pend ++ [(s.nextTid, s.now + dur, .txDone id)], nextTid := s.nextTid + 1 })

/-- `SendPacketDone` (model/thz-phy-macro.cc:279-285). -/
def sendPacketDone (id : Nat) (s : St P) : St P := { s.emit (.txEnd s.now id) with state := .idle }

/-- The second half of `ReceivePacket` (model/thz-phy-macro.cc:300-319), after the arrival was recorded. -/
def sense (c : Cfg P) (id : Nat) (dur : ℤ) (pw : P) (s : St P) : St P :=
  if s.state = .tx then s
  else if c.loud pw = true ∧ s.now + dur > s.csBusyEnd then
    if s.csBusy = false then
      { s.emit (.announced s.now id) with csBusy := true, pktRx := some id, state := .rx, csBusyEnd := s.now + dur }
    else { s with state := .rx, csBusyEnd := s.now + dur }
  else s

/-- `ReceivePacket` (model/thz-phy-macro.cc:287-329), called by the channel, which also schedules the end
(model/thz-channel.cc:193-200). -/
def receivePacket (c : Cfg P) (dur : ℤ) (pw : P) (s : St P) : St P :=
  let id := s.nextId
  sense c id dur pw
    { s.emit (.rxBegin s.now id dur pw) with
      ongoing := s.ongoing ++ [⟨id, s.now, dur, pw⟩]
      pend := s.pend ++ [(s.nextTid, s.now + dur, .rxDone id pw)]
      nextTid := s.nextTid + 1, nextId := s.nextId + 1 }

/-- The powers summed up as interference in `ReceivePacketDone` (model/thz-phy-macro.cc:347-357): other packets whose record
says they are still arriving. -/
def interferers (id : Nat) (now : ℤ) (l : List (Rx P)) : List P :=
  (l.filter (fun r => r.id ≠ id ∧ now - r.start ≤ r.dur)).map (·.pw)

/-- `ReceivePacketDone` after the update of carrier sense (model/thz-phy-macro.cc:341-396).  The loop at 382-388 that would
erase the record never runs: its iterator is already at the end. -/
def conclude (c : Cfg P) (id : Nat) (pw : P) (s : St P) : St P :=
  if s.state ≠ .rx then s
  else if some id = s.pktRx then
    if c.sinr pw (interferers id s.now s.ongoing) = true then
      { s.emit (.notice s.now id true) with state := .idle }
    else
      let s := { s.emit (.notice s.now id false) with state := .idle }
      if s.csBusy = false then { s.emit (.notice s.now id false) with state := .idle } else s
  else if s.csBusy = false then { s.emit (.notice s.now id false) with state := .idle }
  else s

/-- `ReceivePacketDone` (model/thz-phy-macro.cc:331-396). -/
def receivePacketDone (c : Cfg P) (id : Nat) (pw : P) (s : St P) : St P :=
  conclude c id pw
    { s.emit (.rxEnd s.now id) with csBusy := if s.csBusyEnd ≤ s.now + c.ns then false else s.csBusy }

/-- `IsIdle` (model/thz-phy-macro.cc:398-406). -/
def isIdle (s : St P) : Bool := s.state = .idle && !s.csBusy

/-! ## Runs -/

/-- Run the body of an event. -/
def runEv (c : Cfg P) : Ev P → St P → St P
  | .txDone id, s => sendPacketDone id s
  | .rxDone id pw, s => receivePacketDone c id pw s

/-- Run a pending event; time moves on to its due time. -/
def fire (c : Cfg P) (tid : Nat) (s : St P) : St P :=
  match s.pend.find? (fun e => e.1 = tid) with
  | none => s
  | some (_, due, e) => runEv c e { s with pend := s.pend.filter (fun e => e.1 ≠ tid), now := max s.now due }

/-- What can happen. -/
inductive Op (P : Type)
  /-- the MAC calls `SendPacket` with a frame that takes this long. -/
  | send (id : Nat) (dur : Nat)
  /-- a signal starts to arrive. -/
  | arrive (dur : Nat) (pw : P)
  /-- a pending event is run. -/
  | fire (tid : Nat)
  /-- time passes. -/
  | advance (d : Nat)
deriving DecidableEq

/-- One operation. -/
def step (c : Cfg P) (s : St P) : Op P → St P
  | .send id dur => (sendPacket id dur s).2
  | .arrive dur pw => receivePacket c dur pw s
  | .fire t => fire c t s
  | .advance d => { s with now := s.now + d }

/-- The state after a history. -/
def after (c : Cfg P) (ops : List (Op P)) : St P := ops.foldl (step c) (init P)

/-- Time order: the event that runs is due first and not overdue, time does not pass beyond an event due. -/
def timelyOp (s : St P) : Op P → Bool
  | .fire t => s.pend.all (fun e => e.1 ≠ t || (decide (s.now ≤ e.2.1) && s.pend.all (fun e' => decide (e.2.1 ≤ e'.2.1))))
  | .advance d => s.pend.all (fun e => decide (s.now + d ≤ e.2.1))
  | _ => true

/-- A run in time order. -/
def timely (c : Cfg P) : St P → List (Op P) → Bool
  | _, [] => true
  | s, o :: rest => timelyOp s o && timely c (step c s o) rest

end Thz.PhyMacro
