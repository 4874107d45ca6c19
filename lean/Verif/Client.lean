import Verif.Central
import Verif.Thr

/-!
# Model of `THzMacMacroClient` (model/thz-mac-macro-client.h, model/thz-mac-macro-client.cc)

The client of the centralised macro scenario as a timed state machine, built like the models of `THzMacMacro`
and `THzMacMacroAp`: pending simulator events carry due times, an operation `fire` runs any of them, and
`timely` singles out the runs in which the earliest is always taken.

Times are integers counting ticks, `Cfg.tpn` ticks per nanosecond.  The PHY is represented by the frame that it
is transmitting (model/thz-phy-macro.cc:242-285).  The run starts after `InitVariables` (199-216), which is
scheduled by the constructor for time 0.  Not modelled: logging, the recording of
positions, states and collisions (bodies commented out in the code), `IsNewSequence` (never called: a client passes
nothing up).
-/

namespace Thz.Client

open Thz Thz.Central
open Thz.Nano (Body Kind bcast)

/-- Attributes (model/thz-mac-macro-client.cc:99-182), the durations computed by the PHY (`GetCtrlDuration`
929-933; the data duration of model/thz-phy-macro.cc:256-259 by size and modulation), `m_tData` (202), the waiting
time for fairness that follows from the node's position (438-441), and the random stream. -/
structure Cfg where
  tpn : ℤ
  ways : Nat
  boSlots : Nat
  slot : ℤ
  slot3 : ℤ
  sifs : ℤ
  tProp : ℤ
  minSize : Nat
  rtsRetryLimit : UInt16
  dataRetryLimit : UInt16
  tData : ℤ
  fairness : ℤ
  ctrlDur : Kind → ℤ
  dataDur : Nat → Nat → ℤ
  rng : Nat → Nat

/-- `PicoSeconds (k)`. -/
def Cfg.ps (c : Cfg) (k : ℤ) : ℤ := psT c.tpn k

/-- `NanoSeconds (k)`. -/
def Cfg.ns (c : Cfg) (k : ℤ) : ℤ := k * c.tpn

/-- `GetSlotTime` (model/thz-mac-macro-client.cc:896-904). -/
def Cfg.slotTime (c : Cfg) : ℤ := if c.ways = 3 then c.slot3 else c.slot

/-- `GetMaxBackoff` (model/thz-mac-macro-client.cc:996-1000). -/
def Cfg.maxBo (c : Cfg) : ℤ := c.slotTime * c.boSlots

/-- `uv->GetInteger (1, m_boSlots)` (model/thz-mac-macro-client.cc:349, 394, 445): some number between 1 and
`BoSlots`; the stream chooses which.  (`BoSlots` 0 is taken as 1.) -/
def Cfg.drawSlot (c : Cfg) (i : Nat) : ℤ := ((1 + c.rng i % max 1 c.boSlots : Nat) : ℤ)

/-- `uv->GetInteger (1, pow (2.0, retry))` (model/thz-mac-macro-client.cc:791, 850), stored in 16 bits. -/
def Cfg.drawLife (c : Cfg) (i : Nat) (retry : UInt16) : UInt16 := UInt16.ofNat (1 + c.rng i % 2 ^ retry.toNat)

/-- A queued `Ptr<Packet>` with its DATA header (model/thz-mac-macro-client.cc:228-232).  `uid` stands for the
pointer.  The header's duration is never set nor read. -/
structure Pkt where
  uid : Nat
  seq : UInt16
  dst : Mac48
  body : Body
deriving DecidableEq, Repr

/-- `packet->GetSize ()`: user data plus 17 bytes of header. -/
def Pkt.size (p : Pkt) : Nat := p.body.size + 17

/-- `struct Rec` (model/thz-mac-macro-client.h:75-83).  `RecSeq` is the packet's sequence number and `RecSize` its
size modulo 65536 (model/thz-mac-macro-client.cc:234-241), neither ever changes. -/
structure Rec where
  pkt : Pkt
  time : ℤ
  retry : UInt16
  life : UInt16
deriving DecidableEq, Repr

/-- `struct Result` without the node id (model/thz-mac-macro-client.h:88-95).  `pkt` is a ghost field: which packet
the row is about. -/
structure Row where
  psize : UInt16
  delay : ℤ
  success : Bool
  discard : Bool
  pkt : Pkt
deriving DecidableEq, Repr

/-- `struct AckTimeouts` (model/thz-mac-macro-client.h:60-64): sequence number and event. -/
structure TO where
  seq : UInt16
  tid : Nat
deriving DecidableEq, Repr

/-- Scheduled events; `dummyRts` is `SendPacket (rts, 0, 0)` with the RTS created in `ReceiveCta3` (353),
`phyDone f` is the channel's `SendPacketDone` (model/thz-channel.cc:130-133). -/
inductive Ev
  | dummyRts (f : Frame)
  | sendRts (p : Pkt)
  | sendData (p : Pkt) (mcs : Nat)
  | ackTimeout (seq : UInt16)
  | sendDataDone (ok : Bool) (seq : UInt16)
  | results
  | phyDone (f : Frame)
deriving DecidableEq

/-- Observable effects. -/
inductive Obs
  /-- `Enqueue` took the packet. -/
  | accepted (p : Pkt)
  /-- `Enqueue` dropped the packet. -/
  | dropped (b : Body)
  /-- the PHY took a frame, at this time. -/
  | handed (t : ℤ) (f : Frame)
  /-- the PHY was asked to send during a transmission and refused. -/
  | refused (f : Frame)
  /-- the MAC did not pass the frame to the PHY because of its own state. -/
  | blocked (f : Frame)
  /-- a transmission ended. -/
  | txEnd (f : Frame)
  /-- an intact frame was received and looked at, at this time. -/
  | rx (t : ℤ) (f : Frame)
  /-- a missing CTS or ACK was charged to a packet; second argument: its retry count afterwards. -/
  | timedOut (p : Pkt) (retry : UInt16)
  /-- a packet was taken off the queue to be discarded, at this time. -/
  | gaveUp (t : ℤ) (p : Pkt)
  /-- a packet's fate was settled in `SendDataDone`. -/
  | done (ok : Bool) (p : Pkt)
  /-- a row was written to the results file. -/
  | row (r : Row)
deriving DecidableEq

/-- The state of one client. -/
structure St where
  now : ℤ
  seq : UInt16
  nextUid : Nat
  nextId : Nat
  state : State
  queue : List Pkt
  recs : List Rec
  ackTO : List TO
  pktTx : Option Frame
  phyTx : Option Frame
  ctsReceived : UInt16
  backoffActive : Bool
  backoffSeq : UInt16
  sector : Option UInt16
  lastSeq : UInt16
  rtsAnswered : Bool
  timeCts : ℤ
  sendDataEv : Option Nat
  result : List Row
  send : UInt16
  discard : UInt16
  thr : Thr
  rngIdx : Nat
  pend : List (Nat × ℤ × Ev)
  nextTid : Nat
  ub : Bool
  log : List Obs

/-- The constructor (model/thz-mac-macro-client.cc:61-85) and `InitVariables` (199-216).  `m_sequence` and `m_lastSeq`
are not initialised, so their first values are arbitrary. `m_sector = -1` is `none`. -/
def init (seq0 last0 : UInt16) : St :=
  { now := 0, seq := seq0, nextUid := 0, nextId := 0, state := .idle, queue := [], recs := [], ackTO := []
    pktTx := none, phyTx := none, ctsReceived := 0, backoffActive := false, backoffSeq := 0, sector := none
    lastSeq := last0, rtsAnswered := true, timeCts := 0, sendDataEv := none, result := [], send := 0, discard := 0
    thr := .init, rngIdx := 0, pend := [], nextTid := 0, ub := false, log := [] }

/-! ## Helpers -/

/-- Append to the log. -/
def St.emit (s : St) (o : Obs) : St := { s with log := s.log ++ [o] }

/-- `Simulator::Schedule`.  A negative delay violates its precondition (an assertion in ns-3): recorded in `ub`. -/
def St.sched (s : St) (d : ℤ) (e : Ev) : St :=
  { s with pend := s.pend ++ [(s.nextTid, s.now + d, e)], nextTid := s.nextTid + 1, ub := s.ub || decide (d < 0) }

/-- `EventId::Cancel`. -/
def St.cancel (s : St) (t : Nat) : St := { s with pend := s.pend.filter (fun e => e.1 ≠ t) }

/-! ## The layer above -/

/-- `Enqueue` (model/thz-mac-macro-client.cc:218-248): the answer and the new state. -/
def enqueue (c : Cfg) (b : Body) (dst : Mac48) (s : St) : Bool × St :=
  if b.size < c.minSize then (false, s.emit (.dropped b))
  else
    let p : Pkt := ⟨s.nextUid, s.seq + 1, dst, b⟩
    (false, { s.emit (.accepted p) with
      seq := s.seq + 1, nextUid := s.nextUid + 1, queue := s.queue ++ [p]
      recs := s.recs ++ [(⟨p, s.now, 0, 0⟩ : Rec)] })

/-! ## Sending -/

/-- How long a frame occupies the transmitter (model/thz-phy-macro.cc:254-263): `SendPacket` is called with rate 1 for
DATA and 0 for control frames (model/thz-mac-macro-client.cc:353, 552, 578). -/
def Cfg.frameDur (c : Cfg) (f : Frame) (mcs : Nat) : ℤ :=
  match f.kind with
  | .data => c.dataDur (f.body.size + 17) mcs
  | k => c.ctrlDur k

/-- `SendPacket` (model/thz-mac-macro-client.cc:612-631) together with `THzPhyMacro::SendPacket`
(model/thz-phy-macro.cc:242-277), which refuses while transmitting.  Result: the answer and the state. -/
def sendPacket (c : Cfg) (f : Frame) (mcs : Nat) (s : St) : Bool × St :=
  if s.state = .idle ∨ s.state = .waitTx then
    if s.phyTx.isNone then
      (true, ({ (s.sched (c.frameDur f mcs) (.phyDone f)) with
        state := .tx, pktTx := some f, phyTx := some f }).emit (.handed s.now f))
    else (false, { s with state := .idle }.emit (.refused f))
  else (false, s.emit (.blocked f))

/-- The RTS for a packet (model/thz-mac-macro-client.cc:543-550).  (The retry count in it is never read.)  Frames
created by `Create<Packet>` get odd ids, the queued packets even ones: different pointers. -/
def rtsFrame (me : Mac48) (id : Nat) (p : Pkt) : Frame := ⟨2 * id + 1, .rts, me, p.dst, p.seq, 0, 0, 0, noBody⟩

/-- The dummy RTS (model/thz-mac-macro-client.cc:344-347); its sequence number is not initialised, its value is
`g`. -/
def dummyFrame (me dst : Mac48) (id : Nat) (g : UInt16) : Frame := ⟨2 * id + 1, .rts, me, dst, g, 0, 1, 0, noBody⟩

/-- The DATA frame of a packet: the packet as it was enqueued. -/
def dataFrame (me : Mac48) (p : Pkt) : Frame := ⟨2 * p.uid, .data, me, p.dst, p.seq, 0, 0, 0, p.body⟩

/-- `SendRts` (model/thz-mac-macro-client.cc:540-553). -/
def sendRts (c : Cfg) (me : Mac48) (p : Pkt) (s : St) : St :=
  (sendPacket c (rtsFrame me s.nextId p) 0 { s with nextId := s.nextId + 1 }).2

/-- The ACK timeout (model/thz-mac-macro-client.cc:580-592). -/
def ackTimeoutDur (c : Cfg) (s : St) : ℤ :=
  if c.ways = 3 then
    (c.tData + c.maxBo + c.ctrlDur .cts + c.ctrlDur .ack) * s.ctsReceived.toNat + c.tProp + c.sifs + c.tProp
      + c.ns 10 - (s.now - s.timeCts)
  else c.tData + c.tProp + c.sifs + c.ctrlDur .ack + c.tProp + c.ns 1

/-- `SendData` (model/thz-mac-macro-client.cc:564-610). -/
def sendData (c : Cfg) (me : Mac48) (p : Pkt) (mcs : Nat) (s : St) : St :=
  let s := { s with state := .waitTx }
  if p.dst = bcast then s
  else
    match sendPacket c (dataFrame me p) mcs s with
    | (true, s) =>
      { s.sched (ackTimeoutDur c s) (.ackTimeout p.seq) with ackTO := s.ackTO ++ [⟨p.seq, s.nextTid⟩] }
    | (false, s) => { s with state := .idle }

/-- `SendPacketDone` (model/thz-mac-macro-client.cc:633-667), called by `THzPhyMacro::SendPacketDone`
(model/thz-phy-macro.cc:279-285), which makes the PHY idle first. -/
def sendPacketDone (f : Frame) (s : St) : St :=
  let s := { s with phyTx := none }.emit (.txEnd f)
  if s.state ≠ .tx ∨ s.pktTx ≠ some f then s
  else
    match f.kind with
    | .data => { s with state := .waitAck }
    | _ => { s with state := .idle }

/-! ## Completion -/

/-- What `SendDataDone` does for one matching record (model/thz-mac-macro-client.cc:710-760), except the early
return on an empty queue and the removal of the record. -/
def settle (ok : Bool) (r : Rec) (s : St) : St :=
  if ok then
    ({ s.sched 0 .results with
        queue := s.queue.filter (fun p => p.uid ≠ r.pkt.uid)
        send := s.send + 1
        thr := s.thr.add (UInt16.ofNat r.pkt.size) (s.now - r.time)
        result := [⟨UInt16.ofNat r.pkt.size - 53, s.now - r.time, true, false, r.pkt⟩] }).emit (.done true r.pkt)
  else
    ({ s.sched 0 .results with
        discard := s.discard + 1
        result := [⟨UInt16.ofNat r.pkt.size - 53, 0, false, true, r.pkt⟩] }).emit (.done false r.pkt)

/-- The loop of `SendDataDone` (model/thz-mac-macro-client.cc:705-763) over the records still to be visited
(`rest`), with those already passed in `pre`.  A matching record is erased and the iterator then steps over the
record behind it without looking at it (`it = erase (it)` in the body, `it++` in the header); if the erased record
was the last one, that `it++` increments `end ()`: undefined behaviour, after which the model stops (the usual
circular implementation goes back to the first record and looks at the records again). -/
def doneLoop (ok : Bool) (seq : UInt16) : List Rec → List Rec → St → St
  | pre, [], s => { s with recs := pre }
  | pre, r :: rest, s =>
    if r.pkt.seq = seq then
      if ok = true ∧ s.queue = [] then { s with result := [], recs := pre ++ r :: rest }
      else
        match rest with
        | [] => { settle ok r s with recs := pre, ub := true }
        | r' :: rest' => doneLoop ok seq (pre ++ [r']) rest' (settle ok r s)
    else doneLoop ok seq (pre ++ [r]) rest s

/-- `SendDataDone` (model/thz-mac-macro-client.cc:702-764). -/
def sendDataDone (ok : Bool) (seq : UInt16) (s : St) : St := doneLoop ok seq [] s.recs s

/-- `ResultsRecord` (model/thz-mac-macro-client.cc:1002-1020); with no result stored it dereferences `begin ()` of
an empty list. -/
def resultsRecord (s : St) : St :=
  match s.result with
  | [] => { s with ub := true }
  | r :: _ => s.emit (.row r)

/-! ## Timeouts -/

/-- The body of the loop in `CtsTimeout` and `AckTimeout` (model/thz-mac-macro-client.cc:776-797, 836-856) for the
record found; result: the changed record and the state. -/
def charge (c : Cfg) (limit : UInt16) (r : Rec) (s : St) : Rec × St :=
  let s := s.emit (.timedOut r.pkt (r.retry + 1))
  if r.retry + 1 ≥ limit then
    ({ r with retry := r.retry + 1 },
      ({ s with queue := s.queue.filter (fun p => p.uid ≠ r.pkt.uid) }.sched (c.ps 1)
        (.sendDataDone false r.pkt.seq)).emit (.gaveUp s.now r.pkt))
  else
    ({ r with retry := r.retry + 1, life := c.drawLife s.rngIdx (r.retry + 1) },
      { s with backoffActive := true, backoffSeq := r.pkt.seq, rngIdx := s.rngIdx + 1 })

/-- The record loop of `CtsTimeout` and `AckTimeout` (model/thz-mac-macro-client.cc:771-802, 831-859): the first record
with this sequence number is charged.  `pre` are the records already passed. -/
def chargeLoop (c : Cfg) (limit seq : UInt16) : List Rec → List Rec → St → St
  | pre, [], s => { s with recs := pre }
  | pre, r :: rest, s =>
    if r.pkt.seq = seq then { (charge c limit r s).2 with recs := pre ++ (charge c limit r s).1 :: rest }
    else chargeLoop c limit seq (pre ++ [r]) rest s

/-- `CtsTimeout` (model/thz-mac-macro-client.cc:767-803). -/
def ctsTimeout (c : Cfg) (seq : UInt16) (s : St) : St :=
  let hit := s.recs.any (fun r => r.pkt.seq = seq)
  let s := chargeLoop c c.rtsRetryLimit seq [] s.recs { s with state := .idle }
  if hit then { s with ctsReceived := 0 } else s

/-- `AckTimeout` (model/thz-mac-macro-client.cc:805-860). -/
def ackTimeout (c : Cfg) (seq : UInt16) (s : St) : St :=
  chargeLoop c c.dataRetryLimit seq [] s.recs
    { s with state := .idle, ackTO := s.ackTO.eraseP (fun t => t.seq = seq) }

/-- The loop of `DecreaseBackoff` (model/thz-mac-macro-client.cc:519-533): the first record with this sequence number. -/
def tickLoop (seq : UInt16) : List Rec → List Rec → St → St
  | pre, [], s => { s with recs := pre }
  | pre, r :: rest, s =>
    if r.pkt.seq = seq then
      { s with
        recs := pre ++ { r with life := r.life - 1 } :: rest
        backoffActive := if r.life - 1 = 0 then false else s.backoffActive }
    else tickLoop seq (pre ++ [r]) rest s

/-- `DecreaseBackoff` (model/thz-mac-macro-client.cc:516-538). -/
def decreaseBackoff (s : St) : St := tickLoop s.backoffSeq [] s.recs s

/-! ## Reception -/

/-- The second half of `ReceiveCta3` (model/thz-mac-macro-client.cc:383-416): wait out the back-off, check the sector,
schedule an RTS for the first record.  Without a record `m_rec.begin ()` is dereferenced at the end. -/
def contend (c : Cfg) (f : Frame) (s : St) : St :=
  if s.backoffActive then decreaseBackoff s
  else
    let s := { s with ctsReceived := 0 }
    if s.sector ≠ none ∧ s.sector ≠ some f.sector then s
    else
      match s.recs with
      | [] => { s with ub := true }
      | r :: _ =>
        { s.sched (c.slotTime * c.drawSlot s.rngIdx) (.sendRts r.pkt) with
          state := .waitTx, rngIdx := s.rngIdx + 1, lastSeq := r.pkt.seq, rtsAnswered := false }

/-- `ReceiveCta3` (model/thz-mac-macro-client.cc:332-416). -/
def receiveCta3 (c : Cfg) (me : Mac48) (f : Frame) (g : UInt16) (s : St) : St :=
  let s := { s with state := .idle }
  if f.flags = 1 then
    { s.sched (c.slotTime * c.drawSlot s.rngIdx) (.dummyRts (dummyFrame me f.src s.nextId g)) with
      rngIdx := s.rngIdx + 1, nextId := s.nextId + 1 }
  else if f.flags = 2 ∧ f.dst = me then { s with sector := some f.sector }
  else if s.queue = [] then s
  else if c.ways = 3 ∧ s.rtsAnswered = false then
    contend c f { ctsTimeout c s.lastSeq s with rtsAnswered := true }
  else contend c f s

/-- `ReceiveCta1` (model/thz-mac-macro-client.cc:418-468). -/
def receiveCta1 (c : Cfg) (s : St) : St :=
  let s := { s with state := .idle }
  if s.queue = [] then s
  else if s.backoffActive then decreaseBackoff s
  else
    match s.recs with
    | [] => { s with ub := true }
    | r :: _ =>
      { s.sched (c.fairness + c.slotTime * c.drawSlot s.rngIdx) (.sendData r.pkt 0) with
        state := .waitTx, rngIdx := s.rngIdx + 1, timeCts := s.now, sendDataEv := some s.nextTid }

/-- `mcs` in `ReceiveCts` (model/thz-mac-macro-client.cc:491-495). -/
def mcsOf (flags : UInt16) : Nat := if 10 ≤ flags.toNat ∧ flags.toNat ≤ 14 then flags.toNat else 0

/-- The loop of `ReceiveCts` (model/thz-mac-macro-client.cc:482-506): every record with this sequence number. -/
def grantLoop (c : Cfg) (f : Frame) : List Rec → St → St
  | [], s => s
  | r :: rest, s =>
    if r.pkt.seq = f.seq then
      grantLoop c f rest
        { s.sched (durTime c.tpn f.dur) (.sendData r.pkt (mcsOf f.flags)) with rtsAnswered := true, timeCts := s.now }
    else grantLoop c f rest s

/-- `ReceiveCts` (model/thz-mac-macro-client.cc:470-514). -/
def receiveCts (c : Cfg) (me : Mac48) (f : Frame) (s : St) : St :=
  let s := { s with state := .idle, ctsReceived := s.ctsReceived + 1 }
  if f.dst = me then grantLoop c f s.recs s else s

/-- `ReceiveAck` (model/thz-mac-macro-client.cc:669-700). -/
def receiveAck (c : Cfg) (me : Mac48) (f : Frame) (s : St) : St :=
  if f.dst = me then
    let s := { s with state := .idle }
    match s.ackTO.find? (fun t => t.seq = f.seq) with
    | some t =>
      { (s.cancel t.tid).sched (c.ps 1) (.sendDataDone true f.seq) with
        ackTO := s.ackTO.eraseP (fun t => t.seq = f.seq) }
    | none => s
  else s

/-- `ReceivePacket` (model/thz-mac-macro-client.cc:257-278) with `ChannelBecomesBusy` (555-562). -/
def receivePacket (s : St) : St :=
  let s :=
    match s.sendDataEv with
    | some t => s.cancel t
    | none => s
  match s.state with
  | .waitAck => s
  | .tx => s
  | .coll => s
  | _ => { s with state := .rx }

/-- `ReceivePacketDone` (model/thz-mac-macro-client.cc:280-330). -/
def receivePacketDone (c : Cfg) (me : Mac48) (f : Frame) (ok : Bool) (g : UInt16) (s : St) : St :=
  if s.state = .rx ∨ (s.state = .waitAck ∧ f.kind = .ack) then
    if ok = false then s
    else
      let s := s.emit (.rx s.now f)
      match f.kind with
      | .cta =>
        if c.ways = 1 then receiveCta1 c s
        else if c.ways = 3 then receiveCta3 c me f g s
        else s
      | .cts => receiveCts c me f s
      | .ack => receiveAck c me f s
      | _ => s
  else s

/-! ## Runs -/

/-- Run the body of an event. -/
def runEv (c : Cfg) (me : Mac48) (e : Ev) (s : St) : St :=
  match e with
  | .dummyRts f => (sendPacket c f 0 s).2
  | .sendRts p => sendRts c me p s
  | .sendData p m => sendData c me p m s
  | .ackTimeout q => ackTimeout c q s
  | .sendDataDone ok q => sendDataDone ok q s
  | .results => resultsRecord s
  | .phyDone f => sendPacketDone f s

/-- Run a pending event; time moves on to its due time. -/
def fire (c : Cfg) (me : Mac48) (tid : Nat) (s : St) : St :=
  match s.pend.find? (fun e => e.1 = tid) with
  | none => s
  | some (_, due, e) =>
    runEv c me e { s with pend := s.pend.filter (fun e => e.1 ≠ tid), now := max s.now due }

/-- What can happen to a client. -/
inductive Op
  /-- the layer above calls `Enqueue`. -/
  | enqueue (b : Body) (dst : Mac48)
  /-- a pending simulator event is run. -/
  | fire (tid : Nat)
  /-- the PHY announces the start of a reception. -/
  | rxStart
  /-- the PHY reports the end of a reception; `g` is the content of an uninitialised header field. -/
  | rxDone (f : Frame) (ok : Bool) (g : UInt16)
  /-- time passes. -/
  | advance (d : Nat)
deriving DecidableEq

/-- One operation. -/
def step (c : Cfg) (me : Mac48) (s : St) : Op → St
  | .enqueue b d => (enqueue c b d s).2
  | .fire t => fire c me t s
  | .rxStart => receivePacket s
  | .rxDone f ok g => receivePacketDone c me f ok g s
  | .advance d => { s with now := s.now + d }

/-- A run. -/
def run (c : Cfg) (me : Mac48) (s : St) (ops : List Op) : St := ops.foldl (step c me) s

/-- The state after a history. -/
def after (c : Cfg) (me : Mac48) (seq0 last0 : UInt16) (ops : List Op) : St := run c me (init seq0 last0) ops

/-- Time order: an event that runs is due earliest and not overdue, and time does not pass beyond the first event
due.  (ns-3's scheduler; ties are left open.) -/
def timelyOp (s : St) : Op → Bool
  | .fire t => s.pend.all (fun e => e.1 ≠ t || (decide (s.now ≤ e.2.1) && s.pend.all (fun e' => decide (e.2.1 ≤ e'.2.1))))
  | .advance d => s.pend.all (fun e => decide (s.now + d ≤ e.2.1))
  | _ => true

/-- A run in time order. -/
def timely (c : Cfg) (me : Mac48) : St → List Op → Bool
  | _, [] => true
  | s, o :: rest => timelyOp s o && timely c me (step c me s o) rest

end Thz.Client
