import Verif.Header
import Verif.Seq
import Verif.Nano
import Verif.Thr

/-!
# Model of `THzMacMacro` (model/thz-mac-macro.h, model/thz-mac-macro.cc)

One node's macro-scale MAC as a timed state machine.  Simulator events are kept in a list of pending
events with due times; an operation `fire` runs any pending event (so theorems about all runs cover every
tie-breaking and more); `TimelyRun` singles out the runs in which the earliest event is always taken, and
the counterexamples are all timely.

Times are integers counting ticks of the simulator's resolution, `Cfg.tpn` ticks per nanosecond (1 with
ns-3's default resolution; 1000 in examples/thz-macro-central.cc:87).  The PHY is
represented by the frame it is transmitting (`phyTx`, model/thz-phy-macro.cc:242-285) and by a flag set by
the environment saying whether it senses energy or is receiving (`sense`).  Random draws come from an
arbitrary stream `Cfg.rng`.

Undefined behaviour (incrementing a past-the-end iterator, dereferencing `begin ()` of an empty list) is
recorded in the sticky flag `ub`; the machine then carries on in a fixed way, described at each place, so
that theorems hold for the code as the usual library implements it and `ub` says where the standard gives
no guarantee.

Not modelled: antenna control (`SetRxAntennaParameters`, 418-448, the `m_thzAD` calls in `Enqueue`), which
never touches the state below; contention window variables `m_cw` (written, never read, 225-228, 1113-1124);
logging.
-/

namespace Thz.Macro

open Thz
open Thz.Nano (Body Kind bcast)

/-- `m_tData = PicoSeconds (810760)` (model/thz-mac-macro.cc:90), in nanoseconds as
`m_tData.GetNanoSeconds ()` returns it (355, 1082). -/
def tDataNs : ℤ := 810

/-- `m_MinEnquePacketSize` (model/thz-mac-macro.cc:89). -/
def minEnqueue : Nat := 15000

/-- A queued packet with its DATA header (model/thz-mac-macro.cc:462-466).  `uid` stands for the pointer.
`dur` is the duration field that goes on the air: it is never set before `AddHeader`, so it is whatever
the uninitialised header held. -/
structure Pkt where
  uid : Nat
  seq : UInt16
  dst : Mac48
  dur : UInt16
  body : Body
deriving DecidableEq, Repr

/-- `packet->GetSize ()` once the 17-byte DATA header is on (model/thz-mac-header.cc:190-191). -/
def Pkt.size (p : Pkt) : Nat := p.body.size + 17

/-- A frame on the air.  `dur` is meaningful for CTS, ACK and DATA only (an RTS does not carry one,
model/thz-mac-header.cc:211-250). -/
structure Frame where
  kind : Kind
  src : Mac48
  dst : Mac48
  seq : UInt16
  dur : UInt16
  body : Body
deriving DecidableEq, Repr

/-- `enum State` (model/thz-mac-macro.h). -/
inductive State | idle | backoff | waitTx | tx | waitRx | rx | coll
deriving DecidableEq, Repr

/-- `struct Rec` (model/thz-mac-macro.h:74-81). -/
structure Rec where
  seq : UInt16
  time : ℤ
  size : UInt16
  retry : UInt16
  pkt : Pkt
deriving DecidableEq, Repr

/-- `struct Result` without the node id (model/thz-mac-macro.h:86-93).  `pkt` is a ghost field: which packet
the row is about. -/
structure Row where
  psize : UInt16
  delay : ℤ
  success : Bool
  discard : Bool
  pkt : Pkt
deriving DecidableEq, Repr

/-- `struct AckTimeouts`, `struct CtsTimeouts` (model/thz-mac-macro.h:59-69): sequence number and event. -/
structure TO where
  seq : UInt16
  tid : Nat
deriving DecidableEq, Repr

/-- The member functions that are scheduled as simulator events; `phyDone f` is the channel's
`SendPacketDone` for the frame on the air (model/thz-channel.cc:130-133). -/
inductive Ev
  | cca
  | backoffStart
  | granted
  | ctsTimeout (seq : UInt16)
  | ackTimeout (seq : UInt16)
  | sendCts (dst : Mac48) (dur : ℤ) (seq : UInt16)
  | sendData (p : Pkt)
  | sendAck (dst : Mac48) (seq : UInt16)
  | sendDataDone (ok : Bool) (seq : UInt16)
  | results
  | phyDone (f : Frame)
deriving DecidableEq, Repr

/-- Observable effects. -/
inductive Obs
  /-- `Enqueue` took the packet. -/
  | accepted (p : Pkt)
  /-- `Enqueue` dropped the packet. -/
  | dropped (b : Body)
  /-- `THzPhy::SendPacket` was called and the PHY took the frame. -/
  | handed (f : Frame)
  /-- `THzPhy::SendPacket` was called while the PHY was transmitting and refused the frame. -/
  | refused (f : Frame)
  /-- the end of the transmission of a frame. -/
  | txEnd (f : Frame)
  /-- the PHY reported an intact frame. -/
  | rx (f : Frame)
  /-- a packet was passed to the layer above. -/
  | up (b : Body) (src dst : Mac48) (seq : UInt16)
  /-- a packet's fate was settled in `SendDataDone`. -/
  | done (ok : Bool) (p : Pkt)
  /-- a CTS or ACK timeout was charged to a packet; second argument: its retry count afterwards. -/
  | timedOut (p : Pkt) (retry : UInt16)
  /-- a row was written to the results file. -/
  | row (r : Row)
deriving DecidableEq, Repr

/-- Attributes (model/thz-mac-macro.cc:113-168), PHY durations (`GetCtrlDuration`, `GetDataDuration`,
266-278) and the random stream. -/
structure Cfg where
  tpn : ℤ
  rts : Bool
  slot : ℤ
  sifs : ℤ
  difs : ℤ
  queueLimit : Nat
  rtsRetryLimit : Nat
  dataRetryLimit : Nat
  ctrlDur : Kind → ℤ
  dataDur : Nat → ℤ
  rng : Nat → Nat

/-- `PicoSeconds (k)`: with a coarser resolution the value is truncated. -/
def Cfg.ps (c : Cfg) (k : ℤ) : ℤ := (k * c.tpn).tdiv 1000

/-- `PicoSeconds (33356)`, the propagation allowance used throughout model/thz-mac-macro.cc:528-754. -/
def Cfg.tProp (c : Cfg) : ℤ := c.ps 33356

/-- The state of one MAC. -/
structure St where
  now : ℤ
  seq : UInt16
  nextUid : Nat
  state : State
  queue : List Pkt
  recs : List Rec
  pktData : Option Pkt
  pktTx : Option Frame
  phyTx : Option Frame
  sense : Bool
  ctsTO : List TO
  ackTO : List TO
  nav : ℤ
  localNav : ℤ
  boStart : ℤ
  boRemain : ℤ
  retry : UInt16
  ccaEv : Option Nat
  boEv : Option Nat
  seqList : SeqList Mac48
  result : List Row
  send : UInt16
  discard : UInt16
  thr : Thr
  rngIdx : Nat
  pend : List (Nat × ℤ × Ev)
  nextTid : Nat
  ub : Bool
  log : List Obs

/-- Construction (model/thz-mac-macro.cc:61-93).  `m_sequence` is not initialised by the constructor, so
its first value `seq0` is arbitrary. -/
def init (seq0 : UInt16) : St :=
  { now := 0, seq := seq0, nextUid := 0, state := .idle, queue := [], recs := [], pktData := none
    pktTx := none, phyTx := none, sense := false, ctsTO := [], ackTO := [], nav := 0, localNav := 0
    boStart := 0, boRemain := 0, retry := 0, ccaEv := none, boEv := none, seqList := [], result := []
    send := 0, discard := 0, thr := .init, rngIdx := 0, pend := [], nextTid := 0, ub := false, log := [] }

/-! ## Time helpers -/

/-- `Time::GetNanoSeconds ()`: truncation towards zero. -/
def toNs (c : Cfg) (t : ℤ) : ℤ := t.tdiv c.tpn

/-- `NanoSeconds (n)`. -/
def ofNs (c : Cfg) (n : ℤ) : ℤ := n * c.tpn

/-- `RoundOffTime` (model/thz-mac-macro.cc:1128-1141) in nanoseconds, with C++ integer division and
remainder.  `none` is the undefined division by zero.  The detour through `double` (1135, 1139) is exact
below 2^53 and dropped. -/
def roundOffNs (slot t : ℤ) : Option ℤ :=
  if slot = 0 then none
  else if t.tmod slot ≥ slot.tdiv 2 then some (slot * (t.tdiv slot + 1))
  else some (slot * t.tdiv slot)

/-- `RoundOffTime` (model/thz-mac-macro.cc:1128-1141) on times.  Where the code divides by zero (slot
below a nanosecond) the model answers 0. -/
def roundOff (c : Cfg) (t : ℤ) : ℤ := ofNs c ((roundOffNs (toNs c c.slot) (toNs c t)).getD 0)

/-- `NanoSeconds ((double)(bo) * m_tData.GetNanoSeconds ())` (model/thz-mac-macro.cc:355, 1082). -/
def boTime (c : Cfg) (bo : Nat) : ℤ := ofNs c (bo * tDataNs)

/-- `uv->GetInteger (1, pow (2.0, retry))` (model/thz-mac-macro.cc:354, 1081): some number between 1 and
2^retry; the stream chooses which. -/
def drawBo (c : Cfg) (i : Nat) (retry : UInt16) : Nat := 1 + c.rng i % 2 ^ retry.toNat

/-! ## Small state helpers -/

/-- Append to the log. -/
def St.emit (s : St) (o : Obs) : St := { s with log := s.log ++ [o] }

/-- `Simulator::Schedule`. -/
def St.sched (s : St) (d : ℤ) (e : Ev) : St :=
  { s with pend := s.pend ++ [(s.nextTid, s.now + d, e)], nextTid := s.nextTid + 1 }

/-- `m_ccaTimeoutEvent = Simulator::Schedule (d, e)`. -/
def St.schedCca (s : St) (d : ℤ) (e : Ev) : St := { s.sched d e with ccaEv := some s.nextTid }

/-- `EventId::Cancel`. -/
def St.cancel (s : St) (tid : Nat) : St := { s with pend := s.pend.filter (fun e => e.1 ≠ tid) }

/-- `EventId::IsRunning`: the event is still pending. -/
def St.running (s : St) : Option Nat → Bool
  | none => false
  | some t => s.pend.any (fun e => e.1 = t)

/-- `THzPhyMacro::IsIdle` (model/thz-phy-macro.cc:398-406). -/
def St.phyIdle (s : St) : Bool := s.phyTx.isNone && !s.sense

/-! ## Channel access -/

/-- `CcaForDifs` (model/thz-mac-macro.cc:312-341). -/
def cca (c : Cfg) (s : St) : St :=
  if s.queue = [] ∨ s.running s.ccaEv = true then s
  else if max s.nav s.localNav > s.now + c.slot then
    s.schedCca (max s.nav s.localNav - s.now) .cca
  else if s.state ≠ .idle ∨ s.phyIdle = false then s.schedCca 0 .backoffStart
  else s.schedCca c.difs .backoffStart

/-- The first half of `BackoffStart` (model/thz-mac-macro.cc:346-356): note the start and draw a back-off if
none is left over. -/
def drawBackoff (c : Cfg) (s : St) : St :=
  if s.boRemain = 0 then
    { s with boStart := s.now, boRemain := boTime c (drawBo c s.rngIdx s.retry), rngIdx := s.rngIdx + 1 }
  else { s with boStart := s.now }

/-- `BackoffStart` (model/thz-mac-macro.cc:343-362). -/
def backoffStart (c : Cfg) (s : St) : St :=
  let s := drawBackoff c s
  if s.state ≠ .idle ∨ s.phyIdle = false then s.schedCca s.boRemain .cca
  else { s.sched s.boRemain .granted with boEv := some s.nextTid }

/-- The residual back-off computed by `ChannelBecomesBusy` (model/thz-mac-macro.cc:370-379). -/
def residual (c : Cfg) (s : St) : ℤ :=
  let elapse := if s.now > s.boStart then s.now - s.boStart else 0
  if elapse < s.boRemain then roundOff c (s.boRemain - elapse) else s.boRemain

/-- `ChannelBecomesBusy` (model/thz-mac-macro.cc:364-384). -/
def channelBecomesBusy (c : Cfg) (s : St) : St :=
  if s.running s.boEv = true then
    cca c { s with pend := s.pend.filter (fun e => some e.1 ≠ s.boEv), boRemain := residual c s }
  else cca c s

/-- `UpdateNav` (model/thz-mac-macro.cc:499-510). -/
def updateNav (c : Cfg) (d : ℤ) (s : St) : St :=
  if roundOff c (s.now + d) > s.nav then { s with nav := roundOff c (s.now + d) } else s

/-- `UpdateLocalNav` (model/thz-mac-macro.cc:512-516). -/
def updateLocalNav (c : Cfg) (d : ℤ) (s : St) : St :=
  { s with localNav := roundOff c (s.now + d) }

/-- `StartOver` (model/thz-mac-macro.cc:696-703). -/
def startOver (c : Cfg) (s : St) : St := cca c { s with boStart := 0, boRemain := 0 }

/-! ## Transmission -/

/-- How long a frame occupies the transmitter (`THzPhyMacro::SendPacket`, model/thz-phy-macro.cc:256-269). -/
def Cfg.frameDur (c : Cfg) (f : Frame) : ℤ :=
  match f.kind with
  | .data => c.dataDur (f.body.size + 17)
  | k => c.ctrlDur k

/-- `SendPacket` (model/thz-mac-macro.cc:786-805) together with `THzPhyMacro::SendPacket`
(model/thz-phy-macro.cc:242-277), which refuses while transmitting.  Result: the answer and the state. -/
def sendPacket (c : Cfg) (f : Frame) (s : St) : Bool × St :=
  if s.state = .idle ∨ s.state = .waitTx then
    if s.phyTx = none then
      (true, (({ s with state := .tx, pktTx := some f, phyTx := some f }).sched (c.frameDur f)
        (.phyDone f)).emit (.handed f))
    else (false, { s with state := .idle }.emit (.refused f))
  else (false, s)

/-- The RTS for a packet (model/thz-mac-macro.cc:526-534).  Its duration does not reach the air. -/
def rtsFrame (me : Mac48) (p : Pkt) : Frame := ⟨.rts, me, p.dst, p.seq, 0, ⟨0, 0⟩⟩

/-- The CTS timeout (model/thz-mac-macro.cc:535-536). -/
def ctsTimeoutDur (c : Cfg) : ℤ :=
  c.ctrlDur .rts + c.tProp + c.sifs + c.ctrlDur .cts + c.tProp + c.slot

/-- `SendRts` (model/thz-mac-macro.cc:519-552). -/
def sendRts (c : Cfg) (me : Mac48) (p : Pkt) (s : St) : St :=
  match sendPacket c (rtsFrame me p) s with
  | (true, s) =>
    let s := updateLocalNav c (ctsTimeoutDur c) s
    { s.sched (ctsTimeoutDur c) (.ctsTimeout p.seq) with ctsTO := s.ctsTO ++ [⟨p.seq, s.nextTid⟩] }
  | (false, s) => startOver c s

/-- The DATA frame of a packet: the packet as it was enqueued (the header was added in `Enqueue`, the
`SetDuration` calls at 656 and 670 change a copy). -/
def dataFrame (me : Mac48) (p : Pkt) : Frame := ⟨.data, me, p.dst, p.seq, p.dur, p.body⟩

/-- The ACK timeout (model/thz-mac-macro.cc:673-675). -/
def ackTimeoutDur (c : Cfg) (p : Pkt) : ℤ :=
  c.dataDur p.size + c.tProp + c.sifs + c.ctrlDur .ack + c.tProp + c.slot

/-- `SendData` (model/thz-mac-macro.cc:638-694). -/
def sendData (c : Cfg) (me : Mac48) (p : Pkt) (s : St) : St :=
  if s.queue = [] then { s with state := .idle }
  else
    match sendPacket c (dataFrame me p) { s with pktData := some p } with
    | (true, s) =>
      if p.dst = bcast then updateLocalNav c (c.dataDur p.size + c.slot + c.tProp) s
      else
        let s := updateLocalNav c (ackTimeoutDur c p) s
        { s.sched (ackTimeoutDur c p) (.ackTimeout p.seq) with ackTO := s.ackTO ++ [⟨p.seq, s.nextTid⟩] }
    | (false, s) => startOver c s

/-- `ChannelAccessGranted` (model/thz-mac-macro.cc:386-415).  (A queue entry is never null.) -/
def granted (c : Cfg) (me : Mac48) (s : St) : St :=
  match s.queue with
  | [] => s
  | p :: _ =>
    let s := { s with boStart := 0, boRemain := 0, pktData := some p, state := .waitTx }
    if p.dst ≠ bcast ∧ c.rts = true then sendRts c me p s else sendData c me p s

/-- `Enqueue` (model/thz-mac-macro.cc:451-489).  Result: the answer and the new state.  `m_pktRec` is 16
bits wide, so the size compared with the minimum is taken modulo 65536.  `g` is the content of the
uninitialised duration field. -/
def enqueue (c : Cfg) (b : Body) (dst : Mac48) (g : UInt16) (s : St) : Bool × St :=
  if (UInt16.ofNat b.size).toNat < minEnqueue then (false, s.emit (.dropped b))
  else
    let p : Pkt := ⟨s.nextUid, s.seq + 1, dst, g, b⟩
    let s := { s with
      seq := s.seq + 1, nextUid := s.nextUid + 1, queue := s.queue ++ [p]
      recs := s.recs ++ [(⟨s.seq + 1, s.now, UInt16.ofNat p.size, 0, p⟩ : Rec)], pktData := some p }
    (false, (s.sched (c.ps 1) .cca).emit (.accepted p))

/-! ## Completion -/

/-- What `SendDataDone` does for one matching record (model/thz-mac-macro.cc:849-912), except the early
return on an empty queue and the removal of the record. -/
def settle (ok : Bool) (r : Rec) (s : St) : St :=
  let s := { s.sched 0 .results with boStart := 0, boRemain := 0, state := .idle }
  if ok then
    ({ s with
        queue := s.queue.filter (fun p => p.uid ≠ r.pkt.uid)
        send := s.send + 1
        thr := s.thr.add r.size (s.now - r.time)
        result := [⟨r.size - 53, s.now - r.time, true, false, r.pkt⟩] }).emit (.done true r.pkt)
  else
    ({ s with
        discard := s.discard + 1
        result := [⟨r.size - 53, 0, false, true, r.pkt⟩] }).emit (.done false r.pkt)

/-- The loop of `SendDataDone` (model/thz-mac-macro.cc:846-919) over the records still to be visited
(`rest`), with those already passed in `pre`.  A matching record is erased and the iterator then steps
over the record behind it without looking at it (`it = erase (it)` in the body, `it++` in the header); if
the erased record was the last one, that `it++` increments `end ()`: undefined behaviour, after which the
model stops (the usual circular implementation goes back to the first record and looks at the records
again). -/
def doneLoop (ok : Bool) (seq : UInt16) : List Rec → List Rec → St → St
  | pre, [], s => { s with recs := pre }
  | pre, r :: rest, s =>
    if r.seq = seq then
      if ok = true ∧ s.queue = [] then
        { s.sched 0 .results with state := .idle, result := [], recs := pre ++ r :: rest }
      else
        match rest with
        | [] => { settle ok r s with recs := pre, ub := true }
        | r' :: rest' => doneLoop ok seq (pre ++ [r']) rest' (settle ok r s)
    else doneLoop ok seq (pre ++ [r]) rest s

/-- `SendDataDone` (model/thz-mac-macro.cc:842-920). -/
def sendDataDone (ok : Bool) (seq : UInt16) (s : St) : St := doneLoop ok seq [] s.recs s

/-- `ResultsRecord` (model/thz-mac-macro.cc:1143-1165); with no result stored it dereferences `begin ()` of
an empty list. -/
def resultsRecord (s : St) : St :=
  match s.result with
  | [] => { s with ub := true }
  | r :: _ => s.emit (.row r)

/-- `SendPacketDone` (model/thz-mac-macro.cc:807-840), called by `THzPhyMacro::SendPacketDone`
(model/thz-phy-macro.cc:279-285), which makes the PHY idle first.  Frames stand for packet pointers; the
PHY carries one frame at a time, so comparing the frame is comparing the pointer. -/
def sendPacketDone (c : Cfg) (f : Frame) (s : St) : St :=
  let s := { s with phyTx := none }.emit (.txEnd f)
  if s.state ≠ .tx ∨ s.pktTx ≠ some f then s
  else
    let s := { s with state := .idle }
    match f.kind with
    | .rts => s
    | .cts => s
    | .data => if f.dst = bcast then cca c (sendDataDone true f.seq s) else s
    | _ => cca c s

/-! ## Timeouts -/

/-- `Backoff` (model/thz-mac-macro.cc:1076-1084). -/
def backoff (c : Cfg) (retry : UInt16) (s : St) : St :=
  ({ s with retry := retry, rngIdx := s.rngIdx + 1 }).sched (boTime c (drawBo c s.rngIdx retry)) .cca

/-- The body of the record loop in `CtsTimeout`/`AckTimeout` (model/thz-mac-macro.cc:1003-1023, 1050-1071)
for a matching record whose retry count has already been raised; the limit is the literal 5. -/
def charge (c : Cfg) (r : Rec) (s : St) : St :=
  let s := s.emit (.timedOut r.pkt r.retry)
  if r.retry ≥ 5 then
    ({ s with queue := s.queue.filter (fun p => p.uid ≠ r.pkt.uid) }).sched (c.ps 1) (.sendDataDone false r.seq)
  else backoff c r.retry s

/-- The raised record (model/thz-mac-macro.cc:1004, 1051). -/
def Rec.bump (q : UInt16) (r : Rec) : Rec := if r.seq = q then { r with retry := r.retry + 1 } else r

/-- The common part of `CtsTimeout` and `AckTimeout` (model/thz-mac-macro.cc:999-1025, 1045-1073): all
records with this sequence number are raised and charged (the loop body does not touch the list of
records, so raising first and charging afterwards is the same). -/
def timeoutLoop (c : Cfg) (q : UInt16) (s : St) : St :=
  ((s.recs.map (Rec.bump q)).filter (fun r => r.seq = q)).foldl (fun s r => charge c r s)
    { s with state := .idle, recs := s.recs.map (Rec.bump q) }

/-- `CtsTimeout` (model/thz-mac-macro.cc:980-1026). -/
def ctsTimeout (c : Cfg) (q : UInt16) (s : St) : St :=
  timeoutLoop c q { s with ctsTO := s.ctsTO.eraseP (fun t => t.seq = q) }

/-- `AckTimeout` (model/thz-mac-macro.cc:1028-1074). -/
def ackTimeout (c : Cfg) (q : UInt16) (s : St) : St :=
  timeoutLoop c q { s with ackTO := s.ackTO.eraseP (fun t => t.seq = q) }

/-! ## Reception -/

/-- `GetDuration ()` of a received header (model/thz-mac-header.cc:166-170). -/
def durOf (c : Cfg) (d : UInt16) : ℤ := ofNs c d.toNat

/-- `ReceiveRts` (model/thz-mac-macro.cc:554-581).  An RTS carries no duration, so `GetDuration` reads an
uninitialised field, whose content is `g`. -/
def receiveRts (c : Cfg) (me : Mac48) (f : Frame) (g : UInt16) (s : St) : St :=
  if f.dst ≠ me then cca c { updateNav c (durOf c g) s with state := .idle }
  else if max s.nav s.localNav > s.now then cca c s
  else
    ({ updateLocalNav c (durOf c g) s with state := .waitTx }).sched (c.ps 1) (.sendCts f.src (durOf c g) f.seq)

/-- The CTS sent in answer to an RTS (model/thz-mac-macro.cc:587-592); the duration is stored in 16 bits
(model/thz-mac-header.cc:117-122). -/
def ctsFrame (c : Cfg) (me dst : Mac48) (d : ℤ) (seq : UInt16) : Frame :=
  ⟨.cts, me, dst, seq, UInt16.ofInt (toNs c (d - c.sifs - c.ctrlDur .cts - c.tProp)), ⟨0, 0⟩⟩

/-- `SendCts` (model/thz-mac-macro.cc:583-597). -/
def sendCts (c : Cfg) (me dst : Mac48) (d : ℤ) (seq : UInt16) (s : St) : St :=
  match sendPacket c (ctsFrame c me dst d seq) s with
  | (true, s) => updateLocalNav c (d - c.sifs) s
  | (false, s) => s

/-- The search in `ReceiveCts` (model/thz-mac-macro.cc:611-621): `m_pktData` is set to every record's
packet in turn and the search stops at the first one with the sequence number; if there is none,
`m_pktData` is left at the last record's packet. -/
def findPkt (q : UInt16) : List Rec → Option Pkt → Option Pkt
  | [], cur => cur
  | r :: rs, _ => if r.pkt.seq = q then some r.pkt else findPkt q rs (some r.pkt)

/-- `ReceiveCts` (model/thz-mac-macro.cc:599-636).  With no record at all and `m_pktData` never set the
code would schedule `SendData` with a null packet; the model schedules nothing then. -/
def receiveCts (c : Cfg) (me : Mac48) (f : Frame) (s : St) : St :=
  if f.dst ≠ me then cca c { updateNav c (durOf c f.dur) s with state := .idle }
  else
    let s := updateLocalNav c (durOf c f.dur) { s with pktData := findPkt f.seq s.recs s.pktData }
    match s.ctsTO.find? (fun t => t.seq = f.seq), s.pktData with
    | some t, some p =>
      { ({ s.cancel t.tid with state := .waitTx }).sched (c.ps 1) (.sendData p) with
        ctsTO := s.ctsTO.eraseP (fun t => t.seq = f.seq) }
    | _, _ => s

/-- Pass up if `IsNewSequence` says so (model/thz-mac-macro.cc:715-718, 738-741). -/
def forwardIfNew (f : Frame) (s : St) : St :=
  let r := isNewSequence s.seqList f.src f.seq
  if r.1 then { s with seqList := r.2 }.emit (.up f.body f.src f.dst f.seq) else { s with seqList := r.2 }

/-- `ReceiveData` (model/thz-mac-macro.cc:705-742). -/
def receiveData (c : Cfg) (me : Mac48) (f : Frame) (s : St) : St :=
  if f.dst = bcast then cca c (forwardIfNew f { s with state := .idle })
  else if f.dst ≠ me then cca c { updateNav c (durOf c f.dur) s with state := .idle }
  else
    forwardIfNew f (({ updateLocalNav c (durOf c f.dur) s with state := .waitTx }).sched c.sifs
      (.sendAck f.src f.seq))

/-- The ACK (model/thz-mac-macro.cc:748-751); its duration field is uninitialised and never read. -/
def ackFrame (me dst : Mac48) (seq : UInt16) : Frame := ⟨.ack, me, dst, seq, 0, ⟨0, 0⟩⟩

/-- `SendAck` (model/thz-mac-macro.cc:744-756). -/
def sendAck (c : Cfg) (me dst : Mac48) (seq : UInt16) (s : St) : St :=
  (sendPacket c (ackFrame me dst seq)
    (updateLocalNav c (c.ctrlDur .ack + c.tProp + c.slot) s)).2

/-- `ReceiveAck` (model/thz-mac-macro.cc:758-784). -/
def receiveAck (c : Cfg) (me : Mac48) (f : Frame) (s : St) : St :=
  let s := { s with state := .idle }
  if f.dst = me then
    match s.ackTO.find? (fun t => t.seq = f.seq) with
    | some t =>
      { (s.cancel t.tid).sched (c.ps 1) (.sendDataDone true f.seq) with
        ackTO := s.ackTO.eraseP (fun t => t.seq = f.seq) }
    | none => cca c s
  else cca c s

/-- `ReceivePacket` (model/thz-mac-macro.cc:923-945). -/
def receivePacket (c : Cfg) (s : St) : St :=
  let s := channelBecomesBusy c s
  if s.state = .tx ∨ s.state = .coll then s else { s with state := .rx }

/-- `ReceivePacketDone` (model/thz-mac-macro.cc:947-977). -/
def receivePacketDone (c : Cfg) (me : Mac48) (f : Frame) (ok : Bool) (g : UInt16) (s : St) : St :=
  let s := { s with state := .idle }
  if ok = false then s
  else
    let s := s.emit (.rx f)
    match f.kind with
    | .rts => receiveRts c me f g s
    | .cts => receiveCts c me f s
    | .data => receiveData c me f s
    | .ack => receiveAck c me f s
    | .cta => cca c s

/-! ## The machine -/

/-- What can happen to one MAC. -/
inductive Op
  /-- the layer above calls `Enqueue`. -/
  | enqueue (b : Body) (dst : Mac48) (g : UInt16)
  /-- a pending simulator event is run. -/
  | fire (tid : Nat)
  /-- the PHY announces the start of a reception. -/
  | rxStart
  /-- the PHY reports the end of a reception. -/
  | rxDone (f : Frame) (ok : Bool) (g : UInt16)
  /-- the PHY's carrier sense changes. -/
  | sense (b : Bool)
  /-- time passes. -/
  | advance (d : Nat)
deriving DecidableEq

/-- Run the body of an event. -/
def runEv (c : Cfg) (me : Mac48) (e : Ev) (s : St) : St :=
  match e with
  | .cca => cca c s
  | .backoffStart => backoffStart c s
  | .granted => granted c me s
  | .ctsTimeout q => ctsTimeout c q s
  | .ackTimeout q => ackTimeout c q s
  | .sendCts d t q => sendCts c me d t q s
  | .sendData p => sendData c me p s
  | .sendAck d q => sendAck c me d q s
  | .sendDataDone ok q => sendDataDone ok q s
  | .results => resultsRecord s
  | .phyDone f => sendPacketDone c f s

/-- Run a pending event at its due time. -/
def fire (c : Cfg) (me : Mac48) (tid : Nat) (s : St) : St :=
  match s.pend.find? (fun e => e.1 = tid) with
  | none => s
  | some (_, due, e) =>
    runEv c me e { s with pend := s.pend.filter (fun e => e.1 ≠ tid), now := max s.now due }

/-- One step. -/
def step (c : Cfg) (me : Mac48) (s : St) : Op → St
  | .enqueue b dst g => (enqueue c b dst g s).2
  | .fire tid => fire c me tid s
  | .rxStart => receivePacket c s
  | .rxDone f ok g => receivePacketDone c me f ok g s
  | .sense b => { s with sense := b }
  | .advance d => { s with now := s.now + d }

/-- A run. -/
def run (c : Cfg) (me : Mac48) (s : St) (ops : List Op) : St := ops.foldl (step c me) s

/-- The state after a history. -/
def after (c : Cfg) (me : Mac48) (seq0 : UInt16) (ops : List Op) : St := run c me (init seq0) ops

/-- An operation respects simulated time: an event that is run is the first one due, and time does not
pass beyond the first event due. -/
def timelyOp (s : St) : Op → Bool
  | .fire tid =>
    match s.pend.find? (fun e => e.1 = tid) with
    | none => false
    | some (_, due, _) => s.now ≤ due && s.pend.all (fun e => due ≤ e.2.1)
  | .advance d => s.pend.all (fun e => s.now + d ≤ e.2.1)
  | _ => true

/-- All operations of a run respect simulated time. -/
def timelyRun (c : Cfg) (me : Mac48) : St → List Op → Bool
  | _, [] => true
  | s, o :: ops => timelyOp s o && timelyRun c me (step c me s o) ops

end Thz.Macro
