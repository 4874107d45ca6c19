import Verif.Header
import Verif.Seq
import Verif.Energy

/-!
# Model of `THzMacNano` (model/thz-mac-nano.h, model/thz-mac-nano.cc)

One node's MAC as a state machine.  Simulator events that the MAC schedules are kept in a list of
pending events; *any* pending event may fire at any time (time stamps are dropped), which
over-approximates every real order of events.  Everything a user can observe (trace sources, frames
handed to the PHY, packets passed up, energy operations) is recorded in a log.

Simplifications: every call of `Enqueue` passes a new packet object (the unique id of the packet object
is `uid`); `THzPhy::SendPacket`'s answer is ignored by the code (model/thz-mac-nano.cc:391,411,428,438,465),
so a frame handed to the PHY is logged as `tx` whether or not the PHY accepts it; throughput statistics
and the contents of `NS_LOG` are left out.  When the run starts the energy model has been initialised once.
-/

namespace Thz.Nano

open Thz

/-- `Mac48Address::GetBroadcast` (model/thz-mac-nano.cc:220-224). -/
def bcast : Mac48 := ⟨255, 255, 255, 255, 255, 255⟩

/-- The user's data in a packet: an opaque content and its size in bytes. -/
structure Body where
  content : Nat
  size : Nat
deriving DecidableEq, Repr

/-- A queued `Ptr<Packet>` with its MAC header (model/thz-mac-nano.cc:261-263).  `uid` stands for the pointer. -/
structure Pkt where
  uid : Nat
  seq : UInt16
  dst : Mac48
  body : Body
deriving DecidableEq, Repr

/-- `packet->GetSize ()` of a queued packet: user data plus 17 bytes of DATA header
(model/thz-mac-header.cc:190-191). -/
def Pkt.size (p : Pkt) : Nat := p.body.size + 17

/-- Frame types on the air (model/thz-mac-header.h:32-36). -/
inductive Kind | cta | rts | cts | ack | data
deriving DecidableEq, Repr

/-- A frame on the air: the header fields that the nano MAC uses, and the body (empty for control frames). -/
structure Frame where
  kind : Kind
  src : Mac48
  dst : Mac48
  seq : UInt16
  body : Body
deriving DecidableEq, Repr

/-- Header size per type (model/thz-mac-header.cc:172-195). -/
def Kind.hdrSize : Kind → Nat
  | .cta => 17 | .rts => 18 | .cts => 19 | .ack => 17 | .data => 17

/-- `packet->GetSize ()` of a frame. -/
def Frame.size (f : Frame) : Nat := f.kind.hdrSize + f.body.size

/-- Attributes (model/thz-mac-nano.cc:82-137). -/
structure Cfg where
  rts : Bool           -- EnableRts
  queueLimit : Nat     -- QueueLimit
  retryLimit : Nat     -- DataRetryLimit
  frameLength : Nat    -- FrameLength
  energy : EParams     -- parameters of the node's THzEnergyModel

/-- Everything observable, in the order it happens. -/
inductive Obs
  /-- the trace source Enqueue fired: the packet was accepted (258) -/
  | accepted (p : Pkt)
  /-- a frame was handed to the PHY (480) -/
  | tx (f : Frame)
  /-- `m_forwardUpCb (packet, source, dest)` (689, 725); the sequence number is noted to identify the packet -/
  | up (body : Body) (src dst : Mac48) (seq : UInt16)
  /-- the trace source SendDataDone fired (545, 581) -/
  | done (ok : Bool) (p : Pkt)
  /-- the trace source CtsTimeout or AckTimeout fired (807, 859), for a packet with this sequence number -/
  | timeout (seq : UInt16)
  /-- a back-off was started for a packet (844, 894) -/
  | backoff (p : Pkt)
  /-- an attempt to send a packet was given up for lack of energy (307, 317) -/
  | starved (p : Pkt)
  /-- `BookEnergy (tx, rx)` and its answer -/
  | book (granted : Bool) (tx rx : Nat)
  /-- `ReturnEnergy (tx, rx)` -/
  | ret (tx rx : Nat)
deriving DecidableEq, Repr

/-- Scheduled simulator events with their arguments. -/
inductive Ev
  | ctsTimeout (p : Pkt)        -- 392
  | ackTimeout (seq : UInt16)   -- 442
  | dataTimeout (seq : UInt16)  -- 620
  | checkResources (p : Pkt)    -- 339, 530
deriving DecidableEq, Repr

/-- Entry of `m_pktTx` (model/thz-mac-nano.h:75-83).  `sequence` and `destination` are those of the packet's
header (model/thz-mac-nano.cc:268-270); `tstart` and `backoff` are only used for statistics. -/
structure PktTx where
  pkt : Pkt
  retry : Nat
deriving DecidableEq, Repr

/-- Entry of `m_ackTimeouts` (model/thz-mac-nano.h:53-58); `tid` is the `EventId`. -/
structure AckTO where
  seq : UInt16
  tid : Nat
  pkt : Pkt
deriving DecidableEq, Repr

/-- Entry of `m_ctsTimeouts` / `m_dataTimeouts` (model/thz-mac-nano.h:61-72). -/
structure TO where
  seq : UInt16
  tid : Nat
deriving DecidableEq, Repr

/-- State of a `THzMacNano` with its energy store and its scheduled events. -/
structure St where
  sequence : UInt16 := 0          -- m_sequence
  nextUid : Nat := 0              -- number of packets accepted so far (ghost: pointer supply)
  queue : List Pkt := []          -- m_pktQueue
  pktTx : List PktTx := []        -- m_pktTx
  ackTO : List AckTO := []        -- m_ackTimeouts
  ctsTO : List TO := []           -- m_ctsTimeouts
  dataTO : List TO := []          -- m_dataTimeouts
  seqList : SeqList Mac48 := []   -- m_seqList
  ite : Nat := 0                  -- m_ite
  discarded : Nat := 0            -- m_discarded
  energy : ℚ := 0                 -- THzEnergyModel::m_remainingEnergy
  pend : List (Nat × Ev) := []    -- scheduled events
  nextTid : Nat := 0              -- supply of event ids
  log : List Obs := []            -- observations, newest first (ghost)

/-- The constructor (model/thz-mac-nano.cc:51-64) with the energy store at `e0`. -/
def St.init (e0 : ℚ) : St := { energy := e0 }

/-- Record an observation. -/
def St.emit (s : St) (o : Obs) : St := { s with log := o :: s.log }

/-- `THzEnergyModel::BookEnergy` called by the MAC. -/
def St.book (c : Cfg) (s : St) (tx rx : Nat) : Bool × St :=
  let r := c.energy.book s.energy tx rx
  (r.1, { s with energy := r.2 }.emit (.book r.1 tx rx))

/-- `THzEnergyModel::ReturnEnergy` called by the MAC. -/
def St.ret (c : Cfg) (s : St) (tx rx : Nat) : St :=
  { s with energy := c.energy.ret s.energy tx rx }.emit (.ret tx rx)

/-- `Simulator::Schedule`. -/
def St.schedule (s : St) (e : Ev) : St :=
  { s with pend := s.pend ++ [(s.nextTid, e)], nextTid := s.nextTid + 1 }

/-- `EventId::Cancel`. -/
def St.cancel (s : St) (tid : Nat) : St :=
  { s with pend := s.pend.filter (fun e => e.1 ≠ tid) }

/-- `THzMacNano::SendRts` (model/thz-mac-nano.cc:367-394). -/
def sendRts (me : Mac48) (p : Pkt) (s : St) : St :=
  let s := s.emit (.tx ⟨.rts, me, p.dst, p.seq, ⟨0, 0⟩⟩)
  let tid := s.nextTid
  let s := s.schedule (.ctsTimeout p)
  { s with ctsTO := s.ctsTO ++ [⟨p.seq, tid⟩] }

/-- `THzMacNano::SendCts` (model/thz-mac-nano.cc:396-412). -/
def sendCts (me dest : Mac48) (seq : UInt16) (s : St) : St :=
  s.emit (.tx ⟨.cts, me, dest, seq, ⟨0, 0⟩⟩)

/-- `THzMacNano::SendData` (model/thz-mac-nano.cc:414-448). -/
def sendData (me : Mac48) (p : Pkt) (s : St) : St :=
  if p.dst = bcast then
    s.emit (.tx ⟨.data, me, p.dst, p.seq, p.body⟩)
  else
    let s := s.emit (.tx ⟨.data, me, p.dst, p.seq, p.body⟩)
    let tid := s.nextTid
    let s := s.schedule (.ackTimeout p.seq)
    { s with ackTO := s.ackTO ++ [⟨p.seq, tid, p⟩] }

/-- `THzMacNano::SendAck` (model/thz-mac-nano.cc:450-466). -/
def sendAck (me dest : Mac48) (seq : UInt16) (s : St) : St :=
  s.emit (.tx ⟨.ack, me, dest, seq, ⟨0, 0⟩⟩)

/-- `THzMacNano::CheckResources` (model/thz-mac-nano.cc:292-324); 18 is the size of an RTS header and 17 of an
ACK header. -/
def checkResources (c : Cfg) (me : Mac48) (p : Pkt) (s : St) : St :=
  if p.dst ≠ bcast ∧ c.rts = true then
    let r := s.book c (p.size + 18) (2 * 18)
    if r.1 then sendRts me p r.2 else r.2.emit (.starved p)
  else
    let r := s.book c p.size 17
    if r.1 then sendData me p r.2 else r.2.emit (.starved p)

/-- `THzMacNano::TxFirstPacket` (model/thz-mac-nano.cc:350-365), also the energy callback (162-165). -/
def txFirstPacket (c : Cfg) (me : Mac48) (s : St) : St :=
  match s.queue with
  | [] => s
  | p :: _ => checkResources c me p s

/-- The packet that `Enqueue` creates: header with the incremented 16-bit sequence number
(model/thz-mac-nano.cc:259-263). -/
def newPkt (s : St) (body : Body) (dest : Mac48) : Pkt :=
  ⟨s.nextUid, s.sequence + 1, dest, body⟩

/-- `THzMacNano::Enqueue` (model/thz-mac-nano.cc:240-290): the answer and the new state. -/
def enqueue (c : Cfg) (me : Mac48) (body : Body) (dest : Mac48) (s : St) : Bool × St :=
  if body.size = 64 then (true, s)
  else if s.queue.length ≥ c.queueLimit then (false, s)
  else
    let p := newPkt s body dest
    let s1 := { s.emit (.accepted p) with
      sequence := s.sequence + 1, nextUid := s.nextUid + 1, queue := s.queue ++ [p] }
    let s2 := { s1 with pktTx := s1.pktTx ++ [⟨p, 0⟩] }
    if s.pktTx.any (fun t => t.pkt.seq < p.seq ∧ t.pkt.dst = p.dst) then (true, s2)
    else (true, txFirstPacket c me s2)

/-- The loop in `SendDataDone` that completes entries (model/thz-mac-nano.cc:536-590), for the list of entries
that carry the sequence number: trace, counters, `m_pktQueue.remove (packet)`. -/
def completeAll (ok : Bool) : List PktTx → St → St
  | [], s => s
  | t :: ts, s =>
    let s := s.emit (.done ok t.pkt)
    let s := { s with queue := s.queue.filter (fun q => q.uid ≠ t.pkt.uid) }
    let s := if ok then { s with ite := s.ite + 1 } else { s with discarded := s.discarded + 1 }
    completeAll ok ts s

/-- The first loop in `SendDataDone`: start the next packet for the same destination
(model/thz-mac-nano.cc:518-533). -/
def startNext (p : Pkt) (s : St) : St :=
  match s.pktTx.find? (fun t => t.pkt.seq > p.seq ∧ t.pkt.dst = p.dst) with
  | some t => s.schedule (.checkResources t.pkt)
  | none => s

/-- `THzMacNano::SendDataDone` (model/thz-mac-nano.cc:508-591): first start the next packet for the same
destination (518-533), then complete and erase every entry with this sequence number (536-590). -/
def sendDataDone (ok : Bool) (p : Pkt) (s : St) : St :=
  let s := startNext p s
  let hit := s.pktTx.filter (fun t => t.pkt.seq = p.seq)
  let s := completeAll ok hit s
  { s with pktTx := s.pktTx.filter (fun t => t.pkt.seq ≠ p.seq) }

/-- `THzMacNano::Backoff` (model/thz-mac-nano.cc:326-340): the random delay is not modelled. -/
def backoff (p : Pkt) (s : St) : St :=
  (s.emit (.backoff p)).schedule (.checkResources p)

/-- `++retry` of the first `m_pktTx` entry with sequence number `seq` (model/thz-mac-nano.cc:829-835, 880-885). -/
def bumpRetry (seq : UInt16) : List PktTx → List PktTx
  | [] => []
  | t :: ts => if t.pkt.seq = seq then { t with retry := t.retry + 1 } :: ts else t :: bumpRetry seq ts

/-- The second half of `CtsTimeout` and `AckTimeout` (model/thz-mac-nano.cc:828-848, 879-898).  `doneArg` is the
packet passed to `SendDataDone` when the limit is reached: the timer's packet in `CtsTimeout` (839), the entry's packet in
`AckTimeout` (889).  `retry` is a `uint16_t`; it never exceeds the limit, so it cannot overflow. -/
def retryOrDiscard (c : Cfg) (seq : UInt16) (doneArg : Pkt → Pkt) (s : St) : St :=
  match s.pktTx.find? (fun t => t.pkt.seq = seq) with
  | none => s
  | some t =>
    let s := { s with pktTx := bumpRetry seq s.pktTx }
    if t.retry + 1 ≥ c.retryLimit then sendDataDone false (doneArg t.pkt) s
    else backoff t.pkt s

/-- `THzMacNano::CtsTimeout` (model/thz-mac-nano.cc:800-849). -/
def ctsTimeout (c : Cfg) (p : Pkt) (s : St) : St :=
  let s := s.emit (.timeout p.seq)
  let s := s.ret c c.frameLength (2 * 18)
  let s := { s with ctsTO := s.ctsTO.eraseP (fun t => t.seq = p.seq) }
  retryOrDiscard c p.seq (fun _ => p) s

/-- `THzMacNano::AckTimeout` (model/thz-mac-nano.cc:851-899). -/
def ackTimeout (c : Cfg) (seq : UInt16) (s : St) : St :=
  let s := s.emit (.timeout seq)
  let s := s.ret c 0 18
  let s := { s with ackTO := s.ackTO.eraseP (fun t => t.seq = seq) }
  retryOrDiscard c seq (fun q => q) s

/-- `THzMacNano::DataTimeout` (model/thz-mac-nano.cc:901-921). -/
def dataTimeout (c : Cfg) (seq : UInt16) (s : St) : St :=
  let s := s.ret c 18 c.frameLength
  { s with dataTO := s.dataTO.eraseP (fun t => t.seq = seq) }

/-- `THzMacNano::ReceiveRts` (model/thz-mac-nano.cc:594-629). -/
def receiveRts (c : Cfg) (me : Mac48) (f : Frame) (s : St) : St :=
  let s := (s.book c 0 f.size).2
  if f.dst ≠ me then s
  else
    let r := s.book c (2 * f.size) c.frameLength
    if r.1 then
      let s := r.2
      let tid := s.nextTid
      let s := s.schedule (.dataTimeout f.seq)
      let s := { s with dataTO := s.dataTO ++ [⟨f.seq, tid⟩] }
      sendCts me f.src f.seq s
    else r.2

/-- The loop in `ReceiveCts` that cancels and erases the first CTS timer (model/thz-mac-nano.cc:648-658). -/
def clearCts (seq : UInt16) (s : St) : St :=
  match s.ctsTO.find? (fun t => t.seq = seq) with
  | some t => { s.cancel t.tid with ctsTO := s.ctsTO.eraseP (fun t => t.seq = seq) }
  | none => s

/-- The loop in `ReceiveCts` that looks for the packet (model/thz-mac-nano.cc:660-671). -/
def answerCts (me : Mac48) (f : Frame) (s : St) : St :=
  match s.pktTx.find? (fun t => t.pkt.seq = f.seq ∧ t.pkt.dst = f.src) with
  | some t => sendData me t.pkt s
  | none => s

/-- `THzMacNano::ReceiveCts` (model/thz-mac-nano.cc:631-673). -/
def receiveCts (me : Mac48) (f : Frame) (s : St) : St :=
  if f.dst ≠ me then s else answerCts me f (clearCts f.seq s)

/-- `IsNewSequence` followed by `m_forwardUpCb` (model/thz-mac-nano.cc:687-690, 723-726). -/
def filterUp (f : Frame) (s : St) : St :=
  let r := isNewSequence s.seqList f.src f.seq
  let s := { s with seqList := r.2 }
  if r.1 then s.emit (.up f.body f.src f.dst f.seq) else s

/-- The loop in `ReceiveData` that cancels and erases the first DATA timer (model/thz-mac-nano.cc:710-720). -/
def clearData (seq : UInt16) (s : St) : St :=
  match s.dataTO.find? (fun t => t.seq = seq) with
  | some t => { s.cancel t.tid with dataTO := s.dataTO.eraseP (fun t => t.seq = seq) }
  | none => s

/-- `THzMacNano::ReceiveData` from the acknowledgement on (model/thz-mac-nano.cc:709-727). -/
def acceptData (me : Mac48) (f : Frame) (s : St) : St :=
  filterUp f (sendAck me f.src f.seq (clearData f.seq s))

/-- `THzMacNano::ReceiveData` (model/thz-mac-nano.cc:675-728); the booked sizes are an RTS header (700, 703) and the
packet without its header (683). -/
def receiveData (c : Cfg) (me : Mac48) (f : Frame) (s : St) : St :=
  if f.dst = bcast then filterUp f s
  else if f.dst ≠ me then s
  else if c.rts = false then
    let r := s.book c 18 f.body.size
    if r.1 then acceptData me f r.2 else r.2
  else acceptData me f s

/-- `THzMacNano::ReceiveAck` (model/thz-mac-nano.cc:730-761). -/
def receiveAck (me : Mac48) (f : Frame) (s : St) : St :=
  if f.dst = me then
    match s.ackTO.find? (fun t => t.seq = f.seq) with
    | some t =>
      let s := s.cancel t.tid
      let s := sendDataDone true t.pkt s
      { s with ackTO := s.ackTO.eraseP (fun t => t.seq = f.seq) }
    | none => s
  else s

/-- `THzMacNano::ReceivePacketDone` (model/thz-mac-nano.cc:769-797). -/
def receivePacketDone (c : Cfg) (me : Mac48) (f : Frame) (success : Bool) (s : St) : St :=
  if success = false then s
  else match f.kind with
    | .rts => receiveRts c me f s
    | .cts => receiveCts me f s
    | .data => receiveData c me f s
    | .ack => receiveAck me f s
    | .cta => s

/-- `THzEnergyModel::HarvestEnergy` (model/thz-energy-model.cc:149-168) with `TxFirstPacket` as callback. -/
def harvest (c : Cfg) (me : Mac48) (s : St) : St :=
  let r := c.energy.harvestStep s.energy
  let s := { s with energy := r.2 }
  if r.1 then txFirstPacket c me s else s

/-- `THzEnergyModel::DoInitialize` (model/thz-energy-model.cc:170-177) runs again: ns-3 calls it when the node is initialised, and the constructor
has scheduled another call (97-99, see `EnergyTime`).  The store is set to its initial content and harvesting starts. -/
def energyInit (c : Cfg) (me : Mac48) (s : St) : St := harvest c me { s with energy := c.energy.initial }

/-- A simulator event runs. -/
def runEv (c : Cfg) (me : Mac48) (e : Ev) (s : St) : St :=
  match e with
  | .ctsTimeout p => ctsTimeout c p s
  | .ackTimeout q => ackTimeout c q s
  | .dataTimeout q => dataTimeout c q s
  | .checkResources p => checkResources c me p s

/-- The pending event `tid` is taken off the list and runs; nothing happens if there is none. -/
def fire (c : Cfg) (me : Mac48) (tid : Nat) (s : St) : St :=
  match s.pend.find? (fun e => e.1 = tid) with
  | some e => runEv c me e.2 { s with pend := s.pend.filter (fun e => e.1 ≠ tid) }
  | none => s

/-- What can happen to a node. -/
inductive Op
  | enqueue (body : Body) (dest : Mac48)   -- the upper layer sends
  | recv (f : Frame) (success : Bool)      -- the PHY reports a reception
  | fire (tid : Nat)                       -- a pending simulator event runs
  | harvest                                -- the periodic energy event runs
  | einit                                  -- the energy model is initialised (again)
deriving DecidableEq, Repr

/-- One operation.  `SendPacketDone` (model/thz-mac-nano.cc:488-506) and `ReceivePacket` (763-767) only log and
are left out. -/
def step (c : Cfg) (me : Mac48) (s : St) : Op → St
  | .enqueue b d => (enqueue c me b d s).2
  | .recv f ok => receivePacketDone c me f ok s
  | .fire tid => fire c me tid s
  | .harvest => harvest c me s
  | .einit => energyInit c me s

/-- A run of operations. -/
def run (c : Cfg) (me : Mac48) (s : St) (ops : List Op) : St := ops.foldl (step c me) s

end Thz.Nano
