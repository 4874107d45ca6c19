import Verif.Central
import Mathlib.Data.Rat.Floor

/-!
# Model of `THzMacMacroAp` (model/thz-mac-macro-ap.h, model/thz-mac-macro-ap.cc)

The access point of the centralised macro scenario as a timed state machine, built like the model of
`THzMacMacro`: pending simulator events carry due times, an operation `fire` runs any of them, and `Timely`
singles out the runs in which the earliest is always taken.

Times are integers counting ticks, `Cfg.tpn` ticks per nanosecond (1000 in
examples/thz-macro-central.cc:87).  Angles and powers are rational numbers (the code uses `double`).  The
PHY is represented by the frame that it is transmitting (model/thz-phy-macro.cc:242-285).

The run starts after `Init` (225-254), which computes `m_tData` and `m_tSector` and schedules the first
turn; the antenna's turning speed set there does not influence the MAC.  `CycleRecord` (814-832) does
nothing.  Not modelled: logging.
-/

namespace Thz.Ap

open Thz Thz.Central
open Thz.Nano (Body Kind bcast)

/-- Attributes (model/thz-mac-macro-ap.cc:113-194), the antenna's beam width (229), and the PHY's durations
(`GetCtrlDuration`, `GetDataDuration`, 852-863). -/
structure Cfg where
  tpn : ℤ
  ways : Nat
  boSlots : Nat
  slot : ℤ
  slot3 : ℤ
  sifs : ℤ
  tProp : ℤ
  packetSize : Nat
  useWhiteList : Bool
  useAdaptMCS : Bool
  thBPSK : ℚ
  thQPSK : ℚ
  th8PSK : ℚ
  th16QAM : ℚ
  th64QAM : ℚ
  beamwidth : ℚ
  ctrlDur : Kind → ℤ
  dataDur : Nat → Nat → ℤ

/-- `PicoSeconds (k)`. -/
def Cfg.ps (c : Cfg) (k : ℤ) : ℤ := psT c.tpn k

/-- `NanoSeconds (k)`. -/
def Cfg.ns (c : Cfg) (k : ℤ) : ℤ := k * c.tpn

/-- `GetMaxBackoff` with `GetSlotTime` (model/thz-mac-macro-ap.cc:505-509, 819-827). -/
def Cfg.maxBo (c : Cfg) : ℤ := (if c.ways = 3 then c.slot3 else c.slot) * c.boSlots

/-- `m_tData` (model/thz-mac-macro-ap.cc:234). -/
def Cfg.tData (c : Cfg) : ℤ := c.dataDur c.packetSize 0

/-- `m_tSector` (model/thz-mac-macro-ap.cc:236-237). -/
def Cfg.tSector (c : Cfg) : ℤ :=
  c.ctrlDur .cts + c.tProp + c.sifs + c.maxBo + c.tData + c.tProp + c.sifs + c.ctrlDur .ack + c.ns 10

/-- Scheduled events; `phyDone f` is the channel's `SendPacketDone` (model/thz-channel.cc:130-133). -/
inductive Ev
  | turn
  | dataTimeout
  | waitTime
  | sectorTimeout
  | sendCts (dst : Mac48) (seq : UInt16) (dur : ℤ) (flag : Nat)
  | sendAck
  | feedback (angle : ℚ) (dst : Mac48)
  | phyDone (f : Frame)
deriving DecidableEq

/-- Observable effects. -/
inductive Obs
  /-- the PHY took a frame, at this time. -/
  | handed (t : ℤ) (f : Frame)
  /-- the PHY was asked to send during a transmission and refused. -/
  | refused (f : Frame)
  /-- the MAC did not pass the frame to the PHY because of its own state. -/
  | blocked (f : Frame)
  /-- a transmission ended. -/
  | txEnd (f : Frame)
  /-- the PHY reported an intact frame with this power. -/
  | rx (f : Frame) (power : ℚ)
  /-- a packet was passed to the layer above. -/
  | up (b : Body) (src dst : Mac48) (seq : UInt16)
  /-- `TurnRxAntenna` pointed the antenna to a new angle. -/
  | turned (angle : ℚ)
  /-- a full turn was counted. -/
  | cycle
  /-- an RTS collection window was closed. -/
  | closed
  /-- a node was entered in the white list of a sector. -/
  | listed (node : Mac48) (sector : ℚ)
deriving DecidableEq

/-- The state of the access point. -/
structure St where
  now : ℤ
  state : State
  angle : ℚ
  cycles : UInt16
  recording : Bool
  rtsList : List (Frame × ℚ)
  ackList : List Frame
  expected : UInt16
  sectorEv : Option Nat
  dataEv : Option Nat
  pktTx : Option Frame
  phyTx : Option Frame
  sectorMap : List (ℚ × List (Mac48 × ℚ))
  nodeMap : List (Mac48 × List (ℚ × ℚ))
  whiteList : List (ℚ × List Mac48)
  seqList : SeqList Mac48
  pend : List (Nat × ℤ × Ev)
  nextTid : Nat
  nextId : Nat
  ub : Bool
  log : List Obs

/-- After the constructor (model/thz-mac-macro-ap.cc:61-90) and `Init` (225-254): the first turn is
scheduled. -/
def init (c : Cfg) : St :=
  { now := 0, state := .idle, angle := 0, cycles := 0, recording := c.useWhiteList, rtsList := [], ackList := []
    expected := 0, sectorEv := none, dataEv := none, pktTx := none, phyTx := none, sectorMap := [], nodeMap := []
    whiteList := [], seqList := [], pend := [(0, 0, .turn)], nextTid := 1, nextId := 0, ub := false, log := [] }

/-! ## Helpers -/

/-- Append to the log. -/
def St.emit (s : St) (o : Obs) : St := { s with log := s.log ++ [o] }

/-- `Simulator::Schedule`. -/
def St.sched (s : St) (d : ℤ) (e : Ev) : St :=
  { s with pend := s.pend ++ [(s.nextTid, s.now + d, e)], nextTid := s.nextTid + 1 }

/-- `EventId::Cancel`; cancelling an event that has run or a default `EventId` does nothing. -/
def St.cancel (s : St) : Option Nat → St
  | none => s
  | some t => { s with pend := s.pend.filter (fun e => e.1 ≠ t) }

/-! ## Sending -/

/-- `SendPacket` (model/thz-mac-macro-ap.cc:571-590) together with `THzPhyMacro::SendPacket`
(model/thz-phy-macro.cc:242-277).  All frames of the access point are control frames. -/
def sendPacket (c : Cfg) (f : Frame) (s : St) : St :=
  if s.state = .idle ∨ s.state = .waitTx then
    if s.phyTx.isNone then
      ({ (s.sched (c.ctrlDur f.kind) (.phyDone f)) with state := .tx, pktTx := some f, phyTx := some f }).emit
        (.handed s.now f)
    else { s with state := .idle }.emit (.refused f)
  else s.emit (.blocked f)

/-- The CTA frame of `SendCta1`, `SendCta3` and `SendFeedbackCTA` (model/thz-mac-macro-ap.cc:284-325,
776-790).  `SetSector` takes a `uint16_t`, so the angle loses its fraction (it is never negative when the
beam width is positive). -/
def ctaFrame (me dst : Mac48) (id : Nat) (angle : ℚ) (flags : UInt16) : Frame :=
  ⟨id, .cta, me, dst, 0, 0, flags, UInt16.ofNat ⌊angle⌋.toNat, noBody⟩

/-- The CTS frame of `SendCts` (model/thz-mac-macro-ap.cc:327-339). -/
def ctsFrame (c : Cfg) (me dst : Mac48) (id : Nat) (seq : UInt16) (dur : ℤ) (flag : Nat) : Frame :=
  ⟨id, .cts, me, dst, seq, durField c.tpn dur, UInt16.ofNat flag, 0, noBody⟩

/-- The ACK frame of `ReceiveData` (model/thz-mac-macro-ap.cc:531-534). -/
def ackFrame (me : Mac48) (id : Nat) (f : Frame) : Frame := ⟨id, .ack, me, f.src, f.seq, 0, 0, 0, noBody⟩

/-- `dataTimeout` of `SendCta1` (model/thz-mac-macro-ap.cc:290-291). -/
def Cfg.dataTimeout (c : Cfg) : ℤ := c.ctrlDur .cts + c.tProp + c.sifs + c.maxBo + c.tProp + c.ns 1

/-- `waitTime` of `SendCta3` (model/thz-mac-macro-ap.cc:318-319). -/
def Cfg.waitTime (c : Cfg) : ℤ :=
  c.ctrlDur .cta + c.tProp + c.sifs + c.maxBo + c.tProp + c.ctrlDur .rts + c.ns 1

/-- `SendCta1` (model/thz-mac-macro-ap.cc:284-299).  The sector field is not set there; it is 0 here. -/
def sendCta1 (c : Cfg) (me : Mac48) (s : St) : St :=
  let t := s.nextTid
  let s := { s.sched c.dataTimeout .dataTimeout with dataEv := some t, nextId := s.nextId + 1 }
  sendPacket c (ctaFrame me bcast (s.nextId - 1) 0 0) s

/-- `SendCta3` (model/thz-mac-macro-ap.cc:301-325).  `m_waitTimeEvent` is never cancelled. -/
def sendCta3 (c : Cfg) (me : Mac48) (s : St) : St :=
  let s := { s.sched c.waitTime .waitTime with nextId := s.nextId + 1 }
  sendPacket c (ctaFrame me bcast (s.nextId - 1) s.angle (if s.recording then 1 else 0)) s

/-- `SendCts` (model/thz-mac-macro-ap.cc:327-339). -/
def sendCts (c : Cfg) (me dst : Mac48) (seq : UInt16) (dur : ℤ) (flag : Nat) (s : St) : St :=
  sendPacket c (ctsFrame c me dst s.nextId seq dur flag) { s with nextId := s.nextId + 1 }

/-- `SendAck` (model/thz-mac-macro-ap.cc:558-569).  With an empty list `*begin ()` is undefined behaviour.
The ACK leaves the list whether or not it was sent. -/
def sendAck (c : Cfg) (s : St) : St :=
  match s.ackList with
  | [] => { s with ub := true }
  | a :: _ =>
    let s := sendPacket c a s
    { s with ackList := s.ackList.filter (fun b => b.id ≠ a.id) }

/-! ## Turning -/

/-- `while (m_angle <= -360) m_angle += 360` (model/thz-mac-macro-ap.cc:260-263), at most `n` rounds. -/
def wrapUp : Nat → ℚ → ℚ
  | 0, a => a
  | n + 1, a => if a ≤ -360 then wrapUp n (a + 360) else a

/-- `while (m_angle > 360) { m_dummyCycles++; m_angle -= 360; CycleRecord (); }`
(model/thz-mac-macro-ap.cc:264-269), at most `n` rounds. -/
def wrapDown : Nat → St → St
  | 0, s => s
  | n + 1, s =>
    if s.angle > 360 then wrapDown n ({ s with cycles := s.cycles + 1, angle := s.angle - 360 }.emit .cycle) else s

/-- Enough rounds for either loop; see `wrapUp_done` and `wrapDown_done`. -/
def rounds (a : ℚ) : Nat := ⌈|a| / 360⌉.toNat + 1

/-- `TurnRxAntenna` (model/thz-mac-macro-ap.cc:256-282). -/
def turn (c : Cfg) (me : Mac48) (s : St) : St :=
  let a := s.angle + c.beamwidth
  let a := wrapUp (rounds a) a
  let s := wrapDown (rounds a) { s with angle := a }
  let s := s.emit (.turned s.angle)
  if c.ways = 3 then sendCta3 c me s
  else sendCta1 c me { s.sched c.tSector .sectorTimeout with sectorEv := some s.nextTid }

/-- `DataTimeout` (model/thz-mac-macro-ap.cc:341-347). -/
def dataTimeout (c : Cfg) (me : Mac48) (s : St) : St := turn c me (s.cancel s.sectorEv)

/-- `SectorTimeout` (model/thz-mac-macro-ap.cc:462-477). -/
def sectorTimeout (c : Cfg) (me : Mac48) (s : St) : St :=
  if s.ackList ≠ [] then sendAck c s else turn c me s

/-! ## Closing the RTS window -/

/-- `SelectMCS` (model/thz-mac-macro-ap.cc:479-503). -/
def selectMCS (c : Cfg) (power : ℚ) : Nat :=
  if power > c.th64QAM then 14
  else if power > c.th16QAM then 13
  else if power > c.th8PSK then 12
  else if power > c.thQPSK then 11
  else if power > c.thBPSK then 10
  else 0

/-- `flag` in `WaitTimeExpired` (model/thz-mac-macro-ap.cc:425-429). -/
def flagOf (c : Cfg) (power : ℚ) : Nat := if c.useAdaptMCS then selectMCS c power else 0

/-- The loop over the collected RTSs (model/thz-mac-macro-ap.cc:418-441): RTS number `i` is answered by a CTS
after `(cts + 1 ps) * i`, which carries the waiting time `wait`. -/
def answer (c : Cfg) : Nat → ℤ → List (Frame × ℚ) → St → St
  | _, _, [], s => s
  | i, wait, r :: rest, s =>
    let flag := flagOf c r.2
    let s := s.sched ((c.ctrlDur .cts + c.ps 1) * i) (.sendCts r.1.src r.1.seq wait flag)
    answer c (i + 1) (wait + c.dataDur c.packetSize flag + c.maxBo) rest s

/-- `sectorTime` (model/thz-mac-macro-ap.cc:443-445). -/
def Cfg.sectorTime (c : Cfg) (expected : UInt16) : ℤ :=
  2 * c.tProp + c.sifs + (c.ctrlDur .cts + c.tData + c.maxBo + c.ctrlDur .ack) * expected.toNat + c.sifs

/-- Insertion into a `std::map` with key order `lt`, changing the value with `f` (default value `d` for a new
key). -/
def mapUpsert {α β : Type} [DecidableEq α] (lt : α → α → Bool) (k : α) (d : β) (f : β → β) :
    List (α × β) → List (α × β)
  | [] => [(k, f d)]
  | e :: rest =>
    if e.1 = k then (k, f e.2) :: rest
    else if lt k e.1 then (k, f d) :: e :: rest
    else e :: mapUpsert lt k d f rest

/-- Order of angles. -/
def ltQ (a b : ℚ) : Bool := decide (a < b)

/-- Order of addresses (`Mac48Address::operator<` compares the bytes in turn). -/
def ltMac (a b : Mac48) : Bool :=
  let x := [a.b0, a.b1, a.b2, a.b3, a.b4, a.b5]
  let y := [b.b0, b.b1, b.b2, b.b3, b.b4, b.b5]
  decide (x < y)

/-- One node is added to a sector's entry unless it is there (model/thz-mac-macro-ap.cc:381-395). -/
def addNode (src : Mac48) (power : ℚ) (v : List (Mac48 × ℚ)) : List (Mac48 × ℚ) :=
  if v.any (fun e => e.1 = src) then v else v ++ [(src, power)]

/-- The recording loop (model/thz-mac-macro-ap.cc:367-396). -/
def record (angle : ℚ) (l : List (Frame × ℚ)) (m : List (ℚ × List (Mac48 × ℚ))) : List (ℚ × List (Mac48 × ℚ)) :=
  mapUpsert ltQ angle [] (fun v => l.foldl (fun v r => addNode r.1.src r.2 v) v) m

/-- The first half of `InitNodeMap` (model/thz-mac-macro-ap.cc:708-731): regroup by node. -/
def byNode (m : List (ℚ × List (Mac48 × ℚ))) (nm : List (Mac48 × List (ℚ × ℚ))) : List (Mac48 × List (ℚ × ℚ)) :=
  m.foldl (fun nm e => e.2.foldl (fun nm p => mapUpsert ltMac p.1 [] (· ++ [(e.1, p.2)]) nm) nm) nm

/-- The choice of the best sector (model/thz-mac-macro-ap.cc:740-753): the first strictly greater than
everything before, starting from sector 0 with power -200. -/
def bestSector (l : List (ℚ × ℚ)) : ℚ :=
  (l.foldl (fun (b : ℚ × ℚ) e => if e.2 > b.2 then e else b) (0, -200)).1

/-- The second half of `InitNodeMap` (model/thz-mac-macro-ap.cc:733-770), for the nodes from number `i` on. -/
def assign (c : Cfg) : Nat → List (Mac48 × List (ℚ × ℚ)) → St → St
  | _, [], s => s
  | i, e :: rest, s =>
    let b := bestSector e.2
    let s := { s with whiteList := mapUpsert ltQ b [] (· ++ [e.1]) s.whiteList }.emit (.listed e.1 b)
    let s := s.sched (i * (c.ctrlDur .cts + c.ns 1)) (.feedback b e.1)
    assign c (i + 1) rest s

/-- `InitNodeMap` (model/thz-mac-macro-ap.cc:705-774). -/
def initNodeMap (c : Cfg) (s : St) : St :=
  let s := { s with nodeMap := byNode s.sectorMap s.nodeMap }
  let s' := assign c 0 s.nodeMap s
  s'.sched (s.nodeMap.length * (c.ctrlDur .cts + c.ns 1)) .turn

/-- `WaitTimeExpired` (model/thz-mac-macro-ap.cc:349-460).  The 16-bit `m_expectedData` receives the number of
RTSs; `m_rtsList.size () * duration` is exact. -/
def waitTimeExpired (c : Cfg) (me : Mac48) (s : St) : St :=
  let s := s.emit .closed
  if s.rtsList = [] then turn c me s
  else if s.recording then
    let s := { s with sectorMap := record s.angle s.rtsList s.sectorMap, rtsList := [] }
    if s.cycles ≥ 3 then initNodeMap c { s with recording := false } else turn c me s
  else
    let n := s.rtsList.length
    let s1 := answer c 0 (n * c.ctrlDur .cts) s.rtsList s
    let e := UInt16.ofNat n
    { s1.sched (c.sectorTime e) .sectorTimeout with expected := e, sectorEv := some s1.nextTid, rtsList := [] }

/-- `SendFeedbackCTA` (model/thz-mac-macro-ap.cc:776-790). -/
def feedback (c : Cfg) (me : Mac48) (angle : ℚ) (dst : Mac48) (s : St) : St :=
  sendPacket c (ctaFrame me dst s.nextId angle 2) { s with nextId := s.nextId + 1 }

/-! ## Reception and completion -/

/-- `SendPacketDone` (model/thz-mac-macro-ap.cc:592-643), called by `THzPhyMacro::SendPacketDone`
(model/thz-phy-macro.cc:279-285), which makes the PHY idle first. -/
def sendPacketDone (c : Cfg) (f : Frame) (s : St) : St :=
  let s := { s with phyTx := none }.emit (.txEnd f)
  if s.state ≠ .tx ∨ s.pktTx ≠ some f then s
  else
    let s := { s with state := .idle }
    match f.kind with
    | .ack => if s.ackList = [] then s.sched (c.ns 1) .turn else s.sched (c.ps 1) .sendAck
    | _ => s

/-- `ReceivePacket` (model/thz-mac-macro-ap.cc:646-671). -/
def receivePacket (s : St) : St :=
  let s := s.cancel s.dataEv
  match s.state with
  | .tx => s
  | .coll => s
  | _ => { s with state := .rx }

/-- `if (IsNewSequence (...)) m_forwardUpCb (...)` (model/thz-mac-macro-ap.cc:545-548). -/
def forwardIfNew (f : Frame) (s : St) : St :=
  let r := isNewSequence s.seqList f.src f.seq
  let s := { s with seqList := r.2 }
  if r.1 then s.emit (.up f.body f.src f.dst f.seq) else s

/-- `ReceiveData` (model/thz-mac-macro-ap.cc:511-549).  Frames for other nodes are not filtered out. -/
def receiveData (c : Cfg) (me : Mac48) (f : Frame) (s : St) : St :=
  let s := { s with ackList := s.ackList ++ [ackFrame me s.nextId f], nextId := s.nextId + 1, state := .idle }
  let s :=
    if s.expected.toNat = s.ackList.length ∨ c.ways ≠ 3 then
      sendAck c { s.cancel s.sectorEv with state := .waitTx }
    else s
  forwardIfNew f s

/-- `ReceivePacketDone` (model/thz-mac-macro-ap.cc:673-703). -/
def receivePacketDone (c : Cfg) (me : Mac48) (f : Frame) (ok : Bool) (power : ℚ) (s : St) : St :=
  let s := { s with state := .idle }
  if !ok then s
  else
    let s := s.emit (.rx f power)
    match f.kind with
    | .rts => { s with rtsList := s.rtsList ++ [(f, power)] }
    | .data => receiveData c me f s
    | _ => s

/-! ## Runs -/

/-- Run a pending event; time moves on to its due time. -/
def fire (c : Cfg) (me : Mac48) (tid : Nat) (s : St) : St :=
  match s.pend.find? (fun e => e.1 = tid) with
  | none => s
  | some (_, due, e) =>
    let s := { s with pend := s.pend.filter (fun e => e.1 ≠ tid), now := max s.now due }
    match e with
    | .turn => turn c me s
    | .dataTimeout => dataTimeout c me s
    | .waitTime => waitTimeExpired c me s
    | .sectorTimeout => sectorTimeout c me s
    | .sendCts d q t g => sendCts c me d q t g s
    | .sendAck => sendAck c s
    | .feedback a d => feedback c me a d s
    | .phyDone f => sendPacketDone c f s

/-- What can happen to the access point. -/
inductive Op
  | fire (tid : Nat)
  /-- `THzPhyMacro` calls `ReceivePacket`. -/
  | rxStart
  /-- `THzPhyMacro` calls `ReceivePacketDone`. -/
  | rxDone (f : Frame) (ok : Bool) (power : ℚ)
  /-- time passes. -/
  | advance (d : Nat)
deriving DecidableEq

/-- One operation. -/
def step (c : Cfg) (me : Mac48) (s : St) : Op → St
  | .fire t => fire c me t s
  | .rxStart => receivePacket s
  | .rxDone f ok p => receivePacketDone c me f ok p s
  | .advance d => { s with now := s.now + d }

/-- A run. -/
def run (c : Cfg) (me : Mac48) (s : St) (ops : List Op) : St := ops.foldl (step c me) s

/-- A run from the start. -/
def after (c : Cfg) (me : Mac48) (ops : List Op) : St := run c me (init c) ops

/-- Time order: nothing pending is overdue when something else happens, and an event that runs is due
earliest.  (ns-3's scheduler; ties are left open.) -/
def timelyOp (s : St) : Op → Bool
  | .fire t => s.pend.all (fun e => s.pend.all (fun e' => e.1 ≠ t || decide (e.2.1 ≤ e'.2.1)))
  | .advance d => s.pend.all (fun e => decide (s.now + d ≤ e.2.1))
  | _ => true

/-- A run in time order. -/
def timely (c : Cfg) (me : Mac48) : St → List Op → Bool
  | _, [] => true
  | s, o :: rest => timelyOp s o && timely c me (step c me s o) rest

end Thz.Ap
