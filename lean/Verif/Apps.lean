/-!
# The applications

`model/thz-udp-client.cc`, `model/thz-udp-server.cc`, `model/thz-udp-trace-client.cc` and `model/traffic-generator.cc`.

A socket is an oracle: it answers every `Send` with success or failure.  A random variable is an oracle too: every draw is an
input of the model.  Addresses, ports and log output are left out.
-/

namespace Thz.Apps

/-- A datagram given to the socket: when (ns), the sequence number in its `SeqTsHeader`, its size with that header, and whether
the socket took it. -/
structure Pkt where
  time : Nat
  seq : UInt32
  bytes : Nat
  ok : Bool
  deriving DecidableEq, Repr

/-! ## UDP client -/

/-- The UDP client: the attribute `PacketSize` (model/thz-udp-client.cc:66-71), the counter `m_sent` (the constructor, lines
80-86), the time at which `m_sendEvent` is due (`none`: expired or cancelled) and what was given to the socket. -/
structure Client where
  size : Nat
  sent : UInt32
  due : Option Nat
  log : List Pkt
  deriving DecidableEq, Repr

/-- model/thz-udp-client.cc:80-86: `THzUdpClient::THzUdpClient`. -/
def Client.new (size : Nat) : Client := ⟨size, 0, none, []⟩

/-- `MicroSeconds (x->GetValue ())` for a draw of `num / den` (model/thz-udp-client.cc:149 and 198, model/traffic-generator.cc:93).
`MicroSeconds` takes an unsigned integer, so the draw is rounded down to whole microseconds.  The result is in ns. -/
def delayNs (num den : Nat) : Nat := num / den * 1000

/-- What happens to a client. -/
inductive ClientEv
  /-- `StartApplication` at `t`; the draw is `num / den`. -/
  | start (t num den : Nat)
  /-- `StopApplication`. -/
  | stop
  /-- The simulator executes `Send`; `ok` is the answer of the socket, `num / den` the draw. -/
  | fire (ok : Bool) (num den : Nat)
  deriving DecidableEq, Repr

/-- model/thz-udp-client.cc:124-213: `StartApplication`, `StopApplication` and `Send`.  The size of the packet is
`m_size - (8 + 4)` plus the 12 bytes of the header (lines 179-180).  `m_sent` is only read (line 178). -/
def Client.step (c : Client) : ClientEv → Client
  | .start t num den => { c with due := some (t + delayNs num den) }
  | .stop => { c with due := none }
  | .fire ok num den =>
    match c.due with
    | none => c
    | some t =>
      { c with
        due := if ok then some (t + delayNs num den) else none
        log := c.log ++ [⟨t, c.sent, (c.size - 12) + 12, ok⟩] }

/-- A run of the client. -/
def Client.run (c : Client) (es : List ClientEv) : Client := es.foldl Client.step c

/-! ## UDP server -/

/-- The UDP server: `m_received` and the sequence numbers given to `m_lossCounter` (whose code is part of ns-3), and whether the
receive callbacks of the IPv4 and the IPv6 socket are set. -/
structure Server where
  received : UInt32
  noted : List UInt32
  cb4 : Bool
  cb6 : Bool
  deriving DecidableEq, Repr

/-- model/thz-udp-server.cc:68-73. -/
def Server.new : Server := ⟨0, [], false, false⟩

/-- A datagram that arrived: over IPv6 or IPv4, its size, and the sequence number if the size is at least 12. -/
structure Datagram where
  v6 : Bool
  bytes : Nat
  seq : UInt32
  deriving DecidableEq, Repr

/-- What happens to a server. -/
inductive ServerEv
  | start
  | stop
  | recv (d : Datagram)
  deriving DecidableEq, Repr

/-- model/thz-udp-server.cc:115-190: `StartApplication` (115-140), `StopApplication` (142-151, only the IPv4 socket) and
`HandleRead` (153-190).  `none`: the program ends, since `RemoveHeader` reads past the end of a non-empty datagram shorter than
the 12 bytes of the `SeqTsHeader`. -/
def Server.step (s : Server) : ServerEv → Option Server
  | .start => some { s with cb4 := true, cb6 := true }
  | .stop => some { s with cb4 := false }
  | .recv d =>
    if (if d.v6 then s.cb6 else s.cb4) then
      if d.bytes = 0 then some s
      else if d.bytes < 12 then none
      else some { s with received := s.received + 1, noted := s.noted ++ [d.seq] }
    else some s

/-- A run of the server. -/
def Server.run : Server → List ServerEv → Option Server
  | s, [] => some s
  | s, e :: es =>
    match s.step e with
    | none => none
    | some s' => Server.run s' es

/-! ## Trace client -/

/-- model/thz-udp-trace-client.h:154-159: `TraceEntry`, without the type of the frame. -/
structure Entry where
  time : UInt32
  size : UInt16
  deriving DecidableEq, Repr

/-- A line of a trace file: type of the frame, time, size.  (Whether the file has lines that do not parse is left out.) -/
structure Line where
  b : Bool
  time : UInt32
  size : UInt16
  deriving DecidableEq, Repr

/-- A trace file: its lines, and whether the last one ends with white space (so that the stream is still good after it). -/
structure File where
  lines : List Line
  eol : Bool
  deriving DecidableEq, Repr

/-- model/thz-udp-trace-client.cc:186-219 and 221-242: the entries pushed for `lines`, given `prevTime`.  A frame of type B gets
time 0, another one the time since the last frame that is not of type B (a subtraction of `uint32_t`). -/
def pushed : UInt32 → List Line → List Entry
  | _, [] => []
  | prev, l :: ls =>
    if l.b then ⟨0, l.size⟩ :: pushed prev ls
    else ⟨l.time - prev, l.size⟩ :: pushed l.time ls

/-- model/thz-udp-trace-client.cc:52-61: `g_defaultEntries`. -/
def defaultLines : List Line :=
  [⟨false, 0, 534⟩, ⟨false, 40, 1542⟩, ⟨true, 120, 134⟩, ⟨true, 80, 390⟩, ⟨false, 240, 765⟩, ⟨true, 160, 407⟩, ⟨true, 200, 504⟩,
   ⟨false, 360, 903⟩, ⟨true, 280, 421⟩, ⟨true, 320, 587⟩]

/-- The trace client: `m_entries`, `m_currentEntry`, `m_maxPacketSize`, `m_sent`, the time (ms, while in `Send`) and what was given
to the socket (with times in ms). -/
structure Trace where
  entries : List Entry
  cur : Nat
  max : UInt16
  sent : UInt32
  now : Nat
  log : List Pkt
  deriving DecidableEq, Repr

/-- model/thz-udp-trace-client.cc:221-242: `LoadDefaultTrace` (it does not clear `m_entries`). -/
def Trace.loadDefault (s : Trace) : Trace :=
  { s with entries := s.entries ++ pushed 0 defaultLines, cur := 0 }

/-- The lines that the loop of `LoadTrace` sees: while the stream is good, one more extraction.  After a last line that ends
with white space the extraction fails and leaves the variables as they are, so the last line is seen again; in an empty file it
leaves them uninitialised (`junk`). -/
def File.seen (junk : Line) (f : File) : List Line :=
  match f.lines.getLast? with
  | none => [junk]
  | some l => if f.eol then f.lines ++ [l] else f.lines

/-- model/thz-udp-trace-client.cc:186-219: `LoadTrace`; `none`: the file cannot be opened. -/
def Trace.load (junk : Line) (f : Option File) (s : Trace) : Trace :=
  match f with
  | none => { s with entries := [] }.loadDefault
  | some f => { s with entries := pushed 0 (f.seen junk), cur := 0 }

/-- A freshly created trace client with the attributes `TraceFilename` (`none`: empty) and `MaxPacketSize`.  The attribute is a
`uint32_t` stored in a `uint16_t` (model/thz-udp-trace-client.cc:80-84 and .h:170). -/
def Trace.new (junk : Line) (f : Option (Option File)) (max : UInt32) : Trace :=
  let s : Trace := ⟨[], 0, max.toUInt16, 0, 0, []⟩
  match f with
  | none => s.loadDefault
  | some f => s.load junk f

/-- model/thz-udp-trace-client.cc:124-149: the three `SetRemote`. -/
def Trace.setRemote (s : Trace) : Trace := { s with entries := [] }

/-- model/thz-udp-trace-client.cc:275-317: `SendPacket`; `ok n` is the answer of the socket to its `n`-th packet. -/
def Trace.sendPacket (ok : Nat → Bool) (size : Nat) (s : Trace) : Trace :=
  { s with
    sent := if ok s.log.length then s.sent + 1 else s.sent
    log := s.log ++ [⟨s.now, s.sent, (if size > 12 then size - 12 else 0) + 12, ok s.log.length⟩] }

/-- The loop of model/thz-udp-trace-client.cc:328-331: `n` packets of the maximum size. -/
def Trace.sendFull (ok : Nat → Bool) : Nat → Trace → Trace
  | 0, s => s
  | n + 1, s => Trace.sendFull ok n (s.sendPacket ok s.max.toNat)

/-- model/thz-udp-trace-client.cc:326-338: the body of the loop of `Send`.  `none`: an index outside the trace or a division by
0. -/
def Trace.body (ok : Nat → Bool) (s : Trace) : Option Trace :=
  match s.entries[s.cur]? with
  | none => none
  | some e =>
    if s.max = 0 then none
    else
      let s1 := s.sendFull ok (e.size.toNat / s.max.toNat)
      let s2 := s1.sendPacket ok (e.size.toNat % s.max.toNat)
      some { s2 with cur := (s.cur + 1) % s.entries.length }

/-- What `Send` may end with. -/
inductive Sent
  /-- The bound of the model on the number of turns of the loop is exceeded. -/
  | spinning
  /-- Undefined behaviour. -/
  | crash
  /-- The next `Send` is scheduled in `ms`. -/
  | wait (ms : Nat) (s : Trace)
  deriving DecidableEq, Repr

/-- model/thz-udp-trace-client.cc:319-342: `Send`, with at most `fuel` turns of its loop. -/
def Trace.send (ok : Nat → Bool) : Nat → Trace → Sent
  | 0, _ => .spinning
  | fuel + 1, s =>
    match s.body ok with
    | none => .crash
    | some s' =>
      match s'.entries[s'.cur]? with
      | none => .crash
      | some e => if e.time = 0 then Trace.send ok fuel s' else .wait e.time.toNat s'

/-- The states in which `Send` is executed, from the one of `StartApplication` (model/thz-udp-trace-client.cc:244-266) on. -/
inductive Reach (ok : Nat → Bool) (s0 : Trace) : Trace → Prop
  | start : Reach ok s0 s0
  | next {s s' : Trace} {fuel ms : Nat} : Reach ok s0 s → s.send ok fuel = .wait ms s' → Reach ok s0 { s' with now := s'.now + ms }

/-! ## Traffic generator -/

/-- model/traffic-generator.cc:98-125: `Generate`.  `me` is the id of the node, `nodes` the ids of the nodes of the container and
`draws` the indices that the random variable yields, from 0 to the number of nodes minus 1.  The result is the id of the node to
which a packet is sent; `none`: not after these draws. -/
def generate (me : Nat) (nodes : List Nat) : List Nat → Option Nat
  | [] => none
  | i :: is => if i = me then generate me nodes is else nodes[i]?

end Thz.Apps
