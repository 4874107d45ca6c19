/-!
# Model of `THzMacHeader` (model/thz-mac-header.h, model/thz-mac-header.cc)

Bytes are `UInt8`.  `Buffer::Iterator::WriteU16` writes in host byte order; the host order is the
parameter `le` (true = little endian), every theorem quantifies over it.
-/

namespace Thz

/-- `ns3::Mac48Address`: six bytes (`sizeof (Mac48Address) = 6` is used by `GetSize`,
model/thz-mac-header.cc:179-191). -/
structure Mac48 where
  b0 : UInt8
  b1 : UInt8
  b2 : UInt8
  b3 : UInt8
  b4 : UInt8
  b5 : UInt8
deriving DecidableEq, Repr

/-- The members of `THzMacHeader` (model/thz-mac-header.h:125-132).  Members that the constructor
(model/thz-mac-header.cc:40-46) leaves uninitialised are ordinary fields here: they hold an
arbitrary value and every theorem quantifies over it. -/
structure Hdr where
  src : Mac48
  dst : Mac48
  type : UInt8
  duration : UInt16
  sequence : UInt16
  retry : UInt8
  flags : UInt16
  sector : UInt16
deriving DecidableEq, Repr

/-- `THZ_PKT_TYPE_CTA` (model/thz-mac-header.h:32). -/
@[simp] abbrev tCTA : UInt8 := 0
/-- `THZ_PKT_TYPE_RTS` (model/thz-mac-header.h:33). -/
@[simp] abbrev tRTS : UInt8 := 1
/-- `THZ_PKT_TYPE_CTS` (model/thz-mac-header.h:34). -/
@[simp] abbrev tCTS : UInt8 := 2
/-- `THZ_PKT_TYPE_ACK` (model/thz-mac-header.h:35). -/
@[simp] abbrev tACK : UInt8 := 3
/-- `THZ_PKT_TYPE_DATA` (model/thz-mac-header.h:36). -/
@[simp] abbrev tDATA : UInt8 := 4

/-- `THzMacHeader::THzMacHeader (src, dst, type)` (model/thz-mac-header.cc:40-46): the members other
than the three arguments keep whatever the memory held (`garbage`). -/
def Hdr.ctor (garbage : Hdr) (src dst : Mac48) (type : UInt8) : Hdr :=
  { garbage with src := src, dst := dst, type := type }

/-- low byte of a 16-bit word, as written by `WriteU16`/`WriteHtolsbU16` (ns-3 buffer) -/
def lo8 (x : UInt16) : UInt8 := UInt8.ofNat (x.toNat % 256)
/-- high byte of a 16-bit word (ns-3 buffer) -/
def hi8 (x : UInt16) : UInt8 := UInt8.ofNat (x.toNat / 256)
/-- 16-bit word from low and high byte (ns-3 buffer) -/
def join16 (lo hi : UInt8) : UInt16 := UInt16.ofNat (lo.toNat + 256 * hi.toNat)

/-- `Buffer::Iterator::WriteU16`: host order (used in model/thz-mac-header.cc:218-247). -/
def writeU16 (le : Bool) (x : UInt16) : List UInt8 :=
  if le then [lo8 x, hi8 x] else [hi8 x, lo8 x]

/-- `Buffer::Iterator::WriteHtolsbU16`: little endian (model/thz-mac-header.cc:232,238,244). -/
def writeLsb16 (x : UInt16) : List UInt8 := [lo8 x, hi8 x]

/-- `WriteTo (i, Mac48Address)` (ns-3 address-utils): the six bytes in order. -/
def writeMac (a : Mac48) : List UInt8 := [a.b0, a.b1, a.b2, a.b3, a.b4, a.b5]

/-- `Buffer::Iterator::ReadU16`; `none` = read past the end of the buffer. -/
def readU16 (le : Bool) : List UInt8 → Option (UInt16 × List UInt8)
  | a :: b :: r => some (if le then join16 a b else join16 b a, r)
  | _ => none

/-- `Buffer::Iterator::ReadLsbtohU16`. -/
def readLsb16 : List UInt8 → Option (UInt16 × List UInt8)
  | a :: b :: r => some (join16 a b, r)
  | _ => none

/-- `Buffer::Iterator::ReadU8`. -/
def readU8 : List UInt8 → Option (UInt8 × List UInt8)
  | a :: r => some (a, r)
  | _ => none

/-- `ReadFrom (i, Mac48Address)` (ns-3 address-utils). -/
def readMac : List UInt8 → Option (Mac48 × List UInt8)
  | a :: b :: c :: d :: e :: f :: r => some (⟨a, b, c, d, e, f⟩, r)
  | _ => none

/-- `THzMacHeader::GetSize` (model/thz-mac-header.cc:172-195), also `GetSerializedSize` (205-209). -/
def Hdr.size (h : Hdr) : Nat :=
  if h.type = tCTA then 1 + 2 + 2 + 6 * 2
  else if h.type = tRTS then 1 + 2 + 1 + 6 * 2 + 2
  else if h.type = tCTS then 1 + 2 + 2 + 6 * 2 + 2
  else if h.type = tACK then 1 + 2 + 6 * 2 + 2
  else if h.type = tDATA then 1 + 2 + 6 * 2 + 2
  else 0

/-- `THzMacHeader::Serialize` (model/thz-mac-header.cc:211-250): the bytes that are written. -/
def Hdr.serialize (le : Bool) (h : Hdr) : List UInt8 :=
  h.type ::
    (if h.type = tCTA then
      writeU16 le h.sector ++ writeU16 le h.flags ++ writeMac h.src ++ writeMac h.dst
    else if h.type = tRTS then
      writeU16 le h.flags ++ [h.retry] ++ writeMac h.src ++ writeMac h.dst ++ writeU16 le h.sequence
    else if h.type = tCTS then
      writeU16 le h.flags ++ writeLsb16 h.duration ++ writeMac h.src ++ writeMac h.dst
        ++ writeU16 le h.sequence
    else if h.type = tACK then
      writeLsb16 h.duration ++ writeMac h.src ++ writeMac h.dst ++ writeU16 le h.sequence
    else if h.type = tDATA then
      writeLsb16 h.duration ++ writeMac h.src ++ writeMac h.dst ++ writeU16 le h.sequence
    else [])

/-- `THzMacHeader::Deserialize` (model/thz-mac-header.cc:252-295) into an existing header object
`old`: members that the type does not carry keep their old value.  Result: the header and the unread
bytes; `none` = read past the end of the buffer. -/
def Hdr.deserialize (le : Bool) (old : Hdr) (bs : List UInt8) : Option (Hdr × List UInt8) := do
  let (t, bs) ← readU8 bs
  if t = tCTA then
    let (sec, bs) ← readU16 le bs
    let (fl, bs) ← readU16 le bs
    let (s, bs) ← readMac bs
    let (d, bs) ← readMac bs
    return ({ old with type := t, sector := sec, flags := fl, src := s, dst := d }, bs)
  else if t = tRTS then
    let (fl, bs) ← readU16 le bs
    let (re, bs) ← readU8 bs
    let (s, bs) ← readMac bs
    let (d, bs) ← readMac bs
    let (sq, bs) ← readU16 le bs
    return ({ old with type := t, flags := fl, retry := re, src := s, dst := d, sequence := sq }, bs)
  else if t = tCTS then
    let (fl, bs) ← readU16 le bs
    let (du, bs) ← readLsb16 bs
    let (s, bs) ← readMac bs
    let (d, bs) ← readMac bs
    let (sq, bs) ← readU16 le bs
    return ({ old with type := t, flags := fl, duration := du, src := s, dst := d, sequence := sq }, bs)
  else if t = tACK then
    let (du, bs) ← readLsb16 bs
    let (s, bs) ← readMac bs
    let (d, bs) ← readMac bs
    let (sq, bs) ← readU16 le bs
    return ({ old with type := t, duration := du, src := s, dst := d, sequence := sq }, bs)
  else if t = tDATA then
    let (du, bs) ← readLsb16 bs
    let (s, bs) ← readMac bs
    let (d, bs) ← readMac bs
    let (sq, bs) ← readU16 le bs
    return ({ old with type := t, duration := du, src := s, dst := d, sequence := sq }, bs)
  else
    return ({ old with type := t }, bs)

/-- `Packet::AddHeader` (ns-3): reserve `GetSerializedSize` bytes in front of the packet and let the
header write from the start of the buffer.  If the header writes more than it announced, the
excess overwrites the first bytes of the payload.  (Simplified: ns-3 asserts in debug builds instead.) -/
def addHeader (le : Bool) (h : Hdr) (payload : List UInt8) : List UInt8 :=
  h.serialize le ++ payload.drop ((h.serialize le).length - h.size)

/-- `Packet::RemoveHeader` (ns-3): deserialise from the start of the packet and drop the number of
bytes that `Deserialize` reports (`GetDistanceFrom`, model/thz-mac-header.cc:294). -/
def removeHeader (le : Bool) (old : Hdr) (pkt : List UInt8) : Option (Hdr × Nat × List UInt8) :=
  match Hdr.deserialize le old pkt with
  | some (h, rest) => some (h, pkt.length - rest.length, pkt.drop (pkt.length - rest.length))
  | none => none

/-- `THzMacHeader::SetDuration` (model/thz-mac-header.cc:117-122).  A time is an integer number of
simulator ticks, `tpn` ticks per nanosecond (1000 for the picosecond resolution of the macro
example).  `GetNanoSeconds` truncates toward zero, `static_cast<uint16_t>` reduces modulo 2^16. -/
def Hdr.setDuration (tpn : Int) (h : Hdr) (t : Int) : Hdr :=
  { h with duration := UInt16.ofNat ((Int.tdiv t tpn) % 65536).toNat }

/-- `THzMacHeader::GetDuration` (model/thz-mac-header.cc:166-170): `NanoSeconds (m_duration)` in ticks. -/
def Hdr.getDuration (tpn : Int) (h : Hdr) : Int := tpn * h.duration.toNat

end Thz
