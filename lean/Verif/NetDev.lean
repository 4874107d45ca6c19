import Verif.Header
import Verif.Nano

/-!
# The net device (model/thz-net-device.cc) and its installation (helper/thz-helper.cc)

A packet is its bytes.  The 8 bytes of `LlcSnapHeader` are part of ns-3, not of the module: `aa aa 03 00 00 00` and the
protocol number in network byte order.  Not modelled: the trace sources, the attributes, `SetNode`, `SetIfIndex`, `SetMtu`,
the antenna.
-/

namespace Thz.NetDev

open Thz.Nano (bcast)

/-! ## Sending and receiving -/

/-- The bytes of ns-3's `LlcSnapHeader` with this type. -/
def llc (proto : UInt16) : List UInt8 := [0xaa, 0xaa, 0x03, 0, 0, 0, (proto >>> 8).toUInt8, proto.toUInt8]

/-- A MAC as the device sees it: `Enqueue` with a packet and a destination. -/
abbrev Enq (σ : Type) := List UInt8 → Mac48 → σ → Bool × σ

/-- `Send` (model/thz-net-device.cc:337-358): the answer, the packet given to the MAC and the new state of the MAC. -/
def send {σ : Type} (enq : Enq σ) (p : List UInt8) (dst : Mac48) (proto : UInt16) (s : σ) : Bool × List UInt8 × σ :=
  let q := llc proto ++ p
  if q.length = 60004 then
    let q2 := llc proto ++ List.replicate 65000 0
    (true, q2, (enq q2 dst s).2)
  else (true, q, (enq q dst s).2)

/-- `SendFrom` (model/thz-net-device.cc:360-378). -/
def sendFrom {σ : Type} (enq : Enq σ) (p : List UInt8) (dst : Mac48) (proto : UInt16) (s : σ) : Bool × List UInt8 × σ :=
  (true, llc proto ++ p, (enq (llc proto ++ p) dst s).2)

/-- `Mac48Address::IsGroup` (ns-3): the lowest bit of the first byte. -/
def isGroup (a : Mac48) : Bool := a.b0 &&& 1 = 1

/-- `NetDevice::PacketType`. -/
inductive PType | broadcast | multicast | host | otherhost
deriving DecidableEq, Repr

/-- The classification in `ForwardUp` (model/thz-net-device.cc:387-402). -/
def classify (me dst : Mac48) : PType :=
  if dst = bcast then .broadcast else if isGroup dst = true then .multicast else if dst = me then .host else .otherhost

/-- What `ForwardUp` does. -/
inductive Up
  /-- the header is read beyond the end of the packet. -/
  | crash
  /-- nothing. -/
  | nothing
  /-- the node is called with the packet, the protocol number and the source. -/
  | deliver (p : List UInt8) (proto : UInt16) (src : Mac48)
deriving DecidableEq

/-- `ForwardUp` (model/thz-net-device.cc:380-409). -/
def forwardUp (me : Mac48) (p : List UInt8) (src dst : Mac48) : Up :=
  match p with
  | _ :: _ :: _ :: _ :: _ :: _ :: hi :: lo :: rest =>
    if classify me dst ≠ .otherhost then .deliver rest ((hi.toUInt16 <<< 8) ||| lo.toUInt16) src else .nothing
  | _ => .crash

/-! ## Wiring -/

/-- Which object points to which; objects of a kind are numbered.  `d*` are the members of the devices
(model/thz-net-device.h), `m*` those of the MACs, `p*` those of the PHYs, `att` the entries of all channels' device lists (channel,
device, PHY) in order, `linkup` the members `m_linkup`. -/
structure W where
  dMac : Nat → Option Nat
  dPhy : Nat → Option Nat
  dCh : Nat → Option Nat
  mPhy : Nat → Option Nat
  mDev : Nat → Option Nat
  mCb : Nat → Option Nat
  pDev : Nat → Option Nat
  pMac : Nat → Option Nat
  pCh : Nat → Option Nat
  att : List (Nat × Nat × Nat)
  linkup : Nat → Bool

/-- New objects: no pointers; `m_linkup` is not initialised (model/thz-net-device.cc:48-53), `junk` is its content. -/
def fresh (junk : Nat → Bool) : W :=
  { dMac := fun _ => none, dPhy := fun _ => none, dCh := fun _ => none, mPhy := fun _ => none, mDev := fun _ => none
    mCb := fun _ => none, pDev := fun _ => none, pMac := fun _ => none, pCh := fun _ => none, att := [], linkup := junk }

/-- Assignment to one member. -/
def upd (f : Nat → Option Nat) (i : Nat) (x : Option Nat) : Nat → Option Nat := fun j => if j = i then x else f j

/-- `SetMac` (model/thz-net-device.cc:138-155) with `THzPhy::SetMac`, `THzMac::AttachPhy`, `SetDevice`, `SetForwardUpCb`. -/
def setMac (d m : Nat) (w : W) : W :=
  let w := { w with dMac := upd w.dMac d (some m) }
  let w := match w.dPhy d with
    | some p => { w with pMac := upd w.pMac p (some m), mPhy := upd w.mPhy m (some p), mDev := upd w.mDev m (some d) }
    | none => w
  { w with mCb := upd w.mCb m (some d) }

/-- `SetPhy` (model/thz-net-device.cc:157-173). -/
def setPhy (d p : Nat) (w : W) : W :=
  let w := { w with dPhy := upd w.dPhy d (some p), pDev := upd w.pDev p (some d) }
  match w.dMac d with
  | some m => { w with mPhy := upd w.mPhy m (some p), mDev := upd w.mDev m (some d), pMac := upd w.pMac p (some m) }
  | none => w

/-- `SetChannel` (model/thz-net-device.cc:175-189) with `THzChannel::AddDevice`. -/
def setChannel (d c : Nat) (w : W) : W :=
  let w := { w with dCh := upd w.dCh d (some c) }
  match w.dPhy d with
  | some p => { w with att := w.att ++ [(c, d, p)], pCh := upd w.pCh p (some c) }
  | none => w

/-- `Clear` (model/thz-net-device.cc:59-82), called by `DoDispose`: it clears the channel (model/thz-channel.cc:81-86), too.  What
`Clear` of MAC and PHY do is not modelled. -/
def clear (d : Nat) (w : W) : W :=
  let w := match w.dCh d with
    | some c => { w with att := w.att.filter (fun a => a.1 ≠ c) }
    | none => w
  { w with dMac := upd w.dMac d none, dPhy := upd w.dPhy d none, dCh := upd w.dCh d none }

/-- `IsLinkUp` (model/thz-net-device.cc:281-285). -/
def isLinkUp (d : Nat) (w : W) : Bool := w.linkup d && (w.dPhy d).isSome

/-- The setters of one device. -/
inductive Call
  | mac (m : Nat)
  | phy (p : Nat)
  | channel (c : Nat)
deriving DecidableEq

/-- One call. -/
def call (d : Nat) (w : W) : Call → W
  | .mac m => setMac d m w
  | .phy p => setPhy d p w
  | .channel c => setChannel d c w

/-- Some calls on device `d`. -/
def calls (d : Nat) (l : List Call) (w : W) : W := l.foldl (call d) w

/-- `THzHelper::Install` (helper/thz-helper.cc:60-89) on `n` nodes with channel `c`: device `i` gets MAC `i` and PHY `i`. -/
def install (c : Nat) : Nat → W → W
  | 0, w => w
  | n + 1, w => setChannel n c (setPhy n n (setMac n n (install c n w)))

end Thz.NetDev
