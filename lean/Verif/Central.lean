import Verif.Header
import Verif.Seq
import Verif.Nano

/-!
# Frames of the centralised macro scenario

Shared by the models of the access point (model/thz-mac-macro-ap.cc) and of the client
(model/thz-mac-macro-client.cc).
-/

namespace Thz.Central

open Thz
open Thz.Nano (Body Kind bcast)

/-- A frame.  `id` stands for the `Ptr<Packet>` (identity of a packet object inside one node).  The fields
that a type does not carry on the air (model/thz-mac-header.cc:211-250) are 0; an ACK carries a duration
field which neither node sets nor reads, it is 0 here too. -/
structure Frame where
  id : Nat
  kind : Kind
  src : Mac48
  dst : Mac48
  seq : UInt16
  dur : UInt16
  flags : UInt16
  sector : UInt16
  body : Body
deriving DecidableEq, Repr

/-- `enum State` (model/thz-mac-macro-ap.h:157-166, model/thz-mac-macro-client.h). -/
inductive State | idle | backoff | waitTx | tx | waitAck | rx | coll
deriving DecidableEq, Repr

/-- `Create<Packet> (0)`: no user data. -/
def noBody : Body := ⟨0, 0⟩

/-- `SetDuration` (model/thz-mac-header.cc:117-122) as a 16-bit field: whole nanoseconds modulo 65536. -/
def durField (tpn t : ℤ) : UInt16 := UInt16.ofNat ((Int.tdiv t tpn) % 65536).toNat

/-- `GetDuration` (model/thz-mac-header.cc:166-170) in ticks. -/
def durTime (tpn : ℤ) (d : UInt16) : ℤ := d.toNat * tpn

/-- `PicoSeconds (k)` in ticks (`tpn` ticks per nanosecond): truncated when the resolution is coarser. -/
def psT (tpn k : ℤ) : ℤ := (k * tpn).tdiv 1000

/-- The field and the time agree with the header model. -/
theorem durField_eq (tpn t : ℤ) (h : Hdr) : (h.setDuration tpn t).duration = durField tpn t := rfl

/-! ## The PHY's durations with its default attributes -/

/-- `GetDataRate` (model/thz-phy-macro.cc:205-222) with the default rates (89-122), in units of 10 Mbit/s. -/
def rateOf (mcs : Nat) : Nat :=
  match mcs with
  | 10 => 5248
  | 11 => 10528
  | 12 => 15744
  | 13 => 21024
  | 14 => 31552
  | _ => 14801

/-- `CalTxDuration` (model/thz-phy-macro.cc:408-414) in picoseconds with the default attributes: no preamble,
3 bytes of header, 2 bytes of trailer.  The two `Seconds (...)` are truncated to picoseconds. -/
def calTx (basic data mcs : Nat) : ℤ :=
  ((5 + basic) * 800000 / rateOf mcs : ℕ) + (data * 800000 / rateOf mcs : ℕ)

/-- `GetCtrlDuration` (model/thz-mac-macro-ap.cc:852-857) with the header sizes of
model/thz-mac-header.cc:172-193. -/
def ctrlDurDefault : Kind → ℤ
  | .cta => calTx 17 0 0
  | .rts => calTx 18 0 0
  | .cts => calTx 19 0 0
  | .ack => calTx 17 0 0
  | .data => calTx 17 0 0

end Thz.Central
