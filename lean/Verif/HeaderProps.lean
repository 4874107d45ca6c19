import Verif.Header

/-!
# C01–C04: properties of the MAC header
-/

namespace Thz

/-! ## Specification: which fields does which frame type carry? -/

/-- The optional header fields. -/
inductive Field | sector | flags | retry | duration | sequence
deriving DecidableEq, Repr

/-- The table in the English statement of C01. -/
def carries (type : UInt8) : Field → Bool
  | .sector => type = 0
  | .flags => type = 0 || type = 1 || type = 2
  | .retry => type = 1
  | .duration => type = 2 || type = 3 || type = 4
  | .sequence => type = 1 || type = 2 || type = 3 || type = 4

/-- Value of a field as the getters return it. -/
def Hdr.field (h : Hdr) : Field → Nat
  | .sector => h.sector.toNat
  | .flags => h.flags.toNat
  | .retry => h.retry.toNat
  | .duration => h.duration.toNat
  | .sequence => h.sequence.toNat

/-- The five frame types. -/
def FrameType (t : UInt8) : Prop := t = 0 ∨ t = 1 ∨ t = 2 ∨ t = 3 ∨ t = 4

instance (t : UInt8) : Decidable (FrameType t) := by unfold FrameType; infer_instance

/-- `h'` carries the same information as `h` for the wire; fields not carried come from `old`. -/
def SameOnWire (old h h' : Hdr) : Prop :=
  h'.type = h.type ∧ h'.src = h.src ∧ h'.dst = h.dst ∧
  (∀ f, carries h.type f = true → h'.field f = h.field f) ∧
  (∀ f, carries h.type f = false → h'.field f = old.field f)

/-! ## Helper lemmas -/

theorem join16_lo_hi (x : UInt16) : join16 (lo8 x) (hi8 x) = x := by
  apply UInt16.toNat_inj.mp
  have hx := x.toNat_lt
  simp only [join16, lo8, hi8, UInt8.toNat_ofNat', UInt16.toNat_ofNat']
  omega

theorem readU16_writeU16 (le : Bool) (x : UInt16) (r : List UInt8) :
    readU16 le (writeU16 le x ++ r) = some (x, r) := by
  cases le <;> simp [readU16, writeU16, join16_lo_hi]

theorem readLsb16_writeLsb16 (x : UInt16) (r : List UInt8) :
    readLsb16 (writeLsb16 x ++ r) = some (x, r) := by
  simp [readLsb16, writeLsb16, join16_lo_hi]

theorem readMac_writeMac (x : Mac48) (r : List UInt8) :
    readMac (writeMac x ++ r) = some (x, r) := by
  simp [readMac, writeMac]

theorem readU8_cons (x : UInt8) (r : List UInt8) : readU8 (x :: r) = some (x, r) := rfl

theorem length_writeU16 (le : Bool) (x : UInt16) : (writeU16 le x).length = 2 := by
  cases le <;> rfl

/-- Deserialising what was serialised. -/
theorem deserialize_serialize (le : Bool) (old h : Hdr) (rest : List UInt8) :
    ∃ h', Hdr.deserialize le old (h.serialize le ++ rest) = some (h', rest) ∧
      h'.type = h.type ∧ (FrameType h.type → SameOnWire old h h') := by
  obtain ⟨s, d, t, du, sq, re, fl, se⟩ := h
  by_cases h0 : t = tCTA
  · subst h0
    refine ⟨{ old with type := 0, sector := se, flags := fl, src := s, dst := d }, ?_, rfl, fun _ => ?_⟩
    · simp [Hdr.deserialize, Hdr.serialize, readU8_cons, List.append_assoc, readU16_writeU16, readMac_writeMac]
    · refine ⟨rfl, rfl, rfl, ?_, ?_⟩ <;> intro f <;> cases f <;> simp [carries, Hdr.field]
  by_cases h1 : t = tRTS
  · subst h1
    refine ⟨{ old with type := 1, flags := fl, retry := re, src := s, dst := d, sequence := sq }, ?_, rfl, fun _ => ?_⟩
    · simp [Hdr.deserialize, Hdr.serialize, readU8_cons, List.append_assoc, readU16_writeU16, readMac_writeMac]
    · refine ⟨rfl, rfl, rfl, ?_, ?_⟩ <;> intro f <;> cases f <;> simp [carries, Hdr.field]
  by_cases h2 : t = tCTS
  · subst h2
    refine ⟨{ old with type := 2, flags := fl, duration := du, src := s, dst := d, sequence := sq }, ?_, rfl, fun _ => ?_⟩
    · simp [Hdr.deserialize, Hdr.serialize, readU8_cons, List.append_assoc, readU16_writeU16, readMac_writeMac, readLsb16_writeLsb16]
    · refine ⟨rfl, rfl, rfl, ?_, ?_⟩ <;> intro f <;> cases f <;> simp [carries, Hdr.field]
  by_cases h3 : t = tACK
  · subst h3
    refine ⟨{ old with type := 3, duration := du, src := s, dst := d, sequence := sq }, ?_, rfl, fun _ => ?_⟩
    · simp [Hdr.deserialize, Hdr.serialize, readU8_cons, List.append_assoc, readU16_writeU16, readMac_writeMac, readLsb16_writeLsb16]
    · refine ⟨rfl, rfl, rfl, ?_, ?_⟩ <;> intro f <;> cases f <;> simp [carries, Hdr.field]
  by_cases h4 : t = tDATA
  · subst h4
    refine ⟨{ old with type := 4, duration := du, src := s, dst := d, sequence := sq }, ?_, rfl, fun _ => ?_⟩
    · simp [Hdr.deserialize, Hdr.serialize, readU8_cons, List.append_assoc, readU16_writeU16, readMac_writeMac, readLsb16_writeLsb16]
    · refine ⟨rfl, rfl, rfl, ?_, ?_⟩ <;> intro f <;> cases f <;> simp [carries, Hdr.field]
  · refine ⟨{ old with type := t }, ?_, rfl, fun hf => ?_⟩
    · simp [Hdr.deserialize, Hdr.serialize, readU8_cons, h0, h1, h2, h3, h4]
    · exfalso; rcases hf with hf | hf | hf | hf | hf <;> simp_all

theorem length_serialize (le : Bool) (h : Hdr) (ht : FrameType h.type) :
    (h.serialize le).length = h.size := by
  rcases ht with ht | ht | ht | ht | ht <;>
    simp [Hdr.serialize, Hdr.size, ht, length_writeU16, writeMac, writeLsb16]

/-! ## Property theorems -/

/-- **C01.** Adding a header of one of the five types in front of any payload and removing it again gives
the same type, addresses and carried fields, consumes exactly the bytes that were added, and
returns the payload unchanged. -/
theorem C01_header_round_trip (le : Bool) (old h : Hdr) (payload : List UInt8)
    (ht : FrameType h.type) :
    ∃ h', removeHeader le old (addHeader le h payload)
        = some (h', (addHeader le h payload).length - payload.length, payload) ∧
      SameOnWire old h h' := by
  obtain ⟨h', e, _, w⟩ := deserialize_serialize le old h payload
  have hl := length_serialize le h ht
  refine ⟨h', ?_, w ht⟩
  have : addHeader le h payload = h.serialize le ++ payload := by simp [addHeader, hl]
  rw [this, removeHeader, e]
  simp

/-- A CTS header used in the examples. -/
def exCts : Hdr := ⟨⟨1,2,3,4,5,6⟩, ⟨6,5,4,3,2,1⟩, 2, 300, 0x1234, 9, 12, 77⟩

/-- Non-vacuity of C01: a CTS header in front of a three byte payload, read into an object that held
another header. -/
example : FrameType exCts.type ∧
    (removeHeader true { exCts with type := 4, duration := 1, sequence := 2, flags := 3 }
        (addHeader true exCts [7, 8, 9])).map
      (fun r => (r.1.duration, r.1.sequence, r.1.flags, r.2.1, r.2.2))
      = some (300, 0x1234, 12, 19, [7, 8, 9]) := by decide

/-- **C02.** For the five frame types the announced size equals the number of bytes written and the
number of bytes reported by deserialisation, and adding the header leaves the payload untouched. -/
theorem C02_header_size (le : Bool) (old h : Hdr) (payload : List UInt8) (ht : FrameType h.type) :
    (h.serialize le).length = h.size ∧
    addHeader le h payload = h.serialize le ++ payload ∧
    ∃ h', removeHeader le old (h.serialize le ++ payload) = some (h', h.size, payload) := by
  have hl := length_serialize le h ht
  have ha : addHeader le h payload = h.serialize le ++ payload := by simp [addHeader, hl]
  obtain ⟨h', e, _⟩ := C01_header_round_trip le old h payload ht
  refine ⟨hl, ha, h', ?_⟩
  rw [← ha, e, ha]
  simp [hl]

/-- **C02, where agreement stops.** For every other type byte the announced size is 0 but one byte is
written: the first payload byte is overwritten.  (No MAC of the module creates such a frame.) -/
theorem C02_unknown_type_violated (le : Bool) (h : Hdr) (b : UInt8) (payload : List UInt8)
    (ht : ¬ FrameType h.type) :
    h.size = 0 ∧ (h.serialize le).length = 1 ∧
    addHeader le h (b :: payload) = h.type :: payload := by
  simp only [FrameType, not_or] at ht
  obtain ⟨h0, h1, h2, h3, h4⟩ := ht
  have hs : h.size = 0 := by simp [Hdr.size, h0, h1, h2, h3, h4]
  have hl : h.serialize le = [h.type] := by simp [Hdr.serialize, h0, h1, h2, h3, h4]
  simp [addHeader, hs, hl]

example : ¬ FrameType 5 := by decide

/-- The sizes in bytes, as the MACs use them in energy and duration computations. -/
theorem C02_sizes (h : Hdr) :
    (h.type = tCTA → h.size = 17) ∧ (h.type = tRTS → h.size = 18) ∧ (h.type = tCTS → h.size = 19) ∧
    (h.type = tACK → h.size = 17) ∧ (h.type = tDATA → h.size = 17) := by
  refine ⟨?_, ?_, ?_, ?_, ?_⟩ <;> intro h1 <;> simp [Hdr.size, h1]

/-- The value a receiver reads after the sender set `t`, in ticks. -/
def readBack (tpn : Int) (h : Hdr) (t : Int) : Int := (h.setDuration tpn t).getDuration tpn

theorem readBack_eq (tpn : Int) (h : Hdr) (t : Int) :
    readBack tpn h t = tpn * ((Int.tdiv t tpn) % 65536) := by
  simp only [readBack, Hdr.setDuration, Hdr.getDuration, UInt16.toNat_ofNat']
  have h0 : 0 ≤ (Int.tdiv t tpn) % 65536 := Int.emod_nonneg _ (by decide)
  have h1 : (Int.tdiv t tpn) % 65536 < 65536 := Int.emod_lt_of_pos _ (by decide)
  have : (((Int.tdiv t tpn) % 65536).toNat % 2 ^ 16 : Nat) = ((Int.tdiv t tpn) % 65536).toNat := by omega
  rw [this]
  congr 1
  omega

/-- **C03 (exact characterisation).** The duration read back equals the duration set exactly when it is a
whole number of nanoseconds between 0 and 65535.  So C03 as stated fails outside that range. -/
theorem C03_duration_exact_iff (tpn : Int) (htpn : 0 < tpn) (h : Hdr) (t : Int) :
    readBack tpn h t = t ↔ 0 ≤ t ∧ t < 65536 * tpn ∧ tpn ∣ t := by
  rw [readBack_eq]
  have h0 : 0 ≤ (Int.tdiv t tpn) % 65536 := Int.emod_nonneg _ (by decide)
  have h1 : (Int.tdiv t tpn) % 65536 < 65536 := Int.emod_lt_of_pos _ (by decide)
  constructor
  · intro e
    refine ⟨?_, ?_, ?_⟩
    · rw [← e]; exact Int.mul_nonneg (by omega) h0
    · rw [← e, Int.mul_comm]; exact Int.mul_lt_mul_of_pos_right h1 htpn
    · rw [← e]; exact Int.dvd_mul_right _ _
  · rintro ⟨ht0, ht1, k, rfl⟩
    have hk0 : 0 ≤ k := by
      rcases Int.lt_or_le k 0 with hk | hk
      · have := Int.mul_neg_of_pos_of_neg htpn hk; omega
      · exact hk
    have hk1 : k < 65536 := by
      rw [Int.mul_comm 65536] at ht1
      exact Int.lt_of_mul_lt_mul_left ht1 (by omega)
    rw [Int.mul_tdiv_cancel_left _ (by omega), Int.emod_eq_of_lt hk0 hk1]

/-- **C03, violated.** A wait of 65536 ns is read back as 0. -/
theorem C03_duration_violated (h : Hdr) :
    readBack 1000 h (65536 * 1000) = 0 := by
  rw [readBack_eq]; decide

/-- **C03, partial.** Below 65536 ns the peer reads the duration rounded down to whole nanoseconds
(missing: exactness for fractions of a nanosecond and any duration of 65536 ns or more). -/
theorem C03_duration_partial (tpn : Int) (htpn : 0 < tpn) (h : Hdr) (t : Int)
    (h0 : 0 ≤ t) (h1 : t < 65536 * tpn) :
    readBack tpn h t ≤ t ∧ t < readBack tpn h t + tpn := by
  rw [readBack_eq, Int.tdiv_eq_ediv_of_nonneg h0]
  have hd0 : 0 ≤ t / tpn := Int.ediv_nonneg h0 (by omega)
  have hd1 : t / tpn < 65536 := Int.ediv_lt_of_lt_mul htpn h1
  rw [Int.emod_eq_of_lt hd0 hd1]
  have := Int.mul_ediv_add_emod t tpn
  have := Int.emod_nonneg t (b := tpn) (by omega)
  have := Int.emod_lt_of_pos t htpn
  constructor <;> omega

example : (0:Int) ≤ 65535 * 1000 + 999 ∧ (65535 * 1000 + 999 : Int) < 65536 * 1000 := by decide

/-- The bytes of a header determine what is on the wire. -/
def WireEq (h h' : Hdr) : Prop :=
  h.type = h'.type ∧ h.src = h'.src ∧ h.dst = h'.dst ∧
  ∀ f, carries h.type f = true → h.field f = h'.field f

/-- **C04.** Two headers of the five types produce the same bytes exactly when type, addresses and the
fields carried by the type agree. -/
theorem C04_bytes_determine_frame (le : Bool) (h h' : Hdr) (ht : FrameType h.type) :
    h.serialize le = h'.serialize le ↔ WireEq h h' := by
  constructor
  · intro e
    have htt : h.type = h'.type := by
      have := congrArg List.head? e
      simpa [Hdr.serialize] using this
    obtain ⟨a, ea, _, wa⟩ := deserialize_serialize le h h []
    obtain ⟨b, eb, _, wb⟩ := deserialize_serialize le h h' []
    rw [e, eb] at ea
    have hab : b = a := by
      have := Option.some.inj ea
      exact congrArg Prod.fst this
    subst hab
    obtain ⟨a1, a2, a3, a4, _⟩ := wa ht
    obtain ⟨b1, b2, b3, b4, _⟩ := wb (htt ▸ ht)
    refine ⟨htt, a2.symm.trans b2, a3.symm.trans b3, fun f hf => ?_⟩
    exact (a4 f hf).symm.trans (b4 f (htt ▸ hf))
  · rintro ⟨e1, e2, e3, e4⟩
    obtain ⟨s, d, t, du, sq, re, fl, se⟩ := h
    obtain ⟨s', d', t', du', sq', re', fl', se'⟩ := h'
    simp only at e1 e2 e3 e4 ht
    subst e1 e2 e3
    have a1 := e4 .sector; have a2 := e4 .flags; have a3 := e4 .retry
    have a4 := e4 .duration; have a5 := e4 .sequence
    rcases ht with rfl | rfl | rfl | rfl | rfl <;>
      simp only [carries, Hdr.field, UInt16.toNat_inj, UInt8.toNat_inj] at a1 a2 a3 a4 a5 <;>
      simp_all [Hdr.serialize]

/-- **C04, loss.** A duration set on an RTS never reaches the peer: the bytes do not depend on it. -/
theorem C04_rts_drops_duration (le : Bool) (tpn : Int) (h : Hdr) (t : Int) (ht : h.type = tRTS) :
    (h.setDuration tpn t).serialize le = h.serialize le := by
  refine (C04_bytes_determine_frame le _ _ (by simp [Hdr.setDuration, FrameType, ht])).mpr ?_
  refine ⟨rfl, rfl, rfl, fun f hf => ?_⟩
  cases f <;> simp_all [Hdr.setDuration, carries, Hdr.field]

end Thz
