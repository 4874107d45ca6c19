import Verif.ApSweep
import Mathlib.Algebra.Order.Round
import Mathlib.Algebra.BigOperators.Group.List.Basic
import Mathlib.Algebra.Order.BigOperators.Group.List

/-!
# Properties of the access point: grants, modulation, sweep (C34-C37, C39, C73)
-/

namespace Thz.Ap

open Thz Thz.Central
open Thz.Nano (Body Kind bcast)

/-! ## Example configuration: the attribute defaults at picosecond resolution -/

/-- Defaults of model/thz-mac-macro-ap.cc:113-194 and of the PHY, 12 degree beams (30 sectors, configuration
20 of examples/thz-macro-central.cc), no sounding phase. -/
def exCfg (ways : Nat) : Cfg :=
  { tpn := 1000, ways := ways, boSlots := 5, slot := 2000, slot3 := 2000, sifs := 0, tProp := 33356
    packetSize := 15000, useWhiteList := false, useAdaptMCS := true, thBPSK := -48, thQPSK := -45, th8PSK := -42
    th16QAM := -38, th64QAM := -32, beamwidth := 12, ctrlDur := ctrlDurDefault, dataDur := calTx 0 }

/-- The access point's address. -/
def exAp : Mac48 := ⟨0, 0, 0, 0, 0, 1⟩
/-- Client number `i`. -/
def exCl (i : UInt8) : Mac48 := ⟨0, 0, 0, 0, 1, i⟩
/-- An RTS of client `i`. -/
def exRts (i : UInt8) : Frame := ⟨0, .rts, exCl i, exAp, 1, 0, 0, 0, noBody⟩
/-- A data frame of client `i`. -/
def exData (i : UInt8) : Frame := ⟨0, .data, exCl i, exAp, 1, 0, 0, 0, ⟨i.toNat, 15000⟩⟩

/-- First sector: turn, CTA out, then RTSs with the given powers arrive; the last operation is the one before
the window closes (event 1). -/
def openRun (l : List (UInt8 × ℚ)) : List Op :=
  [.fire 0, .fire 2, .advance 5000] ++ l.flatMap (fun p => [.rxStart, .advance 1243, .rxDone (exRts p.1) true p.2])

/-! ## C37: modulation -/

/-- The thresholds as a user sees them: which power a modulation needs. -/
def needs (c : Cfg) : Nat → Option ℚ
  | 10 => some c.thBPSK
  | 11 => some c.thQPSK
  | 12 => some c.th8PSK
  | 13 => some c.th16QAM
  | 14 => some c.th64QAM
  | _ => none

/-- Thresholds configured in increasing order. -/
def Increasing (c : Cfg) : Prop :=
  c.thBPSK ≤ c.thQPSK ∧ c.thQPSK ≤ c.th8PSK ∧ c.th8PSK ≤ c.th16QAM ∧ c.th16QAM ≤ c.th64QAM

/-- The choice is one of the five modulations, whose threshold the power exceeds, or none. -/
theorem C37_choice (c : Cfg) (p : ℚ) :
    (selectMCS c p = 0 ∨ ∃ th, needs c (selectMCS c p) = some th ∧ th < p) := by
  unfold selectMCS
  split
  · exact .inr ⟨_, rfl, by assumption⟩
  split
  · exact .inr ⟨_, rfl, by assumption⟩
  split
  · exact .inr ⟨_, rfl, by assumption⟩
  split
  · exact .inr ⟨_, rfl, by assumption⟩
  split
  · exact .inr ⟨_, rfl, by assumption⟩
  · exact .inl rfl

/-- No better modulation would have been possible. -/
theorem C37_best (c : Cfg) (p : ℚ) (m : Nat) (th : ℚ) (h : needs c m = some th) (hp : th < p) : m ≤ selectMCS c p := by
  unfold needs at h
  unfold selectMCS
  split at h
  all_goals first | (cases h; done) | skip
  all_goals
    have e := Option.some.inj h
    subst e
    repeat' split
    all_goals first | omega | (exfalso; simp_all)

/-- A stronger signal never gets a lower modulation, for thresholds in any order. -/
theorem C37_monotone (c : Cfg) (p q : ℚ) (h : p ≤ q) : selectMCS c p ≤ selectMCS c q := by
  rcases C37_choice c p with h0 | ⟨th, h1, h2⟩
  · omega
  · exact C37_best c q _ th h1 (lt_of_lt_of_le h2 h)

example : Increasing (exCfg 3) ∧ selectMCS (exCfg 3) (-46) = 10 ∧ selectMCS (exCfg 3) (-20) = 14 := by
  unfold Increasing
  decide +kernel

/-! ## C73: the data rate -/

/-- A weaker signal may be granted a higher rate: below the lowest threshold the PHY's default rate is used,
which is higher than that of the two lowest modulations. -/
theorem C73_rate_violated :
    ∃ p q : ℚ, p < q ∧ rateOf (flagOf (exCfg 3) q) < rateOf (flagOf (exCfg 3) p) := by
  exact ⟨-50, -46, by decide +kernel, by decide +kernel⟩

/-- What does hold: above the lowest threshold, a stronger signal gets at least the same rate. -/
theorem C73_rate_partial (c : Cfg) (p q : ℚ) (hp : c.thBPSK < p) (h : p ≤ q) :
    rateOf (selectMCS c p) ≤ rateOf (selectMCS c q) := by
  have h1 := C37_monotone c p q h
  have h2 := C37_best c p 10 c.thBPSK rfl hp
  have h3 : selectMCS c q ≤ 14 := by
    unfold selectMCS
    repeat' split
    all_goals omega
  have hmono : ∀ a b, 10 ≤ a → a ≤ b → b ≤ 14 → rateOf a ≤ rateOf b := by
    intro a b ha hab hb
    have ha' : a = 10 ∨ a = 11 ∨ a = 12 ∨ a = 13 ∨ a = 14 := by omega
    have hb' : b = 10 ∨ b = 11 ∨ b = 12 ∨ b = 13 ∨ b = 14 := by omega
    rcases ha' with rfl | rfl | rfl | rfl | rfl <;> rcases hb' with rfl | rfl | rfl | rfl | rfl <;>
      first | omega | decide
  exact hmono _ _ h2 h1 h3

example : (exCfg 3).thBPSK < -46 ∧ (-46 : ℚ) ≤ -20 := by decide +kernel

/-! ## C34: one CTS per RTS -/

/-- The waiting time that the `j`-th CTS carries. -/
def waitOf (c : Cfg) (l : List (Frame × ℚ)) (j : Nat) : ℤ :=
  l.length * c.ctrlDur .cts + ((l.take j).map (fun r => c.dataDur c.packetSize (flagOf c r.2) + c.maxBo)).sum

/-- The event that sends the `j`-th CTS. -/
def ctsEv (c : Cfg) (tid : Nat) (t0 : ℤ) (l : List (Frame × ℚ)) (j : Nat) (r : Frame × ℚ) : Nat × ℤ × Ev :=
  (tid + j, t0 + (c.ctrlDur .cts + c.ps 1) * j, .sendCts r.1.src r.1.seq (waitOf c l j) (flagOf c r.2))

theorem answer_spec (c : Cfg) (l : List (Frame × ℚ)) (pre : List (Frame × ℚ)) (s : St) (all : List (Frame × ℚ))
    (h : all = pre ++ l) :
    (answer c pre.length (waitOf c all pre.length) l s).pend =
      s.pend ++ l.mapIdx (fun j r => ctsEv c (s.nextTid - pre.length) s.now all (pre.length + j) r) ∨
        s.nextTid < pre.length := by
  induction l generalizing pre s with
  | nil => left; simp [answer]
  | cons r rest ih =>
    by_cases hlt : s.nextTid < pre.length
    · exact .inr hlt
    left
    have hlt' : pre.length ≤ s.nextTid := not_lt.1 hlt
    rw [answer]
    have h' : all = (pre ++ [r]) ++ rest := by rw [h]; simp
    have hw : waitOf c all pre.length + c.dataDur c.packetSize (flagOf c r.2) + c.maxBo =
        waitOf c all (pre ++ [r]).length := by
      unfold waitOf
      have e1 : all.take pre.length = pre := by rw [h]; simp
      have e2 : all.take (pre ++ [r]).length = pre ++ [r] := by rw [h']; exact List.take_left
      rw [e1, e2, List.map_append, List.sum_append]
      simp
      ring
    set s' := s.sched ((c.ctrlDur .cts + c.ps 1) * (pre.length : ℕ))
      (.sendCts r.1.src r.1.seq (waitOf c all pre.length) (flagOf c r.2)) with hs'
    have := ih (pre ++ [r]) s' h'
    rw [hw]
    have hl : pre.length + 1 = (pre ++ [r]).length := by simp
    rw [hl]
    rcases this with h1 | h1
    · rw [h1]
      have hp : s'.pend = s.pend ++ [(s.nextTid, s.now + (c.ctrlDur .cts + c.ps 1) * (pre.length : ℕ),
        .sendCts r.1.src r.1.seq (waitOf c all pre.length) (flagOf c r.2))] := rfl
      have hn : s'.nextTid = s.nextTid + 1 := rfl
      have ht : s'.now = s.now := rfl
      rw [hp, hn, ht, List.append_assoc, List.mapIdx_cons]
      congr 1
      rw [List.singleton_append]
      congr 1
      · unfold ctsEv
        simp
        omega
      · apply List.ext_getElem
        · simp
        · intro k h2 h3
          simp only [List.getElem_mapIdx]
          unfold ctsEv
          simp only [List.length_append, List.length_cons, List.length_nil]
          refine Prod.ext ?_ (Prod.ext ?_ ?_)
          · simp; omega
          · simp; left; omega
          · have : pre.length + (0 + 1) + k = pre.length + (k + 1) := by omega
            simp [this]
    · exfalso
      simp at h1
      have : s'.nextTid = s.nextTid + 1 := rfl
      omega

theorem answer_keep (c : Cfg) (i : Nat) (w : ℤ) (l : List (Frame × ℚ)) (s : St) :
    (answer c i w l s).nextTid = s.nextTid + l.length ∧ (answer c i w l s).now = s.now ∧
      (answer c i w l s).state = s.state ∧ (answer c i w l s).phyTx = s.phyTx ∧
      (answer c i w l s).log = s.log ∧ (answer c i w l s).ackList = s.ackList ∧ (answer c i w l s).ub = s.ub ∧
      (answer c i w l s).nextId = s.nextId ∧ (answer c i w l s).pktTx = s.pktTx := by
  induction l generalizing i w s with
  | nil => simp [answer]
  | cons r rest ih =>
    rw [answer]
    obtain ⟨h1, h2, h3, h4, h5, h6, h7, h8, h9⟩ := ih (i + 1) (w + c.dataDur c.packetSize (flagOf c r.2) + c.maxBo)
      (s.sched ((c.ctrlDur .cts + c.ps 1) * i) (.sendCts r.1.src r.1.seq w (flagOf c r.2)))
    refine ⟨?_, h2, h3, h4, h5, h6, h7, h8, h9⟩
    rw [h1]
    show s.nextTid + 1 + rest.length = _
    simp; omega

/-- Everything that closing a window schedules. -/
theorem close_pend (c : Cfg) (me : Mac48) (s : St) (hl : s.rtsList ≠ []) (hr : s.recording = false) :
    (waitTimeExpired c me s).pend = s.pend ++
      s.rtsList.mapIdx (fun j r => ctsEv c s.nextTid s.now s.rtsList j r) ++
      [(s.nextTid + s.rtsList.length, s.now + c.sectorTime (UInt16.ofNat s.rtsList.length), .sectorTimeout)] := by
  unfold waitTimeExpired
  dsimp only
  have e1 : (s.emit .closed).rtsList = s.rtsList := rfl
  have e2 : (s.emit .closed).recording = s.recording := rfl
  rw [e1, e2, if_neg hl, hr]
  simp only [Bool.false_eq_true, if_false]
  have h1 := answer_spec c s.rtsList [] (s.emit .closed) s.rtsList rfl
  obtain ⟨k1, k2, -⟩ := answer_keep c 0 (waitOf c s.rtsList 0) s.rtsList (s.emit .closed)
  rcases h1 with h1 | h1
  · have hw : waitOf c s.rtsList 0 = s.rtsList.length * c.ctrlDur .cts := by simp [waitOf]
    simp only [List.length_nil] at h1
    rw [hw] at h1 k1 k2
    show (answer c 0 (s.rtsList.length * c.ctrlDur .cts) s.rtsList (s.emit .closed)).pend ++ [(_, _, _)] = _
    rw [h1, k1, k2]
    simp only [Nat.sub_zero, Nat.zero_add]
    rfl
  · simp at h1

/-- Closing a window schedules, for each collected RTS and in their order, one CTS with the RTS's source and
sequence number; each leaves room for the previous one. -/
theorem C34_scheduled_partial (c : Cfg) (me : Mac48) (s : St) (hl : s.rtsList ≠ []) (hr : s.recording = false)
    (hps : 0 ≤ c.ps 1) :
    ∃ evs : List (Nat × ℤ × Ev), ∃ last,
      (waitTimeExpired c me s).pend = s.pend ++ evs ++ [last] ∧ last.2.2 = .sectorTimeout ∧
      evs.map (fun e => match e.2.2 with | .sendCts d q _ _ => some (d, q) | _ => none) =
        s.rtsList.map (fun r => some (r.1.src, r.1.seq)) ∧
      evs.Pairwise (fun e e' => 0 ≤ c.ctrlDur .cts → e.2.1 + c.ctrlDur .cts ≤ e'.2.1) := by
  refine ⟨_, _, close_pend c me s hl hr, rfl, ?_, ?_⟩
  · apply List.ext_getElem
    · simp
    · intro j h1 h2
      simp [ctsEv]
  · rw [List.pairwise_iff_getElem]
    intro i j hi hj hij h0
    simp only [List.getElem_mapIdx]
    unfold ctsEv
    dsimp only
    have : (i : ℤ) + 1 ≤ j := by exact_mod_cast hij
    nlinarith

/-! ## C35: data slots -/

/-- The slot that a grant gives to a client whose frames take `p` to arrive: the CTS is sent at the event's
time, arrives `p` after its end, and the client starts after the duration it finds in the header
(model/thz-mac-macro-client.cc:481-501); the slot lasts as long as a packet of the configured size takes with
the granted modulation.  (Client time; with `2 * p` it is the time at which the data arrive.) -/
def slotOf (c : Cfg) (me : Mac48) (p : ℤ) : Nat × ℤ × Ev → Option (ℤ × ℤ)
  | (_, due, .sendCts d q w g) =>
    let f := ctsFrame c me d 0 q w g
    let start := due + c.ctrlDur .cts + p + durTime c.tpn f.dur
    some (start, start + c.dataDur c.packetSize f.flags.toNat)
  | _ => none

theorem dec_bounds (tpn w : ℤ) (ht : 0 < tpn) (hw : 0 ≤ w) :
    durTime tpn (durField tpn w) ≤ w ∧ 0 ≤ durTime tpn (durField tpn w) ∧
      (w < 65536 * tpn → w - tpn < durTime tpn (durField tpn w)) := by
  unfold durTime durField
  rw [UInt16.toNat_ofNat', Int.tdiv_eq_ediv_of_nonneg hw]
  have h0 : 0 ≤ w / tpn := Int.ediv_nonneg hw ht.le
  have h1 : w / tpn * tpn ≤ w := Int.ediv_mul_le w (ne_of_gt ht)
  have h2 : w < (w / tpn + 1) * tpn := Int.lt_ediv_add_one_mul_self w ht
  have h3 : 0 ≤ w / tpn % 65536 := Int.emod_nonneg _ (by norm_num)
  have h4 : w / tpn % 65536 < 65536 := Int.emod_lt_of_pos _ (by norm_num)
  have h5 : w / tpn % 65536 ≤ w / tpn := by omega
  have e : (((w / tpn % 65536).toNat % 2 ^ 16 : ℕ) : ℤ) = w / tpn % 65536 := by
    have : (w / tpn % 65536).toNat < 2 ^ 16 := by omega
    rw [Nat.mod_eq_of_lt this]
    omega
  rw [e]
  refine ⟨?_, ?_, ?_⟩
  · nlinarith
  · positivity
  · intro hlt
    have h6 : w / tpn < 65536 := by
      rw [Int.ediv_lt_iff_lt_mul ht]; exact hlt
    rw [Int.emod_eq_of_lt h0 h6]
    linarith

theorem flagOf_lt (c : Cfg) (p : ℚ) : flagOf c p < 65536 := by
  unfold flagOf selectMCS
  repeat' split
  all_goals omega

theorem waitOf_step (c : Cfg) (l : List (Frame × ℚ)) (hb : 0 ≤ c.maxBo)
    (hd : ∀ g, 0 ≤ c.dataDur c.packetSize g) (i j : Nat) (hij : i < j) (hi : i < l.length) :
    waitOf c l i + c.dataDur c.packetSize (flagOf c l[i].2) + c.maxBo ≤ waitOf c l j := by
  have hmono : ∀ k, waitOf c l (i + 1) ≤ waitOf c l (i + 1 + k) := by
    intro k
    unfold waitOf
    have e : l.take (i + 1 + k) = l.take (i + 1) ++ (l.drop (i + 1)).take k := by
      rw [← List.take_add]
    rw [e, List.map_append, List.sum_append]
    have : 0 ≤ (((l.drop (i + 1)).take k).map (fun r => c.dataDur c.packetSize (flagOf c r.2) + c.maxBo)).sum := by
      apply List.sum_nonneg
      intro x hx
      obtain ⟨r, -, rfl⟩ := List.mem_map.1 hx
      have := hd (flagOf c r.2)
      linarith
    linarith
  have h1 : waitOf c l (i + 1) = waitOf c l i + c.dataDur c.packetSize (flagOf c l[i].2) + c.maxBo := by
    unfold waitOf
    rw [List.take_add_one, List.getElem?_eq_getElem hi, List.map_append, List.sum_append]
    simp only [Option.toList_some, List.map_cons, List.map_nil, List.sum_cons, List.sum_nil]
    ring
  have := hmono (j - (i + 1))
  have e : i + 1 + (j - (i + 1)) = j := by omega
  rw [e, h1] at this
  exact this

theorem waitOf_nonneg (c : Cfg) (l : List (Frame × ℚ)) (hb : 0 ≤ c.maxBo) (hc : 0 ≤ c.ctrlDur .cts)
    (hd : ∀ g, 0 ≤ c.dataDur c.packetSize g) (j : Nat) : 0 ≤ waitOf c l j := by
  unfold waitOf
  have h1 : 0 ≤ ((l.take j).map (fun r => c.dataDur c.packetSize (flagOf c r.2) + c.maxBo)).sum := by
    apply List.sum_nonneg
    intro x hx
    obtain ⟨r, -, rfl⟩ := List.mem_map.1 hx
    have := hd (flagOf c r.2)
    linarith
  positivity

/-- What closing the window in state `s` schedules: CTSs, then the end of the data window. -/
def grants (c : Cfg) (me : Mac48) (s : St) : List (Nat × ℤ × Ev) := (waitTimeExpired c me s).pend.drop s.pend.length

theorem grants_eq (c : Cfg) (me : Mac48) (s : St) (hl : s.rtsList ≠ []) (hr : s.recording = false) :
    grants c me s = s.rtsList.mapIdx (fun j r => ctsEv c s.nextTid s.now s.rtsList j r) ++
      [(s.nextTid + s.rtsList.length, s.now + c.sectorTime (UInt16.ofNat s.rtsList.length), .sectorTimeout)] := by
  unfold grants
  rw [close_pend c me s hl hr, List.append_assoc, List.drop_left]

/-- The wait that a CTS event carries. -/
def waitIn : Nat × ℤ × Ev → Option ℤ
  | (_, _, .sendCts _ _ w _) => some w
  | _ => none

theorem slot_grant (c : Cfg) (me : Mac48) (s : St) (hr : s.recording = false) (j : Nat)
    (hj : j < s.rtsList.length) (p : ℤ) :
    (grants c me s)[j]?.bind (slotOf c me p) =
      some (s.now + (c.ctrlDur .cts + c.ps 1) * j + c.ctrlDur .cts + p +
          durTime c.tpn (durField c.tpn (waitOf c s.rtsList j)),
        s.now + (c.ctrlDur .cts + c.ps 1) * j + c.ctrlDur .cts + p +
          durTime c.tpn (durField c.tpn (waitOf c s.rtsList j)) +
          c.dataDur c.packetSize (flagOf c s.rtsList[j].2)) ∧
    (grants c me s)[j]?.bind waitIn = some (waitOf c s.rtsList j) := by
  have hl : s.rtsList ≠ [] := by intro h; rw [h] at hj; simp at hj
  rw [grants_eq c me s hl hr, List.getElem?_append_left (by simpa using hj), List.getElem?_mapIdx,
    List.getElem?_eq_getElem hj]
  simp only [Option.map_some, Option.bind_some]
  unfold slotOf waitIn ctsEv ctsFrame
  dsimp only
  have : (UInt16.ofNat (flagOf c s.rtsList[j].2)).toNat = flagOf c s.rtsList[j].2 := by
    rw [UInt16.toNat_ofNat']; exact Nat.mod_eq_of_lt (flagOf_lt c _)
  rw [this]
  exact ⟨rfl, rfl⟩

/-- The slots are disjoint as long as the announced waits stay below 65536 ns and the clients' distances do not
differ by more than a CTS and a back-off (minus the nanosecond lost by rounding). -/
theorem C35_disjoint_partial (c : Cfg) (me : Mac48) (s : St) (ht : 0 < c.tpn) (hc : 0 ≤ c.ctrlDur .cts)
    (hps : 0 ≤ c.ps 1) (hb : 0 ≤ c.maxBo) (hd : ∀ g, 0 ≤ c.dataDur c.packetSize g) (hr : s.recording = false)
    (p : Nat → ℤ) (i j : Nat) (hij : i < j) (hj : j < s.rtsList.length)
    (hw : ∀ w, (grants c me s)[j]?.bind waitIn = some w → w < 65536 * c.tpn)
    (hp : p i + c.tpn ≤ p j + c.ctrlDur .cts + c.ps 1 + c.maxBo) :
    ∃ a b a' b' : ℤ, (grants c me s)[i]?.bind (slotOf c me (p i)) = some (a, b) ∧
      (grants c me s)[j]?.bind (slotOf c me (p j)) = some (a', b') ∧ b ≤ a' := by
  have hi : i < s.rtsList.length := lt_trans hij hj
  refine ⟨_, _, _, _, (slot_grant c me s hr i hi (p i)).1, (slot_grant c me s hr j hj (p j)).1, ?_⟩
  have hwi := waitOf_nonneg c s.rtsList hb hc hd i
  have hwj := waitOf_nonneg c s.rtsList hb hc hd j
  have k1 := (dec_bounds c.tpn _ ht hwi).1
  have k2 := (dec_bounds c.tpn _ ht hwj).2.2 (hw _ (slot_grant c me s hr j hj (p j)).2)
  have k3 := waitOf_step c s.rtsList hb hd i j hij hi
  have k4 : (i : ℤ) + 1 ≤ j := by exact_mod_cast hij
  have k5 : (c.ctrlDur .cts + c.ps 1) * i + (c.ctrlDur .cts + c.ps 1) ≤ (c.ctrlDur .cts + c.ps 1) * j := by nlinarith
  linarith

/-- Two clients, 10 m away. -/
def exTwo : St := after (exCfg 3) exAp (openRun [(1, -46), (2, -30)])

example : exTwo.rtsList.length = 2 ∧ exTwo.recording = false ∧
    (grants (exCfg 3) exAp exTwo)[1]?.bind waitIn = some 2299941 ∧ (2299941 : ℤ) < 65536 * (exCfg 3).tpn ∧
    (33000 : ℤ) + (exCfg 3).tpn ≤ 33000 + (exCfg 3).ctrlDur .cts + (exCfg 3).ps 1 + (exCfg 3).maxBo := by
  decide +kernel

/-- A window's RTSs, all received below 8-PSK, with packets of 65000 bytes as in the example program. -/
def bigCfg : Cfg := { exCfg 3 with packetSize := 65000 }
/-- Eight clients asked. -/
def exEight : St := after bigCfg exAp (openRun [(1, -46), (2, -46), (3, -46), (4, -46), (5, -46), (6, -46), (7, -46), (8, -46)])

/-- The 16-bit duration field wraps: the eighth client is told to start while the first one is sending. -/
theorem C35_wrap_violated :
    ∃ a b a' b' : ℤ, (grants bigCfg exAp exEight)[0]?.bind (slotOf bigCfg exAp 10000) = some (a, b) ∧
      (grants bigCfg exAp exEight)[7]?.bind (slotOf bigCfg exAp 10000) = some (a', b') ∧ a < b' ∧ a' < b := by
  refine ⟨37430, 9946728, 3945516, 13854814, ?_⟩
  decide +kernel

/-- With the default attributes, a client 10 m away and one 1 m away: the second is told to start before the
first has finished. -/
theorem C35_distance_violated :
    ∃ a b a' b' : ℤ, (grants (exCfg 3) exAp exTwo)[0]?.bind (slotOf (exCfg 3) exAp 33356) = some (a, b) ∧
      (grants (exCfg 3) exAp exTwo)[1]?.bind (slotOf (exCfg 3) exAp 3336) = some (a', b') ∧ a < b' ∧ a' < b := by
  refine ⟨45328, 2332675, 2313606, 2694056, ?_⟩
  decide +kernel

/-! ## C36: the data window -/

/-- The window covers every slot (as the data arrive, twice the propagation delay later than at the access
point's own clock) if no modulation is slower than the default rate, no client is farther than the assumed
propagation time, and the CTSs together are not much longer than the ACKs. -/
theorem C36_covers_partial (c : Cfg) (me : Mac48) (s : St) (ht : 0 < c.tpn) (hc : 0 ≤ c.ctrlDur .cts)
    (hps : 0 ≤ c.ps 1) (hb : 0 ≤ c.maxBo) (hs : 0 ≤ c.sifs) (hd : ∀ g, 0 ≤ c.dataDur c.packetSize g)
    (hn : s.rtsList.length < 65536) (hr : s.recording = false)
    (hslow : ∀ g, c.dataDur c.packetSize g ≤ c.dataDur c.packetSize 0)
    (hack : s.rtsList.length * (c.ctrlDur .cts + c.ps 1) ≤
      s.rtsList.length * c.ctrlDur .ack + c.maxBo + c.ps 1)
    (j : Nat) (hj : j < s.rtsList.length) (p : ℤ) (hp : p ≤ c.tProp) :
    ∃ a b tid due, (grants c me s)[j]?.bind (slotOf c me (2 * p)) = some (a, b) ∧
      (tid, due, Ev.sectorTimeout) ∈ (waitTimeExpired c me s).pend ∧
      (waitTimeExpired c me s).sectorEv = some tid ∧ b ≤ due := by
  have hl : s.rtsList ≠ [] := by intro h; rw [h] at hj; simp at hj
  refine ⟨_, _, _, _, (slot_grant c me s hr j hj (2 * p)).1, by
    rw [close_pend c me s hl hr]; exact List.mem_append_right _ (List.mem_singleton.2 rfl), ?_, ?_⟩
  · unfold waitTimeExpired
    dsimp only
    have e1 : (s.emit .closed).rtsList = s.rtsList := rfl
    have e2 : (s.emit .closed).recording = s.recording := rfl
    rw [e1, e2, if_neg hl, hr]
    simp only [Bool.false_eq_true, if_false]
    rw [(answer_keep c 0 _ s.rtsList (s.emit .closed)).1]
    rfl
  ·
    have hwj := waitOf_nonneg c s.rtsList hb hc hd j
    have k1 := (dec_bounds c.tpn _ ht hwj).1
    have hlen : (UInt16.ofNat s.rtsList.length).toNat = s.rtsList.length := by
      rw [UInt16.toNat_ofNat']; exact Nat.mod_eq_of_lt hn
    unfold Cfg.sectorTime Cfg.tData
    rw [hlen]
    have hjn : (j : ℤ) + 1 ≤ s.rtsList.length := by exact_mod_cast hj
    have k2 : waitOf c s.rtsList j ≤ s.rtsList.length * c.ctrlDur .cts + j * (c.dataDur c.packetSize 0 + c.maxBo) := by
      unfold waitOf
      have : ((s.rtsList.take j).map (fun r => c.dataDur c.packetSize (flagOf c r.2) + c.maxBo)).sum ≤
          (s.rtsList.take j).length • (c.dataDur c.packetSize 0 + c.maxBo) := by
        have := List.sum_le_card_nsmul ((s.rtsList.take j).map (fun r => c.dataDur c.packetSize (flagOf c r.2) + c.maxBo))
          (c.dataDur c.packetSize 0 + c.maxBo) (by
            intro x hx
            obtain ⟨r, -, rfl⟩ := List.mem_map.1 hx
            have := hslow (flagOf c r.2)
            linarith)
        simpa using this
      rw [List.length_take, min_eq_left hj.le, nsmul_eq_mul] at this
      linarith
    have k3 := hslow (flagOf c s.rtsList[j].2)
    have k4 := hd 0
    have k5 : (c.ctrlDur .cts + c.ps 1) * j + (c.ctrlDur .cts + c.ps 1) ≤
        (c.ctrlDur .cts + c.ps 1) * s.rtsList.length := by nlinarith
    have k6 : j * (c.dataDur c.packetSize 0 + c.maxBo) + (c.dataDur c.packetSize 0 + c.maxBo) ≤
        s.rtsList.length * (c.dataDur c.packetSize 0 + c.maxBo) := by nlinarith
    nlinarith

/-- Without adaptive modulation the durations do not depend on the flag. -/
example : let c : Cfg := { exCfg 3 with useAdaptMCS := false, dataDur := fun n _ => calTx 0 n 0 }
    let s := after c exAp (openRun [(1, -46), (2, -30)])
    0 ≤ c.ps 1 ∧ 0 ≤ c.maxBo ∧ (∀ g, c.dataDur c.packetSize g ≤ c.dataDur c.packetSize 0) ∧
      s.rtsList.length = 2 ∧ s.recording = false ∧
      s.rtsList.length * (c.ctrlDur .cts + c.ps 1) ≤ s.rtsList.length * c.ctrlDur .ack + c.maxBo + c.ps 1 := by
  refine ⟨by decide +kernel, by decide +kernel, fun g => le_rfl, by decide +kernel, by decide +kernel, by decide +kernel⟩

/-- With all attributes at their defaults and a single client received with -46 dBm: the access point has turned
to the next sector (at 970368 ps) before the client's data arrive completely (at 2436500 ps). -/
theorem C36_window_violated :
    timely (exCfg 3) exAp (init (exCfg 3)) (openRun [(1, -46)] ++ [.advance 72712, .fire 1, .fire 3, .fire 5, .fire 4]) = true ∧
    (grants (exCfg 3) exAp (after (exCfg 3) exAp (openRun [(1, -46)] ++ [.advance 72712])))[0]?.bind
      (slotOf (exCfg 3) exAp (2 * 33356)) = some (149153, 2436500) ∧
    let s := after (exCfg 3) exAp (openRun [(1, -46)] ++ [.advance 72712, .fire 1, .fire 3, .fire 5, .fire 4])
    s.now = 970368 ∧ turnsOf s.log = [12, 24] := by
  decide +kernel

/-! ## C39: the sweep -/

/-- Direction after one turn, from any angle. -/
theorem turn_range (a : ℚ) (h : -360 < a) :
    -360 < a - 360 * ((⌈a / 360⌉.toNat - 1 : ℕ) : ℚ) ∧ a - 360 * ((⌈a / 360⌉.toNat - 1 : ℕ) : ℚ) ≤ 360 := by
  have h1 := Int.ceil_lt_add_one (a / 360)
  have h2 := Int.le_ceil (a / 360)
  by_cases hc : ⌈a / 360⌉ ≤ 1
  · have e : ⌈a / 360⌉.toNat - 1 = 0 := by omega
    rw [e]
    have : (⌈a / 360⌉ : ℚ) ≤ 1 := by exact_mod_cast hc
    constructor
    · simpa using h
    · push_cast; linarith
  · have e : ((⌈a / 360⌉.toNat - 1 : ℕ) : ℚ) = ⌈a / 360⌉ - 1 := by
      have h3 : ((⌈a / 360⌉.toNat - 1 : ℕ) : ℤ) = ⌈a / 360⌉ - 1 := by omega
      exact_mod_cast h3
    rw [e]
    constructor <;> linarith

theorem wrapUp_mod (n : Nat) (a : ℚ) : ∃ m : ℤ, wrapUp n a = a + 360 * m := by
  induction n generalizing a with
  | zero => exact ⟨0, by simp [wrapUp]⟩
  | succ n ih =>
    unfold wrapUp
    split
    · obtain ⟨m, hm⟩ := ih (a + 360)
      exact ⟨m + 1, by rw [hm]; push_cast; ring⟩
    · exact ⟨0, by simp⟩

/-- Every direction the antenna is ever pointed to lies in (-360, 360], for every beam width. -/
theorem C39_range (c : Cfg) (me : Mac48) (ops : List Op) :
    ∀ a ∈ turnsOf (after c me ops).log, -360 < a ∧ a ≤ 360 := by
  induction ops using List.reverseRecOn with
  | nil => intro a h; simp [after, run, init, turnsOf] at h
  | append_singleton l o ih =>
    rw [after_snoc]
    cases sweep_step c me (after c me l) o with
    | same h => rw [h.turns]; exact ih
    | turned s0 h e =>
      obtain ⟨a, m, ha, hm, h1, h2, h3, h4⟩ := turn_spec c me s0
      rw [e, h3, h.turns]
      intro x hx
      rcases List.mem_append.1 hx with hx | hx
      · exact ih x hx
      · rw [List.mem_singleton.1 hx, hm]
        apply turn_range
        rw [ha]
        exact (wrapUp_done _ _ le_rfl).1

/-- Each direction is the previous one (at first 0) plus the beam width, up to full turns. -/
theorem C39_advance (c : Cfg) (me : Mac48) (ops : List Op) :
    (0 :: turnsOf (after c me ops).log).IsChain (fun a b => ∃ m : ℤ, b = a + c.beamwidth + 360 * m) := by
  have key : (0 :: turnsOf (after c me ops).log).IsChain (fun a b => ∃ m : ℤ, b = a + c.beamwidth + 360 * m) ∧
      (0 :: turnsOf (after c me ops).log).getLast (by simp) = (after c me ops).angle := by
    induction ops using List.reverseRecOn with
    | nil => simp [after, run, init, turnsOf]
    | append_singleton l o ih =>
      rw [after_snoc]
      cases sweep_step c me (after c me l) o with
      | same h =>
        have h1 := h.turns
        have h2 := h.angle
        constructor
        · rw [h1]; exact ih.1
        · rw [h2, ← ih.2]
          congr 2
      | turned s0 h e =>
        obtain ⟨a, m, ha, hm, h1, h2, h3, h4⟩ := turn_spec c me s0
        have ht : turnsOf (step c me (after c me l) o).log =
            turnsOf (after c me l).log ++ [a - 360 * (m : ℕ)] := by rw [e, h3, h.turns]
        constructor
        · rw [ht, ← List.cons_append, List.isChain_append]
          refine ⟨ih.1, List.isChain_singleton _, ?_⟩
          intro x hx y hy
          rw [List.getLast?_eq_some_getLast (by simp), Option.mem_some_iff] at hx
          simp only [List.head?_cons, Option.mem_some_iff] at hy
          rw [ih.2] at hx
          obtain ⟨k, hk⟩ := wrapUp_mod (rounds (s0.angle + c.beamwidth)) (s0.angle + c.beamwidth)
          refine ⟨k - m, ?_⟩
          rw [← hy, ha, hk, ← hx, h.angle]
          push_cast
          ring
        · have : ∀ (L L' : List ℚ) (hL : L ≠ []) (hL' : L' ≠ []), L = L' → L.getLast hL = L'.getLast hL' := by
            intro L L' hL hL' e; subst e; rfl
          rw [this _ (0 :: turnsOf (after c me l).log ++ [a - 360 * (m : ℕ)]) (by simp) (by simp) (by rw [ht]; rfl)]
          rw [List.getLast_append_singleton, e, h1]
  exact key.1

/-- The full turns are counted once each: after `k` steps of a positive beam width, exactly the full turns that
have been completed and exceeded. -/
theorem C39_cycles (c : Cfg) (hb : 0 < c.beamwidth) (me : Mac48) (ops : List Op) :
    let s := after c me ops
    let k := (turnsOf s.log).length
    let n := cyclesOf s.log
    s.cycles = UInt16.ofNat n ∧ (0 < k → 360 * n < k * c.beamwidth ∧ k * c.beamwidth ≤ 360 * (n + 1)) ∧
      (k = 0 → n = 0) := by
  have h := SwInv.after hb me ops
  dsimp only
  refine ⟨h.cycles, ?_, ?_⟩
  · intro hk
    have hp := angleAt_pos c.beamwidth hb (turnsOf (after c me ops).log).length
    rw [h.count]
    unfold angleAt at hp
    constructor
    · have := hp.2.2 hk; linarith
    · have := hp.2.1; linarith
  · intro hk
    rw [h.count, hk]
    simp [fullTurns]

theorem turn_get (c : Cfg) (hb : 0 < c.beamwidth) (me : Mac48) (ops : List Op) (j : Nat)
    (hj : j < (turnsOf (after c me ops).log).length) :
    (turnsOf (after c me ops).log)[j] = angleAt c.beamwidth (j + 1) := by
  have h := (SwInv.after hb me ops).turns
  have h2 : (turnsOf (after c me ops).log)[j]? = some (angleAt c.beamwidth (j + 1)) := by
    rw [h]
    simp [hj]
  rw [List.getElem?_eq_getElem hj] at h2
  exact Option.some.inj h2

/-- Every direction is within half a beam width of one of the directions of any sweep of `⌈360 / beam width⌉`
consecutive sectors: nothing is left out. -/
theorem C39_cover (c : Cfg) (hb : 0 < c.beamwidth) (me : Mac48) (ops : List Op) (θ : ℚ) (k : Nat)
    (hk : k + ⌈360 / c.beamwidth⌉.toNat ≤ (turnsOf (after c me ops).log).length) :
    ∃ j, ∃ hj : j < (turnsOf (after c me ops).log).length, k ≤ j ∧ j < k + ⌈360 / c.beamwidth⌉.toNat ∧
      ∃ m : ℤ, |(turnsOf (after c me ops).log)[j] - (θ + 360 * m)| ≤ c.beamwidth / 2 := by
  set b := c.beamwidth with hbd
  set m : ℤ := ⌊((k + 1 / 2) * b + 360 - θ) / 360⌋ with hm
  have m1 : (m : ℚ) ≤ ((k + 1 / 2) * b + 360 - θ) / 360 := Int.floor_le _
  have m2 : ((k + 1 / 2) * b + 360 - θ) / 360 < m + 1 := Int.lt_floor_add_one _
  have t1 : θ + 360 * m ≤ (k + 1 / 2) * b + 360 := by
    rw [le_div_iff₀ (by norm_num)] at m1; linarith
  have t2 : (k + 1 / 2) * b < θ + 360 * m := by
    rw [div_lt_iff₀ (by norm_num)] at m2; linarith
  set J : ℤ := ⌈(θ + 360 * m) / b - 1 / 2⌉ with hJ
  have j1 : (θ + 360 * m) / b - 1 / 2 ≤ J := Int.le_ceil _
  have j2 : (J : ℚ) < (θ + 360 * m) / b - 1 / 2 + 1 := Int.ceil_lt_add_one _
  have q1 : (k : ℚ) + 1 / 2 < (θ + 360 * m) / b := by rw [lt_div_iff₀ hb]; exact t2
  have q2 : (θ + 360 * m) / b ≤ k + 1 / 2 + 360 / b := by
    rw [div_le_iff₀ hb, add_mul, div_mul_cancel₀ _ (ne_of_gt hb)]; exact t1
  have J1 : (k : ℤ) < J := by
    have : (k : ℚ) < J := by linarith
    exact_mod_cast this
  have J2 : J ≤ k + ⌈360 / b⌉ := by
    rw [hJ, Int.ceil_le]
    push_cast
    have := Int.le_ceil (360 / b)
    linarith
  have hc0 : 0 < ⌈360 / b⌉ := Int.ceil_pos.2 (by positivity)
  have hjlt : J.toNat - 1 < (turnsOf (after c me ops).log).length := by omega
  refine ⟨J.toNat - 1, hjlt, by omega, by omega, ?_⟩
  have hJn : ((J.toNat - 1 + 1 : ℕ) : ℚ) = J := by
    have : ((J.toNat - 1 + 1 : ℕ) : ℤ) = J := by omega
    exact_mod_cast this
  refine ⟨m - fullTurns b (J.toNat - 1 + 1), ?_⟩
  rw [turn_get c hb me ops _ hjlt]
  unfold angleAt
  rw [hJn]
  push_cast
  have e : (J : ℚ) * b - 360 * (fullTurns b (J.toNat - 1 + 1) : ℚ) - (θ + 360 * (m - (fullTurns b (J.toNat - 1 + 1) : ℚ))) =
      J * b - (θ + 360 * m) := by ring
  rw [e]
  have f : (θ + 360 * m) / b * b = θ + 360 * m := div_mul_cancel₀ _ (ne_of_gt hb)
  rw [abs_le]
  constructor
  · have := mul_le_mul_of_nonneg_right j1 hb.le
    rw [sub_mul, f] at this
    linarith
  · have := mul_lt_mul_of_pos_right j2 hb
    rw [add_mul, sub_mul, f] at this
    linarith

/-- When the beam width divides 360 degrees, every direction comes again after exactly one sweep. -/
theorem C39_revisit (c : Cfg) (n : Nat) (hn : 0 < n) (hb : c.beamwidth = 360 / n) (me : Mac48) (ops : List Op)
    (j : Nat) (hj : j + n < (turnsOf (after c me ops).log).length) :
    (turnsOf (after c me ops).log)[j + n] = (turnsOf (after c me ops).log)[j] := by
  have hn' : (0 : ℚ) < n := by exact_mod_cast hn
  have hp : 0 < c.beamwidth := by rw [hb]; positivity
  rw [turn_get c hp me ops, turn_get c hp me ops]
  unfold angleAt fullTurns
  have e : ((j + n + 1 : ℕ) : ℚ) * c.beamwidth = (j + 1 : ℕ) * c.beamwidth + 360 := by
    push_cast
    have : (n : ℚ) * c.beamwidth = 360 := by rw [hb]; field_simp
    linarith
  rw [e]
  have e2 : ((j + 1 : ℕ) * c.beamwidth + 360) / 360 = ((j + 1 : ℕ) * c.beamwidth) / 360 + 1 := by
    field_simp
  rw [e2, Int.ceil_add_one]
  have hpos : 0 < ⌈((j + 1 : ℕ) * c.beamwidth) / 360⌉ := Int.ceil_pos.2 (by positivity)
  have e3 : (⌈((j + 1 : ℕ) * c.beamwidth) / 360⌉ + 1).toNat - 1 = (⌈((j + 1 : ℕ) * c.beamwidth) / 360⌉.toNat - 1) + 1 := by
    omega
  rw [e3]
  push_cast
  ring

/-- A quiet run of `n` sectors in the three-way protocol: nobody answers. -/
def quiet (n : Nat) : List Op := .fire 0 :: (List.range n).flatMap (fun i => [.fire (2 * i + 2), .fire (2 * i + 1)])

/-- 30 sectors of 12 degrees, the 31st is the first again; time order. -/
example : timely (exCfg 3) exAp (init (exCfg 3)) (quiet 31) = true ∧
    (turnsOf (after (exCfg 3) exAp (quiet 31)).log).length = 32 ∧ (exCfg 3).beamwidth = 360 / (30 : ℕ) ∧
    cyclesOf (after (exCfg 3) exAp (quiet 31)).log = 1 := by
  decide +kernel

/-- With a beam width of 100 degrees the directions do not repeat: the second sweep looks elsewhere. -/
theorem C39_revisit_violated :
    let c := { exCfg 3 with beamwidth := 100 }
    timely c exAp (init c) (quiet 8) = true ∧
      turnsOf (after c exAp (quiet 8)).log = [100, 200, 300, 40, 140, 240, 340, 80, 180] := by
  decide +kernel

end Thz.Ap
