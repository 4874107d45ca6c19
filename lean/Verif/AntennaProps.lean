import Verif.Antenna
import Mathlib.Tactic.Linarith
import Mathlib.Tactic.Ring
import Mathlib.Tactic.NormNum
import Mathlib.Tactic.FieldSimp

/-!
# Theorems about the antenna: C56, C57, C58, C86, C87
-/

namespace Thz.Antenna

open Real

/-! ## C57: the normalisation loops -/

theorem wrapUp_spec {lo p : ℝ} (hp : 0 < p) : ∀ (n : Nat) (a : ℝ), lo < a + n * p →
    (∃ k : Nat, wrapUp lo p n a = a + k * p) ∧ lo < wrapUp lo p n a ∧ (wrapUp lo p n a = a ∨ wrapUp lo p n a ≤ lo + p)
  | 0, a, h => ⟨⟨0, by simp [wrapUp]⟩, by simpa [wrapUp] using h, .inl rfl⟩
  | n + 1, a, h => by
    unfold wrapUp
    split
    · rename_i hle
      obtain ⟨⟨k, hk⟩, h1, h2⟩ := wrapUp_spec (lo := lo) hp n (a + p) (by push_cast at h; linarith)
      refine ⟨⟨k + 1, by rw [hk]; push_cast; ring⟩, h1, .inr ?_⟩
      rcases h2 with h2 | h2
      · rw [h2]; linarith
      · exact h2
    · rename_i hgt
      exact ⟨⟨0, by simp⟩, lt_of_not_ge hgt, .inl rfl⟩

theorem wrapDown_spec {hi p : ℝ} (hp : 0 < p) : ∀ (n : Nat) (a : ℝ), a - n * p ≤ hi →
    (∃ k : Nat, wrapDown hi p n a = a - k * p) ∧ wrapDown hi p n a ≤ hi ∧ (wrapDown hi p n a = a ∨ hi - p < wrapDown hi p n a)
  | 0, a, h => ⟨⟨0, by simp [wrapDown]⟩, by simpa [wrapDown] using h, .inl rfl⟩
  | n + 1, a, h => by
    unfold wrapDown
    split
    · rename_i hlt
      obtain ⟨⟨k, hk⟩, h1, h2⟩ := wrapDown_spec (hi := hi) hp n (a - p) (by push_cast at h; linarith)
      refine ⟨⟨k + 1, by rw [hk]; push_cast; ring⟩, h1, .inr ?_⟩
      rcases h2 with h2 | h2
      · rw [h2]; linarith
      · exact h2
    · rename_i hge
      exact ⟨⟨0, by simp⟩, le_of_not_gt hge, .inl rfl⟩

theorem rounds_le {p : ℝ} (hp : 0 < p) (a : ℝ) : |a| ≤ rounds p a * p := by
  have := Nat.le_ceil (|a| / p)
  unfold rounds
  calc |a| = |a| / p * p := by field_simp
    _ ≤ _ := mul_le_mul_of_nonneg_right this hp.le

theorem rounds_up {lo p : ℝ} (hp : 0 < p) (hlo : lo < 0) (a : ℝ) : lo < a + rounds p a * p := by
  have := rounds_le hp a; have := neg_abs_le a; linarith

theorem rounds_down {hi p : ℝ} (hp : 0 < p) (hhi : 0 < hi) (a : ℝ) : a - rounds p a * p ≤ hi := by
  have := rounds_le hp a; have := le_abs_self a; linarith

/-- The result of the two loops. -/
theorem norm_spec {h p : ℝ} (hp : 0 < p) (hh : 0 < h) (hph : p ≤ 2 * h) (a : ℝ) :
    (∃ k : ℤ, norm h p a = a + k * p) ∧ -h < norm h p a ∧ norm h p a ≤ h := by
  unfold norm
  dsimp only
  obtain ⟨⟨k, hk⟩, h1, h2⟩ := wrapUp_spec (lo := -h) hp (rounds p a) a (rounds_up hp (by linarith) a)
  generalize wrapUp (-h) p (rounds p a) a = b at *
  obtain ⟨⟨m, hm⟩, h3, h4⟩ := wrapDown_spec (hi := h) hp (rounds p b) b (rounds_down hp hh b)
  refine ⟨⟨(k : ℤ) - m, by rw [hm, hk]; push_cast; ring⟩, ?_, h3⟩
  rcases h4 with h4 | h4
  · rw [h4]; exact h1
  · linarith

/-- C57: tuning the antenna to any angle leaves it pointing in that direction, with a stored angle in (-360, 360] and the
same angle in radians. -/
theorem C57_tuned (deg : ℝ) (a : Ant) :
    (∃ k : ℤ, (tuneRx deg a).rxDeg = deg + k * 360) ∧ -360 < (tuneRx deg a).rxDeg ∧ (tuneRx deg a).rxDeg ≤ 360 ∧
      (((tuneRx deg a).rxRad : ℝ) : Real.Angle) = ((deg * π / 180 : ℝ) : Real.Angle) := by
  obtain ⟨⟨k, hk⟩, h1, h2⟩ := norm_spec (h := 360) (p := 360) (by norm_num) (by norm_num) (by norm_num) deg
  refine ⟨⟨k, hk⟩, h1, h2, ?_⟩
  rw [Real.Angle.angle_eq_iff_two_pi_dvd_sub]
  refine ⟨k, ?_⟩
  show norm 360 360 deg * π / 180 - _ = _
  rw [hk]; ring

/-- C57: likewise for the antenna that turns by itself. -/
theorem C57_turning (ini speed now : ℝ) (a : Ant) :
    -360 < (getRxOrientation ini speed now a).rxDeg ∧ (getRxOrientation ini speed now a).rxDeg ≤ 360 ∧
      (((getRxOrientation ini speed now a).rxRad : ℝ) : Real.Angle) =
        (((ini + speed * now * 360) * π / 180 : ℝ) : Real.Angle) := by
  obtain ⟨_, h1, h2, h3⟩ := C57_tuned (ini + speed * 360 * now) a
  refine ⟨h1, h2, ?_⟩
  rw [show ini + speed * now * 360 = ini + speed * 360 * now by ring]
  exact h3

/-- C57: the loops end: the bound on the number of rounds in the model does not matter, and the loop conditions are false
at the end. -/
theorem C57_ends {h p : ℝ} (hp : 0 < p) (hh : 0 < h) (a : ℝ) :
    (∀ n, rounds p a ≤ n → wrapUp (-h) p n a = wrapUp (-h) p (rounds p a) a) ∧ ¬ wrapUp (-h) p (rounds p a) a ≤ -h ∧
    (∀ n, rounds p a ≤ n → wrapDown h p n a = wrapDown h p (rounds p a) a) ∧ ¬ h < wrapDown h p (rounds p a) a := by
  have up : ∀ (m n : Nat) (a : ℝ), -h < a + m * p → m ≤ n → wrapUp (-h) p n a = wrapUp (-h) p m a := by
    intro m
    induction m with
    | zero =>
      intro n a h1 _
      cases n with
      | zero => rfl
      | succ n => unfold wrapUp; rw [if_neg (by push_cast at h1; linarith)]
    | succ m ih =>
      intro n a h1 hn
      cases n with
      | zero => omega
      | succ n =>
        unfold wrapUp
        split
        · exact ih n (a + p) (by push_cast at h1; linarith) (by omega)
        · rfl
  have down : ∀ (m n : Nat) (a : ℝ), a - m * p ≤ h → m ≤ n → wrapDown h p n a = wrapDown h p m a := by
    intro m
    induction m with
    | zero =>
      intro n a h1 _
      cases n with
      | zero => rfl
      | succ n => unfold wrapDown; rw [if_neg (by push_cast at h1; linarith)]
    | succ m ih =>
      intro n a h1 hn
      cases n with
      | zero => omega
      | succ n =>
        unfold wrapDown
        split
        · exact ih n (a - p) (by push_cast at h1; linarith) (by omega)
        · rfl
  refine ⟨fun n hn => up _ _ _ (rounds_up hp (by linarith) a) hn, ?_, fun n hn => down _ _ _ (rounds_down hp hh a) hn, ?_⟩
  · exact not_le.2 (wrapUp_spec hp _ a (rounds_up hp (by linarith) a)).2.1
  · exact not_lt.2 (wrapDown_spec hp _ a (rounds_down hp hh a)).2.1

/-- An angle that is changed: 450 degrees becomes 90. -/
example (a : Ant) : (tuneRx 450 a).rxDeg = 90 := by
  obtain ⟨⟨k, hk⟩, h1, h2, _⟩ := C57_tuned 450 a
  rw [hk] at h1 h2 ⊢
  have h3 : (k : ℝ) < 0 := by linarith
  have h4 : (-3 : ℝ) < k := by linarith
  have h3' : k < 0 := by exact_mod_cast h3
  have h4' : -3 < k := by exact_mod_cast h4
  have : k = -1 ∨ k = -2 := by omega
  rcases this with rfl | rfl
  · norm_num
  · exfalso
    have hr : norm 360 360 450 = 90 := by
      unfold norm
      have e1 : rounds 360 450 = 2 := by
        unfold rounds; rw [abs_of_pos (by norm_num), Nat.ceil_eq_iff (by norm_num)]; norm_num
      have e2 : rounds 360 90 = 1 := by
        unfold rounds; rw [abs_of_pos (by norm_num), Nat.ceil_eq_iff (by norm_num)]; norm_num
      have e3 : wrapUp (-360) 360 2 450 = 450 := by unfold wrapUp; rw [if_neg (by norm_num)]
      dsimp only
      rw [e1, e3, e1]
      unfold wrapDown
      rw [if_pos (by norm_num)]
      unfold wrapDown
      rw [if_neg (by norm_num)]; norm_num
    have : (tuneRx 450 a).rxDeg = 90 := hr
    rw [hk] at this
    norm_num at this

/-- The normalised angle is the usual representative. -/
theorem norm_toReal (a : ℝ) : norm π (π + π) a = ((a : ℝ) : Real.Angle).toReal := by
  obtain ⟨⟨k, hk⟩, h1, h2⟩ := norm_spec (h := π) (p := π + π) (by linarith [pi_pos]) pi_pos (by linarith) a
  have : ((norm π (π + π) a : ℝ) : Real.Angle) = ((a : ℝ) : Real.Angle) := by
    rw [Real.Angle.angle_eq_iff_two_pi_dvd_sub]
    exact ⟨k, by rw [hk]; ring⟩
  rw [← this]
  exact (Real.Angle.toReal_coe_eq_self_iff.2 ⟨h1, h2⟩).symm

/-! ## C56 -/

/-- The angle, without sign, between the direction `dirDeg` (degrees) and the direction from `o` to `v`. -/
noncomputable def offAxis (dirDeg : ℝ) (v o : ℂ) : ℝ :=
  |(((Complex.arg (v - o) : ℝ) : Real.Angle) - ((dirDeg * π / 180 : ℝ) : Real.Angle)).toReal|

theorem offAxis_nonneg (d : ℝ) (v o : ℂ) : 0 ≤ offAxis d v o := abs_nonneg _

theorem offAxis_le (d : ℝ) (v o : ℂ) : offAxis d v o ≤ π := Real.Angle.abs_toReal_le_pi _

/-- The pattern depends on the angle off axis only. -/
noncomputable def patternAt (a : Ant) (d : ℝ) : WithBot ℝ := db20 (cos (d / 2) ^ a.exponent) + (a.maxGain : WithBot ℝ)

theorem pattern_eq (a : Ant) (phi : ℝ) : pattern a phi = patternAt a |((phi : ℝ) : Real.Angle).toReal| := by
  unfold pattern patternAt
  rw [norm_toReal]
  congr 3
  rcases abs_cases ((phi : ℝ) : Real.Angle).toReal with ⟨h, _⟩ | ⟨h, _⟩
  · rw [h]
  · rw [h, neg_div, cos_neg]

theorem pattern_offAxis (a : Ant) (deg : ℝ) (v o : ℂ) (ha : ((a.rxRad : ℝ) : Real.Angle) = ((deg * π / 180 : ℝ) : Real.Angle)) :
    pattern a (azimuth v o - a.rxRad) = patternAt a (offAxis deg v o) := by
  rw [pattern_eq, Real.Angle.coe_sub, ha]; rfl

theorem quarter {bw : ℝ} (h0 : 0 < bw) (h1 : bw ≤ 180) : 0 < cos (bw * π / 180 / 4) ∧ cos (bw * π / 180 / 4) < 1 := by
  have hpi := pi_pos
  have hx0 : 0 < bw * π / 180 / 4 := by positivity
  have hx1 : bw * π / 180 / 4 < π / 2 := by
    rw [div_div, div_lt_div_iff₀ (by norm_num) (by norm_num)]
    nlinarith
  refine ⟨cos_pos_of_mem_Ioo ⟨by linarith, hx1⟩, ?_⟩
  rw [← cos_zero]
  exact cos_lt_cos_of_nonneg_of_le_pi (le_refl 0) (by linarith) hx0

theorem exponent_pos {bw : ℝ} (h0 : 0 < bw) (h1 : bw ≤ 180) (a : Ant) : 0 < (setBeamwidth bw a).exponent := by
  obtain ⟨h2, h3⟩ := quarter h0 h1
  have : logb 10 (cos (bw * π / 180 / 4)) < 0 := logb_neg (by norm_num) h2 h3
  show 0 < -3 / (20 * logb 10 (cos (bw * π / 180 / 4)))
  exact div_pos_of_neg_of_neg (by norm_num) (by linarith)

theorem db20_pow {c e : ℝ} (hc : 0 < c) : db20 (c ^ e) = ((20 * (e * logb 10 c) : ℝ) : WithBot ℝ) := by
  unfold db20
  rw [if_neg (rpow_pos_of_pos hc e).ne', logb_rpow_eq_mul_logb_of_pos hc]

theorem patternAt_zero (a : Ant) : patternAt a 0 = a.maxGain := by
  unfold patternAt
  rw [zero_div, cos_zero, db20_pow one_pos, logb_one]
  simp

theorem patternAt_half {bw : ℝ} (h0 : 0 < bw) (h1 : bw ≤ 180) (a : Ant) (ha : a.exponent = (setBeamwidth bw a).exponent) :
    patternAt a (bw / 2 * π / 180) = ((a.maxGain - 3 : ℝ) : WithBot ℝ) := by
  obtain ⟨h2, h3⟩ := quarter h0 h1
  have hl : logb 10 (cos (bw * π / 180 / 4)) < 0 := logb_neg (by norm_num) h2 h3
  have e : bw / 2 * π / 180 / 2 = bw * π / 180 / 4 := by ring
  unfold patternAt
  rw [e, db20_pow h2, ha]
  show ((20 * (-3 / (20 * logb 10 (cos (bw * π / 180 / 4))) * logb 10 (cos (bw * π / 180 / 4))) : ℝ) : WithBot ℝ) + _ = _
  rw [← WithBot.coe_add]
  congr 1
  have hl' := hl.ne
  generalize logb 10 (cos (bw * π / 180 / 4)) = L at hl'
  field_simp
  ring

theorem patternAt_anti {a : Ant} (he : 0 < a.exponent) {d d' : ℝ} (h0 : 0 ≤ d) (h : d < d') (h1 : d' ≤ π) :
    patternAt a d' < patternAt a d := by
  have hc : cos (d' / 2) < cos (d / 2) := cos_lt_cos_of_nonneg_of_le_pi (by linarith) (by linarith [pi_pos]) (by linarith)
  have hc' : 0 ≤ cos (d' / 2) := cos_nonneg_of_neg_pi_div_two_le_of_le (by linarith [pi_pos]) (by linarith)
  have hc0 : 0 < cos (d / 2) := lt_of_le_of_lt hc' hc
  unfold patternAt
  rw [db20_pow hc0, ← WithBot.coe_add]
  rcases hc'.eq_or_lt with hz | hp
  · rw [← hz, zero_rpow he.ne']
    unfold db20
    rw [if_pos rfl, WithBot.bot_add]
    exact WithBot.bot_lt_coe _
  · rw [db20_pow hp, ← WithBot.coe_add, WithBot.coe_lt_coe]
    have : logb 10 (cos (d' / 2)) < logb 10 (cos (d / 2)) := logb_lt_logb (by norm_num) hp hc
    have := mul_lt_mul_of_pos_left this he
    linarith

/-- C56: an antenna with a beam width in (0, 180] degrees, tuned to some direction.  The receive gain is the maximum gain for
a sender in that direction, strictly less the further the sender is off that direction (whatever the distances), and exactly
3 dB less at half the beam width, on either side. -/
theorem C56_rxGain (a : Ant) (bw dir : ℝ) (h0 : 0 < bw) (h1 : bw ≤ 180) (recv : ℂ) :
    let a' := tuneRx dir (setBeamwidth bw a)
    (∀ sender, offAxis dir sender recv = 0 → getRxGainDb a' sender recv = a.maxGain) ∧
    (∀ s s', offAxis dir s recv < offAxis dir s' recv → getRxGainDb a' s' recv < getRxGainDb a' s recv) ∧
    (∀ sender, offAxis dir sender recv = bw / 2 * π / 180 →
      getRxGainDb a' sender recv = ((a.maxGain - 3 : ℝ) : WithBot ℝ)) := by
  intro a'
  have hdir : ((a'.rxRad : ℝ) : Real.Angle) = ((dir * π / 180 : ℝ) : Real.Angle) := (C57_tuned dir _).2.2.2
  have hg : ∀ s, getRxGainDb a' s recv = patternAt a' (offAxis dir s recv) := fun s => pattern_offAxis a' dir s recv hdir
  refine ⟨fun s hs => ?_, fun s s' hss => ?_, fun s hs => ?_⟩
  · rw [hg, hs]; exact patternAt_zero a'
  · rw [hg, hg]
    exact patternAt_anti (exponent_pos h0 h1 a) (offAxis_nonneg _ _ _) hss (offAxis_le _ _ _)
  · rw [hg, hs]
    exact patternAt_half h0 h1 a' rfl

/-- C56, for the total gain of a link from a directional transmitter (mode 0) to a directional receiver (mode 1), in either
order of the arguments, for equally configured antennas: the transmitter's maximum gain is added. -/
theorem C56_totalGain (a : Ant) (bw dir : ℝ) (h0 : 0 < bw) (h1 : bw ≤ 180) (recv : ℂ) :
    let a' := tuneRx dir (setBeamwidth bw a)
    ∀ f : ℂ → WithBot ℝ, (f = (fun s => (getAntennaGain recv s true false a'.rxRad a').1) ∨
        f = (fun s => (getAntennaGain s recv false true a'.rxRad a').1)) →
    (∀ sender, offAxis dir sender recv = 0 → f sender = ((a.maxGain + a.maxGain : ℝ) : WithBot ℝ)) ∧
    (∀ s s', offAxis dir s recv < offAxis dir s' recv → f s' < f s) ∧
    (∀ sender, offAxis dir sender recv = bw / 2 * π / 180 →
      f sender = ((a.maxGain + a.maxGain - 3 : ℝ) : WithBot ℝ)) := by
  intro a' f hf
  have htx : ∀ x, pattern a' (x - x) = a.maxGain := by
    intro x
    rw [sub_self, pattern_eq]
    simp only [Real.Angle.coe_zero, Real.Angle.toReal_zero, abs_zero]
    exact patternAt_zero a'
  have hfe : ∀ s, f s = getRxGainDb a' s recv + (a.maxGain : WithBot ℝ) := by
    intro s
    rcases hf with rfl | rfl
    · show pattern a' (azimuth s recv - a'.rxRad) + pattern a' (azimuth recv s - azimuth recv s) = _
      rw [htx]; rfl
    · show pattern a' (azimuth s recv - a'.rxRad) + pattern a' (azimuth recv s - azimuth recv s) = _
      rw [htx]; rfl
  obtain ⟨g1, g2, g3⟩ := C56_rxGain a bw dir h0 h1 recv
  refine ⟨fun s hs => ?_, fun s s' hss => ?_, fun s hs => ?_⟩
  · rw [hfe, g1 s hs, WithBot.coe_add]
  · rw [hfe, hfe]
    exact WithBot.add_lt_add_right (WithBot.coe_ne_bot) (g2 s s' hss)
  · rw [hfe, g3 s hs, ← WithBot.coe_add]
    congr 1; ring

/-- Directions on and off the axis exist: with the antenna pointing along the real axis, a sender on that axis is at angle 0,
one on the imaginary axis at 90 degrees (half of a beam width of 180). -/
example : offAxis 0 1 0 = 0 ∧ offAxis 0 Complex.I 0 = 180 / 2 * π / 180 := by
  unfold offAxis
  constructor
  · simp
  · have : ((0 * π / 180 : ℝ) : Real.Angle) = 0 := by simp
    rw [this, sub_zero, sub_zero, Complex.arg_I, Real.Angle.toReal_pi_div_two, abs_of_pos (by positivity)]
    ring

/-! ## C58 -/

/-- C58 fails: two omnidirectional transceivers (mode 2), as the nano MAC sets them up with a gain of 40 dB each
(model/thz-mac-nano.cc:137-154), have a total gain of 0 dB, wherever they are. -/
theorem C58_omni_violated (x y : Dev) (o : ℝ) (h : x.phy ≠ y.phy) (hx : x.ant.mode = 2) (hy : y.ant.mode = 2)
    (hgx : x.ant.maxGain = 40) (hgy : y.ant.maxGain = 40) :
    ((gains x o [x, y]).2.map (·.2)) = [none, some 0] ∧ (0 : WithBot ℝ) ≠ ((x.ant.maxGain + y.ant.maxGain : ℝ) : WithBot ℝ) := by
  constructor
  · have hb : toBool 2 = true := by unfold toBool; simp
    simp only [gains, if_neg h, hx, hy, hb]
    rfl
  · rw [hgx, hgy, ← WithBot.coe_zero]
    intro hh
    have := WithBot.coe_injective hh
    norm_num at this

/-- What holds: the gain of a pair of omnidirectional transceivers is the same in every direction, whatever the gains. -/
theorem C58_isotropic_partial (x y : Dev) (o : ℝ) (h : x.phy ≠ y.phy) (hx : x.ant.mode = 2) (hy : y.ant.mode = 2) (p q : ℂ) :
    (gains { x with pos := p } o [{ x with pos := p }, { y with pos := q }]).2.map (·.2) = (gains x o [x, y]).2.map (·.2) := by
  have hb : toBool 2 = true := by unfold toBool; simp
  simp only [gains, if_neg h, hx, hy, hb]
  rfl

/-! ## C57 with `double`s -/

/-- The integer `x` rounded to binary64 (52 fraction bits, ties to even). -/
def rnd (x : ℤ) : ℤ :=
  let u : ℤ := 2 ^ (x.natAbs.log2 - 52)
  let q := x / u
  let r := x % u
  if 2 * r < u then q * u else if u < 2 * r then (q + 1) * u else if q % 2 = 0 then q * u else (q + 1) * u

/-- `while (phi_rx > 360) phi_rx -= 360` (model/thz-dir-antenna.cc:170-173) on `double`s with integer values, at most `n`
rounds. -/
def downDouble : Nat → ℤ → ℤ
  | 0, a => a
  | n + 1, a => if 360 < a then downDouble n (rnd (a - 360)) else a

/-- C57 fails for `double`s: tuning to 1e20 degrees loops for ever, because subtracting 360 does not change the number. -/
theorem C57_double_violated : rnd (10 ^ 20) = 10 ^ 20 ∧ ∀ n, downDouble n (10 ^ 20) = 10 ^ 20 ∧ 360 < downDouble n (10 ^ 20) := by
  have h : rnd (10 ^ 20 - 360) = 10 ^ 20 := by decide +kernel
  refine ⟨by decide +kernel, fun n => ?_⟩
  have : downDouble n (10 ^ 20) = 10 ^ 20 := by
    induction n with
    | zero => rfl
    | succ n ih => unfold downDouble; rw [if_pos (by norm_num), h, ih]
  rw [this]
  exact ⟨rfl, by norm_num⟩

theorem rnd_exact {x : ℤ} (h : x.natAbs < 2 ^ 53) : rnd x = x := by
  unfold rnd
  have : x.natAbs.log2 - 52 = 0 := by
    by_cases hx : x.natAbs = 0
    · rw [hx]; decide
    · have := (Nat.log2_lt hx).2 h; omega
  rw [this]
  simp

/-- What holds for `double`s: up to 2^53 the loop computes what it computes on the integers, so it ends (in at most
`a / 360` rounds) with the right direction. -/
theorem C57_double_partial : ∀ (n : Nat) (a : ℤ), 0 ≤ a → a < 2 ^ 53 → a ≤ 360 * n →
    ∃ k : ℤ, downDouble n a = a - k * 360 ∧ 0 ≤ downDouble n a ∧ downDouble n a ≤ 360
  | 0, a, h0, _, h2 => ⟨0, by simp [downDouble], by simpa [downDouble] using h0, by simp [downDouble]; omega⟩
  | n + 1, a, h0, h1, h2 => by
    unfold downDouble
    split
    · rw [rnd_exact (by omega)]
      obtain ⟨k, hk, h3, h4⟩ := C57_double_partial n (a - 360) (by omega) (by omega) (by push_cast at h2; omega)
      exact ⟨k + 1, by rw [hk]; ring, h3, h4⟩
    · exact ⟨0, by simp, h0, by omega⟩

example : downDouble 3 810 = 90 := by decide +kernel

/-! ## C86: whose antenna is turned -/

/-- C86 fails: a transmission by a node in receive mode turns the receive antenna of every other node in receive mode: here
the second access point, which points to `pi / 2`, points to 0, the direction of the sender, after the sender's CTA. -/
theorem C86_turned_violated (a : Ant) (p q r : ℂ) (o : ℝ) :
    let ap1 : Dev := ⟨0, p, { a with mode := 1, rxRad := 0 }⟩
    let client : Dev := ⟨1, q, { a with mode := 0 }⟩
    let ap2 : Dev := ⟨2, r, { a with mode := 1, rxRad := π / 2 }⟩
    (gains ap1 o [ap1, client, ap2]).2.map (fun d => (d.1.phy, d.1.ant.mode, d.1.ant.rxRad)) = [(0, 1, 0), (1, 0, 0), (2, 1, 0)] := by
  have h1 : toBool 1 = true := by unfold toBool; simp
  have h0 : toBool 0 = false := by unfold toBool; simp
  simp [gains, chooseOrient, getAntennaGain, h1, h0]

/-- The consequence: the second access point, which was pointing straight at the client, now has it 90 degrees off axis. -/
theorem C86_gain_violated (a : Ant) (bw : ℝ) (hb : 0 < bw) (hb' : bw ≤ 180) (p : ℂ) (o : ℝ) :
    let a := setBeamwidth bw a
    let ap1 : Dev := ⟨0, p, { a with mode := 1, rxRad := 0 }⟩
    let client : Dev := ⟨1, Complex.I, { a with mode := 0 }⟩
    let ap2 : Dev := ⟨2, 0, { a with mode := 1, rxRad := π / 2 }⟩
    let devs := (gains ap1 o [ap1, client, ap2]).2.map (·.1)
    ((gains client o [ap1, client, ap2]).2.map (·.2))[2]? = some (some ((a.maxGain + a.maxGain : ℝ) : WithBot ℝ)) ∧
      ∃ g, ((gains client o devs).2.map (·.2))[2]? = some (some g) ∧ g < ((a.maxGain + a.maxGain : ℝ) : WithBot ℝ) := by
  have h1 : toBool 1 = true := by unfold toBool; simp
  have h0 : toBool 0 = false := by unfold toBool; simp
  intro a ap1 client ap2 devs
  have he : 0 < a.exponent := exponent_pos hb hb' _
  have hz : ∀ (b : Ant) (x : ℝ), pattern b (x - x) = b.maxGain := by
    intro b x
    rw [sub_self, pattern_eq]
    simp only [Real.Angle.coe_zero, Real.Angle.toReal_zero, abs_zero]
    exact patternAt_zero b
  have haz : azimuth Complex.I 0 = π / 2 := by unfold azimuth; rw [sub_zero, Complex.arg_I]
  constructor
  · have : ((gains client o [ap1, client, ap2]).2.map (·.2))[2]? =
        some (some (pattern ap2.ant (azimuth Complex.I 0 - π / 2) + pattern ap2.ant (azimuth 0 Complex.I - azimuth 0 Complex.I))) := by
      simp [gains, chooseOrient, getAntennaGain, h1, h0, ap1, client, ap2]
    rw [this, haz, hz, hz, ← WithBot.coe_add]
  · refine ⟨pattern { ap2.ant with rxRad := 0 } (azimuth Complex.I 0 - 0) +
      pattern { ap2.ant with rxRad := 0 } (azimuth 0 Complex.I - azimuth 0 Complex.I), ?_, ?_⟩
    · simp [gains, chooseOrient, getAntennaGain, h1, h0, ap1, client, ap2, devs]
    · rw [hz, WithBot.coe_add]
      refine WithBot.add_lt_add_right WithBot.coe_ne_bot ?_
      have hz' := patternAt_zero ({ ap2.ant with rxRad := 0 } : Ant)
      rw [haz, sub_zero, pattern_eq, Real.Angle.toReal_pi_div_two, abs_of_pos (by positivity)]
      show _ < ((ap2.ant.maxGain : ℝ) : WithBot ℝ)
      rw [← hz']
      exact patternAt_anti he (le_refl 0) (by positivity) (by linarith [pi_pos])

/-- What holds for C86: a transmission by a node in transmit mode (mode 0) leaves every antenna in receive mode (mode 1) as
it was, and one by a node in receive mode does so if it is the only node in receive mode. -/
theorem C86_kept_partial (x : Dev) : ∀ (devs : List Dev) (o : ℝ),
    (x.ant.mode = 0 ∨ (x.ant.mode = 1 ∧ ∀ d ∈ devs, x.phy ≠ d.phy → d.ant.mode ≠ 1)) →
    List.Forall₂ (fun d (r : Dev × Option (WithBot ℝ)) => r.1.phy = d.phy ∧ r.1.pos = d.pos ∧ (d.ant.mode = 1 → r.1.ant = d.ant))
      devs (gains x o devs).2
  | [], o, _ => by simp [gains]
  | d :: rest, o, h => by
    have ih : ∀ o, _ := fun o => C86_kept_partial x rest o
      (h.imp id (fun h => ⟨h.1, fun d' hd' => h.2 d' (List.mem_cons_of_mem _ hd')⟩))
    unfold gains
    split
    · exact List.Forall₂.cons ⟨rfl, rfl, fun _ => rfl⟩ (ih o)
    · rename_i hne
      refine List.Forall₂.cons ⟨rfl, rfl, fun hd => ?_⟩ (ih _)
      dsimp only
      rcases h with h | ⟨_, h⟩
      · have : chooseOrient x d o = d.ant.rxRad := by
          unfold chooseOrient; rw [h, hd]; norm_num
        rw [this]
        unfold getAntennaGain
        split <;> rfl
      · exact absurd hd (h d (List.mem_cons_self ..) hne)

/-- A client in transmit mode and an access point: the hypothesis is met. -/
example (a : Ant) (p q : ℂ) : let x : Dev := ⟨0, p, { a with mode := 0 }⟩; let y : Dev := ⟨1, q, { a with mode := 1 }⟩
    x.ant.mode = 0 ∧ ((gains x 5 [x, y]).2.map (fun d => d.1.ant)) = [x.ant, y.ant] := by
  have h1 : toBool 1 = true := by unfold toBool; simp
  have h0 : toBool 0 = false := by unfold toBool; simp
  simp [gains, chooseOrient, getAntennaGain, h1, h0]

/-! ## C87: whose gain is used -/

/-- C87: the gain a link should have: the transmitter's maximum gain plus the receiver's pattern towards the transmitter. -/
noncomputable def wanted (tx rx : Dev) : WithBot ℝ :=
  (tx.ant.maxGain : WithBot ℝ) + getRxGainDb rx.ant tx.pos rx.pos

/-- C87 fails: the maximum gain of the antenna of the device at the other end of the link counts twice and the sender's not
at all. -/
theorem C87_gain_violated (x y : Dev) (o : ℝ) (h : x.phy ≠ y.phy) (hx : x.ant.mode = 0) (hy : y.ant.mode = 1) :
    (gains x o [y]).2.map (·.2) = [some (getRxGainDb y.ant x.pos y.pos + (y.ant.maxGain : WithBot ℝ))] := by
  have h1 : toBool 1 = true := by unfold toBool; simp
  have h0 : toBool 0 = false := by unfold toBool; simp
  have hz : ∀ (b : Ant) (x : ℝ), pattern b (x - x) = b.maxGain := by
    intro b x
    rw [sub_self, pattern_eq]
    simp only [Real.Angle.coe_zero, Real.Angle.toReal_zero, abs_zero]
    exact patternAt_zero b
  have hz0 : ∀ b : Ant, pattern b 0 = b.maxGain := fun b => by rw [← hz b 0, sub_zero]
  simp [gains, h, hx, hy, chooseOrient, getAntennaGain, h1, h0, getRxGainDb, hz0]
  congr 1

/-- A case: 10 dB at the sender and 20 dB at the receiver, pointing at the sender, give 40 dB, not 30. -/
theorem C87_case_violated (a : Ant) (o : ℝ) :
    let x : Dev := ⟨0, 1, { a with mode := 0, maxGain := 10 }⟩
    let y : Dev := ⟨1, 0, { a with mode := 1, maxGain := 20, rxRad := 0 }⟩
    (gains x o [y]).2.map (·.2) = [some ((40 : ℝ) : WithBot ℝ)] ∧ wanted x y = ((30 : ℝ) : WithBot ℝ) := by
  intro x y
  have hz : getRxGainDb y.ant x.pos y.pos = ((20 : ℝ) : WithBot ℝ) := by
    show pattern y.ant (azimuth 1 0 - 0) = _
    have : azimuth 1 0 = 0 := by unfold azimuth; simp
    rw [this, sub_zero, pattern_eq]
    simp only [Real.Angle.coe_zero, Real.Angle.toReal_zero, abs_zero]
    exact patternAt_zero y.ant
  constructor
  · rw [C87_gain_violated x y o (by simp [x, y]) rfl rfl, hz, ← WithBot.coe_add]
    norm_num [y]
  · unfold wanted
    rw [hz, ← WithBot.coe_add]
    norm_num [x]

/-- What holds for C87: with equal maximum gain and beam width at both ends the gain of a link between a node in transmit mode
and one in receive mode is the one wanted, in both directions. -/
theorem C87_gain_partial (x y : Dev) (o : ℝ) (h : x.phy ≠ y.phy) (hx : x.ant.mode = 0) (hy : y.ant.mode = 1)
    (hg : x.ant.maxGain = y.ant.maxGain) (he : x.ant.exponent = y.ant.exponent) :
    (gains x o [y]).2.map (·.2) = [some (wanted x y)] ∧ (gains y o [x]).2.map (·.2) = [some (wanted x y)] := by
  have h1 : toBool 1 = true := by unfold toBool; simp
  have h0 : toBool 0 = false := by unfold toBool; simp
  have hz : ∀ (b : Ant) (x : ℝ), pattern b (x - x) = b.maxGain := by
    intro b x
    rw [sub_self, pattern_eq]
    simp only [Real.Angle.coe_zero, Real.Angle.toReal_zero, abs_zero]
    exact patternAt_zero b
  constructor
  · rw [C87_gain_violated x y o h hx hy]
    unfold wanted
    rw [hg, add_comm]
  · have hz0 : ∀ b : Ant, pattern b 0 = b.maxGain := fun b => by rw [← hz b 0, sub_zero]
    simp [gains, h.symm, hx, hy, chooseOrient, getAntennaGain, h1, h0, hz0]
    unfold wanted getRxGainDb
    rw [add_comm]
    congr 1
    unfold pattern
    dsimp only
    rw [hg, he]

/-- Such a pair exists. -/
example (a : Ant) (p q : ℂ) : let x : Dev := ⟨0, p, { a with mode := 0 }⟩; let y : Dev := ⟨1, q, { a with mode := 1 }⟩
    x.phy ≠ y.phy ∧ x.ant.maxGain = y.ant.maxGain ∧ x.ant.exponent = y.ant.exponent := by simp

end Thz.Antenna
