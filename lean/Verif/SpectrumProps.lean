import Verif.Spectrum
import Mathlib.Tactic.Linarith
import Mathlib.Tactic.Ring
import Mathlib.Tactic.FieldSimp
import Mathlib.Tactic.Positivity
import Mathlib.Tactic.NormNum

/-!
# Properties of the spectrum and the propagation loss (C59, C60, C61, C88, C89)
-/

namespace Thz.Spectrum

open Real

/-! ## C59: the transmit power -/

/-- The integral of a power spectral density over its bands. -/
noncomputable def integral (psd : List (Band × ℝ)) : ℝ := (psd.map fun b => b.2 * (b.1.fh - b.1.fl)).sum

/-- The power a receiver would see without losses and gains: what `CalcRxPowerDA` makes of the signal. -/
noncomputable def seen (p : Signal) : ℝ := (p.psd.map (·.2)).sum * p.sbw * (p.numsb / p.numsamples)

theorem trunc_nonneg {x : ℝ} (h : 0 ≤ x) : trunc x = ⌊x⌋ := by unfold trunc; rw [if_pos h]

theorem sum_const {α : Type*} (l : List α) (f : α → ℝ) (x : ℝ) (h : ∀ a ∈ l, f a = x) : (l.map f).sum = l.length * x := by
  induction l with
  | nil => simp
  | cons a l ih =>
    rw [List.map_cons, List.sum_cons, ih (fun b hb => h b (List.mem_cons_of_mem _ hb)), h a (List.mem_cons_self ..), List.length_cons]
    push_cast; ring

theorem toNat_cast {n : ℤ} (h : 0 < n) : ((n.toNat : ℕ) : ℝ) = n := by
  have : ((n.toNat : ℕ) : ℤ) = n := Int.toNat_of_nonneg h.le
  exact_mod_cast this

theorem macro_psd (freq : List ℝ) (P : ℝ) (s : Fac) :
    (macroSignal freq P s).psd.map (·.2) = (List.range s.numsample.toNat).map (fun _ => P / s.tbw) := by
  simp [macroSignal, createTxPsd, waveformInitializer, Function.comp_def]

theorem macro_integral (freq : List ℝ) (P : ℝ) (s : Fac) (h : 0 < s.numsample) :
    integral (macroSignal freq P s).psd =
      s.numsample * (P / s.tbw * (s.sbw * (Int.tdiv (trunc (s.tbw / s.sbw)) s.numsample : ℤ))) := by
  unfold integral
  rw [sum_const _ _ (P / s.tbw * (s.sbw * (Int.tdiv (trunc (s.tbw / s.sbw)) s.numsample : ℤ)))]
  · rw [← toNat_cast h]
    simp [macroSignal, createTxPsd, waveformInitializer]
  · intro a ha
    simp only [macroSignal, createTxPsd, waveformInitializer, List.mem_map] at ha
    obtain ⟨j, _, rfl⟩ := ha
    simp only [Band.mk']
    ring

theorem macro_seen (freq : List ℝ) (P : ℝ) (s : Fac) (h : 0 < s.numsample) :
    seen (macroSignal freq P s) = P * (trunc (s.tbw / s.sbw) * s.sbw / s.tbw) := by
  unfold seen
  rw [macro_psd, sum_const _ _ (P / s.tbw) (fun _ _ => rfl), List.length_range, toNat_cast h]
  simp only [macroSignal, createTxPsd, waveformInitializer]
  have : (s.numsample : ℝ) ≠ 0 := by exact_mod_cast h.ne'
  field_simp

theorem default_numsb : trunc (defaults.tbw / defaults.sbw) = 97 := by
  unfold defaults
  rw [trunc_nonneg (by norm_num), Int.floor_eq_iff]
  norm_num

/-- **C59 fails for the macro PHY.**  With the default attributes the sub-bands have width 0, so the integral of the spectrum
is 0 whatever the power, and a receiver sees 97/98 of the power. -/
theorem C59_macro_violated (freq : List ℝ) (P : ℝ) (hP : 0 < P) :
    integral (macroSignal freq P defaults).psd = 0 ∧
    seen (macroSignal freq P defaults) < 0.99 * P := by
  constructor
  · rw [macro_integral _ _ _ (by unfold defaults; norm_num), default_numsb]
    simp [defaults]
  · rw [macro_seen _ _ _ (by unfold defaults; norm_num), default_numsb]
    simp only [defaults]
    push_cast
    rw [mul_comm]
    exact mul_lt_mul_of_pos_right (by norm_num) hP

/-- **C59, what holds for the macro PHY**: a receiver sees at most the power and misses less than the share of one sub-band;
if the number of samples divides the number of sub-bands and these fill the bandwidth, the integral and the power seen are
exact. -/
theorem C59_macro_partial (freq : List ℝ) (P : ℝ) (hP : 0 < P) (s : Fac) (h1 : 0 < s.sbw) (h2 : 0 < s.tbw) (h3 : 0 < s.numsample) :
    seen (macroSignal freq P s) ≤ P ∧ P * (1 - s.sbw / s.tbw) < seen (macroSignal freq P s) ∧
    (∀ k : ℕ, s.tbw = s.numsample * k * s.sbw →
      integral (macroSignal freq P s).psd = P ∧ seen (macroSignal freq P s) = P) := by
  have h0 : 0 ≤ s.tbw / s.sbw := by positivity
  have hle : (⌊s.tbw / s.sbw⌋ : ℝ) * s.sbw ≤ s.tbw := by
    have := Int.floor_le (s.tbw / s.sbw)
    rwa [le_div_iff₀ h1] at this
  have hlt : s.tbw - s.sbw < (⌊s.tbw / s.sbw⌋ : ℝ) * s.sbw := by
    have := Int.lt_floor_add_one (s.tbw / s.sbw)
    rw [div_lt_iff₀ h1] at this
    linarith
  refine ⟨?_, ?_, ?_⟩
  · rw [macro_seen _ _ _ h3, trunc_nonneg h0]
    exact mul_le_of_le_one_right hP.le ((div_le_one h2).2 hle)
  · rw [macro_seen _ _ _ h3, trunc_nonneg h0]
    refine mul_lt_mul_of_pos_left ?_ hP
    rw [lt_div_iff₀ h2, sub_mul, one_mul, div_mul_cancel₀ _ h2.ne']
    exact hlt
  · intro k hk
    have hq : s.tbw / s.sbw = ((s.numsample * k : ℤ) : ℝ) := by
      rw [hk]; push_cast; field_simp
    have ht : trunc (s.tbw / s.sbw) = s.numsample * k := by
      rw [trunc_nonneg h0, hq, Int.floor_intCast]
    constructor
    · rw [macro_integral _ _ _ h3, ht, Int.mul_tdiv_cancel_left _ h3.ne']
      push_cast
      field_simp
      linarith [hk]
    · rw [macro_seen _ _ _ h3, ht]
      push_cast
      rw [← hk, div_self h2.ne', mul_one]

/-- The hypotheses are met: 96 sub-bands in 32 samples. -/
example : let s : Fac := { defaults with sbw := 1, tbw := 96, numsample := 32 }
    0 < s.sbw ∧ 0 < s.tbw ∧ 0 < s.numsample ∧ s.tbw = s.numsample * (3 : ℕ) * s.sbw := by norm_num [defaults]

theorem nano_numsb (freq : List ℝ) (s : Fac) :
    (pulseInitializer (waveformInitializer freq s)).numsb = trunc (3.9e12 / s.sbw) := by
  simp only [pulseInitializer, waveformInitializer]
  norm_num

theorem shape_pos {n r f : ℝ} (h : 0 < f) : 0 < shape n r f := by
  unfold shape
  have : 0 < 2 * π * f := by positivity
  positivity

theorem pulse_sum_pos (freq : List ℝ) (n r : ℝ) (s : Fac) (h1 : 0 < s.sbw) (h2 : 0 < s.numsample) :
    0 < ((pulseInitializer (waveformInitializer freq s)).pulse.map fun b => shape n r b.fc).sum := by
  refine List.sum_pos _ ?_ ?_
  · intro x hx
    simp only [pulseInitializer, waveformInitializer, List.mem_map] at hx
    obtain ⟨b, ⟨j, _, rfl⟩, rfl⟩ := hx
    refine shape_pos ?_
    simp only [Band.mk']
    have hn : (0 : ℝ) < s.numsample := by exact_mod_cast h2
    have ht : (0 : ℝ) ≤ trunc ((4e12 - 1e11) / s.sbw) := by
      rw [trunc_nonneg (by norm_num; positivity)]
      exact_mod_cast Int.floor_nonneg.2 (by norm_num; positivity)
    generalize (trunc ((4e12 - 1e11) / s.sbw) : ℝ) = T at ht
    have : ((1e11 / s.sbw + ((j : ℝ) - 0.5) * T / s.numsample) * s.sbw + (1e11 / s.sbw + (j + 0.5) * T / s.numsample) * s.sbw) / 2
        = (1e11 / s.sbw + j * T / s.numsample) * s.sbw := by field_simp; ring
    rw [this]
    positivity
  · simp only [pulseInitializer, waveformInitializer, ne_eq, List.map_eq_nil_iff, List.range_eq_nil]
    omega

/-- The signal of the nano PHY: its density is a multiple of the pulse shape such that the integral, taken with the width
`w' = sbw * (numsb tdiv numsample)`, is the power. -/
theorem nano_signal (freq : List ℝ) (r P : ℝ) (s : Fac) (h1 : 0 < s.sbw) (h2 : 0 < s.numsample)
    (h3 : 0 < Int.tdiv (trunc (3.9e12 / s.sbw)) s.numsample) :
    ∃ p, nanoSignal freq r P s = some p ∧
      seen p = P * ((trunc (3.9e12 / s.sbw) / s.numsample : ℝ) / (Int.tdiv (trunc (3.9e12 / s.sbw)) s.numsample : ℤ)) ∧
      integral p.psd = seen p ∧ (0 < P → ∀ b ∈ p.psd, 0 < b.2) := by
  have hs := pulse_sum_pos freq 1 r s h1 h2
  have hc := nano_numsb freq s
  have hns : (pulseInitializer (waveformInitializer freq s)).numsample = s.numsample := rfl
  have hsb : (pulseInitializer (waveformInitializer freq s)).sbw = s.sbw := rfl
  have hw : ∀ b ∈ (pulseInitializer (waveformInitializer freq s)).pulse,
      b.fh - b.fl = s.sbw * (trunc (3.9e12 / s.sbw) / s.numsample : ℝ) ∧ 0 < b.fc := by
    intro b hb
    have hb' := hb
    simp only [pulseInitializer, waveformInitializer, List.mem_map] at hb
    obtain ⟨j, _, rfl⟩ := hb
    have hn : (0 : ℝ) < s.numsample := by exact_mod_cast h2
    have ht : (0 : ℝ) ≤ trunc (3.9e12 / s.sbw) := by
      rw [trunc_nonneg (by positivity)]
      exact_mod_cast Int.floor_nonneg.2 (by positivity)
    simp only [Band.mk']
    have h4 : ((4e12 : ℝ) - 1e11) = 3.9e12 := by norm_num
    rw [h4]
    generalize (trunc (3.9e12 / s.sbw) : ℝ) = T at ht
    constructor
    · field_simp; ring
    · have : ((1e11 / s.sbw + ((j : ℝ) - 0.5) * T / s.numsample) * s.sbw + (1e11 / s.sbw + (j + 0.5) * T / s.numsample) * s.sbw) / 2
          = (1e11 / s.sbw + j * T / s.numsample) * s.sbw := by field_simp; ring
      rw [this]
      positivity
  generalize hg : pulseInitializer (waveformInitializer freq s) = g at *
  have hT : (0 : ℝ) < (Int.tdiv (trunc (3.9e12 / s.sbw)) s.numsample : ℤ) := by exact_mod_cast h3
  generalize hS : (g.pulse.map fun b => shape 1 r b.fc).sum = S at hs
  have hI : S * (s.sbw * (Int.tdiv (trunc (3.9e12 / s.sbw)) s.numsample : ℤ)) ≠ 0 := by positivity
  have he : energyConstant 1 r P g = some (P / (S * (s.sbw * (Int.tdiv (trunc (3.9e12 / s.sbw)) s.numsample : ℤ)))) := by
    unfold energyConstant
    rw [hns, hsb, hc, hS, if_neg h2.ne']
    dsimp only
    rw [if_neg hI]
  generalize hA : P / (S * (s.sbw * (Int.tdiv (trunc (3.9e12 / s.sbw)) s.numsample : ℤ))) = A at he
  have hsum : ∀ c : ℝ, (g.pulse.map fun b => A * shape 1 r b.fc * c).sum = A * S * c := by
    intro c
    rw [← hS]
    clear hS hw hg
    induction g.pulse with
    | nil => simp
    | cons b l ih => simp only [List.map_cons, List.sum_cons, ih]; ring
  have hsum1 : (g.pulse.map fun b => A * shape 1 r b.fc).sum = A * S := by
    have := hsum 1
    simpa using this
  refine ⟨_, by unfold nanoSignal createPulsePsd; dsimp only; rw [hg, he]; rfl, ?_, ?_, ?_⟩
  · unfold seen
    simp only [List.map_map, Function.comp_def]
    rw [hsum1, hc, hns, hsb, ← hA]
    field_simp
  · unfold seen integral
    simp only [List.map_map, Function.comp_def]
    rw [hsum1, hc, hns, hsb]
    rw [show (g.pulse.map fun b => A * shape 1 r b.fc * (b.fh - b.fl)) =
      g.pulse.map fun b => A * shape 1 r b.fc * (s.sbw * (trunc (3.9e12 / s.sbw) / s.numsample : ℝ)) from
        List.map_congr_left (fun b hb => by rw [(hw b hb).1]), hsum]
    ring
  · intro hP b hb
    simp only [List.mem_map] at hb
    obtain ⟨a, ha, rfl⟩ := hb
    have : 0 < A := by rw [← hA]; positivity
    have := shape_pos (n := 1) (r := r) (hw a ha).2
    positivity

/-- **C59 fails for the nano PHY.**  With the default attributes the spectrum carries 5111/5100 of the power. -/
theorem C59_nano_violated (freq : List ℝ) (r P : ℝ) :
    ∃ p, nanoSignal freq r P defaults = some p ∧ integral p.psd = P * (5111 / 5100) := by
  have ht : trunc (3.9e12 / defaults.sbw) = 5111 := by
    unfold defaults
    rw [trunc_nonneg (by norm_num), Int.floor_eq_iff]
    norm_num
  have hn : Int.tdiv 5111 defaults.numsample = 51 := by simp [defaults]
  obtain ⟨p, hp, h1, h2, _⟩ := nano_signal freq r P defaults (by unfold defaults; norm_num) (by unfold defaults; norm_num)
    (by rw [ht, hn]; norm_num)
  refine ⟨p, hp, ?_⟩
  rw [h2, h1, ht, hn]
  simp only [defaults]
  norm_num

/-- And with more samples than sub-bands (6000) the constant of the spectrum is a division by zero. -/
theorem C59_samples_violated (freq : List ℝ) (r P : ℝ) : nanoSignal freq r P { defaults with numsample := 6000 } = none := by
  have ht : trunc (3.9e12 / defaults.sbw) = 5111 := by
    unfold defaults
    rw [trunc_nonneg (by norm_num), Int.floor_eq_iff]
    norm_num
  have hc := nano_numsb freq { defaults with numsample := 6000 }
  unfold nanoSignal createPulsePsd energyConstant
  dsimp only
  rw [hc]
  simp only [ht]
  simp [pulseInitializer, waveformInitializer]

/-- **C59, what holds for the nano PHY**: with at most as many samples as sub-bands the spectrum exists, its integral is what
a receiver sees, at least the power and less than twice the power, and exactly the power if the number of samples divides the
number of sub-bands. -/
theorem C59_nano_partial (freq : List ℝ) (r P : ℝ) (hP : 0 < P) (s : Fac) (h1 : 0 < s.sbw) (h2 : 0 < s.numsample)
    (h3 : s.numsample ≤ trunc (3.9e12 / s.sbw)) :
    ∃ p, nanoSignal freq r P s = some p ∧ integral p.psd = seen p ∧ P ≤ seen p ∧ seen p < 2 * P ∧
      (s.numsample ∣ trunc (3.9e12 / s.sbw) → seen p = P) := by
  generalize hT : trunc (3.9e12 / s.sbw) = T at h3
  have hd : Int.tdiv T s.numsample = T / s.numsample := Int.tdiv_eq_ediv_of_nonneg (by omega)
  have hq : 1 ≤ T / s.numsample := by rw [Int.le_ediv_iff_mul_le h2]; omega
  obtain ⟨p, hp, h4, h5, _⟩ := nano_signal freq r P s h1 h2 (by rw [hT, hd]; omega)
  rw [hT, hd] at h4
  have hn : (0 : ℝ) < s.numsample := by exact_mod_cast h2
  have hq' : (1 : ℝ) ≤ (T / s.numsample : ℤ) := by exact_mod_cast hq
  have hm1 : ((T / s.numsample : ℤ) : ℝ) * s.numsample ≤ T := by exact_mod_cast Int.ediv_mul_le T h2.ne'
  have hm2 : (T : ℝ) < ((T / s.numsample : ℤ) : ℝ) * s.numsample + s.numsample := by
    have := Int.lt_ediv_add_one_mul_self T h2
    have h : T < T / s.numsample * s.numsample + s.numsample := by rw [add_mul, one_mul] at this; exact this
    exact_mod_cast h
  refine ⟨p, hp, h5, ?_, ?_, ?_⟩
  · rw [h4]
    refine le_mul_of_one_le_right hP.le ?_
    rw [one_le_div (by linarith), le_div_iff₀ hn]
    exact hm1
  · rw [h4, mul_comm 2 P]
    refine mul_lt_mul_of_pos_left ?_ hP
    rw [div_lt_iff₀ (by linarith), div_lt_iff₀ hn]
    nlinarith
  · rintro ⟨k, hk⟩
    have hkq : T / s.numsample = k := by rw [hk, Int.mul_ediv_cancel_left _ h2.ne']
    rw [h4, hkq]
    have hk0 : (0 : ℝ) < k := by rw [← hkq]; linarith
    have : (T : ℝ) = s.numsample * k := by exact_mod_cast hk
    rw [this]
    field_simp

/-- The hypotheses are met by the default attributes, and exactly so with 19 samples. -/
example : 0 < defaults.sbw ∧ 0 < defaults.numsample ∧ defaults.numsample ≤ trunc (3.9e12 / defaults.sbw) ∧
    (19 : ℤ) ∣ trunc (3.9e12 / defaults.sbw) := by
  have ht : trunc (3.9e12 / defaults.sbw) = 5111 := by
    unfold defaults
    rw [trunc_nonneg (by norm_num), Int.floor_eq_iff]
    norm_num
  rw [ht]
  norm_num [defaults]

/-! ## C61: the cache -/

/-- C61, the coefficient wanted: that of the first tabulated frequency at most 0.9894 GHz away, 0 if there is none. -/
noncomputable def coefficient (t : Table) (f : ℝ) : ℝ :=
  (((t.freq.zip t.coe).find? fun x => decide (|x.1 - f| ≤ 9.894e8)).map (·.2)).getD 0

theorem close_iff (x f : ℝ) : (x < f - 9.894e8 ∨ x > f + 9.894e8) ↔ ¬ |x - f| ≤ 9.894e8 := by
  rw [abs_le, not_and_or, not_le, not_le]
  constructor <;> (rintro (h | h); · left; linarith) <;> (right; linarith)

theorem readCoe_eq {d : ℝ} (hd : d ≠ 0) (f : ℝ) : ∀ (fs cs : List ℝ),
    readCoe d (findFreq f fs) cs = some ((((fs.zip cs).find? fun x => decide (|x.1 - f| ≤ 9.894e8)).map (·.2)).getD 0)
      ∨ (findFreq f fs = fs.length ∧ fs.length < cs.length)
  | [], [] => by left; simp [readCoe, findFreq]
  | [], c :: cs => by right; simp [findFreq]
  | x :: fs, [] => by left; simp [readCoe]
  | x :: fs, c :: cs => by
    unfold findFreq
    by_cases h : |x - f| ≤ 9.894e8
    · left
      rw [if_neg (by rw [close_iff]; exact not_not.2 h)]
      simp [readCoe, h]
    · rw [if_pos ((close_iff x f).2 h)]
      rcases readCoe_eq hd f fs cs with h1 | ⟨h1, h2⟩
      · left
        show (if d = 0 then none else readCoe d (findFreq f fs) cs) = _
        rw [if_neg hd, h1]
        simp [h]
      · right
        simp only [List.length_cons]
        omega

/-- A table: as many coefficients as frequencies. -/
def Table.ok (t : Table) : Prop := t.freq.length = t.coe.length

theorem readCoe_spec {t : Table} (ht : t.ok) {d : ℝ} (hd : d ≠ 0) (f : ℝ) :
    readCoe d (findFreq f t.freq) t.coe = some (coefficient t f) := by
  rcases readCoe_eq hd f t.freq t.coe with h | ⟨_, h⟩
  · exact h
  · unfold Table.ok at ht; omega

theorem readCoe_zero (d : ℝ) : ∀ (j : Nat) (cs : List ℝ), (∃ k, readCoe d j cs = some k ∧ readCoe 1 j cs = some k) ∨ readCoe d j cs = none
  | _, [] => Or.inl ⟨0, by simp [readCoe], by simp [readCoe]⟩
  | 0, k :: _ => Or.inl ⟨k, by simp [readCoe], by simp [readCoe]⟩
  | j + 1, _ :: cs => by
    unfold readCoe
    by_cases h : d = 0
    · right; rw [if_pos h]
    · rw [if_neg h, if_neg one_ne_zero]
      exact readCoe_zero d j cs

/-- The cache contains only right coefficients. -/
def Sound (t : Table) (m : Cache) : Prop := ∀ f k, m f = some k → k = coefficient t f

theorem absLoss_sound {t : Table} (ht : t.ok) (f d : ℝ) {m : Cache} (h : Sound t m) : Sound t (absLoss t f d m).2 := by
  unfold absLoss
  split
  · exact h
  · split
    · exact h
    · rename_i k hk
      intro f' k' h'
      dsimp only at h'
      by_cases he : f' = f
      · subst he
        rw [Function.update_self] at h'
        rcases readCoe_zero d (findFreq f' t.freq) t.coe with ⟨k2, h1, h2⟩ | h1
        · rw [readCoe_spec ht one_ne_zero] at h2
          rw [hk] at h1
          injection h1; injection h2; injection h'
          subst_vars; rfl
        · rw [hk] at h1; cases h1
      · rw [Function.update_of_ne he] at h'
        exact h f' k' h'

theorem rxPsd_sound {t : Table} (ht : t.ok) (d : ℝ) : ∀ (psd : List (Band × ℝ)) {m : Cache}, Sound t m → Sound t (rxPsd t d psd m).2
  | [], _, h => h
  | b :: rest, _, h => rxPsd_sound ht d rest (absLoss_sound ht b.1.fc d h)

theorem cacheAfter_sound {t : Table} (ht : t.ok) (qs : List Query) : Sound t (cacheAfter t qs) := by
  unfold cacheAfter
  have : ∀ (qs : List Query) (m : Cache), Sound t m → Sound t (qs.foldl (ask t) m) := by
    intro qs
    induction qs with
    | nil => exact fun m h => h
    | cons q qs ih =>
      intro m h
      refine ih _ ?_
      cases q with
      | abs f d => exact absLoss_sound ht f d h
      | psd p d => exact rxPsd_sound ht d p.psd h
      | power p d g => exact rxPsd_sound ht d p.psd h
  exact this qs _ (fun f k h => by cases h)

theorem absLoss_val {t : Table} (ht : t.ok) (f : ℝ) {d : ℝ} (hd : d ≠ 0) {m : Cache} (h : Sound t m) :
    (absLoss t f d m).1 = exp (coefficient t f * d) := by
  unfold absLoss
  split
  · rename_i k hk; rw [h f k hk]
  · rw [readCoe_spec ht hd]

/-- **C61 fails at distance 0**: asked first, the loss is 0; asked after the same frequency was asked for another distance it
is 1. -/
theorem C61_zero_violated : ∃ t : Table, t.ok ∧
    (absLoss t 1e12 0 (cacheAfter t [])).1 = 0 ∧ (absLoss t 1e12 0 (cacheAfter t [.abs 1e12 1])).1 = 1 := by
  refine ⟨⟨[0, 1e12], [0, 5]⟩, rfl, ?_, ?_⟩
  · simp only [cacheAfter, List.foldl_nil, absLoss]
    have : findFreq 1e12 [0, 1e12] = 1 := by norm_num [findFreq]
    simp only [this]
    simp [readCoe]
  · have : findFreq 1e12 [0, 1e12] = 1 := by norm_num [findFreq]
    simp [cacheAfter, ask, absLoss, this, readCoe]

/-- **C61, what holds**: for every distance other than 0 the loss is the same after every history of calls. -/
theorem C61_transparent_partial (t : Table) (ht : t.ok) (qs qs' : List Query) (f d : ℝ) (hd : d ≠ 0) :
    (absLoss t f d (cacheAfter t qs)).1 = (absLoss t f d (cacheAfter t qs')).1 := by
  rw [absLoss_val ht f hd (cacheAfter_sound ht qs), absLoss_val ht f hd (cacheAfter_sound ht qs')]

theorem toDb_pos {x : ℝ} (h : 0 < x) : toDb x = ((10 * logb 10 x : ℝ) : WithBot ℝ) := by unfold toDb; rw [if_neg h.ne']

theorem fromDb_coe (x : ℝ) : fromDb (x : WithBot ℝ) = (10 : ℝ) ^ (x / 10) := rfl

theorem fromDb_toDb_add {x y : ℝ} (hx : 0 < x) (hy : 0 < y) : fromDb (toDb x + toDb y) = x * y := by
  rw [toDb_pos hx, toDb_pos hy, ← WithBot.coe_add, fromDb_coe, ← mul_add, mul_div_cancel_left₀ _ (by norm_num),
    rpow_add (by norm_num), rpow_logb (by norm_num) (by norm_num) hx, rpow_logb (by norm_num) (by norm_num) hy]

theorem attenuate_zero (t : Table) (b : Band × ℝ) (m : Cache) : (attenuate t 0 b m).1 = none := by
  unfold attenuate
  have : toDb (spreadLoss b.1.fc 0) = ⊥ := by simp [spreadLoss, toDb]
  dsimp only
  rw [this, WithBot.bot_add]
  show (if (0 : ℝ) = 0 then _ else _) = _
  rw [if_pos rfl]

/-- The received spectrum and power do not depend on the history at any distance: at distance 0 every density is infinite. -/
theorem C61_power (t : Table) (ht : t.ok) (qs qs' : List Query) (p : Signal) (d : ℝ) (g : WithBot ℝ) :
    (rxPsd t d p.psd (cacheAfter t qs)).1 = (rxPsd t d p.psd (cacheAfter t qs')).1 ∧
    (calcRxPowerDA t p d g (cacheAfter t qs)).1 = (calcRxPowerDA t p d g (cacheAfter t qs')).1 := by
  have h : ∀ (psd : List (Band × ℝ)) (m m' : Cache), Sound t m → Sound t m' → (rxPsd t d psd m).1 = (rxPsd t d psd m').1 := by
    intro psd
    induction psd with
    | nil => intro m m' _ _; rfl
    | cons b rest ih =>
      intro m m' h h'
      unfold rxPsd
      dsimp only
      rw [ih (attenuate t d b m).2 (attenuate t d b m').2 (absLoss_sound ht b.1.fc d h) (absLoss_sound ht b.1.fc d h')]
      have : (attenuate t d b m).1 = (attenuate t d b m').1 := by
        by_cases hd : d = 0
        · subst hd
          rw [attenuate_zero, attenuate_zero]
        · unfold attenuate
          dsimp only
          rw [absLoss_val ht _ hd h, absLoss_val ht _ hd h']
      rw [this]
  have h1 := h p.psd _ _ (cacheAfter_sound ht qs) (cacheAfter_sound ht qs')
  refine ⟨h1, ?_⟩
  unfold calcRxPowerDA
  dsimp only
  rw [h1]

/-! ## C60: received power -/

/-- The loss over a distance: free-space spreading times molecular absorption. -/
noncomputable def loss (t : Table) (f d : ℝ) : ℝ := (4 * π * f * d / 299792458) ^ 2 * exp (coefficient t f * d)

/-- C60, the power at a distance in watts: the density attenuated band by band, times the width of a sample and the gain. -/
noncomputable def received (t : Table) (p : Signal) (g d : ℝ) : ℝ :=
  (p.psd.map fun b => b.2 / loss t b.1.fc d).sum * p.sbw * (p.numsb / p.numsamples) * (10 : ℝ) ^ (g / 10)

theorem loss_pos (t : Table) {f d : ℝ} (hf : 0 < f) (hd : 0 < d) : 0 < loss t f d := by unfold loss; positivity

theorem rxPsd_val {t : Table} (ht : t.ok) {d : ℝ} (hd : 0 < d) : ∀ (psd : List (Band × ℝ)) (m : Cache), Sound t m →
    (∀ b ∈ psd, 0 < b.1.fc) → (rxPsd t d psd m).1 = some (psd.map fun b => b.2 / loss t b.1.fc d)
  | [], _, _, _ => rfl
  | b :: rest, m, h, hf => by
    have hfb : 0 < b.1.fc := hf b (List.mem_cons_self ..)
    have hl : (attenuate t d b m).1 = some (b.2 / loss t b.1.fc d) := by
      unfold attenuate
      dsimp only
      rw [absLoss_val ht _ hd.ne' h]
      have hs : spreadLoss b.1.fc d = (4 * π * b.1.fc * d / 299792458) ^ 2 := by
        unfold spreadLoss; rw [if_neg hd.ne', sq]
      rw [hs, fromDb_toDb_add (by positivity) (by positivity)]
      show (if loss t b.1.fc d = 0 then none else some (b.2 / loss t b.1.fc d)) = _
      rw [if_neg (loss_pos t hfb hd).ne']
    unfold rxPsd
    dsimp only
    rw [hl, rxPsd_val ht hd rest (attenuate t d b m).2 (absLoss_sound ht b.1.fc d h)
      (fun b' hb' => hf b' (List.mem_cons_of_mem _ hb'))]
    rfl

/-- A signal that carries power: positive frequencies and parameters, no negative density, one positive. -/
structure Signal.ok (p : Signal) : Prop where
  freq : ∀ b ∈ p.psd, 0 < b.1.fc
  nonneg : ∀ b ∈ p.psd, 0 ≤ b.2
  some : ∃ b ∈ p.psd, 0 < b.2
  sbw : 0 < p.sbw
  numsb : 0 < p.numsb
  numsamples : 0 < p.numsamples

theorem sum_lt {α : Type*} (l : List α) (f g : α → ℝ) (h : ∀ a ∈ l, f a ≤ g a) (h' : ∃ a ∈ l, f a < g a) :
    (l.map f).sum < (l.map g).sum := by
  induction l with
  | nil => obtain ⟨a, ha, _⟩ := h'; cases ha
  | cons a l ih =>
    simp only [List.map_cons, List.sum_cons]
    have hle : ∀ l : List α, (∀ a ∈ l, f a ≤ g a) → (l.map f).sum ≤ (l.map g).sum := by
      intro l
      induction l with
      | nil => intro _; simp
      | cons b l ih =>
        intro h
        simp only [List.map_cons, List.sum_cons]
        exact add_le_add (h b (List.mem_cons_self ..)) (ih (fun c hc => h c (List.mem_cons_of_mem _ hc)))
    obtain ⟨b, hb, hlt⟩ := h'
    rcases List.mem_cons.1 hb with rfl | hb
    · exact add_lt_add_of_lt_of_le hlt (hle l (fun c hc => h c (List.mem_cons_of_mem _ hc)))
    · exact add_lt_add_of_le_of_lt (h a (List.mem_cons_self ..)) (ih (fun c hc => h c (List.mem_cons_of_mem _ hc)) ⟨b, hb, hlt⟩)

theorem received_pos (t : Table) {p : Signal} (hp : p.ok) (g : ℝ) {d : ℝ} (hd : 0 < d) : 0 < received t p g d := by
  have h : 0 < (p.psd.map fun b => b.2 / loss t b.1.fc d).sum := by
    have := sum_lt p.psd (fun _ => 0) (fun b => b.2 / loss t b.1.fc d)
      (fun b hb => div_nonneg (hp.nonneg b hb) (loss_pos t (hp.freq b hb) hd).le)
      (by obtain ⟨b, hb, h⟩ := hp.some; exact ⟨b, hb, div_pos h (loss_pos t (hp.freq b hb) hd)⟩)
    rwa [sum_const p.psd (fun _ => (0 : ℝ)) 0 (fun _ _ => rfl), mul_zero] at this
  have h1 := hp.sbw; have h2 := hp.numsb; have h3 := hp.numsamples
  unfold received
  positivity

/-- **C60, the value.**  After any history, the power reported for a positive distance is, in dBm, the sum over the bands of
the density attenuated by free-space spreading and absorption, times width and gain. -/
theorem C60_value (t : Table) (ht : t.ok) (qs : List Query) (p : Signal) (hp : p.ok) (g d : ℝ) (hd : 0 < d) :
    (calcRxPowerDA t p d (g : ℝ) (cacheAfter t qs)).1 = some ((10 * logb 10 (received t p g d * 1000) : ℝ) : WithBot ℝ) := by
  unfold calcRxPowerDA
  dsimp only
  rw [rxPsd_val ht hd _ _ (cacheAfter_sound ht qs) hp.freq]
  have := received_pos t hp g hd
  show some (toDb (received t p g d * 1000)) = _
  rw [toDb_pos (by positivity)]

/-- **C60.**  If no coefficient of the table is negative, the power reported strictly decreases with the distance, whatever
was asked before. -/
theorem C60_decreasing (t : Table) (ht : t.ok) (hk : ∀ k ∈ t.coe, 0 ≤ k) (qs qs' : List Query) (p : Signal) (hp : p.ok)
    (g d d' : ℝ) (hd : 0 < d) (hdd : d < d') :
    ∃ x x' : ℝ, (calcRxPowerDA t p d (g : ℝ) (cacheAfter t qs)).1 = some (x : WithBot ℝ) ∧
      (calcRxPowerDA t p d' (g : ℝ) (cacheAfter t qs')).1 = some (x' : WithBot ℝ) ∧ x' < x := by
  have hd' : 0 < d' := hd.trans hdd
  refine ⟨_, _, C60_value t ht qs p hp g d hd, C60_value t ht qs' p hp g d' hd', ?_⟩
  have hc : ∀ f, 0 ≤ coefficient t f := by
    intro f
    unfold coefficient
    cases h : (t.freq.zip t.coe).find? fun x => decide (|x.1 - f| ≤ 9.894e8) with
    | none => simp
    | some x =>
      simp only [Option.map_some, Option.getD_some]
      exact hk _ (List.of_mem_zip (a := x.1) (b := x.2) (List.mem_of_find?_eq_some h)).2
  have hl : ∀ f, 0 < f → loss t f d < loss t f d' := by
    intro f hf
    unfold loss
    refine mul_lt_mul ?_ (exp_le_exp.2 (mul_le_mul_of_nonneg_left hdd.le (hc f))) (exp_pos _) (by positivity)
    refine pow_lt_pow_left₀ ?_ (by positivity) (by norm_num)
    refine (div_lt_div_iff_of_pos_right (by norm_num)).2 ?_
    exact mul_lt_mul_of_pos_left hdd (by positivity)
  have hlt : received t p g d' < received t p g d := by
    have h1 := hp.sbw; have h2 := hp.numsb; have h3 := hp.numsamples
    unfold received
    refine mul_lt_mul_of_pos_right (mul_lt_mul_of_pos_right (mul_lt_mul_of_pos_right ?_ h1) (by positivity)) (by positivity)
    refine sum_lt _ _ _ (fun b hb => ?_) ?_
    · exact div_le_div_of_nonneg_left (hp.nonneg b hb) (loss_pos t (hp.freq b hb) hd) (hl _ (hp.freq b hb)).le
    · obtain ⟨b, hb, h⟩ := hp.some
      exact ⟨b, hb, div_lt_div_of_pos_left h (loss_pos t (hp.freq b hb) hd) (hl _ (hp.freq b hb))⟩
  have h0 := received_pos t hp g hd'
  have h0' := received_pos t hp g hd
  have := logb_lt_logb (b := 10) (by norm_num) (by positivity : 0 < received t p g d' * 1000)
    (by linarith : received t p g d' * 1000 < received t p g d * 1000)
  linarith

/-- The signal of the nano PHY with the default attributes is such a signal, for every power and pulse duration. -/
theorem nano_ok (freq : List ℝ) (r P : ℝ) (hP : 0 < P) : ∃ p, nanoSignal freq r P defaults = some p ∧ p.ok := by
  have ht : trunc (3.9e12 / defaults.sbw) = 5111 := by
    unfold defaults
    rw [trunc_nonneg (by norm_num), Int.floor_eq_iff]
    norm_num
  have hn : Int.tdiv 5111 defaults.numsample = 51 := by simp [defaults]
  obtain ⟨p, hp, h1, h2, h3⟩ := nano_signal freq r P defaults (by unfold defaults; norm_num) (by unfold defaults; norm_num)
    (by rw [ht, hn]; norm_num)
  have hh := hp
  unfold nanoSignal at hh
  dsimp only at hh
  rw [Option.map_eq_some_iff] at hh
  obtain ⟨psd, hpsd, rfl⟩ := hh
  unfold createPulsePsd at hpsd
  rw [Option.map_eq_some_iff] at hpsd
  obtain ⟨a, _, rfl⟩ := hpsd
  refine ⟨_, hp, ?_, fun b hb => (h3 hP b hb).le, ?_, ?_, ?_, ?_⟩
  · intro b hb
    simp only [pulseInitializer, waveformInitializer, List.mem_map] at hb
    obtain ⟨b, ⟨j, _, rfl⟩, rfl⟩ := hb
    have h4 : ((4e12 : ℝ) - 1e11) = 3.9e12 := by norm_num
    simp only [Band.mk', h4, ht]
    simp only [defaults]
    have : (0 : ℝ) ≤ j := by positivity
    push_cast
    ring_nf
    positivity
  · refine ⟨_, List.mem_map.2 ⟨_, List.mem_map.2 ⟨0, List.mem_range.2 ?_, rfl⟩, rfl⟩, h3 hP _ (List.mem_map.2 ⟨_, List.mem_map.2 ⟨0, List.mem_range.2 ?_, rfl⟩, rfl⟩)⟩
    · simp [waveformInitializer, defaults]
    · simp [waveformInitializer, defaults]
  · simp only [pulseInitializer, waveformInitializer, defaults]; norm_num
  · simp only [nano_numsb, ht]; norm_num
  · simp only [pulseInitializer, waveformInitializer, defaults]; norm_num

/-- And so is that of the macro PHY (here with one tabulated frequency). -/
example : (macroSignal [1e12] 1 defaults).ok := by
  have hb : ∀ b ∈ (macroSignal [1e12] 1 defaults).psd, b.1.fc = 1e12 - 0.5 * 7.6294e8 ∧ b.2 = 1 / 7.4768e10 := by
    intro b hb
    have h : trunc ((waveformInitializer [1e12] defaults).tbw / (waveformInitializer [1e12] defaults).sbw) = 97 := default_numsb
    have hn : (waveformInitializer [1e12] defaults).numsample = 100 := rfl
    simp only [macroSignal, createTxPsd, List.mem_map] at hb
    obtain ⟨j, _, rfl⟩ := hb
    rw [h, hn]
    have hs : ∀ fs, scan fs 0 [1e12] = 1e12 := by
      intro fs
      unfold scan
      by_cases h : (1e12 : ℝ) < fs
      · rw [if_pos h]; rfl
      · rw [if_neg h]
    simp [Band.mk', waveformInitializer, hs, defaults]
  refine ⟨fun b h => ?_, fun b h => ?_, ?_, ?_, ?_, ?_⟩
  · rw [(hb b h).1]; norm_num
  · rw [(hb b h).2]; norm_num
  · have hm : ∃ b, b ∈ (macroSignal [1e12] 1 defaults).psd :=
      ⟨_, List.mem_map.2 ⟨0, List.mem_range.2 (by simp [waveformInitializer, defaults]), rfl⟩⟩
    obtain ⟨b, h⟩ := hm
    exact ⟨b, h, by rw [(hb b h).2]; norm_num⟩
  · simp only [macroSignal, createTxPsd, waveformInitializer, defaults]; norm_num
  · have h := default_numsb
    show (0 : ℝ) < ((trunc (defaults.tbw / defaults.sbw) : ℤ) : ℝ)
    rw [h]; norm_num
  · simp only [macroSignal, createTxPsd, waveformInitializer, defaults]; norm_num

/-! ## C88: which coefficient -/

/-- C88: the coefficient of the nearest tabulated frequency. -/
def Nearest (t : Table) (f k : ℝ) : Prop := ∃ x, (x, k) ∈ t.freq.zip t.coe ∧ ∀ y ∈ t.freq, |x - f| ≤ |y - f|

/-- **C88 fails**: with the beginning of the module's frequency table, asked for exactly the third tabulated frequency, the
loss is computed with the coefficient `b` of the second. -/
theorem C88_nearest_violated (a b c d : ℝ) (qs : List Query) (hd : d ≠ 0) (hbc : b ≠ c) :
    let t : Table := ⟨[0, 7.6294e8, 1.5259e9], [a, b, c]⟩
    (absLoss t 1.5259e9 d (cacheAfter t qs)).1 = exp (b * d) ∧ Nearest t 1.5259e9 c ∧ ¬ Nearest t 1.5259e9 b := by
  intro t
  refine ⟨?_, ⟨1.5259e9, by simp [t], fun y _ => by norm_num⟩, ?_⟩
  · rw [absLoss_val (t := t) rfl _ hd (cacheAfter_sound (t := t) rfl qs)]
    congr 2
    have h1 : ¬ |(0 : ℝ) - 1.5259e9| ≤ 9.894e8 := by rw [abs_of_neg (by norm_num)]; norm_num
    have h2 : |(7.6294e8 : ℝ) - 1.5259e9| ≤ 9.894e8 := by rw [abs_of_neg (by norm_num)]; norm_num
    unfold coefficient
    simp only [t, List.zip_cons_cons, List.find?_cons, h1, h2, decide_true, decide_false]
    simp
  · rintro ⟨x, hx, h⟩
    have h3 := h 1.5259e9 (by simp [t])
    rw [sub_self, abs_zero] at h3
    have h4 : x = 1.5259e9 := by
      have := abs_nonpos_iff.1 h3
      linarith
    simp only [t, List.zip_cons_cons, List.zip_nil_right, List.mem_cons, Prod.mk.injEq, List.not_mem_nil, or_false] at hx
    rw [h4] at hx
    rcases hx with ⟨h, _⟩ | ⟨h, _⟩ | ⟨_, h⟩
    · norm_num at h
    · norm_num at h
    · exact hbc h

/-- **C88, what holds**: for a positive distance the loss is `exp (k d)` with the coefficient `k` of a tabulated frequency at
most 0.9894 GHz away, or 0 if there is none. -/
theorem C88_close_partial (t : Table) (ht : t.ok) (qs : List Query) (f d : ℝ) (hd : d ≠ 0) :
    ∃ k, (absLoss t f d (cacheAfter t qs)).1 = exp (k * d) ∧
      ((∃ x, (x, k) ∈ t.freq.zip t.coe ∧ |x - f| ≤ 9.894e8) ∨ (k = 0 ∧ ∀ x ∈ t.freq, ¬ |x - f| ≤ 9.894e8)) := by
  refine ⟨coefficient t f, absLoss_val ht f hd (cacheAfter_sound ht qs), ?_⟩
  unfold coefficient
  cases h : (t.freq.zip t.coe).find? fun x => decide (|x.1 - f| ≤ 9.894e8) with
  | none =>
    right
    refine ⟨rfl, fun x hx => ?_⟩
    obtain ⟨i, hi, rfl⟩ := List.getElem_of_mem hx
    have hi' : i < t.coe.length := by unfold Table.ok at ht; omega
    have hm : (t.freq[i], t.coe[i]) ∈ t.freq.zip t.coe := by
      refine List.mem_iff_getElem.2 ⟨i, by rw [List.length_zip]; omega, by rw [List.getElem_zip]⟩
    have := List.find?_eq_none.1 h _ hm
    simpa using this
  | some x =>
    left
    have := List.find?_some h
    exact ⟨x.1, List.mem_of_find?_eq_some h, by simpa using this⟩

/-- With a table that is sparser than the window the nearest frequency is found: then C88 holds. -/
theorem C88_sparse_partial (t : Table) (ht : t.ok) (qs : List Query) (f d : ℝ) (hd : d ≠ 0)
    (hs : t.freq.Pairwise fun x y => 2 * 9.894e8 < |x - y|) (hf : ∃ x ∈ t.freq, |x - f| ≤ 9.894e8) :
    ∃ k, (absLoss t f d (cacheAfter t qs)).1 = exp (k * d) ∧ Nearest t f k := by
  obtain ⟨k, h1, h2⟩ := C88_close_partial t ht qs f d hd
  refine ⟨k, h1, ?_⟩
  rcases h2 with ⟨x, hx, hxf⟩ | ⟨_, h⟩
  · refine ⟨x, hx, fun y hy => ?_⟩
    have hxm := (List.of_mem_zip hx).1
    by_cases hxy : x = y
    · rw [hxy]
    · have hsep : 2 * 9.894e8 < |x - y| := by
        have hsym : ∀ a b : ℝ, 2 * 9.894e8 < |a - b| → 2 * 9.894e8 < |b - a| := fun a b h => by rwa [abs_sub_comm]
        have : Std.Symm (fun x y : ℝ => 2 * 9.894e8 < |x - y|) := ⟨hsym⟩
        exact List.Pairwise.forall hs hxm hy hxy
      have := abs_sub_abs_le_abs_sub (x - y) (x - f)
      have h3 : |x - y - (x - f)| = |y - f| := by rw [show x - y - (x - f) = -(y - f) by ring, abs_neg]
      rw [h3] at this
      linarith
  · obtain ⟨x, hx, hxf⟩ := hf
    exact absurd hxf (h x hx)

/-- A table and a frequency that meet the hypotheses. -/
example : let t : Table := ⟨[1e12, 2e12], [3, 4]⟩
    t.ok ∧ t.freq.Pairwise (fun x y => 2 * 9.894e8 < |x - y|) ∧ ∃ x ∈ t.freq, |x - 1.0001e12| ≤ 9.894e8 := by
  refine ⟨rfl, ?_, 1e12, by simp, ?_⟩
  · simp only [List.pairwise_cons, List.mem_cons, List.not_mem_nil, or_false, forall_eq, List.Pairwise.nil, and_true]
    refine ⟨?_, by simp⟩
    rw [abs_of_neg (by norm_num)]; norm_num
  · rw [abs_of_neg (by norm_num)]; norm_num

/-! ## C89: the bands -/

/-- C89: the bands adjoin each other and span this interval. -/
def Tiles : List Band → ℝ → ℝ → Prop
  | [], a, b => a = b
  | x :: rest, a, b => x.fl = a ∧ x.fl < x.fh ∧ x.fc = (x.fl + x.fh) / 2 ∧ Tiles rest x.fh b

theorem tiles_range (f w : ℝ) (hw : 0 < w) : ∀ (n : Nat) (a : ℝ) (_ : a = f),
    Tiles ((List.range n).map fun (j : ℕ) => Band.mk' (f + j * w) (f + (j + 1) * w)) a (f + n * w) := by
  have key : ∀ (n k : Nat), Tiles ((List.range' k n).map fun (j : ℕ) => Band.mk' (f + j * w) (f + (j + 1) * w)) (f + k * w) (f + (k + n : ℕ) * w) := by
    intro n
    induction n with
    | zero => intro k; simp [Tiles]
    | succ n ih =>
      intro k
      rw [List.range'_succ, List.map_cons]
      refine ⟨rfl, ?_, rfl, ?_⟩
      · simp only [Band.mk']; linarith
      · have := ih (k + 1)
        simp only [Band.mk']
        rw [show ((k : ℝ) + 1) = ((k + 1 : ℕ) : ℝ) by push_cast; ring, show k + (n + 1) = k + 1 + n by ring]
        exact this
  intro n a ha
  have := key n 0
  rw [List.range_eq_range', ha]
  simpa using this

/-- **C89 fails**: with the default attributes all 100 bands of the macro PHY's spectrum are empty and at the same
frequency. -/
theorem C89_default_violated (freq : List ℝ) (P : ℝ) : ∃ f, ∀ b ∈ (macroSignal freq P defaults).psd, b.1.fl = f ∧ b.1.fh = f := by
  have := default_numsb
  refine ⟨scan (waveformInitializer freq defaults).fstart 0 freq - 0.5 * defaults.sbw, ?_⟩
  intro b hb
  simp only [macroSignal, createTxPsd, List.mem_map] at hb
  obtain ⟨j, _, rfl⟩ := hb
  have h : (trunc ((waveformInitializer freq defaults).tbw / (waveformInitializer freq defaults).sbw)) = 97 := this
  have hn : (waveformInitializer freq defaults).numsample = 100 := rfl
  rw [h, hn]
  simp [Band.mk', waveformInitializer]

/-- **C89, what holds**: if the number of samples divides the number of sub-bands and these fill the bandwidth, the bands
adjoin each other and span exactly the total bandwidth, beginning half a sub-band below the first tabulated frequency not
below the start of the band. -/
theorem C89_tiles_partial (freq : List ℝ) (P : ℝ) (s : Fac) (h1 : 0 < s.sbw) (h3 : 0 < s.numsample) (k : ℕ) (hk : 0 < k)
    (ht : s.tbw = s.numsample * k * s.sbw) :
    let a := scan (s.fc - (Int.tdiv (s.numsample * k) 2 : ℤ) * s.sbw) 0 freq - 0.5 * s.sbw
    Tiles ((macroSignal freq P s).psd.map (·.1)) a (a + s.tbw) := by
  intro a
  have hn : (0 : ℝ) < s.numsample := by exact_mod_cast h3
  have hq : s.tbw / s.sbw = ((s.numsample * k : ℤ) : ℝ) := by
    rw [ht]; push_cast; field_simp
  have htr : trunc (s.tbw / s.sbw) = s.numsample * k := by
    rw [trunc_nonneg (by rw [ht]; positivity), hq, Int.floor_intCast]
  have hl : (macroSignal freq P s).psd.map (·.1) = (List.range s.numsample.toNat).map fun (j : ℕ) =>
      Band.mk' (a + j * (s.sbw * k)) (a + (j + 1) * (s.sbw * k)) := by
    simp only [macroSignal, createTxPsd, waveformInitializer, List.map_map, Function.comp_def, htr]
    rw [Int.mul_tdiv_cancel_left _ h3.ne']
    simp [a]
  rw [hl]
  have := tiles_range a (s.sbw * k) (by positivity) s.numsample.toNat a rfl
  rw [toNat_cast h3] at this
  rw [ht]
  rw [show (s.numsample : ℝ) * (s.sbw * k) = s.numsample * k * s.sbw by ring] at this
  exact this

/-- Such attributes exist. -/
example : let s : Fac := { defaults with sbw := 1, tbw := 96, numsample := 32 }
    0 < s.sbw ∧ 0 < s.numsample ∧ s.tbw = s.numsample * (3 : ℕ) * s.sbw := by norm_num [defaults]

theorem scan_spec (fs : ℝ) : ∀ (freq : List ℝ) (x : ℝ), (∃ f ∈ freq, fs ≤ f) → freq.Pairwise (· ≤ ·) →
    fs ≤ scan fs x freq ∧ scan fs x freq ∈ freq ∧ ∀ f ∈ freq, fs ≤ f → scan fs x freq ≤ f
  | [], _, h, _ => by obtain ⟨f, hf, _⟩ := h; cases hf
  | y :: rest, x, h, hp => by
    unfold scan
    obtain ⟨hy, hp⟩ := List.pairwise_cons.1 hp
    split
    · rename_i hlt
      obtain ⟨f, hf, hff⟩ := h
      rcases List.mem_cons.1 hf with rfl | hf
      · exact absurd hff (not_le.2 hlt)
      · obtain ⟨h1, h2, h3⟩ := scan_spec fs rest y ⟨f, hf, hff⟩ hp
        refine ⟨h1, List.mem_cons_of_mem _ h2, fun g hg hgg => ?_⟩
        rcases List.mem_cons.1 hg with rfl | hg
        · exact absurd hgg (not_le.2 hlt)
        · exact h3 g hg hgg
    · rename_i hge
      refine ⟨not_lt.1 hge, List.mem_cons_self .., fun g hg _ => ?_⟩
      rcases List.mem_cons.1 hg with rfl | hg
      · exact le_refl _
      · exact hy g hg

end Thz.Spectrum
