import Verif.SpectrumProps

/-!
# The rest of the spectrum: the mask, the positions in the frequency table, the whole spectrum

`CreateTxPowerSpectralDensityMask`, `FreqSeqStart`, `FreqSeqEnd`, `FreqStartValue`, `FreqBands`, `CreateConstant`,
`AllTHzSpectrumWaveformInitializer`, `CreateAllPowerSpectralDensity` (model/thz-spectrum-waveform.cc) and `LoadedAbsCoe`
(model/thz-spectrum-propagation-loss.cc).  `ns3::SpectrumValue` keeps one number per band, at first 0, and its `operator[]`
throws for an index that is not there: `none`.  The result files are not modelled.
-/

namespace Thz.Spectrum

open Real

/-- `(*value)[i] = v` of `ns3::SpectrumValue`. -/
noncomputable def put (v : ℝ) (i : ℤ) (vals : List ℝ) : Option (List ℝ) :=
  if 0 ≤ i ∧ i < vals.length then some (vals.set i.toNat v) else none

/-- The loop `for (int g1 = lo; g1 < lo + n; g1++) (*txPsd)[g1] = v`
(model/thz-spectrum-waveform.cc:375-378 and the eleven like it). -/
noncomputable def putRange (v : ℝ) : ℕ → ℤ → List ℝ → Option (List ℝ)
  | 0, _, vals => some vals
  | n + 1, lo, vals => (put v lo vals).bind (putRange v n (lo + 1))

/-- The groups of the mask in the order of the loops, with the factor of each (model/thz-spectrum-waveform.cc:374-432). -/
noncomputable def groups : List (ℤ × ℝ) :=
  [(7, 1e-4), (8, 1e-4), (9, 0.0015849), (10, 0.0015849), (11, 1), (12, 1), (13, 1), (14, 1), (15, 0.0015849),
   (16, 0.0015849), (17, 1e-4), (18, 1e-4)]

/-- One after the other the loops of the groups; `w` is `m_numsb / 24`. -/
noncomputable def putGroups (w : ℤ) (dens sbw : ℝ) : List (ℤ × ℝ) → List ℝ → Option (List ℝ)
  | [], vals => some vals
  | (g, a) :: rest, vals =>
    (putRange (dens * a / sbw) (w * (g + 1) - w * g).toNat (w * g) vals).bind (putGroups w dens sbw rest)

/-- `CreateTxPowerSpectralDensityMask` (model/thz-spectrum-waveform.cc:369-452): the numbers per band of
`m_THzSpectrumWaveform`.  `m_numsb / 24` is a division of `int`s. -/
noncomputable def createMask (txPower : ℝ) (s : Fac) : Option (List ℝ) :=
  putGroups (Int.tdiv s.numsb 24) (txPower / 16.0269584) s.sbw groups (List.replicate s.bands.length 0)

/-- `CreateConstant` (model/thz-spectrum-waveform.cc:310-316). -/
noncomputable def createConstant (v : ℝ) (s : Fac) : List ℝ := List.replicate s.bands.length v

/-- `FreqSeqStart` (model/thz-spectrum-waveform.cc:192-217), the loop from a count `i`. -/
noncomputable def seqStartFrom (fs : ℝ) : ℕ → List ℝ → ℕ
  | i, [] => i
  | i, f :: rest => if f < fs then seqStartFrom fs (i + 1) rest else i

/-- `FreqSeqStart` (model/thz-spectrum-waveform.cc:192-217). -/
noncomputable def freqSeqStart (freq : List ℝ) (s : Fac) : ℕ := seqStartFrom s.fstart 1 freq

/-- `FreqStartValue` (model/thz-spectrum-waveform.cc:219-239).  The variable is not initialised: 0 stands for what an empty file
leaves in it. -/
noncomputable def freqStartValue (freq : List ℝ) (s : Fac) : ℝ := scan s.fstart 0 freq

/-- The loop of `FreqBands` and the second one of `FreqSeqEnd` (model/thz-spectrum-waveform.cc:254-266, 293-305): the numbers
stored and the counter `i`. -/
noncomputable def storeFrom (fs : ℝ) (numsb : ℤ) : ℕ → List ℝ → List ℝ → Option (List ℝ × ℕ)
  | i, store, [] => some (store, i)
  | i, store, f :: rest =>
    (put f i store).bind fun store =>
      if fs ≤ f then if ((i + 1 : ℕ) : ℤ) = numsb then some (store, i + 1) else storeFrom fs numsb (i + 1) store rest
      else storeFrom fs numsb i store rest

/-- `FreqBands` (model/thz-spectrum-waveform.cc:241-268). -/
noncomputable def freqBands (freq : List ℝ) (s : Fac) : Option (List ℝ) :=
  (storeFrom s.fstart s.numsb 0 (List.replicate s.bands.length 0) freq).map (·.1)

/-- The first loop of `FreqSeqEnd` (model/thz-spectrum-waveform.cc:282-292): the counter `j` and what is left of the file.  The
frequency that ends the loop has been read. -/
noncomputable def skip (fs : ℝ) : ℕ → List ℝ → ℕ × List ℝ
  | j, [] => (j, [])
  | j, f :: rest => if f < fs then skip fs (j + 1) rest else (j, rest)

/-- `FreqSeqEnd` (model/thz-spectrum-waveform.cc:270-308). -/
noncomputable def freqSeqEnd (freq : List ℝ) (s : Fac) : Option ℕ :=
  let (j, rest) := skip s.fstart 0 freq
  (storeFrom s.fstart s.numsb 0 (List.replicate s.bands.length 0) rest).map fun r => r.2 + j

/-- `LoadedAbsCoe` (model/thz-spectrum-propagation-loss.cc:203-238), the loop from a count `i`; the store is at first a copy of
the spectrum passed in. -/
noncomputable def loadFrom (s j : ℤ) : ℤ → List ℝ → List ℝ → Option (List ℝ)
  | _, store, [] => some store
  | i, store, k :: rest =>
    if i < s then loadFrom s j (i + 1) store rest
    else if i > j then some store
    else (put k (i - s) store).bind fun store => loadFrom s j (i + 1) store rest

/-- `LoadedAbsCoe` (model/thz-spectrum-propagation-loss.cc:203-238); its arguments `f` and `d` are not used. -/
noncomputable def loadedAbsCoe (coe : List ℝ) (s j : ℤ) (txPsd : List ℝ) : Option (List ℝ) := loadFrom s j 1 txPsd coe

/-- `AllTHzSpectrumWaveformInitializer` (model/thz-spectrum-waveform.cc:129-158): its bands. -/
noncomputable def allBands (freq : List ℝ) (s : Fac) : List Band :=
  (List.range (freq.length + 1)).map fun (j : ℕ) =>
    Band.mk' (8.99378e10 + (j - 0.5) * s.sbw) (8.99378e10 + (j + 0.5) * s.sbw)

/-- `CreateAllPowerSpectralDensity` (model/thz-spectrum-waveform.cc:454-480) on the bands `bands`, made for the same file, from
a count `i`. -/
noncomputable def allFrom (n r a0 : ℝ) : ℕ → List ℝ → List ℝ → Option (List ℝ)
  | _, vals, [] => some vals
  | i, vals, f :: rest =>
    (put ((2 * π * (f / 1e12)) ^ (2 * n) * a0 ^ (2 : ℕ) * exp (-(2 * π * (f / 1e12)) ^ (2 : ℕ) * r)) i vals).bind fun vals =>
      allFrom n r a0 (i + 1) vals rest

/-- `CreateAllPowerSpectralDensity` (model/thz-spectrum-waveform.cc:454-480). -/
noncomputable def createAll (freq : List ℝ) (n r a0 : ℝ) (s : Fac) : Option (List (Band × ℝ)) :=
  (allFrom n r a0 0 (List.replicate (allBands freq s).length 0) freq).map fun v => (allBands freq s).zip v

/-! ## The mask (C113, C114) -/

/-- What the mask should be at band number `k`, by the comments in the code (0, -40, -28, 0, -28, -40 dB): groups of `w`
bands, the groups counted from 0. -/
noncomputable def level (w k : ℕ) : ℝ :=
  if k < 7 * w then 0 else if k < 9 * w then 1e-4 else if k < 11 * w then 0.0015849 else if k < 15 * w then 1
  else if k < 17 * w then 0.0015849 else if k < 19 * w then 1e-4 else 0

theorem putRange_spec (v : ℝ) : ∀ (n : ℕ) (lo : ℕ) (vals : List ℝ), lo + n ≤ vals.length →
    ∃ vals', putRange v n lo vals = some vals' ∧ vals'.length = vals.length ∧
      ∀ k, vals'[k]? = if lo ≤ k ∧ k < lo + n then some v else vals[k]?
  | 0, lo, vals, _ => ⟨vals, rfl, rfl, fun k => by rw [if_neg (by omega)]⟩
  | n + 1, lo, vals, h => by
    have hp : put v (lo : ℤ) vals = some (vals.set lo v) := by
      unfold put; rw [if_pos (by omega), Int.toNat_natCast]
    obtain ⟨vals', h1, h2, h3⟩ := putRange_spec v n (lo + 1) (vals.set lo v) (by simp; omega)
    refine ⟨vals', ?_, by simpa using h2, fun k => ?_⟩
    · show (put v (lo : ℤ) vals).bind _ = _
      rw [hp]; exact_mod_cast h1
    · rw [h3 k, List.getElem?_set]
      by_cases e : lo = k
      · subst e; rw [if_neg (by omega), if_pos rfl, if_pos (by omega), if_pos (by omega)]
      · rw [if_neg e]
        by_cases e' : lo + 1 ≤ k ∧ k < lo + 1 + n
        · rw [if_pos e', if_pos (by omega)]
        · rw [if_neg e', if_neg (by omega)]

theorem putGroups_spec (w : ℕ) (dens sbw : ℝ) : ∀ (gs : List (ℕ × ℝ)) (vals : List ℝ),
    (∀ g ∈ gs, w * (g.1 + 1) ≤ vals.length) →
    ∃ vals', putGroups w dens sbw (gs.map fun g => ((g.1 : ℤ), g.2)) vals = some vals' ∧ vals'.length = vals.length ∧
      ∀ k, vals'[k]? = gs.foldl (fun x g => if w * g.1 ≤ k ∧ k < w * (g.1 + 1) then some (dens * g.2 / sbw) else x) vals[k]?
  | [], vals, _ => ⟨vals, rfl, rfl, fun _ => rfl⟩
  | (g, a) :: rest, vals, h => by
    have hw : ((w : ℤ) * ((g : ℤ) + 1) - (w : ℤ) * g).toNat = w := by
      rw [show (w : ℤ) * ((g : ℤ) + 1) - (w : ℤ) * g = (w : ℤ) by ring]; exact Int.toNat_natCast w
    obtain ⟨v1, h1, h2, h3⟩ := putRange_spec (dens * a / sbw) w (w * g) vals (by
      have := h (g, a) (by simp); simp only at this; rw [Nat.mul_add] at this; omega)
    obtain ⟨v2, h4, h5, h6⟩ := putGroups_spec w dens sbw rest v1 (fun x hx => by rw [h2]; exact h x (by simp [hx]))
    refine ⟨v2, ?_, by rw [h5, h2], fun k => ?_⟩
    · show (putRange _ (_ : ℤ).toNat _ _).bind _ = _
      rw [hw]; push_cast at h1; rw [h1]; exact h4
    · rw [h6 k, h3 k, List.foldl_cons, Nat.mul_add, Nat.mul_one]

/-- The numbers of the mask, band by band. -/
theorem mask_values (P : ℝ) (s : Fac) (w : ℕ) (hw : Int.tdiv s.numsb 24 = w) (hb : 19 * w ≤ s.bands.length) :
    ∃ v, createMask P s = some v ∧ v.length = s.bands.length ∧
      ∀ k, k < s.bands.length → v[k]? = some (P / 16.0269584 * level w k / s.sbw) := by
  obtain ⟨v, h1, h2, h3⟩ := putGroups_spec w (P / 16.0269584) s.sbw
    [(7, 1e-4), (8, 1e-4), (9, 0.0015849), (10, 0.0015849), (11, 1), (12, 1), (13, 1), (14, 1), (15, 0.0015849),
      (16, 0.0015849), (17, 1e-4), (18, 1e-4)] (List.replicate s.bands.length 0) (by
        intro g hg
        have : g.1 + 1 ≤ 19 := by
          simp only [List.mem_cons, List.not_mem_nil, or_false] at hg
          rcases hg with rfl | rfl | rfl | rfl | rfl | rfl | rfl | rfl | rfl | rfl | rfl | rfl <;> norm_num
        rw [List.length_replicate]
        calc w * (g.1 + 1) ≤ w * 19 := Nat.mul_le_mul_left w this
          _ ≤ _ := by omega)
  refine ⟨v, ?_, by rw [h2, List.length_replicate], fun k hk => ?_⟩
  · unfold createMask groups; rw [hw]; simpa using h1
  · rw [h3 k]
    have h0 : (List.replicate s.bands.length (0 : ℝ))[k]? = some 0 := by
      rw [List.getElem?_replicate]; rw [if_pos hk]
    rw [h0]
    simp only [List.foldl_cons, List.foldl_nil]
    unfold level
    by_cases c1 : k < 7 * w
    · repeat rw [if_neg (by omega)]
      rw [if_pos c1]; simp
    · rw [if_neg c1]
      by_cases c2 : k < 9 * w
      · rw [if_pos c2]
        repeat rw [if_neg (c := w * _ ≤ k ∧ _) (by omega)]
        by_cases c : k < 8 * w
        · rw [if_neg (by omega), if_pos (by omega)]
        · rw [if_pos (by omega)]
      · rw [if_neg c2]
        by_cases c3 : k < 11 * w
        · rw [if_pos c3]
          repeat rw [if_neg (c := w * _ ≤ k ∧ _) (by omega)]
          by_cases c : k < 10 * w
          · rw [if_neg (by omega), if_pos (by omega)]
          · rw [if_pos (by omega)]
        · rw [if_neg c3]
          by_cases c4 : k < 15 * w
          · rw [if_pos c4]
            repeat rw [if_neg (c := w * _ ≤ k ∧ _) (by omega)]
            by_cases c : k < 12 * w
            · rw [if_neg (by omega), if_neg (by omega), if_neg (by omega), if_pos (by omega)]
            · by_cases c' : k < 13 * w
              · rw [if_neg (by omega), if_neg (by omega), if_pos (by omega)]
              · by_cases c'' : k < 14 * w
                · rw [if_neg (by omega), if_pos (by omega)]
                · rw [if_pos (by omega)]
          · rw [if_neg c4]
            by_cases c5 : k < 17 * w
            · rw [if_pos c5]
              repeat rw [if_neg (c := w * _ ≤ k ∧ _) (by omega)]
              by_cases c : k < 16 * w
              · rw [if_neg (by omega), if_pos (by omega)]
              · rw [if_pos (by omega)]
            · rw [if_neg c5]
              by_cases c6 : k < 19 * w
              · rw [if_pos c6]
                by_cases c : k < 18 * w
                · rw [if_neg (by omega), if_pos (by omega)]
                · rw [if_pos (by omega)]
              · rw [if_neg c6]
                repeat rw [if_neg (by omega)]
                simp

theorem sum_range (f : ℕ → ℝ) : ∀ N, ((List.range N).map f).sum = ∑ k ∈ Finset.range N, f k
  | 0 => rfl
  | N + 1 => by rw [List.range_succ, List.map_append, List.sum_append, sum_range f N, Finset.sum_range_succ]; simp

/-- 1 below `m`, 0 from there on. -/
noncomputable def below (m k : ℕ) : ℝ := if k < m then 1 else 0

theorem sum_below (m : ℕ) : ∀ N, m ≤ N → ∑ k ∈ Finset.range N, below m k = m := by
  have : ∀ N, ∑ k ∈ Finset.range N, below m k = (min m N : ℕ) := by
    intro N
    induction N with
    | zero => simp
    | succ N ih =>
      rw [Finset.sum_range_succ, ih]
      unfold below
      by_cases h : N < m
      · rw [if_pos h, min_eq_right (by omega), min_eq_right (by omega)]; push_cast; ring
      · rw [if_neg h, min_eq_left (by omega), min_eq_left (by omega)]; ring
  intro N h
  rw [this, min_eq_left h]

theorem level_below (w k : ℕ) : level w k =
    -1e-4 * below (7 * w) k + (1e-4 - 0.0015849) * below (9 * w) k + (0.0015849 - 1) * below (11 * w) k
      + (1 - 0.0015849) * below (15 * w) k + (0.0015849 - 1e-4) * below (17 * w) k + 1e-4 * below (19 * w) k := by
  unfold level below
  split_ifs <;> first | omega | norm_num

theorem sum_level (w N : ℕ) (h : 19 * w ≤ N) : ∑ k ∈ Finset.range N, level w k = 4.0067396 * w := by
  simp only [level_below, Finset.sum_add_distrib, ← Finset.mul_sum]
  rw [sum_below _ _ (by omega), sum_below _ _ (by omega), sum_below _ _ (by omega), sum_below _ _ (by omega),
    sum_below _ _ (by omega), sum_below _ _ (by omega)]
  push_cast
  ring

/-- The window after `THzSpectrumWaveformInitializer`: the number of bands and the 24th part of it. -/
theorem window (freq : List ℝ) (s : Fac) (h1 : 0 < s.sbw) (h2 : 0 ≤ s.tbw) :
    ∃ n : ℕ, ⌊s.tbw / s.sbw⌋ = n ∧ (waveformInitializer freq s).numsb = n ∧ (waveformInitializer freq s).bands.length = n + 1 ∧
      Int.tdiv (waveformInitializer freq s).numsb 24 = (n / 24 : ℕ) := by
  have h0 : (0 : ℝ) ≤ s.tbw / s.sbw := div_nonneg h2 h1.le
  obtain ⟨n, hn⟩ := Int.eq_ofNat_of_zero_le (Int.floor_nonneg.2 h0)
  have e : (waveformInitializer freq s).numsb = n := by
    show trunc _ = _
    rw [trunc_nonneg h0, hn]
  have e' : trunc (s.tbw / s.sbw) = n := e
  refine ⟨n, hn, e, ?_, ?_⟩
  · show (List.map _ (List.range (trunc (s.tbw / s.sbw) + 1).toNat)).length = _
    rw [List.length_map, List.length_range, e']; omega
  · rw [e]; rfl

theorem zip_range {α : Type*} (b : ℕ → α) (f : ℕ → ℝ) (N : ℕ) (v : List ℝ) (hl : v.length = N) (hv : ∀ k, k < N → v[k]? = some (f k)) :
    ((List.range N).map b).zip v = (List.range N).map fun k => (b k, f k) := by
  have : v = (List.range N).map f := by
    apply List.ext_getElem?
    intro k
    by_cases hk : k < N
    · rw [hv k hk]; simp [hk]
    · rw [List.getElem?_eq_none (by omega), List.getElem?_eq_none (by simp; omega)]
  rw [this]
  simp [List.zip_map', Function.comp_def]

/-- **C113**, exactly: the mask is created within the bands of the window, and what it carries is the power asked for times a
quarter of the number of bands in a group. -/
theorem C113_power (freq : List ℝ) (P : ℝ) (s : Fac) (h1 : 0 < s.sbw) (h2 : 0 ≤ s.tbw) :
    ∃ v, createMask P (waveformInitializer freq s) = some v ∧ v.length = (waveformInitializer freq s).bands.length ∧
      integral ((waveformInitializer freq s).bands.zip v) = P * ((⌊s.tbw / s.sbw⌋ / 24 : ℤ) : ℝ) / 4 := by
  obtain ⟨n, hn, _, hl, hw⟩ := window freq s h1 h2
  obtain ⟨v, hv, hvl, hvk⟩ := mask_values P (waveformInitializer freq s) (n / 24) hw (by omega)
  refine ⟨v, hv, hvl, ?_⟩
  have hb : (waveformInitializer freq s).bands = (List.range (n + 1)).map fun (j : ℕ) =>
      Band.mk' (scan (waveformInitializer freq s).fstart 0 freq + (j - 0.5) * s.sbw)
        (scan (waveformInitializer freq s).fstart 0 freq + (j + 0.5) * s.sbw) := by
    have e : trunc (s.tbw / s.sbw) = n := by rw [trunc_nonneg (div_nonneg h2 h1.le), hn]
    show List.map _ (List.range (trunc (s.tbw / s.sbw) + 1).toNat) = _
    rw [show (trunc (s.tbw / s.sbw) + 1).toNat = n + 1 by omega]; rfl
  rw [hl] at hvk hvl
  rw [hb, zip_range _ _ _ v hvl hvk]
  unfold integral
  rw [List.map_map, sum_range]
  have : ∀ k ∈ Finset.range (n + 1), ((fun b : Band × ℝ => b.2 * (b.1.fh - b.1.fl)) ∘ fun k : ℕ =>
      (Band.mk' (scan (waveformInitializer freq s).fstart 0 freq + (k - 0.5) * s.sbw)
        (scan (waveformInitializer freq s).fstart 0 freq + (k + 0.5) * s.sbw),
        P / 16.0269584 * level (n / 24) k / (waveformInitializer freq s).sbw)) k = P / 16.0269584 * level (n / 24) k := by
    intro k _
    show P / 16.0269584 * level (n / 24) k / s.sbw * ((_ + (k + 0.5) * s.sbw) - (_ + (k - 0.5) * s.sbw)) = _
    field_simp
    ring
  rw [Finset.sum_congr rfl this, ← Finset.mul_sum, sum_level _ _ (by omega), hn]
  have : (((n : ℤ) / 24 : ℤ) : ℝ) = ((n / 24 : ℕ) : ℝ) := by norm_cast
  rw [this]
  ring

/-- **C113**, where it holds: the power carried is the power asked for if the window has from 96 to 119 whole sub-bands. -/
theorem C113_power_partial (freq : List ℝ) (P : ℝ) (s : Fac) (h1 : 0 < s.sbw) (h2 : 96 ≤ s.tbw / s.sbw) (h3 : s.tbw / s.sbw < 120) :
    ∃ v, createMask P (waveformInitializer freq s) = some v ∧ v.length = (waveformInitializer freq s).bands.length ∧
      integral ((waveformInitializer freq s).bands.zip v) = P := by
  have h0 : 0 ≤ s.tbw := by
    have := mul_le_mul_of_nonneg_right h2 h1.le
    rw [div_mul_cancel₀ _ h1.ne'] at this
    nlinarith
  obtain ⟨v, a, b, c⟩ := C113_power freq P s h1 h0
  refine ⟨v, a, b, ?_⟩
  have l1 : 96 ≤ ⌊s.tbw / s.sbw⌋ := Int.le_floor.2 (by exact_mod_cast h2)
  have l2 : ⌊s.tbw / s.sbw⌋ < 120 := Int.floor_lt.2 (by exact_mod_cast h3)
  rw [c, show ⌊s.tbw / s.sbw⌋ / 24 = 4 by omega]
  push_cast; ring

/-- The default attributes are in that range, and there are others. -/
example : (0 < defaults.sbw ∧ 96 ≤ defaults.tbw / defaults.sbw ∧ defaults.tbw / defaults.sbw < 120) ∧
    (let s : Fac := { defaults with sbw := 2, tbw := 220 }; 0 < s.sbw ∧ 96 ≤ s.tbw / s.sbw ∧ s.tbw / s.sbw < 120) := by
  unfold defaults; norm_num

/-- **C113** is violated for every other width of the window: more, or less, than the power asked for. -/
theorem C113_power_violated (freq : List ℝ) (P : ℝ) (hP : 0 < P) (s : Fac) (h1 : 0 < s.sbw) (h0 : 0 ≤ s.tbw) :
    (s.tbw / s.sbw < 96 → ∃ v, createMask P (waveformInitializer freq s) = some v ∧
      integral ((waveformInitializer freq s).bands.zip v) ≤ 3 / 4 * P) ∧
    (120 ≤ s.tbw / s.sbw → ∃ v, createMask P (waveformInitializer freq s) = some v ∧
      5 / 4 * P ≤ integral ((waveformInitializer freq s).bands.zip v)) := by
  obtain ⟨v, a, b, c⟩ := C113_power freq P s h1 h0
  refine ⟨fun h => ⟨v, a, ?_⟩, fun h => ⟨v, a, ?_⟩⟩
  · have l2 : ⌊s.tbw / s.sbw⌋ < 96 := Int.floor_lt.2 (by exact_mod_cast h)
    have : ((⌊s.tbw / s.sbw⌋ / 24 : ℤ) : ℝ) ≤ 3 := by
      have : ⌊s.tbw / s.sbw⌋ / 24 ≤ 3 := by omega
      exact_mod_cast this
    rw [c]; nlinarith
  · have l2 : 120 ≤ ⌊s.tbw / s.sbw⌋ := Int.le_floor.2 (by exact_mod_cast h)
    have : (5 : ℝ) ≤ ((⌊s.tbw / s.sbw⌋ / 24 : ℤ) : ℝ) := by
      have : 5 ≤ ⌊s.tbw / s.sbw⌋ / 24 := by omega
      exact_mod_cast this
    rw [c]; nlinarith

/-- **C113** is violated if the pulse spectrum was initialised with the same factory in between: the number of sub-bands is then
that of the pulse and the mask is written outside the window. -/
theorem C113_outside_violated (freq : List ℝ) (P : ℝ) :
    createMask P (pulseInitializer (waveformInitializer freq defaults)) = none := by
  have hn : (pulseInitializer (waveformInitializer freq defaults)).numsb = 5111 := by
    show trunc ((4e12 - 1e11) / 7.6294e8) = _
    rw [trunc_nonneg (by norm_num), Int.floor_eq_iff]
    norm_num
  have hl : (pulseInitializer (waveformInitializer freq defaults)).bands.length = 98 := by
    show (List.map _ (List.range (trunc (defaults.tbw / defaults.sbw) + 1).toNat)).length = _
    rw [default_numsb]; simp
  unfold createMask
  rw [hn, hl]
  show (putRange _ ((212 : ℤ) * (7 + 1) - 212 * 7).toNat _ _).bind _ = none
  rw [show ((212 : ℤ) * (7 + 1) - 212 * 7).toNat = 211 + 1 by decide]
  have : ∀ v, put v ((212 : ℤ) * 7) (List.replicate 98 (0 : ℝ)) = none := fun v => by
    unfold put; rw [if_neg (by rw [List.length_replicate]; decide)]
  show ((put _ ((212 : ℤ) * 7) _).bind _).bind _ = none
  rw [this]; rfl

/-- **C114**, where it holds: within the groups it uses the mask is symmetric, and it is in the middle of the window if there are
26 times as many bands in the window as in a group. -/
theorem C114_symmetric_partial (freq : List ℝ) (P : ℝ) (s : Fac) (h1 : 0 < s.sbw) (h2 : 0 ≤ s.tbw) :
    ∃ (w : ℕ) (v : List ℝ), (w : ℤ) = ⌊s.tbw / s.sbw⌋ / 24 ∧ createMask P (waveformInitializer freq s) = some v ∧
      (∀ k, k < 12 * w → v[7 * w + k]? = v[19 * w - 1 - k]?) ∧ (∀ k x, v[k]? = some x → k < 7 * w ∨ 19 * w ≤ k → x = 0) ∧
      (⌊s.tbw / s.sbw⌋ + 1 = 26 * w → v.reverse = v) := by
  obtain ⟨n, hn, _, hl, hw⟩ := window freq s h1 h2
  obtain ⟨v, hv, hvl, hvk⟩ := mask_values P (waveformInitializer freq s) (n / 24) hw (by omega)
  rw [hl] at hvk hvl
  have sym : ∀ i j, i + j + 1 = 26 * (n / 24) → level (n / 24) i = level (n / 24) j := by
    intro i j h
    unfold level
    split_ifs <;> first | rfl | omega
  refine ⟨n / 24, v, by rw [hn]; norm_cast, hv, fun k hk => ?_, fun k x hx hk => ?_, fun h => ?_⟩
  · rw [hvk (7 * (n / 24) + k) (by omega), hvk (19 * (n / 24) - 1 - k) (by omega), sym (7 * (n / 24) + k) (19 * (n / 24) - 1 - k) (by omega)]
  · have hkn : k < n + 1 := by
      by_contra hc
      rw [List.getElem?_eq_none (by omega)] at hx; cases hx
    rw [hvk k hkn] at hx
    have : level (n / 24) k = 0 := by unfold level; split_ifs <;> first | rfl | omega
    rw [this] at hx
    have := Option.some.inj hx
    rw [← this]; simp
  · rw [hn] at h
    apply List.ext_getElem?
    intro k
    by_cases hk : k < n + 1
    · rw [List.getElem?_reverse (by omega), hvl, hvk _ (by omega), hvk _ hk, sym _ k (by omega)]
    · rw [List.getElem?_eq_none (by simp; omega), List.getElem?_eq_none (by omega)]

/-- A window in which the mask is centred: 104 bands in groups of 4. -/
example : let s : Fac := { defaults with sbw := 1, tbw := 103 }
    0 < s.sbw ∧ 0 ≤ s.tbw ∧ ⌊s.tbw / s.sbw⌋ + 1 = 26 * (⌊s.tbw / s.sbw⌋ / 24) := by
  have : ⌊(103 : ℝ) / 1⌋ = 103 := by rw [Int.floor_eq_iff]; norm_num
  simp only
  rw [this]
  norm_num

/-- **C114** is violated for every other width of at least 24 sub-bands, the default one among them: the mask is not centred.
The comment in the code leaves out groups 1 to 6 and 19 to 24; the groups used are 8 to 19. -/
theorem C114_centre_violated (freq : List ℝ) (P : ℝ) (hP : P ≠ 0) (s : Fac) (h1 : 0 < s.sbw) (h2 : 24 ≤ s.tbw / s.sbw)
    (h3 : ⌊s.tbw / s.sbw⌋ + 1 ≠ 26 * (⌊s.tbw / s.sbw⌋ / 24)) :
    ∃ v, createMask P (waveformInitializer freq s) = some v ∧ v.reverse ≠ v := by
  have h0 : 0 ≤ s.tbw := by
    have := mul_le_mul_of_nonneg_right h2 h1.le
    rw [div_mul_cancel₀ _ h1.ne'] at this
    nlinarith
  have l1 : 24 ≤ ⌊s.tbw / s.sbw⌋ := Int.le_floor.2 (by exact_mod_cast h2)
  obtain ⟨n, hn, _, hl, hw⟩ := window freq s h1 h0
  obtain ⟨v, hv, hvl, hvk⟩ := mask_values P (waveformInitializer freq s) (n / 24) hw (by omega)
  rw [hl] at hvk hvl
  rw [hn] at l1 h3
  refine ⟨v, hv, fun e => ?_⟩
  have hs : (waveformInitializer freq s).sbw ≠ 0 := h1.ne'
  -- two bands that mirror each other, the first with power, the second without
  have key : ∀ i j, i + j = n → level (n / 24) i = 1e-4 → level (n / 24) j = 0 → False := by
    intro i j hij hi hj
    have h : v.reverse[j]? = v[j]? := by rw [e]
    rw [List.getElem?_reverse (by omega), hvl, hvk _ (by omega), hvk _ (by omega), hj, show n + 1 - 1 - j = i by omega, hi] at h
    have := Option.some.inj h
    rw [mul_zero, zero_div, div_eq_zero_iff] at this
    rcases this with this | this
    · have : P / 16.0269584 = 0 := by
        rcases mul_eq_zero.1 this with h | h
        · exact h
        · norm_num at h
      rcases div_eq_zero_iff.1 this with h | h
      · exact hP h
      · norm_num at h
    · exact hs this
  rcases lt_or_gt_of_ne (show n + 1 ≠ 26 * (n / 24) by omega) with h | h
  · refine key (19 * (n / 24) - 1) (n + 1 - 19 * (n / 24)) (by omega) ?_ ?_
    · unfold level; split_ifs <;> first | rfl | omega
    · unfold level; split_ifs <;> first | rfl | omega
  · refine key (7 * (n / 24)) (n - 7 * (n / 24)) (by omega) ?_ ?_
    · unfold level; split_ifs <;> first | rfl | omega
    · unfold level; split_ifs <;> first | rfl | omega

/-- The default window is one of them. -/
example : 0 < defaults.sbw ∧ 24 ≤ defaults.tbw / defaults.sbw ∧
    ⌊defaults.tbw / defaults.sbw⌋ + 1 ≠ 26 * (⌊defaults.tbw / defaults.sbw⌋ / 24) := by
  have : ⌊defaults.tbw / defaults.sbw⌋ = 97 := by
    have := default_numsb
    rwa [trunc_nonneg (by unfold defaults; norm_num)] at this
  rw [this]
  unfold defaults; norm_num

/-! ## Positions in the frequency table (C115) -/

/-- A sorted table is a part below `fs` followed by a part from `fs` on. -/
theorem split_table (fs : ℝ) : ∀ freq : List ℝ, freq.Pairwise (· ≤ ·) →
    ∃ lo hi, freq = lo ++ hi ∧ (∀ f ∈ lo, f < fs) ∧ ∀ f ∈ hi, fs ≤ f
  | [], _ => ⟨[], [], rfl, by simp, by simp⟩
  | f :: rest, h => by
    obtain ⟨h1, h2⟩ := List.pairwise_cons.1 h
    by_cases hf : f < fs
    · obtain ⟨lo, hi, e, a, b⟩ := split_table fs rest h2
      refine ⟨f :: lo, hi, by rw [e]; rfl, fun x hx => ?_, b⟩
      rcases List.mem_cons.1 hx with rfl | hx
      · exact hf
      · exact a x hx
    · refine ⟨[], f :: rest, rfl, by simp, fun x hx => ?_⟩
      rcases List.mem_cons.1 hx with rfl | hx
      · exact not_lt.1 hf
      · exact le_trans (not_lt.1 hf) (h1 x hx)

theorem seqStart_split {fs : ℝ} (hi : List ℝ) (hh : ∀ f ∈ hi, fs ≤ f) : ∀ (lo : List ℝ) (i : ℕ), (∀ f ∈ lo, f < fs) →
    seqStartFrom fs i (lo ++ hi) = i + lo.length
  | [], i, _ => by
    cases hi with
    | nil => rfl
    | cons f r => show (if f < fs then _ else _) = _; rw [if_neg (not_lt.2 (hh f (by simp)))]; rfl
  | f :: lo, i, h => by
    show (if f < fs then _ else _) = _
    rw [if_pos (h f (by simp))]
    refine (seqStart_split hi hh lo (i + 1) (fun x hx => h x (by simp [hx]))).trans ?_
    simp; omega

theorem scan_split {fs : ℝ} (f : ℝ) (hi : List ℝ) (hf : fs ≤ f) : ∀ (lo : List ℝ) (x : ℝ), (∀ f ∈ lo, f < fs) →
    scan fs x (lo ++ f :: hi) = f
  | [], x, _ => by show (if f < fs then _ else _) = _; rw [if_neg (not_lt.2 hf)]
  | g :: lo, x, h => by
    show (if g < fs then _ else _) = _
    rw [if_pos (h g (by simp))]
    exact scan_split f hi hf lo g (fun x hx => h x (by simp [hx]))

theorem skip_split {fs : ℝ} (f : ℝ) (hi : List ℝ) (hf : fs ≤ f) : ∀ (lo : List ℝ) (j : ℕ), (∀ f ∈ lo, f < fs) →
    skip fs j (lo ++ f :: hi) = (j + lo.length, hi)
  | [], j, _ => by show (if f < fs then _ else _) = _; rw [if_neg (not_lt.2 hf)]; rfl
  | g :: lo, j, h => by
    show (if g < fs then _ else _) = _
    rw [if_pos (h g (by simp))]
    refine (skip_split f hi hf lo (j + 1) (fun x hx => h x (by simp [hx]))).trans ?_
    simp; omega

/-- Storing frequencies that are all in the window, as many as there are sub-bands or, if the table ends before, all of them. -/
theorem store_hi {fs : ℝ} {numsb : ℕ} : ∀ (hi : List ℝ) (i : ℕ) (store : List ℝ), (∀ f ∈ hi, fs ≤ f) → i < numsb →
    numsb ≤ store.length →
    ∃ v, storeFrom fs numsb i store hi = some (v, min numsb (i + hi.length)) ∧
      (∀ k, k < i → v[k]? = store[k]?) ∧ ∀ k, i + k < numsb → k < hi.length → v[i + k]? = hi[k]?
  | [], i, store, _, h1, _ => ⟨store, by
      show some (store, i) = _
      rw [show min numsb (i + ([] : List ℝ).length) = i by simp; omega], fun _ _ => rfl, fun k _ h => by simp at h⟩
  | f :: hi, i, store, hh, h1, h2 => by
    have hp : put f (i : ℤ) store = some (store.set i f) := by
      unfold put; rw [if_pos (by omega), Int.toNat_natCast]
    have hs : storeFrom fs numsb i store (f :: hi) =
        if ((i + 1 : ℕ) : ℤ) = numsb then some (store.set i f, i + 1) else storeFrom fs numsb (i + 1) (store.set i f) hi := by
      show (put f (i : ℤ) store).bind _ = _
      rw [hp]
      show (if fs ≤ f then _ else _) = _
      rw [if_pos (hh f (by simp))]
    rw [hs]
    by_cases he : i + 1 = numsb
    · rw [if_pos (by exact_mod_cast he)]
      refine ⟨store.set i f, by rw [show min numsb (i + (f :: hi).length) = i + 1 by simp; omega], fun k hk => ?_, fun k hk hl => ?_⟩
      · rw [List.getElem?_set_ne (by omega)]
      · have : k = 0 := by omega
        subst this
        rw [Nat.add_zero, List.getElem?_set_self (by omega)]; rfl
    · rw [if_neg (by exact_mod_cast he)]
      obtain ⟨v, a, b, c⟩ := store_hi (fs := fs) (numsb := numsb) hi (i + 1) (store.set i f) (fun x hx => hh x (by simp [hx])) (by omega) (by simpa using h2)
      have hl' : i + 1 + hi.length = i + (f :: hi).length := by simp; omega
      refine ⟨v, by rw [a, hl'], fun k hk => ?_, fun k hk hl => ?_⟩
      · rw [b k (by omega), List.getElem?_set_ne (by omega)]
      · cases k with
        | zero => rw [Nat.add_zero, b i (Nat.lt_succ_self i), List.getElem?_set_self (by omega)]; rfl
        | succ k =>
          rw [show i + (k + 1) = i + 1 + k by omega, c k (by omega) (by simpa using hl)]; rfl

/-- Frequencies below the window only overwrite the first place. -/
theorem store_lo {fs : ℝ} {numsb : ℕ} (hi : List ℝ) : ∀ (lo : List ℝ) (store : List ℝ), (∀ f ∈ lo, f < fs) → 0 < store.length →
    ∃ store', store'.length = store.length ∧ storeFrom fs numsb 0 store (lo ++ hi) = storeFrom fs numsb 0 store' hi
  | [], store, _, _ => ⟨store, rfl, rfl⟩
  | f :: lo, store, h, h1 => by
    have hp : put f ((0 : ℕ) : ℤ) store = some (store.set 0 f) := by
      unfold put; rw [if_pos (by omega)]; rfl
    obtain ⟨st, a, b⟩ := store_lo hi lo (store.set 0 f) (fun x hx => h x (by simp [hx])) (by simpa using h1)
    refine ⟨st, by simpa using a, ?_⟩
    rw [← b]
    show (put f ((0 : ℕ) : ℤ) store).bind _ = _
    rw [hp]
    show (if fs ≤ f then _ else _) = _
    rw [if_neg (not_le.2 (h f (by simp)))]; rfl

theorem load_spec (a e : ℕ) : ∀ (coe : List ℝ) (i : ℕ) (store : List ℝ), e + 1 - a ≤ store.length →
    ∃ v, loadFrom a e i store coe = some v ∧ (∀ k, a + k < i → v[k]? = store[k]?) ∧
      ∀ k, i ≤ a + k → a + k ≤ e → a + k - i < coe.length → v[k]? = coe[a + k - i]?
  | [], i, store, _ => ⟨store, rfl, fun _ _ => rfl, fun k _ _ h => by simp at h⟩
  | c :: coe, i, store, hl => by
    by_cases h1 : i < a
    · obtain ⟨v, x, y, z⟩ := load_spec a e coe (i + 1) store hl
      refine ⟨v, ?_, fun k hk => by omega, fun k h2 h3 h4 => ?_⟩
      · show (if (i : ℤ) < a then _ else _) = _
        rw [if_pos (by exact_mod_cast h1)]; exact_mod_cast x
      · rw [z k (by omega) h3 (by simp at h4; omega)]
        rw [show a + k - i = (a + k - (i + 1)) + 1 by omega]; rfl
    · by_cases h2 : e < i
      · refine ⟨store, ?_, fun _ _ => rfl, fun k h3 h4 _ => by omega⟩
        show (if (i : ℤ) < a then _ else if (i : ℤ) > e then _ else _) = _
        rw [if_neg (by exact_mod_cast h1), if_pos (by exact_mod_cast h2)]
      · have hp : put c ((i : ℤ) - a) store = some (store.set (i - a) c) := by
          unfold put; rw [if_pos (by omega), show ((i : ℤ) - a).toNat = i - a by omega]
        obtain ⟨v, x, y, z⟩ := load_spec a e coe (i + 1) (store.set (i - a) c) (by simpa using hl)
        refine ⟨v, ?_, fun k hk => ?_, fun k h3 h4 h5 => ?_⟩
        · show (if (i : ℤ) < a then _ else if (i : ℤ) > e then _ else _) = _
          rw [if_neg (by exact_mod_cast h1), if_neg (by exact_mod_cast h2), hp]
          exact_mod_cast x
        · rw [y k (by omega), List.getElem?_set_ne (by omega)]
        · by_cases h6 : i = a + k
          · rw [y k (by omega), show i - a = k by omega, List.getElem?_set_self (by omega), show a + k - i = 0 by omega]; rfl
          · rw [z k (by omega) h4 (by simp at h5; omega), show a + k - i = (a + k - (i + 1)) + 1 by omega]; rfl

/-- **C115**, where it holds: in a sorted table with at least one row more than the sub-bands need, the first row is the first
frequency not below the start of the window, the bands are the rows from there on, the last row is that of the last band, and the
absorption coefficients loaded for these rows are those of these frequencies.  `psd` is any spectrum with enough bands. -/
theorem C115_rows_partial (t : Table) (ht : t.ok) (sorted : t.freq.Pairwise (· ≤ ·)) (s0 : Fac) (h1 : 0 < s0.sbw)
    (h2 : s0.sbw ≤ s0.tbw) (psd : List ℝ) :
    let s := waveformInitializer t.freq s0
    ∀ n : ℕ, ⌊s0.tbw / s0.sbw⌋ = n → n < (t.freq.filter fun f => decide (s.fstart ≤ f)).length → n ≤ psd.length →
    ∃ e v k, freqSeqEnd t.freq s = some e ∧ freqBands t.freq s = some v ∧ loadedAbsCoe t.coe (freqSeqStart t.freq s) e psd = some k ∧
      1 ≤ freqSeqStart t.freq s ∧ e + 1 = freqSeqStart t.freq s + n ∧
      (∀ f ∈ t.freq.take (freqSeqStart t.freq s - 1), f < s.fstart) ∧
      t.freq[freqSeqStart t.freq s - 1]? = some (freqStartValue t.freq s) ∧ s.fstart ≤ freqStartValue t.freq s ∧
      (∀ i, i < n → ∃ f c, v[i]? = some f ∧ k[i]? = some c ∧
        t.freq[freqSeqStart t.freq s - 1 + i]? = some f ∧ t.coe[freqSeqStart t.freq s - 1 + i]? = some c) := by
  intro s n hn hlen hpsd
  obtain ⟨m, hm, hnum, hbl, -⟩ := window t.freq s0 h1 (by linarith)
  have hnm : m = n := by exact_mod_cast hm.symm.trans hn
  subst hnm
  have hm1 : 1 ≤ m := by
    have : (1 : ℝ) ≤ s0.tbw / s0.sbw := by rw [le_div_iff₀ h1]; linarith
    have : (1 : ℤ) ≤ ⌊s0.tbw / s0.sbw⌋ := Int.le_floor.2 (by exact_mod_cast this)
    omega
  obtain ⟨lo, hi, e, ha, hb⟩ := split_table s.fstart t.freq sorted
  have hf : (t.freq.filter fun f => decide (s.fstart ≤ f)) = hi := by
    rw [e, List.filter_append, List.filter_eq_nil_iff.2 (by intro f hf; simpa using ha f hf),
      List.filter_eq_self.2 (by intro f hf; simpa using hb f hf), List.nil_append]
  rw [hf] at hlen
  obtain ⟨f, hi', rfl⟩ : ∃ f hi', hi = f :: hi' := by
    cases hi with
    | nil => simp at hlen
    | cons f r => exact ⟨f, r, rfl⟩
  have hbf : s.fstart ≤ f := hb f (by simp)
  have hstart : freqSeqStart t.freq s = 1 + lo.length := by
    unfold freqSeqStart; rw [e]; exact seqStart_split _ hb lo 1 ha
  have hval : freqStartValue t.freq s = f := by
    unfold freqStartValue; rw [e]; exact scan_split f hi' hbf lo 0 ha
  have hnum' : s.numsb = (m : ℤ) := hnum
  have hbl' : s.bands.length = m + 1 := hbl
  -- the end
  obtain ⟨v1, a1, -, -⟩ := store_hi (fs := s.fstart) (numsb := m) hi' 0 (List.replicate s.bands.length 0)
    (fun x hx => hb x (by simp [hx])) (by omega) (by rw [List.length_replicate]; omega)
  have hend : freqSeqEnd t.freq s = some (m + lo.length) := by
    unfold freqSeqEnd
    rw [e, skip_split f hi' hbf lo 0 ha]
    show Option.map _ (storeFrom _ _ _ _ _) = _
    rw [hnum', a1, show min m (0 + hi'.length) = m by simp at hlen; omega]
    simp
  -- the bands
  obtain ⟨st, b1, b2⟩ := store_lo (fs := s.fstart) (numsb := m) (f :: hi') lo (List.replicate s.bands.length 0) ha
    (by rw [List.length_replicate]; omega)
  rw [List.length_replicate] at b1
  obtain ⟨v, c1, -, c3⟩ := store_hi (fs := s.fstart) (numsb := m) (f :: hi') 0 st hb (by omega) (by omega)
  have hbands : freqBands t.freq s = some v := by
    unfold freqBands
    rw [hnum']
    conv_lhs => rw [e]
    rw [b2, c1]; rfl
  -- the coefficients
  obtain ⟨k, d1, -, d3⟩ := load_spec (1 + lo.length) (m + lo.length) t.coe 1 psd (by omega)
  have hcl : t.coe.length = lo.length + (hi'.length + 1) := by
    have : t.freq.length = t.coe.length := ht
    rw [← this, e]; simp
  simp only [List.length_cons] at hlen
  refine ⟨m + lo.length, v, k, hend, hbands, ?_, by omega, by omega, ?_, ?_, by rw [hval]; exact hbf, fun i hi => ?_⟩
  · rw [hstart]; exact_mod_cast d1
  · rw [hstart, show 1 + lo.length - 1 = lo.length by omega, e, List.take_left]; exact ha
  · rw [hstart, show 1 + lo.length - 1 = lo.length by omega, hval, e, List.getElem?_append_right (le_refl _), Nat.sub_self]; rfl
  · have e1 := c3 i (by omega) (by simp; omega)
    have e2 := d3 i (by omega) (by omega) (by omega)
    rw [Nat.zero_add] at e1
    have l1 : i < (f :: hi').length := by simp; omega
    have l2 : lo.length + i < t.coe.length := by omega
    refine ⟨(f :: hi')[i], t.coe[lo.length + i], by rw [e1]; exact List.getElem?_eq_getElem l1, ?_, ?_, ?_⟩
    · rw [e2, show 1 + lo.length + i - 1 = lo.length + i by omega]; exact List.getElem?_eq_getElem l2
    · rw [hstart, show 1 + lo.length - 1 + i = lo.length + i by omega, e, List.getElem?_append_right (by omega),
        show lo.length + i - lo.length = i by omega]
      exact List.getElem?_eq_getElem l1
    · rw [hstart, show 1 + lo.length - 1 + i = lo.length + i by omega]; exact List.getElem?_eq_getElem l2

/-- A table and a window that meet the hypotheses: two sub-bands of width 1 around 2, rows 0, 1, ..., 4. -/
example : let t : Table := ⟨[0, 1, 2, 3, 4], [5, 6, 7, 8, 9]⟩
    let s0 : Fac := { defaults with sbw := 1, tbw := 2, fc := 2 }
    let s := waveformInitializer t.freq s0
    t.ok ∧ t.freq.Pairwise (· ≤ ·) ∧ 0 < s0.sbw ∧ s0.sbw ≤ s0.tbw ∧ ⌊s0.tbw / s0.sbw⌋ = (2 : ℕ) ∧
      2 < (t.freq.filter fun f => decide (s.fstart ≤ f)).length := by
  have hfl : ⌊(2 : ℝ) / 1⌋ = 2 := by rw [Int.floor_eq_iff]; norm_num
  have hst : (waveformInitializer [0, 1, 2, 3, 4] { defaults with sbw := 1, tbw := 2, fc := 2 }).fstart = 1 := by
    show (2 : ℝ) - (Int.tdiv (trunc ((2 : ℝ) / 1)) 2 : ℤ) * 1 = 1
    rw [trunc_nonneg (by norm_num), hfl]
    norm_num
  simp only
  rw [hst]
  refine ⟨rfl, ?_, by norm_num, by norm_num, by rw [hfl]; rfl, ?_⟩
  · simp only [List.pairwise_cons, List.mem_cons, List.not_mem_nil, or_false, forall_eq_or_imp, forall_eq,
      List.Pairwise.nil, and_true, false_imp_iff, implies_true]
    norm_num
  · simp only [List.filter_cons]
    norm_num

/-- **C115** is violated if the table ends with the last band: the number returned as the last row is that of the row before. -/
theorem C115_last_violated (freq : List ℝ) (sorted : freq.Pairwise (· ≤ ·)) (s0 : Fac) (h1 : 0 < s0.sbw) (h2 : s0.sbw ≤ s0.tbw) :
    let s := waveformInitializer freq s0
    ⌊s0.tbw / s0.sbw⌋ = (freq.filter fun f => decide (s.fstart ≤ f)).length →
    freqSeqEnd freq s = some (freq.length - 1) ∧
      ∃ v, freqBands freq s = some v ∧ v[(freq.filter fun f => decide (s.fstart ≤ f)).length - 1]? = freq[freq.length - 1]? := by
  intro s hn
  obtain ⟨m, hm, hnum, hbl, -⟩ := window freq s0 h1 (by linarith)
  have hm1 : 1 ≤ m := by
    have : (1 : ℝ) ≤ s0.tbw / s0.sbw := by rw [le_div_iff₀ h1]; linarith
    have : (1 : ℤ) ≤ ⌊s0.tbw / s0.sbw⌋ := Int.le_floor.2 (by exact_mod_cast this)
    omega
  obtain ⟨lo, hi, e, ha, hb⟩ := split_table s.fstart freq sorted
  have hf : (freq.filter fun f => decide (s.fstart ≤ f)) = hi := by
    rw [e, List.filter_append, List.filter_eq_nil_iff.2 (by intro f hf; simpa using ha f hf),
      List.filter_eq_self.2 (by intro f hf; simpa using hb f hf), List.nil_append]
  rw [hf] at hn ⊢
  have hmh : m = hi.length := by exact_mod_cast hm.symm.trans hn
  obtain ⟨f, hi', rfl⟩ : ∃ f hi', hi = f :: hi' := by
    cases hi with
    | nil => simp at hmh; omega
    | cons f r => exact ⟨f, r, rfl⟩
  have hbf : s.fstart ≤ f := hb f (by simp)
  have hnum' : s.numsb = (m : ℤ) := hnum
  have hbl' : s.bands.length = m + 1 := hbl
  simp only [List.length_cons] at hmh
  have hfl : freq.length = lo.length + m := by rw [e]; simp; omega
  obtain ⟨v1, a1, -, -⟩ := store_hi (fs := s.fstart) (numsb := m) hi' 0 (List.replicate s.bands.length 0)
    (fun x hx => hb x (by simp [hx])) (by omega) (by rw [List.length_replicate]; omega)
  obtain ⟨st, b1, b2⟩ := store_lo (fs := s.fstart) (numsb := m) (f :: hi') lo (List.replicate s.bands.length 0) ha
    (by rw [List.length_replicate]; omega)
  rw [List.length_replicate] at b1
  obtain ⟨v, c1, -, c3⟩ := store_hi (fs := s.fstart) (numsb := m) (f :: hi') 0 st hb (by omega) (by omega)
  refine ⟨?_, v, ?_, ?_⟩
  · rw [hfl]
    unfold freqSeqEnd
    rw [e, skip_split f hi' hbf lo 0 ha]
    show Option.map _ (storeFrom _ _ _ _ _) = _
    rw [hnum', a1]
    show some (min m (0 + hi'.length) + (0 + lo.length)) = some _
    congr 1
    omega
  · unfold freqBands
    rw [hnum']
    conv_lhs => rw [e]
    rw [b2, c1]; rfl
  · have := c3 (m - 1) (by omega) (by simp; omega)
    rw [Nat.zero_add] at this
    simp only [List.length_cons]
    rw [show hi'.length + 1 - 1 = m - 1 by omega, this, hfl, e, List.getElem?_append_right (by omega)]
    congr 1; omega

/-- A table for which that happens. -/
example : let freq : List ℝ := [0, 1, 2]
    let s0 : Fac := { defaults with sbw := 1, tbw := 2, fc := 2 }
    let s := waveformInitializer freq s0
    freq.Pairwise (· ≤ ·) ∧ 0 < s0.sbw ∧ s0.sbw ≤ s0.tbw ∧
      ⌊s0.tbw / s0.sbw⌋ = (freq.filter fun f => decide (s.fstart ≤ f)).length := by
  have hfl : ⌊(2 : ℝ) / 1⌋ = 2 := by rw [Int.floor_eq_iff]; norm_num
  have hst : (waveformInitializer [0, 1, 2] { defaults with sbw := 1, tbw := 2, fc := 2 }).fstart = 1 := by
    show (2 : ℝ) - (Int.tdiv (trunc ((2 : ℝ) / 1)) 2 : ℤ) * 1 = 1
    rw [trunc_nonneg (by norm_num), hfl]
    norm_num
  simp only
  rw [hst, hfl]
  refine ⟨?_, by norm_num, by norm_num, ?_⟩
  · simp only [List.pairwise_cons, List.mem_cons, List.not_mem_nil, or_false, forall_eq_or_imp, forall_eq,
      List.Pairwise.nil, and_true, false_imp_iff, implies_true]
    norm_num
  · simp only [List.filter_cons]
    norm_num

/-- **C115** is violated for a window above the table: the first row returned does not exist, and the frequency returned for it is
the last of the table, below the window. -/
theorem C115_above_violated (freq : List ℝ) (s : Fac) (h0 : freq ≠ []) (h : ∀ f ∈ freq, f < s.fstart) :
    freqSeqStart freq s = freq.length + 1 ∧ freq[freqSeqStart freq s - 1]? = none ∧ freqStartValue freq s < s.fstart := by
  have h1 : freqSeqStart freq s = freq.length + 1 := by
    have := seqStart_split (fs := s.fstart) [] (by simp) freq 1 h
    rw [List.append_nil] at this
    unfold freqSeqStart; rw [this]; omega
  refine ⟨h1, by rw [h1, Nat.add_sub_cancel]; exact List.getElem?_eq_none (le_refl _), ?_⟩
  have : ∀ (l : List ℝ) (x : ℝ), (∀ f ∈ l, f < s.fstart) → (l ≠ [] ∨ x < s.fstart) → scan s.fstart x l < s.fstart := by
    intro l
    induction l with
    | nil => intro x _ hx; rcases hx with hx | hx
             · exact absurd rfl hx
             · exact hx
    | cons f r ih =>
      intro x hl _
      show (if f < s.fstart then _ else _) < _
      rw [if_pos (hl f (by simp))]
      exact ih f (fun g hg => hl g (by simp [hg])) (Or.inr (hl f (by simp)))
  exact this freq 0 h (Or.inl h0)

/-! ## The whole spectrum (C116) -/

/-- The density of a pulse of order `n` at frequency `f`. -/
noncomputable def density (n r a0 f : ℝ) : ℝ :=
  (2 * π * (f / 1e12)) ^ (2 * n) * a0 ^ (2 : ℕ) * exp (-(2 * π * (f / 1e12)) ^ (2 : ℕ) * r)

theorem all_spec (n r a0 : ℝ) : ∀ (freq : List ℝ) (i : ℕ) (vals : List ℝ), i + freq.length ≤ vals.length →
    ∃ v, allFrom n r a0 i vals freq = some v ∧ v.length = vals.length ∧
      ∀ k, v[k]? = if i ≤ k ∧ k < i + freq.length then (freq[k - i]?).map (density n r a0) else vals[k]?
  | [], i, vals, _ => ⟨vals, rfl, rfl, fun k => by rw [if_neg (by simp)]⟩
  | f :: rest, i, vals, h => by
    simp only [List.length_cons] at h
    have hp : ∀ x, put x (i : ℤ) vals = some (vals.set i x) := fun x => by
      unfold put; rw [if_pos (by omega), Int.toNat_natCast]
    obtain ⟨v, a, b, c⟩ := all_spec n r a0 rest (i + 1) (vals.set i (density n r a0 f)) (by simp; omega)
    refine ⟨v, ?_, by simpa using b, fun k => ?_⟩
    · show (put _ (i : ℤ) vals).bind _ = _
      rw [hp]; exact a
    · rw [c k]
      by_cases e : i = k
      · subst e
        rw [if_neg (by omega), List.getElem?_set_self (by omega), if_pos (by simp), Nat.sub_self]; rfl
      · rw [List.getElem?_set_ne e]
        by_cases e' : i + 1 ≤ k ∧ k < i + 1 + rest.length
        · rw [if_pos e', if_pos (by simp; omega), show k - i = (k - (i + 1)) + 1 by omega]; rfl
        · rw [if_neg e', if_neg (by simp; omega)]

/-- **C116**, what there is: one band per row of the table and one more; each holds the density at the frequency of its row,
the last one 0. -/
theorem C116_rows_partial (freq : List ℝ) (n r a0 : ℝ) (s : Fac) :
    ∃ psd, createAll freq n r a0 s = some psd ∧ psd.length = freq.length + 1 ∧
      (∀ (k : ℕ) f, freq[k]? = some f → ∃ b, psd[k]? = some (b, density n r a0 f) ∧ b.fc = 8.99378e10 + k * s.sbw) ∧
      ∃ b, psd[freq.length]? = some (b, 0) := by
  have hl : (allBands freq s).length = freq.length + 1 := by unfold allBands; simp
  obtain ⟨v, a, b, c⟩ := all_spec n r a0 freq 0 (List.replicate (allBands freq s).length 0) (by simp [hl])
  rw [List.length_replicate, hl] at b
  refine ⟨(allBands freq s).zip v, by unfold createAll; rw [a]; rfl, by rw [List.length_zip, hl, b, min_self], fun k f hk => ?_, ?_⟩
  · have hkl : k < freq.length := by
      by_contra hc
      rw [List.getElem?_eq_none (by omega)] at hk; cases hk
    have h1 : v[k]? = some (density n r a0 f) := by
      rw [c k, if_pos (by omega), Nat.sub_zero, hk]; rfl
    have h2 : (allBands freq s)[k]? = some (Band.mk' (8.99378e10 + (k - 0.5) * s.sbw) (8.99378e10 + (k + 0.5) * s.sbw)) := by
      unfold allBands; rw [List.getElem?_map, List.getElem?_range (by omega)]; rfl
    refine ⟨_, List.getElem?_zip_eq_some.2 ⟨h2, h1⟩, ?_⟩
    show (_ + _) / 2 = _
    ring
  · have h1 : v[freq.length]? = some 0 := by
      rw [c, if_neg (by omega), List.getElem?_replicate, if_pos (by omega)]
    have h2 : freq.length < (allBands freq s).length := by omega
    exact ⟨_, List.getElem?_zip_eq_some.2 ⟨List.getElem?_eq_getElem h2, h1⟩⟩

/-- **C116**, where it holds: the rows of the table are the centres of the bands; then every band but the last, which is one too
many, has the density of its centre. -/
theorem C116_centres_partial (freq : List ℝ) (n r a0 : ℝ) (s : Fac)
    (h : ∀ (k : ℕ) f, freq[k]? = some f → f = 8.99378e10 + k * s.sbw) :
    ∃ psd, createAll freq n r a0 s = some psd ∧ psd.length = freq.length + 1 ∧
      ∀ p ∈ psd.dropLast, p.2 = density n r a0 p.1.fc := by
  obtain ⟨psd, a, b, c, -⟩ := C116_rows_partial freq n r a0 s
  refine ⟨psd, a, b, fun p hp => ?_⟩
  obtain ⟨k, hk, rfl⟩ := List.getElem_of_mem hp
  have hk' : k < freq.length := by rw [List.length_dropLast] at hk; omega
  obtain ⟨bd, h1, h2⟩ := c k freq[k] (List.getElem?_eq_getElem hk')
  have h3 : psd.dropLast[k] = (bd, density n r a0 freq[k]) := by
    rw [List.getElem_dropLast]
    have := List.getElem?_eq_getElem (l := psd) (i := k) (by omega)
    rw [this] at h1; exact Option.some.inj h1
  rw [h3]
  show density n r a0 freq[k] = density n r a0 bd.fc
  rw [h2, h k freq[k] (List.getElem?_eq_getElem hk')]

example : ∀ (k : ℕ) f, ([8.99378e10, 8.99378e10 + 7.6294e8] : List ℝ)[k]? = some f → f = 8.99378e10 + k * defaults.sbw := by
  intro k f hk
  rcases k with _ | _ | k
  · simp at hk; rw [← hk]; simp
  · simp at hk; rw [← hk]; unfold defaults; simp
  · simp at hk

/-- **C116** is violated for every table that begins with 0, as the one of the module does: the first band has density 0, the
density of a pulse of positive order at its centre is not 0. -/
theorem C116_first_violated (rest : List ℝ) (n r a0 : ℝ) (hn : 0 < n) (ha : a0 ≠ 0) (s : Fac) :
    ∃ psd b, createAll (0 :: rest) n r a0 s = some psd ∧ psd[0]? = some (b, 0) ∧ 0 < density n r a0 b.fc := by
  obtain ⟨psd, a, -, c, -⟩ := C116_rows_partial (0 :: rest) n r a0 s
  obtain ⟨b, h1, h2⟩ := c 0 0 rfl
  have : density n r a0 0 = 0 := by
    unfold density
    rw [zero_div, mul_zero, Real.zero_rpow (by positivity), zero_mul, zero_mul]
  rw [this] at h1
  refine ⟨psd, b, a, h1, ?_⟩
  rw [h2]
  unfold density
  have : 0 < a0 ^ (2 : ℕ) := by positivity
  have : (0 : ℝ) < 2 * π * ((8.99378e10 + ((0 : ℕ) : ℝ) * s.sbw) / 1e12) := by
    rw [Nat.cast_zero, zero_mul, add_zero]; positivity
  positivity

end Thz.Spectrum
