import Mathlib.Analysis.SpecialFunctions.Log.Base
import Mathlib.Analysis.SpecialFunctions.Trigonometric.Basic
import Mathlib.Algebra.BigOperators.Group.List.Basic
import Mathlib.Algebra.Order.Floor.Ring
import Mathlib.Data.Real.Archimedean

/-!
# The spectrum and the propagation loss (model/thz-spectrum-waveform.cc, model/thz-spectrum-propagation-loss.cc)

Real numbers stand for `double`s; `int`s are integers (no overflow).  The two files of the frequency table are lists of
numbers; a missing file is not modelled.  The functions whose results no other part of the
module uses (the mask, the positions in the table, the whole spectrum, `LoadedAbsCoe`) are in `Verif.SpectrumMask`.
-/

namespace Thz.Spectrum

open Real

/-- Conversion of a `double` to `int`: towards zero. -/
noncomputable def trunc (x : ℝ) : ℤ := if 0 ≤ x then ⌊x⌋ else ⌈x⌉

/-! ## The factory -/

/-- `BandInfo`. -/
structure Band where
  fl : ℝ
  fc : ℝ
  fh : ℝ

/-- `THzSpectrumValueFactory` (model/thz-spectrum-waveform.h:118-124): `m_numsb` and `m_numsample` are `int`s.  `bands` is
the band list of `m_THzSpectrumWaveform`, `pulse` that of `m_THzPulseSpectrumWaveform`. -/
structure Fac where
  numsb : ℤ
  sbw : ℝ
  tbw : ℝ
  fc : ℝ
  numsample : ℤ
  fstart : ℝ
  bands : List Band
  pulse : List Band

/-- A band between two frequencies (model/thz-spectrum-waveform.cc:120-122 and others). -/
noncomputable def Band.mk' (fl fh : ℝ) : Band := { fl := fl, fh := fh, fc := (fl + fh) / 2 }

/-- The loop over the frequency file that stops at the first frequency not below `fs`
(model/thz-spectrum-waveform.cc:101-113, 329-340); `x` is what the variable contains, it keeps the last frequency read if
there is no such frequency. -/
noncomputable def scan (fs : ℝ) : ℝ → List ℝ → ℝ
  | x, [] => x
  | _, f :: rest => if f < fs then scan fs f rest else f

/-- `THzSpectrumWaveformInitializer` (model/thz-spectrum-waveform.cc:86-127).  `m_numsb / 2` is an integer division. -/
noncomputable def waveformInitializer (freq : List ℝ) (s : Fac) : Fac :=
  let numsb := trunc (s.tbw / s.sbw)
  let fstart := s.fc - (Int.tdiv numsb 2 : ℤ) * s.sbw
  let f := scan fstart 0 freq
  { s with
    numsb := numsb, fstart := fstart
    bands := (List.range (numsb + 1).toNat).map fun (j : ℕ) => Band.mk' (f + (j - 0.5) * s.sbw) (f + (j + 0.5) * s.sbw) }

/-- `THzPulseSpectrumWaveformInitializer` (model/thz-spectrum-waveform.cc:160-184), with `PULSE_START_FREQUENCY` and
`PULSE_END_FREQUENCY` (39-40).  Here `(j - 0.5) * m_numsb / m_numsample` is a division of `double`s. -/
noncomputable def pulseInitializer (s : Fac) : Fac :=
  let first := (1e11 : ℝ) / s.sbw
  let numsb := trunc ((4e12 - 1e11) / s.sbw)
  { s with
    numsb := numsb
    pulse := (List.range s.numsample.toNat).map fun (j : ℕ) =>
      Band.mk' ((first + (j - 0.5) * numsb / s.numsample) * s.sbw) ((first + (j + 0.5) * numsb / s.numsample) * s.sbw) }

/-- `CreateTxPowerSpectralDensity` (model/thz-spectrum-waveform.cc:318-367): the bands with their densities and the new
`m_numsb`.  `m_numsb / m_numsample` is a division of `int`s. -/
noncomputable def createTxPsd (freq : List ℝ) (txPower : ℝ) (s : Fac) : List (Band × ℝ) × Fac :=
  let f := scan s.fstart 0 freq
  let numsb := trunc (s.tbw / s.sbw)
  let w : ℝ := s.sbw * (Int.tdiv numsb s.numsample : ℤ)
  ((List.range s.numsample.toNat).map fun (j : ℕ) =>
      (Band.mk' (f - 0.5 * s.sbw + j * w) (f - 0.5 * s.sbw + (j + 1) * w), txPower / s.tbw),
    { s with numsb := numsb })

/-- The shape of a pulse of order `n` and duration `r` at frequency `f` (model/thz-spectrum-waveform.cc:494-495, 524-526). -/
noncomputable def shape (n r f : ℝ) : ℝ := (2 * π * f) ^ (2 * n) * exp (-(2 * π * f * r) ^ 2)

/-- `CalculateEnergyConstant` (model/thz-spectrum-waveform.cc:482-506).  `m_numsb / m_numsample` is a division of `int`s;
`none` stands for a division by zero: of `int`s (undefined behaviour) or of `double`s (the result is infinite or not a
number). -/
noncomputable def energyConstant (n r txPower : ℝ) (s : Fac) : Option ℝ :=
  if s.numsample = 0 then none
  else
    let integral := (s.pulse.map fun b => shape n r b.fc).sum * (s.sbw * (Int.tdiv s.numsb s.numsample : ℤ))
    if integral = 0 then none else some (txPower / integral)

/-- `CreatePulsePowerSpectralDensity` (model/thz-spectrum-waveform.cc:508-533). -/
noncomputable def createPulsePsd (n r txPower : ℝ) (s : Fac) : Option (List (Band × ℝ)) :=
  (energyConstant n r txPower s).map fun a => s.pulse.map fun b => (b, a * shape n r b.fc)

/-- The default attributes (model/thz-spectrum-waveform.cc:44-76); the members that are not attributes are not set by the
constructor. -/
noncomputable def defaults : Fac :=
  { numsb := 98, sbw := 7.6294e8, tbw := 7.4768e10, fc := 1.0345e12, numsample := 100, fstart := 0, bands := [], pulse := [] }

/-- What a PHY passes on with its signal: `THzSpectrumSignalParameters` (model/thz-spectrum-signal-parameters.h:75-87). -/
structure Signal where
  psd : List (Band × ℝ)
  numsamples : ℝ
  numsb : ℝ
  sbw : ℝ

/-- `THzPhyMacro::CalTxPsd` (model/thz-phy-macro.cc:150-166), with the power in watts. -/
noncomputable def macroSignal (freq : List ℝ) (txPower : ℝ) (s : Fac) : Signal :=
  let r := createTxPsd freq txPower (waveformInitializer freq s)
  { psd := r.1, numsamples := r.2.numsample, numsb := r.2.numsb, sbw := r.2.sbw }

/-- `THzPhyNano::CalTxPsd` (model/thz-phy-nano.cc:153-169): a pulse of order 1. -/
noncomputable def nanoSignal (freq : List ℝ) (pulseDuration txPower : ℝ) (s : Fac) : Option Signal :=
  let s := pulseInitializer (waveformInitializer freq s)
  (createPulsePsd 1 pulseDuration txPower s).map fun psd =>
    { psd := psd, numsamples := s.numsample, numsb := s.numsb, sbw := s.sbw }

/-! ## The propagation loss -/

/-- `m_freqMap`. -/
abbrev Cache := ℝ → Option ℝ

/-- The two files. -/
structure Table where
  freq : List ℝ
  coe : List ℝ

/-- The loop over the frequency file (model/thz-spectrum-propagation-loss.cc:163-173): the number of lines skipped. -/
noncomputable def findFreq (f : ℝ) : List ℝ → Nat
  | [] => 0
  | x :: rest => if x < f - 9.894e8 ∨ x > f + 9.894e8 then findFreq f rest + 1 else 0

/-- The loop over the file of coefficients (174-192); `none` stands for `return 0`. -/
noncomputable def readCoe (d : ℝ) : Nat → List ℝ → Option ℝ
  | _, [] => some 0
  | 0, k :: _ => some k
  | j + 1, _ :: rest => if d = 0 then none else readCoe d j rest

/-- `CalculateAbsLoss` (model/thz-spectrum-propagation-loss.cc:135-201). -/
noncomputable def absLoss (t : Table) (f d : ℝ) (m : Cache) : ℝ × Cache :=
  match m f with
  | some k => (exp (k * d), m)
  | none =>
    match readCoe d (findFreq f t.freq) t.coe with
    | none => (0, m)
    | some k => (exp (k * d), Function.update m f (some k))

/-- `CalculateSpreadLoss` (model/thz-spectrum-propagation-loss.cc:119-133). -/
noncomputable def spreadLoss (f d : ℝ) : ℝ := if d = 0 then 0 else (4 * π * f * d / 299792458) * (4 * π * f * d / 299792458)

/-- `10 * std::log10 (x)`: minus infinity at 0. -/
noncomputable def toDb (x : ℝ) : WithBot ℝ := if x = 0 then ⊥ else ((10 * logb 10 x : ℝ) : WithBot ℝ)

/-- `std::pow (10.0, x / 10.0)`: 0 at minus infinity. -/
noncomputable def fromDb : WithBot ℝ → ℝ
  | ⊥ => 0
  | (x : ℝ) => (10 : ℝ) ^ (x / 10)

/-- One round of the loop of `CalcRxPowerDA` (model/thz-spectrum-propagation-loss.cc:99-108) and of
`CalcRxPowerSpectralDensity` (70-79): the attenuated density; `none` stands for a division by zero (infinite or not a
number). -/
noncomputable def attenuate (t : Table) (d : ℝ) (b : Band × ℝ) (m : Cache) : Option ℝ × Cache :=
  let r := absLoss t b.1.fc d m
  let loss := fromDb (toDb (spreadLoss b.1.fc d) + toDb r.1)
  (if loss = 0 then none else some (b.2 / loss), r.2)

/-- The loop of `CalcRxPowerSpectralDensity` (model/thz-spectrum-propagation-loss.cc:58-81). -/
noncomputable def rxPsd (t : Table) (d : ℝ) : List (Band × ℝ) → Cache → Option (List ℝ) × Cache
  | [], m => (some [], m)
  | b :: rest, m =>
    let r := attenuate t d b m
    let q := rxPsd t d rest r.2
    (r.1.bind fun x => q.1.map (x :: ·), q.2)

/-- `CalcRxPowerDA` (model/thz-spectrum-propagation-loss.cc:83-117): the power in dBm. -/
noncomputable def calcRxPowerDA (t : Table) (p : Signal) (d : ℝ) (gain : WithBot ℝ) (m : Cache) : Option (WithBot ℝ) × Cache :=
  let r := rxPsd t d p.psd m
  (r.1.map fun l => toDb (l.sum * p.sbw * (p.numsb / p.numsamples) * fromDb gain * 1000), r.2)

/-- A call of one of the functions with a cache. -/
inductive Query
  | abs (f d : ℝ)
  | psd (p : Signal) (d : ℝ)
  | power (p : Signal) (d : ℝ) (gain : WithBot ℝ)

/-- The cache after a call. -/
noncomputable def ask (t : Table) (m : Cache) : Query → Cache
  | .abs f d => (absLoss t f d m).2
  | .psd p d => (rxPsd t d p.psd m).2
  | .power p d g => (calcRxPowerDA t p d g m).2

/-- The cache after some calls, starting from the empty one. -/
noncomputable def cacheAfter (t : Table) (qs : List Query) : Cache := qs.foldl (ask t) (fun _ => none)

end Thz.Spectrum
