import Mathlib.Analysis.SpecialFunctions.Trigonometric.Angle
import Mathlib.Analysis.SpecialFunctions.Complex.Arg
import Mathlib.Analysis.SpecialFunctions.Pow.Real
import Mathlib.Analysis.SpecialFunctions.Log.Base

/-!
# The directional antenna (model/thz-dir-antenna.{h,cc}) and its use by the channel (model/thz-channel.cc:115-160)

`double` is modelled by the real numbers, except that the decibel value of 0, minus infinity in C++, is `⊥`.  Positions are
complex numbers (the height is ignored, as by the azimuth).  `m_exponent` and the orientation are not initialised by the
constructor; a state of the model contains any values for them.
-/

namespace Thz.Antenna

open Real

/-- `while (a <= lo) a += p`, at most `n` rounds. -/
noncomputable def wrapUp (lo p : ℝ) : Nat → ℝ → ℝ
  | 0, a => a
  | n + 1, a => if a ≤ lo then wrapUp lo p n (a + p) else a

/-- `while (a > hi) a -= p`, at most `n` rounds. -/
noncomputable def wrapDown (hi p : ℝ) : Nat → ℝ → ℝ
  | 0, a => a
  | n + 1, a => if hi < a then wrapDown hi p n (a - p) else a

/-- Enough rounds (`C57_ends`). -/
noncomputable def rounds (p a : ℝ) : Nat := ⌈|a| / p⌉₊

/-- Both loops, one after the other, with bounds `-h` and `h` (model/thz-dir-antenna.cc:166-173, 191-198, 212-219, 236-243 and
five more times in `GetAntennaGain`). -/
noncomputable def norm (h p a : ℝ) : ℝ :=
  let b := wrapUp (-h) p (rounds p a) a
  wrapDown h p (rounds p b) b

/-- The members of `THzDirectionalAntenna` that matter (model/thz-dir-antenna.h:190-220). -/
structure Ant where
  mode : ℝ
  maxGain : ℝ
  exponent : ℝ
  bwDeg : ℝ
  rxDeg : ℝ
  rxRad : ℝ

/-- `SetMaxGain` (model/thz-dir-antenna.cc:132-136). -/
def setMaxGain (g : ℝ) (a : Ant) : Ant := { a with maxGain := g }

/-- `SetBeamwidth` (model/thz-dir-antenna.cc:146-152). -/
noncomputable def setBeamwidth (deg : ℝ) (a : Ant) : Ant :=
  { a with bwDeg := deg, exponent := -3 / (20 * logb 10 (cos (deg * π / 180 / 4))) }

/-- `TuneRxOrientation` (model/thz-dir-antenna.cc:163-179). -/
noncomputable def tuneRx (deg : ℝ) (a : Ant) : Ant :=
  { a with rxDeg := norm 360 360 deg, rxRad := norm 360 360 deg * π / 180 }

/-- `GetRxOrientation` (model/thz-dir-antenna.cc:188-206) at time `now` (seconds) with initial angle `ini` and turning speed
`speed`. -/
noncomputable def getRxOrientation (ini speed now : ℝ) (a : Ant) : Ant := tuneRx (ini + speed * 360 * now) a

/-- `Angles (v, o).GetAzimuth ()` of ns-3: the direction of `v` seen from `o`, `atan2 (v.y - o.y, v.x - o.x)`. -/
noncomputable def azimuth (v o : ℂ) : ℝ := Complex.arg (v - o)

/-- `20 * std::log10 (x)`. -/
noncomputable def db20 (x : ℝ) : WithBot ℝ := if x = 0 then ⊥ else ((20 * logb 10 x : ℝ) : WithBot ℝ)

/-- The pattern: `pow (cos (phi / 2), m_exponent)` in decibel, plus the maximum gain
(model/thz-dir-antenna.cc:221-226, 247-252). -/
noncomputable def pattern (a : Ant) (phi : ℝ) : WithBot ℝ :=
  db20 (cos (norm π (π + π) phi / 2) ^ a.exponent) + (a.maxGain : WithBot ℝ)

/-- `GetRxGainDb` (model/thz-dir-antenna.cc:208-227). -/
noncomputable def getRxGainDb (a : Ant) (sender recv : ℂ) : WithBot ℝ := pattern a (azimuth sender recv - a.rxRad)

/-- `GetTxGainDb` (model/thz-dir-antenna.cc:229-253): the transmitter's orientation is the azimuth itself. -/
noncomputable def getTxGainDb (a : Ant) (sender recv : ℂ) : WithBot ℝ :=
  pattern a (azimuth recv sender - azimuth recv sender)

/-- `GetAntennaGain` (model/thz-dir-antenna.cc:255-392).  The modes are `bool`s; the third case needs a `bool` that is neither
0 nor 1, so it never applies.  The orientation of this antenna is overwritten. -/
noncomputable def getAntennaGain (x y : ℂ) (xMode yMode : Bool) (orient : ℝ) (a : Ant) : WithBot ℝ × Ant :=
  let a := { a with rxRad := orient }
  match xMode, yMode with
  | true, false => (pattern a (azimuth y x - a.rxRad) + pattern a (azimuth x y - azimuth x y), a)
  | false, true => (pattern a (azimuth x y - a.rxRad) + pattern a (azimuth y x - azimuth y x), a)
  | _, _ => (0, a)

/-! ## The channel's loop over the devices -/

/-- A device as far as gains are concerned. -/
structure Dev where
  phy : Nat
  pos : ℂ
  ant : Ant

/-- Conversion of the mode, a `double`, to `bool`. -/
noncomputable def toBool (m : ℝ) : Bool := open Classical in decide (m ≠ 0)

/-- `m_Rxorientation` before the call of `GetAntennaGain` (model/thz-channel.cc:144-155), where `o` is its old value. -/
noncomputable def chooseOrient (x y : Dev) (o : ℝ) : ℝ :=
  open Classical in
  if x.ant.mode = 1 ∧ y.ant.mode = 0 then x.ant.rxRad
  else if x.ant.mode = 0 ∧ y.ant.mode = 1 then y.ant.rxRad
  else if x.ant.mode = 2 ∧ y.ant.mode = 2 then 0
  else o

/-- The loop of `SendPacket` over the devices (model/thz-channel.cc:135-182) as far as antennas and gains are concerned:
sender `x`, `m_Rxorientation` is `o`.  Result: `m_Rxorientation`, and the devices with the gain of the link to them (none for
the sender). -/
noncomputable def gains (x : Dev) : ℝ → List Dev → ℝ × List (Dev × Option (WithBot ℝ))
  | o, [] => (o, [])
  | o, d :: rest =>
    if x.phy = d.phy then
      let r := gains x o rest
      (r.1, (d, none) :: r.2)
    else
      let o' := chooseOrient x d o
      let g := getAntennaGain x.pos d.pos (toBool x.ant.mode) (toBool d.ant.mode) o' d.ant
      let r := gains x o' rest
      (r.1, ({ d with ant := g.2 }, some g.1) :: r.2)

end Thz.Antenna
