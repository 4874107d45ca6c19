import Mathlib.Data.Rat.Defs

/-!
# Model of `THzEnergyModel` (model/thz-energy-model.cc)

`double` values are exact rationals (floating-point rounding is not modelled).
-/

namespace Thz

/-- Attributes of `THzEnergyModel` (model/thz-energy-model.cc:51-86). -/
structure EParams where
  initial : ℚ      -- THzEnergyModelInitialEnergy
  threshold : ℚ    -- DataCallbackEnergy
  harvest : ℚ      -- EnergyHarvestingAmount
  pulseTx : ℚ      -- EnergyConsumptionPulseTx
  pulseRx : ℚ      -- EnergyConsumptionPulseRx
  weight : ℚ       -- CodingWeight

/-- The default attribute values (model/thz-energy-model.cc:53,59,64,74,79,84). -/
def EParams.default : EParams := ⟨0, 65, 1, 1/8, 1/80, 1/2⟩

/-- `energyBook` / `energyReturn` (model/thz-energy-model.cc:190-191, 207-208). -/
def EParams.cost (p : EParams) (tx rx : ℚ) : ℚ :=
  tx * 8 * p.pulseTx * p.weight + rx * 8 * p.pulseRx

/-- `THzEnergyModel::BookEnergy` (model/thz-energy-model.cc:185-201): answer and new remaining energy. -/
def EParams.book (p : EParams) (rem tx rx : ℚ) : Bool × ℚ :=
  if rem - p.cost tx rx ≥ 0 then (true, rem - p.cost tx rx) else (false, rem)

/-- `THzEnergyModel::ReturnEnergy` (model/thz-energy-model.cc:203-212). -/
def EParams.ret (p : EParams) (rem tx rx : ℚ) : ℚ := rem + p.cost tx rx

/-- `THzEnergyModel::HarvestEnergy` (model/thz-energy-model.cc:149-168), before the simulation is
finished: whether the energy callback runs, and the new remaining energy. -/
def EParams.harvestStep (p : EParams) (rem : ℚ) : Bool × ℚ :=
  (rem + p.harvest = p.threshold, rem + p.harvest)

/-- The operations on an energy model.  `DoInitialize` (171-177) sets the remaining energy to the
initial energy and harvests once; the harvest event then repeats (164). -/
inductive EOp
  | harvest
  | book (tx rx : ℚ)
  | ret (tx rx : ℚ)

/-- What a caller observes of one operation. -/
inductive EObs
  | harvested (callback : Bool)
  | booked (granted : Bool) (tx rx : ℚ)
  | returned (tx rx : ℚ)

/-- One operation (dispatch only). -/
def EParams.step (p : EParams) (rem : ℚ) : EOp → EObs × ℚ
  | .harvest => (.harvested (p.harvestStep rem).1, (p.harvestStep rem).2)
  | .book tx rx => (.booked (p.book rem tx rx).1 tx rx, (p.book rem tx rx).2)
  | .ret tx rx => (.returned tx rx, p.ret rem tx rx)

/-- A run: the observations in order and the final remaining energy. -/
def EParams.run (p : EParams) (rem : ℚ) : List EOp → List EObs × ℚ
  | [] => ([], rem)
  | o :: os =>
    let r := p.step rem o
    let r2 := p.run r.2 os
    (r.1 :: r2.1, r2.2)

end Thz
