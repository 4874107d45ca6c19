import Verif.Energy
import Mathlib.Tactic.Linarith
import Mathlib.Tactic.Ring
import Mathlib.Tactic.Positivity
import Mathlib.Tactic.NormNum
import Mathlib.Tactic.FieldSimp
import Mathlib.Algebra.Order.Field.Rat

/-!
# C07–C10: the energy store
-/

namespace Thz

/-- Parameters make sense: nothing negative. -/
structure EParams.Sane (p : EParams) : Prop where
  initial : 0 ≤ p.initial
  harvest : 0 ≤ p.harvest
  pulseTx : 0 ≤ p.pulseTx
  pulseRx : 0 ≤ p.pulseRx
  weight : 0 ≤ p.weight

/-- Byte counts in refunds are not negative. -/
def EOp.Sane : EOp → Prop
  | .harvest => True
  | .book _ _ => True
  | .ret tx rx => 0 ≤ tx ∧ 0 ≤ rx

/-- Energy needed to send `tx` and receive `rx` bytes: 8 bits per byte, a transmitted bit costs a pulse
with probability `weight` (specification, written independently of the model's `cost`). -/
def energyFor (p : EParams) (tx rx : ℚ) : ℚ :=
  8 * tx * (p.weight * p.pulseTx) + 8 * rx * p.pulseRx

theorem cost_eq (p : EParams) (tx rx : ℚ) : p.cost tx rx = energyFor p tx rx := by
  unfold EParams.cost energyFor; ring

theorem cost_nonneg (p : EParams) (hp : p.Sane) (tx rx : ℚ) (h1 : 0 ≤ tx) (h2 : 0 ≤ rx) :
    0 ≤ p.cost tx rx := by
  have := hp.pulseTx; have := hp.pulseRx; have := hp.weight
  unfold EParams.cost; positivity

/-- **C08.** A booking is granted exactly when the stored energy covers the cost; then exactly the
cost is subtracted, otherwise nothing changes. -/
theorem C08_book_all_or_nothing (p : EParams) (rem tx rx : ℚ) :
    ((p.book rem tx rx).1 = true ↔ energyFor p tx rx ≤ rem) ∧
    ((p.book rem tx rx).1 = true → (p.book rem tx rx).2 = rem - energyFor p tx rx) ∧
    ((p.book rem tx rx).1 = false → (p.book rem tx rx).2 = rem ∧ rem < energyFor p tx rx) := by
  unfold EParams.book
  rw [cost_eq]
  by_cases h : rem - energyFor p tx rx ≥ 0
  · rw [if_pos h]
    exact ⟨⟨fun _ => by linarith, fun _ => rfl⟩, fun _ => rfl, fun h => by simp at h⟩
  · rw [if_neg h]
    exact ⟨⟨fun h => by simp at h, fun h2 => absurd (by linarith) h⟩, fun h => by simp at h,
      fun _ => ⟨rfl, by linarith⟩⟩

/-- Boundary case: exactly enough energy is granted and leaves zero. -/
example : EParams.default.book (energyFor EParams.default 100 17) 100 17 = (true, 0) := by
  norm_num [EParams.book, EParams.default, energyFor, EParams.cost]

theorem run_nonneg (p : EParams) (hp : p.Sane) (ops : List EOp) (hops : ∀ o ∈ ops, o.Sane) (rem : ℚ)
    (h0 : 0 ≤ rem) : 0 ≤ (p.run rem ops).2 := by
  induction ops generalizing rem with
  | nil => exact h0
  | cons o os ih =>
    have hos : ∀ o' ∈ os, o'.Sane := fun o' h => hops o' (List.mem_cons_of_mem _ h)
    refine ih hos _ ?_
    have ho := hops o (by simp)
    cases o with
    | harvest => have := hp.harvest; simp only [EParams.step, EParams.harvestStep]; linarith
    | book tx rx =>
      simp only [EParams.step, EParams.book]
      split <;> simp_all
    | ret tx rx =>
      have := cost_nonneg p hp tx rx ho.1 ho.2
      simp only [EParams.step, EParams.ret]; linarith

/-- **C07.** No sequence of harvests, bookings and refunds makes the stored energy negative; this holds after
every prefix because the theorem holds for every list. -/
theorem C07_energy_nonneg (p : EParams) (hp : p.Sane) (ops : List EOp) (hops : ∀ o ∈ ops, o.Sane) :
    0 ≤ (p.run p.initial ops).2 :=
  run_nonneg p hp ops hops _ hp.initial

example : EParams.default.Sane ∧ (∀ o ∈ [EOp.harvest, .book 100 17, .ret 0 18], o.Sane) := by
  refine ⟨⟨?_, ?_, ?_, ?_, ?_⟩, ?_⟩
  all_goals simp [EParams.default, EOp.Sane]

/-- Net flow of energy of one observed operation (specification). -/
def flow (p : EParams) : EObs → ℚ
  | .harvested _ => p.harvest
  | .booked granted tx rx => if granted then - energyFor p tx rx else 0
  | .returned tx rx => energyFor p tx rx

/-- **C09.** After any run the stored energy is the initial energy plus harvests minus granted bookings
plus refunds. -/
theorem C09_ledger (p : EParams) (rem : ℚ) (ops : List EOp) :
    (p.run rem ops).2 = rem + ((p.run rem ops).1.map (flow p)).sum := by
  induction ops generalizing rem with
  | nil => simp [EParams.run]
  | cons o os ih =>
    simp only [EParams.run, List.map_cons, List.sum_cons]
    rw [ih]
    have : (p.step rem o).2 = rem + flow p (p.step rem o).1 := by
      cases o with
      | harvest => simp [EParams.step, EParams.harvestStep, flow]
      | book tx rx =>
        simp only [EParams.step, flow]
        obtain ⟨_, h2, h3⟩ := C08_book_all_or_nothing p rem tx rx
        cases hb : (p.book rem tx rx).1 with
        | true => rw [h2 hb]; simp; ring
        | false => rw [(h3 hb).1]; simp
      | ret tx rx => simp [EParams.step, EParams.ret, flow, cost_eq]
    rw [this]; ring

example : (EParams.default.run 0 [.harvest, .harvest, .book 1 0, .ret 1 0, .book 1000 0]).2 = 2 := by
  norm_num [EParams.run, EParams.step, EParams.harvestStep, EParams.book, EParams.ret, EParams.cost,
    EParams.default]

/-- A harvest lifts the stored energy from below the threshold to at least the threshold. -/
def Crosses (p : EParams) (rem : ℚ) : Prop := rem < p.threshold ∧ p.threshold ≤ rem + p.harvest

/-- **C10, violated.** With the default parameters: after harvesting 65 units (the callback runs), the MAC books
a 100 byte packet with its acknowledgement (51.7 units).  From then on, however often energy is
harvested, the callback never runs again, although the threshold is crossed. -/
theorem C10_threshold_violated :
    let p := EParams.default
    let rem := (p.run p.initial (List.replicate 65 .harvest ++ [.book 100 17])).2
    (∃ n, Crosses p (p.run rem (List.replicate n .harvest)).2) ∧
    ∀ n, ∀ o ∈ (p.run rem (List.replicate n .harvest)).1, ∃ c, o = .harvested c ∧ c = false := by
  intro p rem
  have hh : ∀ (n : Nat) (r : ℚ), (p.run r (List.replicate n .harvest)).2 = r + n := by
    intro n
    induction n with
    | zero => intro r; simp [EParams.run]
    | succ n ih =>
      intro r
      rw [List.replicate_succ]
      simp only [EParams.run, ih]
      simp only [EParams.step, EParams.harvestStep, p, EParams.default]
      push_cast; ring
  have happ : ∀ (a b : List EOp) (r : ℚ), (p.run r (a ++ b)).2 = (p.run (p.run r a).2 b).2 := by
    intro a
    induction a with
    | nil => intro b r; rfl
    | cons o os ih => intro b r; simp [EParams.run, ih]
  have hrem : rem = 133 / 10 := by
    simp only [rem, happ, hh]
    norm_num [EParams.run, EParams.step, EParams.book, EParams.cost, p, EParams.default]
  refine ⟨⟨51, ?_⟩, ?_⟩
  · rw [hh, hrem]; norm_num [Crosses, p, EParams.default]
  · intro n
    suffices ∀ (r : ℚ), (∃ k : Nat, r = 133/10 + k) →
        ∀ o ∈ (p.run r (List.replicate n .harvest)).1, ∃ c, o = .harvested c ∧ c = false from
      this rem ⟨0, by simp [hrem]⟩
    induction n with
    | zero => intro r _ o ho; simp [EParams.run] at ho
    | succ n ih =>
      rintro r ⟨k, hk⟩ o ho
      rw [List.replicate_succ] at ho
      simp only [EParams.run, List.mem_cons] at ho
      rcases ho with rfl | ho
      · refine ⟨_, rfl, ?_⟩
        simp only [EParams.harvestStep, decide_eq_false_iff_not]
        intro he
        simp only [p, EParams.default] at he
        rw [hk] at he
        have : (133 + 10 * (k:ℚ) + 10) = 650 := by linarith
        have h3 : (133 + 10 * k + 10 : Nat) = 650 := by exact_mod_cast this
        omega
      · refine ih _ ⟨k + 1, ?_⟩ o ho
        simp only [EParams.step, EParams.harvestStep, p, EParams.default, hk]
        push_cast; ring

/-- All amounts that flow are whole multiples of the harvest amount. -/
def Granular (p : EParams) : EOp → Prop
  | .harvest => True
  | .book tx rx => ∃ k : Int, p.cost tx rx = k * p.harvest
  | .ret tx rx => ∃ k : Int, p.cost tx rx = k * p.harvest

/-- **C10, partial.** If the distance from the initial energy to the threshold and all booked and returned amounts
are whole multiples of the harvest amount, every crossing of the threshold runs the callback.
(Missing: the general case, which is false, see `C10_threshold_violated`.) -/
theorem C10_threshold_partial (p : EParams) (hh : 0 < p.harvest)
    (h0 : ∃ k : Int, p.threshold - p.initial = k * p.harvest)
    (ops : List EOp) (hops : ∀ o ∈ ops, Granular p o)
    (hc : Crosses p (p.run p.initial ops).2) :
    (p.step (p.run p.initial ops).2 .harvest).1 = .harvested true := by
  suffices ∀ rem, (∃ k : Int, p.threshold - rem = k * p.harvest) →
      ∃ k : Int, p.threshold - (p.run rem ops).2 = k * p.harvest by
    obtain ⟨k, hk⟩ := this _ h0
    obtain ⟨c1, c2⟩ := hc
    have k1 : (0:ℚ) < k := by
      have : 0 < (k:ℚ) * p.harvest := by linarith
      exact (pos_iff_pos_of_mul_pos this).mpr hh
    have k2 : (k:ℚ) ≤ 1 := by
      have : (k:ℚ) * p.harvest ≤ 1 * p.harvest := by linarith
      exact le_of_mul_le_mul_right this hh
    have k1' : 0 < k := by exact_mod_cast k1
    have k2' : k ≤ 1 := by exact_mod_cast k2
    have : k = 1 := by omega
    subst this
    simp only [EParams.step, EParams.harvestStep]
    congr 1
    simp only [decide_eq_true_eq]
    push_cast at hk
    linarith
  clear hc h0
  induction ops with
  | nil => intro rem h; exact h
  | cons o os ih =>
    intro rem ⟨k, hk⟩
    simp only [EParams.run]
    refine ih (fun o' h => hops o' (List.mem_cons_of_mem _ h)) _ ?_
    have ho := hops o (by simp)
    cases o with
    | harvest =>
      refine ⟨k - 1, ?_⟩
      simp only [EParams.step, EParams.harvestStep]; push_cast; linarith
    | book tx rx =>
      obtain ⟨j, hj⟩ := ho
      simp only [EParams.step, EParams.book]
      split
      · refine ⟨k + j, ?_⟩; push_cast; rw [hj]; linarith
      · exact ⟨k, hk⟩
    | ret tx rx =>
      obtain ⟨j, hj⟩ := ho
      refine ⟨k - j, ?_⟩
      simp only [EParams.step, EParams.ret, hj]; push_cast; linarith

/-- Non-vacuity: default parameters, a 2 byte booking (1 unit). -/
example : Granular EParams.default (.book 2 0) ∧
    (∃ k : Int, EParams.default.threshold - EParams.default.initial = k * EParams.default.harvest) := by
  refine ⟨⟨1, ?_⟩, ⟨65, ?_⟩⟩ <;> norm_num [EParams.default, EParams.cost]

end Thz
