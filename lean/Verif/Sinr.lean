import Mathlib.Analysis.SpecialFunctions.Log.Base
import Verif.PhyMacro
import Verif.PhyNano

/-!
# The SINR tests of the two PHYs (C85)

The models of the PHYs take the SINR test as a parameter; here are the tests the code makes, on real numbers instead of
`double`s.  Powers are in dBm; `floor` is the channel's `NoiseFloor`, `th` the PHY's `SinrTh`.
-/

namespace Thz.Sinr

open Real

/-- `DbmToW` (model/thz-channel.cc:233-238, model/thz-phy-nano.cc:495-500). -/
noncomputable def dbmToW (dbm : ℝ) : ℝ := (10 : ℝ) ^ (dbm / 10) / 1000

/-- `GetNoiseW` (model/thz-channel.cc:225-231). -/
noncomputable def getNoiseW (floor interference : ℝ) : ℝ := dbmToW floor + interference

/-- The test of the macro PHY (model/thz-phy-macro.cc:348-371). -/
noncomputable def macroSinr (floor th r : ℝ) (is : List ℝ) : Bool :=
  decide (10 * logb 10 (dbmToW r / getNoiseW floor (is.map dbmToW).sum) > th)

/-- The test of the nano PHY (model/thz-phy-nano.cc:401-405, 417-421), on a signal and an interference in watts. -/
noncomputable def nanoBad (floor th s i : ℝ) : Bool := decide (s / getNoiseW floor i < th)

/-- The macro PHY with these tests. -/
noncomputable def macroCfg (floor th cs : ℝ) (ns : ℤ) : PhyMacro.Cfg ℝ :=
  { loud := fun r => decide (r > cs), sinr := macroSinr floor th, ns := ns }

/-- The nano PHY with these tests. -/
noncomputable def nanoCfg (floor th : ℝ) (p ts : ℤ) : PhyNano.Cfg ℝ := { p := p, ts := ts, bad := nanoBad floor th }

theorem dbmToW_pos (r : ℝ) : 0 < dbmToW r := by unfold dbmToW; positivity

theorem ratio (r f : ℝ) : dbmToW r / dbmToW f = (10 : ℝ) ^ ((r - f) / 10) := by
  unfold dbmToW
  rw [div_div_div_cancel_right₀ (by norm_num), ← rpow_sub (by norm_num), sub_div]

/-- **C85, macro PHY.**  A frame that arrives alone and is heard is handed up as received if it is more than `SinrTh`
dB stronger than the noise floor, and otherwise reported as failed. -/
theorem C85_macro (floor th cs r : ℝ) (ns : ℤ) (hn : 0 ≤ ns) (d : Nat) (hd : 0 < d) (hr : r > cs) :
    let log := (PhyMacro.after (macroCfg floor th cs ns) [.arrive d r, .fire 0]).log
    (PhyMacro.Obs.notice d 0 true ∈ log ↔ r - floor > th) ∧ (PhyMacro.Obs.notice d 0 false ∈ log ↔ ¬ r - floor > th) := by
  have h1 : (0 : ℤ) < d := by omega
  have hs : macroSinr floor th r [] = decide (r - floor > th) := by
    unfold macroSinr getNoiseW
    simp only [List.map_nil, List.sum_nil, add_zero]
    rw [ratio, logb_rpow (by norm_num) (by norm_num), mul_div_cancel₀ _ (by norm_num : (10 : ℝ) ≠ 0)]
  have h2 : ((d : ℤ) ≤ d + ns) := by omega
  by_cases hg : r - floor > th
  · simp [PhyMacro.after, PhyMacro.step, PhyMacro.receivePacket, PhyMacro.sense, PhyMacro.init, PhyMacro.St.emit, macroCfg, hr,
      PhyMacro.fire, PhyMacro.runEv, PhyMacro.receivePacketDone, PhyMacro.conclude, PhyMacro.interferers, hs, hg, hd, h2]
  · simp [PhyMacro.after, PhyMacro.step, PhyMacro.receivePacket, PhyMacro.sense, PhyMacro.init, PhyMacro.St.emit, macroCfg, hr,
      PhyMacro.fire, PhyMacro.runEv, PhyMacro.receivePacketDone, PhyMacro.conclude, PhyMacro.interferers, hs, hg, hd, h2]

/-- With interference: the test is passed exactly if the power is more than `SinrTh` dB above that of the noise and the
interferers together. -/
theorem C85_macro_interference (floor th r : ℝ) (is : List ℝ) :
    macroSinr floor th r is = true ↔ dbmToW r > (10 : ℝ) ^ (th / 10) * (dbmToW floor + (is.map dbmToW).sum) := by
  have h0 : 0 ≤ (is.map dbmToW).sum := List.sum_nonneg (by
    intro x hx
    obtain ⟨y, _, rfl⟩ := List.mem_map.1 hx
    exact (dbmToW_pos y).le)
  have hn : 0 < dbmToW floor + (is.map dbmToW).sum := by linarith [dbmToW_pos floor]
  unfold macroSinr getNoiseW
  rw [decide_eq_true_eq, gt_iff_lt, gt_iff_lt, ← lt_div_iff₀ hn, ← div_lt_iff₀' (by norm_num : (0 : ℝ) < 10),
    lt_logb_iff_rpow_lt (by norm_num) (div_pos (dbmToW_pos r) hn)]

/-- A frame of this power (dBm) that arrives alone at a fresh nano PHY. -/
noncomputable def alone (floor th r : ℝ) (p ts : ℤ) (d : Nat) : List (PhyNano.Obs ℝ) :=
  (PhyNano.after (nanoCfg floor th p ts) [.arrive d (dbmToW r) 0, .fire 0]).log

theorem alone_eq (floor th r : ℝ) (p ts : ℤ) (d : Nat) :
    alone floor th r p ts d = [.arrived 0 0 d (dbmToW r) 0, .notice d 0 (!decide ((10 : ℝ) ^ ((r - floor) / 10) < th))] := by
  simp [alone, PhyNano.after, PhyNano.step, PhyNano.receivePacket, PhyNano.disturb, PhyNano.interference, PhyNano.init,
    PhyNano.St.emit, nanoCfg, nanoBad, getNoiseW, ratio, PhyNano.fire, PhyNano.runEv, PhyNano.receivePacketDone]

/-- **C85 fails for the nano PHY**: with a threshold of 20, documented as dB, a frame only 15 dB above the noise floor is
received, because the threshold is compared with the ratio itself. -/
theorem C85_nano_violated (floor : ℝ) (p ts : ℤ) (d : Nat) :
    PhyNano.Obs.notice d 0 true ∈ alone floor 20 (floor + 15) p ts d := by
  rw [alone_eq]
  have : ¬ (10 : ℝ) ^ ((15 : ℝ) / 10) < 20 := by
    rw [not_lt]
    have h : ((10 : ℝ) ^ ((15 : ℝ) / 10)) ^ 2 = 1000 := by
      rw [← rpow_natCast, ← rpow_mul (by norm_num)]
      norm_num
    have h0 : 0 ≤ (10 : ℝ) ^ ((15 : ℝ) / 10) := by positivity
    nlinarith
  simp [this]

/-- And with a negative threshold (SINR below 0 dB acceptable) every frame is received, however weak. -/
theorem C85_negative_violated (floor th r : ℝ) (h : th ≤ 0) (p ts : ℤ) (d : Nat) :
    PhyNano.Obs.notice d 0 true ∈ alone floor th r p ts d := by
  rw [alone_eq]
  have : ¬ (10 : ℝ) ^ ((r - floor) / 10) < th := by
    have : 0 < (10 : ℝ) ^ ((r - floor) / 10) := by positivity
    linarith
  simp [this]

/-- What holds for the nano PHY: the threshold is a ratio: a frame that arrives alone is received exactly if it is at least
`10 log10 SinrTh` dB above the noise floor. -/
theorem C85_nano_partial (floor th r : ℝ) (h : 0 < th) (p ts : ℤ) (d : Nat) :
    (PhyNano.Obs.notice d 0 true ∈ alone floor th r p ts d ↔ 10 * logb 10 th ≤ r - floor) ∧
    (PhyNano.Obs.notice d 0 false ∈ alone floor th r p ts d ↔ ¬ 10 * logb 10 th ≤ r - floor) := by
  have : 10 * logb 10 th ≤ r - floor ↔ th ≤ (10 : ℝ) ^ ((r - floor) / 10) := by
    rw [← le_div_iff₀' (by norm_num : (0 : ℝ) < 10), logb_le_iff_le_rpow (by norm_num) h]
  rw [alone_eq, this]
  by_cases hg : th ≤ (10 : ℝ) ^ ((r - floor) / 10)
  · have : ¬ (10 : ℝ) ^ ((r - floor) / 10) < th := not_lt.2 hg
    simp [this, hg]
  · have : (10 : ℝ) ^ ((r - floor) / 10) < th := not_le.1 hg
    simp [this]

/-- With the default threshold 10 ratio and dB agree. -/
theorem C85_default_partial (floor r : ℝ) (p ts : ℤ) (d : Nat) :
    PhyNano.Obs.notice d 0 true ∈ alone floor 10 r p ts d ↔ 10 ≤ r - floor := by
  rw [(C85_nano_partial floor 10 r (by norm_num) p ts d).1, logb_self_eq_one (by norm_num), mul_one]

/-- A frame 11 dB above the floor is received, one 9 dB above is not. -/
example : PhyNano.Obs.notice 5 0 true ∈ alone (-100) 10 (-89) 100 10000 5 ∧
    PhyNano.Obs.notice 5 0 true ∉ alone (-100) 10 (-91) 100 10000 5 :=
  ⟨(C85_default_partial (-100) (-89) 100 10000 5).2 (by norm_num),
   fun h => absurd ((C85_default_partial (-100) (-91) 100 10000 5).1 h) (by norm_num)⟩

/-- The macro PHY with its default threshold: 11 dB is enough, 9 dB is not. -/
example : PhyMacro.Obs.notice 5 0 true ∈ (PhyMacro.after (macroCfg (-100) 10 (-110) 1) [.arrive 5 (-89), .fire 0]).log ∧
    PhyMacro.Obs.notice 5 0 true ∉ (PhyMacro.after (macroCfg (-100) 10 (-110) 1) [.arrive 5 (-91), .fire 0]).log :=
  ⟨(C85_macro (-100) 10 (-110) (-89) 1 (by decide) 5 (by decide) (by norm_num)).1.2 (by norm_num),
   fun h => absurd ((C85_macro (-100) 10 (-110) (-91) 1 (by decide) 5 (by decide) (by norm_num)).1.1 h) (by norm_num)⟩

end Thz.Sinr
