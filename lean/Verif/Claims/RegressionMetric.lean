import Verif.Discover.RegressionMetric
import Verif.Claims.Reward
/-! C92: what the regression reward measures. -/
namespace Verif.Discover.RegressionMetric.Claims
open Verif.Discover.Reward Verif.Discover.Reward.Claims Verif.Discover.RegressionMetric

/-- No penalty is charged, or a positive share of the reward is left. -/
def Affordable (coeff : ℝ) (n : Nat) : Prop := coeff * n < 1

theorem floor_pos (y : List ℝ) : 0 < max (var y) (1 / 10 ^ 12) := lt_max_of_lt_right (by norm_num)

theorem acc_pos (y z : List ℝ) : 0 < 1 / (1 + Real.sqrt (mse y z / max (var y) (1 / 10 ^ 12))) := by
  have := Real.sqrt_nonneg (mse y z / max (var y) (1 / 10 ^ 12))
  positivity

theorem acc_le (y z : List ℝ) : 1 / (1 + Real.sqrt (mse y z / max (var y) (1 / 10 ^ 12))) ≤ 1 := by
  have := Real.sqrt_nonneg (mse y z / max (var y) (1 / 10 ^ 12))
  rw [div_le_one (by linarith)]; linarith

theorem acc_one {y z : List ℝ} (hl : y.length = z.length) :
    1 / (1 + Real.sqrt (mse y z / max (var y) (1 / 10 ^ 12))) = 1 ↔ z = y := by
  have h0 := Real.sqrt_nonneg (mse y z / max (var y) (1 / 10 ^ 12))
  rw [div_eq_one_iff_eq (by linarith)]
  constructor
  · intro h
    have h1 : Real.sqrt (mse y z / max (var y) (1 / 10 ^ 12)) = 0 := by linarith
    have hn := div_nonneg (mse_nonneg y z) (floor_pos y).le
    rw [Real.sqrt_eq_zero hn, div_eq_zero_iff] at h1
    rcases h1 with h1 | h1
    · exact ((mse_zero_iff hl).1 h1).symm
    · exact absurd h1 (floor_pos y).ne'
  · rintro rfl
    rw [(mse_zero_iff rfl).2 rfl]; simp

theorem metric_eq (coeff : ℝ) (hc : 0 ≤ coeff) (y z : List ℝ) (n : Nat) :
    metric coeff y z n = 1 / (1 + Real.sqrt (mse y z / max (var y) (1 / 10 ^ 12))) * max 0 (1 - coeff * n) := by
  unfold metric
  simp only
  by_cases h : coeff > 0 ∧ n > 0
  · rw [if_pos h]
  · rw [if_neg h]
    have : coeff * n = 0 := by
      by_cases h1 : coeff > 0
      · have : n = 0 := by by_contra h2; exact h ⟨h1, Nat.pos_of_ne_zero h2⟩
        simp [this]
      · have : coeff = 0 := le_antisymm (not_lt.1 h1) hc
        simp [this]
    rw [this]; simp

/-- **C92** (range): the reward lies between 0 (the reward of invalid programs) and 1, for all data and predictions, also for
constant targets; it is positive while the penalty is affordable. -/
theorem C92_range (coeff : ℝ) (hc : 0 ≤ coeff) (y z : List ℝ) (n : Nat) :
    0 ≤ metric coeff y z n ∧ metric coeff y z n ≤ 1 ∧ (Affordable coeff n → 0 < metric coeff y z n) := by
  rw [metric_eq coeff hc]
  have h1 := acc_pos y z
  have h2 := acc_le y z
  have h5 : 0 ≤ coeff * n := by positivity
  have h3 : max 0 (1 - coeff * (n : ℝ)) ≤ 1 := max_le (by norm_num) (by linarith)
  have h4 : 0 ≤ max 0 (1 - coeff * (n : ℝ)) := le_max_left _ _
  refine ⟨mul_nonneg h1.le h4, ?_, fun h => ?_⟩
  · calc _ ≤ 1 * 1 := mul_le_mul h2 h3 h4 (by norm_num)
      _ = 1 := by norm_num
  · exact mul_pos h1 (lt_max_of_lt_right (by unfold Affordable at h; linarith))

/-- **C92** (choice): `inv_nrmse` is the only reward a user can choose, and every reward lies between the two numbers it is made with, the reward of
invalid programs and the largest reward. -/
theorem C92_choice (name : String) (inv top : ℚ) (h : makeMetric name = some (inv, top)) (coeff : ℝ) (hc : 0 ≤ coeff) (y z : List ℝ) (n : Nat) :
    name = "inv_nrmse" ∧ (inv : ℝ) ≤ metric coeff y z n ∧ metric coeff y z n ≤ (top : ℝ) ∧ metric coeff y y 0 = (top : ℝ) := by
  unfold makeMetric at h
  by_cases hn : name = "inv_nrmse"
  · rw [if_pos hn] at h
    simp only [Option.some.injEq, Prod.mk.injEq] at h
    obtain ⟨rfl, rfl⟩ := h
    have := C92_range coeff hc y z n
    refine ⟨hn, by simpa using this.1, by simpa using this.2.1, ?_⟩
    have he := acc_one (y := y) (z := y) rfl
    simpa [metric] using he.2 rfl
  · rw [if_neg hn] at h
    nomatch h

example : makeMetric "inv_nrmse" = some (0, 1) := rfl

/-- **C92** (perfect fit): the reward is 1 exactly for a prediction equal to the data that is not charged for its length. -/
theorem C92_one_iff (coeff : ℝ) (hc : 0 ≤ coeff) (y z : List ℝ) (n : Nat) (hl : y.length = z.length) :
    metric coeff y z n = 1 ↔ z = y ∧ coeff * n = 0 := by
  rw [metric_eq coeff hc]
  have h1 := acc_pos y z
  have h2 := acc_le y z
  have h5 : 0 ≤ coeff * n := by positivity
  have h3 : max 0 (1 - coeff * (n : ℝ)) ≤ 1 := max_le (by norm_num) (by linarith)
  have h4 : 0 ≤ max 0 (1 - coeff * (n : ℝ)) := le_max_left _ _
  constructor
  · intro h
    have ha : 1 / (1 + Real.sqrt (mse y z / max (var y) (1 / 10 ^ 12))) = 1 := by
      apply le_antisymm h2
      nlinarith
    rw [ha, one_mul] at h
    refine ⟨(acc_one hl).1 ha, ?_⟩
    rcases max_choice 0 (1 - coeff * (n : ℝ)) with h6 | h6 <;> rw [h6] at h <;> linarith
  · rintro ⟨h, h6⟩
    rw [(acc_one hl).2 h, h6]; simp

/-- **C92** (order): for programs of one length, a smaller error means a strictly larger reward while the penalty is
affordable. -/
theorem C92_monotone (coeff : ℝ) (hc : 0 ≤ coeff) (y z z' : List ℝ) (n : Nat) (ha : Affordable coeff n) :
    mse y z < mse y z' ↔ metric coeff y z' n < metric coeff y z n := by
  rw [metric_eq coeff hc, metric_eq coeff hc]
  have hp : 0 < max 0 (1 - coeff * (n : ℝ)) := lt_max_of_lt_right (by unfold Affordable at ha; linarith)
  rw [mul_lt_mul_iff_left₀ hp]
  have h1 := Real.sqrt_nonneg (mse y z / max (var y) (1 / 10 ^ 12))
  have h2 := Real.sqrt_nonneg (mse y z' / max (var y) (1 / 10 ^ 12))
  rw [one_div_lt_one_div (by linarith) (by linarith), add_lt_add_iff_left,
    Real.sqrt_lt_sqrt_iff (div_nonneg (mse_nonneg _ _) (floor_pos y).le), div_lt_div_iff_of_pos_right (floor_pos y)]

/-- **C92** (parsimony): with the same predictions a longer program never gets a larger reward, and a strictly smaller one
while the shorter is affordable and a penalty is set. -/
theorem C92_parsimony (coeff : ℝ) (hc : 0 ≤ coeff) (y z : List ℝ) (n m : Nat) (hnm : n < m) :
    metric coeff y z m ≤ metric coeff y z n ∧
      (0 < coeff → Affordable coeff n → metric coeff y z m < metric coeff y z n) := by
  rw [metric_eq coeff hc, metric_eq coeff hc]
  have h1 := acc_pos y z
  have hcast : (n : ℝ) < m := by exact_mod_cast hnm
  refine ⟨mul_le_mul_of_nonneg_left (max_le_max le_rfl (by nlinarith)) h1.le, fun h ha => ?_⟩
  unfold Affordable at ha
  apply mul_lt_mul_of_pos_left _ h1
  rw [max_eq_right (by linarith : (0 : ℝ) ≤ 1 - coeff * n)]
  exact max_lt (by linarith) (by nlinarith)

/-- **C92, counterexample** Programs longer than `1/coeff` all get reward 0, the reward of invalid programs, even if they fit the
data exactly. -/
theorem C92_long_counterexample (coeff : ℝ) (hc : 0 < coeff) (y : List ℝ) (n : Nat) (hn : 1 ≤ coeff * n) :
    metric coeff y y n = 0 := by
  rw [metric_eq coeff hc.le, max_eq_left (by linarith : 1 - coeff * (n : ℝ) ≤ 0), mul_zero]

/-- **C92** (units): changing the unit of the target does not change the reward as long as the variance stays above the
floor `1e-12`. -/
theorem C92_units_partial (coeff : ℝ) (hc : 0 ≤ coeff) (c : ℝ) (hne : c ≠ 0) (y z : List ℝ) (n : Nat)
    (h1 : 1 / 10 ^ 12 ≤ var y) (h2 : 1 / 10 ^ 12 ≤ var (y.map fun a => c * a)) :
    metric coeff (y.map fun a => c * a) (z.map fun a => c * a) n = metric coeff y z n := by
  have h := C72_units 0 c hne y z 0
  unfold pdeReward at h
  simp only [zero_mul, sub_zero] at h
  rw [metric_eq coeff hc, metric_eq coeff hc, max_eq_left h1, max_eq_left h2, h]

/-- **C92, counterexample** For targets of a small scale the floor takes over: predicting the constant mean of data with variance
`1e-14` (standard deviation `1e-7`) gets a reward above 0.9, while above the floor it gets 1/2. -/
theorem C92_small_targets_counterexample :
    (∃ y z : List ℝ, NonConstant y ∧ z = y.map (fun _ => mean y) ∧ 9 / 10 < metric 0 y z 1) ∧
    ∀ y : List ℝ, 1 / 10 ^ 12 ≤ var y → metric 0 y (y.map fun _ => mean y) 1 = 1 / 2 := by
  have hz : ∀ y : List ℝ, mse y (y.map fun _ => mean y) = var y := by
    intro y
    unfold mse var
    congr 1
    rw [List.zipWith_map_right, List.zipWith_self]
  constructor
  · refine ⟨[1 / 10 ^ 7, -1 / 10 ^ 7], _, ⟨1 / 10 ^ 7, by simp, -1 / 10 ^ 7, by simp, by norm_num⟩, rfl, ?_⟩
    rw [metric_eq 0 le_rfl, hz]
    have hv : var [1 / 10 ^ 7, -1 / 10 ^ 7] = 1 / 10 ^ 14 := by
      unfold var mean; norm_num
    rw [hv, max_eq_right (by norm_num)]
    have hs : Real.sqrt (1 / 10 ^ 14 / (1 / 10 ^ 12)) = 1 / 10 := by
      rw [show (1 : ℝ) / 10 ^ 14 / (1 / 10 ^ 12) = (1 / 10) ^ 2 by norm_num]
      exact Real.sqrt_sq (by norm_num)
    rw [hs]; norm_num
  · intro y hy
    rw [metric_eq 0 le_rfl, hz, max_eq_left hy, div_self (lt_of_lt_of_le (by norm_num) hy).ne']
    norm_num

example : Affordable (1 / 100) 15 ∧ ¬ Affordable (1 / 10) 15 := by
  unfold Affordable; norm_num

end Verif.Discover.RegressionMetric.Claims
