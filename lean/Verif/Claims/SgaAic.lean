import Verif.Sga.Aic
/-!
# C177: SGA's score
-/
namespace Verif.Sga.Aic.Claims
open Verif.Sga.Aic

/-- **C177**: with as many nonzero coefficients, the candidate with the smaller error has the smaller score. -/
theorem C177_error (ratio : ℝ) (w w' : List ℝ) (hk : nonzero w = nonzero w') (e e' : ℝ) (he : 0 ≤ e) (he' : 0 ≤ e') :
    aic ratio w e < aic ratio w' e' ↔ e < e' := by
  unfold aic
  rcases eq_or_lt_of_le he with h | h
  · rw [if_pos h.symm]
    rcases eq_or_lt_of_le he' with h' | h'
    · rw [if_pos h'.symm, ← h, ← h']; simp
    · rw [if_neg h'.ne', ← h]
      exact ⟨fun _ => h', fun _ => EReal.bot_lt_coe _⟩
  · rw [if_neg h.ne']
    rcases eq_or_lt_of_le he' with h' | h'
    · rw [if_pos h'.symm, ← h']; simp [h.le]
    · rw [if_neg h'.ne', EReal.coe_lt_coe_iff, hk, add_lt_add_iff_left, mul_lt_mul_iff_right₀ (by norm_num : (0:ℝ) < 2)]
      exact Real.log_lt_log_iff h h'

/-- **C177**: with the same positive error, fewer nonzero coefficients give the smaller score
(positive ratio); one more is worth a factor `exp ratio` in the error. -/
theorem C177_size (ratio : ℝ) (w w' : List ℝ) (e e' : ℝ) (he : 0 < e) (he' : 0 < e') :
    aic ratio w e < aic ratio w' e' ↔ e * Real.exp (ratio * nonzero w) < e' * Real.exp (ratio * nonzero w') := by
  unfold aic
  rw [if_neg he.ne', if_neg he'.ne', EReal.coe_lt_coe_iff]
  rw [← Real.log_lt_log_iff (mul_pos he (Real.exp_pos _)) (mul_pos he' (Real.exp_pos _)),
    Real.log_mul he.ne' (Real.exp_pos _).ne', Real.log_mul he'.ne' (Real.exp_pos _).ne', Real.log_exp, Real.log_exp]
  constructor <;> intro h <;> linarith

/-- **C177**: an equation that fits exactly has the least possible score.
Partial, of the whole claim: Fails: candidates with a score below -100, so every exact equation, are thrown away while the first population is drawn; exact equations of different size tie at minus infinity; the rest is proved over the reals. -/
theorem C177_exact_least_partial (ratio : ℝ) (w w' : List ℝ) (res : List ℝ) (h : ∀ x ∈ res, x = 0) (e' : ℝ) : aic ratio w (mse res) ≤ aic ratio w' e' := by
  have : mse res = 0 := by
    unfold mse
    rw [List.sum_eq_zero (by intro x hx; obtain ⟨a, ha, rfl⟩ := List.mem_map.1 hx; rw [h a ha]; simp), zero_div]
  unfold aic
  rw [if_pos this]
  exact bot_le

/-- **C177** in terms of the residuals: of two equations with as many nonzero coefficients on the same number of points, the one with the smaller sum of squared
residuals has the smaller score. -/
theorem C177_residuals (ratio : ℝ) (w w' : List ℝ) (hk : nonzero w = nonzero w') (res res' : List ℝ) (hl : res.length = res'.length) (h0 : res ≠ []) :
    aic ratio w (mse res) < aic ratio w' (mse res') ↔ (res.map fun x => x * x).sum < (res'.map fun x => x * x).sum := by
  have hp : (0 : ℝ) < res'.length := by rw [← hl]; exact_mod_cast List.length_pos_iff.2 h0
  have hs : ∀ l : List ℝ, (l.map fun x => x ^ 2) = l.map fun x => x * x := fun l => List.map_congr_left fun x _ => by ring
  have hnn : ∀ l : List ℝ, 0 ≤ (l.map fun x => x * x).sum := fun l => List.sum_nonneg (by
    intro x hx; obtain ⟨a, _, rfl⟩ := List.mem_map.1 hx; exact mul_self_nonneg a)
  rw [C177_error ratio w w' hk _ _ (by unfold mse; rw [hs]; exact div_nonneg (hnn _) (Nat.cast_nonneg _)) (by unfold mse; rw [hs]; exact div_nonneg (hnn _) (Nat.cast_nonneg _))]
  unfold mse
  rw [hs, hs, hl, div_lt_div_iff_of_pos_right hp]

example : nonzero [1, 0] = nonzero [0, 2] ∧ ([1, -2] : List ℝ).length = ([2, -2] : List ℝ).length := by simp [nonzero]

/-- **C177** fails among exact equations: their scores are all equal, whatever their number of terms. -/
theorem C177_ties_counterexample : ∃ w w' : List ℝ, nonzero w = 1 ∧ nonzero w' = 2 ∧ ∀ ratio res, (∀ x ∈ res, x = 0) →
    aic ratio w (mse res) = aic ratio w' (mse res) := by
  refine ⟨[1, 0], [1, 1], by simp [nonzero], by simp [nonzero], fun ratio res h => le_antisymm (C177_exact_least_partial ratio _ _ res h _) (C177_exact_least_partial ratio _ _ res h _)⟩

/-- Which candidates the first population refuses: exactly those whose error is below `exp (-50 - ratio * k)`; in particular every exact
equation (see `C177_first_discards`). -/
theorem C177_discarded (ratio : ℝ) (w : List ℝ) (e : ℝ) (he : 0 ≤ e) :
    discarded (aic ratio w e) ↔ e < Real.exp (-50 - ratio * nonzero w) := by
  unfold discarded aic
  rcases eq_or_lt_of_le he with h | h
  · rw [if_pos h.symm, ← h]
    simp only [Real.exp_pos, iff_true]
    exact EReal.bot_lt_coe _
  · rw [if_neg h.ne', EReal.coe_lt_coe_iff, ← Real.log_lt_iff_lt_exp h]
    constructor <;> intro h <;> linarith

end Verif.Sga.Aic.Claims
