import Verif.Discover.Protected

/-!
# C110: the protected operators with real values
-/
namespace Verif.Discover.Protected.Claims

open Real Verif.Discover.Protected

/-- **C110** (agreement): on the ordinary range each protected operator is the unprotected one, and on positive numbers the logarithm and the
root are the usual ones. -/
theorem C110_real_values (x : ℝ) :
    (x < 100 → protExp x = exp x) ∧ (1 / 1000 < |x| → protLog x = logabs x) ∧ (1 / 1000 < x → protLog x = log x) ∧
    (0 ≤ x → protSqrt x = sqrt x) ∧ protSqrt x ^ 2 = |x| ∧ (-100 < x → protExpneg x = expneg x) ∧ (-100 < x → protSigmoid x = sigmoid x) := by
  refine ⟨fun h => if_pos h, fun h => if_pos h, fun h => ?_, fun h => by rw [protSqrt, abs_of_nonneg h], sq_sqrt (abs_nonneg x),
    fun h => if_pos h, fun h => ?_⟩
  · have h0 : (0 : ℝ) < x := lt_trans (by norm_num) h
    rw [protLog, abs_of_pos h0]; exact if_pos h
  · rw [protSigmoid, protExpneg, if_pos h]; rfl

/-- **C110** (bounds): no protected operator leaves the stated range, whatever its argument; the value is zero beyond the limit. -/
theorem C110_real_bounds (x : ℝ) :
    0 ≤ protExp x ∧ protExp x < exp 100 ∧ (100 ≤ x → protExp x = 0) ∧
    0 ≤ protExpneg x ∧ protExpneg x < exp 100 ∧ (x ≤ -100 → protExpneg x = 0) ∧
    -log 1000 ≤ protLog x ∧ (|x| ≤ 1 / 1000 → protLog x = 0) ∧ protLog x ≤ |x| ∧
    0 ≤ protSqrt x ∧ 0 < protSigmoid x ∧ protSigmoid x ≤ 1 := by
  have e : ∀ y, 0 ≤ protExpneg y := fun y => by
    unfold protExpneg; split
    · exact (exp_pos _).le
    · exact le_refl _
  refine ⟨?_, ?_, fun h => if_neg (not_lt.2 h), e x, ?_, fun h => if_neg (not_lt.2 h), ?_, fun h => if_neg (not_lt.2 h), ?_, sqrt_nonneg _, ?_, ?_⟩
  · unfold protExp; split
    · exact (exp_pos _).le
    · exact le_refl _
  · unfold protExp; split
    · rename_i h; exact exp_lt_exp.2 h
    · exact exp_pos _
  · unfold protExpneg; split
    · rename_i h; exact exp_lt_exp.2 (by linarith)
    · exact exp_pos _
  · unfold protLog; split
    · rename_i h
      rw [← log_inv]
      exact log_le_log (by norm_num) (by norm_num at h ⊢; linarith)
    · have : (0 : ℝ) ≤ log 1000 := log_nonneg (by norm_num)
      linarith
  · unfold protLog; split
    · rename_i h
      have h0 : (0 : ℝ) < |x| := lt_trans (by norm_num) h
      have := log_le_sub_one_of_pos h0
      linarith
    · exact abs_nonneg _
  · have := e x
    unfold protSigmoid; positivity
  · have := e x
    unfold protSigmoid
    rw [div_le_one (by linarith)]; linarith

/-- **C110** fails for the sigmoid, which has no singularity: for every argument from -100 downwards the protected version is 1, the largest value
it has, where the sigmoid is nearly 0. -/
theorem C110_sigmoid_counterexample (x : ℝ) (h : x ≤ -100) : protSigmoid x = 1 ∧ sigmoid x < 1 / 100 := by
  refine ⟨by rw [protSigmoid, protExpneg, if_neg (not_lt.2 h)]; norm_num, ?_⟩
  have h1 : -x + 1 ≤ exp (-x) := add_one_le_exp (-x)
  rw [sigmoid, div_lt_div_iff₀ (by linarith) (by norm_num)]
  linarith

/-- The limit of the logarithm: a value on either side. -/
example : protLog (1 / 1000) = 0 ∧ protLog (-2) = log 2 := by
  constructor
  · have h := (C110_real_bounds (1 / 1000)).2.2.2.2.2.2.2.1
    exact h (by rw [abs_of_pos (by norm_num)])
  · have := (C110_real_values (-2)).2.1 (by norm_num)
    rw [this, logabs]; norm_num

end Verif.Discover.Protected.Claims
