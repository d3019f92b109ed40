import Verif.Discover.Reward
/-! # The regression reward (kd/model/discover/task/regression.py:12-36), over the real numbers -/
namespace Verif.Discover.RegressionMetric
open Verif.Discover.Reward

/-- regression.py:24-31 `metric`: inverse normalised error with a floor for the variance and an optional penalty per token. -/
noncomputable def metric (coeff : ℝ) (y z : List ℝ) (n : Nat) : ℝ :=
  let variance := max (var y) (1 / 10 ^ 12)
  let accuracy := 1 / (1 + Real.sqrt (mse y z / variance))
  if coeff > 0 ∧ n > 0 then accuracy * max 0 (1 - coeff * n) else accuracy

/-- regression.py:22-23, 36: only `inv_nrmse` exists; the reward of invalid programs and the largest reward. -/
def makeMetric (name : String) : Option (ℚ × ℚ) := if name = "inv_nrmse" then some (0, 1) else none

end Verif.Discover.RegressionMetric
