import Mathlib.Analysis.SpecialFunctions.Pow.Real
import Verif.Discover.Fit
/-!
# The reward of a program (task/pde/pde.py:159-170 `reward_function`, 183-207 `evaluate`, 254-321 `make_pde_metric`)

Over the real numbers: rounding, overflow and NaN are not modelled; where numpy divides by a zero variance the model's
value is meaningless, and the theorems assume a non-constant left-hand side.
-/
namespace Verif.Discover.Reward

/-- `np.mean`. -/
noncomputable def mean (y : List ℝ) : ℝ := y.sum / y.length

/-- `np.mean((y - y_hat)**2)` (arrays of the same length). -/
noncomputable def mse (y yHat : List ℝ) : ℝ := mean (List.zipWith (fun a b => (a - b) ^ 2) y yHat)

/-- `np.var`. -/
noncomputable def var (y : List ℝ) : ℝ := mean (y.map fun a => (a - mean y) ^ 2)

/-- pde.py:287-288, the metric `pde_reward` with parameter `lam` for `n` coefficients. -/
noncomputable def pdeReward (lam : ℝ) (y yHat : List ℝ) (n : Nat) : ℝ :=
  (1 - lam * n) / (1 + Real.sqrt (mse y yHat / var y))

/-- pde.py:290, the metric `correlation`: `pearsonr(y, y_hat)[0]`, the sum of the products of the deviations divided by
the product of the norms of the deviations (scipy gives NaN when one of the two is constant; here the quotient is then 0,
so the claims ask for non-constant data). -/
noncomputable def pearson (y z : List ℝ) : ℝ :=
  (List.zipWith (fun a b => (a - mean y) * (b - mean z)) y z).sum /
    (Real.sqrt (y.map fun a => (a - mean y) ^ 2).sum * Real.sqrt (z.map fun b => (b - mean z) ^ 2).sum)

/-- The metrics of `make_pde_metric` (254-299) by what calling them with `(y, y_hat, n)` gives: only `pde_reward` and
`correlation` can be called that way; `inv_nrmse` takes two arguments and `R2` is not a pair. -/
inductive Metric where
  | invNrmse | pdeReward | correlation | r2
deriving DecidableEq

/-- pde.py:297-321, the end of `make_pde_metric`: constructing the metric; `none`: an assertion or subscript error.  Invalid and maximal reward. -/
def makeMetric (m : Metric) (nargs : Nat) : Option (ℚ × ℚ) :=
  match m with
  | .r2 => none
  | _ => if nargs = 1 then some (0, 1) else none

/-- pde.py:168: calling the metric with three arguments. -/
noncomputable def callMetric (m : Metric) (lam : ℝ) (y yHat : List ℝ) (n : Nat) : Option ℝ :=
  match m with
  | .pdeReward => some (pdeReward lam y yHat n)
  | .correlation => some (pearson y yHat)
  | _ => none

/-- Result of `p.execute` as the task sees it: invalid, or prediction with coefficients. -/
inductive Outcome where
  | invalid
  | fitted (yHat w : List ℝ)

/-- pde.py:159-170 `reward_function`: reward and the coefficients stored with the program. -/
noncomputable def rewardFunction (m : Metric) (lam invalidReward : ℝ) (ut : List ℝ) :
    Outcome → Option (ℝ × List ℝ)
  | .invalid => some (invalidReward, [0])
  | .fitted yHat w => (callMetric m lam ut yHat w.length).map fun r => (r, w)

/-- pde.py:183-207 `evaluate` (without test data): test error and success flag. -/
noncomputable def evaluate (threshold : ℝ) (ut : List ℝ) : Outcome → Option ℝ × Prop
  | .invalid => (none, False)
  | .fitted yHat _ => (some (mse ut yHat), mse ut yHat < threshold)

end Verif.Discover.Reward
