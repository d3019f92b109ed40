import Mathlib.Analysis.SpecialFunctions.Log.Basic
import Mathlib.Data.EReal.Basic
/-!
# Model of the score in kd/model/sga/sgapde/PDE_find.py (`AIC`) over the reals

`np.log(0)` is minus infinity, so scores are extended reals.
-/
namespace Verif.Sga.Aic

/-- PDE_find.py:106-111: `k`, the number of nonzero coefficients. -/
noncomputable def nonzero (w : List ℝ) : Nat := by classical exact w.countP fun a => decide (|a| ≠ 0)

/-- `np.mean((TrainY - TrainR.dot(w)) ** 2)` (PDE_find.py:117, 128): `res` are the residuals. -/
noncomputable def mse (res : List ℝ) : ℝ := (res.map fun x => x ^ 2).sum / res.length

/-- PDE_find.py:106-111 `AIC(w, err)`: `AIC_ratio*2*k+2*np.log(err)`. -/
noncomputable def aic (ratio : ℝ) (w : List ℝ) (err : ℝ) : EReal :=
  if err = 0 then ⊥ else ((ratio * 2 * nonzero w + 2 * Real.log err : ℝ) : EReal)

/-- solver.py:121: `a_err < -100` -/
def discarded (a : EReal) : Prop := a < ((-100 : ℝ) : EReal)

end Verif.Sga.Aic
