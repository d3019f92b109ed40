import Mathlib.Analysis.SpecialFunctions.Log.Basic
import Mathlib.Analysis.SpecialFunctions.Pow.Real

/-!
# The protected operators with real values

`kd/model/discover/functions.py`: the protected versions of `exp`, `log`, `sqrt`, `expneg`, `sigmoid` (the rational ones are in
`Build.lean`).  Entrywise, on real numbers: no rounding, no overflow, no NaN.  `np.where` evaluates both branches and picks one; with the
warnings switched off (`np.errstate`) the branch not picked has no effect.
-/
namespace Verif.Discover.Protected

open Real

/-- functions.py:24-25 `expneg` -/
noncomputable def expneg (x : ℝ) : ℝ := exp (-x)

/-- functions.py:20-22 `logabs` -/
noncomputable def logabs (x : ℝ) : ℝ := log |x|

/-- functions.py:35-36 `sigmoid` -/
noncomputable def sigmoid (x : ℝ) : ℝ := 1 / (1 + exp (-x))

/-- functions.py:136-138 `protected_exp` -/
noncomputable def protExp (x : ℝ) : ℝ := if x < 100 then exp x else 0

/-- functions.py:140-143 `protected_log` -/
noncomputable def protLog (x : ℝ) : ℝ := if |x| > 1 / 1000 then log |x| else 0

/-- functions.py:145-147 `protected_sqrt` -/
noncomputable def protSqrt (x : ℝ) : ℝ := sqrt |x|

/-- functions.py:154-156 `protected_expneg` -/
noncomputable def protExpneg (x : ℝ) : ℝ := if x > -100 then exp (-x) else 0

/-- functions.py:170-171 `protected_sigmoid` -/
noncomputable def protSigmoid (x : ℝ) : ℝ := 1 / (1 + protExpneg x)

end Verif.Discover.Protected
