import Mathlib.Algebra.Field.Basic
/-!
# Model of `FiniteDiff` and `FiniteDiff2` (kd/model/sga/sgapde/PDE_find.py:14-41)

Exact arithmetic in a field; rounding is not modelled.
-/
namespace Verif.Sga

/-- PDE_find.py:14-27; `none`: ValueError (fewer than 3 points).  `u[k]` is read with `getD` at positions that exist. -/
def finiteDiff {K : Type} [Field K] (u : List K) (dx : K) : Option (List K) :=
  if u.length < 3 then none
  else some ((List.range u.length).map fun i =>
    if i = 0 then (-3 / 2 * u.getD 0 0 + 2 * u.getD 1 0 - u.getD 2 0 / 2) / dx
    else if i = u.length - 1 then
      (3 / 2 * u.getD (u.length - 1) 0 - 2 * u.getD (u.length - 2) 0 + u.getD (u.length - 3) 0 / 2) / dx
    else (u.getD (i + 1) 0 - u.getD (i - 1) 0) / (2 * dx))

/-- PDE_find.py:30-41; `none`: ValueError (fewer than 4 points). -/
def finiteDiff2 {K : Type} [Field K] (u : List K) (dx : K) : Option (List K) :=
  if u.length < 4 then none
  else some ((List.range u.length).map fun i =>
    if i = 0 then (2 * u.getD 0 0 - 5 * u.getD 1 0 + 4 * u.getD 2 0 - u.getD 3 0) / dx ^ 2
    else if i = u.length - 1 then
      (2 * u.getD (u.length - 1) 0 - 5 * u.getD (u.length - 2) 0 + 4 * u.getD (u.length - 3) 0 - u.getD (u.length - 4) 0) / dx ^ 2
    else (u.getD (i + 1) 0 - 2 * u.getD i 0 + u.getD (i - 1) 0) / dx ^ 2)

end Verif.Sga
