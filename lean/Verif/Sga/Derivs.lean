import Mathlib.Algebra.Field.Rat
import Verif.Sga.FiniteDiff
import Verif.Sga.Grid
import Verif.Sga.Context
/-!
# SGA: derivatives by finite differences on an N-D grid (kd/model/sga/sgapde/context.py:494-582)

Rationals, no rounding.  An array is a function of the list of its indices; its shape is that of the grid (all axes non-empty).  The copies
of the derivatives on the original grid (531-546) are the same functions of the original data and are left out.
-/
namespace Verif.Sga.Derivs
open Verif.Sga

/-- An array. -/
abbrev Arr := List Nat → ℚ

/-- The line through an index along axis `ax` of length `n`. -/
def line (n ax : Nat) (data : Arr) (idx : List Nat) : List ℚ := (List.range n).map fun k => data (idx.set ax k)

/-- context.py:574-582 `_finite_diff_along_axis` with `order=1` (`np.apply_along_axis`); `none`: ValueError of `FiniteDiff`. -/
def along (n ax : Nat) (d : ℚ) (data : Arr) : Option Arr :=
  if n < 3 then none else some fun idx => ((finiteDiff (line n ax data idx) d).getD []).getD (idx.getD ax 0) 0

/-- A validated problem: the axes with their coordinates, the fields, the axis of the left-hand side, the target field and the primary axis. -/
structure Problem where
  axes : List (String × List ℚ)
  fields : List (String × Arr)
  lhs : String
  target : String
  primary : String

/-- `axis_map[a]` -/
def Problem.index (p : Problem) (a : String) : Option Nat := (p.axes.map Prod.fst).idxOf? a

/-- The derivative of an array along a named axis, with the step of the axis (context.py:244-247, 519-522); `none`: an exception. -/
def Problem.d (p : Problem) (a : String) (data : Arr) : Option Arr :=
  match p.index a, p.axes.lookup a with
  | some i, some c => match computeDelta c with
    | some h => along c.length i h data
    | none => none
  | _, _ => none

/-- The derivatives of the target field. -/
structure Parts where
  ut : Arr
  ux : Arr
  uxx : Arr
  uxxx : Arr

/-- context.py:507-530 `_calculate_derivatives_difference` -/
def Problem.parts (p : Problem) : Option Parts :=
  match p.fields.lookup p.target with
  | none => none
  | some u => match p.d p.lhs u with
    | none => none
    | some ut => match p.d p.primary u with
      | none => none
      | some ux => match p.d p.primary ux with
        | none => none
        | some uxx => match p.d p.primary uxx with
          | none => none
          | some uxxx => some ⟨ut, ux, uxx, uxxx⟩

/-- context.py:555-572: one entry of `grad_fields`, unless the key is there. -/
def Problem.gradStep (p : Problem) (ux : Arr) (acc : Option (List (String × Arr))) (fa : (String × Arr) × String) : Option (List (String × Arr)) :=
  match acc with
  | none => none
  | some g =>
    if (g.lookup (dkey fa.1.1 fa.2)).isSome then some g
    else if fa.1.1 = p.target ∧ fa.2 = p.primary then some (g ++ [(dkey fa.1.1 fa.2, ux)])
    else match p.d fa.2 fa.1.2 with
      | none => none
      | some v => some (g ++ [(dkey fa.1.1 fa.2, v)])

/-- The pairs of a field and an axis other than that of the left-hand side, in the order of the two loops. -/
def Problem.pairs (p : Problem) : List ((String × Arr) × String) :=
  p.fields.flatMap fun f => ((p.axes.map Prod.fst).filter (· != p.lhs)).map fun a => (f, a)

/-- context.py:548-572 `_compute_grad_fields`; `pre` are the entries made by the network (empty for finite differences). -/
def Problem.grads (p : Problem) (ux : Arr) (pre : List (String × Arr)) : Option (List (String × Arr)) :=
  p.pairs.foldl (p.gradStep ux) (some pre)

end Verif.Sga.Derivs
