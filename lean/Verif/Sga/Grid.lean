/-!
# Model of the grid checks and of edge deletion (kd/model/sga/sgapde/context.py:354-370, 399-438) and of the choice of
target field and left-hand-side axis (kd/model/kd_sga.py:130-186, kd/model/sga/adapter.py:22-65)
-/
namespace Verif.Sga

/-- `np.diff` -/
def diffs : List Rat → List Rat
  | a :: b :: r => (b - a) :: diffs (b :: r)
  | _ => []

/-- context.py:361-375 `_compute_delta` on finite coordinates (`none`: ValueError). -/
def computeDelta (coord : List Rat) : Option Rat :=
  if coord.length < 2 then some 0
  else if (diffs coord).any (· == 0) then none
  else if !((diffs coord).all (fun d => decide (0 < d)) || (diffs coord).all (fun d => decide (d < 0))) then none
  else (diffs coord).head?

/-- `l[int(n * 0.1) : int(n * 0.9)]` (context.py:411-412).  Exact arithmetic: the float products are within half an ulp
of `n/10` and `9n/10`, which does not change the integer part for any array that fits in memory. -/
def cut {α : Type} (n : Nat) (l : List α) : List α := (l.take (n * 9 / 10)).drop (n / 10)

/-- A two-dimensional registry: fields and parameter fields as lists of rows, the two coordinate lists, and which axis
is called "x" (`xFirst`: axis 0). -/
structure Grid2 (V : Type) where
  fields : List (String × List (List V))
  params : List (String × List (List V))
  axis0 : List Rat
  axis1 : List Rat
  xFirst : Bool

/-- `field[slicer]` (context.py:414-418). -/
def cutField {V : Type} (xFirst : Bool) (n : Nat) (f : List (List V)) : List (List V) :=
  if xFirst then cut n f else f.map (cut n)

/-- context.py:399-438 `_apply_edge_deletion` for a grid with an "x" axis, up to the re-validation.  `self.n` is the length
of the x axis.  `config.param_fields` is not touched. -/
def applyEdge {V : Type} (g : Grid2 V) : Grid2 V :=
  let n := if g.xFirst then g.axis0.length else g.axis1.length
  { g with
    fields := g.fields.map fun p => (p.1, cutField g.xFirst n p.2)
    axis0 := if g.xFirst then cut n g.axis0 else g.axis0
    axis1 := if g.xFirst then g.axis1 else cut n g.axis1 }

/-- A dataset as the wrapper sees it: N-D (with its own target field and left-hand-side axis) or legacy 2-D. -/
inductive DataSrc where
  | nd (target lhs : String)
  | legacy
deriving DecidableEq, Repr

/-- adapter.py:22-65: the keyword arguments that matter, in the dict `to_solver_kwargs` returns. -/
def solverKwargs : DataSrc → List (String × String)
  | .nd t l => [("target_field", t), ("lhs_axis", l)]
  | .legacy => []

/-- `a or b`: the empty string is false. -/
def orElse (a : Option String) (b : Unit → Option String) : Option String :=
  match a with
  | some s => if s = "" then b () else some s
  | none => b ()

/-- `self.x or solver_kwargs.pop(key, None) or default`: the popped dict and the value; the pop only happens when the first
operand is false. -/
def popOr (user : Option String) (key default : String) (kw : List (String × String)) : String × List (String × String) :=
  match orElse user (fun _ => none) with
  | some s => (s, kw)
  | none => ((orElse (kw.lookup key) fun _ => none).getD default, kw.filter fun p => p.1 ≠ key)

/-- kd_sga.py:150-181: the target field and lhs axis `SolverConfig` is called with; `none`: TypeError "got multiple values for
keyword argument", because `**solver_kwargs` still contains the key. -/
def fitChoice (userTarget userLhs : Option String) (d : DataSrc) : Option (String × String) :=
  let (t, kw) := popOr userTarget "target_field" "u" (solverKwargs d)
  let (l, kw) := popOr userLhs "lhs_axis" "t" kw
  if kw.any (fun p => p.1 == "target_field" || p.1 == "lhs_axis") then none else some (t, l)

end Verif.Sga
