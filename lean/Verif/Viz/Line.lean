import Verif.Viz.Fields
import Mathlib.Algebra.Field.Rat
import Mathlib.Algebra.Order.Ring.Rat

/-!
# The DISCOVER figures for one space dimension (kd/viz/_adapters/discover.py:238-324, 372-451, 538-577)

Residual, field and parity figure of the regular mode, from the data of the model to what is handed to matplotlib.  Entries are rational
numbers.  The fields are those of `Fields.lean` (`_calculate_pde_fields`); `u` and `ut` have one shape, as the data adapters guarantee (C77).
-/
namespace Verif.Viz.Line
open Verif.Data Verif.Viz.Fields

/-- What a handler does: a result with a warning and no picture, an exception, or a picture. -/
inductive Out (α : Type) where
  | warning
  | raised
  | drawn (a : α)

/-- What the figures are drawn from: the axis `X[0]`, `u`, `ut` (`data_class.get_data()`), the terms and coefficients of the best program
(`none`: there is none, `_get_best_program`). -/
structure Model where
  x : List Rat
  u : Arr Rat
  ut : Arr Rat
  best : Option (List Term × List Rat)
  trig : String → Rat → Rat
  numeral : String → Option Rat

/-- The grid points in the order of `flatten()`: space first, time running fastest. -/
def cells (n m : Nat) : List (Nat × Nat) := (List.range n).flatMap fun i => (List.range m).map fun j => (i, j)

/-- All points, or the first exception. -/
def allOk {α β : Type} (f : α → Except Exn β) : List α → Except Exn (List β)
  | [] => .ok []
  | a :: r => match f a with
    | .error e => .error e
    | .ok b => match allOk f r with
      | .error e => .error e
      | .ok bs => .ok (b :: bs)

/-- kd/viz/discover_viz.py:232-294: all points of the fields in the order of `flatten()`, with the number of time steps. -/
def fields (M : Model) (terms : List Term) (w : List Rat) : Except Exn (Nat × List (Point Rat)) :=
  match M.u.shape with
  | [n, m] =>
    if M.ut.shape = [n, m] then
      match allOk (fun c => fieldAt M.x M.trig M.numeral M.u M.ut terms w c.1 c.2) (cells n m) with
      | .error e => .error e
      | .ok ps => .ok (m, ps)
    else .error .value
  | _ => .error .value

/-- kd/viz/discover_viz.py:280-283: the rows of `coords`. -/
def coords (x : List Rat) (m : Nat) : List (Rat × Nat) := x.flatMap fun a => (List.range m).map fun j => (a, j)

/-- The residual figure and its metadata (the standard deviation of the summary is left out). -/
structure ResidualFig where
  /-- abscissa (time step), ordinate, colour of the scatter -/
  scatter : List (Nat × Rat × Rat)
  hist : List Rat
  /-- `metadata['residual'].residuals` -/
  data : List Rat
  mean : Rat
  maxAbs : Rat
  count : Nat

/-- kd/viz/_adapters/discover.py:238-324 `_residual`, `_residual_plot_1d` (one space dimension); the test of the coordinates is that of
`ResidualPlotData` (`from_actual_predicted` raises: warning); `np.max` of an empty array raises. -/
def residual (M : Model) : Out ResidualFig :=
  match M.best with
  | none => .warning
  | some (terms, w) => match fields M terms w with
    | .error _ => .warning
    | .ok (m, ps) =>
      let res := ps.map (·.residual)
      if (coords M.x m).length ≠ ps.length then .warning
      else if res = [] then .raised
      else .drawn ⟨List.zipWith (fun c r => (c.2, c.1, r)) (coords M.x m) res, res, List.zipWith (· - ·) (ps.map (·.ut)) (ps.map (·.rhs)),
        res.sum / res.length, (res.map fun r => |r|).foldl max 0, res.length⟩

/-- The parity figure: the points (predicted, actual) and the ends of the line `y = x`. -/
structure ParityFig where
  points : List (Rat × Rat)
  lo : Rat
  hi : Rat

/-- kd/viz/_adapters/discover.py:538-577 `_parity`; the minimum of an empty array raises. -/
def parity (M : Model) : Out ParityFig :=
  match M.best with
  | none => .warning
  | some (terms, w) => match fields M terms w with
    | .error _ => .warning
    | .ok (_, ps) =>
      match ps.map (·.ut) ++ ps.map (·.rhs) with
      | [] => .raised
      | v :: vs => .drawn ⟨List.zipWith (fun p a => (p, a)) (ps.map (·.rhs)) (ps.map (·.ut)), vs.foldl min v, vs.foldl max v⟩

/-- The field figure: both panels as functions of the row (space) and column (time), the coordinates of rows and columns, the colour range. -/
structure FieldFig where
  rows : List Rat
  cols : List Nat
  truth : Nat → Nat → Rat
  predicted : Nat → Nat → Rat
  vmin : Rat
  vmax : Rat

/-- kd/viz/_adapters/discover.py:372-451 `_field_comparison`, `_field_comparison_1d`; the test is that of `FieldComparisonData`.
`reshape(num_space_points, num_timesteps)` is read off at `i * m + j`. -/
def field (M : Model) : Out FieldFig :=
  match M.best with
  | none => .warning
  | some (terms, w) => match fields M terms w with
    | .error _ => .warning
    | .ok (m, ps) =>
      if M.ut.shape ≠ [M.x.length, m] then .warning
      else match ps.map (·.ut) ++ ps.map (·.rhs) with
        | [] => .raised
        | v :: vs => .drawn ⟨M.x, List.range m, fun i j => M.ut.get [i, j], fun i j => ((ps.map (·.rhs))[i * m + j]?).getD 0,
          vs.foldl min v, vs.foldl max v⟩

end Verif.Viz.Line
