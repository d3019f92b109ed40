import Verif.Discover.SprRun
import Verif.Viz.Data
/-!
# The figures of the sparse mode of DISCOVER (kd/viz/_adapters/discover.py:579-794, kd/viz/discover_viz.py:555-754)

The figures are drawn from the state a whole run leaves (`SprRun`).  The interpolation of scattered data (`scipy.interpolate.griddata`) is an argument: for
points, values and a position it gives a number or NaN; its exceptions are left out, as are colours, titles, files and the reference line.  Where a figure
is refused, by a warning or an exception, the result is `none`.
-/
namespace Verif.Viz.Spr
open Verif.Discover Verif.Discover.Pinn Verif.Discover.SprRun Verif.Viz.Data

variable {W O : Type}

/-- program.py:610-622 with pde_pinn.py:149-159: the prediction a program object keeps from the evaluation on `data` with network `n` (`none`: invalid). -/
def prediction (S : Setting W O) (n : State W O) (data : Meta) (l : List Nat) : Option (List ℚ) :=
  if (S.score data l).invalid then none
  else some ((S.vals l n.w data.pts).map fun p => (List.zipWith (· * ·) p.2 (coefs S data l)).sum)

/-- discover.py:840-850 `_get_best_program` after `train` with at least one round: `model.best_p`, set at the end of each round (kd_discover.py:683).  The
program object was evaluated when it was found, with the network and the data of its round; `r_ridge` is cached.  (Without rounds the figures use the searcher's
best program: not modelled, `none`.) -/
def shownPrediction (S : Setting W O) (out : Outcome W O) : Option (List ℚ) :=
  match out.log.getLast? with
  | none => none
  | some r => prediction S r.net r.data r.used

/-- The arrays of `_calculate_pinn_fields`. -/
structure Fields where
  pts : Cols
  yTrue : List Fl
  yPred : List ℚ

/-- discover_viz.py:555-612 `_calculate_pinn_fields`: points and left-hand side from the task, the right-hand side from the program.  (A prediction of
length 1 is broadcast here and refused later by _contracts.py:28-29 and by `griddata`.) -/
def calculate (task : Meta) (pred : Option (List ℚ)) : Option Fields :=
  match pred with
  | none => none
  | some y => if y.length = task.ut.length then some ⟨task.pts, task.ut, y⟩ else none

/-- What the residual figure shows: the points (actual, predicted) and the numbers of the histogram. -/
structure Scatter where
  points : List (Fl × ℚ)
  residuals : List Fl

/-- discover.py:579-625 `_spr_residual` (no points: ValueError of `np.min`) -/
def sprResidual (f : Fields) : Option Scatter :=
  if f.yPred = [] then none
  else some ⟨f.yTrue.zip f.yPred, List.zipWith (fun a b => a.map (· - b)) f.yTrue f.yPred⟩

/-- The figure `spr_residual` of a trained estimator. -/
def residualFigure (S : Setting W O) (out : Outcome W O) : Option Scatter := (calculate out.data (shownPrediction S out)).bind sprResidual

/-! ## The field figures -/

/-- `l.min()`, `l.max()` -/
def low : List ℚ → ℚ
  | [] => 0
  | a :: r => minL a r
def high : List ℚ → ℚ
  | [] => 0
  | a :: r => maxL a r

/-- Number `i` of `np.linspace(lo, hi, n)`; also of `np.mgrid[lo:hi:nj]`. -/
def linspace (lo hi : ℚ) (n i : Nat) : ℚ := lo + (hi - lo) * i / ((n : ℚ) - 1)

/-- The axis of a grid over some coordinates. -/
def axis (n : Nat) (l : List ℚ) : List ℚ := (List.range n).map (linspace (low l) (high l) n)

/-- A heat map: the numbers on the vertical and on the horizontal axis and the value of a cell. -/
structure Map where
  rows : List ℚ
  cols : List ℚ
  value : Nat → Nat → Fl

/-- `scipy.interpolate.griddata` -/
abbrev Interp := List (ℚ × ℚ) → List Fl → ℚ × ℚ → Fl

/-- `np.nan_to_num` -/
def nanToNum : Fl → Fl
  | none => some 0
  | some v => some v

/-- discover.py:651-668: the interpolated field over a grid. -/
def gridMap (interp : Interp) (n : Nat) (a b : List ℚ) (pts : List (ℚ × ℚ)) (v : List Fl) : Map :=
  ⟨axis n a, axis n b, fun i j => nanToNum (interp pts v (linspace (low a) (high a) n i, linspace (low b) (high b) n j))⟩

/-- discover.py:651-694: one space dimension; true field and predicted field over space (vertical) and time (horizontal). -/
def fieldOne (interp : Interp) (f : Fields) : Option (Map × Map) :=
  match f.pts.x with
  | [x] => if f.pts.t = [] then none
    else some (gridMap interp 100 x f.pts.t (x.zip f.pts.t) f.yTrue, gridMap interp 100 x f.pts.t (x.zip f.pts.t) (f.yPred.map some))
  | _ => none

/-- discover.py:708-709: the bounds and the middle of the time bins. -/
def edge (t : List ℚ) (i : Nat) : ℚ := linspace (low t) (high t) 6 i
def center (t : List ℚ) (i : Nat) : ℚ := (edge t i + edge t (i + 1)) / 2

/-- `np.isclose` -/
def isclose (a b : ℚ) : Bool := decide (|a - b| ≤ 1 / 10 ^ 8 + 1 / 10 ^ 5 * |b|)

/-- discover.py:725-728 -/
def inBin (t : List ℚ) (i : Nat) (v : ℚ) : Bool :=
  (decide (edge t i ≤ v) && decide (v < edge t (i + 1))) || (i == 4 && isclose v (edge t 5))

/-- The points of a bin. -/
def binPoints (t : List ℚ) (i : Nat) : List Nat := (List.range t.length).filter fun k => inBin t i ((t[k]?).getD 0)

/-- `a[mask]` -/
def pickAt {α : Type} (d : α) (l : List α) (ks : List Nat) : List α := ks.map fun k => (l[k]?).getD d

/-- discover.py:729-736: the field of a bin over the first two space axes; NaN with fewer than four points. -/
def binMap (interp : Interp) (f : Fields) (x y : List ℚ) (v : List Fl) (i : Nat) : Map :=
  let ks := binPoints f.pts.t i
  if ks.length < 4 then ⟨axis 50 x, axis 50 y, fun _ _ => none⟩
  else ⟨axis 50 x, axis 50 y,
    fun a b => nanToNum (interp ((pickAt 0 x ks).zip (pickAt 0 y ks)) (pickAt none v ks) (linspace (low x) (high x) 50 a, linspace (low y) (high y) 50 b))⟩

/-- discover.py:696-794 `_spr_field_comparison_nd`: for three of the five bins the time in the title, the true and the predicted field. -/
def fieldNd (interp : Interp) (f : Fields) : Option (List (ℚ × Map × Map)) :=
  match f.pts.x with
  | x :: y :: _ => if f.pts.t = [] then none
    else some ([0, 2, 4].map fun i => (center f.pts.t i, binMap interp f x y f.yTrue i, binMap interp f x y (f.yPred.map some) i))
  | _ => none

/-! ## The older functions -/

/-- discover_viz.py:703-754 `plot_spr_field_comparison`: `imshow(grid.T, extent=(t…, x…), origin='lower')`, so row `r` of the picture is column `r` of the
grid, while the vertical axis is the space axis. -/
def legacyMap (interp : Interp) (x t : List ℚ) (v : List Fl) : Map :=
  ⟨axis 100 x, axis 100 t, fun r c => interp (x.zip t) v (linspace (low x) (high x) 100 c, linspace (low t) (high t) 100 r)⟩

/-- discover_viz.py:600-601, 635-639 `plot_spr_residual_analysis`: the scatter diagram has columns 1 (labelled time) and 0 (labelled space) of the coordinates. -/
def legacyScatter (f : Fields) : List (ℚ × ℚ × Fl) :=
  (List.range f.pts.t.length).map fun k =>
    let row := (f.pts.x.map fun col => (col[k]?).getD 0) ++ [(f.pts.t[k]?).getD 0]
    ((row[1]?).getD 0, (row[0]?).getD 0, ((List.zipWith (fun a b => a.map (· - b)) f.yTrue f.yPred)[k]?).getD none)

end Verif.Viz.Spr
