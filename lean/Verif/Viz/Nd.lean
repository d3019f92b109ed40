import Verif.Viz.Fields
import Verif.Viz.Data
import Mathlib.Algebra.Field.Rat
/-!
# The DISCOVER figures for several space dimensions (kd/viz/discover_viz.py:297-370, kd/viz/_adapters/discover.py:326-421, 462-536)

Rational entries.  A figure is the list of its panels: axes, title time, grid.
-/
namespace Verif.Viz.Nd
open Verif.Data Verif.Viz.Data

/-- discover_viz.py:311-328: the coordinates of the space axes (`X[k]` flattened; `none`: ValueError).  The test for a zero spacing cannot succeed
after `np.unique`. -/
def axesOf : List (List Rat) → Option (List (List Rat))
  | [] => some []
  | x :: r =>
    if (unique x).length < 2 then none
    else match axesOf r with
      | none => none
      | some cs => some (unique x :: cs)

/-- What `_calculate_pde_fields_nd` returns. -/
structure Computed where
  ut : A
  rhs : A
  coords : List (List Rat)
  t : List Rat

/-- One entry of the right-hand side: the terms of the equation on the snapshot at step `j`, combined (discover_viz.py:337-357). -/
def rhsAt (coords : List (List Rat)) (trig : String → Rat → Rat) (numeral : String → Option Rat) (u : A) (terms : List Fields.Term) (w : List Rat)
    (j : Nat) (i : List Nat) : Rat :=
  match Fields.evalAll (Fields.snapshotN coords trig numeral u j) terms with
  | .error _ => 0
  | .ok vs => match Fields.combine (vs.map fun v => v.at_ i) w with
    | .error _ => 0
    | .ok r => r

/-- All terms can be evaluated on the snapshot at step `j` (discover_viz.py:339-347). -/
def evaluates (coords : List (List Rat)) (trig : String → Rat → Rat) (numeral : String → Option Rat) (u : A) (terms : List Fields.Term) (j : Nat) : Bool :=
  match Fields.evalAll (Fields.snapshotN coords trig numeral u j) terms with
  | .error _ => false
  | .ok _ => true

/-- discover_viz.py:297-370 `_calculate_pde_fields_nd` (`none`: an exception, which the handlers turn into a warning).  `u` and `ut` have one shape,
as `get_data` returns them; arrays of different shapes count as an exception here. -/
def computeNd (X : List (List Rat)) (trig : String → Rat → Rat) (numeral : String → Option Rat) (u ut : A) (terms : List Fields.Term) (w : List Rat) :
    Option Computed :=
  match axesOf X with
  | none => none
  | some coords =>
    if u.shape = [] ∨ ut.shape ≠ u.shape then none
    else if !(List.range (u.shape.headD 0)).all (evaluates coords trig numeral u terms) then none
    else if terms.length + 1 = w.length ∨ terms.length = w.length then
      some ⟨ut, ⟨u.shape, fun idx => rhsAt coords trig numeral u terms w (idx.headD 0) idx.tail⟩, coords,
        (List.range (u.shape.headD 0)).map fun j : Nat => (j : Rat)⟩
    else none

/-- One heat map: the vertical and the horizontal axis, the time in the title, the grid. -/
structure Panel where
  y : List Rat
  x : List Rat
  t : Rat
  grid : A

/-- `pcolormesh(x, y, grid, shading='auto')`: TypeError unless the axes have the size of the grid, or one more. -/
def drawable (y x : List Rat) (g : A) : Bool :=
  g.shape == [y.length, x.length] || g.shape.map (· + 1) == [y.length, x.length]

/-- discover.py:346-351: `n` cuts at the middle of the last axis. -/
def cutLast : Nat → A → Except Exn A
  | 0, a => .ok a
  | n + 1, a => match takeAxis a (a.shape.length - 1) ((a.shape.getLastD 0) / 2) with
    | .error e => .error e
    | .ok b => cutLast n b

/-- discover.py:326-377 `_residual_plot_nd`: the heat map of the residual figure. -/
def residualFigure (f : Computed) : Except Exn Panel :=
  match f.coords with
  | y :: x :: _ =>
    match sub f.ut f.rhs with
    | .error e => .error e
    | .ok r =>
      let k := (r.shape.headD 0) / 2
      match takeAxis r 0 k with
      | .error e => .error e
      | .ok s =>
        match cutLast (f.coords.length - 2) s with
        | .error e => .error e
        | .ok g => if drawable y x g then .ok ⟨y, x, (f.t[k]?).getD 0, g⟩ else .error .type
  | _ => .error .value

/-- discover.py:403-409: the data of the field comparison, time moved to the end. -/
def comparison (f : Computed) : Except Exn Field :=
  let perm := (List.range (f.ut.shape.length - 1)).map (· + 1) ++ [0]
  mkField f.coords f.t (transpose f.ut perm) (transpose f.rhs perm) none

/-- discover.py:481-486: the time steps drawn. -/
def steps (nt : Nat) : List Nat := if nt ≤ 3 then List.range nt else [0, nt / 2, nt - 1]

/-- `field[..., k]` -/
def lastAt (a : A) (k : Nat) : A := ⟨a.shape.dropLast, fun idx => a.get (idx ++ [k])⟩

/-- discover.py:462-536 `_field_comparison_nd`: for each step the heat maps of the true and the predicted field; `axis`, `index`: the options
`slice_axis` (default -1) and `slice_index` (no time step: ValueError of `plt.subplots`). -/
def fieldFigure (f : Computed) (axis : Int) (index : Option Int) : Except Exn (List (Panel × Panel)) :=
  match comparison f with
  | .error e => .error e
  | .ok d =>
    match slice d axis index with
    | .error e => .error e
    | .ok p =>
      match p.coords with
      | y :: x :: _ =>
        let panels := (steps p.t.length).map fun k =>
          ((⟨y, x, (p.t[k]?).getD 0, lastAt p.truth k⟩ : Panel), (⟨y, x, (p.t[k]?).getD 0, lastAt p.predicted k⟩ : Panel))
        if p.t.length = 0 then .error .value
        else if panels.all fun q => drawable y x q.1.grid && drawable y x q.2.grid then .ok panels else .error .type
      | _ => .error .index

end Verif.Viz.Nd
