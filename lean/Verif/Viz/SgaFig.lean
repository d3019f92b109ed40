import Verif.Viz.Nd
/-!
# The field figures of SGA (kd/viz/_adapters/sga.py:100-385)

The field comparison and the time slices of a fitted SGA model, with the colour limits.  Simplifications as in `Viz.Data` (rational entries, a figure is the
data handed to matplotlib); the context has the axes of a registry payload (`axis_order`, `coords_1d`), which `fit_dataset` always gives.
-/
namespace Verif.Viz.SgaFig
open Verif.Data Verif.Viz.Data Verif.Viz.Nd

/-- A figure of heat maps: its columns (upper and lower row) and the colour limits. -/
structure Figure where
  cols : List (Panel × Panel)
  lo : Rat
  hi : Rat

/-- sga.py:152-153, 189-190, 336-337: `nanmin`, `nanmax` of the two fields (an empty field: ValueError). -/
def limits (d : Field) : Except Exn (Rat × Rat) :=
  match d.truth.ravel, d.predicted.ravel with
  | a :: r, b :: s => .ok (min (minL a r) (minL b s), max (maxL a r) (maxL b s))
  | _, _ => .error .value

/-- sga.py:199-216, 342-361: for each column (a time step and the time in its title) two heat maps over the two space axes. -/
def heatMaps (upper lower : A) (y x : List Rat) (cols : List (Nat × Rat)) : Except Exn (List (Panel × Panel)) :=
  let ps := cols.map fun c => ((⟨y, x, c.2, lastAt upper c.1⟩ : Panel), (⟨y, x, c.2, lastAt lower c.1⟩ : Panel))
  if ps.all fun q => drawable y x q.1.grid && drawable y x q.2.grid then .ok ps else .error .type

/-- sga.py:175-220 `_field_comparison_plot_nd`: above the field used, below the original one (no time step: ValueError of `plt.subplots`). -/
def comparisonNd (d : Field) : Except Exn Figure :=
  if d.t.length = 0 then .error .value
  else match limits d, d.coords with
    | .error e, _ => .error e
    | .ok l, y :: x :: _ =>
      match heatMaps d.predicted d.truth y x ((steps d.t.length).map fun k => (k, (d.t[k]?).getD 0)) with
      | .error e => .error e
      | .ok ps => .ok ⟨ps, l.1, l.2⟩
    | .ok _, _ => .error .index

/-- sga.py:148-173 `_field_comparison_plot_1d`: the two heat maps over space (vertical) and time (the title has no time). -/
def comparison1d (d : Field) (x : List Rat) : Except Exn Figure :=
  match limits d with
  | .error e => .error e
  | .ok l =>
    if drawable x d.t d.predicted && drawable x d.t d.truth then .ok ⟨[(⟨x, d.t, 0, d.predicted⟩, ⟨x, d.t, 0, d.truth⟩)], l.1, l.2⟩ else .error .type

/-- What the figures read of the context: `axis_order`, `coords_1d`, `lhs_axis`, `u`, `u_origin`. -/
structure Context where
  order : List String
  coords : String → List Rat
  lhs : String
  u : A
  uOrigin : A

/-- sga.py:100-146 `_field_comparison`; `axis`, `index`: the options `slice_axis` (default -1) and `slice_index`.  Warnings are left out. -/
def fieldComparison (c : Context) (axis : Int) (index : Option Int) : Except Exn Figure :=
  match sgaField c.order c.coords c.lhs c.u c.uOrigin with
  | .error e => .error e
  | .ok d =>
    match d.coords with
    | [x] => comparison1d d x
    | [_, _] => comparisonNd d
    | _ => match slice d axis index with
      | .error e => .error e
      | .ok p => comparisonNd p

/-- One panel of lines: the space axis, the time in the title, the original and the used field. -/
structure Lines where
  x : List Rat
  t : Rat
  truth : List Rat
  predicted : List Rat

/-- `field[:, k]` -/
def column (a : A) (k : Nat) : List Rat := (List.range (a.shape.headD 0)).map fun i => a.get [i, k]

/-- What the time-slice figure shows. -/
inductive Slices where
  | lines (ps : List Lines)
  | maps (f : Figure)

/-- sga.py:261-279 `_time_slices_1d` (`plot`: ValueError for lists of different lengths). -/
def slices1d (d : Field) (x : List Rat) (times : Option (List Rat)) (count : Int) : Except Exn Slices :=
  match sgaPanels d.t times count with
  | .error e => .error e
  | .ok p =>
    let ps := (p.index.zip p.label).map fun c => (⟨x, c.2, column d.truth c.1, column d.predicted c.1⟩ : Lines)
    if ps.all fun q => q.truth.length == x.length && q.predicted.length == x.length then .ok (.lines ps) else .error .value

/-- sga.py:307-365 `_time_slices_nd`: above the original field, below the used one. -/
def slicesNd (d : Field) (axis : Int) (index : Option Int) (times : Option (List Rat)) (count : Int) : Except Exn Slices :=
  match sgaPanels d.t times count with
  | .error e => .error e
  | .ok p =>
    match if d.coords.length ≥ 3 then slice d axis index else .ok d with
    | .error e => .error e
    | .ok v =>
      match limits v, v.coords with
      | .error e, _ => .error e
      | .ok l, y :: x :: _ =>
        match heatMaps v.truth v.predicted y x (p.index.zip p.label) with
        | .error e => .error e
        | .ok ps => .ok (.maps ⟨ps, l.1, l.2⟩)
      | .ok _, _ => .error .index

/-- sga.py:222-233 `_time_slices` with the options `slice_times`, `slice_count` (default 3), `slice_axis`, `slice_index`. -/
def timeSlices (c : Context) (axis : Int) (index : Option Int) (times : Option (List Rat)) (count : Int) : Except Exn Slices :=
  match sgaField c.order c.coords c.lhs c.u c.uOrigin with
  | .error e => .error e
  | .ok d =>
    match d.coords with
    | [x] => slices1d d x times count
    | _ => slicesNd d axis index times count

end Verif.Viz.SgaFig
