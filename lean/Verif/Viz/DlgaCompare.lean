import Verif.Viz.DlgaOld
/-!
# The field comparison of the DLGA adapter and the remaining figures of kd/viz/dlga_viz.py

A figure is the data handed to matplotlib; a file shows a figure.  Entries are rational.  `_field_comparison` of the adapter (viz/_adapters/dlga.py:120-136) draws through
`plot_pde_comparison` (viz/dlga_viz.py:160-204), which writes `pde_comparison.png`, and renames that file unless its own file is there.

Simplifications: one space axis (with several the drawing is matplotlib's business); a directory can be written; styles, titles and colours are left out.
-/
namespace Verif.Viz.DlgaCmp
open Verif.Viz.Data

/-! ## The comparison figure -/

/-- The two panels, node by node (time, place, value), and the common colour limits. -/
structure CmpFig where
  truth : List (List (Rat × Rat × Rat))
  predicted : List (List (Rat × Rat × Rat))
  lo : Rat
  hi : Rat
  deriving DecidableEq

/-- dlga_viz.py:174 and 181-194: the nodes of `pcolormesh(T, X, u)` with `T, X = np.meshgrid(t, x)`. -/
def nodes (x t : List Rat) (u : A) : List (List (Rat × Rat × Rat)) :=
  x.zipIdx.map fun p => t.zipIdx.map fun q => (q.1, p.1, u.get [p.2, q.2])

/-- dlga_viz.py:160-204 `plot_pde_comparison`: `min()` of an empty array raises ValueError, `pcolormesh` refuses values of another shape with TypeError. -/
def plotComparison (x t : List Rat) (ut up : A) : Except Exn CmpFig :=
  match ut.ravel, up.ravel with
  | a :: r, b :: s =>
    if ut.shape = [x.length, t.length] ∧ up.shape = [x.length, t.length] then
      .ok ⟨nodes x t ut, nodes x t up, min (r.foldl min a) (s.foldl min b), max (r.foldl max a) (s.foldl max b)⟩
    else .error .type
  | _, _ => .error .value

/-- The pictures on the disk: directory, file name. -/
abbrev Files := String → String → Option CmpFig

/-- One more picture. -/
def Files.set (f : Files) (dir name : String) (v : Option CmpFig) : Files := fun d n => if d = dir ∧ n = name then v else f d n

/-- The options of `plot_field_comparison` the adapter reads (viz/_adapters/dlga.py:531-557), and the directory `_resolve_output` gives (331-341). -/
structure Opts where
  dir : String
  x : Option (List Rat)
  t : Option (List Rat)
  trueField : Option A
  uTrue : Option A
  predictedField : Option A
  uPred : Option A
  residual : Option A

/-- viz/_adapters/dlga.py:531-557 `_build_field_comparison_data` (`none`: something is missing). -/
def build (o : Opts) : Option (Except Exn Field) :=
  match o.x, o.t, o.trueField.or o.uTrue, o.predictedField.or o.uPred with
  | some x, some t, some a, some b => some (mkField [x] t a b o.residual)
  | _, _, _, _ => none

/-- What the caller gets: a warning, or a path with the data that are said to be shown. -/
inductive Reply where
  | warning
  | result (dir name : String) (data : Field)

/-- viz/_adapters/dlga.py:126-136: the drawing and the renaming. -/
def draw (f : Files) (dir : String) (d : Field) : Files × Except Exn Reply :=
  match plotComparison (d.coords.headD []) d.t d.truth d.predicted with
  | .error e => (f, .error e)
  | .ok fig =>
    let f1 := f.set dir "pde_comparison.png" (some fig)
    (if (f1 dir "field_comparison.png").isNone then (f1.set dir "field_comparison.png" (some fig)).set dir "pde_comparison.png" none else f1,
      .ok (.result dir "field_comparison.png" d))

/-- viz/_adapters/dlga.py:120-136 `_field_comparison` -/
def fieldComparison (f : Files) (o : Opts) : Files × Except Exn Reply :=
  match build o with
  | none => (f, .ok .warning)
  | some (.error e) => (f, .error e)
  | some (.ok d) => draw f o.dir d

/-! ## Term relationships -/

/-- The scatter of the left panel with its colours, the values of the histogram, and the axis labels. -/
structure TermsFig where
  points : List (Rat × Rat)
  colours : Option (List Rat)
  hist : Option (List Rat)
  xlabel : String
  ylabel : String
  deriving DecidableEq

/-- dlga_viz.py:249 `[metadata[key] for key in vars]` (the keys are there). -/
def cols (m : List (String × List Rat)) (vs : List String) : List (List Rat) := vs.map fun v => (m.lookup v).getD []

/-- dlga_viz.py:233-244: the names needed, and those missing. -/
def missing (m : List (String × List Rat)) (xs ys : List String) (color : Option String) : List String :=
  (xs ++ ys ++ color.toList).filter fun v => (m.lookup v).isNone

/-- dlga_viz.py:207-284 `plot_equation_terms` (`none`: a warning and no figure).  `color` is `none` for an empty or missing name.
A scatter of columns of different lengths, or with another number of colours, raises ValueError. -/
def plotTerms (m : List (String × List Rat)) (xs ys : List String) (xlabel ylabel color : Option String) : Except Exn (Option TermsFig) :=
  if xs = [] ∨ ys = [] then .ok none
  else if missing m xs ys color ≠ [] then .ok none
  else match DlgaOld.prodOf (cols m xs), DlgaOld.prodOf (cols m ys) with
    | .ok a, .ok b =>
      let c := color.bind fun v => m.lookup v
      if a.length ≠ b.length then .error .value
      else if c.any fun l => l.length != a.length then .error .value
      else .ok (some ⟨a.zip b, c, c, xlabel.getD ("-".intercalate xs), ylabel.getD ("-".intercalate ys)⟩)
    | .error e, _ => .error e
    | _, .error e => .error e

/-! ## Residual analysis -/

/-- A bar of the histogram: its ends, its height, its place on the colour scale. -/
structure Bar where
  left : Rat
  right : Rat
  height : Rat
  colour : Rat
  deriving DecidableEq

/-- The left panel: (time, place, residual) of every training point; the right panel: fifty bars. -/
structure ResFig where
  points : List (Rat × Rat × Rat)
  bars : List Bar
  deriving DecidableEq

/-- `np.histogram`: the range of the bins (a single value is widened by a half to both sides; no values: from 0 to 1). -/
def histRange : List Rat → Rat × Rat
  | [] => (0, 1)
  | a :: r => let lo := r.foldl min a; let hi := r.foldl max a; if lo = hi then (lo - 1 / 2, hi + 1 / 2) else (lo, hi)

/-- `np.histogram`: the edge number `k` of `n` bins. -/
def edge (r : Rat × Rat) (n k : Nat) : Rat := r.1 + k * (r.2 - r.1) / n

/-- `np.histogram`: the number of the bin of a value in the range; the upper end belongs to the last bin. -/
def binOf (r : Rat × Rat) (n : Nat) (v : Rat) : Nat := min (⌊(v - r.1) * n / (r.2 - r.1)⌋.toNat) (n - 1)

/-- dlga_viz.py:134-144: `plt.hist(…, bins=50, density=True)` and the colours of the patches (without values the heights are not numbers; here 0). -/
def bars (l : List Rat) : List Bar :=
  let r := histRange l
  let centre := fun k : Nat => 1 / 2 * (edge r 50 k + edge r 50 (k + 1))
  (List.range 50).map fun k => ⟨edge r 50 k, edge r 50 (k + 1),
    ((l.filter fun v => binOf r 50 v = k).length : Rat) / (l.length * (edge r 50 (k + 1) - edge r 50 k)), (centre k - centre 0) / (centre 49 - centre 0)⟩

/-- dlga_viz.py:112-115 `y_train.flatten() - train_pred.flatten()` (numpy's broadcasting of two flat arrays). -/
def subFlat (y p : List Rat) : Except Exn (List Rat) :=
  if y.length = p.length then .ok (List.zipWith (· - ·) y p)
  else match y, p with
    | [a], _ => .ok (p.map (a - ·))
    | _, [b] => .ok (y.map (· - b))
    | _, _ => .error .value

/-- dlga_viz.py:98-157 `plot_residual_analysis` for training points of two coordinates (place, time). -/
def plotResiduals (net : Rat × Rat → Rat) (X : List (Rat × Rat)) (y : List Rat) (ut up : A) : Except Exn ResFig :=
  match subFlat y (X.map net) with
  | .error e => .error e
  | .ok c =>
    if c.length ≠ X.length then .error .value
    else match sub ut up with
      | .error e => .error e
      | .ok r => .ok ⟨(X.zip c).map fun p => (p.1.2, p.1.1, p.2), bars r.ravel⟩

end Verif.Viz.DlgaCmp
