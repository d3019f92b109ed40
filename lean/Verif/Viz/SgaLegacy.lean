import Verif.Sga.Problems
import Mathlib.Algebra.Order.Field.Rat
/-!
# `KD_SGA.plot_results` (kd/model/kd_sga.py:199-224, kd/model/sga/sgapde/visualizer.py)

Values are rationals.  Titles, labels and colours are left out, except for the limits of the colour scale.
-/
namespace Verif.Viz.SgaLegacy
open Verif.Sga.Problems

/-- Data on a grid of `n` places and `m` times: u and its derivatives at place `i` and time `j`. -/
structure Grid where
  n : Nat
  m : Nat
  at_ : Nat → Nat → Pt

/-- The context of a finished fit: the data used (refined with `use_metadata`) and the data given. -/
structure Ctx where
  useMetadata : Bool
  used : Grid
  origin : Grid

/-- A curve: its points. -/
abbrev Curve := List (ℚ × ℚ)

inductive Fig where
  /-- `imshow`: rows, columns, values, and the limits of the colour scale. -/
  | image (rows cols : Nat) (value : Nat → Nat → ℚ) (vmin vmax : ℚ)
  /-- a figure of up to two curves: "Metadata" (if `use_metadata`) and "Raw data". -/
  | slice (metadata : Option Curve) (raw : Curve)

/-- `plt.plot(np.linspace(0, a, n), values)` -/
def curve (a : ℚ) (n : Nat) (f : Nat → ℚ) : Curve := (List.range n).map fun (i : Nat) => (a * i / ((n : ℚ) - 1), f i)

/-- visualizer.py:72-121, 135-145: the figure of a quantity at the middle time; `a` is the end of the raw data's axis. -/
def slice (c : Ctx) (a : ℚ) (q r : Pt → ℚ) : Fig :=
  .slice (if c.useMetadata then some (curve 100 c.used.n fun i => q (c.used.at_ i (c.used.m / 2))) else none)
    (curve a c.origin.n fun i => r (c.origin.at_ i (c.origin.m / 2)))

/-- context.py:1037, 1041 `int(n * 0.1)`, in exact arithmetic. -/
def n1 (n : Nat) : Nat := n / 10

/-- context.py:1038, 1042 `int(n * 0.9)`, in exact arithmetic. -/
def n2 (n : Nat) : Nat := 9 * n / 10

/-- visualizer.py:123-133 with context.py:1084, 1094: the right-hand sides without the edges. -/
def rhsSlice (c : Ctx) (b : Builtin) : Fig :=
  .slice (if c.useMetadata then some (curve 100 (n2 c.used.n - n1 c.used.n) fun i => right b (c.used.at_ (n1 c.used.n + i) (c.used.m / 2))) else none)
    (curve 100 (n2 c.origin.n - n1 c.origin.n) fun i => rightOrigin b (c.origin.at_ (n1 c.origin.n + i) (c.origin.m / 2)))

/-- All values of a quantity on a grid. -/
def values (g : Grid) (q : Pt → ℚ) : List ℚ := (List.range g.n).flatMap fun i => (List.range g.m).map fun j => q (g.at_ i j)

/-- `np.min` / `np.max` (of a list that is not empty) -/
def low : List ℚ → ℚ
  | [] => 0
  | a :: l => l.foldl min a

def high : List ℚ → ℚ
  | [] => 0
  | a :: l => l.foldl max a

/-- visualizer.py:57-70, 147-162: an image of the grid `g`, with the colour scale of the given data. -/
def image (c : Ctx) (g : Grid) (q r : Pt → ℚ) : Fig :=
  .image g.n g.m (fun i j => q (g.at_ i j)) (low (values c.origin r)) (high (values c.origin r))

/-- visualizer.py:23-162 `plot_figures`: the figures and the files they are saved to. -/
def figures (c : Ctx) (b : Builtin) : List (String × Fig) :=
  [("metadata_field.png", image c c.used Pt.u Pt.u),
   ("original_field.png", image c c.origin Pt.u Pt.u),
   ("ut_slice.png", slice c 256 Pt.ut Pt.ut),
   ("ux_slice.png", slice c 256 Pt.ux Pt.ux),
   ("uxx_slice.png", slice c 100 Pt.uxx Pt.uxx),
   ("u_slice.png", slice c 100 Pt.u Pt.u),
   ("rhs_slice.png", rhsSlice c b),
   ("residual_slice.png", slice c 100 (fun p => p.ut - right b p) (fun p => p.ut - rightOrigin b p)),
   ("metadata_residual_heatmap.png", image c c.used (fun p => p.ut - right b p) (fun p => p.ut - rightOrigin b p)),
   ("original_residual_heatmap.png", image c c.origin (fun p => p.ut - rightOrigin b p) (fun p => p.ut - rightOrigin b p))]

/-- kd_sga.py:210 -/
def supported : List Name := ["chafee-infante".toList, "burgers".toList, "kdv".toList]

/-- What a call of `plot_results` does. -/
inductive Result where
  | runtimeError
  | skipped
  | drawn (dir : List Name) (figs : List (String × Fig))

/-- kd_sga.py:199-224 `plot_results` without arguments (visualizer.py:7-13: the directory below the current one).  `fit`: name and template (`has_ground_truth`, config.py) of the
configuration and the context; `none`: no fit. -/
def plotResults : Option (Name × Option Builtin × Ctx) → Result
  | none => .runtimeError
  | some (name, template, c) =>
    if normalize name ∉ supported then .skipped
    else match template with
      | none => .skipped
      | some b => .drawn ["artifacts".toList, "legacy_sga".toList, name] (figures c b)

end Verif.Viz.SgaLegacy
