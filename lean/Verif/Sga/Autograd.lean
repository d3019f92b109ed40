import Mathlib.Analysis.Calculus.Deriv.Basic
import Mathlib.Analysis.Real.Sqrt
/-!
# SGA: derivatives from a network, refined data (kd/model/sga/sgapde/{context,metann}.py)

Numbers are reals (no rounding, no conversion to float32).  A network is a function of the list of its inputs; automatic differentiation is
the derivative of this function.  The weights, Adam and the files are parameters.
-/
namespace Verif.Sga.Autograd
noncomputable section

/-! ## Statistics -/

/-- `np.mean` -/
def mean (l : List ℝ) : ℝ := l.sum / l.length

/-- `np.std` -/
def std (l : List ℝ) : ℝ := Real.sqrt ((l.map fun x => (x - mean l) ^ 2).sum / l.length)

open Classical in
/-- `np.where(s == 0.0, 1.0, s)` -/
def safe (s : ℝ) : ℝ := if s = 0 then 1 else s

/-- The points of the grid, flattened in C order (context.py:377-385 `_build_coord_grids`, metann.py:22-34, and `reshape(-1)`). -/
def gridPts : List (List ℝ) → List (List ℝ)
  | [] => [[]]
  | c :: cs => c.flatMap fun a => (gridPts cs).map fun p => a :: p

/-- Column `i` of a table of points. -/
def column (pts : List (List ℝ)) (i : Nat) : List ℝ := pts.map fun p => p.getD i 0

/-- Mean and (safe) standard deviation of the first `k` columns. -/
def colStats (k : Nat) (pts : List (List ℝ)) : List (ℝ × ℝ) := (List.range k).map fun i => (mean (column pts i), safe (std (column pts i)))

/-- `(X - x_mean) / x_std` for one row. -/
def normIn (st : List (ℝ × ℝ)) (x : List ℝ) : List ℝ := List.zipWith (fun a p => (a - p.1) / p.2) x st

/-! ## Training data -/

/-- The statistics returned with the training data: those of the columns, mean and standard deviation of the field. -/
structure Stats where
  x : List (ℝ × ℝ)
  yMean : ℝ
  yStd : ℝ

/-- metann.py:37-88 `prepare_training_data` of a grid with the given axes and the flattened field: inputs, outputs and statistics. -/
def prepare (normalize : Bool) (axes : List (List ℝ)) (field : List ℝ) : List (List ℝ) × List ℝ × Stats :=
  let X := gridPts axes
  let s : Stats := ⟨colStats axes.length X, mean field, safe (std field)⟩
  if normalize then (X.map (normIn s.x), field.map (fun y => (y - s.yMean) / s.yStd), s) else (X, field, s)

/-! ## Derivatives -/

/-- Automatic differentiation with respect to input `i`. -/
def D (i : Nat) (f : List ℝ → ℝ) (z : List ℝ) : ℝ := deriv (fun s => f (z.set i s)) (z.getD i 0)

/-- context.py:854-930: the derivative along axis `i` of one field on the grid. -/
def gradND (normalize : Bool) (net : List ℝ → ℝ) (axes : List (List ℝ)) (field : List ℝ) (i : Nat) : List ℝ :=
  let X := gridPts axes
  let st := colStats axes.length X
  if normalize then X.map fun x => D i net (normIn st x) * (safe (std field) / (st.getD i (0, 1)).2)
  else X.map fun x => D i net x

/-- The four derivatives of the two-dimensional path. -/
structure Derivs where
  ut : List ℝ
  ux : List ℝ
  uxx : List ℝ
  uxxx : List ℝ

/-- context.py:713-798 `_autograd_high_order_2d`: `xi` and `ti` are the places of x and t among the axes. -/
def high2 (normalize : Bool) (net : List ℝ → ℝ) (axes : List (List ℝ)) (field : List ℝ) (xi ti : Nat) : Derivs :=
  let X := gridPts axes
  let st := colStats axes.length X
  let ys := if normalize then safe (std field) else 1
  let sx := if normalize then (st.getD xi (0, 1)).2 else 1
  let stt := if normalize then (st.getD ti (0, 1)).2 else 1
  let inp := fun x => if normalize then normIn st x else x
  ⟨X.map fun x => D ti net (inp x) * (ys / stt),
   X.map fun x => D xi net (inp x) * (ys / sx),
   X.map fun x => D xi (D xi net) (inp x) * (ys / sx ^ 2),
   X.map fun x => D xi (D xi (D xi net)) (inp x) * (ys / sx ^ 3)⟩

/-! ## Which network -/

/-- The settings that decide on the networks: names of the fields, target, `autograd_fields`, `autograd_models`, `autograd_model`,
`autograd_model_paths`, `model_path`. -/
structure Cfg (N : Type) where
  fields : List String
  target : String
  wanted : Option (List String)
  models : List (String × N)
  model : Option N
  paths : List (String × String)
  path : String

/-- Where a network comes from. -/
inductive Source where
  | given | file | trained
deriving DecidableEq

/-- context.py:593-629: the fields to be differentiated, the networks and the paths; `none`: ValueError. -/
def setup {N : Type} (c : Cfg N) : Option (List String × List (String × N) × List (String × String)) :=
  let fs := c.wanted.getD c.fields
  if fs.all c.fields.contains && fs.contains c.target then
    some (fs,
      match c.model with
      | some m => if (c.models.lookup c.target).isSome then c.models else c.models ++ [(c.target, m)]
      | none => c.models,
      if c.path ≠ "" && (c.paths.lookup c.target).isNone then c.paths ++ [(c.target, c.path)] else c.paths)
  else none

/-- context.py:685-711 `_resolve_model`; `disk` gives the network in a file (`none`: no such file; a file that does not fit raises and is left
out), `train` the network trained on the current data. -/
def resolve {N : Type} (disk : String → Option N) (train : String → N) (paths : List (String × String)) (models : List (String × N)) (f : String) :
    N × Source × List (String × N) :=
  match models.lookup f with
  | some m => (m, .given, models)
  | none => match ((paths.lookup f).filter (· != "")).bind disk with
    | some m => (m, .file, models ++ [(f, m)])
    | none => (train f, .trained, models ++ [(f, train f)])

/-- context.py:801, 876-878: the networks of the fields, one after the other, and `autograd_models` afterwards (kept in the configuration). -/
def resolveAll {N : Type} (disk : String → Option N) (train : String → N) (paths : List (String × String)) :
    List (String × N) → List String → List (String × N × Source) × List (String × N)
  | models, [] => ([], models)
  | models, f :: fs =>
    let r := resolve disk train paths models f
    let q := resolveAll disk train paths r.2.2 fs
    ((f, r.1, r.2.1) :: q.1, q.2)

/-! ## Refined data -/

/-- `np.linspace(a, b, n)` -/
def linspace (a b : ℝ) (n : Nat) : List ℝ := (List.range n).map fun (i : Nat) => a + (i : ℝ) * ((b - a) / ((n : ℝ) - 1))

/-- Mean and standard deviation, not made safe. -/
def rawStats (k : Nat) (pts : List (List ℝ)) : List (ℝ × ℝ) := (List.range k).map fun i => (mean (column pts i), std (column pts i))

/-- What ends a refinement early. -/
inductive Stop where
  /-- `sys.exit(1)` -/
  | exit
  /-- the data are NaN -/
  | nan
deriving DecidableEq

open Classical in
/-- context.py:1122-1176 `_generate_metadata` for the coordinate ranges `[xlo, xhi]` and `[tlo, thi]` with `n` and `m` points, the flattened field
and the network of the file (`none`: no file): the new axes and the new field. -/
def refine (normalize : Bool) (net : Option (List ℝ → ℝ)) (ratio n m : Nat) (xlo xhi tlo thi : ℝ) (field : List ℝ) :
    Except Stop (List ℝ × List ℝ × List ℝ) :=
  match net with
  | none => .error .exit
  | some f =>
    let xs := linspace xlo xhi (ratio * n)
    let ts := linspace tlo thi (ratio * m)
    let X := gridPts [xs, ts]
    let st := rawStats 2 X
    if normalize then
      if ∃ p ∈ st, p.2 = 0 then .error .nan
      else .ok (xs, ts, X.map fun x => f (normIn st x) * std field + mean field)
    else .ok (xs, ts, X.map f)

end
end Verif.Sga.Autograd
