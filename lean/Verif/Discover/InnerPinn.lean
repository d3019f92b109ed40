import Verif.Discover.Pinn
/-!
# Data sets the network of the sparse mode loads by name
(kd/model/discover/task/pde/dataset.py, kd/model/discover/pinn.py, kd/model/kd_discover.py)

What is modelled: reading one of the seven built-in one-dimensional data sets, its layout, the sample, the split into training and
validation points, the noise, the collocation points; the constructor of the network model, which does this when the data set's name is
known; the import of the user's data afterwards; and the check against the built-in field after the first training.  Numbers are
rationals; `np.std`, the Latin hypercube and all random outcomes are arguments.  The picture `data.png` and the data sets of type
`2D_2U` (an argument) are not modelled.
-/
namespace Verif.Discover.InnerPinn
open Verif.Discover.Adapter Verif.Discover.Pinn

/-- AssertionError, UnboundLocalError, FileNotFoundError, ValueError, RuntimeError of a tensor operation; `unmodelled`: a file whose
array does not fit its axes. -/
inductive Err where
  | assertion | unbound | file | value | runtime | unmodelled
  deriving DecidableEq, Repr

/-! ## dataset.py: the built-in data sets -/

/-- A file as stored: its axes and its array by rows (`PDE_divide.npy` has no axes). -/
structure Raw where
  x : List ℚ
  t : List ℚ
  u : List (List ℚ)

/-- The data set after loading: `u` has one row per time (dataset.py:117 "t first"). -/
structure Field where
  x : List ℚ
  t : List ℚ
  u : List (List ℚ)

/-- `a[1:-1]` -/
def inner {α : Type} (l : List α) : List α := (l.drop 1).take (l.length - 2)

/-- `a.T` -/
def flip (u : List (List ℚ)) : List (List ℚ) :=
  (List.range ((u.head?.map List.length).getD 0)).map fun j => u.map fun r => (r[j]?).getD 0

/-- `np.linspace(a, b, n)` -/
def linspace (a b : ℚ) (n : Nat) : List ℚ := (List.range n).map fun i : Nat => a + (b - a) * (i : ℚ) / ((n : ℚ) - 1)

/-- dataset.py:113-154: the file of a data set; `none`: the assertion at 157 fails. -/
def fileOf (name : String) : Option String :=
  if name = "Burgers2" then some "burgers2.mat"
  else if name = "KS" then some "kuramoto_sivishinky.mat"
  else if name = "KS_sine" then some "KS_Sine.mat"
  else if name = "KS2" then some "KS.mat"
  else if name = "fisher" then some "fisher_nonlin_groundtruth.mat"
  else if name = "fisher_linear" then some "fisher_groundtruth.mat"
  else if name = "PDE_divide" then some "PDE_divide.npy"
  else none

/-- dataset.py:113-156: the field in the file. -/
def fieldOf (name : String) (r : Raw) : Field :=
  if name = "fisher" ∨ name = "fisher_linear" then ⟨inner r.x, inner r.t, (inner r.u).map inner⟩
  else if name = "PDE_divide" then ⟨inner (linspace 1 2 100), inner (linspace 0 1 251), (inner r.u).map inner⟩
  else ⟨r.x, r.t, flip r.u⟩

/-- The array has one row per time and one column per place. -/
def Field.fits (f : Field) : Bool := decide (f.u.length = f.t.length) && f.u.all fun r => decide (r.length = f.x.length)

/-- dataset.py:158-161: `X_star` and `u_star`, row by row. -/
def Field.star (f : Field) : List Sample :=
  (f.t.zip f.u).flatMap fun p => (f.x.zip p.2).map fun q => ([q.1, p.1], q.2)

/-- `int(q)`: towards zero. -/
def toInt (q : ℚ) : Int := if 0 ≤ q then q.floor else q.ceil

/-- The random outcomes: `choice n k` of the three calls of `np.random.choice`, the Latin hypercube, the normal numbers. -/
structure Draw1 where
  sample : Nat → Nat → List Nat
  times : Nat → Nat → List Nat
  train : Nat → Nat → List Nat
  unit : List (List ℚ)
  eTrain : List ℚ
  eVal : List ℚ

/-- dataset.py:167-191: the measured rows of `X_star` (`choice` refuses more numbers than there are, and negative sizes). -/
def measured (d : Draw1) (spline : Bool) (ratio : ℚ) (nx nt : Nat) : Except Err (List Nat) :=
  if spline then
    if toInt ((nx : ℚ) * ratio) < 0 ∨ (nx : Int) < toInt ((nx : ℚ) * ratio) then .error .value
    else .ok ((d.times nt nt).flatMap fun a => (d.sample nx (toInt ((nx : ℚ) * ratio)).toNat).map fun b => a * nx + b)
  else
    if toInt (((nx * nt : Nat) : ℚ) * ratio) < 0 ∨ ((nx * nt : Nat) : Int) < toInt (((nx * nt : Nat) : ℚ) * ratio) then .error .value
    else .ok (d.sample (nx * nt) (toInt (((nx * nt : Nat) : ℚ) * ratio)).toNat)

/-- dataset.py:219-220: `u + noise * np.std(u) * randn`. -/
def noisy (level : ℚ) (std : List ℚ → ℚ) (e : List ℚ) (l : List Sample) : List Sample :=
  List.zipWith (fun s ei => (s.1, s.2 + level * std (l.map Prod.snd) * ei)) l e

/-- What dataset.py:242 returns. -/
structure Loaded where
  train : List Sample
  val : List Sample
  colloc : List (List ℚ)
  lb : List ℚ
  ub : List ℚ
  star : List Sample
  deriving DecidableEq

/-- dataset.py:158-242: from the field to the returned arrays. -/
def cut (d : Draw1) (std : List ℚ → ℚ) (level ratio : ℚ) (spline : Bool) (f : Field) : Except Err Loaded :=
  if f.fits then
    match boundsOf [f.x, f.t] with
    | .error _ => .error .value
    | .ok (lb, ub) =>
      match measured d spline ratio f.x.length f.t.length with
      | .error e => .error e
      | .ok pos =>
        let r := processData (rows f.star pos) d.train d.unit lb ub
        .ok { train := noisy level std d.eTrain r.1, val := noisy level std d.eVal r.2.1, colloc := r.2.2,
              lb := lb, ub := ub, star := f.star }
  else .error .unmodelled

/-- dataset.py:105-242 `load_1d_data`; `files` are the files in the package directory kd/dataset/data.  `_resolve_file`
(dataset.py:87-102) gives the path in that directory whether or not the file is there, so reading a missing one raises. -/
def load1d (files : String → Option Raw) (d : Draw1) (std : List ℚ → ℚ) (level ratio : ℚ) (spline : Bool) (name : String) :
    Except Err Loaded :=
  match fileOf name with
  | none => .error .assertion
  | some file => match files file with
    | none => .error .file
    | some raw => cut d std level ratio spline (fieldOf name raw)

/-! ## pinn.py and kd_discover.py -/

/-- The configuration of the network model (config_pde_pinn.json) and the machine it runs on. -/
structure Env where
  files : String → Option Raw
  dataType : String
  noise : ℚ
  ratio : ℚ
  draws : Draw1
  std : List ℚ → ℚ
  /-- `load_2d2U_data` (dataset.py:272-778) -/
  load2d : String → Except Err Loaded

/-- pinn.py:148-160 `load_inner_data`; without a known data type `load_class` has no value.  `spline_sample` keeps its default. -/
def loadInner (v : Env) (name : String) : Except Err Loaded :=
  if v.dataType = "1D_1U" then load1d v.files v.draws v.std v.noise v.ratio false name
  else if v.dataType = "2D_2U" then v.load2d name
  else .error .unbound

/-- pinn.py:88-98: the built-in data of the constructor, `none` if there are none. -/
def construct (v : Env) (name : Option String) : Except Err (Option Loaded) :=
  match name with
  | none => .ok none
  | some n => match loadInner v n with
    | .ok r => .ok (some r)
    | .error .assertion => .ok none
    | .error .unbound => .ok none
    | .error e => .error e

/-- The network model: the data it is trained on (pinn.py:125-146, 162-189) and the built-in field `x_star`, `u_star` if it has one. -/
structure Model where
  data : Data
  star : Option (List Sample)

/-- The data of the built-in data set before the import (pinn.py:162-189). -/
def innerData (l : Loaded) : Data :=
  { xt := split 2 (l.train.map Prod.fst), u := l.train.map Prod.snd, f := split 2 l.colloc,
    val := split 2 (l.val.map Prod.fst), uVal := l.val.map Prod.snd, lb := l.lb, ub := l.ub }

/-- The model right after its constructor; without built-in data its attributes do not exist. -/
def constructed (v : Env) (name : Option String) : Except Err (Option Data × Option (List Sample)) :=
  match construct v name with
  | .error e => .error e
  | .ok none => .ok (none, none)
  | .ok (some l) => .ok (some (innerData l), some l.star)

/-- kd_discover.py:608-612 `setup` of the sparse mode: construct, then import the user's data `s` with `w` coordinates, which replaces
every training attribute (pinn.py:125-146) but neither `x_star` nor `u_star`. -/
def setup (v : Env) (name : Option String) (w : Nat) (s : Sparse) : Except Err Model :=
  match constructed v name with
  | .error e => .error e
  | .ok m => .ok ⟨importData w s, m.2⟩

/-- kd/model/discover/utils.py:96-98 `l2_error`, squared: what is logged about the field. -/
def fieldError (net : List Fl → ℚ) (lb ub : List ℚ) (star : List Sample) : Option ℚ :=
  let num := (star.map fun p => (p.2 - net (scale lb ub p.1)) ^ 2).sum
  let den := (star.map fun p => p.2 ^ 2).sum
  if den = 0 then none else some (num / den)

/-- pinn.py:233-284 with the check at 269-273: `x_star` has two columns, so scaling it raises when the box has another number of
coordinates.  Result: the state, the number of epochs, and the logged error (`none`: nothing is logged). -/
def pretrainChecked {W O : Type} (m : Machine W O) (net : W → List Fl → ℚ) (load : Option W) (limit duration : Nat)
    (s : State W O) (star : Option (List Sample)) : Except Err (State W O × Nat × Option (Option ℚ)) :=
  let r := pretrain m load limit duration s
  match star with
  | none => .ok (r.1, r.2, none)
  | some st =>
    if s.data.lb.length = 2 then .ok (r.1, r.2, some (fieldError (net r.1.w) s.data.lb s.data.ub st)) else .error .runtime

end Verif.Discover.InnerPinn
