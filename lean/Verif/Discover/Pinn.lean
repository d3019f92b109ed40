import Mathlib.Algebra.Order.Ring.Rat
import Mathlib.Algebra.Field.Rat
import Mathlib.Data.Rat.Floor
import Verif.Discover.Adapter
/-!
# The network of the sparse mode (kd/model/discover/pinn.py, loss.py, task/pde/pde_pinn.py)

What is modelled: the arrangement of the observations, the scaling of the network's input, the two training loops (which losses are
compared, what is saved, when they stop, what is left in the network), the loss of the second loop, the residual of the equation, the
selection of the collocation points the search works on, and constant parameters.  The network, automatic differentiation and Adam are
arguments; numbers are rationals, a NaN is `none` where the code can meet one; tensorboard, logging and the full-field error are left out.
-/
namespace Verif.Discover.Pinn
open Verif.Discover.Adapter

/-- A float: `none` is NaN (infinities are not modelled). -/
abbrev Fl := Option ℚ

/-- `a + b` -/
def plus : Fl → Fl → Fl
  | some a, some b => some (a + b)
  | _, _ => none

/-- `c * a` -/
def scaled (c : ℚ) : Fl → Fl
  | some a => some (c * a)
  | none => none

/-! ## Observations -/

/-- Coordinates by column: the space coordinates and the time. -/
structure Cols where
  x : List (List ℚ)
  t : List ℚ

/-- `X[:, i:i+1]` -/
def column (X : List (List ℚ)) (i : Nat) : List ℚ := X.map fun r => (r[i]?).getD 0

/-- pinn.py:129-134: a table of `w` columns split into space and time. -/
def split (w : Nat) (X : List (List ℚ)) : Cols := ⟨(List.range (w - 1)).map (column X), column X (w - 1)⟩

/-- `torch.cat([*x, t], axis=1)`: the rows the network gets. -/
def Cols.rows (c : Cols) : List (List ℚ) :=
  (List.range c.t.length).map fun k => (c.x.map fun col => (col[k]?).getD 0) ++ [(c.t[k]?).getD 0]

/-- What the model holds after pinn.py:125-146 `import_outter_data`: training points and values, collocation points, validation points and
values, and the box. -/
structure Data where
  xt : Cols
  u : List ℚ
  f : Cols
  val : Cols
  uVal : List ℚ
  lb : List ℚ
  ub : List ℚ

/-- pinn.py:125-146 `import_outter_data` of the dictionary of `SparseData`; `w` is the number of coordinates including time. -/
def importData (w : Nat) (s : Sparse) : Data :=
  { xt := split w (s.train.map Prod.fst), u := s.train.map Prod.snd, f := split w s.colloc,
    val := split w (s.val.map Prod.fst), uVal := s.val.map Prod.snd, lb := s.lb, ub := s.ub }

/-- pinn.py:281-284: validation points are added to the training points. -/
def merge (d : Data) : Data :=
  { d with xt := ⟨List.zipWith (· ++ ·) d.xt.x d.val.x, d.xt.t ++ d.val.t⟩, u := d.u ++ d.uVal }

/-- pinn.py:366 `H = 2 (X - lb) / (ub - lb) - 1` (`none`: not a finite number). -/
def scale (lb ub row : List ℚ) : List Fl :=
  List.zipWith (fun b r => if b.2 - b.1 = 0 then none else some (2 * (r - b.1) / (b.2 - b.1) - 1)) (lb.zip ub) row

/-! ## Training on the observations -/

/-- The network: `W` its weights, `O` the state of an optimiser.  `mse` is the mean square error on a list of (scaled input, value);
`adam` one step of an optimiser on a loss. -/
structure Machine (W O : Type) where
  mse : List (List Fl × ℚ) → W → Fl
  adam : (W → Fl) → W → O → W × O

/-- The pairs (network input, value) of the observations. -/
def pairs (lb ub : List ℚ) (c : Cols) (u : List ℚ) : List (List Fl × ℚ) := (c.rows.map (scale lb ub)).zip u

/-- The loop variables of `pretrain`: weights, optimiser, lowest validation loss, its epoch, and the checkpoint file. -/
structure Pre (W O : Type) where
  w : W
  o : O
  best : ℚ
  last : Nat
  file : Option W

/-- pinn.py:255-258 -/
def keep {W O : Type} (valLoss : W → Fl) (i : Nat) (s : Pre W O) : Pre W O :=
  match valLoss s.w with
  | none => s
  | some v => if v < s.best then { s with best := v, last := i, file := some s.w } else s

/-- pinn.py:263-264 -/
def advance {W O : Type} (step : W → O → W × O) (s : Pre W O) : Pre W O := { s with w := (step s.w s.o).1, o := (step s.w s.o).2 }

/-- pinn.py:239-268: the loop from epoch `i` on; the number of epochs run. -/
def preLoop {W O : Type} (valLoss : W → Fl) (step : W → O → W × O) (duration : Nat) : Nat → Nat → Pre W O → Pre W O × Nat
  | 0, i, s => (s, i)
  | n + 1, i, s =>
    let s := advance step (keep valLoss i s)
    if i - s.last > duration then (s, i + 1) else preLoop valLoss step duration n (i + 1) s

/-- The model: weights, the states of the two optimisers, data, and the checkpoint files: `pretrain.ckpt`, and `pinn<k>.ckpt`,
`pinn<k>_best.ckpt` by number. -/
structure State (W O : Type) where
  w : W
  oPre : O
  o : O
  data : Data
  pre : Option W
  final : Nat → Option W
  best : Nat → Option W

/-- pinn.py:233-284 `pretrain`; `load`: the weights of `pretrain_path` if configured.  Second component: epochs run. -/
def pretrain {W O : Type} (m : Machine W O) (load : Option W) (limit duration : Nat) (s : State W O) : State W O × Nat :=
  match load with
  | some w => ({ s with w := w, data := merge s.data }, 0)
  | none =>
    let r := preLoop (m.mse (pairs s.data.lb s.data.ub s.data.val s.data.uVal))
      (m.adam (m.mse (pairs s.data.lb s.data.ub s.data.xt s.data.u))) duration limit 0 ⟨s.w, s.oPre, 100000000, 0, s.pre⟩
    ({ s with w := r.1.w, oPre := r.1.o, pre := r.1.file, data := merge s.data }, r.2)

/-! ## Training with equations -/

/-- An equation in the loss: mean square residual at the collocation points and at the observed points, for given weights. -/
structure Equation (W : Type) where
  res : W → Fl
  loc : W → Fl

/-- pinn.py:311-323: the loss of one equation; a NaN at the collocation points counts as 0. -/
def eqLoss {W : Type} (local_ : Bool) (e : Equation W) (w : W) : Fl :=
  let r := match e.res w with
    | none => some 0
    | some v => some v
  if local_ then plus r (e.loc w) else r

/-- pinn.py:309-323: the loop over the equations; `pde_loss` is set to 0 in each round.  `none`: no equation, so the variable has no value. -/
def pdeLoss {W : Type} (local_ : Bool) (es : List (Equation W)) (w : W) : Option Fl :=
  es.foldl (fun _ e => some (eqLoss local_ e w)) none

/-- pinn.py:306-326: the loss of one epoch. -/
def total {W : Type} (mse : W → Fl) (coef : ℚ) (local_ : Bool) (es : List (Equation W)) (w : W) : Option Fl :=
  (pdeLoss local_ es w).map fun p => plus (scaled coef p) (mse w)

/-- The loop variables of `train_pinn`: weights, optimiser, lowest loss, its epoch (`none`: no value yet), best checkpoint. -/
structure Run (W O : Type) where
  w : W
  o : O
  best : ℚ
  last : Option Nat
  file : Option W

/-- pinn.py:339-343: after the update, the loss before it is compared and the weights after it are saved. -/
def record {W O : Type} (loss : Fl) (i : Nat) (s : Run W O) : Run W O :=
  match loss with
  | none => s
  | some v => if v < s.best then { s with best := v, last := some i, file := some s.w } else s

/-- pinn.py:305-346: the loop from epoch `i` on.  Second component: the number of epochs run, or `none` for UnboundLocalError. -/
def trainLoop {W O : Type} (loss : W → Fl) (step : W → O → W × O) (last_ : Bool) : Nat → Nat → Run W O → Run W O × Option Nat
  | 0, i, s => (s, some i)
  | n + 1, i, s =>
    let s' : Run W O := { s with w := (step s.w s.o).1, o := (step s.w s.o).2 }
    if last_ then
      let s'' := record (loss s.w) i s'
      match s''.last with
      | none => (s'', none)
      | some l => if i - l > 200 then (s'', some (i + 1)) else trainLoop loss step last_ n (i + 1) s''
    else trainLoop loss step last_ n (i + 1) s'

/-- pinn.py:340-353: the model after the loop; `false`: UnboundLocalError. -/
def finish {W O : Type} (count : Nat) (s : State W O) (r : Run W O × Option Nat) : State W O × Bool :=
  match r.2 with
  | none => ({ s with w := r.1.w, o := r.1.o, best := fun k => if k = count then r.1.file else s.best k }, false)
  | some _ => ({ s with w := r.1.w, o := r.1.o, best := fun k => if k = count then r.1.file else s.best k,
                        final := fun k => if k = count then some r.1.w else s.final k }, true)

/-- The loss minimised by `train_pinn` as a function of the weights (pinn.py:306-326). -/
def lossOf {W O : Type} (m : Machine W O) (es : Data → List (Equation W)) (coef : ℚ) (local_ : Bool) (d : Data) (w : W) : Fl :=
  (total (m.mse (pairs d.lb d.ub d.xt d.u)) coef local_ (es d) w).getD none

/-- pinn.py:286-353 `train_pinn`; `epochs` is `pinn_epoch`; the equations' residuals are evaluated on `data` (arguments of `es`).
`false`: UnboundLocalError. -/
def trainPinn {W O : Type} (m : Machine W O) (es : Data → List (Equation W)) (count : Nat) (coef : ℚ) (local_ last_ : Bool)
    (epochs : Nat) (s : State W O) : State W O × Bool :=
  if (es s.data).length = 0 ∧ 0 < epochs then (s, false)
  else finish count s (trainLoop (lossOf m es coef local_ s.data) (m.adam (lossOf m es coef local_ s.data)) last_ epochs 0
    ⟨s.w, s.o, 100000000, none, s.best count⟩)

/-! ## The residual of an equation -/

/-- stridge.py:613-623 `calculate_RHS` at one point for a list of coefficients: `ut` minus the sum of coefficient times term
(`none`: IndexError, more coefficients than terms). -/
def residual (ut : ℚ) (terms coefs : List ℚ) : Option ℚ :=
  if coefs.length ≤ terms.length then some (ut - (List.zipWith (· * ·) terms coefs).foldl (· + ·) 0) else none

/-- loss.py:11-34 `pinn_loss`: mean square of the residuals over the points (left-hand sides with the terms' values). -/
def pinnLoss (points : List (ℚ × List ℚ)) (coefs : List ℚ) : Option Fl :=
  match points.mapM fun p => residual p.1 p.2 coefs with
  | none => none
  | some rs => if rs = [] then some none else some (some ((rs.map fun r => r ^ 2).sum / rs.length))

/-! ## The data of the search -/

/-- Insertion into an increasing list. -/
def insertQ (a : ℚ) : List ℚ → List ℚ
  | [] => [a]
  | b :: r => if a ≤ b then a :: b :: r else b :: insertQ a r

/-- `np.sort` -/
def sortQ (l : List ℚ) : List ℚ := l.foldr insertQ []

/-- `np.quantile(l, q)` (linear interpolation), for `0 ≤ q ≤ 1`; 0 for an empty list, where the code raises IndexError. -/
def quantile (q : ℚ) (l : List ℚ) : ℚ :=
  let s := sortQ l
  let pos := q * ((l.length : ℚ) - 1)
  let k := pos.floor.toNat
  let a := (s[k]?).getD 0
  let b := (s[k + 1]?).getD a
  a + (pos - pos.floor) * (b - a)

/-- utils_noise.py:12-25: whether point `k` is kept. -/
def inside (q : ℚ) (c : Cols) (k : Nat) : Bool :=
  (c.x.all fun col => decide (quantile q col < (col[k]?).getD 0) && decide ((col[k]?).getD 0 < quantile (1 - q) col)) &&
    (decide (quantile q c.t ≤ (c.t[k]?).getD 0) && decide ((c.t[k]?).getD 0 ≤ quantile (1 - q) c.t))

/-- utils_noise.py:11-29 `cut_bound_quantile` -/
def cutQuantile (q : ℚ) (c : Cols) : Cols :=
  let ks := (List.range c.t.length).filter (inside q c)
  ⟨c.x.map fun col => ks.map fun k => (col[k]?).getD 0, ks.map fun k => (c.t[k]?).getD 0⟩

/-- What the search works on: the points (space columns and time), and at every point the network's value and its time derivative. -/
structure Meta where
  pts : Cols
  u : List Fl
  ut : List Fl

/-- The network after training: value and time derivative at a point (not scaled). -/
structure Field where
  value : List ℚ → Fl
  dt : List ℚ → Fl

/-- pde_pinn.py:286-303 `AD_generate_mD` (one equation) -/
def generateMulti (q : ℚ) (n : Field) (f : Cols) : Option Meta :=
  let c := cutQuantile q f
  some ⟨c, c.rows.map n.value, c.rows.map n.dt⟩

/-- pde_pinn.py:272-284 `AD_generate_1D`: all space columns are taken as one; with more than one the comparison raises ValueError
(`none`; for point numbers other than one and the number of columns).  The derivative is by the second column. -/
def generateOne (q : ℚ) (n : Field) (f : Cols) : Option Meta :=
  if f.x.length = 1 then
    let c := cutQuantile q f
    some ⟨c, c.rows.map n.value, c.rows.map n.dt⟩
  else none

/-- NotImplementedError, IndexError. -/
inductive Exn where
  | notImplemented | index
deriving DecidableEq

/-- pde_pinn.py:123-147 `_refresh_param_refs` for one parameter: the array used at `n` points. -/
def refreshParam (raw : List ℚ) (n : Nat) : Except Exn (List ℚ) :=
  match raw with
  | [] => .error .index
  | c :: _ => if raw.all fun v => close v c then .ok (List.replicate n c) else .error .notImplemented

end Verif.Discover.Pinn
