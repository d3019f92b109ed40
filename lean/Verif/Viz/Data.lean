import Verif.Dataset.Load
/-!
# The data behind the figures (kd/viz/_contracts.py, kd/viz/_adapters/*.py)

Arrays are `Verif.Data.Arr` with rational entries (no NaN or infinity); coordinates are one-dimensional.  What matplotlib does with
the data is not modelled: a figure is the data handed to it, a picture file is an arbitrary value.
-/
namespace Verif.Viz.Data
open Verif.Data

/-- The exceptions: ValueError, IndexError, KeyError, TypeError. -/
inductive Exn where
  | value | index | key | type
deriving DecidableEq, Repr

abbrev A := Arr Rat

/-! ## numpy helpers -/

/-- The common shape of two arrays under numpy's broadcasting, shapes written from the last axis. -/
def bcast : List Nat → List Nat → Option (List Nat)
  | [], b => some b
  | a, [] => some a
  | x :: a, y :: b =>
    if x = y ∨ y = 1 then (bcast a b).map (x :: ·)
    else if x = 1 then (bcast a b).map (y :: ·)
    else none

/-- The entry of an array of shape `s` used at index `i` of the broadcast array. -/
def bcastIdx (s i : List Nat) : List Nat := List.zipWith (fun d k => if d = 1 then 0 else k) s (i.drop (i.length - s.length))

/-- `a - b` -/
def sub (a b : A) : Except Exn A :=
  match bcast a.shape.reverse b.shape.reverse with
  | none => .error .value
  | some s => .ok ⟨s.reverse, fun i => a.get (bcastIdx a.shape i) - b.get (bcastIdx b.shape i)⟩

/-- `np.take(a, i, axis=k)` -/
def takeAxis (a : A) (k i : Nat) : Except Exn A :=
  if i < (a.shape[k]?).getD 0 then .ok ⟨a.shape.eraseIdx k, fun idx => a.get (idx.insertIdx k i)⟩ else .error .index

/-- `np.transpose(a, perm)`: entry `idx` of the result is the entry of `a` whose coordinate `perm[k]` is `idx[k]`. -/
def transpose (a : A) (perm : List Nat) : A :=
  ⟨perm.map fun k => (a.shape[k]?).getD 0, fun idx => a.get ((List.range perm.length).map fun m => (idx[perm.idxOf m]?).getD 0)⟩

/-! ## kd/viz/_contracts.py -/

/-- _contracts.py:11-17 -/
structure Residual where
  actual : A
  predicted : A
  residuals : A
  coords : Option A

/-- _contracts.py:19-35 `ResidualPlotData.__post_init__` -/
def mkResidual (actual predicted residuals : A) (coords : Option A) : Except Exn Residual :=
  if actual.shape ≠ predicted.shape then .error .value
  else if actual.shape ≠ residuals.shape then .error .value
  else match coords with
    | none => .ok ⟨actual, predicted, residuals, none⟩
    | some c => match c.shape, actual.shape with
      | m :: _, n :: _ => if m ≠ n then .error .value else .ok ⟨actual, predicted, residuals, some c⟩
      | _, _ => .error .index

/-- _contracts.py:37-58 `ResidualPlotData.from_actual_predicted` -/
def residualOf (actual predicted : A) (coords : Option A) : Except Exn Residual :=
  match sub actual predicted with
  | .error e => .error e
  | .ok r => mkResidual actual predicted r coords

/-- _contracts.py:326-331 (values flattened) -/
structure Parity where
  actual : List Rat
  predicted : List Rat
  residuals : List Rat

/-- _contracts.py:333-341 `ParityPlotData.__post_init__` -/
def mkParity (actual predicted residuals : A) : Except Exn Parity :=
  if actual.ravel.length ≠ predicted.ravel.length then .error .value
  else if actual.ravel.length ≠ residuals.ravel.length then .error .value
  else .ok ⟨actual.ravel, predicted.ravel, residuals.ravel⟩

/-- _contracts.py:343-359 `ParityPlotData.from_actual_predicted` -/
def parityOf (actual predicted : A) : Except Exn Parity :=
  match sub actual predicted with
  | .error e => .error e
  | .ok r => mkParity actual predicted r

/-- _contracts.py:110-117 -/
structure Field where
  coords : List (List Rat)
  t : List Rat
  truth : A
  predicted : A
  residual : A

/-- _contracts.py:146: the shape the fields must have. -/
def expected (coords : List (List Rat)) (t : List Rat) : List Nat := coords.map List.length ++ [t.length]

/-- _contracts.py:119-159 `FieldComparisonData.__init__` (coordinates given) -/
def mkField (coords : List (List Rat)) (t : List Rat) (truth predicted : A) (residual : Option A) : Except Exn Field :=
  if truth.shape ≠ predicted.shape then .error .value
  else if truth.shape ≠ expected coords t then .error .value
  else match residual with
    | none => match sub truth predicted with
      | .error e => .error e
      | .ok r => .ok ⟨coords, t, truth, predicted, r⟩
    | some r => if r.shape ≠ expected coords t then .error .value else .ok ⟨coords, t, truth, predicted, r⟩

/-- _contracts.py:202-205: the axis cut. -/
def clampAxis (n : Nat) (a : Int) : Nat := (max 0 (min (if a < 0 then (n : Int) + a else a) ((n : Int) - 1))).toNat

/-- _contracts.py:207-211: the position of the cut. -/
def clampIndex (size : Nat) : Option Int → Nat
  | none => (max 0 (min ((size / 2 : Nat) : Int) ((size : Int) - 1))).toNat
  | some i => (max 0 (min i ((size : Int) - 1))).toNat

/-- _contracts.py:197-224: one round of the loop. -/
def cut (a : Int) (i : Option Int) (d : Field) : Except Exn Field :=
  let k := clampAxis d.coords.length a
  let j := clampIndex ((d.coords[k]?).getD []).length i
  match takeAxis d.truth k j, takeAxis d.predicted k j, takeAxis d.residual k j with
  | .ok tr, .ok pr, .ok re => mkField (d.coords.eraseIdx k) d.t tr pr (some re)
  | _, _, _ => .error .index

/-- _contracts.py:194-226: the loop (`n` bounds the number of rounds; each removes one axis). -/
def cutLoop : Nat → Int → Option Int → Field → Except Exn Field
  | 0, _, _, d => .ok d
  | n + 1, a, i, d =>
    if d.coords.length > 2 then
      match cut a i d with
      | .error e => .error e
      | .ok d' => cutLoop n (-1) none d'
    else .ok d

/-- _contracts.py:171-226 `slice_3d_to_2d` -/
def slice (d : Field) (a : Int) (i : Option Int) : Except Exn Field := cutLoop d.coords.length a i d

/-! ## Time slices -/

/-- The absolute value. -/
def absR (a : Rat) : Rat := if a < 0 then -a else a

/-- `np.argmin`: position of the first smallest entry, for a non-empty list. -/
def argminFrom (best : Rat) (bi : Nat) : Nat → List Rat → Nat
  | _, [] => bi
  | k, v :: r => if v < best then argminFrom v k (k + 1) r else argminFrom best bi (k + 1) r

/-- `int(np.argmin(np.abs(t - v)))` (ValueError for an empty `t`). -/
def nearest (t : List Rat) (v : Rat) : Except Exn Nat :=
  match t.map fun s => absR (s - v) with
  | [] => .error .value
  | b :: r => .ok (argminFrom b 0 1 r)

/-- The nearest positions of several times. -/
def nearestAll (t : List Rat) : List Rat → Except Exn (List Nat)
  | [] => .ok []
  | v :: r => match nearest t v, nearestAll t r with
    | .ok i, .ok is => .ok (i :: is)
    | .error e, _ => .error e
    | _, .error e => .error e

/-- `t.min()`, `t.max()` of a non-empty list. -/
def minL (a : Rat) (r : List Rat) : Rat := r.foldl min a
def maxL (a : Rat) (r : List Rat) : Rat := r.foldl max a

/-- Insert into an increasing list unless present. -/
def insertU (v : Rat) : List Rat → List Rat
  | [] => [v]
  | a :: r => if v < a then v :: a :: r else if v = a then a :: r else a :: insertU v r

/-- `np.unique` -/
def unique (l : List Rat) : List Rat := l.foldr insertU []

/-- The panels of a time-slice figure: the positions on the time axis, the times written above, and the times asked for. -/
structure Panels where
  index : List Nat
  label : List Rat
  requested : List Rat

/-- sga.py:237-247: the times asked for. -/
def sgaRequested (lo hi : Rat) (t : List Rat) (times : Option (List Rat)) (count : Int) : List Rat :=
  match times with
  | none => Load.linspace lo hi (max 1 count).toNat
  | some [] => t
  | some l => l

/-- sga.py:235-259 `SGAVizAdapter._resolve_time_indices` -/
def sgaPanels (t : List Rat) (times : Option (List Rat)) (count : Int) : Except Exn Panels :=
  match t with
  | [] => .error .value
  | t0 :: tr =>
    let lo := minL t0 tr
    let hi := maxL t0 tr
    let raw := sgaRequested lo hi t times count
    let req := unique (raw.map fun v => min (max v lo) hi)
    let req := if req = [] then t else req
    match nearestAll t req with
    | .error e => .error e
    | .ok is => .ok ⟨is, is.map fun i => (t[i]?).getD 0, raw⟩

/-- dlga.py:567-572: the times asked for (`num_slices`: `none` not given). -/
def dlgaRequested (lo hi : Rat) (t : List Rat) (times : Option (List Rat)) (num : Option Int) : List Rat :=
  match times with
  | some l => l
  | none =>
    let n : Int := match num with
      | none => 3
      | some k => if k = 0 then 3 else k
    Load.linspace lo hi (max 1 (min n (t.length : Int))).toNat

/-- dlga.py:138-186, 559-584 and _contracts.py:251-287: the DLGA time slices for fields of the right shape. -/
def dlgaPanels (t : List Rat) (times : Option (List Rat)) (num : Option Int) : Except Exn Panels :=
  match t with
  | [] => .error .value
  | t0 :: tr =>
    let lo := minL t0 tr
    let hi := maxL t0 tr
    let req := dlgaRequested lo hi t times num
    if req.any fun v => decide (v < lo) || decide (hi < v) then .error .value
    else match nearestAll t req with
      | .error e => .error e
      | .ok is => .ok ⟨is, req, req⟩

/-! ## SGA: from the context to the figure -/

/-- sga.py:421-440 `_build_field_comparison_nd` -/
def sgaField (order : List String) (coords : String → List Rat) (lhs : String) (u uOrigin : A) : Except Exn Field :=
  if order.contains lhs then
    let spatial := order.filter fun a => a != lhs
    let perm := spatial.map order.idxOf ++ [order.idxOf lhs]
    mkField (spatial.map coords) (coords lhs) (transpose uOrigin perm) (transpose u perm) none
  else .error .value

/-- What the SGA context holds for the residual figure: `ut`, `ut_origin` and, only for the three built-in problems, the right-hand
sides of their template equations (context.py:1059-1094; `none`: the attributes are absent). -/
structure SgaContext where
  ut : A
  utOrigin : A
  template : Option (A × A)

/-- sga.py:571-588, 638-655: the two residuals of the SGA residual figure (`none`: a warning); `predicted` is the right-hand side of
the discovered equation. -/
def sgaResidual (c : SgaContext) (_predicted : A) : Except Exn (Option (A × A)) :=
  match c.template with
  | none => .ok none
  | some (rhs, rhsOrigin) =>
    if c.utOrigin.shape ≠ rhsOrigin.shape ∨ c.ut.shape ≠ rhs.shape then .ok none
    else match sub c.ut rhs, sub c.utOrigin rhsOrigin with
      | .ok a, .ok b => .ok (some (a, b))
      | _, _ => .error .value

/-- sga.py:458-490, 524-534 `_parity` with the prediction stored at fit time in the shape of `ut` (mode 'metadata'). -/
def sgaParity (c : SgaContext) (predicted : A) : Except Exn Parity :=
  parityOf ⟨[c.ut.ravel.length], fun i => (c.ut.ravel[(i[0]?).getD 0]?).getD 0⟩
    ⟨[predicted.ravel.length], fun i => (predicted.ravel[(i[0]?).getD 0]?).getD 0⟩

/-! ## DLGA: the reported equation -/

/-- The attributes of a fitted DLGA model that the figures read: the first entries of `Chrom`, `coef` and `name`, the operators;
`fields` is `metadata` (all arrays flattened). -/
structure DlgaModel where
  genome : List (List Nat)
  coef : List Rat
  lhs : String
  ops : List String
  fields : List (String × List Rat)

/-- dlga.py:609-614, 665-670: the factor arrays of a module (`none`: the module is skipped). -/
def factors (m : DlgaModel) (module : List Nat) : Option (List (List Rat)) :=
  module.mapM fun g => (m.ops[g]?).bind fun o => m.fields.lookup o

/-- Entrywise product of two equally long columns. -/
def mulCol (a b : List Rat) : List Rat := List.zipWith (· * ·) a b

/-- `np.prod(arrays, axis=0).reshape(-1)`; without arrays the single number 1. -/
def prodCol : List (List Rat) → List Rat
  | [] => [1]
  | [a] => a
  | a :: r => mulCol a (prodCol r)

/-- The columns, coefficients and modules of the terms that are not skipped (dlga.py:606-623). -/
def terms (m : DlgaModel) : List (List Nat × List Rat × Rat) :=
  (m.genome.zip m.coef).filterMap fun p => (factors m p.1).map fun cs => (p.1, prodCol cs, p.2)

/-- `a + c * col`, with a column of one entry broadcast. -/
def addCol (n : Nat) (acc : List Rat) (col : List Rat) (c : Rat) : Except Exn (List Rat) :=
  if col.length = n then .ok (List.zipWith (fun x y => x + c * y) acc col)
  else if col.length = 1 then .ok (acc.map fun x => x + c * col.headD 0)
  else .error .value

/-- dlga.py:661-672: the accumulated right-hand side. -/
def accumulate (n : Nat) : List Rat → List (List Nat × List Rat × Rat) → Except Exn (List Rat)
  | acc, [] => .ok acc
  | acc, (_, col, c) :: r => match addCol n acc col c with
    | .error e => .error e
    | .ok acc' => accumulate n acc' r

/-- dlga.py:643-678 `_build_parity_data` (`none`: the warning) -/
def dlgaParity (m : DlgaModel) : Except Exn (Option Parity) :=
  if m.ops = [] then .ok none
  else match m.fields.lookup m.lhs with
    | none => .ok none
    | some l => match accumulate l.length (List.replicate l.length 0) (terms m) with
      | .error e => .error e
      | .ok r => .ok (some ⟨l, r, List.zipWith (· - ·) l r⟩)

/-- Stable sort by decreasing `|coefficient|`: insertion from the right. -/
def insertTerm (x : List Nat × List Rat × Rat) : List (List Nat × List Rat × Rat) → List (List Nat × List Rat × Rat)
  | [] => [x]
  | y :: r => if absR y.2.2 ≤ absR x.2.2 then x :: y :: r else y :: insertTerm x r
/-- `contributions.sort(key=|coefficient|, reverse=True)` (dlga.py:628) -/
def sortTerms (l : List (List Nat × List Rat × Rat)) : List (List Nat × List Rat × Rat) := l.foldr insertTerm []

/-- dlga.py:629: the number of terms asked for. -/
def topCount : Option Int → Int
  | none => 4
  | some k => if k = 0 then 4 else k

/-- dlga.py:586-641 `_build_term_relationship_data`: the chosen terms (`none`: the warning); `top`: the option, `none` not given. -/
def dlgaTerms (m : DlgaModel) (top : Option Int) : Except Exn (Option (List (List Nat × List Rat × Rat))) :=
  if m.ops = [] then .ok none
  else match m.fields.lookup m.lhs with
    | none => .ok none
    | some l =>
      if terms m = [] then .ok none
      else
        let chosen := (sortTerms (terms m)).take (max 1 (topCount top)).toNat
        if chosen.any fun c => c.2.1.length != l.length then .error .value else .ok (some chosen)

/-! ## DISCOVER: history figures -/

/-- The largest of a non-empty list. -/
def maxOf : List Rat → Except Exn Rat
  | [] => .error .value
  | a :: r => .ok (maxL a r)

/-- discover.py:827: the larger of the best so far and a new reward. -/
def better : Option Rat → Rat → Rat
  | none, m => m
  | some c, m => if c < m then m else c

/-- discover.py:820-831: the running best (`none` for minus infinity), one pass. -/
def bestLoop (cum : Option Rat) : List (List Rat) → Except Exn (List Rat)
  | [] => .ok []
  | b :: r => match maxOf b with
    | .error e => .error e
    | .ok m =>
      match bestLoop (some (better cum m)) r with
      | .error e => .error e
      | .ok l => .ok (better cum m :: l)

/-- discover.py:810-838 `_build_reward_evolution`: steps and best rewards (`none`: the warning). -/
def rewardEvolution (rewards : List (List Rat)) : Except Exn (Option (List Nat × List Rat)) :=
  if rewards = [] then .ok none
  else match bestLoop none rewards with
    | .error e => .error e
    | .ok b => .ok (some ((List.range rewards.length).map (· + 1), b))

/-- `history[i]` for an integer `i`. -/
def pyGet (h : List (List Rat)) (i : Int) : Except Exn (List Rat) :=
  let k := if i < 0 then i + (h.length : Int) else i
  if k < 0 then .error .index
  else match h[k.toNat]? with
    | none => .error .index
    | some v => .ok v

/-- discover.py:144: the rewards of the epochs asked for. -/
def pick (h : List (List Rat)) : List Int → Except Exn (List (List Rat))
  | [] => .ok []
  | i :: r =>
    if i < (h.length : Int) then
      match pyGet h i, pick h r with
      | .ok v, .ok vs => .ok (v :: vs)
      | .error e, _ => .error e
      | _, .error e => .error e
    else pick h r

/-- discover.py:138-143: the epochs sampled when none are given. -/
def autoEpochs (n maxCurves : Nat) : Option (List Int) :=
  if n > maxCurves then
    let step := max 1 (n / maxCurves)
    let l := (List.range ((n + step - 1) / step)).map fun k => ((k * step : Nat) : Int)
    some (if l.contains ((n : Int) - 1) then l else l ++ [(n : Int) - 1])
  else none

/-- discover.py:129-155: the curves of the density figure, each with its label (`none`: a warning). -/
def density (h : List (List Rat)) (epochs : Option (List Int)) (maxCurves : Int) : Except Exn (Option (List (Int × List Rat))) :=
  if h = [] then .ok none
  else
    let eps := match epochs with
      | some l => some l
      | none => autoEpochs h.length (max 1 maxCurves).toNat
    match eps with
    | none => .ok (some (List.zipWith (fun (k : Nat) v => ((k : Int), v)) (List.range h.length) h))
    | some l => match pick h l with
      | .error e => .error e
      | .ok [] => .ok none
      | .ok data => .ok (some (List.zipWith Prod.mk l data))

/-! ## Files -/

/-- A directory: the pictures in it by name. -/
abbrev Dir (P : Type) := List (String × P)

/-- `savefig` -/
def save {P : Type} (d : Dir P) (name : String) (p : P) : Dir P := (name, p) :: d.filter fun e => e.1 != name

/-- Handlers that save a figure under the name they return (discover.py:101-117 and the like); `p` is the picture. -/
def savedFigure {P : Type} (d : Dir P) (name : String) (p : P) : String × Dir P := (name, save d name p)

/-- equation_renderer.py:22-61 and e.g. pysr.py:95-118: the picture of an equation; `p = none`: rendering fails, which
`render_latex_to_image` only logs. -/
def equationFigure {P : Type} (d : Dir P) (name : String) (p : Option P) : String × Dir P :=
  match p with
  | some p => (name, save d name p)
  | none => (name, d)

/-- dlga.py:120-136: the DLGA field comparison is saved as `pde_comparison.png` and renamed unless the target exists. -/
def dlgaFieldFigure {P : Type} (d : Dir P) (p : P) : String × Dir P :=
  let d := save d "pde_comparison.png" p
  if (d.lookup "field_comparison.png").isNone then
    ("field_comparison.png", ("field_comparison.png", p) :: d.filter fun e => e.1 != "pde_comparison.png")
  else ("field_comparison.png", d)

end Verif.Viz.Data
