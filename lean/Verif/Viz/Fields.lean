import Verif.Discover.Diff
/-!
# The fields drawn for a DISCOVER equation (kd/viz/discover_viz.py:109-373)

Exact arithmetic in a field.  The arrays in one evaluation all have the shape of the snapshot, so a value is a number or a function on
its indices.  Trees have operators with one or two operands.  Coordinates are given without repetition, in increasing order.
-/
namespace Verif.Viz.Fields
open Verif.Data

variable {K : Type} [Field K]

/-- `Node` (stridge.py:74-93) with at most two children. -/
inductive Term where
  | leaf (name : String)
  | un (op : String) (a : Term)
  | bin (op : String) (a b : Term)
deriving DecidableEq

/-- The value of a subtree: a Python float, or an array of the shape of the snapshot. -/
inductive Val (K : Type) where
  | num (a : K)
  | arr (f : List Nat → K)

/-- ValueError, IndexError, AttributeError (a float has no `shape`). -/
inductive Exn where
  | value | index | attr
deriving DecidableEq, Repr

/-- What an evaluation sees: the shape of the snapshot, its values, the coordinates of the space axes, the functions `sin`, `cos`, `tan`,
and the meaning of numerals. -/
structure Env (K : Type) where
  shape : List Nat
  u : List Nat → K
  coords : List (List K)
  trig : String → K → K
  numeral : String → Option K

/-- discover_viz.py:145 -/
def Env.nd (e : Env K) : Bool := e.coords.length > 1

/-- Entry `i` of `np.gradient(y, h, edge_order=2)` for `n` values. -/
def grad (h : K) (n : Nat) (f : Nat → K) (i : Nat) : K :=
  if i = 0 then -3 / 2 / h * f 0 + 2 / h * f 1 + -1 / 2 / h * f 2
  else if i = n - 1 then 1 / 2 / h * f (n - 3) + -2 / h * f (n - 2) + 3 / 2 / h * f (n - 1)
  else (f (i + 1) - f (i - 1)) / (2 * h)

/-- `np.gradient` along axis `k` of an array of shape `s`. -/
def gradAxis (h : K) (k : Nat) (s : List Nat) (f : List Nat → K) (idx : List Nat) : K :=
  grad h ((s[k]?).getD 0) (fun j => f (idx.set k j)) ((idx[k]?).getD 0)

/-- discover_viz.py:109-116 `_finite_difference_nd` (fewer than three points: ValueError of `np.gradient`). -/
def fd (h : K) (order k : Nat) (s : List Nat) (f : List Nat → K) : Except Exn (List Nat → K) :=
  if order < 1 ∨ 4 < order then .error .value
  else if (s[k]?).getD 0 < 3 then .error .value
  else .ok ((gradAxis h k s)^[order] f)

/-- The spacing of axis `k`: first difference of the coordinates (discover_viz.py:123, 323; IndexError for fewer than two points). -/
def step (e : Env K) (k : Nat) : Except Exn K :=
  match (e.coords[k]?).getD [] with
  | a :: b :: _ => .ok (b - a)
  | _ => .error .index

/-- discover_viz.py:119-124 `_finite_difference` (one space dimension; with several it flattens the array, which is not modelled). -/
def fd1 (e : Env K) (order : Nat) : Val K → Except Exn (Val K)
  | .num _ => .error .attr
  | .arr f => match step e 0 with
    | .error x => .error x
    | .ok h => match fd h order 0 e.shape f with
      | .error x => .error x
      | .ok g => .ok (.arr g)

/-- discover_viz.py:143, 225-230 `_infer_axis`: the axis of a coordinate name. -/
def axisOf (name : String) : Option Nat :=
  if name = "x1" then some 0 else if name = "x2" then some 1 else if name = "x3" then some 2 else none

/-- discover_viz.py:206-213: a partial derivative. -/
def fdN (e : Env K) (order : Nat) (v : Val K) (coord : Term) : Except Exn (Val K) :=
  match coord with
  | .leaf name => match axisOf name with
    | none => .error .value
    | some k => match step e k with
      | .error x => .error x
      | .ok h => match v with
        | .num _ => .error .attr
        | .arr f => match fd h order k e.shape f with
          | .error x => .error x
          | .ok g => .ok (.arr g)
  | _ => .error .value

/-- discover_viz.py:217-220: the sum of the second derivatives along all axes. -/
def lapSum (e : Env K) (f : List Nat → K) : List Nat → Except Exn (List Nat → K)
  | [] => .ok fun _ => 0
  | k :: r => match step e k, lapSum e f r with
    | .ok h, .ok g => match fd h 2 k e.shape f with
      | .error x => .error x
      | .ok d => .ok fun i => d i + g i
    | .error x, _ => .error x
    | _, .error x => .error x

/-- discover_viz.py:214-220 -/
def lap (e : Env K) (v : Val K) : Except Exn (Val K) :=
  if e.nd then
    match v with
    | .num _ => .error .attr
    | .arr f => match lapSum e f (List.range e.coords.length) with
      | .error x => .error x
      | .ok g => .ok (.arr g)
  else fd1 e 2 v

/-- Entrywise operation on two values. -/
def map2 (g : K → K → K) : Val K → Val K → Val K
  | .num a, .num b => .num (g a b)
  | .num a, .arr f => .arr fun i => g a (f i)
  | .arr f, .num b => .arr fun i => g (f i) b
  | .arr f, .arr h => .arr fun i => g (f i) (h i)

/-- Entrywise operation on one value. -/
def map1 (g : K → K) : Val K → Val K
  | .num a => .num (g a)
  | .arr f => .arr fun i => g (f i)

/-- The name without the suffix `_t` (discover_viz.py:180). -/
def bare (s : String) : String := if "_t".toList.isSuffixOf s.toList then String.ofList (s.toList.take (s.toList.length - 2)) else s

/-- discover_viz.py:154-176: a leaf. -/
def leafVal (e : Env K) (name : String) : Except Exn (Val K) :=
  if name = "u1" then .ok (.arr e.u)
  else match axisOf name with
    | some k =>
      if k = 0 ∨ e.nd then
        match e.coords[k]? with
        | some c => .ok (.arr fun i => (c[(i[k]?).getD 0]?).getD 0)
        | none => .error .value
      else .error .value
    | none => match e.numeral name with
      | some a => .ok (.num a)
      | none => .error .value

/-- discover_viz.py:182-222: operators with one operand. -/
def unVal (e : Env K) (op : String) (a : Val K) : Except Exn (Val K) :=
  if op = "n2" then .ok (map1 (fun x => x ^ 2) a)
  else if op = "n3" then .ok (map1 (fun x => x ^ 3) a)
  else if op = "n4" then .ok (map1 (fun x => x ^ 4) a)
  else if op = "n5" then .ok (map1 (fun x => x ^ 5) a)
  else if op = "inv" then .ok (map1 (fun x => 1 / (x + 1 / 10 ^ 8)) a)
  else if op = "neg" then .ok (map1 (fun x => -x) a)
  else if op = "sin" ∨ op = "cos" ∨ op = "tan" then .ok (map1 (e.trig op) a)
  else if op = "lap" ∨ op = "lap_3" then lap e a
  else .error .value

/-- discover_viz.py:182-222: operators with two operands (`cb` is the second subtree itself). -/
def binVal (e : Env K) (op : String) (a b : Val K) (cb : Term) : Except Exn (Val K) :=
  if op = "add" then .ok (map2 (· + ·) a b)
  else if op = "sub" then .ok (map2 (· - ·) a b)
  else if op = "mul" then .ok (map2 (· * ·) a b)
  else if op = "div" then .ok (map2 (fun x y => x / (y + 1 / 10 ^ 8)) a b)
  else if op = "diff" then fd1 e 1 a
  else if op = "diff2" then fd1 e 2 a
  else if op = "diff3" then fd1 e 3 a
  else if op = "diff4" then fd1 e 4 a
  else if op = "Diff" ∨ op = "Diff_3" then fdN e 1 a cb
  else if op = "Diff2" ∨ op = "Diff2_3" then fdN e 2 a cb
  else .error .value

/-- discover_viz.py:126-222 `_evaluate_term_recursively` -/
def eval (e : Env K) : Term → Except Exn (Val K)
  | .leaf n => leafVal e n
  | .un op a => match eval e a with
    | .error x => .error x
    | .ok v => unVal e (bare op) v
  | .bin op a b => match eval e a with
    | .error x => .error x
    | .ok v => match eval e b with
      | .error x => .error x
      | .ok w => binVal e (bare op) v w b

/-- The entry of a value at an index (a float fills the column, discover_viz.py:267, 343). -/
def Val.at_ (v : Val K) (i : List Nat) : K :=
  match v with
  | .num a => a
  | .arr f => f i

/-- One space dimension: the snapshot at time step `j` of `u` (points × times), discover_viz.py:266. -/
def snapshot (x : List K) (trig : String → K → K) (numeral : String → Option K) (u : Arr K) (j : Nat) : Env K :=
  ⟨[(u.shape.headD 0)], fun i => u.get [(i[0]?).getD 0, j], [x], trig, numeral⟩

/-- discover_viz.py:262-268: the values of all terms at time step `j`. -/
def evalAll (e : Env K) : List Term → Except Exn (List (Val K))
  | [] => .ok []
  | t :: r => match eval e t with
    | .error x => .error x
    | .ok v => match evalAll e r with
      | .error x => .error x
      | .ok vs => .ok (v :: vs)

/-- discover_viz.py:273-277: one entry of the right-hand side. -/
def combine (vs w : List K) : Except Exn K :=
  if vs.length + 1 = w.length then .ok ((List.zipWith (· * ·) vs w).sum + w.getLastD 0)
  else if vs.length = w.length then .ok (List.zipWith (· * ·) vs w).sum
  else .error .value

/-- What the field figures are drawn from (discover_viz.py:286-294, one space dimension), at point `i` and time step `j`: the left-hand
side, the right-hand side, the residual, and the coordinates on the axes. -/
structure Point (K : Type) where
  ut : K
  rhs : K
  residual : K
  x : K
  t : Nat

/-- discover_viz.py:232-294 `_calculate_pde_fields` (one space dimension) at point `i`, time step `j`. -/
def fieldAt (x : List K) (trig : String → K → K) (numeral : String → Option K) (u ut : Arr K) (terms : List Term) (w : List K)
    (i j : Nat) : Except Exn (Point K) :=
  match evalAll (snapshot x trig numeral u j) terms with
  | .error e => .error e
  | .ok vs => match combine (vs.map fun v => v.at_ [i]) w with
    | .error e => .error e
    | .ok r => .ok ⟨ut.get [i, j], r, ut.get [i, j] - r, (x[i]?).getD 0, j⟩

/-- Several space dimensions: the snapshot at time step `j` of `u` (times × points), discover_viz.py:342-347. -/
def snapshotN (coords : List (List K)) (trig : String → K → K) (numeral : String → Option K) (u : Arr K) (j : Nat) : Env K :=
  ⟨u.shape.tail, fun i => u.get (j :: i), coords, trig, numeral⟩

end Verif.Viz.Fields
