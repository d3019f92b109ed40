import Verif.Viz.Data
/-!
# The PySR estimator and its figures (kd/model/kd_pysr.py, kd/viz/_adapters/pysr.py)

PySR itself is an arbitrary backend: an object built from keyword arguments, changed by `fit`, and asked for its best equation, a
SymPy expression, a LaTeX text, its `str` and predictions.  Any of these may raise (`none`).
-/
namespace Verif.Api.PySR
open Verif.Data Verif.Viz.Data

/-- RuntimeError, ValueError, or an exception of the backend. -/
inductive Exn where
  | runtime | value | backend
deriving DecidableEq, Repr

/-- A keyword argument: a number, a list of texts, or something else the wrapper passes on. -/
inductive Kw where
  | num (n : Int)
  | ops (l : List String)
  | other (s : String)
deriving DecidableEq, Repr

/-- The answer of `get_best()`: it raises or is missing; or a row with or without an entry "equation", with its own text (`str` may raise). -/
inductive Best where
  | missing
  | row (equation : Option String) (text : Option String)

/-- The backend: `M` its objects, `S` SymPy expressions. -/
structure Backend (M S : Type) where
  available : Bool
  build : List (String × Kw) → Option M
  /-- the object after `fit`, and whether `fit` returned -/
  fit : M → A → List Rat → M × Bool
  best : M → Best
  sympy : M → Option S
  /-- `latex()` returning a text -/
  latex : M → Option String
  /-- `sp.latex` -/
  sympyLatex : S → Option String
  str : M → Option String
  predict : M → A → Option (List Rat)

/-- kd_pysr.py:63-75: the estimator's attributes. -/
structure Est (M S : Type) where
  niterations : Int
  binary : Option (List String)
  unary : Option (List String)
  extra : List (String × Kw)
  model : Option M := none
  equation : Option String := none
  sympy : Option S := none
  X : Option A := none
  y : Option (List Rat) := none

/-- `d[k] = v` on a dict in order of insertion. -/
def put (d : List (String × Kw)) (k : String) (v : Kw) : List (String × Kw) :=
  if (d.lookup k).isSome then d.map fun e => if e.1 = k then (k, v) else e else d ++ [(k, v)]

/-- `kwargs.update(other)` -/
def update (d : List (String × Kw)) : List (String × Kw) → List (String × Kw)
  | [] => d
  | (k, v) :: r => update (put d k v) r

/-- kd_pysr.py:111-116: the keyword arguments of the regressor. -/
def kwargs {M S : Type} (e : Est M S) : List (String × Kw) :=
  let d := [("niterations", Kw.num e.niterations)]
  let d := match e.binary with
    | none => d
    | some l => put d "binary_operators" (.ops l)
  let d := match e.unary with
    | none => d
    | some l => put d "unary_operators" (.ops l)
  update d e.extra

/-- kd_pysr.py:120-158 `_update_equation_info` for the fitted object: the equation's text and expression. -/
def equationInfo {M S : Type} (b : Backend M S) (m : M) : Option String × Option S :=
  let best := match b.best m with
    | .missing => none
    | .row (some q) _ => some q
    | .row none t => t
  (match best with
    | some q => some q
    | none => b.str m, b.sympy m)

/-- kd_pysr.py:163-189 `fit`: the estimator afterwards, and whether it returned. -/
def fit {M S : Type} (b : Backend M S) (e : Est M S) (X : A) (y : A) : Est M S × Except Exn Unit :=
  if X.shape.length ≠ 2 then (e, .error .value)
  else if X.shape.headD 0 ≠ y.ravel.length then (e, .error .value)
  else
    let e := { e with X := some X, y := some y.ravel }
    if !b.available then (e, .error .runtime)
    else match b.build (kwargs e) with
      | none => (e, .error .backend)
      | some m =>
        let e := { e with model := some (b.fit m X y.ravel).1 }
        if (b.fit m X y.ravel).2 then
          ({ e with equation := (equationInfo b (b.fit m X y.ravel).1).1, sympy := (equationInfo b (b.fit m X y.ravel).1).2 }, .ok ())
        else (e, .error .backend)

/-- kd_pysr.py:191-199 `predict` -/
def predict {M S : Type} (b : Backend M S) (e : Est M S) (X : A) : Except Exn (List Rat) :=
  match e.model with
  | none => .error .runtime
  | some m => match b.predict m X with
    | some v => .ok v
    | none => .error .backend

/-- `s.strip()` is not empty. -/
def nonBlank (s : String) : Bool := s.toList.any fun c => !c.isWhitespace

/-- kd_pysr.py:201-249 `equation_latex` -/
def equationLatex {M S : Type} (b : Backend M S) (e : Est M S) (lhs : String) : Except Exn String :=
  match e.model with
  | none => .error .runtime
  | some m =>
    match (b.latex m).filter nonBlank with
    | some s => .ok s
    | none => match e.sympy.bind b.sympyLatex with
      | some r => .ok (lhs ++ " = " ++ r)
      | none => match e.equation.filter (· ≠ "") with
        | some q => .ok q
        | none => match b.str m with
          | some s => .ok s
          | none => .error .backend

/-- pysr.py:77-90 `_get_training_data`: the data of the figures; `ox`, `oy` are the options. -/
def trainingData {M S : Type} (e : Est M S) (ox oy : Option A) : Option (A × List Rat) :=
  let p := match ox, oy with
    | some X, some y => (some X, some y.ravel)
    | _, _ => (e.X, e.y)
  match p with
  | (some X, some y) => if X.shape.headD 0 = y.length then some (X, y) else none
  | _ => none

/-- A one-dimensional array. -/
def column (l : List Rat) : A := ⟨[l.length], fun i => (l[(i[0]?).getD 0]?).getD 0⟩

/-- pysr.py:120-145 `_parity` up to the picture (`none`: a warning). -/
def parity {M S : Type} (b : Backend M S) (e : Est M S) (ox oy : Option A) : Option Parity :=
  match trainingData e ox oy with
  | none => none
  | some (X, y) => match predict b e X with
    | .error _ => none
    | .ok p => match parityOf (column y) (column p) with
      | .error _ => none
      | .ok d => some d

end Verif.Api.PySR
