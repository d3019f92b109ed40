/-!
# The parity figure of SGA (kd/viz/_adapters/sga.py:458-567)

Arrays have rational entries (no NaN or infinity), given with their shape in C order.  What `evaluate_mse` returns when the equation is
evaluated again is arbitrary.  The figure itself is the pairs handed to `scatter`; the summary gives the mean of the squares instead of its
root.
-/
namespace Verif.Viz.SgaParity

/-- An array: shape and entries in C order. -/
structure Arr where
  shape : List Nat
  vals : List Rat
deriving DecidableEq, Repr

/-- `a.reshape(s)`; `none`: ValueError. -/
def reshape (a : List Rat) (s : List Nat) : Option Arr := if s.foldr (· * ·) 1 = a.length then some ⟨s, a⟩ else none

/-- A term of the reported equation (kd/model/sga/sgapde/equation.py:16-23). -/
structure Term where
  label : String
  coef : Rat
  tree : Bool
deriving DecidableEq, Repr

/-- What the figure reads of the context; `defaults`: `default_terms` flattened, `num`: `num_default`, `names`: `default_names` (`none`:
no such attribute). -/
structure Context where
  ut : Arr
  utOrigin : Option Arr
  defaults : Option (List Rat)
  num : Nat
  names : Option (List String)
deriving DecidableEq, Repr

/-- sga.py:556-564: the column of a term. -/
def column (c : Context) (label : String) : Nat :=
  match c.names with
  | none => 0
  | some l => if label ∈ l then l.idxOf label else 0

/-- Column `j` of the table with `num` columns. -/
def col (vals : List Rat) (num j : Nat) : List Rat := (List.range (vals.length / num)).map fun i => (vals[i * num + j]?).getD 0

/-- sga.py:554-564: the sum over the terms without a tree. -/
def sumDefaults (c : Context) (vals : List Rat) : List Term → List Rat → List Rat
  | [], acc => acc
  | t :: ts, acc =>
    if t.tree then sumDefaults c vals ts acc
    else
      let j := column c t.label
      if j < c.num then sumDefaults c vals ts (List.zipWith (fun a b => a + t.coef * b) acc (col vals c.num j))
      else sumDefaults c vals ts acc

/-- sga.py:551-567: the last resort; `none`: no prediction (any exception is caught). -/
def fromDefaults (c : Context) (terms : List Term) : Option Arr :=
  match c.defaults with
  | none => none
  | some vals =>
    if c.num = 0 ∨ vals.length % c.num ≠ 0 then none
    else reshape (sumDefaults c vals terms (List.replicate (vals.length / c.num) 0)) c.ut.shape

/-- sga.py:524-569 `_evaluate_equation_prediction`; `cached`: `predicted_rhs`; `again`: the prediction of a second evaluation (`none`: it
raised or gave none).  The outer `none` is an exception (line 549, outside every `try`). -/
def prediction (c : Context) (terms : List Term) (cached : Option Arr) (again : Option (List Rat)) : Option (Option Arr) :=
  let stored : Option Arr := match cached with
    | none => none
    | some a => if a.shape ≠ c.ut.shape then reshape a.vals c.ut.shape else some a
  match stored with
  | some a => some (some a)
  | none => match again with
    | some v => match reshape v c.ut.shape with
      | none => none
      | some a => some (some a)
    | none => some (fromDefaults c terms)

/-- The figure and the summary handed back. -/
structure Parity where
  mode : String
  actual : List Rat
  predicted : List Rat
  residuals : List Rat
  mean : Rat
  maxAbs : Rat
  meanSquare : Rat
deriving DecidableEq, Repr

inductive Out where
  | warning
  | raised
  | figure (p : Parity)
deriving DecidableEq, Repr

/-- `np.abs` -/
def absR (q : Rat) : Rat := if q < 0 then -q else q

/-- `np.max(np.abs(...))` -/
def maxAbs : List Rat → Rat
  | [] => 0
  | [a] => absR a
  | a :: l => if maxAbs l < absR a then absR a else maxAbs l

/-- `np.mean` -/
def mean (l : List Rat) : Rat := l.sum / (l.length : Rat)

/-- sga.py:486-522: the figure for a target and a prediction of one shape (`min` of an empty array raises). -/
def figure (mode : String) (target pred : Arr) : Out :=
  if target.vals = [] then .raised
  else
    let r := List.zipWith (· - ·) target.vals pred.vals
    .figure ⟨mode, target.vals, pred.vals, r, mean r, maxAbs r, mean (r.map fun x => x * x)⟩

/-- sga.py:468-484: the field compared with and its label; `none`: the warning. -/
def target (c : Context) (compare : Option String) (pred : Arr) : Option (String × Arr) :=
  let first : Option (String × Arr) :=
    if compare = some "original" then c.utOrigin.map fun a => ("original", a) else some ("metadata", c.ut)
  match first with
  | none => none
  | some (m, a) =>
    if a.shape ≠ pred.shape then (if c.ut.shape ≠ pred.shape then none else some ("metadata", c.ut))
    else some (m, a)

/-- sga.py:458-522 `_parity` of a fitted model; `compare`: the option, `none` not given. -/
def parity (c : Context) (terms : List Term) (cached : Option Arr) (again : Option (List Rat)) (compare : Option String) : Out :=
  match prediction c terms cached again with
  | none => .raised
  | some none => .warning
  | some (some p) => match target c compare p with
    | none => .warning
    | some (m, a) => figure m a p

end Verif.Viz.SgaParity
