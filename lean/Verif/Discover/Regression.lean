import Verif.Discover.Exec
/-!
# Symbolic regression on tables (kd/model/kd_discover_regression.py, kd/model/discover/task/regression.py,
kd/model/discover/program.py:395-541)

`K` is the type of numbers (any type: floats with NaN are covered as far as only the flow of values matters).
-/
namespace Verif.Discover.Regression

/-! ## Programs -/

/-- An element of `Program.traversal` of a regression program. -/
inductive Item (K : Type) where
  /-- the token `x{i+1}` (functions.py:238-242) -/
  | var (i : Nat)
  /-- `PlaceholderConstant` (library.py:85-110) -/
  | const (value : Option K)
  /-- `HardCodedConstant` (library.py:62-82) -/
  | hard (name : String) (value : K)
  /-- An operator that numpy applies element by element (functions.py:96-129, 132-172).  `none`: calling it with
  `arity` operands raises (`max` and `min` are registered with one operand, 113-114).  Not covered: derivative operators and
  `harmonic`, which look at whole arrays. -/
  | op (name : String) (arity : Nat) (f : Option (List K → K))

variable {K : Type}

/-- `Token.arity`. -/
def Item.arity : Item K → Nat
  | .op _ n _ => n
  | _ => 0

/-- A numpy value during execution: shape `(1,)` (constants) or `(n, 1)` (one number per row of the table). -/
inductive Val (K : Type) where
  | one (c : K)
  | col (l : List K)

/-- The number a value has in row `i`. -/
def Val.at (i : Nat) : Val K → Option K
  | .one c => some c
  | .col l => l[i]?

def Val.isOne : Val K → Bool
  | .one _ => true
  | .col _ => false

/-- Elementwise application with broadcasting on a table of `n` rows: all columns have `n` entries, because they are
columns of one array (regression.py:74, program.py:401-402). -/
def broadcast (n : Nat) (f : List K → K) (vs : List (Val K)) : Val K :=
  if vs.all Val.isOne then .one (f (vs.filterMap (Val.at 0)))
  else .col ((List.range n).map fun i => f (vs.filterMap (Val.at i)))

/-- A table with `p` features; program.py:396-403 `_normalize_x_inputs` cuts it into columns. -/
abbrev Table (p : Nat) (K : Type) := List (Fin p → K)

def column {p : Nat} (X : Table p K) (i : Nat) : Option (List K) :=
  if h : i < p then some (X.map fun r => r ⟨i, h⟩) else none

/-- execute.py:18-42 for the elements of a regression traversal; tokens are the positions in the traversal (so that every
constant has its own value).  A constant without value fails its assertion inside the `try` block. -/
def applyCols {p : Nat} (tr : List (Item K)) (X : Table p K) : ApplyFn (Val K) := fun t vs fl =>
  match tr[t]? with
  | none => (.raise, fl)
  | some (.var i) => match column X i with
    | some c => (.val (.col c), some (i + 1))
    | none => (.raise, fl)
  | some (.const none) => (.retNone, fl)
  | some (.const (some c)) => (.val (.one c), fl)
  | some (.hard _ c) => (.val (.one c), fl)
  | some (.op _ _ none) => (.retNone, fl)
  | some (.op _ _ (some f)) => (.val (broadcast X.length f vs), fl)

/-- The arity of the element at a position. -/
def arityAt (tr : List (Item K)) (t : Nat) : Nat := (tr[t]?.map Item.arity).getD 0

/-- program.py:405-423 `execute_direct`: a constant result is repeated for every row (`np.full_like(x_inputs[0], …)`, which
raises without features). -/
def executeDirect {p : Nat} (tr : List (Item K)) (X : Table p K) : Res (List K) :=
  match execute (arityAt tr) (applyCols tr X) (List.range tr.length) with
  | .val (.one c) => if p = 0 then .raise else .val (X.map fun _ => c)
  | .val (.col l) => .val l
  | .retNone => .retNone
  | .raise => .raise

/-! ## Constants -/

/-- program.py:523-530 `get_constants` (`None` cannot be converted to float; here such a constant is left out). -/
def getConstants : List (Item K) → List K
  | [] => []
  | .const (some c) :: is => c :: getConstants is
  | _ :: is => getConstants is

/-- `len(self.const_pos)` (program.py:252). -/
def constCount : List (Item K) → Nat
  | [] => 0
  | .const _ :: is => constCount is + 1
  | _ :: is => constCount is

/-- program.py:532-540 `set_constants`: the given values replace the first constants in order (too many values raise an
IndexError, which no caller modelled here provokes: it is cut off). -/
def setConstants : List (Item K) → List K → List (Item K)
  | is, [] => is
  | [], _ :: _ => []
  | .const _ :: is, c :: cs => .const (some c) :: setConstants is cs
  | i :: is, c :: cs => i :: setConstants is (c :: cs)

/-! ## A program object and what is cached in it -/

/-- The training data, the metric and the constant optimiser (`scipy.optimize.minimize` from `x0 = ones(k)`, const.py:83-87,
any function from objectives on `k` constants to `k` constants). -/
structure Task (p : Nat) (K : Type) where
  X : Table p K
  y : List K
  metric : List K → List K → Nat → K
  mse : List K → List K → K
  invalidReward : K
  /-- `float("inf")` -/
  inf : K
  opt : (k : Nat) → ((Fin k → K) → K) → (Fin k → K)
  /-- numpy reported a floating-point error while evaluating (stridge.py:45-54) -/
  fpError : List (Item K) → Table p K → Bool

/-- A `Program` of a regression task; `reward` and `mse` are the `cached_property` values `r_ridge` and
`evaluate["nmse_test"]`. -/
structure Prog (K : Type) where
  items : List (Item K)
  reward : Option K
  mse : Option (Option K)

def Prog.fresh (items : List (Item K)) : Prog K := ⟨items, none, none⟩

variable {p : Nat}

/-- What evaluating the program on the training data gives: `none` if it is invalid or cannot be evaluated
(regression.py:88-90, 95-97, 101-103). -/
def onTrain (T : Task p K) (items : List (Item K)) : Option (List K) :=
  match executeDirect items T.X with
  | .val ys => if T.fpError items T.X then none else some ys
  | _ => none

/-- regression.py:93-97 `mse_function`, the objective of the optimiser. -/
def mseFunction (T : Task p K) (items : List (Item K)) : K :=
  match onTrain T items with
  | some ys => T.mse T.y ys
  | none => T.inf

/-- program.py:491-518 `optimize_inner_constant`. -/
def optimise (T : Task p K) (items : List (Item K)) : List (Item K) :=
  if constCount items = 0 then items
  else setConstants items (List.ofFn (T.opt (constCount items) fun cs => mseFunction T (setConstants items (List.ofFn cs))))

/-- program.py:610-622 `r_ridge` with regression.py:86-91 `reward_function`. -/
def Prog.getReward (T : Task p K) (P : Prog K) : Prog K × K :=
  match P.reward with
  | some r => (P, r)
  | none =>
    let items := optimise T P.items
    let r := match onTrain T items with
      | some ys => T.metric T.y ys items.length
      | none => T.invalidReward
    ({ P with items := items, reward := some r }, r)

/-- program.py:474-486 `evaluate` with regression.py:100-113: optimises first if there is no reward yet. -/
def Prog.getMse (T : Task p K) (P : Prog K) : Prog K × Option K :=
  match P.mse with
  | some m => (P, m)
  | none =>
    let items := if P.reward.isSome then P.items else optimise T P.items
    let m := (onTrain T items).map (T.mse T.y)
    ({ P with items := items, mse := some m }, m)

/-- What can happen to a program object. -/
inductive Act (p : Nat) (K : Type) where
  | reward
  | mse
  | predict (X : Table p K)
  /-- `from_str_tokens` for the same tokens with numbers: the cached object gets new constants (program.py:61-109) -/
  | setConstants (cs : List K)

def Prog.act (T : Task p K) (P : Prog K) : Act p K → Prog K
  | .reward => (P.getReward T).1
  | .mse => (P.getMse T).1
  | .predict _ => P
  | .setConstants cs => { P with items := Regression.setConstants P.items cs }

def Prog.acts (T : Task p K) (P : Prog K) (h : List (Act p K)) : Prog K := h.foldl (Prog.act T) P

/-! ## The estimator -/

inductive Err where
  | value | runtime | type | index
  deriving DecidableEq

/-- The numbers in the result of `fit`. -/
structure FitResult (K : Type) where
  constants : List K
  reward : K
  mse : K
  program : Prog K

/-- kd_discover_regression.py:93-105, what `fit` does with the program the search found; `float(None)` raises. -/
def report (T : Task p K) (best : Prog K) : Except Err (FitResult K) :=
  let (P, r) := best.getReward T
  let (P, m) := P.getMse T
  match m with
  | none => .error .type
  | some m => .ok ⟨getConstants P.items, r, m, P⟩

/-- kd_discover_regression.py:115-132 `predict`; `best = none`: not fitted. -/
def predict (best : Option (Nat × Prog K)) {q : Nat} (X : Table q K) : Except Err (List K) :=
  match best with
  | none => .error .runtime
  | some (nFeatures, P) =>
    if q ≠ nFeatures then .error .value
    else match executeDirect P.items X with
      | .val ys => .ok ys
      | .retNone => .error .runtime
      | .raise => .error .index

/-- kd_discover_regression.py:38-57 `_validate_inputs` for a two-dimensional `X`: the variable names used. -/
def validate {q : Nat} (X : Table q K) (y : List K) (names : Option (List String)) : Except Err (List String) :=
  if X.length ≠ y.length then .error .value
  else match names with
    | none => .ok ((List.range q).map fun i => "x" ++ toString (i + 1))
    | some ns => if ns.length ≠ q then .error .value else .ok ns

end Verif.Discover.Regression
