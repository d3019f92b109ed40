import Verif.Sga.GenMut
/-!
# Model of kd/model/sga/sgapde/pde.py `evaluate_mse` (evaluation of the terms and deletion of rejected ones)

Arrays are an abstract type `V`; the numpy kernels are parameters.  A node's `cache` is `none` while it holds its own
`var` (the data of a leaf, the function of an operator) and `some v` when it holds a computed array.
-/
namespace Verif.Sga

/-- The numeric kernels and the settings `evaluate_mse` uses. -/
structure Sem (V : Type) where
  /-- data of a leaf -/
  var : Entry → V
  /-- `node.var(child)` -/
  un : Entry → V → V
  /-- `node.var(child1, child2)` -/
  bin : Entry → V → V → V
  /-- `node.var(child1, context.delta[axis], context.axis_map[axis])` -/
  der : Entry → V → String → V
  /-- `np.allclose(divisor, 0.0, atol=1e-10)` -/
  near0 : V → Bool
  /-- `divisor + 1e-6` -/
  perturb : V → V
  /-- `not any(value.reshape(-1))` -/
  isZero : V → Bool
  /-- `context.lhs_axis` -/
  lhs : String
  /-- keys of `context.axis_map` and `context.delta` (context.py:242-248: both have the axis order as keys) -/
  axes : List String
  /-- `division_strategy == "guard"` (pde.py:28-42); otherwise "legacy" -/
  guard : Bool

/-- The value of an expression (specification); `none`: the term is to be rejected. -/
def Expr.value {V : Type} (s : Sem V) : Expr → Option V
  | .leaf e => some (s.var e)
  | .un e c => (c.value s).map (s.un e)
  | .bin e l r =>
    match l.value s, r.value s with
    | some a, some b =>
      if isD e.name then if r.root.name = s.lhs then none else some (s.der e a r.root.name)
      else if e.name = "/" ∧ s.near0 b = true then if s.guard then none else some (s.bin e a (s.perturb b))
      else some (s.bin e a b)
    | _, _ => none

/-- A node with its cache. -/
abbrev CNode (V : Type) := Node × Option V

/-- Reading `child.cache` as an array: a computed value, or the data of a leaf; the function object of an operator
that has not been evaluated is no array (`pdb.set_trace` / TypeError). -/
def fetch {V : Type} (s : Sem V) (c : CNode V) : Except Fail V :=
  match c.2 with
  | some v => .ok v
  | none => if c.1.arity = 0 then .ok (s.var c.1.sym) else .error .raised

/-- Outcome of evaluating one node: an exception, "term invalid", or a value. -/
inductive NodeRes (V : Type) where
  | raised
  | invalid
  | val (v : V)

/-- pde.py:146-150: a node with one child. -/
def evalUn {V : Type} (s : Sem V) (n : Node) (c : CNode V) : NodeRes V :=
  match fetch s c with
  | .error _ => .raised
  | .ok v => .val (s.un n.sym v)

/-- pde.py:152-211: a node with two children. -/
def evalBin {V : Type} (s : Sem V) (n : Node) (c1 c2 : CNode V) : NodeRes V :=
  if isD n.name then
    if c2.1.name = s.lhs then .invalid
    else if !s.axes.contains c2.1.name then .raised
    else
      match fetch s c1 with
      | .error _ => .raised
      | .ok a => .val (s.der n.sym a c2.1.name)
  else
    match fetch s c1, fetch s c2 with
    | .ok a, .ok b =>
      if n.name = "/" ∧ s.near0 b = true then
        if s.guard then .invalid else .val (s.bin n.sym a (s.perturb b))
      else .val (s.bin n.sym a b)
    | _, _ => .raised

/-- `child.cache = child.var` -/
def resetAt {V : Type} (k : List (CNode V)) (i : Nat) : List (CNode V) :=
  k.modify i fun c => (c.1, none)

/-- pde.py:137-214: the nodes of one level, left to right; the children's level is updated along the way.  Calling
`node.cache` when it is not the node's function (a stale array) raises.  A node with more than two children is skipped
(`NotImplementedError()` is created, not raised). -/
def evalNodes {V : Type} (s : Sem V) : List (CNode V) → List (CNode V) →
    Except Fail (List (CNode V) × List (CNode V) × Bool)
  | [], k => .ok ([], k, false)
  | (n, c) :: t, k =>
    if n.arity = 0 then
      match evalNodes s t k with
      | .error f => .error f
      | .ok (t', k', b) => .ok ((n, c) :: t', k', b)
    else if n.arity = 1 then
      match n.childSt with
      | none => .error .raised
      | some st =>
        match k[st]?, c with
        | some ch, none =>
          match evalUn s n ch with
          | .val v =>
            match evalNodes s t (resetAt k st) with
            | .error f => .error f
            | .ok (t', k', b) => .ok ((n, some v) :: t', k', b)
          | _ => .error .raised
        | _, _ => .error .raised
    else if n.arity = 2 then
      match n.childSt with
      | none => .error .raised
      | some st =>
        match k[st]?, k[st + 1]?, c with
        | some c1, some c2, none =>
          match evalBin s n c1 c2 with
          | .raised => .error .raised
          | .invalid => .ok ((n, c) :: t, resetAt (resetAt k st) (st + 1), true)
          | .val v =>
            match evalNodes s t (resetAt (resetAt k st) (st + 1)) with
            | .error f => .error f
            | .ok (t', k', b) => .ok ((n, some v) :: t', k', b)
        | _, _, _ => .error .raised
    else
      match evalNodes s t k with
      | .error f => .error f
      | .ok (t', k', b) => .ok ((n, c) :: t', k', b)

/-- pde.py:133-217: all levels, from the last but one up; stops at an invalid node. -/
def evalUp {V : Type} (s : Sem V) : List (List (CNode V)) → Except Fail (List (List (CNode V)) × Bool)
  | [] => .ok ([], false)
  | [l] => .ok ([l], false)
  | l :: l2 :: ls =>
    match evalUp s (l2 :: ls) with
    | .error f => .error f
    | .ok (rest, true) => .ok (l :: rest, true)
    | .ok ([], false) => .ok ([l], false)
    | .ok (k :: ks, false) =>
      if k.isEmpty then .ok (l :: k :: ks, false)
      else
        match evalNodes s l k with
        | .error f => .error f
        | .ok (l', k', b) => .ok (l' :: k' :: ks, b)

/-- `tree_list[0][0].cache = tree_list[0][0].var` -/
def resetRoot {V : Type} : List (List (CNode V)) → List (List (CNode V))
  | (c :: l) :: ls => ((c.1, none) :: l) :: ls
  | t => t

/-- pde.py:127-229: one term.  The result is the term with its caches and the column (`none`: the term is put on the
deletion list because it is invalid or identically zero). -/
def evalTerm {V : Type} (s : Sem V) (t : List (List (CNode V))) : Except Fail (List (List (CNode V)) × Option V) :=
  match evalUp s t with
  | .error f => .error f
  | .ok (t', true) => .ok (resetRoot t', none)
  | .ok (t', false) =>
    match t' with
    | (c :: _) :: _ =>
      match fetch s c with
      | .error f => .error f
      | .ok v => .ok (resetRoot t', if s.isZero v then none else some v)
    | _ => .error .raised

/-- A freshly built tree: every cache holds the node's own `var` (tree.py:31). -/
def fresh {V : Type} (t : Levels) : List (List (CNode V)) := t.map fun l => l.map fun n => (n, none)

/-- pde.py:127-229: all terms in order: terms with their caches, the columns (a rejected term's column stays zero) and
the indices to delete. -/
def evalAll {V : Type} (s : Sem V) : Nat → List (List (List (CNode V))) →
    Except Fail (List (List (List (CNode V))) × List (Option V) × List Nat)
  | _, [] => .ok ([], [], [])
  | ix, t :: ts =>
    match evalTerm s t with
    | .error f => .error f
    | .ok (t', col) =>
      match evalAll s (ix + 1) ts with
      | .error f => .error f
      | .ok (ts', cols, del) => .ok (t' :: ts', col :: cols, if col.isNone then ix :: del else del)

/-- pde.py:231-239: `pop(ixx - move)` for each index of the deletion list. -/
def popAll {α : Type} : List Nat → Nat → List α → List α
  | [], _, l => l
  | ixx :: del, move, l => popAll del (move + 1) (l.eraseIdx (ixx - move))

/-- pde.py:110-239 up to the regression: remaining terms, their columns, and the width counter `W`. -/
def evalTerms {V : Type} (s : Sem V) (w : Nat) (ts : List (List (List (CNode V)))) :
    Except Fail (List (List (List (CNode V))) × List (Option V) × Nat) :=
  match evalAll s 0 ts with
  | .error f => .error f
  | .ok (ts', cols, del) => .ok (popAll del 0 ts', popAll del 0 cols, w - del.length)

end Verif.Sga
