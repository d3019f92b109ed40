import Mathlib.Algebra.Field.Rat
/-!
# SGA: built-in problems, choice of data and "data error" (kd/model/sga/sgapde/{config,context}.py, kd/model/kd_sga.py)

Names are lists of characters; lower case and blanks are those of `Char.toLower` and `Char.isWhitespace` (ASCII).  Arrays are opaque; the data
error is computed from the values of u and its derivatives at the points of the grid, as rationals; the square root and the division by the number
of points are left out (the sum of squares is reported).
-/
namespace Verif.Sga.Problems

abbrev Name := List Char

/-- `str.strip()` -/
def strip (s : Name) : Name := ((s.dropWhile Char.isWhitespace).reverse.dropWhile Char.isWhitespace).reverse

/-- `.replace('_', '-').replace(' ', '-')` -/
def dash (c : Char) : Char := if c = '_' ∨ c = ' ' then '-' else c

/-- config.py:252 `slug` -/
def slug (s : Name) : Name := (strip s).map fun c => dash c.toLower

/-- config.py:253-261 `alias_map` -/
def aliasMap : List (Name × Name) :=
  [("burgers2".toList, "burgers".toList), ("burgers-equation".toList, "burgers".toList), ("chafee-infante".toList, "chafee-infante".toList),
   ("chafeeinfante".toList, "chafee-infante".toList), ("kdv-equation".toList, "kdv".toList), ("kdv_equation".toList, "kdv".toList),
   ("kdv-equation-sine".toList, "kdv".toList)]

/-- config.py:248-262 `_normalize_problem_name` (of a string) -/
def normalize (s : Name) : Name := if s = [] then s else (aliasMap.lookup (slug s)).getD (slug s)

/-- The problems with a template. -/
inductive Builtin where
  | chafee | burgers | kdv
deriving DecidableEq, Repr

/-- config.py:179-231: the branch taken. -/
def builtin (s : Name) : Option Builtin :=
  if normalize s = "chafee-infante".toList then some .chafee
  else if normalize s = "burgers".toList then some .burgers
  else if normalize s = "kdv".toList then some .kdv
  else none

/-- The values at one point of the grid. -/
structure Pt where
  u : ℚ
  ut : ℚ
  ux : ℚ
  uxx : ℚ
  uxxx : ℚ

/-- config.py:192, 209, 226: `right_side` -/
def right : Builtin → Pt → ℚ
  | .chafee, p => -(10008 / 10000 * p.u) + 10004 / 10000 * p.u ^ 3
  | .burgers, p => -p.u * p.ux + 1 / 10 * p.uxx
  | .kdv, p => -(25 / 10000) * p.uxxx - p.u * p.ux

/-- config.py:194, 211, 228: `right_side_origin` -/
def rightOrigin : Builtin → Pt → ℚ
  | .chafee, p => p.uxx - p.u + p.u ^ 3
  | .burgers, p => -1 * p.u * p.ux + 1 / 10 * p.uxx
  | .kdv, p => -(25 / 10000) * p.uxxx - p.u * p.ux

/-- context.py:1096-1101, 1108-1112: the square of the reported error, times the square of the number of points. -/
def sqError (rhs : Pt → ℚ) (pts : List Pt) : ℚ := (pts.map fun p => (p.ut - rhs p) ^ 2).sum

/-- context.py:1059-1118: the errors "data error" (of the data used) and "data error_origin" (of the data given); `none`: no template. -/
def dataErrors (b : Option Builtin) (used origin : List Pt) : Option (ℚ × ℚ) :=
  b.map fun b => (sqError (right b) used, sqError (rightOrigin b) origin)

/-! ## Data -/

/-- The parts of `SolverConfig` that decide on the data; `A` are arrays. -/
structure Config (A : Type) where
  name : Name
  u : Option A
  x : Option A
  t : Option A
  /-- `fields_data` and `coords_1d` -/
  fields : Option A
  coords : Option A

/-- The data of a problem: a structured grid, or u, x and t. -/
inductive Data (A : Type) where
  | grid (fields coords : A)
  | xt (u x t : A)

/-- config.py:109-129, 155-246 `__post_init__`: the template and `self.u`, `self.x`, `self.t` (`files` gives the bundled arrays of a problem);
`none`: ValueError. -/
def load {A : Type} (files : Builtin → A × A × A) (c : Config A) : Option (Option Builtin × Option (A × A × A)) :=
  if c.fields.isSome || c.coords.isSome then some (none, none)
  else match c.u, c.x, c.t with
    | some u, some x, some t => some (builtin c.name, some (u, x, t))
    | _, _, _ => (builtin c.name).map fun b => (some b, some (files b))

/-- context.py:172-213 `_build_registry_payload_from_config` of the loaded configuration; `none`: ValueError. -/
def payload {A : Type} (c : Config A) (own : Option (A × A × A)) : Option (Data A) :=
  match c.fields, c.coords with
  | some f, some k => some (.grid f k)
  | some _, none => none
  | none, some _ => none
  | none, none =>
    if c.u.isSome || c.x.isSome || c.t.isSome then
      match c.u, c.x, c.t with
      | some u, some x, some t => some (.xt u x t)
      | _, _, _ => none
    else own.map fun d => .xt d.1 d.2.1 d.2.2

/-- Configuration and context in one: the template and the data. -/
def problem {A : Type} (files : Builtin → A × A × A) (c : Config A) : Option (Option Builtin × Data A) :=
  match load files c with
  | none => none
  | some (b, own) => (payload c own).map fun d => (b, d)

/-- kd_sga.py:137-141: the label, from the argument, the aliases and the name of the dataset (the empty string is false). -/
def label (arg sgaProblem legacy inferred : Option Name) : Name :=
  let ok := fun (o : Option Name) => o.filter fun s => s != []
  ((ok arg).or ((ok sgaProblem).or ((ok legacy).or (ok inferred)))).getD "custom_dataset".toList

end Verif.Sga.Problems
