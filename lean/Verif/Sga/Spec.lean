/-!
# Specification vocabulary for the SGA term trees: expressions, independent of the level tables of the code
-/
namespace Verif.Sga

/-- A row `[name, child_num, payload]` of one of the symbol tables of `ProblemContext` (context.py:440-487). The
payload (numpy function or array) is an opaque identifier. -/
structure Entry where
  name : String
  arity : Nat
  pay : Nat
deriving DecidableEq, Repr

/-- An expression: a variable, a unary or a binary operator application. -/
inductive Expr where
  | leaf (e : Entry)
  | un (e : Entry) (c : Expr)
  | bin (e : Entry) (l r : Expr)
deriving DecidableEq, Repr

namespace Expr

/-- The symbol at the top. -/
def root : Expr → Entry
  | leaf e => e
  | un e _ => e
  | bin e _ _ => e

def depth : Expr → Nat
  | leaf _ => 1
  | un _ c => c.depth + 1
  | bin _ l r => max l.depth r.depth + 1

def size : Expr → Nat
  | leaf _ => 1
  | un _ c => c.size + 1
  | bin _ l r => l.size + r.size + 1

/-- Names in pre-order. -/
def preorder : Expr → List String
  | leaf e => [e.name]
  | un e c => e.name :: c.preorder
  | bin e l r => e.name :: (l.preorder ++ r.preorder)

/-- The fully parenthesised form shown to the user. -/
def shown : Expr → String
  | leaf e => e.name
  | un e c => "( " ++ e.name ++ " " ++ c.shown ++ ")"
  | bin e l r => "(" ++ l.shown ++ " " ++ e.name ++ " " ++ r.shown ++ ")"

/-- Same shape: the trees without their symbols. -/
def sameShape : Expr → Expr → Prop
  | leaf _, leaf _ => True
  | un _ c, un _ c' => sameShape c c'
  | bin _ l r, bin _ l' r' => sameShape l l' ∧ sameShape r r'
  | _, _ => False

end Expr

/-- The symbol tables of a `ProblemContext` (context.py:440-487). -/
structure Ctx where
  ROOT : List Entry
  OPS : List Entry
  OP1 : List Entry
  OP2 : List Entry
  VARS : List Entry
  den : List Entry
  simple : Bool

/-- The derivative operators (`{'d', 'd^2'}` in tree.py and pde.py). -/
def isD (name : String) : Bool := name == "d" || name == "d^2"

/-- `name in context.den[:, 0]` -/
def Ctx.isDen (ctx : Ctx) (name : String) : Bool := ctx.den.any fun e => e.name == name

/-- What `_init_operators` and `_build_vars` guarantee about the tables (context.py:454-485, 972-998). -/
structure Ctx.Ok (ctx : Ctx) : Prop where
  vars : ∀ e ∈ ctx.VARS, e.arity = 0
  den : ∀ e ∈ ctx.den, e.arity = 0
  ops : ∀ e ∈ ctx.OPS, e.arity = 1 ∨ e.arity = 2
  opsD : ∀ e ∈ ctx.OPS, isD e.name = true → e.arity = 2
  root : ∀ e ∈ ctx.ROOT, e ∈ ctx.OPS
  op1 : ∀ e ∈ ctx.OP1, e ∈ ctx.OPS ∧ e.arity = 1
  op2 : ∀ e ∈ ctx.OP2, e ∈ ctx.OPS ∧ e.arity = 2
  opNotDen : ∀ e ∈ ctx.OPS, ctx.isDen e.name = false

/-- A legal SGA term: variables at the leaves, operators inside, and every derivative is taken with respect to a
denominator axis. -/
def Legal (ctx : Ctx) : Expr → Prop
  | .leaf e => e ∈ ctx.VARS ∨ e ∈ ctx.den
  | .un e c => e ∈ ctx.OPS ∧ e.arity = 1 ∧ Legal ctx c
  | .bin e l r => e ∈ ctx.OPS ∧ e.arity = 2 ∧ Legal ctx l ∧ Legal ctx r ∧
      (isD e.name = true → ∃ v, r = .leaf v ∧ ctx.isDen v.name = true)

end Verif.Sga
