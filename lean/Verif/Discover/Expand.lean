import Mathlib.RingTheory.Derivation.Basic
import Mathlib.Algebra.Algebra.Rat
/-!
# Expanding derivatives in displayed equations (kd/viz/discover_eq2latex.py)
A term that is a first derivative of a compound expression is expanded by the product rule before it is displayed; a numeric factor is taken into the
coefficient.  SymPy itself (parser, automatic simplification, printer) is not modelled: its `doit` is the product rule below, and its canonical form is
a parameter, a sum of products.
-/
namespace Verif.Discover.Expand

/-- The SymPy expressions of DISCOVER's PDE operators (stridge.py:96-181): the state `u1`, the coordinates, numbers, sums, products, integer powers and
derivatives. -/
inductive Ex where
  | u
  | x (i : Fin 3)
  | num (q : ℚ)
  | add (a b : Ex)
  | mul (a b : Ex)
  | pow (a : Ex) (n : ℤ)
  | d (i : Fin 3) (a : Ex)

/-- discover_eq2latex.py:105-109 `doit()` after `u1` became a function of the coordinates: the product rule; derivatives of derivatives stay. -/
def diff (i : Fin 3) : Ex → Ex
  | .u => .d i .u
  | .x j => .num (if i = j then 1 else 0)
  | .num _ => .num 0
  | .add a b => .add (diff i a) (diff i b)
  | .mul a b => .add (.mul (diff i a) b) (.mul a (diff i b))
  | .pow a n => .mul (.num n) (.mul (.pow a (n - 1)) (diff i a))
  | .d j a => .d i (.d j a)

/-- discover_eq2latex.py:74-83: a first derivative of something that is not the state itself. -/
def isFirstOrderCompound : Ex → Bool
  | .d _ .u => false
  | .d _ (.d _ _) => false       -- SymPy merges nested derivatives: total order above one
  | .d _ _ => true
  | _ => false

/-- discover_eq2latex.py:86-109: only first derivatives of compound expressions are expanded. -/
def expandFirst : Ex → Ex
  | .d i a => if isFirstOrderCompound (.d i a) then diff i a else .d i a
  | e => e

/-! ## The display -/

/-- SymPy's canonical form of an expression: a sum of numbers times products (`M` are the products, opaque here). -/
abbrev Sum (M : Type) := List (ℚ × M)

/-- The displayed right-hand side as a reader sees it: signs, numbers, products. -/
inductive Sign (M : Type) where
  | plus | minus
  | num (q : ℚ)
  | prod (m : M)

/-- Printing one summand with its sign after the first, or with a leading minus if it is the first. -/
def printSummand {M : Type} (first : Bool) (q : ℚ) (m : M) : List (Sign M) :=
  (if q < 0 then [.minus] else if first then [] else [.plus]) ++ (if |q| = 1 then [] else [.num |q|]) ++ [.prod m]

/-- SymPy's LaTeX of a sum (`LatexPrinter._print_Add`): the summands with their signs, nothing around them. -/
def printSum {M : Type} : Sum M → List (Sign M)
  | [] => [.num 0]
  | (q, m) :: rest => printSummand true q m ++ rest.flatMap (fun p => printSummand false p.1 p.2)

/-- discover_eq2latex.py:126-127 `as_coeff_Mul()`: the number is split off a product, not off a sum. -/
def coeffMul {M : Type} : Sum M → ℚ × List (Sign M)
  | [(q, m)] => (q, [.prod m])
  | s => (1, printSum s)

/-- dlga_eq2latex.py:50-89 `_format_full_latex_term`, with exact numbers (the rounding to four places is C75): sign, number unless it is one, base. -/
def formatTerm {M : Type} (c : ℚ) (base : List (Sign M)) (first : Bool) : List (Sign M) :=
  (if c < 0 then [.minus] else if first then [] else [.plus]) ++ (if |c| = 1 then [] else [.num |c|]) ++ base

/-- discover_eq2latex.py:275-310: the right-hand side, one term after the other; the factor goes into the coefficient (line 289). -/
def rhs {M : Type} : Bool → List (ℚ × Sum M) → List (Sign M)
  | _, [] => []
  | first, (c, s) :: rest => formatTerm (c * (coeffMul s).1) (coeffMul s).2 first ++ rhs false rest

end Verif.Discover.Expand
