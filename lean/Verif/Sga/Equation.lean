import Verif.Sga.TreeLemmas
import Verif.Sga.Naming
/-!
# Model of kd/model/sga/sgapde/equation.py: extraction and LaTeX rendering of the discovered equation

Strings are lists of characters.  Number formatting (`{x:.6g}`) is a parameter.
-/
namespace Verif.Sga

/-- A Python float; finite ones are the rational numbers they stand for (no rounding happens in this file). -/
inductive Fl where
  | nan
  | inf (neg : Bool)
  | fin (q : Rat)
deriving DecidableEq, Repr

/-- `abs(x)` -/
def Fl.abs : Fl → Fl
  | .nan => .nan
  | .inf _ => .inf false
  | .fin q => .fin q.abs

/-- `x < y`; false whenever one is NaN. -/
def Fl.lt : Fl → Fl → Bool
  | .nan, _ => false
  | _, .nan => false
  | .inf a, .inf b => a && !b
  | .inf a, .fin _ => a
  | .fin _, .inf b => !b
  | .fin p, .fin q => decide (p < q)

/-- `x == 0.0` -/
def Fl.isZero : Fl → Bool
  | .fin q => q == 0
  | _ => false

/-- equation.py:16-23 `SGAEquationTerm`; `gen`: source 'generated' with its tree, `dflt`: source 'default'. -/
inductive Src where
  | dflt
  | gen (tree : Levels)
deriving DecidableEq, Repr

structure EqTerm where
  label : Name
  src : Src
  coef : Fl
deriving DecidableEq, Repr

/-- equation.py:81-93: the terms of the default library, `k` of them still to come, the next one number `i`.
`default_names[idx]` if there is one, else `default_{idx}`. -/
def defaultTerms (tol : Fl) (names : List Name) (coefs : List Fl) : Nat → Nat → List EqTerm
  | 0, _ => []
  | k + 1, i =>
    match coefs[i]? with
    | none => []
    | some c =>
      if c.abs.lt tol then defaultTerms tol names coefs k (i + 1)
      else ⟨names.getD i ("default_".toList ++ digits i), .dflt, c⟩ :: defaultTerms tol names coefs k (i + 1)

/-- equation.py:95-111: the generated terms from number `i` on; `label` is `inorder` (never empty). -/
def generatedTerms (tol : Fl) (coefs : List Fl) (offset : Nat) : Nat → List Levels → List EqTerm
  | _, [] => []
  | i, t :: ts =>
    match coefs[offset + i]? with
    | none => []
    | some c =>
      if c.abs.lt tol then generatedTerms tol coefs offset (i + 1) ts
      else ⟨((inorder t).getD "").toList, .gen t, c⟩ :: generatedTerms tol coefs offset (i + 1) ts

/-- equation.py:49-114 `extract_equation_details`, after `evaluate_mse` returned the kept terms and the coefficients. -/
def extractDetails (tol : Fl) (numDefault : Nat) (names : List Name) (terms : List Levels) (coefs : List Fl) : List EqTerm :=
  defaultTerms tol names coefs (min numDefault coefs.length) 0 ++ generatedTerms tol coefs numDefault 0 terms

/-- equation.py:40-46 `_infer_lhs_label`; `left_side` is `none` when missing. -/
def inferLhs (leftSide : Option Name) : Name :=
  match leftSide with
  | none => "u_t".toList
  | some raw =>
    match raw.dropWhile (· != '=') with
    | [] => "u_t".toList
    | _ :: r =>
      let s := (r.dropWhile Char.isWhitespace).reverse.dropWhile Char.isWhitespace |>.reverse
      if s.isEmpty then "u_t".toList else s

/-- equation.py:241-265 `_render_leaf`. -/
def leafMap : List (Name × Name) :=
  [("u".toList, "u".toList), ("x".toList, "x".toList), ("t".toList, "t".toList), ("ux".toList, "u_{x}".toList),
    ("u_x".toList, "u_{x}".toList), ("uxx".toList, "u_{xx}".toList), ("uxxx".toList, "u_{xxx}".toList),
    ("ut".toList, "u_{t}".toList), ("0".toList, "0".toList), ("alpha".toList, "\\alpha".toList),
    ("beta".toList, "\\beta".toList), ("gamma".toList, "\\gamma".toList), ("delta".toList, "\\delta".toList),
    ("epsilon".toList, "\\epsilon".toList), ("kappa".toList, "\\kappa".toList), ("lambda".toList, "\\lambda".toList),
    ("mu".toList, "\\mu".toList), ("nu".toList, "\\nu".toList), ("rho".toList, "\\rho".toList),
    ("sigma".toList, "\\sigma".toList)]
def renderLeaf (n : Name) : Name := (leafMap.lookup n).getD n

/-- equation.py:338-345 `_ensure_group`. -/
def ensureGroup (e : Name) : Name :=
  if e.head? = some '(' ∧ e.getLast? = some ')' then e
  else if "\\frac".toList.isPrefixOf e then '(' :: e ++ [')']
  else if e.any (fun c => c == ' ' || c == '+' || c == '-') then '(' :: e ++ [')']
  else e

/-- `operand.rfind('_{')`: the text before the last occurrence and the text after it. -/
def rfindSub : Name → Option (Name × Name)
  | [] => none
  | c :: r =>
    match rfindSub r with
    | some (a, b) => some (c :: a, b)
    | none => if c == '_' ∧ r.head? = some '{' then some ([], r.drop 1) else none

/-- equation.py:319-333: from the text after `_{` (brace depth `d`), the text up to the matching `}` if that is the last
character (`close = len(operand) - 1`). -/
def closing : Nat → Name → Option Name
  | _, [] => none
  | d, c :: r =>
    if c == '{' then (closing (d + 1) r).map (c :: ·)
    else if c == '}' then
      if d = 1 then if r.isEmpty then some [] else none
      else (closing (d - 1) r).map (c :: ·)
    else (closing d r).map (c :: ·)

/-- equation.py:308-335 `_merge_subscript`. -/
def mergeSub (operand sub : Name) : Option Name :=
  match rfindSub operand with
  | none => none
  | some (base, after) =>
    match closing 1 after with
    | none => none
    | some existing => some (base ++ "_{".toList ++ existing ++ sub ++ "}".toList)

/-- equation.py:268-299 `_combine_node` (`leibniz`: the notation); children beyond the list read as missing (IndexError),
which the tables exclude. -/
def combine (leibniz : Bool) (name : Name) (cs : List Name) : Name :=
  let a := cs.getD 0 []
  let b := cs.getD 1 []
  let var := if cs.length < 2 then "x".toList else b
  if name = "+".toList then "(".toList ++ a ++ " + ".toList ++ b ++ ")".toList
  else if name = "-".toList then "(".toList ++ a ++ " - ".toList ++ b ++ ")".toList
  else if name = "*".toList then a ++ " \\cdot ".toList ++ b
  else if name = "/".toList then "\\frac{".toList ++ a ++ "}{".toList ++ b ++ "}".toList
  else if name = "^2".toList then ensureGroup a ++ "^{2}".toList
  else if name = "^3".toList then ensureGroup a ++ "^{3}".toList
  else if name = "d".toList then
    if leibniz then "\\frac{\\partial ".toList ++ a ++ "}{\\partial ".toList ++ var ++ "}".toList
    else (mergeSub a var).getD (a ++ "_{".toList ++ var ++ "}".toList)
  else if name = "d^2".toList then
    if leibniz then "\\frac{\\partial^{2} ".toList ++ a ++ "}{\\partial ".toList ++ var ++ "^{2}}".toList
    else (mergeSub a (var ++ var)).getD (a ++ "_{".toList ++ var ++ var ++ "}".toList)
  else if cs.isEmpty then name
  else name ++ "(".toList ++ (", ".toList).intercalate cs ++ ")".toList

/-- equation.py:221-236 `_render_tree.helper` at node `idx` of the first of the given levels (`none`: IndexError).
A child outside the table is rendered '1'. -/
def renderAt (leibniz : Bool) : Levels → Nat → Option Name
  | [], _ => none
  | l :: rest, idx =>
    match l[idx]? with
    | none => none
    | some n =>
      match n.arity, n.childSt with
      | 0, _ => some (renderLeaf n.name.toList)
      | _, none => some (renderLeaf n.name.toList)
      | k, some st => some (combine leibniz n.name.toList ((List.range k).map fun i => (renderAt leibniz rest (st + i)).getD ['1']))

/-- `s.replace(a, b)` for a non-empty `a`, left to right (`fuel` bounds the length). -/
def replaceAll (a b : Name) : Nat → Name → Name
  | 0, s => s
  | _ + 1, [] => []
  | k + 1, c :: r => if a.isPrefixOf (c :: r) then b ++ replaceAll a b k ((c :: r).drop a.length) else c :: replaceAll a b k r

/-- equation.py:198-213 `_sanitize_label`. -/
def sanitize (label : Name) : Name :=
  let cleaned := ((label.dropWhile Char.isWhitespace).reverse.dropWhile Char.isWhitespace).reverse
  if cleaned.isEmpty then "1".toList
  else
    let leaf := renderLeaf cleaned
    if leaf ≠ cleaned then leaf
    else
      let s1 := replaceAll "*".toList "\\cdot ".toList cleaned.length cleaned
      let s2 := replaceAll "^2".toList "^{2}".toList s1.length s1
      let s3 := replaceAll "^3".toList "^{3}".toList s2.length s2
      s3.filter (· != ' ')

/-- equation.py:189-195 `_render_term_expression` (a tree is never without levels; its rendering cannot raise on the
tables the search builds). -/
def renderExpr (leibniz : Bool) (t : EqTerm) : Name :=
  match t.src with
  | .dflt => sanitize t.label
  | .gen tree => if tree.isEmpty then "1".toList else (renderAt leibniz tree 0).getD (sanitize t.label)

/-- equation.py:162-182 `_format_term`: sign (true: '+') and body.  `fmt` is `{magnitude:.6g}`, `lo`/`hi` are
`1.0 ∓ _DEFAULT_TOL`. -/
def formatTerm (fmt : Fl → Name) (lo hi : Fl) (coefs leibniz : Bool) (t : EqTerm) : Bool × Name :=
  let mag := t.coef.abs
  let e0 := renderExpr leibniz t
  let expr := if e0.isEmpty then "1".toList else e0
  let scalar := expr == "1".toList || expr == "0".toList
  (!(t.coef.lt (.fin 0)),
    if coefs then
      if !(hi.lt mag || mag.lt lo || scalar) && !mag.isZero then expr
      else if expr = "1".toList then fmt mag
      else fmt mag ++ "\\,".toList ++ expr
    else expr)

/-- equation.py:139-145: the terms after the first, each with its leading sign, joined by spaces. -/
def joinTerms : List (Bool × Name) → Name
  | [] => []
  | (s, b) :: r => (if s then " + ".toList else " - ".toList) ++ b ++ joinTerms r

/-- equation.py:120-146 `sga_equation_to_latex`; `lhs` is `details.lhs` (non-empty). -/
def toLatex (fmt : Fl → Name) (lo hi : Fl) (coefs leibniz : Bool) (lhs : Name) (terms : List EqTerm) : Name :=
  match (terms.filter fun t => !t.coef.isZero).map (formatTerm fmt lo hi coefs leibniz) with
  | [] => sanitize lhs ++ " = 0".toList
  | (s, b) :: r => sanitize lhs ++ " = ".toList ++ (if s then b else "- ".toList ++ b) ++ joinTerms r

/-- pde.py:92-108 `concise_visualize`, the loop over the coefficients from number `i` on: `fmt` is
`str(round(np.real(c), 4))`, `labels` are the default names followed by the `inorder` strings of the kept terms
(`none`: IndexError). -/
def conciseLoop (fmt : Fl → Name) (tol : Fl) (labels : List Name) : Nat → List Fl → Name → Option Name
  | _, [], name => some name
  | i, c :: cs, name =>
    if c.abs.lt tol then conciseLoop fmt tol labels (i + 1) cs name
    else
      match labels[i]? with
      | none => none
      | some l =>
        conciseLoop fmt tol labels (i + 1) cs (name ++ (if i ≠ 0 ∧ name ≠ [] then " + ".toList else []) ++ fmt c ++ l)

end Verif.Sga
