import Verif.Discover.Fit
import Verif.Dlga.Display
/-!
# Displaying a DISCOVER program (stridge.py:96-181 `Node.to_sympy_string`, kd/viz/discover_eq2latex.py)
-/
namespace Verif.Discover.Fit

/-- Python's `s.removesuffix('_t')`. -/
def baseName (s : String) : String :=
  if ['_', 't'].isSuffixOf s.toList then String.ofList (s.toList.dropLast.dropLast) else s

/-- stridge.py:167: the function names SymPy knows. -/
def sympyFns : List String := ["sin", "cos", "tan", "exp", "log", "sqrt", "abs"]

/-- `s[:1].upper() + s[1:].lower()` for the ASCII names that reach line 178. -/
def capitalize (s : String) : String :=
  match s.toList with
  | [] => s
  | c :: cs => String.ofList (c.toUpper :: cs.map Char.toLower)

/-- stridge.py:110-181: the text for an operator with the given texts of its children.  `none`: `child_sympy_strings[1]`
raises `IndexError`. -/
def opText (v : String) (cs : List String) : Option String :=
  let b := baseName v
  let un (f : String → String) : Option String := cs[0]?.map f
  let bin (f : String → String → String) : Option String :=
    match cs[0]?, cs[1]? with
    | some x, some y => some (f x y)
    | _, _ => none
  if b = "add" then bin fun x y => "Add(" ++ x ++ ", " ++ y ++ ")"
  else if b = "mul" then bin fun x y => "Mul(" ++ x ++ ", " ++ y ++ ")"
  else if b = "sub" then bin fun x y => "Add(" ++ x ++ ", Mul(" ++ y ++ ", -1))"
  else if b = "div" then bin fun x y => "Mul(" ++ x ++ ", Pow(" ++ y ++ ", -1))"
  else if b = "n2" then un fun x => "Pow(" ++ x ++ ", 2)"
  else if b = "n3" then un fun x => "Pow(" ++ x ++ ", 3)"
  else if b = "n4" then un fun x => "Pow(" ++ x ++ ", 4)"
  else if b = "n5" then un fun x => "Pow(" ++ x ++ ", 5)"
  else if b = "diff" then bin fun x y => "Derivative(" ++ x ++ ", " ++ y ++ ")"
  else if b = "diff2" then bin fun x y => "Derivative(" ++ x ++ ", " ++ y ++ ", " ++ y ++ ")"
  else if b = "diff3" then bin fun x y => "Derivative(" ++ x ++ ", " ++ y ++ ", " ++ y ++ ", " ++ y ++ ")"
  else if b = "diff4" then bin fun x y => "Derivative(" ++ x ++ ", " ++ y ++ ", " ++ y ++ ", " ++ y ++ ", " ++ y ++ ")"
  else if b = "Diff" then bin fun x y => "Derivative(" ++ x ++ ", " ++ y ++ ")"
  else if b = "Diff2" then bin fun x y => "Derivative(" ++ x ++ ", " ++ y ++ ", " ++ y ++ ")"
  else if b = "Diff_3" then bin fun x y => "Derivative(" ++ x ++ ", " ++ y ++ ")"
  else if b = "Diff2_3" then bin fun x y => "Derivative(" ++ x ++ ", " ++ y ++ ", " ++ y ++ ")"
  else if b = "lap" ∨ b = "lap_3" then un fun x => "laplacian(" ++ x ++ ")"
  else if b = "sigmoid" then un fun x => "1 / (1 + exp(-(" ++ x ++ ")))"
  else if b = "expneg" then un fun x => "exp(-(" ++ x ++ "))"
  else if b = "logabs" then un fun x => "log(Abs(" ++ x ++ "))"
  else if sympyFns.contains b then
    match cs with
    | [x] => some (b ++ "(" ++ x ++ ")")
    | _ => some (capitalize v ++ "(" ++ String.intercalate ", " cs ++ ")")
  else some (v ++ "(" ++ String.intercalate ", " cs ++ ")")

mutual
/-- stridge.py:96-181 `Node.to_sympy_string`. -/
def Node.sympyText : Node → Option String
  | .mk v cs => match cs with
    | [] => some v
    | c :: cs => (Node.sympyTexts (c :: cs)).bind (opText v)
/-- stridge.py:107: the texts of the children. -/
def Node.sympyTexts : List Node → Option (List String)
  | [] => some []
  | c :: cs => match Node.sympyText c, Node.sympyTexts cs with
    | some t, some ts => some (t :: ts)
    | _, _ => none
end

/-- discover_eq2latex.py:210-317 `discover_program_to_latex`, the terms of the right-hand side.  `termLatex` is
`_discover_term_node_to_latex_expanded` (SymPy: numeric factor and LaTeX of a term; `none`: it raises);
`none`: that exception; `.error`: the structure message; an empty right-hand side is shown as 0. -/
def programTerms (abs4 : ℚ → String) (termLatex : Node → Option (ℚ × String)) (w : List ℚ)
    (terms : List Node) : Option (Except Unit (List String)) :=
  if w.length ≠ terms.length then some (.error ())
  else
    let rec go : List ℚ → List Node → Bool → Option (List String)
      | a :: w, t :: ts, first =>
        match termLatex t with
        | none => none
        | some (f, base) => (go w ts false).map fun r => Dlga.formatTerm abs4 (a * f) base first :: r
      | _, _, _ => some []
    (go w terms true).map .ok

end Verif.Discover.Fit
