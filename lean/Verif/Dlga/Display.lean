import Mathlib.Algebra.Order.Ring.Rat
import Verif.Dlga.Model
/-!
# Model of the display of a DLGA equation

kd/model/kd_dlga.py `convert_chrom_to_eq` and kd/viz/dlga_eq2latex.py.  Coefficients are given by their printed form
(`str(np.round(c, 4))` and `f"{abs(c):.4f}"` are parameters), texts are lists of characters where it matters.
-/
namespace Verif.Dlga

abbrev Text := List Char

/-- `"sep".join(parts)`. -/
def joinWith (sep : Text) : List Text → Text
  | [] => []
  | [p] => p
  | p :: q :: r => p ++ sep ++ joinWith sep (q :: r)

/-- `s.replace("+-", "-")`: left to right, not overlapping. -/
def fixSigns : Text → Text
  | '+' :: '-' :: r => '-' :: fixSigns r
  | c :: r => c :: fixSigns r
  | [] => []

/-- kd_dlga.py:117: the names of the genes of a module (`gene < len(name)`). -/
def moduleNames (names : List Text) (m : Module) : List Text := m.filterMap (fun g => names[g]?)

/-- kd_dlga.py:114-119: the printed terms.  `cs` are the printed coefficients. -/
def eqTerms (names : List Text) : Genome → List Text → List Text
  | m :: g, c :: cs =>
    let t := joinWith ['*'] (moduleNames names m)
    if t = [] then eqTerms names g cs else (c ++ '*' :: t) :: eqTerms names g cs
  | _, _ => []

/-- kd_dlga.py:109-121 `convert_chrom_to_eq`. -/
def convertChrom (names : List Text) (g : Genome) (lhs : Text) (cs : List Text) : Text :=
  if g = [] then lhs ++ "= (empty equation)".toList
  else lhs ++ '=' :: fixSigns (joinWith ['+'] (eqTerms names g cs))

/-! ### dlga_eq2latex.py -/

/-- dlga_eq2latex.py:10 `DLGA_INTERNAL_TERM_NAMES`. -/
def internalNames : List String := ["u", "ux", "uxx", "uxxx", "ut", "utt"]

/-- dlga_eq2latex.py:13-20 `DEFAULT_LATEX_STYLE_MAP.get(s, s)`. -/
def latexStyle (s : String) : String :=
  if s = "ux" then "u_x" else if s = "uxx" then "u_{xx}" else if s = "uxxx" then "u_{xxx}" else if s = "ut" then "u_t"
  else if s = "utt" then "u_{tt}" else s

/-- dlga_eq2latex.py:31-36: the distinct genes in ascending order with their counts. -/
def geneCounts (m : Module) : List (Nat × Nat) := (m.insertionSort (· ≤ ·)).dedup.map (fun g => (g, m.count g))

/-- dlga_eq2latex.py:37-38: the symbol shown for a gene.  `dlga_eq2latex` (152-193) calls `chromosome_to_latex` without passing on
`operator_names`, so the names are always the internal ones. -/
def geneSymbol (g : Nat) : String :=
  match internalNames[g]? with
  | some n => latexStyle n
  | none => "未知G(" ++ toString g ++ ")"

/-- dlga_eq2latex.py:23-45 `_module_to_latex_base_term`: the factors shown, each with its exponent (`[]` is shown as "1"). -/
def moduleFactors (m : Module) : List (String × Nat) := (geneCounts m).map (fun p => (geneSymbol p.1, p.2))

/-- dlga_eq2latex.py:40-43: the text of a factor. -/
def factorText (p : String × Nat) : String := if p.2 > 1 then p.1 ++ "^{" ++ toString p.2 ++ "}" else p.1

/-- dlga_eq2latex.py:23-45 as text. -/
def moduleText (m : Module) : String := if m = [] then "1" else " ".intercalate ((moduleFactors m).map factorText)

/-- `np.isclose(c, 0.0)` (absolute tolerance 1e-8). -/
def closeZero (c : ℚ) : Bool := decide (|c| ≤ 1 / 100000000)
/-- `np.isclose(abs(c), 1.0)` (absolute tolerance 1e-8 plus relative tolerance 1e-5). -/
def closeOne (c : ℚ) : Bool := decide (|(|c| - 1)| ≤ 1 / 100000000 + 1 / 100000)

/-- dlga_eq2latex.py:50-89 `_format_full_latex_term`; `abs4 c` is `f"{abs(c):.4f}"`. -/
def formatTerm (abs4 : ℚ → String) (c : ℚ) (base : String) (first : Bool) : String :=
  let minus := !closeZero c && !decide (c > 0)
  let disp := if closeZero c then "0.0000" else abs4 c
  let body := if closeOne c && base != "1" then base else if base = "1" then disp else disp ++ " " ++ base
  if first then (if minus then "- " ++ body else body)
  else (if minus then "- " ++ body else "+ " ++ body)

/-- dlga_eq2latex.py:109-132: the terms of the right-hand side (modules beyond the coefficients are skipped). -/
def latexTerms (abs4 : ℚ → String) : Genome → List ℚ → Bool → List String
  | m :: g, c :: cs, first => formatTerm abs4 c (moduleText m) first :: latexTerms abs4 g cs false
  | _, _, _ => []

end Verif.Dlga
