/-!
# The base class DLGA: the equation as text (kd/model/dlga.py:451-497 `convert_chrom_to_eq`)

Coefficients come already printed (`str(np.round(coef[i, 0], 4))`).  The pieces are appended and popped as in the code.
-/
namespace Verif.Dlga.BaseText

/-- dlga.py:453 `name` -/
def geneNames : List String := ["u", "ux", "uxx", "uxxx", "ut", "utt"]

/-- dlga.py:483-488: the pieces of the genes of a module (genes outside the table are skipped). -/
def genePieces : List Int → List String → List String
  | [], acc => acc
  | g :: gs, acc =>
    if g < 0 ∨ g ≥ (geneNames.length : Int) then genePieces gs acc
    else genePieces gs (acc ++ [geneNames.getD g.toNat "", "*"])

/-- dlga.py:467-490: the loop over the modules with the coefficients that are left. -/
def modulePieces : List (List Int) → List String → List String → List String
  | [], _, acc => acc
  | _ :: _, [], acc => acc
  | m :: ms, c :: cs, acc =>
    if m = [] then modulePieces ms cs (acc ++ [c, "*"])
    else modulePieces ms cs ((genePieces m (acc ++ [c, "*"])).dropLast ++ ["+"])

/-- dlga.py:451-497 `convert_chrom_to_eq` -/
def convert (chrom : List (List Int)) (lhs : String) (coefs : List String) : String :=
  lhs ++ "=" ++ String.join (modulePieces chrom coefs []).dropLast

end Verif.Dlga.BaseText
