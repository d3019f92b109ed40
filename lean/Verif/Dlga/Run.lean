import Verif.Dlga.Meta
import Verif.Dlga.Svd
import Verif.Dlga.Display
/-!
# Model of a whole run of `KD_DLGA` after the network is trained (kd/model/kd_dlga.py:221-263 `fit`)

The pieces are those of `Dlga/Model` (search), `Dlga/Meta` (library), `Dlga/Fit` and `Dlga/Svd` (fitness), `Dlga/Display` (text).  Exact real arithmetic.
-/
namespace Verif.Dlga.Run
open Verif.Dlga Verif.Dlga.Meta

noncomputable section

/-- What a run starts from: the trained network, the points (x, t), the operators and `epi` of the constructor; `last M` stands for
`np.linalg.svd(M, full_matrices=False)[2].T[:, -1]`, `shown c` for `str(np.round(c, 4))`. -/
structure Setup where
  net : List ℝ → ℝ
  X : List (List ℝ)
  ops : List String
  epi : ℝ
  last : List (List ℝ) → List ℝ
  shown : ℝ → Text

/-- dlga.py:259-319 `translate_DNA` and `get_fitness` on the library of kd_dlga.py:55-68; `none` is an exception. -/
def Setup.score (S : Setup) (g : Genome) : Option (Eval (List ℝ) ℝ) :=
  match available S.net 2 S.X "u_t", available S.net 2 S.X "u_tt", translate (thetaColumns (available S.net 2 S.X) S.ops) S.X.length g with
  | some ut, some utt, some (cols, len) =>
    let f := getFitness (svdSolve S.last) S.epi ut utt S.X.length cols len
    some ⟨f.1, f.2.1, f.2.2.2⟩
  | _, _, _ => none

/-- `score` as a total function for the search of `Dlga/Model` (`C179_total` shows that the search scores no genome without a score). -/
def Setup.ev (S : Setup) (g : Genome) : Eval (List ℝ) ℝ := (S.score g).getD ⟨[], 0, ""⟩

/-- What `fit` leaves: the chromosome, the evaluation and the text of the equation. -/
structure Fitted where
  chrom : Genome
  eval : Eval (List ℝ) ℝ
  text : Text

/-- kd_dlga.py:221-263 `fit` from `evolution` on. -/
def fit (S : Setup) (maxLen popSize nGenerations : Nat) : Gen (Option Fitted × List (Result (List ℝ) ℝ)) := do
  let (out, rs) ← evolution S.ev (librarySize S.ops) maxLen popSize nGenerations
  match out with
  | none => pure (none, rs)
  | some (g, e) =>
    pure (some ⟨g, e, convertChrom (S.ops.map String.toList) g e.lhs.toList (e.coef.map S.shown)⟩, rs)

end

end Verif.Dlga.Run
