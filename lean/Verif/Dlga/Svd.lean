import Verif.Dlga.Fit
import Mathlib.Data.Real.Basic
/-!
# Model of the regression step of DLGA (kd/model/dlga.py:293-305) and of what repeated fits record

`np.linalg.svd` is a parameter: `last M` is the last right singular vector of the matrix with the columns `M`.
-/
namespace Verif.Dlga

/-- The sum of the squares of the entries of `M · v` over `total` rows. -/
def sqNorm (M : List (List ℝ)) (v : List ℝ) (total : Nat) : ℝ :=
  ((List.range total).map (fun r => predict M v r ^ 2)).sum

/-- The small number of dlga.py:296, 303. -/
noncomputable def tiny : ℝ := 1 / 10 ^ 8

/-- dlga.py:296-297 (and 303-304): the coefficients from the singular vector: `coef_NN = v / (v[0] + 1e-8)`, `coef = -coef_NN[1:]`. -/
noncomputable def coefOfVector : List ℝ → List ℝ
  | [] => []
  | a :: w => w.map (fun x => -(x / (a + tiny)))

/-- dlga.py:295-297 (and 302-304): the regression step `solve` of `getFitness`. -/
noncomputable def svdSolve (last : List (List ℝ) → List ℝ) (target : List ℝ) (cols : List (List ℝ)) : List ℝ :=
  coefOfVector (last (target :: cols))

/-! ### What fits record -/

/-- The lists of an estimator that grow (dlga.py:103-108): best fitness per generation, training and validation loss per iteration,
and the recorded generations with their numbers. -/
structure Record (F E : Type) where
  fitness : List F
  train : List E
  valid : List E
  evolution : List (Nat × F)
deriving DecidableEq, Repr

/-- dlga.py:103-108: a new estimator. -/
def Record.new {F E : Type} : Record F E := ⟨[], [], [], []⟩

/-- kd_dlga.py:205-222: one generation with best fitness `f`. -/
def Record.generation {F E : Type} (r : Record F E) (f : F) : Record F E :=
  { r with fitness := r.fitness ++ [f], evolution := r.evolution ++ [(r.fitness.length + 1, f)] }

/-- dlga.py:179-180: one training iteration with its two losses. -/
def Record.iteration {F E : Type} (r : Record F E) (e : E × E) : Record F E :=
  { r with train := r.train ++ [e.1], valid := r.valid ++ [e.2] }

/-- kd_dlga.py:226-263 `fit` (training, then the generations): the record afterwards; nothing is reset. -/
def Record.fit {F E : Type} (r : Record F E) (losses : List (E × E)) (gens : List F) : Record F E :=
  gens.foldl Record.generation (losses.foldl Record.iteration r)

end Verif.Dlga
