/-!
# Model of the sparse regression in kd/model/sga/sgapde/PDE_find.py (and its twin kd/model/discover/ga_utils.py)

The linear algebra is abstract: `fit B i` is the coefficient of column `i` in the regression on the columns `B`.
-/
namespace Verif.Sga

/-- Coefficients and the comparisons with the tolerance. -/
structure Thr (K : Type) where
  zero : K
  /-- `abs(w) < tol` -/
  below : K → Bool
  /-- `abs(w) > tol` -/
  above : K → Bool

/-- The regressions (normalised columns). -/
structure Fits (K : Type) where
  /-- number of columns -/
  d : Nat
  /-- `w = lstsq(X, y)`, the starting estimate -/
  start : Nat → K
  /-- `lstsq(X[:, B].T X[:, B] + lam I, …)` or, with `lam = 0`, `lstsq(X[:, B], y)` -/
  ridge : List Nat → Nat → K
  /-- `lstsq(X[:, B], y)` -/
  lsq : List Nat → Nat → K
  /-- multiplication by `Mreg[i]` (identity without normalisation) -/
  scale : Nat → K → K

/-- `w[B] = vals` where the values come from a regression on the columns `B`. -/
def assign {K : Type} (B : List Nat) (f : Nat → K) (w : Nat → K) : Nat → K := fun i => if i ∈ B then f i else w i

/-- What the loop of `STRidge` ends with: an early `return w`, or the support and the current coefficients. -/
inductive StrRes (K : Type) where
  | early (w : Nat → K)
  | done (B : List Nat) (w : Nat → K)

/-- PDE_find.py:185-205 (ga_utils.py:113-133): the loop; `j` counts iterations, `n` remain. -/
def strLoop {K : Type} (t : Thr K) (f : Fits K) : Nat → Nat → Nat → List Nat → (Nat → K) → StrRes K
  | _, 0, _, B, w => .done B w
  | j, n + 1, rel, B, w =>
    let small := (List.range f.d).filter fun i => t.below (w i)
    let nb := (List.range f.d).filter fun i => !small.contains i
    if rel = nb.length then .done B w
    else if nb.length = 0 then if j = 0 then .early w else .done B w
    else strLoop t f (j + 1) n nb.length nb (assign nb (f.ridge nb) (assign small (fun _ => t.zero) w))

/-- PDE_find.py:157-210 `STRidge` (`len(biginds) > 0` in line 207; ga_utils.py:135 writes `biginds != []`, which is the
same for lists; for the array of line 183 numpy compares element-wise, see DESIGN.md). -/
def strRidge {K : Type} (t : Thr K) (f : Fits K) (maxit : Nat) : Nat → K :=
  match strLoop t f 0 maxit f.d ((List.range f.d).filter fun i => t.above (f.start i)) f.start with
  | .early w => w
  | .done B w => fun i => f.scale i (if B.length > 0 then assign B (f.lsq B) w i else w i)

/-! ## The tolerance search -/

/-- Scores (`AIC`, or error plus penalty) and the search's arithmetic on tolerances. -/
structure Search (W T S : Type) where
  /-- `np.linalg.lstsq(TrainR, TrainY)` -/
  dense : W
  /-- `STRidge(R, Ut, lam, STR_iters, tol)` -/
  str : T → W
  score : W → S
  le : S → S → Bool
  /-- `tol + d_tol` -/
  up : T → T → T
  /-- `max([0, tol - 2 d_tol])`, `2 d_tol / (maxit - iter)`, `tol + d_tol`: new tolerance and new step -/
  down : Nat → T → T → T × T

/-- PDE_find.py:119-139 (ga_utils.py:63-79): the loop; also returns the list of all evaluated coefficient vectors. -/
def trainLoop {W T S : Type} (s : Search W T S) : Nat → Nat → T → T → W → S → W × S × List W
  | _, 0, _, _, wb, sb => (wb, sb, [])
  | it, n + 1, tol, dtol, wb, sb =>
    let w := s.str tol
    if s.le (s.score w) sb then
      let r := trainLoop s (it + 1) n (s.up tol dtol) dtol w (s.score w)
      (r.1, r.2.1, w :: r.2.2)
    else
      let r := trainLoop s (it + 1) n (s.down it tol dtol).1 (s.down it tol dtol).2 wb sb
      (r.1, r.2.1, w :: r.2.2)

/-- PDE_find.py:77-154 `Train` (`sparse='STR'`; the mse and data error it also returns are recomputed from the returned
coefficients) and ga_utils.py:12-83 `TrainSTRidge`: coefficients, score, and (ghost) everything evaluated. -/
def train {W T S : Type} (s : Search W T S) (maxit : Nat) (dtol : T) : W × S × List W :=
  let r := trainLoop s 0 maxit dtol dtol s.dense (s.score s.dense)
  (r.1, r.2.1, s.dense :: r.2.2)

end Verif.Sga
