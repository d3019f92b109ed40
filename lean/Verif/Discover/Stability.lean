import Verif.Discover.Pinn
import Verif.Discover.Select
/-!
# Selection by stability (searcher.py:275-302, utils.py:31-36, task/pde/pde_pinn.py:377-433)

Exact arithmetic; a NaN is `none`.  `lstsq`, the coefficient of variation of a list of coefficients and the random draws are arguments.
-/
namespace Verif.Discover.Stability
open Verif.Discover.Pinn

/-- A row of the regression: values of the terms and of the left-hand side. -/
abbrev Row := List ℚ × ℚ

/-- `row · w` -/
def dot (r w : List ℚ) : ℚ := (List.zipWith (· * ·) r w).sum

/-- `a[index]` -/
def rowsAt (d : List Row) (index : List Nat) : List Row := index.map fun k => (d[k]?).getD ([], 0)

/-- pde_pinn.py:426-427: mean square error of coefficients (NaN without rows). -/
def mseOf (d : List Row) (w : List ℚ) : Fl :=
  if d = [] then none else some ((d.map fun r => (r.2 - dot r.1 w) ^ 2).sum / d.length)

/-- pde_pinn.py:395-410 `calculate_cv`: coefficients of each of the inner resamples, then the mean over the terms of the coefficient of
variation; `cv` maps the list of coefficient vectors to that mean. -/
def cvOf (lstsq : List Row → List ℚ) (cv : List (List ℚ) → Fl) (d : List Row) (inner : List (List Nat)) : Fl :=
  cv (inner.map fun i => lstsq (rowsAt d i))

/-- pde_pinn.py:377-433 `cal_mse_cv`; `n` is the number of left-hand sides, `draws` the outer and inner random indices.
`none`: ValueError (the terms have another number of rows). -/
def calMseCv (lstsq : List Row → List ℚ) (cv : List (List ℚ) → Fl) (n : Nat) (d : List Row) (draws : List (List Nat × List (List Nat))) :
    Option (List Fl × List Fl) :=
  if n ≠ d.length then none
  else some (draws.map fun s => mseOf (rowsAt d s.1) (lstsq (rowsAt d s.1)), draws.map fun s => cvOf lstsq cv (rowsAt d s.1) s.2)

/-- `a * b` -/
def times : Fl → Fl → Fl
  | some a, some b => some (a * b)
  | _, _ => none

/-- utils.py:31-35 `criterion(type='multiply')` for one candidate. -/
def criterion (mse cv : List Fl) : List Fl := List.zipWith times mse cv

/-- Whether the first comes before the second in `np.argsort`: smaller, NaN at the end. -/
def before : Fl → Fl → Bool
  | some a, some b => decide (a < b)
  | some _, none => true
  | none, _ => false

/-- The value of candidate `i` in resample `j`. -/
def cell (m : List (List Fl)) (i j : Nat) : Fl := (((m[i]?).getD [])[j]?).getD none

/-- searcher.py:291 `np.argsort(mse_cv, axis=0)[0]`: the candidate ranked first in resample `j` (among equal ones the first). -/
def firstAt (m : List (List Fl)) (j : Nat) : Nat :=
  (List.range m.length).foldl (fun b k => if before (cell m k j) (cell m b j) then k else b) 0

/-- searcher.py:292 `np.bincount(ranking)`: the number of first places of candidate `i` in `n` resamples. -/
def places (m : List (List Fl)) (n i : Nat) : Nat := ((List.range n).filter fun j => firstAt m j == i).length

/-- searcher.py:290-296: the candidate with the most first places (0 if there are no resamples). -/
def vote (m : List (List Fl)) (n : Nat) : Nat :=
  (List.range m.length).foldl (fun b k => if places m n b < places m n k then k else b) 0

/-- The test for duplicates on normalised errors (ga_utils.py:216): a NaN is not a duplicate. -/
def sameErr : Fl → Fl → Bool
  | some a, some b => decide (|a - b| < 1 / 100000)
  | _, _ => false

/-- searcher.py:275-299: the program reported as best after the search; `queue` are the programs of the priority queue in order, `best` the
program with the highest reward, `sel` is `stability_selection`, `n` the number of resamples.  `none`: an exception. -/
def select {P : Type} (len : P → Nat) (nmse : P → Fl) (test : P → Option (List Fl × List Fl)) (sel n : Nat) (queue : List P) (best : P) : Option P :=
  if sel = 0 then some best
  else match dropDuplicates sameErr (dEntries len queue (queue.map nmse)) with
    | none => none
    | some [] => some best
    | some (c :: cs) =>
      match ((c :: cs).take sel).mapM fun e => test e.tok with
      | none => none
      | some ts => (((c :: cs)[vote (ts.map fun t => criterion t.1 t.2) n]?).map DEntry.tok)

end Verif.Discover.Stability
