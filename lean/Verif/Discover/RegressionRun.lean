import Verif.Discover.Search
import Verif.Discover.Regression
import Verif.Discover.RegressionMetric
/-!
# A whole run of symbolic regression (kd/model/kd_discover_regression.py:84-113 with searcher.py:252-327)

`fit(X, y)` searches with the reward of regression.py:86-91 and reports the numbers of the best program; `predict` evaluates that program.  The parts are those of
Discover/Search.lean (sampling, cache, best program) and Discover/Regression.lean (constants, execution, report).  No selection by stability
(config_regression.json:49) and no reward noise.
-/
namespace Verif.Discover.RegressionRun
open Verif.Discover Verif.Discover.Search Verif.Discover.Regression

variable {p : Nat}

/-- regression.py:75 and 86-113: the task for a table and its targets, with the penalty `coeff` per token (66-68).  The optimiser (const.py:83-87), numpy's
floating-point errors and the number that stands for infinity are arbitrary. -/
noncomputable def task (coeff inf : ℝ) (X : Table p ℝ) (y : List ℝ) (opt : (k : Nat) → ((Fin k → ℝ) → ℝ) → (Fin k → ℝ))
    (fpError : List (Item ℝ) → Table p ℝ → Bool) : Task p ℝ :=
  ⟨X, y, RegressionMetric.metric coeff, Reward.mse, 0, inf, opt, fpError⟩

/-- program.py:610-622 `r_ridge` of the program with these tokens, after its constants were optimised (program.py:491-518); `item` is the library, `fl` turns
rewards into the numbers the searcher compares. -/
def score (fl : ℝ → Int) (T : Task p ℝ) (item : Nat → Item ℝ) (tokens : List Nat) : Score :=
  match onTrain T (optimise T (tokens.map item)) with
  | some ys => ⟨some (fl (T.metric T.y ys (tokens.map item).length)), false⟩
  | none => ⟨some (fl T.invalidReward), true⟩

/-- Why `fit` fails: in the search, because there is no best program (searcher.py:303), or in the report. -/
inductive Failure where
  | search | nothing | report (e : Err)

/-- kd_discover_regression.py:84-113 `fit` after the validation of the inputs. -/
def fit (v : Searcher.Env) (lib : Lib) (fl : ℝ → Int) (T : Task p ℝ) (item : Nat → Item ℝ) (dss : List (List Draw)) : Except Failure (FitResult ℝ) :=
  match search v lib (score fl T item) ({}, {}) dss with
  | none => .error .search
  | some (c, s) => match s.bestP with
    | none => .error .nothing
    | some (_, o) => match report T ((Prog.fresh (((c.objs[o]?.map (·.tokens)).getD []).map item)).acts T [.reward]) with
      | .ok F => .ok F
      | .error e => .error (.report e)

end Verif.Discover.RegressionRun
