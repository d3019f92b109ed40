import Verif.Discover.Search
import Verif.Discover.Exec
import Verif.Discover.Terms
import Verif.Discover.Fit
import Verif.Discover.Reward
/-!
# The reward of a program from its tokens (kd/model/discover/program.py:610-622 `r_ridge`, task/pde/pde.py:159-170, stridge.py:391-458)

The models of rebuilding (C02), splitting (C18), fitting (C70) and reward (C72) one after the other (no placeholder constants, so `optimize_inner_constant` does
nothing).  Real numbers; `fl` is the rounding of the reward to a
float (in units of 2^-1074).
-/
namespace Verif.Discover.Recover
open Verif.Discover Verif.Discover.Search

/-- What a PDE task knows besides the library: settings, values of the terms, solver, left-hand side, penalty, thresholds. -/
structure Task where
  cfg : Fit.Cfg
  run : List String → Fit.TermVal ℝ
  lstsq : List (List ℝ) → List ℝ → Option (List ℝ)
  small : ℝ → Bool
  large : ℝ → Bool
  lhs : List ℝ
  lam : ℝ

/-- stridge.py:98-117, 315-350: the tree of the traversal and its terms, as lists of names. -/
def termsOf (lib : Lib) (tokens : List Nat) : Option (List (List String)) := do
  let t ← rebuild lib.arity tokens.length tokens
  let ts ← splitSum (fun i => isSumName (lib.name i)) (fun i => isSubName (lib.name i)) 1 t.1
  return ts.map fun p => p.2.preorder.map lib.name

/-- The fit of a program: coefficients and prediction (`none`: invalid). -/
noncomputable def fitOf (T : Task) (lib : Lib) (tokens : List Nat) : Option (Fit.Fitted ℝ) :=
  match termsOf lib tokens with
  | none => none
  | some ts =>
    match Fit.calculate T.small T.large T.lstsq T.cfg T.run (tokens.map lib.name) ts T.lhs with
    | some (.ok f) => some f
    | _ => none

/-- `p.r_ridge` and `p.invalid` with the metric `pde_reward` (invalid programs get 0). -/
noncomputable def programScore (fl : ℝ → Int) (T : Task) (lib : Lib) (tokens : List Nat) : Score :=
  match fitOf T lib tokens with
  | some f => ⟨some (fl (Reward.pdeReward T.lam T.lhs f.yHat f.w.length)), false⟩
  | none => ⟨some 0, true⟩

end Verif.Discover.Recover
