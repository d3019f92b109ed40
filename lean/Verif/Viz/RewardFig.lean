import Verif.Discover.Searcher
/-!
# The reward figures of DISCOVER

`discover_viz.py:67-104` `plot_evolution` (`plotter.py:87-108` draws the same curves), `plotter.py:110-141` `density_plot` (`discover_viz.py:30-40`,
`searcher.py:340-341`).  Rewards are whole numbers as in the model of the searcher (any linear order with a mean will do); figures are the curves handed to the plot
library.  Not modelled: colours and axes, the kernel density estimate, `plt.style`.
-/
namespace Verif.Viz.RewardFig
open Verif.Discover.Searcher

/-! ## What the searcher keeps for the figures -/

/-- searcher.py:188 `self.r_train.append(r_train)`: what an iteration appends – nothing if there was nothing to train on (searcher.py:163). -/
def trainLog (v : Env) (b : Batch) : List (List Int) :=
  if train v b.samples = [] then [] else [(train v b.samples).map (fun x => clip v.bound (r0 x)) ++ b.agg.map Prod.fst]

/-- searcher.py:187 `self.r_history.append(r_full_valid)` -/
def historyLog (v : Env) (b : Batch) : List (List Int) :=
  if train v b.samples = [] then [] else [(fullValid b.samples).map (clip v.bound) ++ b.agg.map Prod.fst]

/-- `model.searcher.r_train` after the iterations. -/
def rTrain (v : Env) (bs : List Batch) : List (List Int) := bs.flatMap (trainLog v)

/-- `model.searcher.r_history` after the iterations. -/
def rHistory (v : Env) (bs : List Batch) : List (List Int) := bs.flatMap (historyLog v)

/-! ## The figure of the rewards -/

/-- The curves: abscissae, best, maximum and mean (sum and number). -/
structure Curves where
  x : List Nat
  best : List Int
  maxima : List Int
  mean : List (Int × Nat)
deriving DecidableEq

/-- `np.maximum.accumulate` behind a value. -/
def accMax (m : Int) : List Int → List Int
  | [] => []
  | x :: r => max m x :: accMax (max m x) r

/-- `np.maximum.accumulate` -/
def accumulateMax : List Int → List Int
  | [] => []
  | x :: r => x :: accMax x r

/-- discover_viz.py:80-91 (`none`: `np.max` of an empty array raises) -/
def evolution (rewards : List (List Int)) : Option Curves :=
  (rewards.mapM npMax).map fun ms => ⟨(List.range rewards.length).map (· + 1), accumulateMax ms, ms, rewards.map fun r => (r.sum, r.length)⟩

/-! ## The density figure -/

/-- Python list indexing. -/
def pyGet {α : Type} (l : List α) (i : Int) : Option α :=
  if 0 ≤ i then l[i.toNat]? else if -(l.length : Int) ≤ i then l[(i + l.length).toNat]? else none

/-- plotter.py:134-137: the curve of the `i`-th epoch asked for, in the `i`-th of four colours (`none`: IndexError). -/
def densityCurve (history : List (List Int)) (i : Nat) (e : Int) : Option (List Int) :=
  match pyGet history e with
  | none => none
  | some r => if i < 4 then some r else none

/-- plotter.py:110-141: the samples whose densities are drawn, in order (`none`: an IndexError). -/
def density (history : List (List Int)) (epoches : Option (List Int)) : Option (List (List Int)) :=
  match epoches with
  | none => some history
  | some es => es.zipIdx.mapM fun p => densityCurve history p.2 p.1

end Verif.Viz.RewardFig
