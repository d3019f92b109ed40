import Mathlib.Analysis.SpecialFunctions.Log.Basic
import Mathlib.Analysis.Real.Sqrt
/-!
# Statistics helpers (kd/model/discover/utils.py, dso/variance.py)

Exact real numbers instead of floating point.
-/
namespace Verif.Discover.Stats

/-! ### Weighted quantile -/

/-- `np.cumsum`: the running sums, starting from `acc`. -/
def cumsum (acc : ℝ) : List ℝ → List ℝ
  | [] => []
  | w :: ws => (acc + w) :: cumsum (acc + w) ws

/-- `np.argmax(mask)`: the first position holding true; 0 if there is none. -/
def argmaxTrue (mask : List Bool) : Nat := (mask.findIdx? id).getD 0

/-- utils.py:189-214 `weighted_quantile`.  `order` is `np.argsort(values)`; `none`: an IndexError (empty input, or fewer weights
than values). -/
noncomputable def weightedQuantile (order : List Nat) (values weights : List ℝ) (q : ℝ) : Option ℝ :=
  match order.mapM (fun i => values[i]?), order.mapM (fun i => weights[i]?) with
  | some vs, some ws => vs[argmaxTrue ((cumsum 0 ws).map (fun c => decide (q ≤ c)))]?
  | _, _ => none

/-- variance.py:24-35: the weights of the remembered rewards `memory` and of `n` fresh samples. -/
noncomputable def combinedWeights (memory : List ℝ) (n : Nat) : List ℝ :=
  if n = 0 then memory.map (fun w => w / memory.sum)
  else memory ++ List.replicate n ((1 - memory.sum) / n)

/-! ### Entropy -/

/-- utils.py:218-237 `empirical_entropy` (`np.unique` sorts the labels, which does not change the sum). -/
noncomputable def empiricalEntropy {A : Type} [DecidableEq A] (labels : List A) : ℝ :=
  if labels.length ≤ 1 then 0
  else if labels.dedup.length ≤ 1 then 0
  else (labels.dedup.map (fun a => -(((labels.count a : ℝ) / labels.length) * Real.log ((labels.count a : ℝ) / labels.length)))).sum

/-! ### Errors of a prediction -/

/-- `np.mean` -/
noncomputable def mean (l : List ℝ) : ℝ := l.sum / l.length

/-- The sum of the squares of the differences of two columns. -/
def sse (a b : List ℝ) : ℝ := ((List.zip a b).map (fun p => (p.1 - p.2) ^ 2)).sum

/-- utils.py:90-94 `R2`; `none`: 0 in the denominator (NaN or minus infinity). -/
noncomputable def r2 (test pred : List ℝ) : Option ℝ :=
  let sst := (test.map (fun y => (y - mean test) ^ 2)).sum
  if sst = 0 then none else some (1 - sse test pred / sst)

/-- utils.py:96-98 `l2_error` for one column (for a 2-D array numpy would take the spectral norm); `none`: 0 in the denominator. -/
noncomputable def l2Error (test pred : List ℝ) : Option ℝ :=
  if Real.sqrt (test.map (· ^ 2)).sum = 0 then none
  else some (Real.sqrt (sse test pred) / Real.sqrt (test.map (· ^ 2)).sum)

/-- utils.py:107-118 `eval_result(y_pred, y_true)`: root mean square error and R². -/
noncomputable def evalResult (pred test : List ℝ) : ℝ × Option ℝ :=
  (Real.sqrt (sse test pred / test.length), r2 test pred)

end Verif.Discover.Stats
