import Mathlib.Analysis.SpecialFunctions.Log.Basic
import Mathlib.Algebra.BigOperators.Group.Finset.Basic
/-!
# The policy's training loss (kd/model/discover/controller.py)
Real numbers for floats.  The network is a parameter: one row of outputs per step.  A prior is a real number or −∞ (`none`); a loss is a real number or not
finite (`none`: +∞ or NaN).
-/
namespace Verif.Discover.Policy
open Finset

/-- One step of one sequence: the network's outputs, the prior, and the token taken. -/
structure Step (n : Nat) where
  out : Fin n → ℝ
  prior : Fin n → Option ℝ
  action : Fin n

variable {n : Nat}

/-- controller.py:257, 335: `logits = cell_output + prior`. -/
def Step.logit (s : Step n) (j : Fin n) : Option ℝ := (s.prior j).map (s.out j + ·)

/-- `exp(logit)`, 0 for −∞. -/
noncomputable def Step.weight (s : Step n) (j : Fin n) : ℝ :=
  match s.logit j with
  | none => 0
  | some l => Real.exp l

noncomputable def Step.total (s : Step n) : ℝ := ∑ j, s.weight j

/-- controller.py:260, 336 `torch.softmax(logits)`, for a step with an allowed token. -/
noncomputable def Step.prob (s : Step n) (j : Fin n) : ℝ := s.weight j / s.total

/-- controller.py:337 `F.log_softmax(logits)`; `none` is −∞. -/
noncomputable def Step.logprob (s : Step n) (j : Fin n) : Option ℝ := (s.logit j).map (· - Real.log s.total)

/-- controller.py:325-327 `safe_cross_entropy`: `log q` is replaced by one where `p = 0`; `none` is +∞ (a token with `p ≠ 0` and `log q = −∞`). -/
noncomputable def safeCrossEntropy (p : Fin n → ℝ) (logq : Fin n → Option ℝ) : Option ℝ :=
  open Classical in
  if ∀ j, p j ≠ 0 → (logq j).isSome then some (-∑ j, p j * (if p j = 0 then 1 else (logq j).getD 0)) else none

/-- controller.py:346 `F.one_hot`. -/
def oneHot (a j : Fin n) : ℝ := if j = a then 1 else 0

/-- `softmax` of a row without allowed tokens is NaN. -/
noncomputable def Step.guard (s : Step n) (x : Option ℝ) : Option ℝ := open Classical in if s.total = 0 then none else x

/-- controller.py:348: per step. -/
noncomputable def Step.neglogp (s : Step n) : Option ℝ := s.guard (safeCrossEntropy (oneHot s.action) s.logprob)

/-- controller.py:365: per step. -/
noncomputable def Step.entropy (s : Step n) : Option ℝ := s.guard (safeCrossEntropy s.prob s.logprob)

/-- controller.py:343, 350, 364-366: the sum over time with the mask `t < length` (and a weight per step); a product with a non-finite number is not finite, also if the
mask is 0. -/
noncomputable def maskedSum (len : Nat) (w : Nat → ℝ) (xs : List (Option ℝ)) : Option ℝ :=
  if xs.all (·.isSome) then some (xs.mapIdx (fun t x => x.getD 0 * (w t * if t < len then 1 else 0))).sum else none

/-- A sequence of a batch: its steps (up to `max_length`), the length of its expression, its reward. -/
structure Sample (n : Nat) where
  steps : List (Step n)
  length : Nat
  reward : ℝ

/-- controller.py:330-367 `make_neglogp_and_entropy`. -/
noncomputable def Sample.neglogp (x : Sample n) : Option ℝ := maskedSum x.length (fun _ => 1) (x.steps.map Step.neglogp)
noncomputable def Sample.entropy (gamma : ℝ) (x : Sample n) : Option ℝ := maskedSum x.length (fun t => gamma ^ t) (x.steps.map Step.entropy)

/-- `torch.mean` of a list; not finite if an entry is not (or the list is empty). -/
noncomputable def mean (xs : List (Option ℝ)) : Option ℝ :=
  if xs.all (·.isSome) && !xs.isEmpty then some ((xs.map (·.getD 0)).sum / xs.length) else none

/-- The parameters of the loss (controller.py:137-160). -/
structure Params where
  entropyWeight : ℝ
  gamma : ℝ
  pqt : Bool
  pqtUsePg : Bool
  pqtWeight : ℝ

noncomputable def addLoss (a b : Option ℝ) : Option ℝ := a.bind fun x => b.map fun y => x + y

/-- controller.py:407-411: the entropy loss. -/
noncomputable def entropyLoss (P : Params) (batch : List (Sample n)) : Option ℝ :=
  (mean (batch.map (Sample.entropy P.gamma))).map (fun e => -P.entropyWeight * e)

/-- controller.py:416: the policy gradient loss; `b` is the baseline. -/
noncomputable def pgLoss (b : ℝ) (batch : List (Sample n)) : Option ℝ :=
  mean (batch.map fun x => x.neglogp.map (fun l => (x.reward - b) * l))

/-- controller.py:422-423: the loss on the samples from the memory. -/
noncomputable def pqtLoss (P : Params) (queue : List (Sample n)) : Option ℝ :=
  (mean (queue.map Sample.neglogp)).map (P.pqtWeight * ·)

/-- controller.py:413-419. -/
noncomputable def pgPart (P : Params) (b : ℝ) (batch : List (Sample n)) (l : Option ℝ) : Option ℝ :=
  if !P.pqt || (P.pqt && P.pqtUsePg) then addLoss l (pgLoss b batch) else l

/-- controller.py:421-424. -/
noncomputable def pqtPart (P : Params) (queue : List (Sample n)) (l : Option ℝ) : Option ℝ :=
  if P.pqt then addLoss l (pqtLoss P queue) else l

/-- controller.py:404-426 `train_step`, the loss that is differentiated. -/
noncomputable def loss (P : Params) (b : ℝ) (batch queue : List (Sample n)) : Option ℝ :=
  pqtPart P queue (pgPart P b batch (entropyLoss P batch))

end Verif.Discover.Policy
