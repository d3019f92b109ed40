import Mathlib.Analysis.SpecialFunctions.Exp
import Mathlib.Algebra.BigOperators.Group.Finset.Basic
import Mathlib.Algebra.Module.BigOperators
import Verif.EqGpt.Surrogate
/-!
# The GPT network of EqGPT (kd/model/eqgpt/gpt_model.py): masks, attention, layers, loss

Real numbers.  The learnt maps (embeddings, projections, layer norms, feed-forward nets) are arbitrary functions of one position; what is modelled
is how positions are combined.  Filling masked scores with -1e9 makes their softmax weight exactly 0 in float32 as soon as one score is not masked
(the exponential underflows), and makes all weights equal if all are masked; this is how the softmax is modelled.
-/
namespace Verif.EqGpt.Gpt
open Finset
noncomputable section

variable {E V L : Type} [AddCommGroup V] [Module ℝ V]

/-- gpt_model.py:64-86, 188-200: is position `j` masked for position `i`?  The padding mask (word 0) or the strict upper triangle. -/
def masked (seq : List Nat) (i j : Nat) : Bool := seq.getD j 0 == 0 || decide (i < j)

/-- gpt_model.py:89-106 `ScaledDotProductAttention` for one position `i` of `n`, with the scores and values of all positions. -/
def attend (n : Nat) (mask : Nat → Bool) (score : Nat → ℝ) (val : Nat → V) : V :=
  if (List.range n).all mask then ∑ j ∈ range n, (1 / (n : ℝ)) • val j
  else ∑ j ∈ range n, ((if mask j then 0 else Real.exp (score j)) / ∑ k ∈ range n, (if mask k then 0 else Real.exp (score k))) • val j

/-- One head: the score of a pair of positions (`W_Q`, `W_K`, scaling) and the value of a position (`W_V`). -/
structure Head (E V : Type) where
  score : E → E → ℝ
  val : E → V

/-- One layer: its heads, and what is done with a position and the heads' results for it (`fc`, residual, layer norms, feed-forward net). -/
structure Layer (E V : Type) where
  heads : List (Head E V)
  finish : E → List V → E

/-- gpt_model.py:118-140, 169-178 `DecoderLayer.forward`: the new state of every position. -/
def Layer.apply (l : Layer E V) (seq : List Nat) (x : Nat → E) (i : Nat) : E :=
  l.finish (x i) (l.heads.map fun h => attend seq.length (masked seq i) (fun j => h.score (x i) (x j)) (fun j => h.val (x j)))

/-- gpt_model.py:201-209: the layers, one after the other. -/
def runLayers (seq : List Nat) : List (Layer E V) → (Nat → E) → Nat → E
  | [], x => x
  | l :: ls, x => runLayers seq ls (l.apply seq x)

/-- The network: embedding of a word at a position, layers, projection, number of positions. -/
structure Net (E V L : Type) where
  embed : Nat → Nat → E
  layers : List (Layer E V)
  proj : E → L
  maxPos : Nat

/-- gpt_model.py:188-228 `GPT.forward` for one sentence: the logits at every position; `none`: IndexError (too many positions). -/
def Net.logits (g : Net E V L) (seq : List Nat) : Option (List L) :=
  if g.maxPos < seq.length then none
  else some ((List.range seq.length).map fun i => g.proj (runLayers seq g.layers (fun i => g.embed (seq.getD i 0) i) i))

/-- gpt_model.py:292-299: what `step` draws the next word from: the logits at the last position. -/
def Net.next (g : Net E V L) (seq : List Nat) : Option L := (g.logits seq).bind fun l => l.getLast?

/-- continue_train_GPT_all.py:104-116: what enters the loss (`CrossEntropyLoss(ignore_index=0)` of all rows together): the logits and the target of
every position with a target; `none`: IndexError. -/
def Net.lossTerms (g : Net E V L) (b : List (List Nat) × List (List Nat)) : Option (List (L × Nat)) :=
  (((b.1.zip b.2).mapM fun p => (g.logits p.1).map fun ls => (ls.zip p.2).filter fun q => q.2 != 0)).map List.flatten

end
end Verif.EqGpt.Gpt
