import Verif.EqGpt.Board
import Verif.EqGpt.Reward
/-!
# Model of `KD_EqGPT.fit_pretrained` from the search loop on (kd/model/kd_eqgpt.py:177-247)

The pieces are those of `EqGpt/Sentence` (sampling, display), `EqGpt/Reward` (rewards, mask) and `EqGpt/Board` (top ten).  `W` are the states of the
network; `train` is the fine-tuning on the listed sentences.
-/
namespace Verif.EqGpt.Run
open Verif.EqGpt

/-- What a run starts from: the data (with the surrogates), the least-squares kernel, the size penalty, and `store`, the conversion of a reward
to an entry of a float tensor (kd_eqgpt.py:206 `all_reward[i] = reward`; `none` is NaN). -/
structure Setting (W α : Type) where
  solve : Solver
  pen : Nat → Rat
  cases : List Case
  vars : List String
  store : Val → Option α
  train : W → List (List Nat) → W

/-- The random part of one epoch: for every sample what each `step` draws from, given the network and the prefix, and the order in which
`torch.topk` returns the rewards. -/
structure Chance (W α : Type) where
  draws : List (W → List Nat → Draw)
  topk : List (Option α) → List Nat

/-- One scored candidate: the mask it was drawn with, the sentence, the stored reward. -/
structure Scored (α : Type) where
  mask : List Bool
  sentence : List Nat
  reward : Option α

variable {W α : Type} [LinearOrder α]

/-- kd_eqgpt.py:192-207: the samples of one epoch; `none` is an exception in `step`. -/
def samples (S : Setting W α) (w : W) : List (W → List Nat → Draw) → List Bool → Option (List (Scored α) × List Bool)
  | [], mask => some ([], mask)
  | d :: ds, mask =>
    match sample mask (d w) with
    | none => none
    | some s =>
      match samples S w ds (maskAfter S.cases mask s) with
      | none => none
      | some (rest, mask') => some (⟨mask, s, S.store (calcReward S.solve S.pen S.cases S.vars s)⟩ :: rest, mask')

/-- The epoch as the board sees it: `calculate_reward` has removed the final `E` of the listed sentence. -/
def asEpoch (topk : List (Option α) → List Nat) (l : List (Scored α)) : Epoch α (List Nat) :=
  ⟨l.map Scored.reward, l.map fun c => dropE c.sentence, topk (l.map Scored.reward)⟩

/-- The state of the loop. -/
structure St (W α : Type) where
  net : W
  mask : List Bool
  board : Option (Board α (List Nat))

/-- kd_eqgpt.py:188-235: one epoch. -/
def epoch (S : Setting W α) (st : St W α) (c : Chance W α) : Option (List (Scored α) × St W α) :=
  match samples S st.net c.draws st.mask with
  | none => none
  | some (l, mask) =>
    let b := update st.board (asEpoch c.topk l)
    some (l, ⟨S.train st.net (b.sents.map trainSentence), mask, some b⟩)

/-- kd_eqgpt.py:188-235: all epochs; the scored candidates of every epoch and the last state. -/
def epochs (S : Setting W α) : St W α → List (Chance W α) → Option (List (List (Scored α)) × St W α)
  | st, [] => some ([], st)
  | st, c :: cs =>
    match epoch S st c with
    | none => none
    | some (l, st') =>
      match epochs S st' cs with
      | none => none
      | some (ls, st'') => some (l :: ls, st'')

/-- kd_eqgpt.py:177-247: the search with its report: equations and rewards. -/
def search (S : Setting W α) (w : W) (cs : List (Chance W α)) : Option (List (List (Scored α)) × List String × List (Option α)) :=
  match epochs S ⟨w, maskInvalid S.vars, none⟩ cs with
  | none => none
  | some (ls, st) =>
    match st.board with
    | none => some (ls, [], [])
    | some b => some (ls, b.sents.map shown, b.awards)

end Verif.EqGpt.Run
