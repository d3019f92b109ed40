import Mathlib.Data.List.Sort
import Mathlib.Algebra.Field.Rat
import Verif.Discover.Library

/-!
# EqGPT sentences: vocabulary, sampling, duplicate removal and display

Models `kd/model/eqgpt/dict_datas_0725.json`, `kd/model/eqgpt/gpt_model.py`
(`GPT.step`), `kd/model/eqgpt/continue_train_GPT_all.py` (`delete_duplicate`,
`get_mask_invalid`) and the sentence handling of `kd/model/kd_eqgpt.py`
(sampling loop, `_prepare_train_data`, `_format_results`).
-/

namespace Verif.EqGpt

open Verif.Discover (hasSub)

/-- `id2word` of kd/model/eqgpt/dict_datas_0725.json (57 words; `word2id` is the
inverse table). -/
def id2word : List String :=
  ["<pad>", "E", "+", "*", "/", "S", "ut", "u", "ux", "uxx", "uxxt", "ut^2", "uxt", "utt",
   "ux^2", "uxxxx", "(uux)x", "uxxtt", "(u^4)xx", "u^2", "uxxx", "u^3", "x", "uyy", "(1/u)xx",
   "(u^-2*ux)x", "uxxxxx", "ut^3", "sqrt(u)", "sin(u)", "sinh(u)", "BiLaplace(u)", "uy",
   "Laplace(u)", "y", "x^2", "y^2", "uy^2", "uxy", "uz", "uzz", "Laplace(utt)", "(x+y)",
   "exp(x)", "uyyt", "sint", "sinx", "(uxx+ux/x)^2", "x^4", "sqrt(x)", "exp(-y)", "t", "uyyy",
   "(uux)t", "(uux)xx", "(u^3)xx", "(u(u^2)xx)xx"]

/-- The word with number `i` (`id2word[int(tok)]`). -/
def word (i : Nat) : String := (id2word[i]?).getD ""

/-- `word2id["E"]`. -/
def tE : Nat := 1
/-- `word2id["+"]`. -/
def tPlus : Nat := 2
/-- `word2id["/"]`. -/
def tDiv : Nat := 4
/-- `word2id["S"]`. -/
def tS : Nat := 5
/-- `word2id["ut"]`. -/
def tUt : Nat := 6

/-- `sentence[::2]`. -/
def evens : List Nat → List Nat
  | [] => []
  | [a] => [a]
  | a :: _ :: r => a :: evens r

/-- `sentence[1::2]`. -/
def odds (l : List Nat) : List Nat := evens l.tail

/-- `if sentence[-1]==1: sentence.pop(-1)`
(kd/model/eqgpt/continue_train_GPT_all.py:178-179).  This is also the lasting effect
of `delete_duplicate` on the list object passed in. -/
def dropE (s : List Nat) : List Nat := if s.getLast? = some tE then s.dropLast else s

/-- The loop splitting a sentence at `+`
(kd/model/eqgpt/continue_train_GPT_all.py:180-186). -/
def splitLoop : List Nat → List Nat → List (List Nat) → List (List Nat)
  | [], temp, all => all ++ [temp]
  | w :: ws, temp, all =>
      if w ≠ tPlus then splitLoop ws (temp ++ [w]) all
      else splitLoop ws [] (all ++ [temp])

/-- `sorted(sentence[::2])`, what identifies a term
(kd/model/eqgpt/continue_train_GPT_all.py:190). -/
def key (t : List Nat) : List Nat := (evens t).insertionSort (· ≤ ·)

/-- The loop dropping later terms with an already seen key
(kd/model/eqgpt/continue_train_GPT_all.py:187-192). -/
def dedupLoop : List (List Nat) → List (List Nat) → List (List Nat) → List (List Nat)
  | [], _, kept => kept
  | t :: ts, keys, kept =>
      if keys.contains (key t) then dedupLoop ts keys kept
      else dedupLoop ts (keys ++ [key t]) (kept ++ [t])

/-- `concise_sentence`: the kept terms joined by `+` and closed by `E`
(kd/model/eqgpt/continue_train_GPT_all.py:193-199). -/
def concise (kept : List (List Nat)) : List Nat :=
  (kept.flatMap (fun t => t ++ [tPlus])).dropLast ++ [tE]

/-- `delete_duplicate` (kd/model/eqgpt/continue_train_GPT_all.py:175-199); the list
passed in is changed to `dropE s`.  The empty list (IndexError) is not modelled. -/
def deleteDuplicate (s : List Nat) : List Nat :=
  concise (dedupLoop (splitLoop (dropE s) [] []) [] [])

/-- The body shared by `_prepare_train_data` and `_format_results`
(kd/model/kd_eqgpt.py:501-507 and 533-539): the sentence handed to the trainer and
to the display. -/
def trainSentence (s : List Nat) : List Nat :=
  let d := dropE (deleteDuplicate s)
  if d.contains tS then d else tS :: d ++ [tE]

/-- `"".join(vis[1:-1])` of `_format_results` (kd/model/kd_eqgpt.py:540-541). -/
def shown (s : List Nat) : String :=
  String.join (((trainSentence s).tail.dropLast).map word)

/-! ## Sampling -/

/-- One entry of `get_mask_invalid(variables)`
(kd/model/eqgpt/continue_train_GPT_all.py:343-373): `true` = allowed. -/
def maskWord (vars : List String) (w : String) : Bool :=
  let has (p : String) : Bool := hasSub p.toList w.toList
  !(has "t"
    || (!vars.contains "t" && has "t")
    || (!vars.contains "x" && has "x")
    || (!vars.contains "y" && (has "y" || has "Laplace" || has "BiLaplace" || has "Div"))
    || (!vars.contains "z" && (has "z" || has "Div")))

/-- `get_mask_invalid` (kd/model/eqgpt/continue_train_GPT_all.py:343-373). -/
def maskInvalid (vars : List String) : List Bool := id2word.map (maskWord vars)

/-- `prob_filter` before normalising (kd/model/eqgpt/gpt_model.py:300-309): the model's
probability of word `i`, zero when masked or of the wrong kind for the parity of the
sentence length. -/
def probFilter (p : Nat → Rat) (mask : List Bool) (len i : Nat) : Rat :=
  let q := p i * (if (mask[i]?).getD false then 1 else 0)
  if len % 2 = 0 then (if i = 0 ∨ 5 ≤ i then 0 else q) else (if i < 6 then 0 else q)

/-- `torch.sum(prob_filter)` (kd/model/eqgpt/gpt_model.py:306,309). -/
def total (p : Nat → Rat) (mask : List Bool) (len : Nat) : Rat :=
  ((List.range id2word.length).map (probFilter p mask len)).sum

/-- The words that can be drawn (kd/model/eqgpt/gpt_model.py:312-317): both the weighted
draw and the uniform draw over `np.where(prob_filter != 0)` return a word whose filtered
probability is not zero. -/
def candidates (p : Nat → Rat) (mask : List Bool) (len : Nat) : List Nat :=
  (List.range id2word.length).filter (fun i => probFilter p mask len i != 0)

/-- `GPT.step` (kd/model/eqgpt/gpt_model.py:292-319).  `p` is the softmax output,
`uniform` says whether `random.random()` exceeded 0.8, `k` which candidate the generator
drew.  When everything is masked the normalisation is 0/0: every entry is NaN, the
weighted draw raises (`none`), and the uniform draw sees `NaN != 0` and picks any word. -/
def step (p : Nat → Rat) (mask : List Bool) (len : Nat) (uniform : Bool) (k : Nat) :
    Option Nat :=
  if total p mask len = 0 then
    if uniform then (List.range id2word.length)[k]? else none
  else (candidates p mask len)[k]?

/-- What one call of `step` draws from: the softmax output for the current prefix, the
exploration flag, the index drawn. -/
structure Draw where
  p : Nat → Rat
  uniform : Bool
  k : Nat

/-- The sampling loop (kd/model/kd_eqgpt.py:194-198), `fuel = max_pos - 1 - len(sentence)`
iterations at most, stopping after `E`.  The softmax output may depend on the prefix in
any way. -/
def sampleLoop (mask : List Bool) (orc : List Nat → Draw) : Nat → List Nat → Option (List Nat)
  | 0, s => some s
  | fuel + 1, s =>
      let d := orc s
      match step d.p mask s.length d.uniform d.k with
      | none => none
      | some w => if w = tE then some (s ++ [w]) else sampleLoop mask orc fuel (s ++ [w])

/-- `max_pos` (kd/model/eqgpt/gpt_model.py:20). -/
def maxPos : Nat := 50

/-- One sampled sentence with the start symbol removed (kd/model/kd_eqgpt.py:193-200). -/
def sample (mask : List Bool) (orc : List Nat → Draw) : Option (List Nat) :=
  (sampleLoop mask orc (maxPos - 1 - 3) [tS, tUt, tPlus]).map List.tail

end Verif.EqGpt
