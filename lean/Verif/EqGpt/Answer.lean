import Verif.EqGpt.Sentence
/-!
# The text a language model answers with (kd/model/eqgpt/gpt_model.py:230-290)

`prob` is what the softmax gives for the sentence so far (rational, one entry per word); `draw` is the word `np.random.choice` returns for it.
-/
namespace Verif.EqGpt.Answer

/-- gpt_model.py:18-19: `max_pos`. -/
def maxPos : Nat := 50

/-- gpt_model.py:244-252: the entries that stay: after an odd number of words those of the words 1, 2 and 3, else those of the others. -/
def kept (p : List Rat) (len : Nat) : List Rat :=
  p.mapIdx fun i x => if decide (1 ≤ i ∧ i < 4) = decide (len % 2 = 1) then x else 0

/-- gpt_model.py:244-252: divided by their sum. -/
def weights (p : List Rat) (len : Nat) : List Rat := (kept p len).map fun x => x / (kept p len).sum

/-- gpt_model.py:230-262 `greedy_decoder`: the first argument is how many more words fit (`max_pos - len`). -/
def decodeFrom (draw : List Nat → Nat) : Nat → List Nat → List Nat
  | 0, s => s ++ [tE]
  | n + 1, s => let w := draw s; if w = tE then s ++ [w] else decodeFrom draw n (s ++ [w])

/-- `greedy_decoder` of a sentence. -/
def decode (draw : List Nat → Nat) (s : List Nat) : List Nat := decodeFrom draw (maxPos - s.length) s

/-- gpt_model.py:277-285: the positions of the word `E`. -/
def ends (out : List Nat) : List Nat := (List.range out.length).filter fun i => decide (out[i]? = some tE)

/-- gpt_model.py:267-290 `answer`: the words before the last `E` (to be joined); `none`: IndexError. -/
def answer (draw : List Nat → Nat) (s : List Nat) : Option (List Nat) :=
  match (ends (decode draw s)).getLast? with
  | none => none
  | some i => some ((decode draw s).take i)

end Verif.EqGpt.Answer
