import Mathlib.Algebra.Order.Ring.Rat
import Mathlib.Algebra.Field.Rat
import Mathlib.Tactic.Positivity
import Mathlib.Tactic.NormNum
import Verif.EqGpt.Answer
/-!
# C212: the text a language model answers with
-/
namespace Verif.EqGpt.Answer

/-! ## Specification -/

/-- The words drawn have a positive weight. -/
def Drawn (prob : List Nat → List Rat) (draw : List Nat → Nat) : Prop :=
  ∀ s, s.length < 50 → ∃ x, (weights (prob s) s.length)[draw s]? = some x ∧ 0 < x

/-! ## Proofs -/

private theorem sum_div (c : Rat) : ∀ l : List Rat, (l.map fun x => x / c).sum = l.sum / c
  | [] => by simp
  | a :: l => by rw [List.map_cons, List.sum_cons, sum_div c l, List.sum_cons, add_div]

/-- The weights the next word is drawn with sum to one and keep the proportions of the words that stay. -/
theorem C212_weights (p : List Rat) (len : Nat) (h : (kept p len).sum ≠ 0) :
    (weights p len).sum = 1 ∧ (weights p len).length = p.length ∧
    ∃ c, ∀ (i : Nat) x, p[i]? = some x → (weights p len)[i]? = some (if (i = 1 ∨ i = 2 ∨ i = 3) ↔ len % 2 = 1 then c * x else 0) := by
  refine ⟨by rw [weights, sum_div, div_self h], by simp [weights, kept], ((kept p len).sum)⁻¹, fun i x hx => ?_⟩
  have hi : (1 ≤ i ∧ i < 4) ↔ (i = 1 ∨ i = 2 ∨ i = 3) := by omega
  simp only [weights, List.getElem?_map, kept, List.getElem?_mapIdx, hx, Option.map_some, Option.some.injEq, decide_eq_decide, hi]
  split
  · rw [div_eq_inv_mul]
  · rw [zero_div]

private theorem kind {prob : List Nat → List Rat} {draw : List Nat → Nat} (hd : Drawn prob draw) (s : List Nat) (hs : s.length < 50) :
    (draw s = 1 ∨ draw s = 2 ∨ draw s = 3) ↔ s.length % 2 = 1 := by
  obtain ⟨x, hx, hp⟩ := hd s hs
  by_contra hn
  have hi : ¬ ((1 ≤ draw s ∧ draw s < 4) ↔ s.length % 2 = 1) := by omega
  simp only [weights, List.getElem?_map, kept, List.getElem?_mapIdx, Option.map_eq_some_iff, decide_eq_decide] at hx
  obtain ⟨y, ⟨z, _, hy⟩, hxy⟩ := hx
  rw [if_neg hi] at hy
  rw [← hxy, ← hy, zero_div] at hp
  exact absurd hp (lt_irrefl _)

private theorem decode_shape (draw : List Nat → Nat) : ∀ (n : Nat) (s : List Nat),
    ∃ m, decodeFrom draw n s = s ++ m ++ [tE] ∧ m.length ≤ n ∧ tE ∉ m ∧
      ∀ a w b, m = a ++ w :: b → w = draw (s ++ a)
  | 0, s => ⟨[], by simp [decodeFrom]⟩
  | n + 1, s => by
    by_cases h : draw s = tE
    · exact ⟨[], by simp [decodeFrom, h]⟩
    · obtain ⟨m, h1, h2, h3, h4⟩ := decode_shape draw n (s ++ [draw s])
      refine ⟨draw s :: m, by simp [decodeFrom, h, h1], by simpa using h2, by simp [h3, Ne.symm h], fun a w b hab => ?_⟩
      cases a with
      | nil => rw [List.nil_append, List.cons.injEq] at hab; simp [← hab.1]
      | cons x a =>
        rw [List.cons_append, List.cons.injEq] at hab
        have := h4 a w b hab.2
        rw [this, ← hab.1]
        simp

/-- The decoder stops: it adds words to the sentence until `E` or until there are 50, and then the word `E`, the only one added; every word added
after an odd number of words is `+` or `*`, every one added after an even number is none of these. -/
theorem C212_decode (prob : List Nat → List Rat) (draw : List Nat → Nat) (hd : Drawn prob draw) (s : List Nat) :
    ∃ m, decode draw s = s ++ m ++ [1] ∧ (s.length ≤ 50 → (s ++ m).length ≤ 50) ∧ 1 ∉ m ∧
      ∀ a w b, m = a ++ w :: b → (w = 2 ∨ w = 3 ↔ (s ++ a).length % 2 = 1) := by
  obtain ⟨m, h1, h2, h3, h4⟩ := decode_shape draw (maxPos - s.length) s
  unfold maxPos at h2
  refine ⟨m, h1, fun h => by simp only [List.length_append]; omega, h3, fun a w b hab => ?_⟩
  have hlen : (s ++ a).length < 50 := by
    have := congrArg List.length hab
    simp only [List.length_append, List.length_cons] at this ⊢
    omega
  have hk := kind hd (s ++ a) hlen
  have hw := h4 a w b hab
  have h1 : w ≠ 1 := by
    rintro rfl
    exact h3 (by rw [hab]; simp [tE])
  rw [← hk, ← hw]
  omega

/-- The answer is the sentence with the words added, without the closing `E`. -/
theorem C212_answer_partial (draw : List Nat → Nat) (s : List Nat) :
    ∃ m, decode draw s = s ++ m ++ [1] ∧ answer draw s = some (s ++ m) := by
  obtain ⟨m, h1, _⟩ := decode_shape draw (maxPos - s.length) s
  refine ⟨m, h1, ?_⟩
  have h1' : decode draw s = (s ++ m) ++ [tE] := h1
  have he : (ends (decode draw s)).getLast? = some (s ++ m).length := by
    rw [h1', ends, List.length_append, List.length_singleton, List.range_succ, List.filter_append]
    simp
  rw [answer, he, h1']
  simp only [List.take_left']

/-- The decoder is of an older vocabulary, without `/` and `S` and with the words starting at 4: for a sentence with the start word `S`, as
the search uses it, the kinds are exchanged: `+` is allowed at once after `S`, the word `ut` (which `step` draws there) has weight 0,
and a quotient sign is allowed in the place of a word. -/
theorem C212_start_counterexample (prob : List Nat → List Rat) (hp : ∀ s, (prob s).length = 7) (hpos : ∀ s, ∀ x ∈ prob s, 0 < x) :
    (∃ x, (weights (prob [5]) 1)[2]? = some x ∧ 0 < x) ∧ (weights (prob [5]) 1)[6]? = some 0 ∧
    ∃ x, (weights (prob [5, 2]) 2)[4]? = some x ∧ 0 < x := by
  have hlist : ∀ s, ∃ a b c d e f g, prob s = [a, b, c, d, e, f, g] := by
    intro s
    have := hp s
    match hs : prob s with
    | [a, b, c, d, e, f, g] => exact ⟨a, b, c, d, e, f, g, rfl⟩
    | [] => rw [hs] at this; simp at this
    | [_] => rw [hs] at this; simp at this
    | [_, _] => rw [hs] at this; simp at this
    | [_, _, _] => rw [hs] at this; simp at this
    | [_, _, _, _] => rw [hs] at this; simp at this
    | [_, _, _, _, _] => rw [hs] at this; simp at this
    | [_, _, _, _, _, _] => rw [hs] at this; simp at this
    | _ :: _ :: _ :: _ :: _ :: _ :: _ :: _ :: _ => rw [hs] at this; simp at this
  obtain ⟨a, b, c, d, e, f, g, h⟩ := hlist [5]
  obtain ⟨a', b', c', d', e', f', g', h'⟩ := hlist [5, 2]
  have hb := hpos [5] b (by rw [h]; simp)
  have hc := hpos [5] c (by rw [h]; simp)
  have hd := hpos [5] d (by rw [h]; simp)
  have ha' := hpos [5, 2] a' (by rw [h']; simp)
  have he' := hpos [5, 2] e' (by rw [h']; simp)
  have hf' := hpos [5, 2] f' (by rw [h']; simp)
  have hg' := hpos [5, 2] g' (by rw [h']; simp)
  refine ⟨⟨c / (b + (c + d)), ?_, by positivity⟩, ?_, ⟨e' / (a' + (e' + (f' + g'))), ?_, by positivity⟩⟩
  · simp [weights, kept, h]
  · simp [weights, kept, h]
  · simp [weights, kept, h']

/-- A case: the words 4 and 2 in turn, the end after three words; the draws are allowed for equal probabilities. -/
theorem C212_demo :
    let draw : List Nat → Nat := fun s => if s.length = 3 then 1 else if s.length % 2 = 1 then 2 else 4
    Drawn (fun _ => [1/7, 1/7, 1/7, 1/7, 1/7, 1/7, 1/7]) draw ∧ decode draw [4] = [4, 2, 4, 1] ∧ answer draw [4] = some [4, 2, 4] := by
  refine ⟨fun s hs => ?_, by decide +kernel, by decide +kernel⟩
  by_cases h : s.length % 2 = 1
  · refine ⟨1/3, ?_, by norm_num⟩
    by_cases h3 : s.length = 3
    · simp [weights, kept, h3]
      norm_num
    · simp [weights, kept, h3, h]
      norm_num
  · have h3 : ¬ s.length = 3 := by omega
    refine ⟨1/4, ?_, by norm_num⟩
    simp [weights, kept, h3, h]
    norm_num

end Verif.EqGpt.Answer
