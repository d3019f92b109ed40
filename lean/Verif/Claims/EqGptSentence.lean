import Mathlib.Data.List.Perm.Basic
import Mathlib.Algebra.BigOperators.Group.List.Basic
import Verif.EqGpt.Sentence

/-!
# C81 and C84: EqGPT sentences

C81: duplicate removal keeps the first of each term, and the displayed equation is the
evaluated one.  C84: sampled sentences are well formed.
-/

namespace Verif.Claims.EqGpt

open Verif.EqGpt

/-! ## Specification -/

/-- A sentence with these terms: the terms joined by `+`, then `E`. -/
def sentenceOf (terms : List (List Nat)) : List Nat := List.intercalate [2] terms ++ [1]

/-- The operands of a term `a op b op c …`: every other word. -/
def operands : List Nat → List Nat
  | [] => []
  | [a] => [a]
  | a :: _ :: r => a :: operands r

/-- Two terms with the same operands, in any order. -/
def SameOperands (s t : List Nat) : Prop := (operands s).Perm (operands t)

instance (s t : List Nat) : Decidable (SameOperands s t) := by
  unfold SameOperands; infer_instance

/-- The first occurrence of each term, in order. -/
def firsts : List (List Nat) → List (List Nat)
  | [] => []
  | t :: ts => t :: (firsts ts).filter (fun s => !decide (SameOperands t s))

/-- The text of a term. -/
def termText (t : List Nat) : String := String.join (t.map word)

/-! ## Splitting -/

private theorem evens_eq (l : List Nat) : evens l = operands l := by
  fun_induction operands l <;> simp_all [evens]

private theorem splitLoop_acc (s temp : List Nat) (all : List (List Nat)) :
    splitLoop s temp all = all ++ splitLoop s temp [] := by
  induction s generalizing temp all with
  | nil => simp [splitLoop]
  | cons w ws ih =>
      simp only [splitLoop]
      split
      · exact ih _ _
      · rw [ih _ (all ++ [temp]), ih _ ([] ++ [temp])]; simp

private theorem splitLoop_term (t rest temp : List Nat) (h : 2 ∉ t) :
    splitLoop (t ++ rest) temp [] = splitLoop rest (temp ++ t) [] := by
  induction t generalizing temp with
  | nil => simp
  | cons w t ih =>
      have hw : w ≠ 2 := fun hc => h (by simp [hc])
      simp only [List.cons_append, splitLoop, tPlus, ne_eq, hw, not_false_eq_true, if_true]
      rw [ih _ (fun hc => h (by simp [hc]))]
      simp

private theorem splitLoop_join (ts : List (List Nat)) (hne : ts ≠ []) (h : ∀ t ∈ ts, 2 ∉ t) :
    splitLoop (List.intercalate [2] ts) [] [] = ts := by
  induction ts with
  | nil => exact absurd rfl hne
  | cons t ts ih =>
      cases ts with
      | nil =>
          have := splitLoop_term t [] [] (h t (by simp))
          simpa [List.intercalate, splitLoop] using this
      | cons u us =>
          have e : List.intercalate [2] (t :: u :: us)
              = t ++ 2 :: List.intercalate [2] (u :: us) := by
            simp [List.intercalate]
          rw [e, splitLoop_term t _ [] (h t (by simp))]
          simp only [splitLoop, tPlus, ne_eq, not_true_eq_false, if_false, List.nil_append]
          rw [splitLoop_acc, ih (by simp) (fun s hs => h s (by simp [hs]))]
          simp

private theorem dropE_sentence (s : List Nat) : dropE (s ++ [1]) = s := by
  simp [dropE, tE]

/-! ## Duplicate removal -/

private theorem key_iff (s t : List Nat) : key s = key t ↔ SameOperands s t := by
  unfold key SameOperands
  rw [evens_eq, evens_eq]
  constructor
  · intro h
    have h1 := (List.perm_insertionSort (· ≤ ·) (operands s)).symm
    rw [h] at h1
    exact h1.trans (List.perm_insertionSort (· ≤ ·) (operands t))
  · intro h
    exact ((List.perm_insertionSort (· ≤ ·) _).trans
      (h.trans (List.perm_insertionSort (· ≤ ·) _).symm)).eq_of_pairwise'
      (List.pairwise_insertionSort _ _) (List.pairwise_insertionSort _ _)

private theorem dedupLoop_eq (ts : List (List Nat)) (kept : List (List Nat)) :
    dedupLoop ts (kept.map key) kept
      = kept ++ (firsts ts).filter (fun s => kept.all (fun k => !decide (SameOperands k s))) := by
  induction ts generalizing kept with
  | nil => simp [dedupLoop, firsts]
  | cons t ts ih =>
      simp only [dedupLoop, firsts]
      by_cases hc : (kept.map key).contains (key t) = true
      · rw [if_pos hc, ih]
        congr 1
        have hc' : ∃ k ∈ kept, SameOperands k t := by
          rw [List.contains_iff_mem, List.mem_map] at hc
          obtain ⟨k, hk, he⟩ := hc
          exact ⟨k, hk, (key_iff k t).1 he⟩
        obtain ⟨k, hk, hkt⟩ := hc'
        have hfalse : kept.all (fun k => !decide (SameOperands k t)) = false := by
          rw [List.all_eq_false]
          exact ⟨k, hk, by simp [hkt]⟩
        rw [List.filter_cons, if_neg (by rw [hfalse]; simp), List.filter_filter]
        refine List.filter_congr (fun s _ => ?_)
        by_cases hts : SameOperands t s
        · have : kept.all (fun k => !decide (SameOperands k s)) = false := by
            rw [List.all_eq_false]
            have hks : SameOperands k s := List.Perm.trans hkt hts
            exact ⟨k, hk, by simp [hks]⟩
          simp [this]
        · simp [hts]
      · rw [if_neg hc]
        have e : kept.map key ++ [key t] = (kept ++ [t]).map key := by simp
        rw [e, ih]
        have htrue : kept.all (fun k => !decide (SameOperands k t)) = true := by
          rw [List.all_eq_true]
          intro k hk
          simp only [Bool.not_eq_eq_eq_not, Bool.not_true, decide_eq_false_iff_not]
          intro hkt
          exact hc (by
            rw [List.contains_iff_mem]
            exact List.mem_map.2 ⟨k, hk, (key_iff k t).2 hkt⟩)
        rw [List.filter_cons, if_pos htrue, List.filter_filter]
        simp only [List.append_assoc, List.cons_append, List.nil_append]
        congr 2
        refine List.filter_congr (fun s _ => ?_)
        simp [List.all_append, Bool.and_comm]

private theorem concise_eq (ts : List (List Nat)) (hne : ts ≠ []) : concise ts = sentenceOf ts := by
  unfold concise sentenceOf
  congr 1
  induction ts with
  | nil => exact absurd rfl hne
  | cons t ts ih =>
      cases ts with
      | nil => simp [List.intercalate, tPlus]
      | cons u us =>
          have e : List.intercalate [2] (t :: u :: us)
              = t ++ [2] ++ List.intercalate [2] (u :: us) := by
            simp [List.intercalate]
          rw [e, ← ih (by simp), List.flatMap_cons, List.dropLast_append_of_ne_nil]
          · simp [tPlus]
          · simp

/-- **C81** `delete_duplicate` keeps, of the terms of any sentence, the first occurrence of
each collection of operands, in order, and closes the result with `E`; the same whether or
not the sentence still carries its final `E`. -/
theorem C81_first (terms : List (List Nat)) (hne : terms ≠ []) (hplus : ∀ t ∈ terms, 2 ∉ t)
    (hE : ∀ t ∈ terms, 1 ∉ t) :
    deleteDuplicate (sentenceOf terms) = sentenceOf (firsts terms) ∧
    deleteDuplicate (dropE (sentenceOf terms)) = sentenceOf (firsts terms) := by
  have hnf : firsts terms ≠ [] := by
    cases terms with
    | nil => exact absurd rfl hne
    | cons t ts => simp [firsts]
  have hd : dropE (sentenceOf terms) = List.intercalate [2] terms := dropE_sentence _
  have hdd : dropE (List.intercalate [2] terms) = List.intercalate [2] terms := by
    unfold dropE
    rw [if_neg]
    intro hc
    have hm : 1 ∈ List.intercalate [2] terms := List.mem_of_getLast? hc
    rw [List.intercalate] at hm
    obtain ⟨l, hl, h1⟩ := List.mem_flatten.1 hm
    have : l ∈ terms ∨ l = [2] := by
      clear hne hplus hE hnf hd hc hm h1
      induction terms with
      | nil => simp at hl
      | cons t ts ih =>
          cases ts with
          | nil => simp at hl; simp [hl]
          | cons u us =>
              simp only [List.intersperse_cons_cons, List.mem_cons] at hl
              rcases hl with rfl | rfl | hl
              · simp
              · simp
              · rcases ih (by simpa using hl) with h | h
                · left; simp at h; simp [h]
                · exact Or.inr h
    rcases this with h | h
    · exact hE l h h1
    · subst h; simp at h1
  have hded : dedupLoop terms [] [] = firsts terms := by
    have := dedupLoop_eq terms []
    simpa using this
  constructor
  · unfold deleteDuplicate
    rw [hd, splitLoop_join terms hne hplus, hded, concise_eq _ hnf]
  · unfold deleteDuplicate
    rw [hd, hdd, splitLoop_join terms hne hplus, hded, concise_eq _ hnf]

/-- The specification `firsts` says what it should: a sublist in the original order, no two
entries with the same operands, and every term represented by an entry that does not come
after it. -/
theorem firsts_spec (terms : List (List Nat)) :
    (firsts terms).Sublist terms ∧ (firsts terms).Pairwise (fun s t => ¬ SameOperands s t) ∧
    ∀ t ∈ terms, ∃ f ∈ firsts terms, SameOperands f t := by
  induction terms with
  | nil => simp [firsts]
  | cons t ts ih =>
      obtain ⟨h1, h2, h3⟩ := ih
      refine ⟨?_, ?_, ?_⟩
      · exact (List.filter_sublist.trans h1).cons_cons t
      · refine List.pairwise_cons.2 ⟨?_, h2.filter _⟩
        intro s hs
        have := (List.mem_filter.1 hs).2
        simpa using this
      · intro s hs
        rcases List.mem_cons.1 hs with rfl | hs
        · exact ⟨s, by simp [firsts], List.Perm.refl _⟩
        · obtain ⟨f, hf, hfs⟩ := h3 s hs
          by_cases htf : SameOperands t f
          · exact ⟨t, by simp [firsts], htf.trans hfs⟩
          · exact ⟨f, by simp [firsts, hf, htf], hfs⟩

private theorem firsts_mem (terms : List (List Nat)) : ∀ t ∈ firsts terms, t ∈ terms :=
  fun _ h => (firsts_spec terms).1.subset h

private theorem firsts_idem (ts : List (List Nat))
    (h : ts.Pairwise (fun s t => ¬ SameOperands s t)) : firsts ts = ts := by
  induction ts with
  | nil => rfl
  | cons t ts ih =>
      have hp := List.pairwise_cons.1 h
      simp only [firsts, ih hp.2]
      congr 1
      exact List.filter_eq_self.2 (fun s hs => by simpa using hp.1 s hs)

private theorem join_text (ts : List (List Nat)) :
    String.join ((List.intercalate [2] ts).map word) = String.intercalate "+" (ts.map termText) := by
  induction ts with
  | nil => simp [List.intercalate, String.join, String.intercalate]
  | cons t ts ih =>
      cases ts with
      | nil => simp [List.intercalate, termText]
      | cons u us =>
          have e : List.intercalate [2] (t :: u :: us)
              = t ++ [2] ++ List.intercalate [2] (u :: us) := by
            simp [List.intercalate]
          have h2 : String.join (List.map word [2]) = "+" := by decide
          have h3 : String.intercalate "+" (List.map termText (t :: u :: us))
              = termText t ++ "+" ++ String.intercalate "+" (List.map termText (u :: us)) := by
            rw [List.map_cons, String.intercalate_cons_of_ne_nil (by simp)]
          rw [e, List.map_append, List.map_append, String.join_append, String.join_append, ih, h2, h3]
          rfl

/-- **C81** What is displayed and what the network is trained on is the sentence that was
evaluated: `calculate_reward` evaluates the first occurrences of the sampled terms (and
removes the final `E` from the stored sentence), and from the stored sentence
`_format_results` prints exactly those terms separated by `+`, and `_prepare_train_data`
hands exactly those terms, between `S` and `E`, to the trainer. -/
theorem C81_shown (terms : List (List Nat)) (hne : terms ≠ []) (hplus : ∀ t ∈ terms, 2 ∉ t)
    (hE : ∀ t ∈ terms, 1 ∉ t) (hS : ∀ t ∈ terms, 5 ∉ t) :
    let stored := dropE (sentenceOf terms)
    deleteDuplicate (sentenceOf terms) = sentenceOf (firsts terms) ∧
    shown stored = String.intercalate "+" ((firsts terms).map termText) ∧
    trainSentence stored = 5 :: sentenceOf (firsts terms) := by
  obtain ⟨h1, h2⟩ := C81_first terms hne hplus hE
  have hns : 5 ∉ List.intercalate [2] (firsts terms) := by
    intro hm
    have key : ∀ ts : List (List Nat), (∀ t ∈ ts, 5 ∉ t) → 5 ∉ List.intercalate [2] ts := by
      intro ts
      induction ts with
      | nil => simp [List.intercalate]
      | cons t ts ih =>
          intro ht
          cases ts with
          | nil => simpa [List.intercalate] using ht t (by simp)
          | cons u us =>
              have e : List.intercalate [2] (t :: u :: us)
                  = t ++ [2] ++ List.intercalate [2] (u :: us) := by
                simp [List.intercalate]
              rw [e]
              simp only [List.mem_append, List.mem_singleton, not_or]
              exact ⟨⟨ht t (by simp), by omega⟩, ih (fun s hs => ht s (by simp [hs]))⟩
    exact key _ (fun t ht => hS t (firsts_mem terms t ht)) hm
  have htr : trainSentence (dropE (sentenceOf terms)) = 5 :: sentenceOf (firsts terms) := by
    unfold trainSentence
    rw [h2]
    simp only [sentenceOf, dropE_sentence, tS, tE]
    rw [if_neg (by rw [List.contains_iff_mem]; exact hns)]
    simp
  refine ⟨h1, ?_, htr⟩
  unfold shown
  rw [htr]
  simp only [List.tail_cons, sentenceOf, List.dropLast_concat]
  exact join_text _

/-- **C81** Removing duplicates twice changes nothing. -/
theorem C81_idempotent (terms : List (List Nat)) (hne : terms ≠ []) (hplus : ∀ t ∈ terms, 2 ∉ t)
    (hE : ∀ t ∈ terms, 1 ∉ t) :
    deleteDuplicate (deleteDuplicate (sentenceOf terms)) = deleteDuplicate (sentenceOf terms) := by
  rw [(C81_first terms hne hplus hE).1,
    (C81_first (firsts terms) (by cases terms <;> simp_all [firsts])
      (fun t ht => hplus t (firsts_mem _ t ht)) (fun t ht => hE t (firsts_mem _ t ht))).1,
    firsts_idem _ (firsts_spec terms).2.1]

/-- **C81** (partial: sentences without `/`).  Nothing is lost: with any values of the
words, the product each removed term stands for is the product of a term that is kept.
Missing: terms with `/`, see `C81_division_counterexample`. -/
theorem C81_nothing_lost_partial {M : Type} [CommMonoid M] (value : Nat → M)
    (terms : List (List Nat)) :
    ∀ t ∈ terms, ∃ f ∈ firsts terms,
      ((operands f).map value).prod = ((operands t).map value).prod := by
  intro t ht
  obtain ⟨f, hf, hs⟩ := (firsts_spec terms).2.2 t ht
  exact ⟨f, hf, (List.Perm.map value hs).prod_eq⟩

/-- Operators are ignored when terms are compared: in `ut + u*ux + u/ux` the quotient is
taken for a repetition of the product and removed, neither evaluated nor shown. -/
theorem C81_division_counterexample :
    deleteDuplicate (sentenceOf [[6], [7, 3, 8], [7, 4, 8]]) = sentenceOf [[6], [7, 3, 8]] ∧
    shown [6, 2, 7, 3, 8, 2, 7, 4, 8] = "ut+u*ux" := by
  decide +kernel

example : deleteDuplicate (sentenceOf [[6], [7, 3, 8], [9], [8, 3, 7]])
    = sentenceOf [[6], [7, 3, 8], [9]] := by decide +kernel

example : shown (dropE (sentenceOf [[6], [7, 3, 8], [9], [8, 3, 7]]))
    = String.intercalate "+" ((firsts [[6], [7, 3, 8], [9], [8, 3, 7]]).map termText) :=
  (C81_shown [[6], [7, 3, 8], [9], [8, 3, 7]] (by decide) (by decide) (by decide)
    (by decide)).2.1

example : (firsts [[6], [7, 3, 8], [9], [8, 3, 7]]).map termText = ["ut", "u*ux", "uxx"] := by
  decide +kernel

end Verif.Claims.EqGpt
