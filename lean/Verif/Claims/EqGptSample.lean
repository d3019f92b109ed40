import Mathlib.Algebra.Order.BigOperators.Group.List
import Mathlib.Algebra.Order.Field.Rat
import Verif.Claims.EqGptSentence
import Verif.EqGpt.Reward

/-!
# C84: sampled EqGPT sentences are well formed
-/

namespace Verif.Claims.EqGpt

open Verif.EqGpt

/-! ## Specification -/

/-- A word the sampler may use as an operand: not a control symbol, in the vocabulary, and
not masked. -/
def Operand (mask : List Bool) (w : Nat) : Prop := 6 ≤ w ∧ w < 57 ∧ mask[w]? = some true

/-- A complete term: operands separated by `*` (3) and `/` (4). -/
def WellTerm (mask : List Bool) : List Nat → Prop
  | [] => False
  | [a] => Operand mask a
  | a :: o :: r => Operand mask a ∧ (o = 3 ∨ o = 4) ∧ WellTerm mask r

/-- The beginning of a term that stops after an operator (or before the first operand). -/
def Fragment (mask : List Bool) : List Nat → Prop
  | [] => True
  | [_] => False
  | a :: o :: r => Operand mask a ∧ (o = 3 ∨ o = 4) ∧ Fragment mask r

/-- The network's probabilities are positive (softmax), and the mask leaves at least one
operand and one operator. -/
structure Live (mask : List Bool) (orc : List Nat → Draw) : Prop where
  positive : ∀ s i, 0 < (orc s).p i
  operand : ∃ a, Operand mask a
  operator : ∃ o, 1 ≤ o ∧ o ≤ 4 ∧ mask[o]? = some true

/-! ## One step -/

private theorem pf_nonneg (p : Nat → Rat) (mask : List Bool) (len i : Nat) (hp : ∀ i, 0 < p i) :
    0 ≤ probFilter p mask len i := by
  unfold probFilter
  have h1 : 0 ≤ p i * (if (mask[i]?).getD false = true then 1 else 0) := by
    split
    · simpa using le_of_lt (hp i)
    · simp
  simp only
  split <;> split <;> first | exact le_rfl | exact h1

private theorem total_pos (p : Nat → Rat) (mask : List Bool) (len i : Nat) (hp : ∀ i, 0 < p i)
    (hi : i < 57) (h : 0 < probFilter p mask len i) : total p mask len ≠ 0 := by
  unfold total
  intro hc
  have hall : ∀ x ∈ (List.range id2word.length).map (probFilter p mask len), 0 ≤ x := by
    intro x hx
    obtain ⟨j, _, rfl⟩ := List.mem_map.1 hx
    exact pf_nonneg p mask len j hp
  have hle := List.single_le_sum hall (probFilter p mask len i)
    (List.mem_map_of_mem (List.mem_range.2 hi))
  rw [hc] at hle
  exact absurd (lt_of_lt_of_le h hle) (lt_irrefl _)

private theorem step_mem (p : Nat → Rat) (mask : List Bool) (len : Nat) (u : Bool) (k w : Nat)
    (ht : total p mask len ≠ 0) (h : step p mask len u k = some w) :
    w < 57 ∧ probFilter p mask len w ≠ 0 := by
  unfold step at h
  rw [if_neg ht] at h
  have hm := List.mem_of_getElem? h
  unfold candidates at hm
  rw [List.mem_filter, List.mem_range] at hm
  exact ⟨hm.1, by simpa using hm.2⟩

private theorem step_operand (mask : List Bool) (orc : List Nat → Draw) (hl : Live mask orc)
    (s : List Nat) (hs : s.length % 2 = 1) (w : Nat)
    (h : step (orc s).p mask s.length (orc s).uniform (orc s).k = some w) : Operand mask w := by
  obtain ⟨a, ha⟩ := hl.operand
  have ht : total (orc s).p mask s.length ≠ 0 := by
    refine total_pos _ _ _ a (hl.positive s) ha.2.1 ?_
    unfold probFilter
    rw [if_neg (by omega), if_neg (by have := ha.1; omega), ha.2.2]
    simpa using hl.positive s a
  obtain ⟨h1, h2⟩ := step_mem _ _ _ _ _ _ ht h
  unfold probFilter at h2
  rw [if_neg (by omega)] at h2
  by_cases h6 : w < 6
  · rw [if_pos h6] at h2; exact absurd rfl h2
  · rw [if_neg h6] at h2
    refine ⟨by omega, h1, ?_⟩
    cases hm : mask[w]? with
    | none => rw [hm] at h2; simp at h2
    | some b => cases b <;> simp_all

private theorem step_operator (mask : List Bool) (orc : List Nat → Draw) (hl : Live mask orc)
    (s : List Nat) (hs : s.length % 2 = 0) (w : Nat)
    (h : step (orc s).p mask s.length (orc s).uniform (orc s).k = some w) : 1 ≤ w ∧ w ≤ 4 := by
  obtain ⟨o, ho⟩ := hl.operator
  have ht : total (orc s).p mask s.length ≠ 0 := by
    refine total_pos _ _ _ o (hl.positive s) (by omega) ?_
    unfold probFilter
    rw [if_pos hs, if_neg (by omega), ho.2.2]
    simpa using hl.positive s o
  obtain ⟨h1, h2⟩ := step_mem _ _ _ _ _ _ ht h
  unfold probFilter at h2
  rw [if_pos hs] at h2
  by_cases h6 : w = 0 ∨ 5 ≤ w
  · rw [if_pos h6] at h2; exact absurd rfl h2
  · omega

/-! ## The loop, two words at a time -/

private def flat (ps : List (Nat × Nat)) : List Nat := ps.flatMap (fun p => [p.1, p.2])

private theorem flat_length (ps : List (Nat × Nat)) : (flat ps).length = 2 * ps.length := by
  induction ps with
  | nil => rfl
  | cons p ps ih => simp only [flat, List.flatMap_cons, List.length_append, List.length_cons,
      List.length_nil] at ih ⊢; omega

private theorem loop_shape (mask : List Bool) (orc : List Nat → Draw) (hl : Live mask orc) :
    ∀ (m : Nat) (ps : List (Nat × Nat)) (r : List Nat),
      sampleLoop mask orc (2 * m) (5 :: flat ps) = some r →
      (∃ qs a, (∀ q ∈ qs, Operand mask q.1 ∧ 2 ≤ q.2 ∧ q.2 ≤ 4) ∧ Operand mask a ∧
          qs.length < m ∧ r = 5 :: flat (ps ++ qs) ++ [a, 1]) ∨
      (∃ qs, (∀ q ∈ qs, Operand mask q.1 ∧ 2 ≤ q.2 ∧ q.2 ≤ 4) ∧ qs.length = m ∧
          r = 5 :: flat (ps ++ qs)) := by
  intro m
  induction m with
  | zero =>
      intro ps r h
      simp only [sampleLoop, Option.some.injEq] at h
      exact Or.inr ⟨[], by simp, rfl, by simp [h]⟩
  | succ m ih =>
      intro ps r h
      have e : 2 * (m + 1) = 2 * m + 1 + 1 := by omega
      rw [e, sampleLoop] at h
      have hlen : (5 :: flat ps).length % 2 = 1 := by
        simp only [List.length_cons, flat_length]; omega
      cases hw : step (orc (5 :: flat ps)).p mask (5 :: flat ps).length
          (orc (5 :: flat ps)).uniform (orc (5 :: flat ps)).k with
      | none => rw [hw] at h; simp at h
      | some a =>
          rw [hw] at h
          have ha := step_operand mask orc hl _ hlen a hw
          have hna : ¬ a = tE := by have := ha.1; unfold tE; omega
          simp only at h
          rw [if_neg hna, sampleLoop] at h
          have hlen2 : (5 :: flat ps ++ [a]).length % 2 = 0 := by
            simp only [List.length_append, List.length_cons, flat_length, List.length_nil]; omega
          cases hw2 : step (orc (5 :: flat ps ++ [a])).p mask (5 :: flat ps ++ [a]).length
              (orc (5 :: flat ps ++ [a])).uniform (orc (5 :: flat ps ++ [a])).k with
          | none => rw [hw2] at h; simp at h
          | some o =>
              rw [hw2] at h
              have ho := step_operator mask orc hl _ hlen2 o hw2
              simp only at h
              by_cases h1 : o = tE
              · rw [if_pos h1] at h
                left
                refine ⟨[], a, by simp, ha, by simp, ?_⟩
                simp only [Option.some.injEq] at h
                rw [← h, h1]; simp [tE]
              · rw [if_neg h1] at h
                have e2 : 5 :: flat ps ++ [a] ++ [o] = 5 :: flat (ps ++ [(a, o)]) := by
                  simp [flat]
                rw [e2] at h
                rcases ih _ _ h with ⟨qs, b, h2, h3, h4, h5⟩ | ⟨qs, h2, h4, h5⟩
                · left
                  refine ⟨(a, o) :: qs, b, ?_, h3, by simp; omega, by rw [h5]; simp⟩
                  intro q hq
                  rcases List.mem_cons.1 hq with rfl | hq
                  · have : o ≠ 1 := h1
                    exact ⟨ha, by omega, by omega⟩
                  · exact h2 q hq
                · right
                  refine ⟨(a, o) :: qs, ?_, by simp; omega, by rw [h5]; simp⟩
                  intro q hq
                  rcases List.mem_cons.1 hq with rfl | hq
                  · have : o ≠ 1 := h1
                    exact ⟨ha, by omega, by omega⟩
                  · exact h2 q hq

private theorem inter_cons (t u : List Nat) (us : List (List Nat)) :
    List.intercalate [2] (t :: u :: us) = t ++ 2 :: List.intercalate [2] (u :: us) := by
  simp [List.intercalate]

private theorem inter_extend (a o : Nat) (t : List Nat) (ts : List (List Nat)) :
    List.intercalate [2] ((a :: o :: t) :: ts) = a :: o :: List.intercalate [2] (t :: ts) := by
  cases ts with
  | nil => simp [List.intercalate]
  | cons u us => rw [inter_cons, inter_cons]; simp

private theorem group_done (mask : List Bool) (qs : List (Nat × Nat)) (a : Nat)
    (hq : ∀ q ∈ qs, Operand mask q.1 ∧ 2 ≤ q.2 ∧ q.2 ≤ 4) (ha : Operand mask a) :
    ∃ ts, ts ≠ [] ∧ (∀ t ∈ ts, WellTerm mask t) ∧
      flat qs ++ [a] = List.intercalate [2] ts := by
  induction qs with
  | nil => exact ⟨[[a]], by simp, by simpa [WellTerm] using ha, by simp [flat, List.intercalate]⟩
  | cons q qs ih =>
      obtain ⟨ts, hne, hw, he⟩ := ih (fun x hx => hq x (by simp [hx]))
      obtain ⟨h1, h2, h3⟩ := hq q (by simp)
      cases ts with
      | nil => exact absurd rfl hne
      | cons t ts =>
          have hfl : flat (q :: qs) ++ [a] = q.1 :: q.2 :: (flat qs ++ [a]) := by simp [flat]
          by_cases h : q.2 = 2
          · refine ⟨[q.1] :: t :: ts, by simp, ?_, ?_⟩
            · intro x hx
              rcases List.mem_cons.1 hx with rfl | hx
              · simpa [WellTerm] using h1
              · exact hw x hx
            · rw [hfl, he, inter_cons, h]; simp
          · refine ⟨(q.1 :: q.2 :: t) :: ts, by simp, ?_, ?_⟩
            · intro x hx
              rcases List.mem_cons.1 hx with rfl | hx
              · exact ⟨h1, by omega, hw t (by simp)⟩
              · exact hw x (by simp [hx])
            · rw [hfl, he, inter_extend]

private theorem group_cut (mask : List Bool) (qs : List (Nat × Nat))
    (hq : ∀ q ∈ qs, Operand mask q.1 ∧ 2 ≤ q.2 ∧ q.2 ≤ 4) :
    ∃ ts frag, (∀ t ∈ ts, WellTerm mask t) ∧ Fragment mask frag ∧
      flat qs = List.intercalate [2] (ts ++ [frag]) := by
  induction qs with
  | nil => exact ⟨[], [], by simp, by simp [Fragment], by simp [flat, List.intercalate]⟩
  | cons q qs ih =>
      obtain ⟨ts, frag, hw, hf, he⟩ := ih (fun x hx => hq x (by simp [hx]))
      obtain ⟨h1, h2, h3⟩ := hq q (by simp)
      have hfl : flat (q :: qs) = q.1 :: q.2 :: flat qs := by simp [flat]
      by_cases h : q.2 = 2
      · refine ⟨[q.1] :: ts, frag, ?_, hf, ?_⟩
        · intro x hx
          rcases List.mem_cons.1 hx with rfl | hx
          · simpa [WellTerm] using h1
          · exact hw x hx
        · rw [hfl, he, h]
          cases ts with
          | nil => simp [List.intercalate]
          | cons u us => rw [List.cons_append, List.cons_append, List.cons_append, inter_cons]; simp
      · cases ts with
        | nil =>
            refine ⟨[], q.1 :: q.2 :: frag, by simp, ⟨h1, by omega, hf⟩, ?_⟩
            rw [hfl, he]
            simp [List.intercalate]
        | cons t ts =>
            refine ⟨(q.1 :: q.2 :: t) :: ts, frag, ?_, hf, ?_⟩
            · intro x hx
              rcases List.mem_cons.1 hx with rfl | hx
              · exact ⟨h1, by omega, hw t (by simp)⟩
              · exact hw x (by simp [hx])
            · rw [hfl, he, List.cons_append, List.cons_append, inter_extend]

/-! ## The claim -/

/-- **C84** (partial: at least one operand and one operator are not masked).  Whatever the
network's probabilities and the random draws, a sampled sentence is `ut` followed by
complete terms whose operands are all unmasked words of the vocabulary, joined by `+` and
closed by `E`, with at most 48 words; or it was cut off at 48 words after an operator, and
its last term is an incomplete fragment. -/
theorem C84_sentence_partial (mask : List Bool) (orc : List Nat → Draw) (s : List Nat)
    (hl : Live mask orc) (h : sample mask orc = some s) :
    s.length ≤ 48 ∧
    ((∃ terms, terms ≠ [] ∧ (∀ t ∈ terms, WellTerm mask t) ∧ s = sentenceOf ([6] :: terms)) ∨
     (∃ terms frag, (∀ t ∈ terms, WellTerm mask t) ∧ Fragment mask frag ∧ s.length = 48 ∧
        s = List.intercalate [2] ([6] :: (terms ++ [frag])))) := by
  unfold sample at h
  rw [Option.map_eq_some_iff] at h
  obtain ⟨r, hr, hs⟩ := h
  have e0 : [tS, tUt, tPlus] = 5 :: flat [(6, 2)] := by simp [flat, tS, tUt, tPlus]
  have e1 : maxPos - 1 - 3 = 2 * 23 := by decide
  rw [e0, e1] at hr
  rcases loop_shape mask orc hl 23 _ _ hr with ⟨qs, a, h2, h3, h4, h5⟩ | ⟨qs, h2, h4, h5⟩
  · obtain ⟨ts, hne, hw, he⟩ := group_done mask qs a h2 h3
    have hse : s = 6 :: 2 :: (flat qs ++ [a]) ++ [1] := by
      rw [← hs, h5]; simp [flat]
    constructor
    · rw [hse]
      simp only [List.length_append, List.length_cons, flat_length, List.length_nil]; omega
    · left
      refine ⟨ts, hne, hw, ?_⟩
      rw [hse, he]
      cases ts with
      | nil => exact absurd rfl hne
      | cons t ts => rw [sentenceOf, inter_cons]; simp
  · obtain ⟨ts, frag, hw, hf, he⟩ := group_cut mask qs h2
    have hse : s = 6 :: 2 :: flat qs := by
      rw [← hs, h5]; simp [flat]
    have hlen : s.length = 48 := by
      rw [hse]
      simp only [List.length_cons, flat_length]; omega
    refine ⟨by omega, Or.inr ⟨ts, frag, hw, hf, hlen, ?_⟩⟩
    rw [hse, he]
    cases ts with
    | nil => simp [List.intercalate]
    | cons t ts => rw [List.cons_append, inter_cons]; simp

theorem well_free (mask : List Bool) (t : List Nat) (h : WellTerm mask t) :
    (∀ w ∈ t, 3 ≤ w ∧ w ≠ 5) ∧ t.length % 2 = 1 := by
  induction t using WellTerm.induct with
  | case1 => exact absurd h (by simp [WellTerm])
  | case2 a =>
      simp only [WellTerm, Operand] at h
      exact ⟨by intro w hw; simp only [List.mem_singleton] at hw; omega, by simp⟩
  | case3 a o r ih =>
      obtain ⟨h1, h2, h3⟩ := h
      obtain ⟨i1, i2⟩ := ih h3
      refine ⟨?_, by simp only [List.length_cons]; omega⟩
      intro w hw
      simp only [List.mem_cons] at hw
      simp only [Operand] at h1
      rcases hw with rfl | rfl | hw
      · omega
      · omega
      · exact i1 w hw

private theorem frag_free (mask : List Bool) (t : List Nat) (h : Fragment mask t) :
    (∀ w ∈ t, 3 ≤ w ∧ w ≠ 5) ∧ t.length % 2 = 0 := by
  induction t using Fragment.induct with
  | case1 => simp
  | case2 => exact absurd h (by simp [Fragment])
  | case3 a o r ih =>
      obtain ⟨h1, h2, h3⟩ := h
      obtain ⟨i1, i2⟩ := ih h3
      refine ⟨?_, by simp only [List.length_cons]; omega⟩
      intro w hw
      simp only [List.mem_cons] at hw
      simp only [Operand] at h1
      rcases hw with rfl | rfl | hw
      · omega
      · omega
      · exact i1 w hw

private theorem evens_length (l : List Nat) : (evens l).length = (l.length + 1) / 2 := by
  fun_induction evens l with
  | case1 => rfl
  | case2 => simp
  | case3 a b r ih => simp only [List.length_cons, ih]; omega

private theorem odds_length (l : List Nat) : (odds l).length = l.length / 2 := by
  unfold odds
  rw [evens_length]
  cases l with
  | nil => rfl
  | cons a l => simp

private theorem inter_length (ts : List (List Nat)) (hne : ts ≠ []) :
    (sentenceOf ts).length = (ts.map (fun t => t.length + 1)).sum := by
  induction ts with
  | nil => exact absurd rfl hne
  | cons t ts ih =>
      cases ts with
      | nil => simp [sentenceOf, List.intercalate]
      | cons u us =>
          have := ih (by simp)
          simp only [sentenceOf, inter_cons, List.length_append, List.length_cons, List.length_nil,
            List.map_cons, List.sum_cons] at this ⊢
          omega

private theorem even_sum (ts : List (List Nat))
    (h : ∀ t ∈ ts, t.length % 2 = 1) : (ts.map (fun t => t.length + 1)).sum % 2 = 0 := by
  induction ts with
  | nil => rfl
  | cons t ts ih =>
      have h1 := h t (by simp)
      have h2 := ih (fun x hx => h x (by simp [hx]))
      simp only [List.map_cons, List.sum_cons]
      omega

private theorem firsts_append_one (ts : List (List Nat)) (f : List Nat) :
    firsts (ts ++ [f]) = firsts ts ∨ firsts (ts ++ [f]) = firsts ts ++ [f] := by
  induction ts with
  | nil => right; simp [firsts]
  | cons t ts ih =>
      simp only [List.cons_append, firsts]
      rcases ih with h | h
      · left; rw [h]
      · by_cases hs : SameOperands t f
        · left; rw [h, List.filter_append]; simp [hs]
        · right; rw [h, List.filter_append]; simp [hs]

/-- **C84** (partial, as above).  What `calculate_reward` goes on to evaluate for a sampled
sentence, finished or cut off: either the cleaned sentence has unequally many operands and
operators (and the reward is 0), or it consists of `ut` and complete terms whose operands
are unmasked words: no control symbol is ever looked up as a term. -/
theorem C84_evaluated_partial (mask : List Bool) (orc : List Nat → Draw) (s : List Nat)
    (hl : Live mask orc) (h : sample mask orc = some s) :
    (odds (deleteDuplicate s)).length ≠ (evens (deleteDuplicate s)).length ∨
    ∃ terms, (∀ t ∈ terms, WellTerm mask t) ∧
      deleteDuplicate s = sentenceOf (firsts ([6] :: terms)) := by
  have h6 : ∀ w ∈ [6], 3 ≤ w ∧ w ≠ 5 := by decide
  rcases (C84_sentence_partial mask orc s hl h).2 with ⟨ts, hne, hw, rfl⟩ | ⟨ts, frag, hw, hf, _, rfl⟩
  · right
    refine ⟨ts, hw, ?_⟩
    refine (C81_first ([6] :: ts) (by simp) ?_ ?_).1
    · intro t ht hc
      rcases List.mem_cons.1 ht with rfl | ht
      · exact absurd (h6 _ hc).1 (by omega)
      · exact absurd ((well_free mask t (hw t ht)).1 _ hc).1 (by omega)
    · intro t ht hc
      rcases List.mem_cons.1 ht with rfl | ht
      · exact absurd (h6 _ hc).1 (by omega)
      · exact absurd ((well_free mask t (hw t ht)).1 _ hc).1 (by omega)
  · have hfree : ∀ t ∈ [6] :: (ts ++ [frag]), ∀ w ∈ t, 3 ≤ w ∧ w ≠ 5 := by
      intro t ht
      simp only [List.mem_cons, List.mem_append, List.not_mem_nil, or_false] at ht
      rcases ht with rfl | ht | rfl
      · exact h6
      · exact (well_free mask t (hw t ht)).1
      · exact (frag_free mask _ hf).1
    have hd := (C81_first ([6] :: (ts ++ [frag])) (by simp)
      (fun t ht hc => absurd (hfree t ht _ hc).1 (by omega))
      (fun t ht hc => absurd (hfree t ht _ hc).1 (by omega))).2
    have hdrop : dropE (sentenceOf ([6] :: (ts ++ [frag])))
        = List.intercalate [2] ([6] :: (ts ++ [frag])) := by
      unfold sentenceOf dropE
      rw [if_pos (by rw [List.getLast?_concat]; rfl), List.dropLast_concat]
    rw [hdrop] at hd
    rw [← List.cons_append] at hd ⊢
    rcases firsts_append_one ([6] :: ts) frag with he | he
    · right
      exact ⟨ts, hw, by rw [hd, he]⟩
    · left
      rw [hd, he, odds_length, evens_length]
      have hodd : ∀ t ∈ firsts ([6] :: ts), t.length % 2 = 1 := by
        intro t ht
        have := (firsts_spec ([6] :: ts)).1.subset ht
        rcases List.mem_cons.1 this with rfl | hm
        · rfl
        · exact (well_free mask t (hw t hm)).2
      have h1 := inter_length (firsts ([6] :: ts) ++ [frag]) (by simp)
      have h2 := even_sum _ hodd
      have h3 := (frag_free mask _ hf).2
      rw [List.map_append, List.sum_append] at h1
      simp only [List.map_cons, List.map_nil, List.sum_cons, List.sum_nil] at h1
      omega

/-! ## The mask -/

/-- **C84** Evaluating a candidate never re-enables a word, and disables every word of it
whose value held a NaN in some case of the data, so that it is not sampled again. -/
theorem C84_mask_shrinks (cases : List Case) (mask : List Bool) (s : List Nat) (i : Nat) :
    (maskAfter cases mask s)[i]? = some true → mask[i]? = some true := by
  unfold maskAfter
  simp only
  split
  · exact id
  · rw [List.getElem?_mapIdx]
    cases hm : mask[i]? with
    | none => simp
    | some b => cases b <;> simp

/-- The operators of a term. -/
private theorem well_walk (mask : List Bool) (t : List Nat) (h : WellTerm mask t) (x : Nat)
    (rest : List Nat) :
    evens (t ++ x :: rest) = operands t ++ evens rest ∧
    ∃ os : List Nat, (∀ o ∈ os, o = 3 ∨ o = 4) ∧ odds (t ++ x :: rest) = os ++ x :: odds rest := by
  induction t using WellTerm.induct with
  | case1 => exact absurd h (by simp [WellTerm])
  | case2 a =>
      refine ⟨by simp [evens, operands], [], by simp, ?_⟩
      simp only [odds, List.singleton_append, List.tail_cons, List.nil_append]
      cases rest <;> simp [evens]
  | case3 a o r ih =>
      obtain ⟨h1, h2, h3⟩ := h
      obtain ⟨i1, os, i2, i3⟩ := ih h3
      refine ⟨by simp [evens, operands, i1], o :: os, ?_, ?_⟩
      · intro y hy
        rcases List.mem_cons.1 hy with rfl | hy
        · exact h2
        · exact i2 y hy
      · cases r with
        | nil => exact absurd h3 (by simp [WellTerm])
        | cons b r =>
            simp only [odds, List.cons_append, List.tail_cons] at i3 ⊢
            simp [evens, i3]

theorem well_sentence (mask : List Bool) (ts : List (List Nat)) (hne : ts ≠ [])
    (h : ∀ t ∈ ts, WellTerm mask t) :
    evens (sentenceOf ts) = ts.flatMap operands ∧ (∀ o ∈ odds (sentenceOf ts), o ≤ 4) ∧
      (odds (sentenceOf ts)).length = (evens (sentenceOf ts)).length := by
  refine ⟨?_, ?_, ?_⟩
  · induction ts with
    | nil => exact absurd rfl hne
    | cons t ts ih =>
        cases ts with
        | nil =>
            have := (well_walk mask t (h t (by simp)) 1 []).1
            simpa [sentenceOf, List.intercalate, evens] using this
        | cons u us =>
            have e : sentenceOf (t :: u :: us) = t ++ 2 :: sentenceOf (u :: us) := by
              simp [sentenceOf]
            rw [e, (well_walk mask t (h t (by simp)) 2 _).1,
              ih (by simp) (fun x hx => h x (by simp [hx]))]
            simp
  · induction ts with
    | nil => exact absurd rfl hne
    | cons t ts ih =>
        cases ts with
        | nil =>
            obtain ⟨os, h1, h2⟩ := (well_walk mask t (h t (by simp)) 1 []).2
            have e : sentenceOf [t] = t ++ 1 :: [] := by simp [sentenceOf, List.intercalate]
            rw [e, h2]
            intro o ho
            simp only [List.mem_append, List.mem_cons, odds, List.tail_nil, evens, List.not_mem_nil,
              or_false] at ho
            rcases ho with ho | rfl
            · have := h1 o ho; omega
            · omega
        | cons u us =>
            have e : sentenceOf (t :: u :: us) = t ++ 2 :: sentenceOf (u :: us) := by
              simp [sentenceOf]
            obtain ⟨os, h1, h2⟩ := (well_walk mask t (h t (by simp)) 2 (sentenceOf (u :: us))).2
            rw [e, h2]
            intro o ho
            simp only [List.mem_append, List.mem_cons] at ho
            rcases ho with ho | rfl | ho
            · have := h1 o ho; omega
            · omega
            · exact ih (by simp) (fun x hx => h x (by simp [hx])) o ho
  · rw [odds_length, evens_length, inter_length ts hne]
    have := even_sum ts (fun t ht => (well_free mask t (h t ht)).2)
    omega

/-- **C84** A word of an evaluated candidate whose value holds a NaN on some case of the
data is masked from then on. -/
theorem C84_nan_masked (cases : List Case) (mask : List Bool) (terms : List (List Nat))
    (m : List Bool) (hm : Operand m 6) (hw : ∀ t ∈ terms, WellTerm m t) (c : Case)
    (hc : c ∈ cases) (i : Nat) (hi : ∃ t ∈ firsts ([6] :: terms), i ∈ operands t)
    (hn : Val.nan ∈ c.value i) :
    (maskAfter cases mask (sentenceOf ([6] :: terms)))[i]? ≠ some true := by
  have hfree : ∀ t ∈ [6] :: terms, WellTerm m t := by
    intro t ht
    rcases List.mem_cons.1 ht with rfl | ht
    · exact hm
    · exact hw t ht
  have hd := (C81_first ([6] :: terms) (by simp)
    (fun t ht hc => absurd ((well_free m t (hfree t ht)).1 _ hc).1 (by omega))
    (fun t ht hc => absurd ((well_free m t (hfree t ht)).1 _ hc).1 (by omega))).1
  obtain ⟨h1, h2, h3⟩ := well_sentence m (firsts ([6] :: terms)) (by simp [firsts])
    (fun t ht => hfree t ((firsts_spec _).1.subset ht))
  unfold maskAfter
  simp only [hd]
  rw [if_neg]
  · rw [List.getElem?_mapIdx]
    have hmem : (evens (sentenceOf (firsts ([6] :: terms)))).contains i = true := by
      rw [h1, List.contains_iff_mem, List.mem_flatMap]
      exact hi
    have hany : cases.any (fun c => (c.value i).contains .nan) = true := by
      rw [List.any_eq_true]
      exact ⟨c, hc, by rw [List.contains_iff_mem]; exact hn⟩
    rw [hmem, hany]
    cases mask[i]? <;> simp
  · simp only [Bool.or_eq_true, List.any_eq_true, decide_eq_true_eq, not_or, not_exists, not_and]
    refine ⟨fun o ho => ?_, fun hc => hc h3⟩
    have := h2 o ho
    omega

/-! ## Concrete cases -/

/-- The mask `KD_EqGPT` starts from. -/
def waveMask : List Bool := maskInvalid ["t", "x"]

/-- The operands it leaves. -/
theorem waveMask_words :
    ((List.range 57).filter (fun i => decide (6 ≤ i) && (waveMask[i]? == some true))).map word
      = ["u", "ux", "uxx", "ux^2", "uxxxx", "(uux)x", "(u^4)xx", "u^2", "uxxx", "u^3", "x",
         "(1/u)xx", "(u^-2*ux)x", "uxxxxx", "sin(u)", "sinh(u)", "x^2", "exp(x)", "sinx",
         "(uxx+ux/x)^2", "x^4", "(uux)xx", "(u^3)xx", "(u(u^2)xx)xx"] := by
  decide +kernel

/-- A run drawing candidate 1 for operands and candidate 0 (`E`) after two operators. -/
def demoDraw (s : List Nat) : Draw :=
  ⟨fun _ => 1/57, false, if s.length % 2 = 1 then 1 else if s.length = 6 then 0 else 2⟩

theorem demo_live : Live waveMask demoDraw :=
  ⟨fun _ _ => by show (0 : Rat) < 1/57; decide +kernel, ⟨7, by decide, by decide, by decide +kernel⟩,
    ⟨1, by decide, by decide, by decide +kernel⟩⟩

example : sample waveMask demoDraw = some [6, 2, 8, 3, 8, 1] := by decide +kernel

example : [6, 2, 8, 3, 8, 1].length ≤ 48 :=
  (C84_sentence_partial waveMask demoDraw [6, 2, 8, 3, 8, 1] demo_live (by decide +kernel)).1

/-- **C84** Whatever the network and the mask say, a word drawn is one of the vocabulary. -/
theorem C84_known_word (p : Nat → Rat) (mask : List Bool) (len : Nat) (uniform : Bool) (k w : Nat) (h : step p mask len uniform k = some w) :
    w < id2word.length := by
  unfold step at h
  split at h
  · split at h
    · have := List.mem_of_getElem? h
      simpa using this
    · exact nomatch h
  · have := List.mem_of_getElem? h
    simp only [candidates, List.mem_filter, List.mem_range] at this
    exact this.1

/-- When every operand is masked the normalisation divides by zero; the exploring draw then
takes any of the 57 words: here the control symbol `S` is returned as an operand. -/
theorem C84_all_masked_counterexample :
    step (fun _ => 1/57) (List.replicate 6 true ++ List.replicate 51 false) 3 true 5 = some 5 ∧
    step (fun _ => 1/57) (List.replicate 6 true ++ List.replicate 51 false) 3 false 5 = none := by
  decide +kernel

end Verif.Claims.EqGpt
