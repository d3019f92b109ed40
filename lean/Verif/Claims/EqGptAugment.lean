import Mathlib.Data.List.Forall2
import Mathlib.Data.List.Perm.Basic
import Mathlib.Data.List.Perm.Lattice
import Mathlib.Data.List.Basic
import Verif.EqGpt.Augment
/-! C133–C135: the sentences EqGPT's generator is trained on. -/
namespace Verif.EqGpt.Augment.Claims
open Verif.EqGpt.Augment

/-! ## Specification -/

/-- The terms of a sentence, each with its factors. -/
def terms (s : List Nat) : List (List (List Nat)) := (split 2 s).map (split 3)

/-- The same terms in some order, each with the same factors in some order. -/
def SameEquation (a b : List Nat) : Prop := ∃ c, c.Perm (terms b) ∧ List.Forall₂ List.Perm (terms a) c

/-- The sentence without end words. -/
def withoutEnd (s : List Nat) : List Nat := s.filter fun c => c != 1

/-! ## Splitting and joining -/

theorem split_ne_nil (v : Nat) (s : List Nat) : split v s ≠ [] := by
  cases s with
  | nil => simp [split]
  | cons c s =>
    unfold split
    split
    · simp
    · split <;> simp

theorem split_notMem (v : Nat) (s : List Nat) : ∀ p ∈ split v s, v ∉ p := by
  induction s with
  | nil => simp [split]
  | cons c s ih =>
    unfold split
    by_cases h : c = v
    · rw [if_pos h]
      intro p hp
      rcases List.mem_cons.1 hp with rfl | hp
      · simp
      · exact ih p hp
    · rw [if_neg h]
      cases hs : split v s with
      | nil => exact absurd hs (split_ne_nil v s)
      | cons a t =>
        rw [hs] at ih
        intro p hp
        rcases List.mem_cons.1 hp with rfl | hp
        · intro hv
          rcases List.mem_cons.1 hv with rfl | hv
          · exact h rfl
          · exact ih a List.mem_cons_self hv
        · exact ih p (List.mem_cons_of_mem _ hp)

theorem join_cons (v : Nat) (a : List Nat) (ls : List (List Nat)) (h : ls ≠ []) : join v (a :: ls) = a ++ v :: join v ls := by
  unfold join
  rw [List.flatMap_cons, List.dropLast_append_of_ne_nil]
  · simp
  · cases ls with
    | nil => exact absurd rfl h
    | cons b r => simp

theorem join_single (v : Nat) (a : List Nat) : join v [a] = a := by simp [join]

theorem split_append (v : Nat) (a s : List Nat) (h : v ∉ a) : split v (a ++ v :: s) = a :: split v s := by
  induction a with
  | nil => rw [List.nil_append, split, if_pos rfl]
  | cons c a ih =>
    rw [List.cons_append, split, if_neg (by rintro rfl; exact h List.mem_cons_self), ih (fun e => h (List.mem_cons_of_mem _ e))]

theorem split_plain (v : Nat) (a : List Nat) (h : v ∉ a) : split v a = [a] := by
  induction a with
  | nil => rfl
  | cons c a ih =>
    rw [split, if_neg (by rintro rfl; exact h List.mem_cons_self), ih (fun e => h (List.mem_cons_of_mem _ e))]

theorem split_join (v : Nat) (ls : List (List Nat)) (h : ls ≠ []) (hv : ∀ p ∈ ls, v ∉ p) : split v (join v ls) = ls := by
  induction ls with
  | nil => exact absurd rfl h
  | cons a r ih =>
    by_cases hr : r = []
    · subst hr
      rw [join_single, split_plain v a (hv a List.mem_cons_self)]
    · rw [join_cons v a r hr, split_append v a _ (hv a List.mem_cons_self), ih hr fun p hp => hv p (List.mem_cons_of_mem _ hp)]

theorem join_split (v : Nat) (s : List Nat) : join v (split v s) = s := by
  induction s with
  | nil => simp [split, join]
  | cons c s ih =>
    unfold split
    by_cases h : c = v
    · rw [if_pos h, join_cons _ _ _ (split_ne_nil v s), ih, h]; rfl
    · rw [if_neg h]
      cases hs : split v s with
      | nil => exact absurd hs (split_ne_nil v s)
      | cons a t =>
        rw [hs] at ih
        simp only
        by_cases ht : t = []
        · subst ht; rw [join_single] at ih ⊢; rw [ih]
        · rw [join_cons _ _ _ ht] at ih ⊢; rw [← ih]; rfl

theorem mem_split (v c : Nat) (s : List Nat) (h : c ≠ v) : c ∈ s ↔ ∃ p ∈ split v s, c ∈ p := by
  induction s with
  | nil => simp [split]
  | cons d s ih =>
    unfold split
    by_cases hd : d = v
    · rw [if_pos hd, List.mem_cons, ih]
      constructor
      · rintro (rfl | ⟨p, hp, hc⟩)
        · exact absurd hd h
        · exact ⟨p, List.mem_cons_of_mem _ hp, hc⟩
      · rintro ⟨p, hp, hc⟩
        rcases List.mem_cons.1 hp with rfl | hp
        · simp at hc
        · exact .inr ⟨p, hp, hc⟩
    · rw [if_neg hd]
      cases hs : split v s with
      | nil => exact absurd hs (split_ne_nil v s)
      | cons a t =>
        rw [hs] at ih
        rw [List.mem_cons, ih]
        simp only [List.mem_cons, exists_eq_or_imp]
        tauto

theorem split_filter (v : Nat) (hv : v ≠ 1) (s : List Nat) : split v (withoutEnd s) = (split v s).map withoutEnd := by
  induction s with
  | nil => rfl
  | cons c s ih =>
    unfold withoutEnd at ih ⊢
    by_cases h1 : c = 1
    · subst h1
      rw [List.filter_cons_of_neg (by simp), ih]
      rw [split, if_neg (Ne.symm hv)]
      cases hs : split v s with
      | nil => exact absurd hs (split_ne_nil v s)
      | cons a t => simp
    · rw [List.filter_cons_of_pos (by simpa using h1)]
      rw [split, split, ih]
      by_cases h : c = v
      · rw [if_pos h, if_pos h]; rfl
      · rw [if_neg h, if_neg h]
        cases hs : split v s with
        | nil => exact absurd hs (split_ne_nil v s)
        | cons a t => simp [h1]

/-! ## Permutations -/

theorem picks_perm {α : Type} (l : List α) : ∀ p ∈ picks l, (p.1 :: p.2).Perm l := by
  induction l with
  | nil => simp [picks]
  | cons a l ih =>
    intro p hp
    rcases List.mem_cons.1 hp with rfl | hp
    · exact List.Perm.refl _
    · obtain ⟨q, hq, rfl⟩ := List.mem_map.1 hp
      exact (List.Perm.swap a q.1 q.2).trans (List.Perm.cons a (ih q hq))

theorem picks_mem {α : Type} (l1 l2 : List α) (a : α) : (a, l1 ++ l2) ∈ picks (l1 ++ a :: l2) := by
  induction l1 with
  | nil => exact List.mem_cons_self
  | cons b l1 ih => exact List.mem_cons_of_mem _ (List.mem_map.2 ⟨_, ih, rfl⟩)

theorem permsN_perm {α : Type} (n : Nat) (l : List α) (h : l.length = n) : ∀ q ∈ permsN n l, q.Perm l := by
  induction n generalizing l with
  | zero =>
    intro q hq
    rw [List.length_eq_zero_iff.1 h]
    simp [permsN] at hq
    rw [hq]
  | succ n ih =>
    intro q hq
    simp only [permsN, List.mem_flatMap, List.mem_map] at hq
    obtain ⟨p, hp, r, hr, rfl⟩ := hq
    have hpp := picks_perm l p hp
    have hlen : p.2.length = n := by have := hpp.length_eq; simp at this; omega
    exact (List.Perm.cons p.1 (ih p.2 hlen r hr)).trans hpp

theorem mem_permsN {α : Type} (n : Nat) (l q : List α) (h : l.length = n) (hq : q.Perm l) : q ∈ permsN n l := by
  induction n generalizing l q with
  | zero =>
    rw [List.length_eq_zero_iff.1 h] at hq
    rw [hq.eq_nil]; simp [permsN]
  | succ n ih =>
    cases q with
    | nil => have := hq.length_eq; simp at this; omega
    | cons a q =>
      obtain ⟨l1, l2, rfl⟩ := List.append_of_mem (hq.subset List.mem_cons_self)
      have h2 : q.Perm (l1 ++ l2) := List.Perm.cons_inv (hq.trans List.perm_middle)
      simp only [permsN, List.mem_flatMap, List.mem_map]
      exact ⟨_, picks_mem l1 l2 a, q, ih _ q (by simp at h ⊢; omega) h2, rfl⟩

theorem mem_perms {α : Type} (l q : List α) : q ∈ perms l ↔ q.Perm l :=
  ⟨permsN_perm _ l rfl q, mem_permsN _ l q rfl⟩

theorem perms_ne_nil {α : Type} (l : List α) : perms l ≠ [] := by
  intro h
  have := (mem_perms l l).2 (List.Perm.refl _)
  rw [h] at this
  simp at this

/-! ## The two steps -/

theorem plus_split (data s : List Nat) (h : s ∈ plus data) : (split 2 s).Perm (split 2 data) := by
  obtain ⟨p, hp, rfl⟩ := List.mem_map.1 h
  have hp' := (mem_perms _ _).1 hp
  rw [split_join 2 p (fun e => split_ne_nil 2 data (by rw [e] at hp'; exact hp'.symm.eq_nil)) fun q hq => split_notMem 2 data q (hp'.subset hq)]
  exact hp'

theorem orders_spec (t p : List Nat) (h2 : 2 ∉ t) (h : p ∈ orders t) : (split 3 p).Perm (split 3 t) ∧ 2 ∉ p := by
  obtain ⟨q, hq, rfl⟩ := List.mem_map.1 h
  have hq' := (mem_perms _ _).1 hq
  have hs : split 3 (join 3 q) = q :=
    split_join 3 q (fun e => split_ne_nil 3 t (by rw [e] at hq'; exact hq'.symm.eq_nil)) fun r hr => split_notMem 3 t r (hq'.subset hr)
  rw [hs]
  refine ⟨hq', fun h2' => ?_⟩
  rw [mem_split 3 2 _ (by decide), hs] at h2'
  obtain ⟨r, hr, h2r⟩ := h2'
  exact h2 ((mem_split 3 2 t (by decide)).2 ⟨r, hq'.subset hr, h2r⟩)

/-- Same factors in each term. -/
abbrev SameTerms (a b : List (List Nat)) : Prop := List.Forall₂ (fun x y => (split 3 x).Perm (split 3 y) ∧ 2 ∉ x) a b

theorem orders_last (t : List Nat) : ((orders t).getLast?.getD []) ∈ orders t := by
  have hne : orders t ≠ [] := by simp [orders, perms_ne_nil]
  rw [List.getLast?_eq_getLast_of_ne_nil hne]
  exact List.getLast_mem hne

theorem same_set (a b : List (List Nat)) (i : Nat) (t p : List Nat) (h : SameTerms a b) (hb : b[i]? = some t) (hp : p ∈ orders t) (h2 : 2 ∉ t) :
    SameTerms (a.set i p) b := by
  induction h generalizing i with
  | nil => simp at hb
  | cons h1 h2' ih =>
    cases i with
    | zero =>
      cases hb
      exact .cons (orders_spec _ _ h2 hp) h2'
    | succ i => exact .cons h1 (ih i hb)

theorem mulLoop_spec (orig : List (List Nat)) (h2 : ∀ t ∈ orig, 2 ∉ t) (rest : List (List Nat)) (i : Nat) (hr : orig.drop i = rest)
    (s : List (List Nat) × List (List Nat)) (hc : SameTerms s.1 orig) (ho : ∀ x ∈ s.2, ∃ c, SameTerms c orig ∧ x = join 2 c) :
    ∀ x ∈ (mulLoop i rest s).2, ∃ c, SameTerms c orig ∧ x = join 2 c := by
  induction rest generalizing i s with
  | nil => exact ho
  | cons t r ih =>
    have hi : orig[i]? = some t := by
      have := congrArg (·[0]?) hr
      simpa using this
    have ht2 : 2 ∉ t := h2 t (List.mem_of_getElem? hi)
    have hr' : orig.drop (i + 1) = r := by rw [← List.drop_drop, hr]; rfl
    unfold mulLoop
    apply ih (i + 1) hr'
    · unfold mulStep
      by_cases h3 : 3 ∈ t
      · rw [if_pos h3]; exact same_set _ _ i t _ hc hi (orders_last t) ht2
      · rw [if_neg h3]; exact hc
    · unfold mulStep
      by_cases h3 : 3 ∈ t
      · rw [if_pos h3]
        intro x hx
        rcases List.mem_append.1 hx with hx | hx
        · exact ho x hx
        · obtain ⟨p, hp, rfl⟩ := List.mem_map.1 hx
          exact ⟨_, same_set _ _ i t p hc hi hp ht2, rfl⟩
      · rw [if_neg h3]; exact ho

theorem sameTerms_refl (l : List (List Nat)) (h : ∀ t ∈ l, 2 ∉ t) : SameTerms l l := by
  induction l with
  | nil => exact .nil
  | cons a l ih => exact .cons ⟨List.Perm.refl _, h a List.mem_cons_self⟩ (ih fun t ht => h t (List.mem_cons_of_mem _ ht))

theorem multiply_spec (data x : List Nat) (h : x ∈ multiply data) : SameTerms (split 2 x) (split 2 data) := by
  have h2 := split_notMem 2 data
  unfold multiply at h
  by_cases h3 : 3 ∉ data
  · rw [if_pos h3] at h
    cases List.mem_singleton.1 h
    exact sameTerms_refl _ h2
  · rw [if_neg h3] at h
    obtain ⟨c, hc, rfl⟩ := mulLoop_spec _ h2 _ 0 rfl (split 2 data, []) (sameTerms_refl _ h2) (by simp) x h
    have hne : c ≠ [] := by
      intro e; subst e
      have := hc.length_eq
      exact split_ne_nil 2 data (List.length_eq_zero_iff.1 this.symm)
    rw [split_join 2 c hne]
    · exact hc
    · intro p hp
      obtain ⟨j, hj⟩ := List.mem_iff_getElem?.1 hp
      clear hne h h3 h2
      generalize split 2 data = o at hc
      induction hc generalizing j with
      | nil => simp at hp
      | cons a b ih =>
        rcases List.mem_cons.1 hp with rfl | hp
        · exact a.2
        · obtain ⟨j', hj'⟩ := List.mem_iff_getElem?.1 hp
          exact ih hp j' hj'

theorem join_perm (v : Nat) (ls : List (List Nat)) (h : ls ≠ []) : (join v ls).Perm (ls.flatten ++ List.replicate (ls.length - 1) v) := by
  induction ls with
  | nil => exact absurd rfl h
  | cons a r ih =>
    by_cases hr : r = []
    · subst hr; rw [join_single]; simp
    · rw [join_cons v a r hr, List.flatten_cons, List.append_assoc]
      refine List.Perm.append_left a ?_
      have hl : (a :: r).length - 1 = (r.length - 1) + 1 := by
        have := List.length_pos_iff.2 hr
        simp; omega
      rw [hl, List.replicate_succ]
      exact (List.Perm.cons v (ih hr)).trans List.perm_middle.symm

theorem words_perm (v : Nat) (a b : List Nat) (h : (split v a).Perm (split v b)) : a.Perm b := by
  have h1 := join_perm v _ (split_ne_nil v a)
  have h2 := join_perm v _ (split_ne_nil v b)
  rw [join_split] at h1 h2
  rw [h.length_eq] at h1
  exact h1.trans ((List.Perm.append_right _ h.flatten).trans h2.symm)

theorem sameTerms_words (a b : List (List Nat)) (h : SameTerms a b) : a.flatten.Perm b.flatten := by
  induction h with
  | nil => exact List.Perm.refl _
  | cons h1 _ ih => rw [List.flatten_cons, List.flatten_cons]; exact (words_perm 3 _ _ h1.1).append ih

theorem multiply_words (data x : List Nat) (h : x ∈ multiply data) : x.Perm data := by
  have hs := multiply_spec data x h
  have h1 := join_perm 2 _ (split_ne_nil 2 x)
  have h2 := join_perm 2 _ (split_ne_nil 2 data)
  rw [join_split] at h1 h2
  rw [hs.length_eq] at h1
  exact h1.trans ((List.Perm.append_right _ (sameTerms_words _ _ hs)).trans h2.symm)

theorem withoutEnd_id (s : List Nat) (h : 1 ∉ s) : withoutEnd s = s := by
  rw [withoutEnd, List.filter_eq_self]
  intro c hc
  simp only [bne_iff_ne, ne_eq]
  rintro rfl; exact h hc

theorem forall₂_perm {α β : Type} {r : α → β → Prop} {a : List α} {b c : List β} (h : List.Forall₂ r a b) (hp : b.Perm c) :
    ∃ a', a'.Perm a ∧ List.Forall₂ r a' c := by
  induction hp generalizing a with
  | nil => cases h; exact ⟨[], List.Perm.refl _, .nil⟩
  | cons x _ ih =>
    cases h with
    | cons h1 h2 =>
      obtain ⟨a', p, q⟩ := ih h2
      exact ⟨_, List.Perm.cons _ p, .cons h1 q⟩
  | swap x y l =>
    cases h with
    | cons h1 h2 => cases h2 with
      | cons h3 h4 => exact ⟨_, List.Perm.swap _ _ _, .cons h3 (.cons h1 h4)⟩
  | trans _ _ i1 i2 =>
    obtain ⟨a', p, q⟩ := i1 h
    obtain ⟨a'', p', q'⟩ := i2 q
    exact ⟨a'', p'.trans p, q'⟩

/-! ## C133: the sentences are the equation -/

/-- **C133.** Every sentence made of an equation is, apart from the end word, the same equation: the same terms in some order, each with the same
factors in some order; it has the same words and exactly one end word. -/
theorem C133_same (data x : List Nat) (h1 : 1 ∉ data) (h : x ∈ variants data) :
    SameEquation (withoutEnd x) data ∧ x.Perm (data ++ [1]) ∧ x.count 1 = 1 := by
  obtain ⟨s', hs', hx⟩ := List.mem_flatMap.1 h
  obtain ⟨s, hs, rfl⟩ := List.mem_map.1 hs'
  have hp := plus_split data s hs
  have hm := multiply_spec _ x hx
  have hsd : s.Perm data := words_perm 2 s data hp
  have hw : x.Perm (data ++ [1]) := (multiply_words _ x hx).trans (hsd.append_right _)
  refine ⟨?_, hw, ?_⟩
  · have hs1 : withoutEnd (s ++ [1]) = s := by
      rw [withoutEnd, List.filter_append]
      have := withoutEnd_id s (fun e => h1 (hsd.subset e))
      rw [withoutEnd] at this
      rw [this]; simp
    have hm' : List.Forall₂ List.Perm (terms (withoutEnd x)) (terms s) := by
      rw [← hs1]
      unfold terms
      rw [split_filter 2 (by decide), split_filter 2 (by decide), List.map_map, List.map_map, List.forall₂_map_left_iff, List.forall₂_map_right_iff]
      refine hm.imp fun a b hab => ?_
      simp only [Function.comp]
      rw [split_filter 3 (by decide), split_filter 3 (by decide)]
      exact hab.1.map _
    exact ⟨terms s, hp.map _, hm'⟩
  · rw [hw.count_eq, List.count_append, List.count_eq_zero.2 h1]; rfl

/-- **C133** (number): each equation gives exactly `times` sentences, all of them made of it. -/
theorem C133_number (sample : List (List Nat) → Nat → List (List Nat)) (hs : ∀ l n, n ≤ l.length → (sample l n).length = n ∧ ∀ x ∈ sample l n, x ∈ l)
    (times : Nat) (data : List Nat) : (chosen sample times data).length = times ∧ ∀ x ∈ chosen sample times data, x ∈ variants data := by
  have hne : variants data ≠ [] := by
    unfold variants
    intro h
    rw [List.flatMap_eq_nil_iff] at h
    obtain ⟨s, hs⟩ := List.exists_mem_of_ne_nil (plus data) (by simp [plus, perms_ne_nil])
    have h1 := h (s ++ [1]) (List.mem_map_of_mem hs)
    unfold multiply at h1
    by_cases h3 : 3 ∉ s ++ [1]
    · rw [if_pos h3] at h1; cases h1
    · rw [if_neg h3] at h1
      have grow : ∀ (rest : List (List Nat)) (i : Nat) (st : List (List Nat) × List (List Nat)), (st.2 ≠ [] ∨ ∃ t ∈ rest, 3 ∈ t) → (mulLoop i rest st).2 ≠ [] := by
        intro rest
        induction rest with
        | nil => rintro i st (h | ⟨t, ht, _⟩)
                 · exact h
                 · simp at ht
        | cons t r ih =>
          intro i st hst
          unfold mulLoop
          apply ih
          unfold mulStep
          by_cases ht : 3 ∈ t
          · rw [if_pos ht]
            left
            simp [orders, perms_ne_nil]
          · rw [if_neg ht]
            rcases hst with h | ⟨t', ht', h3'⟩
            · exact .inl h
            · rcases List.mem_cons.1 ht' with rfl | ht'
              · exact absurd h3' ht
              · exact .inr ⟨t', ht', h3'⟩
      refine grow _ 0 _ (.inr ?_) h1
      exact (mem_split 2 3 _ (by decide)).1 (not_not.1 h3)
  have hpos := List.length_pos_iff.2 hne
  unfold chosen
  by_cases h : times < (variants data).length
  · rw [if_pos h]; exact hs _ _ (by omega)
  · rw [if_neg h]
    unfold expand
    constructor
    · rw [List.length_take, List.length_flatten, List.map_replicate, List.sum_replicate_nat]
      have : times ≤ (times + (variants data).length - 1) / (variants data).length * (variants data).length := by
        have h1 := Nat.div_add_mod (times + (variants data).length - 1) (variants data).length
        have h2 := Nat.mod_lt (times + (variants data).length - 1) hpos
        rw [Nat.mul_comm] at h1
        omega
      omega
    · intro x hx
      obtain ⟨l, hl, hxl⟩ := List.mem_flatten.1 (List.mem_of_mem_take hx)
      rw [List.eq_of_mem_replicate hl] at hxl
      exact hxl

/-- **C133** (orders): every order of the terms is among the sentences, if there is no product. -/
theorem C133_orders (data : List Nat) (h3 : 3 ∉ data) (q : List (List Nat)) (hq : q.Perm (split 2 data)) : join 2 q ++ [1] ∈ variants data := by
  have hmem : join 2 q ∈ plus data := List.mem_map_of_mem ((mem_perms _ _).2 hq)
  refine List.mem_flatMap.2 ⟨_, List.mem_map_of_mem hmem, ?_⟩
  unfold multiply
  rw [if_pos]
  · exact List.mem_singleton_self _
  · intro h
    rcases List.mem_append.1 h with h | h
    · exact h3 ((words_perm 2 _ _ (plus_split data _ hmem)).subset h)
    · simp at h

/-- **C133** (end): the sentences of an equation without products end with the end word.
Partial, of the whole claim: The end word is final only without products; otherwise it wanders with the last factor (counterexample). -/
theorem C133_end_partial (data x : List Nat) (h3 : 3 ∉ data) (h : x ∈ variants data) : ∃ s, x = s ++ [1] ∧ (split 2 s).Perm (split 2 data) := by
  obtain ⟨s', hs', hx⟩ := List.mem_flatMap.1 h
  obtain ⟨s, hs, rfl⟩ := List.mem_map.1 hs'
  unfold multiply at hx
  rw [if_pos] at hx
  · exact ⟨s, List.mem_singleton.1 hx, plus_split data s hs⟩
  · intro h
    rcases List.mem_append.1 h with h | h
    · exact h3 ((words_perm 2 _ _ (plus_split data _ hs)).subset h)
    · simp at h

/-- **C133 (violated).** In a sentence whose last term is a product the end word wanders with its factor: `u * ux` also gives `ux E * u`. -/
theorem C133_counterexample : variants [10, 3, 11] = [[10, 3, 11, 1], [11, 1, 3, 10]] := by decide +kernel

/-- `ut + u * ux` in its two orders of terms. -/
example : variants [6, 2, 10, 3, 11] = [[6, 2, 10, 3, 11, 1], [6, 2, 11, 1, 3, 10], [10, 3, 11, 2, 6, 1], [11, 3, 10, 2, 6, 1]] := by decide +kernel

/-! ## C134: an equation can be withheld -/

/-- **C134** The sentences are read in the order of the table, each as often as it stands there, and the equation left out is the only one
missing. -/
theorem C134_order (name : String) : readDataset [] name = [] ∧ ∀ (r : Row) (t : List Row),
    (r.name = name → readDataset (r :: t) name = readDataset t name) ∧
    (r.name ≠ name → readDataset (r :: t) name = r.words :: readDataset t name) := by
  refine ⟨rfl, fun r t => ⟨fun h => ?_, fun h => ?_⟩⟩ <;> simp [readDataset, h]

/-- **C134** (table): the rows read are those of the other equations.
Partial, of the whole claim: Violated: the name is not passed on, the withheld equation is taught. -/
theorem C134_read_partial (table : List Row) (name : String) (d : List String) : d ∈ readDataset table name ↔ ∃ r ∈ table, r.name ≠ name ∧ r.words = d := by
  simp [readDataset, and_assoc]

/-- **C134 (violated).** The name of the equation to withhold makes no difference to the training sentences. -/
theorem C134_ignored (v : Vocab) (table : List Row) (sample : List (List Nat) → Nat → List (List Nat)) (name name' : String) (times : Nat) :
    getTrain v table sample name times = getTrain v table sample name' times := rfl

theorem encodeAll_mem (v : Vocab) (ds : List (List String)) (ss : List (List Nat)) (h : encodeAll v ds = some ss) (d : List String) (hd : d ∈ ds) :
    ∃ s ∈ ss, encode v d = some s := by
  induction ds generalizing ss with
  | nil => simp at hd
  | cons a ds ih =>
    unfold encodeAll at h
    cases ha : encode v a with
    | none => rw [ha] at h; cases h
    | some s =>
      rw [ha] at h
      simp only at h
      cases hr : encodeAll v ds with
      | none => rw [hr] at h; cases h
      | some ss' =>
        rw [hr] at h
        cases h
        rcases List.mem_cons.1 hd with rfl | hd
        · exact ⟨s, List.mem_cons_self, ha⟩
        · obtain ⟨s', h1, h2⟩ := ih ss' hr hd
          exact ⟨s', List.mem_cons_of_mem _ h1, h2⟩

/-- **C134** (unknown words): the training sentences are refused (KeyError) exactly if some equation of the table has a word without a number. -/
theorem C134_unknown (v : Vocab) (table : List Row) (sample : List (List Nat) → Nat → List (List Nat)) (name : String) (times : Nat) :
    getTrain v table sample name times = none ↔ ∃ r ∈ table, r.name ≠ "" ∧ ∃ w ∈ r.words, ∀ n, (w, n) ∉ v.word2id := by
  have hlook : ∀ w, v.word2id.lookup w = none ↔ ∀ n, (w, n) ∉ v.word2id := by
    intro w
    rw [List.lookup_eq_none_iff]
    constructor
    · intro h n hm
      have := h _ hm
      simp at this
    · rintro h ⟨w', n⟩ hm
      simp only [bne_iff_ne, ne_eq]
      rintro rfl
      exact h n hm
  have henc : ∀ d, encode v d = none ↔ ∃ w ∈ d, v.word2id.lookup w = none := by
    intro d
    induction d with
    | nil => simp [encode]
    | cons w d ih =>
      unfold encode
      cases hl : v.word2id.lookup w with
      | none => exact ⟨fun _ => ⟨w, List.mem_cons_self, hl⟩, fun _ => rfl⟩
      | some n =>
        cases hd : encode v d with
        | none => simp only [true_iff]; obtain ⟨x, hx, h⟩ := ih.1 hd; exact ⟨x, List.mem_cons_of_mem _ hx, h⟩
        | some ns =>
          simp only [reduceCtorEq, false_iff]
          rintro ⟨x, hx, h⟩
          rcases List.mem_cons.1 hx with rfl | hx
          · rw [hl] at h; cases h
          · rw [ih.2 ⟨x, hx, h⟩] at hd; cases hd
  have hall : ∀ ds, encodeAll v ds = none ↔ ∃ d ∈ ds, encode v d = none := by
    intro ds
    induction ds with
    | nil => simp [encodeAll]
    | cons d ds ih =>
      unfold encodeAll
      cases hl : encode v d with
      | none => simp [hl]
      | some n =>
        cases hd : encodeAll v ds with
        | none => simp only [true_iff]; obtain ⟨x, hx, h⟩ := ih.1 hd; exact ⟨x, List.mem_cons_of_mem _ hx, h⟩
        | some ns =>
          simp only [reduceCtorEq, false_iff]
          rintro ⟨x, hx, h⟩
          rcases List.mem_cons.1 hx with rfl | hx
          · rw [hl] at h; cases h
          · rw [ih.2 ⟨x, hx, h⟩] at hd; cases hd
  have hgt : getTrain v table sample name times = none ↔ encodeAll v (readDataset table "") = none := by
    unfold getTrain
    cases encodeAll v (readDataset table "") <;> simp
  rw [hgt, hall]
  constructor
  · rintro ⟨d, hd, h⟩
    obtain ⟨r, hr, hn, rfl⟩ := (C134_read_partial table "" d).1 hd
    obtain ⟨w, hw, h⟩ := (henc _).1 h
    exact ⟨r, hr, hn, w, hw, (hlook w).1 h⟩
  · rintro ⟨r, hr, hn, w, hw, h⟩
    exact ⟨r.words, (C134_read_partial table "" _).2 ⟨r, hr, hn, rfl⟩, (henc _).2 ⟨w, hw, (hlook w).2 h⟩⟩

/-- **C134 (violated).** An equation withheld by its name is taught all the same: with enough sentences per equation (`times` at least the number
of its variants) all of its variants are among the training sentences. -/
theorem C134_leak (v : Vocab) (table : List Row) (sample : List (List Nat) → Nat → List (List Nat)) (times : Nat) (r : Row) (hr : r ∈ table) (hn : r.name ≠ "")
    (out : List (List Nat)) (h : getTrain v table sample r.name times = some out) :
    ∃ s, encode v r.words = some s ∧ ((variants s).length ≤ times → ∀ x ∈ variants s, 5 :: x ∈ out) := by
  unfold getTrain at h
  cases he : encodeAll v (readDataset table "") with
  | none => rw [he] at h; cases h
  | some train =>
    rw [he] at h
    cases h
    obtain ⟨s, hs, henc⟩ := encodeAll_mem v _ train he r.words ((C134_read_partial table "" _).2 ⟨r, hr, hn, rfl⟩)
    refine ⟨s, henc, fun hlen x hx => List.mem_map.2 ⟨x, List.mem_flatMap.2 ⟨s, hs, ?_⟩, rfl⟩⟩
    unfold chosen
    rw [if_neg (by omega)]
    unfold expand
    have hpos : 0 < (variants s).length := List.length_pos_iff.2 (List.ne_nil_of_mem hx)
    obtain ⟨k, hk⟩ : ∃ k, (times + (variants s).length - 1) / (variants s).length = k + 1 :=
      ⟨(times + (variants s).length - 1) / (variants s).length - 1, by
        have : 1 ≤ (times + (variants s).length - 1) / (variants s).length := (Nat.le_div_iff_mul_le hpos).2 (by omega)
        omega⟩
    rw [hk, List.replicate_succ, List.flatten_cons, List.take_append]
    rw [List.take_of_length_le hlen]
    exact List.mem_append_left _ hx

/-- **C134 (violated).** The withheld equation `ut + ux` is among the training sentences. -/
theorem C134_counterexample :
    getTrain (getWords [["ut", "+", "ux"]]) [⟨"advection", ["ut", "+", "ux"]⟩] (fun l n => l.take n) "advection" 2 =
      some [[5, 6, 2, 7, 1], [5, 7, 2, 6, 1]] := by decide +kernel

/-! ## C135: the vocabulary -/

/-- Both directions of the vocabulary agree. -/
structure Good (v : Vocab) : Prop where
  forth : ∀ w n, v.word2id.lookup w = some n → v.id2word[n]? = some w
  back : ∀ (n : Nat) w, v.id2word[n]? = some w → v.word2id.lookup w = some n

theorem addWord_good (s : Nat × Vocab) (w : String) (hs : s.1 = s.2.id2word.length) (hg : Good s.2) :
    (addWord s w).1 = (addWord s w).2.id2word.length ∧ Good (addWord s w).2 ∧ ((addWord s w).2.word2id.lookup w).isSome ∧
    ∀ w' n, s.2.word2id.lookup w' = some n → (addWord s w).2.word2id.lookup w' = some n := by
  unfold addWord
  by_cases h : (s.2.word2id.lookup w).isSome = true
  · rw [if_pos h]; exact ⟨hs, hg, h, fun _ _ h => h⟩
  · rw [if_neg h]
    have hn := Option.not_isSome_iff_eq_none.1 h
    have hl : ∀ w', (s.2.word2id ++ [(w, s.1)]).lookup w' = (s.2.word2id.lookup w').or (if w' = w then some s.1 else none) := by
      intro w'
      rw [List.lookup_append]
      congr 1
      by_cases e : w' = w
      · subst e; simp [List.lookup]
      · have : (w' == w) = false := by simpa using e
        rw [if_neg e]; simp [List.lookup, this]
    simp only
    refine ⟨by simp [hs], ⟨fun w' n h' => ?_, fun n w' h' => ?_⟩, ?_, fun w' n h' => ?_⟩
    · rw [hl] at h'
      cases h2 : s.2.word2id.lookup w' with
      | some m =>
        rw [h2] at h'
        cases h'
        have := hg.forth w' _ h2
        rw [List.getElem?_append_left (List.getElem?_eq_some_iff.1 this).1, this]
      | none =>
        rw [h2] at h'
        by_cases e : w' = w
        · rw [if_pos e] at h'
          cases h'
          rw [hs, e]; simp
        · rw [if_neg e] at h'; cases h'
    · rw [hl]
      by_cases hn' : n < s.2.id2word.length
      · rw [List.getElem?_append_left hn'] at h'
        rw [hg.back n w' h']; rfl
      · rw [List.getElem?_append_right (by omega)] at h'
        have hz : n - s.2.id2word.length = 0 := by
          have := (List.getElem?_eq_some_iff.1 h').1
          simp at this; omega
        rw [hz] at h'
        cases h'
        rw [hn, if_pos rfl, hs, show n = s.2.id2word.length by omega]; rfl
    · rw [hl, if_pos rfl]
      cases s.2.word2id.lookup w <;> rfl
    · rw [hl, h']; rfl

theorem addWords_good (ws : List String) (s : Nat × Vocab) (hs : s.1 = s.2.id2word.length) (hg : Good s.2) :
    (ws.foldl addWord s).1 = (ws.foldl addWord s).2.id2word.length ∧ Good (ws.foldl addWord s).2 ∧
    (∀ w ∈ ws, ((ws.foldl addWord s).2.word2id.lookup w).isSome) ∧ ∀ w' n, s.2.word2id.lookup w' = some n → (ws.foldl addWord s).2.word2id.lookup w' = some n := by
  induction ws generalizing s with
  | nil => exact ⟨hs, hg, by simp, fun _ _ h => h⟩
  | cons w ws ih =>
    obtain ⟨a1, a2, a3, a4⟩ := addWord_good s w hs hg
    obtain ⟨b1, b2, b3, b4⟩ := ih (addWord s w) a1 a2
    rw [List.foldl_cons]
    refine ⟨b1, b2, fun w' hw' => ?_, fun w' n h => b4 w' n (a4 w' n h)⟩
    rcases List.mem_cons.1 hw' with rfl | hw'
    · obtain ⟨n, hn⟩ := Option.isSome_iff_exists.1 a3
      rw [b4 _ n hn]; rfl
    · exact b3 w' hw'

theorem getWords_eq (dataset : List (List String)) : getWords dataset = (dataset.flatten.foldl addWord (6, vocab0)).2 := by
  unfold getWords
  generalize (6, vocab0) = s
  congr 1
  induction dataset generalizing s with
  | nil => rfl
  | cons d ds ih => rw [List.foldl_cons, List.flatten_cons, List.foldl_append]; exact ih _

theorem vocab0_good : Good vocab0 := by
  constructor
  · intro w n h
    simp only [vocab0, List.lookup_cons] at h
    repeat' split at h
    all_goals first | (rename_i e; cases h; rw [eq_of_beq e]; rfl) | cases h
  · intro n w h
    have hn : n < 6 := (List.getElem?_eq_some_iff.1 h).1
    have : n = 0 ∨ n = 1 ∨ n = 2 ∨ n = 3 ∨ n = 4 ∨ n = 5 := by omega
    rcases this with rfl | rfl | rfl | rfl | rfl | rfl <;> cases h <;> decide +kernel

/-- **C135.** The vocabulary made of a data set knows every word of it, gives different numbers to different words, and reading a number back
gives the word; the six special words keep their numbers. -/
theorem C135_vocabulary (dataset : List (List String)) :
    (∀ d ∈ dataset, ∃ s, encode (getWords dataset) d = some s ∧ s.map (fun n => (getWords dataset).id2word[n]?) = d.map some) ∧
    (∀ w n, (getWords dataset).word2id.lookup w = some n ↔ (getWords dataset).id2word[n]? = some w) ∧
    (getWords dataset).id2word.take 6 = ["<pad>", "E", "+", "*", "/", "S"] := by
  obtain ⟨h1, h2, h3, h4⟩ := addWords_good dataset.flatten (6, vocab0) rfl vocab0_good
  rw [← getWords_eq] at h2 h3 h4
  refine ⟨fun d hd => ?_, fun w n => ⟨h2.forth w n, h2.back n w⟩, ?_⟩
  · have hall : ∀ w ∈ d, ((getWords dataset).word2id.lookup w).isSome := fun w hw => h3 w (List.mem_flatten.2 ⟨d, hd, hw⟩)
    clear hd
    induction d with
    | nil => exact ⟨[], rfl, rfl⟩
    | cons w d ih =>
      obtain ⟨n, hn⟩ := Option.isSome_iff_exists.1 (hall w List.mem_cons_self)
      obtain ⟨s, i1, i2⟩ := ih fun w' h' => hall w' (List.mem_cons_of_mem _ h')
      refine ⟨n :: s, ?_, ?_⟩
      · rw [encode, hn, i1]
      · rw [List.map_cons, List.map_cons, i2, h2.forth w n hn]
  · apply List.ext_getElem?
    intro k
    by_cases hk : k < 6
    · rw [List.getElem?_take_of_lt hk]
      have : k = 0 ∨ k = 1 ∨ k = 2 ∨ k = 3 ∨ k = 4 ∨ k = 5 := by omega
      rcases this with rfl | rfl | rfl | rfl | rfl | rfl <;> exact h2.forth _ _ (h4 _ _ (by decide +kernel))
    · rw [List.getElem?_eq_none (by simp; omega), List.getElem?_eq_none (by simp; omega)]

/-- Seven words and the first data sentence. -/
example : encode (getWords [["ut", "+", "u", "*", "ux"], ["ut", "+", "ux"]]) ["ut", "+", "ux"] = some [6, 2, 8] := by decide +kernel

end Verif.EqGpt.Augment.Claims
