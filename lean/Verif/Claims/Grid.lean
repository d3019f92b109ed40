import Verif.Sga.Grid
/-!
# C37, C40: grid steps, edge deletion, choice of the target
-/
namespace Verif.Claims
open Verif.Sga

/-! ## C37 -/

theorem diffs_all_pos : ∀ l : List Rat, (∀ d ∈ diffs l, 0 < d) → l.Pairwise (· < ·) := by
  intro l
  induction l with
  | nil => intro _; exact .nil
  | cons a l ih =>
    intro h
    cases l with
    | nil => simp
    | cons b r =>
      have h1 := ih fun d hd => h d (by simp [diffs, hd])
      have hab : a < b := by
        have := h (b - a) (by simp [diffs])
        grind
      rw [List.pairwise_cons] at h1 ⊢
      refine ⟨?_, List.pairwise_cons.2 h1⟩
      intro x hx
      simp at hx
      rcases hx with rfl | hx
      · exact hab
      · have := h1.1 x hx; grind

theorem diffs_all_neg : ∀ l : List Rat, (∀ d ∈ diffs l, d < 0) → l.Pairwise (fun a b => b < a) := by
  intro l
  induction l with
  | nil => intro _; exact .nil
  | cons a l ih =>
    intro h
    cases l with
    | nil => simp
    | cons b r =>
      have h1 := ih fun d hd => h d (by simp [diffs, hd])
      have hab : b < a := by
        have := h (b - a) (by simp [diffs])
        grind
      rw [List.pairwise_cons] at h1 ⊢
      refine ⟨?_, List.pairwise_cons.2 h1⟩
      intro x hx
      simp at hx
      rcases hx with rfl | hx
      · exact hab
      · have := h1.1 x hx; grind

theorem diffs_of_lt : ∀ l : List Rat, l.Pairwise (· < ·) → ∀ d ∈ diffs l, 0 < d := by
  intro l
  induction l with
  | nil => intro _ d hd; simp [diffs] at hd
  | cons a l ih =>
    intro h d hd
    cases l with
    | nil => simp [diffs] at hd
    | cons b r =>
      rw [List.pairwise_cons] at h
      simp [diffs] at hd
      rcases hd with rfl | hd
      · have := h.1 b (by simp); grind
      · exact ih h.2 d hd

theorem diffs_of_gt : ∀ l : List Rat, l.Pairwise (fun a b => b < a) → ∀ d ∈ diffs l, d < 0 := by
  intro l
  induction l with
  | nil => intro _ d hd; simp [diffs] at hd
  | cons a l ih =>
    intro h d hd
    cases l with
    | nil => simp [diffs] at hd
    | cons b r =>
      rw [List.pairwise_cons] at h
      simp [diffs] at hd
      rcases hd with rfl | hd
      · have := h.1 b (by simp); grind
      · exact ih h.2 d hd

/-- **C37**, grid step: an axis with at least two points is accepted exactly when its coordinates are strictly increasing or
strictly decreasing, and then the step is the (nonzero) difference of the first two coordinates. -/
theorem C37_delta (a b : Rat) (r : List Rat) :
    ((computeDelta (a :: b :: r)).isSome ↔
      (a :: b :: r).Pairwise (· < ·) ∨ (a :: b :: r).Pairwise (fun x y => y < x)) ∧
    ∀ d, computeDelta (a :: b :: r) = some d → d = b - a ∧ d ≠ 0 := by
  have hc : computeDelta (a :: b :: r) =
      if (diffs (a :: b :: r)).any (· == 0) then none
      else if !((diffs (a :: b :: r)).all (fun d => decide (0 < d)) || (diffs (a :: b :: r)).all (fun d => decide (d < 0))) then none
      else some (b - a) := by
    have hl : ¬ (a :: b :: r).length < 2 := by simp
    unfold computeDelta
    rw [if_neg hl]
    rfl
  constructor
  · rw [hc]
    constructor
    · intro h
      split at h
      · simp at h
      · split at h
        · simp at h
        · rename_i h2
          simp only [Bool.not_eq_true', Bool.not_eq_false, Bool.or_eq_true, List.all_eq_true, decide_eq_true_eq] at h2
          rcases h2 with h2 | h2
          · exact Or.inl (diffs_all_pos _ h2)
          · exact Or.inr (diffs_all_neg _ h2)
    · rintro (h | h)
      · have hp := diffs_of_lt _ h
        rw [if_neg, if_neg]
        · rfl
        · simp only [Bool.not_eq_true', Bool.not_eq_false, Bool.or_eq_true, List.all_eq_true, decide_eq_true_eq]
          exact Or.inl hp
        · simp only [List.any_eq_true, beq_iff_eq, not_exists, not_and]
          intro x hx e; have := hp x hx; grind
      · have hp := diffs_of_gt _ h
        rw [if_neg, if_neg]
        · rfl
        · simp only [Bool.not_eq_true', Bool.not_eq_false, Bool.or_eq_true, List.all_eq_true, decide_eq_true_eq]
          exact Or.inr hp
        · simp only [List.any_eq_true, beq_iff_eq, not_exists, not_and]
          intro x hx e; have := hp x hx; grind
  · intro d hd
    rw [hc] at hd
    split at hd
    · simp at hd
    · rename_i h1
      split at hd
      · simp at hd
      · simp at hd
        refine ⟨hd.symm, ?_⟩
        intro e
        apply h1
        rw [List.any_eq_true]
        exact ⟨b - a, by simp [diffs], by rw [hd, e]; rfl⟩

theorem cut_length {α : Type} (l : List α) : (cut l.length l).length = l.length * 9 / 10 - l.length / 10 := by
  simp only [cut, List.length_drop, List.length_take]
  omega

theorem cut_get {α : Type} (l : List α) (i : Nat) (h : i < l.length * 9 / 10 - l.length / 10) :
    (cut l.length l)[i]? = l[l.length / 10 + i]? := by
  simp only [cut, List.getElem?_drop]
  rw [List.getElem?_take_of_lt (by omega)]

/-- Every field has one row per point of axis 0 and one column per point of axis 1. -/
def Fits2 {V : Type} (g : Grid2 V) (f : List (List V)) : Prop :=
  f.length = g.axis0.length ∧ ∀ r ∈ f, r.length = g.axis1.length

/-- **C37**, edge deletion: with a consistent grid the trimmed grid is consistent again; the trimmed x axis is the contiguous
block of the points number `⌊n/10⌋` to `⌊9n/10⌋ - 1`; and every kept value is the value the same field had at the same
coordinates. -/
theorem C37_edge_partial {V : Type} (g : Grid2 V) (hf : ∀ p ∈ g.fields, Fits2 g p.2) :
    (∀ p ∈ (applyEdge g).fields, Fits2 (applyEdge g) p.2) ∧
    (applyEdge g).fields.map (·.1) = g.fields.map (·.1) ∧
    ∀ (k : Nat) (p : String × List (List V)), g.fields[k]? = some p →
      ∃ q, (applyEdge g).fields[k]? = some q ∧
        ∀ i j, i < (applyEdge g).axis0.length → j < (applyEdge g).axis1.length →
          let s0 := if g.xFirst then g.axis0.length / 10 else 0
          let s1 := if g.xFirst then 0 else g.axis1.length / 10
          (applyEdge g).axis0[i]? = g.axis0[s0 + i]? ∧ (applyEdge g).axis1[j]? = g.axis1[s1 + j]? ∧
          (q.2[i]?.bind (·[j]?)) = (p.2[s0 + i]?.bind (·[s1 + j]?)) ∧ (q.2[i]?.bind (·[j]?)).isSome := by
  have one : ∀ p ∈ g.fields, Fits2 (applyEdge g) (cutField g.xFirst (if g.xFirst then g.axis0.length else g.axis1.length) p.2) := by
    intro p hp
    obtain ⟨h1, h2⟩ := hf p hp
    cases hx : g.xFirst with
    | true =>
      simp only [applyEdge, hx, if_true, cutField, Fits2]
      refine ⟨by rw [← h1, cut_length, h1, cut_length], ?_⟩
      intro r hr
      exact h2 r (List.mem_of_mem_take (List.mem_of_mem_drop hr))
    | false =>
      simp only [applyEdge, hx, if_false, cutField, Fits2, Bool.false_eq_true]
      refine ⟨by simpa using h1, ?_⟩
      intro r hr
      simp only [List.mem_map] at hr
      obtain ⟨r0, hr0, rfl⟩ := hr
      rw [← h2 r0 hr0, cut_length, h2 r0 hr0, cut_length]
  refine ⟨?_, ?_, ?_⟩
  · intro p hp
    simp only [applyEdge, List.mem_map] at hp
    obtain ⟨q, hq, rfl⟩ := hp
    exact one q hq
  · simp [applyEdge]
  · intro k p hk
    obtain ⟨h1, h2⟩ := hf p (List.mem_of_getElem? hk)
    have o := one p (List.mem_of_getElem? hk)
    refine ⟨(p.1, cutField g.xFirst (if g.xFirst then g.axis0.length else g.axis1.length) p.2), by simp [applyEdge, hk], ?_⟩
    intro i j hi hj
    have some_ : ∀ (f : List (List V)), Fits2 (applyEdge g) f → (f[i]?.bind (·[j]?)).isSome := by
      intro f ⟨a, b⟩
      have e1 : i < f.length := by omega
      rw [List.getElem?_eq_getElem e1]
      have e2 : j < f[i].length := by rw [b _ (List.getElem_mem e1)]; exact hj
      simp [e2]
    cases hx : g.xFirst with
    | true =>
      simp only [applyEdge, hx, if_true] at hi hj ⊢
      rw [cut_length] at hi
      refine ⟨cut_get _ _ hi, by simp, ?_, ?_⟩
      · simp only [cutField, if_true]
        rw [← h1, cut_get _ _ (by rw [h1]; exact hi), Nat.zero_add]
      · have := some_ _ o; rw [hx] at this; simpa using this
    | false =>
      simp only [applyEdge, hx, if_false, Bool.false_eq_true] at hi hj ⊢
      rw [cut_length] at hj
      refine ⟨by simp, cut_get _ _ hj, ?_, ?_⟩
      · simp only [cutField, if_false, Bool.false_eq_true, Nat.zero_add]
        rw [List.getElem?_map, List.getElem?_eq_getElem (by omega : i < p.2.length)]
        simp only [Option.map_some, Option.bind_some]
        rw [← h2 _ (List.getElem_mem (by omega : i < p.2.length)), cut_get _ _ (by rw [h2 _ (List.getElem_mem (by omega : i < p.2.length))]; exact hj)]
      · have := some_ _ o; rw [hx] at this; simpa using this

/-- **C37**: how many points are kept along each axis. -/
theorem C37_edge_length {V : Type} (g : Grid2 V) :
    (applyEdge g).axis0.length = (if g.xFirst then g.axis0.length * 9 / 10 - g.axis0.length / 10 else g.axis0.length) ∧
    (applyEdge g).axis1.length = (if g.xFirst then g.axis1.length else g.axis1.length * 9 / 10 - g.axis1.length / 10) := by
  cases hx : g.xFirst <;> simp [applyEdge, hx, cut_length]

example : let g : Grid2 Nat := ⟨[("u", (List.range 20).map fun i => [i, i + 1])], [], (List.range 20).map fun (i : Nat) => (i : Rat), [0, 1], true⟩
    (∀ p ∈ g.fields, Fits2 g p.2) ∧ (applyEdge g).axis0.length = 16 := by
  refine ⟨?_, by decide⟩
  intro p hp; simp at hp; subst hp; exact ⟨by decide, by decide⟩

/-- The trimmed axis of at least ten points loses at least one point at each end, and is never longer than before. -/
theorem C37_interior (n : Nat) (h : 10 ≤ n) : 0 < n / 10 ∧ n * 9 / 10 < n ∧ n / 10 < n * 9 / 10 := by omega

/-- **C37** fails for parameter fields: they are not trimmed, so after edge deletion they no longer have the grid's shape. -/
theorem C37_param_counterexample :
    let f : List (List Nat) := (List.range 10).map fun i => [i, i]
    let g : Grid2 Nat := ⟨[("u", f)], [("k", f)], (List.range 10).map fun (i : Nat) => (i : Rat), [0, 1], true⟩
    (∀ p ∈ g.fields, Fits2 g p.2) ∧ (∀ p ∈ g.params, Fits2 g p.2) ∧
    (applyEdge g).params = [("k", f)] ∧ ¬ Fits2 (applyEdge g) f ∧ (applyEdge g).axis0.length = 8 := by
  refine ⟨?_, ?_, rfl, ?_, by decide⟩
  · intro p hp; simp at hp; subst hp; exact ⟨by decide, by decide⟩
  · intro p hp; simp at hp; subst hp; exact ⟨by decide, by decide⟩
  · rintro ⟨h, _⟩; revert h; decide

/-- A one-point axis is trimmed to nothing. -/
theorem C37_single_point_counterexample {α : Type} (a : α) : cut 1 [a] = [] := rfl

example : computeDelta [0, 1 / 2, 2] = some (1 / 2) ∧ computeDelta [3, 2, 2] = none ∧ computeDelta [1, 2, 0] = none := by
  decide +kernel

/-! ## C40 -/

/-- **C40** (legacy datasets): the user's nonempty choices are used; without a choice `u` and `t`. -/
theorem C40_legacy_partial (ut ul : Option String) :
    fitChoice ut ul .legacy = some ((orElse ut fun _ => none).getD "u", (orElse ul fun _ => none).getD "t") := by
  unfold fitChoice popOr
  cases orElse ut (fun _ => none) <;> cases orElse ul (fun _ => none) <;> rfl

/-- **C40** (N-D datasets without an explicit choice): the dataset's target field and axis are used. -/
theorem C40_inferred_partial (t l : String) (ht : t ≠ "") (hl : l ≠ "") : fitChoice none none (.nd t l) = some (t, l) := by
  simp [fitChoice, popOr, orElse, solverKwargs, ht, hl]

/-- **C40** fails for N-D datasets: *every* explicit, nonempty target field or left-hand-side axis makes the call raise. -/
theorem C40_explicit_counterexample (t l s : String) (hs : s ≠ "") (o : Option String) :
    fitChoice (some s) o (.nd t l) = none ∧ fitChoice o (some s) (.nd t l) = none := by
  constructor
  · simp only [fitChoice, popOr, orElse, hs, if_false, solverKwargs]
    cases o with
    | none => simp
    | some y => by_cases hy : y = "" <;> simp [hy]
  · cases o with
    | none => simp [fitChoice, popOr, orElse, hs, solverKwargs]
    | some y => by_cases hy : y = "" <;> simp [fitChoice, popOr, orElse, hs, hy, solverKwargs]

example : fitChoice (some "v") none .legacy = some ("v", "t") ∧ fitChoice none none (.nd "rho" "t") = some ("rho", "t") := by decide

end Verif.Claims
