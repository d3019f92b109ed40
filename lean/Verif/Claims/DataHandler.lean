import Verif.Dataset.Handler
/-!
# C209: loading and cleaning a table
-/
namespace Verif.Dataset.Handler

variable {α : Type} [DecidableEq α]

/-! ## Specification -/

/-- `t'` is `t` cleaned: the rows without missing cells, each once, in the order of their first occurrence. -/
def Cleaned (t t' : List (Row α)) : Prop :=
  (∀ r, r ∈ t' ↔ r ∈ t ∧ none ∉ r) ∧ t'.Pairwise fun a b => t.idxOf a < t.idxOf b

/-! ## Proofs -/

private theorem dropna_mem (t : List (Row α)) (r : Row α) : r ∈ dropna t ↔ r ∈ t ∧ none ∉ r := by
  simp only [dropna, List.mem_filter, List.all_eq_true, and_congr_right_iff]
  intro _
  constructor
  · intro h hn
    exact nomatch h none hn
  · intro h x hx
    cases x with
    | none => exact absurd hx h
    | some v => rfl

private theorem dup_mem (t : List (Row α)) : ∀ (seen : List (Row α)) (r : Row α),
    r ∈ dropDuplicates seen t ↔ r ∈ t ∧ r ∉ seen := by
  induction t with
  | nil => intro seen r; simp [dropDuplicates]
  | cons x t ih =>
    intro seen r
    simp only [dropDuplicates]
    by_cases hx : x ∈ seen
    · rw [if_pos hx, ih]
      constructor
      · rintro ⟨a, b⟩; exact ⟨List.mem_cons_of_mem _ a, b⟩
      · rintro ⟨a, b⟩
        rcases List.mem_cons.1 a with rfl | a
        · exact absurd hx b
        · exact ⟨a, b⟩
    · rw [if_neg hx, List.mem_cons, ih]
      constructor
      · rintro (rfl | ⟨a, b⟩)
        · exact ⟨List.mem_cons_self, hx⟩
        · exact ⟨List.mem_cons_of_mem _ a, fun h => b (List.mem_cons_of_mem _ h)⟩
      · rintro ⟨a, b⟩
        by_cases e : r = x
        · exact Or.inl e
        · rcases List.mem_cons.1 a with h | a
          · exact absurd h e
          · refine Or.inr ⟨a, fun h => ?_⟩
            rcases List.mem_cons.1 h with h | h
            · exact e h
            · exact b h

/-- Filtering keeps the order of first positions. -/
private theorem idxOf_filter (p : Row α → Bool) (t : List (Row α)) : ∀ a b, p a = true → p b = true → a ∈ t →
    (t.filter p).idxOf a < (t.filter p).idxOf b → t.idxOf a < t.idxOf b := by
  induction t with
  | nil => intro a b _ _ h; simp at h
  | cons x t ih =>
    intro a b ha hb hm hlt
    by_cases hxa : x = a
    · subst hxa
      rw [List.filter_cons_of_pos ha] at hlt
      by_cases hxb : x = b
      · subst hxb; simp at hlt
      · simp [List.idxOf_cons, beq_eq_false_iff_ne.2 hxb]
    · have hma : a ∈ t := by
        rcases List.mem_cons.1 hm with h | h
        · exact absurd h.symm hxa
        · exact h
      by_cases hxb : x = b
      · subst hxb
        rw [List.filter_cons_of_pos hb] at hlt
        simp [List.idxOf_cons] at hlt
      · by_cases hp : p x = true
        · rw [List.filter_cons_of_pos hp] at hlt
          simp only [List.idxOf_cons, hxa, hxb, beq_iff_eq, cond_false, beq_eq_false_iff_ne.2 hxa, beq_eq_false_iff_ne.2 hxb] at hlt ⊢
          have := ih a b ha hb hma (by omega)
          omega
        · rw [List.filter_cons_of_neg hp] at hlt
          simp only [List.idxOf_cons, cond_false, beq_eq_false_iff_ne.2 hxa, beq_eq_false_iff_ne.2 hxb]
          have := ih a b ha hb hma hlt
          omega

private theorem dup_order (t : List (Row α)) : ∀ seen : List (Row α),
    (dropDuplicates seen t).Pairwise fun a b => t.idxOf a < t.idxOf b := by
  induction t with
  | nil => intro seen; exact .nil
  | cons x t ih =>
    intro seen
    simp only [dropDuplicates]
    have lift : ∀ (s : List (Row α)), x ∈ s → (dropDuplicates s t).Pairwise fun a b => (x :: t).idxOf a < (x :: t).idxOf b := by
      intro s hs
      refine List.Pairwise.imp_of_mem ?_ (ih s)
      intro a b ha hb hab
      have hxa : x ≠ a := fun e => ((dup_mem t s a).1 ha).2 (e ▸ hs)
      have hxb : x ≠ b := fun e => ((dup_mem t s b).1 hb).2 (e ▸ hs)
      simp only [List.idxOf_cons, cond_false, beq_eq_false_iff_ne.2 hxa, beq_eq_false_iff_ne.2 hxb]
      omega
    by_cases hx : x ∈ seen
    · rw [if_pos hx]
      exact lift seen hx
    · rw [if_neg hx, List.pairwise_cons]
      refine ⟨fun b hb => ?_, lift (x :: seen) List.mem_cons_self⟩
      have hxb : x ≠ b := fun e => ((dup_mem t (x :: seen) b).1 hb).2 (e ▸ List.mem_cons_self)
      simp [List.idxOf_cons, beq_eq_false_iff_ne.2 hxb]

private theorem cleaned (t : List (Row α)) : Cleaned t (dropDuplicates [] (dropna t)) := by
  refine ⟨fun r => ?_, ?_⟩
  · rw [dup_mem, dropna_mem]
    simp
  · refine List.Pairwise.imp_of_mem ?_ (dup_order (dropna t) [])
    intro a b ha hb h
    have ha' := ((dup_mem _ _ _).1 ha).1
    have hb' := ((dup_mem _ _ _).1 hb).1
    exact idxOf_filter _ t a b (List.mem_filter.1 ha').2 (List.mem_filter.1 hb').2 (List.mem_filter.1 ha').1 h

/-- After cleaning, the table handed out is the table from before without incomplete and repeated rows. -/
theorem C209_clean (h : Heap α) (s : Handler) (i : Nat) (hi : s.data = some i) (hb : i < h.length) :
    ∃ t t', get h s = some t ∧ get (clean h s) s = some t' ∧ Cleaned t t' := by
  refine ⟨_, _, by simp only [get, hi, Option.map_some], ?_, cleaned ((h[i]?).getD [])⟩
  simp [get, clean, hi, hb]

/-- A cleaned table is determined, so cleaning again changes nothing. -/
theorem C209_determined (t a b : List (Row α)) (ha : Cleaned t a) (hb : Cleaned t b) : a = b := by
  have hperm : ∀ r, r ∈ a ↔ r ∈ b := fun r => (ha.1 r).trans (hb.1 r).symm
  have key : ∀ (a b : List (Row α)), a.Pairwise (fun x y => t.idxOf x < t.idxOf y) → b.Pairwise (fun x y => t.idxOf x < t.idxOf y) →
      (∀ r, r ∈ a ↔ r ∈ b) → a = b := by
    intro a
    induction a with
    | nil =>
      intro b _ _ h
      cases b with
      | nil => rfl
      | cons y b => exact absurd ((h y).2 List.mem_cons_self) (by simp)
    | cons x a ih =>
      intro b pa pb h
      cases b with
      | nil => exact absurd ((h x).1 List.mem_cons_self) (by simp)
      | cons y b =>
        rw [List.pairwise_cons] at pa pb
        have hxy : x = y := by
          rcases List.mem_cons.1 ((h x).1 List.mem_cons_self) with e | e
          · exact e
          · rcases List.mem_cons.1 ((h y).2 List.mem_cons_self) with e' | e'
            · exact e'.symm
            · have h1 := pb.1 x e
              have h2 := pa.1 y e'
              omega
        subst hxy
        congr 1
        refine ih b pa.2 pb.2 fun r => ?_
        constructor
        · intro hr
          rcases List.mem_cons.1 ((h r).1 (List.mem_cons_of_mem _ hr)) with e | e
          · subst e
            have := pa.1 r hr
            omega
          · exact e
        · intro hr
          rcases List.mem_cons.1 ((h r).2 (List.mem_cons_of_mem _ hr)) with e | e
          · subst e
            have := pb.1 r hr
            omega
          · exact e
  exact key a b ha.2 hb.2 hperm

/-- Loading a table, or a readable path, makes the handler hold a copy of it; a path that cannot be read leaves everything as it was and
raises nothing; any other source raises ValueError.
Partial, of the whole claim: Cleaning, copying and the refusal of other sources are proved for every table and history; a load that fails is not reported, the earlier table stays (C209_stale_counterexample). -/
theorem C209_load_partial (read : String → Option (List (Row α))) (h : Heap α) (s : Handler) :
    (∀ i t, s.source = .frame i → h[i]? = some t → ∃ h' s', load read h s = some (h', s') ∧ get h' s' = some t ∧ s'.source = s.source) ∧
    (∀ p t, s.source = .path p → read p = some t → ∃ h' s', load read h s = some (h', s') ∧ get h' s' = some t ∧ s'.source = s.source) ∧
    (∀ p, s.source = .path p → read p = none → load read h s = some (h, s)) ∧
    (load read h s = none ↔ s.source = .other) := by
  refine ⟨?_, ?_, ?_, ?_⟩
  · intro i t hs ht
    exact ⟨h ++ [t], { s with data := some h.length }, by simp [load, hs, ht], by simp [get], by simp [hs]⟩
  · intro p t hs ht
    exact ⟨h ++ [t], { s with data := some h.length }, by simp [load, hs, ht], by simp [get], by simp [hs]⟩
  · intro p hs hr
    simp [load, hs, hr]
  · unfold load
    cases hs : s.source with
    | path p => cases hr : read p <;> simp [hr]
    | frame i => simp
    | other => simp

private theorem run_keeps (read : String → Option (List (Row α))) (n : Nat) (ops : List Op) : ∀ (h : Heap α) (s : Handler),
    n ≤ h.length → (∀ i, s.data = some i → n ≤ i) → (run read (h, s) ops).1.take n = h.take n := by
  induction ops with
  | nil => intro h s _ _; rfl
  | cons op ops ih =>
    intro h s hn hd
    cases op with
    | load =>
      simp only [run, load]
      cases hs : s.source with
      | path p =>
        cases hr : read p with
        | none => simpa [hr] using ih h s hn hd
        | some t =>
          simp only [hr, Option.getD_some]
          rw [ih _ _ (by simp; omega) (by intro i hi; simp at hi; omega)]
          exact List.take_append_of_le_length hn
      | frame i =>
        simp only [Option.getD_some]
        rw [ih _ _ (by simp; omega) (by intro i hi; simp at hi; omega)]
        exact List.take_append_of_le_length hn
      | other => simpa using ih h s hn hd
    | clean =>
      simp only [run, clean]
      cases hi : s.data with
      | none =>
        rw [ih h s hn hd]
      | some i =>
        have := hd i hi
        simp only
        rw [ih _ s (by simpa using hn) hd]
        rw [List.take_set_of_le this]

/-- Whatever is called on a new handler, in any order and any number of times, the tables that existed before (the user's own among
them) are left alone. -/
theorem C209_source_kept (read : String → Option (List (Row α))) (h : Heap α) (src : Src) (ops : List Op) (i : Nat) (t : List (Row α))
    (ht : h[i]? = some t) : (run read (h, mk src) ops).1[i]? = some t := by
  have hk := run_keeps read h.length ops h (mk src) (Nat.le_refl _) (by intro j hj; simp [mk] at hj)
  have hlt : i < h.length := by
    rcases Nat.lt_or_ge i h.length with a | a
    · exact a
    · rw [List.getElem?_eq_none a] at ht
      exact nomatch ht
  have : ((run read (h, mk src) ops).1.take h.length)[i]? = h[i]? := by rw [hk]; simp
  rw [List.getElem?_take_of_lt hlt] at this
  rw [this, ht]

/-- A case: of four rows, one incomplete and one repeated, two remain; the user's table stays. -/
theorem C209_demo :
    run (fun _ => none) ([[[some 1, some 2], [some 3, none], [some 1, some 2], [some 0, some 0]]], mk (.frame 0)) [.load, .clean] =
      ([[[some 1, some 2], [some 3, none], [some 1, some 2], [some 0, some 0]], [[some 1, some 2], [some 0, some 0]]],
        (⟨.frame 0, some 1⟩ : Handler)) := by
  decide +kernel

/-- A load that fails is not noticed: a handler pointed at a path that cannot be read keeps handing out the table loaded before. -/
theorem C209_stale_counterexample :
    let st := run (fun _ => none) ([[[some 1]]], mk (.frame 0)) [.load]
    let s : Handler := { st.2 with source := .path "missing.csv" }
    load (fun _ => none) st.1 s = some (st.1, s) ∧ get st.1 s = some [[some 1]] := by
  decide +kernel

end Verif.Dataset.Handler
