import Verif.Viz.Containers
/-!
# C207: what the data containers of kd.viz accept

A container is built exactly if its arrays fit together, and then it holds what was given.
-/
namespace Verif.Viz.Containers

/-! ## Specification -/

/-- `a` is not above `b`: both numbers, in the order of the extended line. -/
def Le : Num → Num → Prop
  | .nan, _ => False
  | _, .nan => False
  | .ninf, _ => True
  | _, .pinf => True
  | .fin a, .fin b => a ≤ b
  | _, _ => False

/-- A given array has the shape of the steps. -/
def Fits (steps : Arr) (a : Option Arr) : Prop := ∀ b, a = some b → b.shape = steps.shape

/-- The time lies between two of the times measured. -/
def Inside (t : List Num) (s : Num) : Prop := (∃ a ∈ t, Le a s) ∧ ∃ b ∈ t, Le s b

/-! ## Histories -/

private theorem checkOpt_iff (s : Arr) (a r : Option Arr) : checkOpt s a = .ok r ↔ Fits s a ∧ r = a := by
  cases a with
  | none => simp [checkOpt, Fits, eq_comm]
  | some a =>
    by_cases h : a.shape = s.shape
    · simp [checkOpt, Fits, h, eq_comm]
    · simp [checkOpt, Fits, h]

private theorem checkOpt_error (s : Arr) (a : Option Arr) (e : Exn) : checkOpt s a = .error e ↔ ¬ Fits s a ∧ e = .value := by
  cases a with
  | none => simp [checkOpt, Fits]
  | some a =>
    by_cases h : a.shape = s.shape
    · simp [checkOpt, Fits, h]
    · simp only [checkOpt, Fits, ne_eq, h, not_false_eq_true, if_true, Except.error.injEq]
      constructor
      · rintro rfl
        exact ⟨fun k => h (k a rfl), rfl⟩
      · rintro ⟨_, rfl⟩
        rfl

/-- A history is built exactly if every array given has the shape of the steps, and holds them unchanged; otherwise ValueError. -/
theorem C207_history (s o : Arr) (c p m : Option Arr) :
    (∀ h, mkHistory s o c p m = .ok h ↔ (o.shape = s.shape ∧ Fits s c ∧ Fits s p ∧ Fits s m) ∧ h = ⟨s, o, c, p, m⟩) ∧
    (∀ e, mkHistory s o c p m = .error e ↔ ¬ (o.shape = s.shape ∧ Fits s c ∧ Fits s p ∧ Fits s m) ∧ e = .value) := by
  unfold mkHistory
  by_cases ho : o.shape = s.shape
  · rw [if_neg (fun h => h ho.symm)]
    rcases hc : checkOpt s c with e | c'
    · have := (checkOpt_error s c e).1 hc
      simp [this.1, this.2, eq_comm]
    · have hc := (checkOpt_iff s c c').1 hc
      rcases hp : checkOpt s p with e | p'
      · have := (checkOpt_error s p e).1 hp
        simp [this.1, this.2, eq_comm]
      · have hp := (checkOpt_iff s p p').1 hp
        rcases hm : checkOpt s m with e | m'
        · have := (checkOpt_error s m e).1 hm
          simp [this.1, this.2, eq_comm]
        · have hm := (checkOpt_iff s m m').1 hm
          simp [ho, hc.1, hp.1, hm.1, hc.2, hp.2, hm.2, eq_comm]
  · rw [if_pos (fun h => ho h.symm)]
    simp [ho, eq_comm]

/-- The same for the evolution of the reward. -/
theorem C207_reward (s o : Arr) (a b : Option Arr) :
    (∀ h, mkReward s o a b = .ok h ↔ (o.shape = s.shape ∧ Fits s a ∧ Fits s b) ∧ h = ⟨s, o, a, b⟩) ∧
    (∀ e, mkReward s o a b = .error e ↔ ¬ (o.shape = s.shape ∧ Fits s a ∧ Fits s b) ∧ e = .value) := by
  unfold mkReward
  by_cases ho : o.shape = s.shape
  · rw [if_neg (fun h => h ho.symm)]
    rcases hc : checkOpt s a with e | c'
    · have := (checkOpt_error s a e).1 hc
      simp [this.1, this.2, eq_comm]
    · have hc := (checkOpt_iff s a c').1 hc
      rcases hp : checkOpt s b with e | p'
      · have := (checkOpt_error s b e).1 hp
        simp [this.1, this.2, eq_comm]
      · have hp := (checkOpt_iff s b p').1 hp
        simp [ho, hc.1, hp.1, hc.2, hp.2, eq_comm]
  · rw [if_pos (fun h => ho h.symm)]
    simp [ho, eq_comm]

/-- Cases: three steps with a complexity; a complexity of two entries is refused. -/
theorem C207_history_demo :
    mkHistory ⟨[3], [.fin 0, .fin 1, .fin 2]⟩ ⟨[3], [.fin 5, .nan, .fin 2]⟩ (some ⟨[3], [.fin 1, .fin 1, .fin 2]⟩) none none =
      .ok ⟨⟨[3], [.fin 0, .fin 1, .fin 2]⟩, ⟨[3], [.fin 5, .nan, .fin 2]⟩, some ⟨[3], [.fin 1, .fin 1, .fin 2]⟩, none, none⟩ ∧
    mkHistory ⟨[3], [.fin 0, .fin 1, .fin 2]⟩ ⟨[3], [.fin 5, .nan, .fin 2]⟩ (some ⟨[2], [.fin 1, .fin 1]⟩) none none = .error .value ∧
    mkReward ⟨[1], [.fin 0]⟩ ⟨[1], [.fin 5]⟩ none (some ⟨[1, 1], [.fin 1]⟩) = .error .value := ⟨rfl, rfl, rfl⟩

/-! ## Terms -/

private theorem checkTerms_iff (n : Nat) (l : List Term) :
    (checkTerms n l = .ok () ↔ ∀ t ∈ l, t.values.length = n) ∧ (∀ e, checkTerms n l = .error e → e = .value) := by
  induction l with
  | nil => exact ⟨by simp [checkTerms], fun e h => by simp [checkTerms] at h⟩
  | cons t l ih =>
    by_cases h : t.values.length = n
    · simpa [checkTerms, h] using ih
    · constructor
      · simp [checkTerms, h]
      · intro e he
        simp [checkTerms, h] at he
        exact he.symm

/-- Terms are accepted exactly if there is at least one and each has, flattened in C order, as many values as the left-hand side;
they are kept in order with their labels and coefficients; otherwise ValueError. -/
theorem C207_terms (lhs : Arr) (label : String) (l : List (String × Arr × Num)) :
    let ts := l.map fun p => mkTerm p.1 p.2.1 p.2.2
    let good := l ≠ [] ∧ ∀ p ∈ l, p.2.1.vals.length = lhs.vals.length
    (∀ r, mkTerms lhs label ts = .ok r ↔ good ∧
      r = ⟨lhs.vals, label, l.map fun p => ⟨p.1, p.2.1.vals, p.2.2⟩⟩) ∧
    (∀ e, mkTerms lhs label ts = .error e ↔ ¬ good ∧ e = .value) := by
  intro ts good
  have hmem : (∀ t ∈ ts, t.values.length = lhs.vals.length) ↔ ∀ p ∈ l, p.2.1.vals.length = lhs.vals.length := by
    simp only [ts, List.mem_map, mkTerm]
    constructor
    · intro h p hp
      exact h _ ⟨p, hp, rfl⟩
    · rintro h t ⟨p, hp, rfl⟩
      exact h p hp
  have hts : ts = l.map fun p => (⟨p.1, p.2.1.vals, p.2.2⟩ : Term) := rfl
  have hck := checkTerms_iff lhs.vals.length ts
  unfold mkTerms
  by_cases hl : l = []
  · subst hl
    simp [ts, good, eq_comm]
  · have hne : ts.isEmpty = false := by
      cases l with
      | nil => exact absurd rfl hl
      | cons p l => rfl
    rw [hne]
    rcases hc : checkTerms lhs.vals.length ts with e | u
    · have he := hck.2 e hc
      have hbad : ¬ ∀ p ∈ l, p.2.1.vals.length = lhs.vals.length := by
        intro h
        rw [hck.1.2 (hmem.2 h)] at hc
        exact nomatch hc
      have hg : ¬ good := fun h => hbad h.2
      simp [hg, he, eq_comm]
    · have hg : good := ⟨hl, hmem.1 (hck.1.1 hc)⟩
      simp [hg, ← hts, eq_comm]

/-- A case: a 2×2 field is flattened and compared with four values. -/
theorem C207_terms_demo :
    mkTerms ⟨[4], [.fin 1, .fin 2, .fin 3, .fin 4]⟩ "u_t" [mkTerm "u" ⟨[2, 2], [.fin 1, .fin 0, .fin 3, .fin 0]⟩ (.fin 2)] =
      .ok ⟨[.fin 1, .fin 2, .fin 3, .fin 4], "u_t", [⟨"u", [.fin 1, .fin 0, .fin 3, .fin 0], .fin 2⟩]⟩ ∧
    mkTerms ⟨[1], [.fin 1]⟩ "u_t" [] = .error .value := ⟨rfl, rfl⟩

/-! ## Coordinates -/

private theorem flat_nums (l : List Num) : flat (l.map Item.num) = .ok l := by
  induction l with
  | nil => rfl
  | cons q l ih => simp [flat, ih]

private theorem flat_bad (l : List Item) (h : ∃ i ∈ l, ∀ q, i ≠ .num q) : flat l = .error .value := by
  induction l with
  | nil => simp at h
  | cons i l ih =>
    cases i with
    | arr a => rfl
    | seq a => rfl
    | num q =>
      obtain ⟨i, hi, hq⟩ := h
      rcases List.mem_cons.1 hi with rfl | hi
      · exact absurd rfl (hq q)
      · simp [flat, ih ⟨i, hi, hq⟩]

/-- An array is one axis; numbers in a list are one axis; a list that begins with an array or a list holds one axis per entry; a list
that begins with a number and goes on with a sequence is refused. -/
theorem C207_axes :
    (∀ a, normalize (.arr a) = .ok [a]) ∧
    (∀ l : List Num, normalize (.list (l.map Item.num)) = .ok [⟨[l.length], l⟩]) ∧
    (∀ (i : Item) (l : List Item), (∀ q, i ≠ .num q) → normalize (.list (i :: l)) = .ok ((i :: l).map Item.asarray)) ∧
    (∀ (q : Num) (l : List Item), (∃ i ∈ l, ∀ q, i ≠ .num q) → normalize (.list (.num q :: l)) = .error .value) := by
  refine ⟨fun a => rfl, ?_, ?_, ?_⟩
  · intro l
    cases l with
    | nil => rfl
    | cons q l =>
      have h := flat_nums (q :: l)
      simp only [List.map_cons] at h ⊢
      simp only [normalize, h]
  · intro i l h
    cases i with
    | arr a => rfl
    | seq a => rfl
    | num q => exact absurd rfl (h q)
  · intro q l ⟨i, hi, hq⟩
    simp only [normalize, flat_bad (.num q :: l) ⟨i, List.mem_cons_of_mem _ hi, hq⟩]

/-- Without coordinates the container is refused with TypeError; `x_coords` is read only if `spatial_coords` is absent. -/
theorem C207_coords_given (t truth predicted times : Arr) (c : Coords) (x : Option Coords) :
    mkSlices none none t truth predicted times = .error .type ∧
    mkSlices (some c) x t truth predicted times = mkSlices (some c) none t truth predicted times ∧
    mkSlices none (some c) t truth predicted times = mkSlices (some c) none t truth predicted times := ⟨rfl, rfl, rfl⟩

/-- Two axes of two and three points passed as separate arrays fit a field of shape (2, 3, 1); two axes of two points each stacked in
one array are taken for a single axis of four points. -/
theorem C207_stacked_counterexample :
    (∃ r, mkSlices (some (.list [.seq [.fin 0, .fin 1], .arr ⟨[3], [.fin 0, .fin 1, .fin 2]⟩])) none ⟨[1], [.fin 0]⟩
      ⟨[2, 3, 1], List.replicate 6 (.fin 1)⟩ ⟨[2, 3, 1], List.replicate 6 (.fin 1)⟩ ⟨[1], [.fin 0]⟩ = .ok r) ∧
    (∃ r, mkSlices (some (.list [.seq [.fin 0, .fin 1], .seq [.fin 0, .fin 1]])) none ⟨[1], [.fin 0]⟩
      ⟨[2, 2, 1], List.replicate 4 (.fin 1)⟩ ⟨[2, 2, 1], List.replicate 4 (.fin 1)⟩ ⟨[1], [.fin 0]⟩ = .ok r) ∧
    mkSlices (some (.arr ⟨[2, 2], [.fin 0, .fin 1, .fin 0, .fin 1]⟩)) none ⟨[1], [.fin 0]⟩
      ⟨[2, 2, 1], List.replicate 4 (.fin 1)⟩ ⟨[2, 2, 1], List.replicate 4 (.fin 1)⟩ ⟨[1], [.fin 0]⟩ = .error .value :=
  ⟨⟨_, rfl⟩, ⟨_, rfl⟩, rfl⟩

/-! ## Time slices -/

private theorem le_iff (a b : Num) (ha : a ≠ .nan) (hb : b ≠ .nan) : Le a b ↔ b.lt a = false := by
  cases a <;> cases b <;> simp_all [Le, Num.lt, Rat.not_lt]

private theorem le_refl (a : Num) (ha : a ≠ .nan) : Le a a := by
  cases a <;> simp_all [Le]

private theorem le_trans {a b c : Num} (h : Le a b) (k : Le b c) : Le a c := by
  cases a <;> cases b <;> cases c <;> simp_all [Le]
  exact Rat.le_trans h k

private theorem lt_le {a b : Num} (h : a.lt b = true) : Le a b := by
  cases a <;> cases b <;> simp_all [Le, Num.lt]
  exact Rat.le_of_lt h

private theorem minL_spec (l : List Num) : ∀ m, m ≠ .nan → .nan ∉ l →
    minL m l ∈ m :: l ∧ ∀ v ∈ m :: l, Le (minL m l) v := by
  induction l with
  | nil => intro m hm _; exact ⟨by simp [minL], by simp [minL, le_refl m hm]⟩
  | cons v l ih =>
    intro m hm hn
    have hv : v ≠ .nan := fun h => hn (h ▸ List.mem_cons_self)
    have hl : Num.nan ∉ l := fun h => hn (List.mem_cons_of_mem _ h)
    simp only [minL, if_neg hm, if_neg hv]
    by_cases h : v.lt m = true
    · rw [if_pos h]
      obtain ⟨h1, h2⟩ := ih v hv hl
      refine ⟨List.mem_cons_of_mem _ h1, ?_⟩
      intro w hw
      rcases List.mem_cons.1 hw with rfl | hw
      · exact le_trans (h2 v List.mem_cons_self) (lt_le h)
      · exact h2 w hw
    · rw [if_neg h]
      obtain ⟨h1, h2⟩ := ih m hm hl
      have hmv : Le m v := (le_iff m v hm hv).2 (by simpa using h)
      refine ⟨?_, ?_⟩
      · rcases List.mem_cons.1 h1 with h1 | h1
        · rw [h1]; exact List.mem_cons_self
        · exact List.mem_cons_of_mem _ (List.mem_cons_of_mem _ h1)
      · intro w hw
        rcases List.mem_cons.1 hw with rfl | hw
        · exact h2 w List.mem_cons_self
        rcases List.mem_cons.1 hw with rfl | hw
        · exact le_trans (h2 m List.mem_cons_self) hmv
        · exact h2 w (List.mem_cons_of_mem _ hw)

private theorem maxL_spec (l : List Num) : ∀ m, m ≠ .nan → .nan ∉ l →
    maxL m l ∈ m :: l ∧ ∀ v ∈ m :: l, Le v (maxL m l) := by
  induction l with
  | nil => intro m hm _; exact ⟨by simp [maxL], by simp [maxL, le_refl m hm]⟩
  | cons v l ih =>
    intro m hm hn
    have hv : v ≠ .nan := fun h => hn (h ▸ List.mem_cons_self)
    have hl : Num.nan ∉ l := fun h => hn (List.mem_cons_of_mem _ h)
    simp only [maxL, if_neg hm, if_neg hv]
    by_cases h : m.lt v = true
    · rw [if_pos h]
      obtain ⟨h1, h2⟩ := ih v hv hl
      refine ⟨List.mem_cons_of_mem _ h1, ?_⟩
      intro w hw
      rcases List.mem_cons.1 hw with rfl | hw
      · exact le_trans (lt_le h) (h2 v List.mem_cons_self)
      · exact h2 w hw
    · rw [if_neg h]
      obtain ⟨h1, h2⟩ := ih m hm hl
      have hmv : Le v m := (le_iff v m hv hm).2 (by simpa using h)
      refine ⟨?_, ?_⟩
      · rcases List.mem_cons.1 h1 with h1 | h1
        · rw [h1]; exact List.mem_cons_self
        · exact List.mem_cons_of_mem _ (List.mem_cons_of_mem _ h1)
      · intro w hw
        rcases List.mem_cons.1 hw with rfl | hw
        · exact h2 w List.mem_cons_self
        rcases List.mem_cons.1 hw with rfl | hw
        · exact le_trans hmv (h2 m List.mem_cons_self)
        · exact h2 w (List.mem_cons_of_mem _ hw)

/-- Time slices without NaN are accepted exactly if both fields have one entry per point of the axes and the times, there is a time,
and every slice time lies between two of the times; the container then holds what was given.  (Missing: NaN, see below.) -/
theorem C207_slices_partial (c : Coords) (axes : List Arr) (hc : normalize c = .ok axes) (t truth predicted times : Arr)
    (ht : .nan ∉ t.vals) (hs : .nan ∉ times.vals) :
    let good := predicted.shape = truth.shape ∧ truth.shape = axes.map (fun a => a.vals.length) ++ [t.vals.length] ∧ t.vals ≠ [] ∧
      ∀ s ∈ times.vals, Inside t.vals s
    (∀ r, mkSlices (some c) none t truth predicted times = .ok r ↔ good ∧ r = ⟨axes, t, truth, predicted, times⟩) ∧
    (∀ e, mkSlices (some c) none t truth predicted times = .error e ↔ ¬ good ∧ e = .value) := by
  intro good
  unfold mkSlices
  simp only [chosen, hc]
  by_cases h1 : predicted.shape = truth.shape
  · rw [if_neg (fun h => h h1.symm)]
    by_cases h2 : truth.shape = axes.map (fun a => a.vals.length) ++ [t.vals.length]
    · rw [if_neg (fun h => h h2)]
      rcases hv : t.vals with _ | ⟨t0, tr⟩
      · have hg : ¬ good := fun h => h.2.2.1 hv
        simp [hg, eq_comm]
      · rw [hv] at ht
        have h0 : t0 ≠ .nan := fun h => ht (h ▸ List.mem_cons_self)
        have hr : Num.nan ∉ tr := fun h => ht (List.mem_cons_of_mem _ h)
        obtain ⟨a1, a2⟩ := minL_spec tr t0 h0 hr
        obtain ⟨b1, b2⟩ := maxL_spec tr t0 h0 hr
        have amin : minL t0 tr ≠ .nan := fun h => ht (h ▸ a1)
        have bmax : maxL t0 tr ≠ .nan := fun h => ht (h ▸ b1)
        have key : (times.vals.any (fun s => s.lt (minL t0 tr)) || times.vals.any (fun s => (maxL t0 tr).lt s)) = false ↔
            ∀ s ∈ times.vals, Inside (t0 :: tr) s := by
          simp only [Bool.or_eq_false_iff, List.any_eq_false]
          constructor
          · rintro ⟨p, q⟩ s hs'
            have hsn : s ≠ .nan := fun h => hs (h ▸ hs')
            exact ⟨⟨_, a1, (le_iff _ _ amin hsn).2 (by simpa using p s hs')⟩,
              ⟨_, b1, (le_iff _ _ hsn bmax).2 (by simpa using q s hs')⟩⟩
          · intro h
            constructor
            · intro s hs'
              have hsn : s ≠ .nan := fun h => hs (h ▸ hs')
              obtain ⟨⟨a, ha, has⟩, _⟩ := h s hs'
              have := (le_iff _ _ amin hsn).1 (le_trans (a2 a ha) has)
              simp [this]
            · intro s hs'
              have hsn : s ≠ .nan := fun h => hs (h ▸ hs')
              obtain ⟨_, ⟨b, hb, hbs⟩⟩ := h s hs'
              have := (le_iff _ _ hsn bmax).1 (le_trans hbs (b2 b hb))
              simp [this]
        by_cases hb : (times.vals.any (fun s => s.lt (minL t0 tr)) || times.vals.any (fun s => (maxL t0 tr).lt s)) = false
        · have hg : good := ⟨h1, h2, by rw [hv]; simp, by rw [hv]; exact key.1 hb⟩
          simp only [hb]
          simp [hg, eq_comm]
        · have hg : ¬ good := fun h => hb (key.2 (by have := h.2.2.2; rwa [hv] at this))
          simp only [Bool.not_eq_false] at hb
          simp only [hb]
          simp [hg, eq_comm]
    · have hg : ¬ good := fun h => h2 h.2.1
      rw [if_pos h2]
      simp [hg, eq_comm]
  · have hg : ¬ good := fun h => h1 h.1
    rw [if_pos (fun h => h1 h.symm)]
    simp [hg, eq_comm]

/-- A case: times 0 and 1, a slice at 1/2 is accepted, one at 2 is refused. -/
theorem C207_slices_demo :
    mkSlices (some (.list [.num (.fin 0), .num (.fin 1)])) none ⟨[2], [.fin 0, .fin 1]⟩ ⟨[2, 2], List.replicate 4 (.fin 1)⟩
      ⟨[2, 2], List.replicate 4 (.fin 1)⟩ ⟨[1], [.fin (1/2)]⟩ =
        .ok ⟨[⟨[2], [.fin 0, .fin 1]⟩], ⟨[2], [.fin 0, .fin 1]⟩, ⟨[2, 2], List.replicate 4 (.fin 1)⟩,
          ⟨[2, 2], List.replicate 4 (.fin 1)⟩, ⟨[1], [.fin (1/2)]⟩⟩ ∧
    mkSlices (some (.list [.num (.fin 0), .num (.fin 1)])) none ⟨[2], [.fin 0, .fin 1]⟩ ⟨[2, 2], List.replicate 4 (.fin 1)⟩
      ⟨[2, 2], List.replicate 4 (.fin 1)⟩ ⟨[1], [.fin 2]⟩ = .error .value := by
  refine ⟨?_, rfl⟩
  have h1 : ¬ ((1/2 : Rat) < 0) := by decide +kernel
  have h2 : ¬ ((1 : Rat) < 1/2) := by decide +kernel
  have h3 : ((0 : Rat) < 1) := by decide +kernel
  have h4 : ¬ ((1 : Rat) < 0) := by decide +kernel
  simp [mkSlices, chosen, normalize, flat, minL, maxL, Num.lt, h1, h2, h3, h4]

/-- NaN passes the range check: a slice time NaN is accepted, and one NaN among the times lets every slice time through. -/
theorem C207_nan_counterexample :
    (∃ r, mkSlices (some (.list [.num (.fin 0)])) none ⟨[1], [.fin 0]⟩ ⟨[1, 1], [.fin 1]⟩ ⟨[1, 1], [.fin 1]⟩ ⟨[1], [.nan]⟩ = .ok r) ∧
    (∀ s : Num, ∃ r, mkSlices (some (.list [.num (.fin 0)])) none ⟨[2], [.fin 0, .nan]⟩ ⟨[1, 2], [.fin 1, .fin 1]⟩
      ⟨[1, 2], [.fin 1, .fin 1]⟩ ⟨[1], [s]⟩ = .ok r) := by
  refine ⟨⟨_, rfl⟩, fun s => ?_⟩
  cases s <;> exact ⟨_, rfl⟩

end Verif.Viz.Containers
