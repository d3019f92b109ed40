import Mathlib.Tactic.Ring
import Mathlib.Tactic.FieldSimp
import Mathlib.Tactic.NormNum
import Mathlib.Tactic.Linarith
import Mathlib.Data.List.Nodup
import Mathlib.Algebra.Order.Field.Rat
import Verif.Sga.Derivs
import Verif.Claims.FiniteDiff
import Verif.Claims.Grid
import Verif.Claims.SgaTree
/-! C142: SGA's derivatives by finite differences. -/
namespace Verif.Sga.Derivs.Claims
open Verif.Sga Verif.Sga.Derivs Verif.Claims

/-- The evenly spaced coordinates `x0, x0 + h, …`. -/
def even (x0 h : ℚ) (n : Nat) : List ℚ := (List.range n).map fun (i : Nat) => x0 + (i : ℚ) * h

theorem even_delta (x0 h : ℚ) (n : Nat) (hn : 2 ≤ n) (hh : h ≠ 0) : computeDelta (even x0 h n) = some h := by
  obtain ⟨m, rfl⟩ : ∃ m, n = m + 2 := ⟨n - 2, by omega⟩
  have hform : even x0 h (m + 2) = x0 :: (x0 + h) :: ((List.range m).map fun (i : Nat) => x0 + ((i + 2 : Nat) : ℚ) * h) := by
    rw [even, List.range_succ_eq_map, List.range_succ_eq_map]
    simp [Function.comp_def]
    intro i _
    left
    ring
  obtain ⟨h1, h2⟩ := C37_delta x0 (x0 + h) ((List.range m).map fun (i : Nat) => x0 + ((i + 2 : Nat) : ℚ) * h)
  rw [← hform] at h1 h2
  have hsome : (computeDelta (even x0 h (m + 2))).isSome = true := by
    rw [h1, even, List.pairwise_map, List.pairwise_map]
    rcases lt_or_gt_of_ne hh with hneg | hpos
    · right
      refine List.Pairwise.imp ?_ (List.pairwise_lt_range)
      intro a b hab
      have : (a : ℚ) < b := by exact_mod_cast hab
      nlinarith
    · left
      refine List.Pairwise.imp ?_ (List.pairwise_lt_range)
      intro a b hab
      have : (a : ℚ) < b := by exact_mod_cast hab
      nlinarith
  obtain ⟨d, hd⟩ := Option.isSome_iff_exists.1 hsome
  have := (h2 d hd).1
  rw [hd, this]
  congr 1
  ring

/-- The axis number `ax`, called `a`, is evenly spaced with these coordinates. -/
structure Even (p : Problem) (a : String) (ax : Nat) (x0 h : ℚ) (n : Nat) : Prop where
  index : p.index a = some ax
  coords : p.axes.lookup a = some (even x0 h n)
  step : h ≠ 0
  size : 3 ≤ n

theorem d_even (p : Problem) (a : String) (ax : Nat) (x0 h : ℚ) (n : Nat) (he : Even p a ax x0 h n) (data : Arr) :
    p.d a data = some fun idx => ((finiteDiff (line n ax data idx) h).getD []).getD (idx.getD ax 0) 0 := by
  have hn := he.size
  unfold Problem.d
  rw [he.index, he.coords]
  simp only
  rw [even_delta x0 h n (by omega) he.step]
  simp only [along]
  have hl : (even x0 h n).length = n := by simp [even]
  rw [hl, if_neg (by omega)]

/-- Along the line through `idx` the array is this function of the coordinate. -/
def OnLine (n ax : Nat) (x0 h : ℚ) (data : Arr) (idx : List Nat) (f : ℚ → ℚ) : Prop := ∀ k, k < n → data (idx.set ax k) = f (x0 + (k : ℚ) * h)

theorem line_samples (n ax : Nat) (x0 h : ℚ) (data : Arr) (idx : List Nat) (f : ℚ → ℚ) (hl : OnLine n ax x0 h data idx f) :
    line n ax data idx = samples f x0 h n := by
  apply List.map_congr_left
  intro k hk
  exact hl k (List.mem_range.1 hk)

/-- Differentiating a quadratic along a line gives its derivative along the line. -/
theorem d_quadratic (p : Problem) (a : String) (ax : Nat) (x0 h : ℚ) (n : Nat) (he : Even p a ax x0 h n) (data r : Arr) (hr : p.d a data = some r)
    (idx : List Nat) (hax : ax < idx.length) (A B C : ℚ) (hl : OnLine n ax x0 h data idx fun x => A + B * x + C * x ^ 2) :
    OnLine n ax x0 h r idx fun x => B + 2 * C * x := by
  rw [d_even p a ax x0 h n he data] at hr
  cases hr
  intro k hk
  have hline : line n ax data (idx.set ax k) = line n ax data idx := by
    apply List.map_congr_left
    intro j _
    rw [List.set_set]
  simp only [hline]
  rw [line_samples n ax x0 h data idx _ hl, C28_first (by norm_num) A B C x0 h he.step n he.size]
  have : (idx.set ax k).getD ax 0 = k := by simp [List.getD, hax]
  rw [this, Option.getD_some, samples_getD _ _ _ hk]

/-- The value at a point inside is the central difference. -/
theorem d_inner (p : Problem) (a : String) (ax : Nat) (x0 h : ℚ) (n : Nat) (he : Even p a ax x0 h n) (data r : Arr) (hr : p.d a data = some r)
    (idx : List Nat) (hax : ax < idx.length) (k : Nat) (h1 : 1 ≤ k) (h2 : k + 1 < n) :
    r (idx.set ax k) = (data (idx.set ax (k + 1)) - data (idx.set ax (k - 1))) / (2 * h) := by
  rw [d_even p a ax x0 h n he data] at hr
  cases hr
  have hn := he.size
  have hline : line n ax data (idx.set ax k) = line n ax data idx := by
    apply List.map_congr_left
    intro j _
    rw [List.set_set]
  have hg : ∀ j, j < n → (line n ax data idx).getD j 0 = data (idx.set ax j) := by
    intro j hj
    simp [line, List.getD, List.getElem?_range hj]
  have hll : (line n ax data idx).length = n := by simp [line]
  have hk : (idx.set ax k).getD ax 0 = k := by simp [List.getD, hax]
  simp only [hline, hk]
  unfold finiteDiff
  rw [hll, if_neg (by omega), Option.getD_some]
  have : ((List.range n).map fun i =>
      if i = 0 then (-3 / 2 * (line n ax data idx).getD 0 0 + 2 * (line n ax data idx).getD 1 0 - (line n ax data idx).getD 2 0 / 2) / h
      else if i = n - 1 then
        (3 / 2 * (line n ax data idx).getD (n - 1) 0 - 2 * (line n ax data idx).getD (n - 2) 0 + (line n ax data idx).getD (n - 3) 0 / 2) / h
      else ((line n ax data idx).getD (i + 1) 0 - (line n ax data idx).getD (i - 1) 0) / (2 * h)).getD k 0 =
      ((line n ax data idx).getD (k + 1) 0 - (line n ax data idx).getD (k - 1) 0) / (2 * h) := by
    rw [List.getD, List.getElem?_map, List.getElem?_range (by omega)]
    simp only [Option.map_some, Option.getD_some]
    rw [if_neg (by omega), if_neg (by omega)]
  rw [this, hg _ (by omega), hg _ (by omega)]

theorem parts_spec (p : Problem) (q : Parts) (h : p.parts = some q) :
    ∃ u, p.fields.lookup p.target = some u ∧ p.d p.lhs u = some q.ut ∧ p.d p.primary u = some q.ux ∧ p.d p.primary q.ux = some q.uxx ∧
      p.d p.primary q.uxx = some q.uxxx := by
  unfold Problem.parts at h
  cases h0 : p.fields.lookup p.target with
  | none => rw [h0] at h; cases h
  | some u =>
    rw [h0] at h
    simp only at h
    cases h1 : p.d p.lhs u with
    | none => rw [h1] at h; cases h
    | some ut =>
      rw [h1] at h
      simp only at h
      cases h2 : p.d p.primary u with
      | none => rw [h2] at h; cases h
      | some ux =>
        rw [h2] at h
        simp only at h
        cases h3 : p.d p.primary ux with
        | none => rw [h3] at h; cases h
        | some uxx =>
          rw [h3] at h
          simp only at h
          cases h4 : p.d p.primary uxx with
          | none => rw [h4] at h; cases h
          | some uxxx =>
            rw [h4] at h
            cases h
            exact ⟨u, rfl, h1, h2, h3, h4⟩

/-- An axis that can be differentiated along: known, with three points or more in strict order. -/
def Usable (p : Problem) (a : String) : Prop :=
  ∃ c, p.axes.lookup a = some c ∧ 3 ≤ c.length ∧ (c.Pairwise (· < ·) ∨ c.Pairwise (fun x y => y < x))

theorem d_isSome (p : Problem) (a : String) (data : Arr) : (p.d a data).isSome ↔ Usable p a := by
  have hidx : ∀ c, p.axes.lookup a = some c → ∃ i, p.index a = some i := by
    intro c hc
    unfold Problem.index
    cases h : (p.axes.map Prod.fst).idxOf? a with
    | some i => exact ⟨i, rfl⟩
    | none =>
      exfalso
      rw [List.idxOf?_eq_none_iff] at h
      have hn : p.axes.lookup a = none := by
        rw [List.lookup_eq_none_iff]
        intro q hq
        simp only [bne_iff_ne, ne_eq]
        rintro rfl
        exact h (List.mem_map_of_mem hq)
      rw [hn] at hc
      cases hc
  unfold Problem.d Usable
  cases hl : p.axes.lookup a with
  | none => cases p.index a <;> simp
  | some c =>
    obtain ⟨i, hi⟩ := hidx c hl
    rw [hi]
    simp only [Option.some.injEq, exists_eq_left']
    by_cases h3 : 3 ≤ c.length
    · match c, h3 with
      | x :: y :: r, h3 =>
        have hd := (C37_delta x y r).1
        cases hc : computeDelta (x :: y :: r) with
        | none =>
          rw [hc] at hd
          simp only [Option.isSome_none, Bool.false_eq_true, false_iff, not_and]
          intro _ h
          exact absurd (hd.2 h) (by simp)
        | some d =>
          rw [hc] at hd
          simp only [along, if_neg (show ¬ (x :: y :: r).length < 3 by omega), Option.isSome_some, true_iff]
          exact ⟨h3, hd.1 rfl⟩
    · cases computeDelta c with
      | none => simp [h3]
      | some d => simp [along, show c.length < 3 by omega, h3]

/-- **C142** (refusal): the derivatives are computed exactly if the target field exists and the axes of the left-hand side and of space each have at least three points, in strictly
increasing or strictly decreasing order; otherwise construction raises. -/
theorem C142_works_iff (p : Problem) :
    p.parts.isSome ↔ (p.fields.lookup p.target).isSome ∧ Usable p p.lhs ∧ Usable p p.primary := by
  unfold Problem.parts
  cases hu : p.fields.lookup p.target with
  | none => simp
  | some u =>
    simp only
    have e1 := d_isSome p p.lhs u
    cases h1 : p.d p.lhs u with
    | none => rw [h1] at e1; simp at e1; simp [e1]
    | some ut =>
      rw [h1] at e1
      have hl := e1.1 rfl
      have e2 := d_isSome p p.primary u
      cases h2 : p.d p.primary u with
      | none => rw [h2] at e2; simp at e2; simp [e2]
      | some ux =>
        rw [h2] at e2
        have hp := e2.1 rfl
        simp only
        have e3 := (d_isSome p p.primary ux).2 hp
        obtain ⟨uxx, h3⟩ := Option.isSome_iff_exists.1 e3
        rw [h3]
        simp only
        have e4 := (d_isSome p p.primary uxx).2 hp
        obtain ⟨uxxx, h4⟩ := Option.isSome_iff_exists.1 e4
        rw [h4]
        simp [hl, hp]

/-- **C142** (left-hand side): at every grid point the time derivative of the target is exact if, along the time axis through the point, the field
is a quadratic function of time. -/
theorem C142_lhs (p : Problem) (q : Parts) (hq : p.parts = some q) (u : Arr) (hu : p.fields.lookup p.target = some u)
    (ax : Nat) (x0 h : ℚ) (n : Nat) (he : Even p p.lhs ax x0 h n) (idx : List Nat) (hax : ax < idx.length) (hin : idx.getD ax 0 < n) (A B C : ℚ)
    (hl : OnLine n ax x0 h u idx fun x => A + B * x + C * x ^ 2) :
    q.ut idx = B + 2 * C * (x0 + (idx.getD ax 0 : ℚ) * h) := by
  obtain ⟨u', h0, h1, _⟩ := parts_spec p q hq
  rw [hu] at h0
  cases h0
  have := d_quadratic p p.lhs ax x0 h n he u q.ut h1 idx hax A B C hl (idx.getD ax 0) hin
  have hs : idx.set ax (idx.getD ax 0) = idx := by
    rw [List.getD, List.getElem?_eq_getElem hax, Option.getD_some, List.set_getElem_self]
  rwa [hs] at this

/-- **C142** (space): at every grid point u_x, u_xx and u_xxx are exact if the field is a quadratic function of the primary coordinate along the line
through the point. -/
theorem C142_space (p : Problem) (q : Parts) (hq : p.parts = some q) (u : Arr) (hu : p.fields.lookup p.target = some u)
    (ax : Nat) (x0 h : ℚ) (n : Nat) (he : Even p p.primary ax x0 h n) (idx : List Nat) (hax : ax < idx.length) (k : Nat) (hk : k < n) (A B C : ℚ)
    (hl : OnLine n ax x0 h u idx fun x => A + B * x + C * x ^ 2) :
    q.ux (idx.set ax k) = B + 2 * C * (x0 + (k : ℚ) * h) ∧ q.uxx (idx.set ax k) = 2 * C ∧ q.uxxx (idx.set ax k) = 0 := by
  obtain ⟨u', h0, _, h2, h3, h4⟩ := parts_spec p q hq
  rw [hu] at h0
  cases h0
  have l1 := d_quadratic p _ ax x0 h n he u q.ux h2 idx hax A B C hl
  have l2 := d_quadratic p _ ax x0 h n he q.ux q.uxx h3 idx hax B (2 * C) 0 (fun k hk => by rw [l1 k hk]; ring)
  have l3 := d_quadratic p _ ax x0 h n he q.uxx q.uxxx h4 idx hax (2 * C) 0 0 (fun k hk => by rw [l2 k hk]; ring)
  exact ⟨l1 k hk, by rw [l2 k hk]; ring, by rw [l3 k hk]; ring⟩

/-- **C142** (space, inside): for cubics u_xx is exact at all points but the two at each end, and u_xxx at all but the three at each end. -/
theorem C142_cubic_partial (p : Problem) (q : Parts) (hq : p.parts = some q) (u : Arr) (hu : p.fields.lookup p.target = some u)
    (ax : Nat) (x0 h : ℚ) (n : Nat) (he : Even p p.primary ax x0 h n) (idx : List Nat) (hax : ax < idx.length) (A B C E : ℚ)
    (hl : OnLine n ax x0 h u idx fun x => A + B * x + C * x ^ 2 + E * x ^ 3) :
    (∀ k, 2 ≤ k → k + 2 < n → q.uxx (idx.set ax k) = 2 * C + 6 * E * (x0 + (k : ℚ) * h)) ∧
    ∀ k, 3 ≤ k → k + 3 < n → q.uxxx (idx.set ax k) = 6 * E := by
  obtain ⟨u', h0, _, h2, h3, h4⟩ := parts_spec p q hq
  rw [hu] at h0
  cases h0
  have hh := he.step
  have l1 : ∀ k, 1 ≤ k → k + 1 < n → q.ux (idx.set ax k) = B + 2 * C * (x0 + (k : ℚ) * h) + E * (3 * (x0 + (k : ℚ) * h) ^ 2 + h ^ 2) := by
    intro k hk1 hk2
    rw [d_inner p _ ax x0 h n he u q.ux h2 idx hax k hk1 hk2, hl (k + 1) hk2, hl (k - 1) (by omega), Nat.cast_sub hk1]
    push_cast
    field_simp
    ring
  have l2 : ∀ k, 2 ≤ k → k + 2 < n → q.uxx (idx.set ax k) = 2 * C + 6 * E * (x0 + (k : ℚ) * h) := by
    intro k hk1 hk2
    rw [d_inner p _ ax x0 h n he q.ux q.uxx h3 idx hax k (by omega) (by omega), l1 (k + 1) (by omega) (by omega), l1 (k - 1) (by omega) (by omega),
      Nat.cast_sub (by omega)]
    push_cast
    field_simp
    ring
  refine ⟨l2, fun k hk1 hk2 => ?_⟩
  rw [d_inner p _ ax x0 h n he q.uxx q.uxxx h4 idx hax k (by omega) (by omega), l2 (k + 1) (by omega) (by omega), l2 (k - 1) (by omega) (by omega),
    Nat.cast_sub (by omega)]
  push_cast
  field_simp
  ring

/-- The field x³ on x = 0, …, 6 (and three times), constant in time. -/
def cubicProblem : Problem := ⟨[("x", even 0 1 7), ("t", even 0 1 3)], [("u", fun i => ((i.getD 0 0 : Nat) : ℚ) ^ 3)], "t", "u", "x"⟩

/-- **C142 (violated).** Near the ends of the axis u_xx is not second-order accurate (as C28's direct stencil would be): for x³ on 0, …, 6 it is
9/2, 15/2, 12, 18, 24, 57/2, 63/2 instead of 0, 6, 12, 18, 24, 30, 36. -/
theorem C142_edge_counterexample :
    cubicProblem.parts.map (fun q => (List.range 7).map fun k => q.uxx [k, 0]) = some [9 / 2, 15 / 2, 12, 18, 24, 57 / 2, 63 / 2] := by
  have he : Even cubicProblem "x" 0 0 1 7 := ⟨rfl, rfl, by norm_num, by norm_num⟩
  have het : Even cubicProblem "t" 1 0 1 3 := ⟨rfl, rfl, by norm_num, by norm_num⟩
  have h1 := d_even cubicProblem "x" 0 0 1 7 he
  have h2 := d_even cubicProblem "t" 1 0 1 3 het
  have hu : cubicProblem.fields.lookup "u" = some fun i => ((i.getD 0 0 : Nat) : ℚ) ^ 3 := rfl
  unfold Problem.parts
  rw [show cubicProblem.target = "u" from rfl, show cubicProblem.lhs = "t" from rfl, show cubicProblem.primary = "x" from rfl, hu]
  simp only [h1, h2]
  rw [Option.map_some]
  norm_num [List.range_succ, finiteDiff, line, List.getD]

theorem lookup_snoc' {A : Type} (l : List (String × A)) (k : String) (v : A) (f : String) (h : l.lookup k = none) :
    (l ++ [(k, v)]).lookup f = if f = k then some v else l.lookup f := by
  induction l with
  | nil =>
    by_cases h : f = k
    · subst h; simp
    · have : (f == k) = false := by simpa using h
      simp [List.lookup, this, h]
  | cons e l ih =>
    obtain ⟨a, b⟩ := e
    rw [List.lookup_cons] at h
    by_cases hk : (k == a) = true
    · simp [hk] at h
    have hk' : (k == a) = false := by simpa using hk
    simp only [hk'] at h
    rw [List.cons_append, List.lookup_cons, List.lookup_cons]
    by_cases hf : (f == a) = true
    · have : f ≠ k := by
        rintro rfl
        exact hk hf
      simp [hf, this]
    · have hf' : (f == a) = false := by simpa using hf
      simp only [hf']
      exact ih h

theorem gradStep_none (p : Problem) (ux : Arr) (L : List ((String × Arr) × String)) : L.foldl (p.gradStep ux) none = none := by
  induction L with
  | nil => rfl
  | cons e L ih => rw [List.foldl_cons]; exact ih

theorem gradStep_spec (p : Problem) (ux : Arr) (g g' : List (String × Arr)) (fa : (String × Arr) × String) (h : p.gradStep ux (some g) fa = some g') :
    (∀ k, k ≠ dkey fa.1.1 fa.2 → g'.lookup k = g.lookup k) ∧
    ((g.lookup (dkey fa.1.1 fa.2)).isSome = true → g'.lookup (dkey fa.1.1 fa.2) = g.lookup (dkey fa.1.1 fa.2)) ∧
    (g.lookup (dkey fa.1.1 fa.2) = none → if fa.1.1 = p.target ∧ fa.2 = p.primary then g'.lookup (dkey fa.1.1 fa.2) = some ux
      else ∃ w, p.d fa.2 fa.1.2 = some w ∧ g'.lookup (dkey fa.1.1 fa.2) = some w) := by
  unfold Problem.gradStep at h
  simp only at h
  by_cases h1 : (g.lookup (dkey fa.1.1 fa.2)).isSome = true
  · rw [if_pos h1] at h
    cases h
    exact ⟨fun _ _ => rfl, fun _ => rfl, fun h0 => by rw [h0] at h1; cases h1⟩
  · rw [if_neg h1] at h
    have hn : g.lookup (dkey fa.1.1 fa.2) = none := Option.not_isSome_iff_eq_none.1 h1
    by_cases h2 : fa.1.1 = p.target ∧ fa.2 = p.primary
    · rw [if_pos h2] at h
      cases h
      refine ⟨fun k hk => ?_, fun h0 => absurd h0 h1, fun _ => ?_⟩
      · rw [lookup_snoc' _ _ _ _ hn, if_neg hk]
      · rw [if_pos h2, lookup_snoc' _ _ _ _ hn, if_pos rfl]
    · rw [if_neg h2] at h
      cases hd : p.d fa.2 fa.1.2 with
      | none => rw [hd] at h; cases h
      | some w =>
        rw [hd] at h
        cases h
        refine ⟨fun k hk => ?_, fun h0 => absurd h0 h1, fun _ => ?_⟩
        · rw [lookup_snoc' _ _ _ _ hn, if_neg hk]
        · rw [if_neg h2]
          exact ⟨w, rfl, by rw [lookup_snoc' _ _ _ _ hn, if_pos rfl]⟩

theorem fold_spec (p : Problem) (ux : Arr) (L : List ((String × Arr) × String)) (hnd : (L.map fun fa => dkey fa.1.1 fa.2).Nodup) (g g' : List (String × Arr))
    (h : L.foldl (p.gradStep ux) (some g) = some g') :
    (∀ k v, g.lookup k = some v → g'.lookup k = some v) ∧ (∀ k, k ∉ L.map (fun fa => dkey fa.1.1 fa.2) → g'.lookup k = g.lookup k) ∧
    ∀ fa ∈ L, g.lookup (dkey fa.1.1 fa.2) = none → if fa.1.1 = p.target ∧ fa.2 = p.primary then g'.lookup (dkey fa.1.1 fa.2) = some ux
      else ∃ w, p.d fa.2 fa.1.2 = some w ∧ g'.lookup (dkey fa.1.1 fa.2) = some w := by
  induction L generalizing g with
  | nil => cases h; exact ⟨fun _ _ h => h, fun _ _ => rfl, fun _ h => by simp at h⟩
  | cons e L ih =>
    rw [List.foldl_cons] at h
    rw [List.map_cons, List.nodup_cons] at hnd
    cases hs : p.gradStep ux (some g) e with
    | none => rw [hs, gradStep_none] at h; cases h
    | some g1 =>
      rw [hs] at h
      obtain ⟨s1, s2, s3⟩ := gradStep_spec p ux g g1 e hs
      obtain ⟨i1, i2, i3⟩ := ih hnd.2 g1 h
      refine ⟨fun k v hk => i1 k v ?_, fun k hk => ?_, fun fa hfa hn => ?_⟩
      · by_cases hke : k = dkey e.1.1 e.2
        · subst hke
          rw [s2 (by rw [hk]; rfl), hk]
        · rw [s1 k hke, hk]
      · rw [List.map_cons, List.mem_cons] at hk
        push Not at hk
        rw [i2 k hk.2, s1 k hk.1]
      · rcases List.mem_cons.1 hfa with rfl | hfa
        · have := s3 hn
          split at this
          · rename_i hc
            rw [if_pos hc]
            exact i1 _ _ this
          · rename_i hc
            rw [if_neg hc]
            obtain ⟨w, h1, h2⟩ := this
            exact ⟨w, h1, i1 _ _ h2⟩
        · have hne : dkey fa.1.1 fa.2 ≠ dkey e.1.1 e.2 := fun heq => hnd.1 (heq ▸ List.mem_map_of_mem (f := fun fa : (String × Arr) × String => dkey fa.1.1 fa.2) hfa)
          exact i3 fa hfa (by rw [s1 _ hne, hn])

/-- **C142** (variables): with distinct field and axis names and no underscore in an axis name, the variable `field_axis` offered to the search is –
for every field and every axis other than that of the left-hand side – the finite-difference derivative of that field along that axis with the step of
that axis; entries made by the network before are kept; nothing else is offered. -/
theorem C142_variables (p : Problem) (q : Parts) (hq : p.parts = some q) (pre g : List (String × Arr)) (hg : p.grads q.ux pre = some g)
    (hf : (p.fields.map Prod.fst).Nodup) (ha : (p.axes.map Prod.fst).Nodup) (hu : ∀ a ∈ p.axes.map Prod.fst, '_' ∉ a.toList) :
    (∀ k v, pre.lookup k = some v → g.lookup k = some v) ∧
    (∀ f v a, (f, v) ∈ p.fields → a ∈ p.axes.map Prod.fst → a ≠ p.lhs → pre.lookup (dkey f a) = none →
      ∃ w, p.d a v = some w ∧ g.lookup (dkey f a) = some w) ∧
    ∀ k v, g.lookup k = some v → pre.lookup k = some v ∨ ∃ f ∈ p.fields.map Prod.fst, ∃ a ∈ p.axes.map Prod.fst, a ≠ p.lhs ∧ k = dkey f a := by
  have hpairs : ∀ fa ∈ p.pairs, fa.1 ∈ p.fields ∧ fa.2 ∈ p.axes.map Prod.fst ∧ fa.2 ≠ p.lhs := by
    intro fa h
    simp only [Problem.pairs, List.mem_flatMap, List.mem_map, List.mem_filter] at h
    obtain ⟨f, hf, a, ⟨ha, hl⟩, rfl⟩ := h
    exact ⟨hf, by simpa using ha, by simpa using hl⟩
  have hnd : (p.pairs.map fun fa => dkey fa.1.1 fa.2).Nodup := by
    have hA : ((p.axes.map Prod.fst).filter (· != p.lhs)).Nodup := ha.filter _
    have hAu : ∀ a ∈ (p.axes.map Prod.fst).filter (· != p.lhs), '_' ∉ a.toList := fun a h => hu a (List.mem_filter.1 h).1
    unfold Problem.pairs
    generalize (p.axes.map Prod.fst).filter (· != p.lhs) = A at hA hAu
    generalize p.fields = F at hf
    induction F with
    | nil => simp
    | cons f F ih =>
      rw [List.map_cons, List.nodup_cons] at hf
      rw [List.flatMap_cons, List.map_append, List.nodup_append]
      refine ⟨?_, ih hf.2, ?_⟩
      · rw [List.map_map]
        refine List.Nodup.map_on ?_ hA
        intro a h1 b h2 heq
        exact (dkey_inj (hAu a h1) (hAu b h2) heq).2
      · intro x hx y hy hxy
        subst hxy
        simp only [List.map_map, List.mem_map, Function.comp_apply, List.mem_flatMap] at hx hy
        obtain ⟨a, h1, rfl⟩ := hx
        obtain ⟨fa, ⟨f', hf', b, h2, rfl⟩, heq⟩ := hy
        have := (dkey_inj (hAu b h2) (hAu a h1) heq).1
        exact hf.1 (this ▸ List.mem_map_of_mem hf')
  obtain ⟨h1, h2, h3⟩ := fold_spec p q.ux p.pairs hnd pre g hg
  refine ⟨h1, fun f v a hfv haa hne hpre => ?_, fun k v hk => ?_⟩
  · have hmem : ((f, v), a) ∈ p.pairs := by
      simp only [Problem.pairs, List.mem_flatMap, List.mem_map]
      exact ⟨(f, v), hfv, a, List.mem_filter.2 ⟨haa, by simpa using hne⟩, rfl⟩
    have := h3 _ hmem hpre
    split at this
    · rename_i hc
      obtain ⟨hft, hap⟩ := hc
      simp only at hft hap
      subst hft
      obtain ⟨u, hu0, _, hux, _⟩ := parts_spec p q hq
      have huv : u = v := by
        have hmem' : (p.target, u) ∈ p.fields := by
          rw [List.lookup_eq_some_iff] at hu0
          obtain ⟨l1, l2, hl, _⟩ := hu0
          rw [hl]
          simp
        have hinj := List.inj_on_of_nodup_map hf hmem' hfv rfl
        exact congrArg Prod.snd hinj
      subst huv
      rw [hap]
      exact ⟨q.ux, hux, hap ▸ this⟩
    · exact this
  · by_cases hmem : k ∈ p.pairs.map fun fa => dkey fa.1.1 fa.2
    · right
      obtain ⟨fa, hfa, rfl⟩ := List.mem_map.1 hmem
      obtain ⟨a1, a2, a3⟩ := hpairs fa hfa
      exact ⟨fa.1.1, List.mem_map_of_mem a1, fa.2, a2, a3, rfl⟩
    · left
      rw [← h2 k hmem, hk]

/-- The hypotheses are met. -/
example : (cubicProblem.fields.map Prod.fst).Nodup ∧ (cubicProblem.axes.map Prod.fst).Nodup ∧ (∀ a ∈ cubicProblem.axes.map Prod.fst, '_' ∉ a.toList) := by
  decide +kernel

end Verif.Sga.Derivs.Claims
