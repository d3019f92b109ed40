import Verif.EqGpt.Simulate
import Mathlib.Tactic.Ring
import Mathlib.Tactic.FieldSimp
import Mathlib.Tactic.Linarith
import Mathlib.Tactic.NormNum
import Mathlib.Tactic.LinearCombination
import Mathlib.Algebra.Order.Field.Rat
import Mathlib.Tactic.Positivity
import Mathlib.Tactic.FinCases

/-! C190–C192: simulating a found equation. -/

namespace Verif.EqGpt.Simulate.Claims

open Verif.EqGpt.Simulate

variable {K : Type} [Field K]

/-- The values of `f` on the `n` points `x0, x0 + dx, …`. -/
def profile (f : K → K) (x0 dx : K) (n : Nat) : List K := (List.range n).map fun (i : Nat) => f (x0 + (i : K) * dx)

theorem at_build {n i : Nat} (f : Nat → K) (h : i < n) : at' (build n f) i = f i := by
  simp [at', build, List.getD_eq_getElem?_getD, h]

theorem get_build {n i : Nat} (f : Nat → K) (h : i < n) : (build n f)[i]? = some (f i) := by
  simp [build, h]

theorem length_build (n : Nat) (f : Nat → K) : (build n f).length = n := by simp [build]

theorem at_profile (f : K → K) (x0 dx : K) {n i : Nat} (h : i < n) : at' (profile f x0 dx n) i = f (x0 + (i : K) * dx) := by
  simp [at', profile, List.getD_eq_getElem?_getD, h]

theorem length_profile (f : K → K) (x0 dx : K) (n : Nat) : (profile f x0 dx n).length = n := by simp [profile]

/-- **C190** (advection): one step with the equation `u_t + c u_x = 0` keeps the number of points and, for every quadratic profile on an even
grid, gives at every inner point exactly the profile moved by `c dt`; at the right end it is off by `2 q c dt dx` (`q` the quadratic coefficient),
so exact for linear profiles. -/
theorem C190_advection_partial [CharZero K] (a b q x0 dx c dt : K) (hdx : dx ≠ 0) (n : Nat) (hn : 3 ≤ n) :
    ∃ v, laxWendroff (c * dt / dx) (profile (fun x => a + b * x + q * x ^ 2) x0 dx n) = some v ∧ v.length = n ∧
      (∀ i, 0 < i → i < n - 1 → v[i]? = some (a + b * (x0 + i * dx - c * dt) + q * (x0 + i * dx - c * dt) ^ 2)) ∧
      v[n - 1]? = some (a + b * (x0 + (n - 1 : Nat) * dx - c * dt) + q * (x0 + (n - 1 : Nat) * dx - c * dt) ^ 2 + 2 * q * c * dt * dx) := by
  unfold laxWendroff
  rw [length_profile, if_neg (by omega)]
  refine ⟨_, rfl, length_build _ _, ?_, ?_⟩
  · intro i h0 h1
    rw [get_build _ (by omega), if_neg (by omega), if_neg (by omega), at_profile _ _ _ (by omega), at_profile _ _ _ (by omega),
      at_profile _ _ _ (by omega)]
    congr 1
    obtain ⟨j, rfl⟩ : ∃ j, i = j + 1 := ⟨i - 1, by omega⟩
    rw [show j + 1 - 1 = j from rfl]
    push_cast
    field_simp
    ring
  · rw [get_build _ (by omega), if_pos rfl, if_pos (by omega), at_profile _ _ _ (by omega), at_profile _ _ _ (by omega),
      at_profile _ _ _ (by omega)]
    congr 1
    obtain ⟨j, rfl⟩ : ∃ j, n = j + 3 := ⟨n - 3, by omega⟩
    rw [show j + 3 - 1 - 2 = j from by omega, show j + 3 - 1 - 1 = j + 1 from by omega, show j + 3 - 1 = j + 2 from by omega]
    push_cast
    field_simp
    ring

/-- **C190** (constants): over any number of steps with any number, a constant profile stays exactly what it is; the simulation has one row more than
steps, starting with the given one, and fails exactly for fewer than two points. -/
theorem C190_rows [CharZero K] (lam : K) (k : Nat) (u : List K) :
    (posterior lam k u = none ↔ 0 < k ∧ u.length < 2) ∧
    (∀ rows, posterior lam k u = some rows → rows.length = k + 1 ∧ rows.head? = some u ∧ (∀ r ∈ rows, r.length = u.length) ∧
      (∀ (i : Nat) r s, rows[i]? = some r → rows[i + 1]? = some s → laxWendroff lam r = some s) ∧
      ∀ a, (∀ x ∈ u, x = a) → ∀ r ∈ rows, ∀ x ∈ r, x = a) := by
  have hstep : ∀ w v : List K, laxWendroff lam w = some v → v.length = w.length ∧ ∀ a, (∀ x ∈ w, x = a) → ∀ x ∈ v, x = a := by
    intro w v h
    unfold laxWendroff at h
    by_cases hl : w.length < 2
    · simp [hl] at h
    · simp only [hl, if_false] at h
      cases h
      refine ⟨length_build _ _, ?_⟩
      intro a ha x hx
      have hat : ∀ i, i < w.length → at' w i = a := by
        intro i hi
        refine ha _ ?_
        simp [at', List.getD_eq_getElem?_getD, hi]
      simp only [build, List.mem_map, List.mem_range] at hx
      obtain ⟨i, hi, rfl⟩ := hx
      split
      · split
        · rw [hat _ (by omega), hat _ (by omega), hat _ (by omega)]; ring
        · exact hat _ (by omega)
      · split
        · rw [hat _ (by omega), hat _ (by omega)]; ring
        · rw [hat _ (by omega), hat _ (by omega), hat _ (by omega)]; ring
  have hnone : ∀ w : List K, laxWendroff lam w = none ↔ w.length < 2 := by
    intro w
    unfold laxWendroff
    by_cases hl : w.length < 2 <;> simp [hl]
  induction k generalizing u with
  | zero =>
    refine ⟨by simp [posterior], ?_⟩
    intro rows h
    simp only [posterior] at h
    cases h
    refine ⟨rfl, rfl, by simp, ?_, by simp⟩
    intro i r s _ h2
    simp at h2
  | succ k ih =>
    unfold posterior
    cases hw : laxWendroff lam u with
    | none =>
      have := (hnone u).1 hw
      exact ⟨⟨fun _ => ⟨Nat.succ_pos k, this⟩, fun _ => rfl⟩, fun rows h => nomatch h⟩
    | some v =>
      obtain ⟨l1, l2⟩ := hstep u v hw
      obtain ⟨i1, i2⟩ := ih v
      have hu : ¬ u.length < 2 := fun h => by rw [(hnone u).2 h] at hw; cases hw
      simp only
      constructor
      · rw [Option.map_eq_none_iff, i1, l1]
        exact ⟨fun h => absurd h.2 hu, fun h => absurd h.2 hu⟩
      · intro rows h
        obtain ⟨rs, h1, rfl⟩ := Option.map_eq_some_iff.1 h
        obtain ⟨j1, j2, j3, j4, j5⟩ := i2 rs h1
        refine ⟨by simp [j1], rfl, ?_, ?_, ?_⟩
        · intro r hr
          rcases List.mem_cons.1 hr with rfl | hr
          · rfl
          · rw [j3 r hr, l1]
        · intro i r s hr hs
          cases i with
          | zero =>
            simp only [List.getElem?_cons_zero, Option.some.injEq] at hr
            subst hr
            simp only [List.getElem?_cons_succ] at hs
            rw [List.head?_eq_getElem?] at j2
            rw [j2] at hs
            cases hs
            exact hw
          | succ i =>
            simp only [List.getElem?_cons_succ] at hr hs
            exact j4 i r s hr hs
        · intro a ha r hr
          rcases List.mem_cons.1 hr with rfl | hr
          · exact ha
          · exact j5 a (l2 a ha) r hr

/-- C190 fails at the left end: a linear profile `x` that moves with `u_t + c u_x = 0` is not moved there, whatever the speed and step
(`0 < c dt`): the new value is larger than the old one, the true one smaller. -/
theorem C190_left_counterexample {F : Type} [Field F] [LinearOrder F] [IsStrictOrderedRing F] (x0 dx c dt : F) (hdx : 0 < dx) (hc : 0 < c * dt) (n : Nat) (hn : 3 ≤ n) :
    ∃ v y, laxWendroff (c * dt / dx) (profile (fun x => x) x0 dx n) = some v ∧ v[0]? = some y ∧ x0 < y ∧ x0 - c * dt < x0 := by
  unfold laxWendroff
  rw [length_profile, if_neg (by omega)]
  refine ⟨_, _, rfl, get_build _ (by omega), ?_, by linarith⟩
  rw [if_neg (by omega), if_pos rfl, at_profile _ _ _ (by omega), at_profile _ _ _ (by omega)]
  have : 0 < (c * dt / dx) ^ 2 * dx := by positivity
  push_cast
  nlinarith

/-- **C190** (second equation, derivatives): for every quartic profile on an even grid the first derivative is exact at the inner points; the second
derivative used there is `dx` times the true one (the stencil is divided by `12 dx`, see the counterexample); at the two outermost points of each side
quadratic profiles get the exact second derivative, and the first derivative is exact next to the ends. -/
theorem C190_derivatives_partial [CharZero K] (a b q r s x0 dx : K) (hdx : dx ≠ 0) (n : Nat) (hn : 5 ≤ n) :
    (∀ i, 2 ≤ i → i + 2 < n →
      (ux2 dx (profile (fun x => a + b * x + q * x ^ 2 + r * x ^ 3 + s * x ^ 4) x0 dx n))[i]? =
        some (b + 2 * q * (x0 + i * dx) + 3 * r * (x0 + i * dx) ^ 2 + 4 * s * (x0 + i * dx) ^ 3) ∧
      (uxx2 dx (profile (fun x => a + b * x + q * x ^ 2 + r * x ^ 3 + s * x ^ 4) x0 dx n))[i]? =
        some (dx * (2 * q + 6 * r * (x0 + i * dx) + 12 * s * (x0 + i * dx) ^ 2))) ∧
    (∀ i, i < 2 ∨ (n - 2 ≤ i ∧ i < n) → (uxx2 dx (profile (fun x => a + b * x + q * x ^ 2) x0 dx n))[i]? = some (2 * q)) ∧
    (∀ i, i = 1 ∨ i = n - 2 → (ux2 dx (profile (fun x => a + b * x + q * x ^ 2) x0 dx n))[i]? = some (b + 2 * q * (x0 + i * dx))) ∧
    (∀ i, i = 0 ∨ i = n - 1 → (ux2 dx (profile (fun x => a + b * x) x0 dx n))[i]? = some b) := by
  refine ⟨fun i h1 h2 => ⟨?_, ?_⟩, fun i hi => ?_, fun i hi => ?_, fun i hi => ?_⟩
  · unfold ux2
    rw [length_profile, get_build _ (by omega), if_neg (by omega), if_neg (by omega), if_neg (by omega), if_neg (by omega)]
    iterate 4 rw [at_profile _ _ _ (by omega)]
    congr 1
    obtain ⟨j, rfl⟩ : ∃ j, i = j + 2 := ⟨i - 2, by omega⟩
    rw [show j + 2 - 2 = j from by omega, show j + 2 - 1 = j + 1 from by omega]
    push_cast
    field_simp
    ring
  · unfold uxx2
    rw [length_profile, get_build _ (by omega), if_neg (by omega), if_neg (by omega)]
    iterate 5 rw [at_profile _ _ _ (by omega)]
    congr 1
    obtain ⟨j, rfl⟩ : ∃ j, i = j + 2 := ⟨i - 2, by omega⟩
    rw [show j + 2 - 2 = j from by omega, show j + 2 - 1 = j + 1 from by omega]
    push_cast
    field_simp
    ring
  · unfold uxx2
    rw [length_profile, get_build _ (by omega)]
    by_cases h : i = n - 1 ∨ i = n - 2
    · rw [if_pos h]
      iterate 3 rw [at_profile _ _ _ (by omega)]
      congr 1
      obtain ⟨j, rfl⟩ : ∃ j, n = j + 3 := ⟨n - 3, by omega⟩
      rw [show j + 3 - 3 = j from by omega, show j + 3 - 2 = j + 1 from by omega, show j + 3 - 1 = j + 2 from by omega]
      push_cast
      field_simp
      ring
    · rw [if_neg h, if_pos (by omega)]
      iterate 3 rw [at_profile _ _ _ (by omega)]
      congr 1
      push_cast
      field_simp
      ring
  · unfold ux2
    rw [length_profile, get_build _ (by omega), if_neg (by omega)]
    by_cases h : i = n - 2
    · rw [if_pos h]
      subst h
      iterate 2 rw [at_profile _ _ _ (by omega)]
      congr 1
      obtain ⟨j, rfl⟩ : ∃ j, n = j + 3 := ⟨n - 3, by omega⟩
      rw [show j + 3 - 3 = j from by omega, show j + 3 - 2 = j + 1 from by omega, show j + 3 - 1 = j + 2 from by omega]
      push_cast
      field_simp
      ring
    · have : i = 1 := by omega
      subst this
      rw [if_neg h, if_pos rfl]
      iterate 2 rw [at_profile _ _ _ (by omega)]
      congr 1
      push_cast
      field_simp
      ring
  · unfold ux2
    rw [length_profile, get_build _ (by omega)]
    by_cases h : i = n - 1
    · rw [if_pos h]
      iterate 2 rw [at_profile _ _ _ (by omega)]
      congr 1
      obtain ⟨j, rfl⟩ : ∃ j, n = j + 3 := ⟨n - 3, by omega⟩
      rw [show j + 3 - 2 = j + 1 from by omega, show j + 3 - 1 = j + 2 from by omega]
      push_cast
      field_simp
      ring
    · have : i = 0 := by omega
      subst this
      rw [if_neg h, if_neg (by omega), if_neg (by omega), if_pos rfl]
      iterate 2 rw [at_profile _ _ _ (by omega)]
      congr 1
      push_cast
      field_simp
      ring

/-- C190 fails for the second derivative of the second equation: on the grid 0, 1/10, … the profile `x²` gets 1/5 instead of 2. -/
theorem C190_uxx_counterexample :
    (uxx2 (1 / 10 : ℚ) (profile (fun x => x ^ 2) 0 (1 / 10) 7))[3]? = some (1 / 5) := by
  have h := (C190_derivatives_partial (0 : ℚ) 0 1 0 0 0 (1 / 10) (by norm_num) 7 (by omega)).1 3 (by omega) (by omega)
  have e : (fun x : ℚ => 0 + 0 * x + 1 * x ^ 2 + 0 * x ^ 3 + 0 * x ^ 4) = fun x => x ^ 2 := by funext x; ring
  rw [e] at h
  rw [h.2]
  norm_num

/-- **C190** (second equation, step): unless `1 + c4 t = 0`, the step has one value per point and its rate of change `w` solves
`w + c1 t √x + c2 u sin t + c3 u_x u_xx + c4 t w = 0` at every point, with the derivatives of the arrays; it raises exactly for fewer than three points. -/
theorem C190_next_step (c1 c2 c3 c4 : K) (sqrtx : List K) (sint t dx dt : K) (u : List K) (hden : 1 + c4 * t ≠ 0) :
    (nextStep c1 c2 c3 c4 sqrtx sint t dx dt u = none ↔ u.length < 3) ∧
    ∀ v, nextStep c1 c2 c3 c4 sqrtx sint t dx dt u = some v → v.length = u.length ∧
      ∀ i, i < u.length → ∃ w, at' v i = at' u i + dt * w ∧
        w + c1 * t * at' sqrtx i + c2 * at' u i * sint + c3 * at' (ux2 dx u) i * at' (uxx2 dx u) i + c4 * t * w = 0 := by
  unfold nextStep
  by_cases h : u.length < 3
  · rw [if_pos h]
    exact ⟨⟨fun _ => h, fun _ => rfl⟩, fun v hv => nomatch hv⟩
  · rw [if_neg h]
    refine ⟨⟨(fun hv => nomatch hv), fun hv => absurd hv h⟩, ?_⟩
    intro v hv
    cases hv
    refine ⟨length_build _ _, fun i hi => ⟨_, at_build _ hi, ?_⟩⟩
    have hA := div_mul_cancel₀ (-c1 * t * at' sqrtx i - c2 * at' u i * sint - c3 * at' (ux2 dx u) i * at' (uxx2 dx u) i) hden
    linear_combination hA

/-- **C190** (third equation, derivatives): for every quartic profile on an even grid both derivatives are exact at every point but the two outermost
of each side, where they are taken as 0. -/
theorem C190_third_derivatives [CharZero K] (a b q r s x0 dx : K) (hdx : dx ≠ 0) (n : Nat) :
    (∀ i, 2 ≤ i → i + 2 < n →
      (ux3 dx (profile (fun x => a + b * x + q * x ^ 2 + r * x ^ 3 + s * x ^ 4) x0 dx n))[i]? =
        some (b + 2 * q * (x0 + i * dx) + 3 * r * (x0 + i * dx) ^ 2 + 4 * s * (x0 + i * dx) ^ 3) ∧
      (uxxx3 dx (profile (fun x => a + b * x + q * x ^ 2 + r * x ^ 3 + s * x ^ 4) x0 dx n))[i]? =
        some (6 * r + 24 * s * (x0 + i * dx))) ∧
    ∀ (u : List K) (i : Nat), i < u.length → i < 2 ∨ u.length ≤ i + 2 → (ux3 dx u)[i]? = some 0 ∧ (uxxx3 dx u)[i]? = some 0 := by
  refine ⟨fun i h1 h2 => ⟨?_, ?_⟩, fun u i h1 h2 => ⟨?_, ?_⟩⟩
  · unfold ux3
    rw [length_profile, get_build _ (by omega), if_pos (by omega)]
    iterate 4 rw [at_profile _ _ _ (by omega)]
    congr 1
    obtain ⟨j, rfl⟩ : ∃ j, i = j + 2 := ⟨i - 2, by omega⟩
    rw [show j + 2 - 2 = j from by omega, show j + 2 - 1 = j + 1 from by omega]
    push_cast
    field_simp
    ring
  · unfold uxxx3
    rw [length_profile, get_build _ (by omega), if_pos (by omega)]
    iterate 4 rw [at_profile _ _ _ (by omega)]
    congr 1
    obtain ⟨j, rfl⟩ : ∃ j, i = j + 2 := ⟨i - 2, by omega⟩
    rw [show j + 2 - 2 = j from by omega, show j + 2 - 1 = j + 1 from by omega]
    push_cast
    field_simp
    ring
  · unfold ux3
    rw [get_build _ h1, if_neg (by omega)]
  · unfold uxxx3
    rw [get_build _ h1, if_neg (by omega)]

/-- The array has the values of `f` at the points `m ≤ i < n - m`. -/
def Agrees (u : List K) (f : K → K) (x0 dx : K) (n m : Nat) : Prop :=
  u.length = n ∧ ∀ i, m ≤ i → i + m < n → at' u i = f (x0 + (i : K) * dx)

theorem rhs_agrees [CharZero K] {u : List K} {a b q x0 dx c1 c2 c3 : K} {n m : Nat} (hdx : dx ≠ 0)
    (h : Agrees u (fun x => a + b * x + q * x ^ 2) x0 dx n m) :
    Agrees (rhs3 c1 c2 c3 dx u) (fun x => -c2 * (b + 2 * q * x)) x0 dx n (m + 2) := by
  obtain ⟨h1, h2⟩ := h
  refine ⟨by simp [rhs3, length_build, h1], fun i hi hj => ?_⟩
  have e1 : at' (ux3 dx u) i = b + 2 * q * (x0 + i * dx) := by
    unfold ux3
    rw [at_build _ (by omega), if_pos (by omega)]
    iterate 4 rw [h2 _ (by omega) (by omega)]
    obtain ⟨j, rfl⟩ : ∃ j, i = j + 2 := ⟨i - 2, by omega⟩
    rw [show j + 2 - 2 = j from by omega, show j + 2 - 1 = j + 1 from by omega]
    push_cast
    field_simp
    ring
  have e2 : at' (uxxx3 dx u) i = 0 := by
    unfold uxxx3
    rw [at_build _ (by omega), if_pos (by omega)]
    iterate 4 rw [h2 _ (by omega) (by omega)]
    obtain ⟨j, rfl⟩ : ∃ j, i = j + 2 := ⟨i - 2, by omega⟩
    rw [show j + 2 - 2 = j from by omega, show j + 2 - 1 = j + 1 from by omega]
    push_cast
    field_simp
    ring
  unfold rhs3
  rw [at_build _ (by omega), e1, e2]
  ring

/-- **C190** (third equation, rate of change): for every quartic profile `p` on an even grid the rate of change `w` at an inner point solves the equation
`w + c1 u_xxx + c2 u_x + c3 u² u_xxx = 0` with the exact value and derivatives of `p`; at the two outermost points of each side it is 0, for every array. -/
theorem C190_third_rhs [CharZero K] (a b q r s x0 dx c1 c2 c3 : K) (hdx : dx ≠ 0) (n : Nat) :
    (∀ i, 2 ≤ i → i + 2 < n →
      ∃ w, (rhs3 c1 c2 c3 dx (profile (fun x => a + b * x + q * x ^ 2 + r * x ^ 3 + s * x ^ 4) x0 dx n))[i]? = some w ∧
        ∀ x, x = x0 + i * dx → w + c1 * (6 * r + 24 * s * x) + c2 * (b + 2 * q * x + 3 * r * x ^ 2 + 4 * s * x ^ 3) +
          c3 * (a + b * x + q * x ^ 2 + r * x ^ 3 + s * x ^ 4) ^ 2 * (6 * r + 24 * s * x) = 0) ∧
    ∀ (u : List K) (i : Nat), i < u.length → i < 2 ∨ u.length ≤ i + 2 → (rhs3 c1 c2 c3 dx u)[i]? = some 0 := by
  constructor
  · intro i h1 h2
    obtain ⟨e1, e2⟩ := (C190_third_derivatives a b q r s x0 dx hdx n).1 i h1 h2
    generalize hp : profile (fun x => a + b * x + q * x ^ 2 + r * x ^ 3 + s * x ^ 4) x0 dx n = p at *
    have hl : p.length = n := by rw [← hp, length_profile]
    have e0 : at' p i = a + b * (x0 + i * dx) + q * (x0 + i * dx) ^ 2 + r * (x0 + i * dx) ^ 3 + s * (x0 + i * dx) ^ 4 := by
      rw [← hp, at_profile _ _ _ (by omega)]
    refine ⟨_, get_build _ (by omega), ?_⟩
    intro x hx
    have f1 : at' (ux3 dx p) i = b + 2 * q * (x0 + i * dx) + 3 * r * (x0 + i * dx) ^ 2 + 4 * s * (x0 + i * dx) ^ 3 := by
      unfold at'; rw [List.getD_eq_getElem?_getD, e1]; rfl
    have f2 : at' (uxxx3 dx p) i = 6 * r + 24 * s * (x0 + i * dx) := by
      unfold at'; rw [List.getD_eq_getElem?_getD, e2]; rfl
    rw [f1, f2, e0, hx]
    ring
  · intro u i h1 h2
    obtain ⟨e1, e2⟩ := (C190_third_derivatives (0 : K) 0 0 0 0 0 dx hdx 0).2 u i h1 h2
    have f1 : at' (ux3 dx u) i = 0 := by
      unfold at'; rw [List.getD_eq_getElem?_getD, e1]; rfl
    have f2 : at' (uxxx3 dx u) i = 0 := by
      unfold at'; rw [List.getD_eq_getElem?_getD, e2]; rfl
    unfold rhs3
    rw [get_build _ h1, f1, f2]
    simp

/-- **C190** (third equation, step): for `u_t + c1 u_xxx + c2 u_x + c3 u² u_xxx = 0` and every quadratic profile on an even grid, the step is exact – the
profile moved by `c2 dt` – at every point at least six from the ends; the two outermost points of each side never change. -/
theorem C190_third_step [CharZero K] (a b q x0 dx dt c1 c2 c3 : K) (hdx : dx ≠ 0) (n : Nat) :
    (∀ i, 6 ≤ i → i + 6 < n →
      (rk3 (rhs3 c1 c2 c3 dx) dt (profile (fun x => a + b * x + q * x ^ 2) x0 dx n))[i]? =
        some (a + b * (x0 + i * dx - c2 * dt) + q * (x0 + i * dx - c2 * dt) ^ 2)) ∧
    ∀ (u : List K) (i : Nat), i < u.length → i < 2 ∨ u.length ≤ i + 2 → (rk3 (rhs3 c1 c2 c3 dx) dt u)[i]? = u[i]? := by
  constructor
  · intro i h1 h2
    have a0 : Agrees (profile (fun x => a + b * x + q * x ^ 2) x0 dx n) (fun x => a + b * x + q * x ^ 2) x0 dx n 0 :=
      ⟨length_profile _ _ _ _, fun i _ hi => at_profile _ _ _ (by omega)⟩
    generalize hp : profile (fun x => a + b * x + q * x ^ 2) x0 dx n = p at a0
    have l0 := rhs_agrees (c1 := c1) (c2 := c2) (c3 := c3) hdx a0
    have a1 : Agrees (build p.length fun i => at' p i + dt * at' (rhs3 c1 c2 c3 dx p) i)
        (fun x => (a - c2 * dt * b) + (b - 2 * c2 * dt * q) * x + q * x ^ 2) x0 dx n 2 := by
      refine ⟨by rw [length_build, a0.1], fun i hi hj => ?_⟩
      rw [at_build _ (by rw [a0.1]; omega), a0.2 _ (by omega) (by omega), l0.2 _ (by omega) (by omega)]
      ring
    unfold rk3
    simp only
    generalize hq : (build p.length fun i => at' p i + dt * at' (rhs3 c1 c2 c3 dx p) i) = u1 at a1
    have l1 := rhs_agrees (c1 := c1) (c2 := c2) (c3 := c3) hdx a1
    have a2 : Agrees (build p.length fun i => 3 / 4 * at' p i + 1 / 4 * (at' u1 i + dt * at' (rhs3 c1 c2 c3 dx u1) i))
        (fun x => (a - c2 * dt * b / 2 + c2 ^ 2 * dt ^ 2 * q / 2) + (b - c2 * dt * q) * x + q * x ^ 2) x0 dx n 4 := by
      refine ⟨by rw [length_build, a0.1], fun i hi hj => ?_⟩
      rw [at_build _ (by rw [a0.1]; omega), a0.2 _ (by omega) (by omega), a1.2 _ (by omega) (by omega), l1.2 _ (by omega) (by omega)]
      ring
    generalize hr : (build p.length fun i => 3 / 4 * at' p i + 1 / 4 * (at' u1 i + dt * at' (rhs3 c1 c2 c3 dx u1) i)) = u2 at a2
    have l2 := rhs_agrees (c1 := c1) (c2 := c2) (c3 := c3) hdx a2
    rw [get_build _ (by rw [a0.1]; omega), a0.2 _ (by omega) (by omega), a2.2 _ (by omega) (by omega), l2.2 _ (by omega) (by omega)]
    congr 1
    field_simp
    ring
  · intro u i h1 h2
    have hz : ∀ w : List K, w.length = u.length → at' (rhs3 c1 c2 c3 dx w) i = 0 := by
      intro w hw
      have := (C190_third_derivatives (0 : K) 0 0 0 0 0 dx hdx 0).2 w i (by omega) (by omega)
      unfold rhs3
      rw [at_build _ (by omega)]
      have e1 : at' (ux3 dx w) i = 0 := by simp [at', List.getD_eq_getElem?_getD, this.1]
      have e2 : at' (uxxx3 dx w) i = 0 := by simp [at', List.getD_eq_getElem?_getD, this.2]
      rw [e1, e2]; ring
    unfold rk3
    simp only
    rw [get_build _ h1, hz _ (length_build _ _), at_build _ h1, hz _ (length_build _ _), at_build _ h1, hz _ rfl]
    have : u[i]? = some (at' u i) := by simp [at', List.getD_eq_getElem?_getD, h1]
    rw [this]
    congr 1
    field_simp
    ring

section Tvd
variable {F : Type} [Field F] [LinearOrder F] [IsStrictOrderedRing F]

theorem minmod_le (a b : F) (h : 0 ≤ a ∨ 0 ≤ b) : 0 ≤ minmod a b ∧ (0 ≤ a → minmod a b ≤ a) ∧ (0 ≤ b → minmod a b ≤ b) := by
  unfold minmod
  by_cases hab : 0 < a * b
  · rw [if_pos hab]
    have ha : 0 < a := by
      rcases h with h | h
      · rcases h.lt_or_eq with h | h
        · exact h
        · rw [← h] at hab; simp at hab
      · by_contra hn
        have := mul_nonpos_of_nonpos_of_nonneg (not_lt.1 hn) h
        linarith
    have hb : 0 < b := by
      by_contra hn
      have := mul_nonpos_of_nonneg_of_nonpos ha.le (not_lt.1 hn)
      linarith
    rw [if_pos ha, abs_of_pos ha, abs_of_pos hb]
    exact ⟨le_min ha.le hb.le, fun _ => min_le_left _ _, fun _ => min_le_right _ _⟩
  · rw [if_neg hab]
    exact ⟨le_refl _, fun h => h, fun h => h⟩

theorem minmod_neg (a b : F) : minmod (-a) (-b) = -minmod a b := by
  unfold minmod
  rw [neg_mul_neg, abs_neg, abs_neg]
  by_cases hab : 0 < a * b
  · rw [if_pos hab, if_pos hab]
    by_cases ha : 0 < a
    · rw [if_neg (by linarith), if_pos ha]
    · rw [if_neg ha]
      have : a ≠ 0 := by rintro rfl; simp at hab
      have h : 0 < -a := by
        rcases lt_or_eq_of_le (not_lt.1 ha) with h | h
        · linarith
        · exact absurd h this
      rw [if_pos h, neg_neg]
  · rw [if_neg hab, if_neg hab, neg_zero]

theorem minmod_ge (a b : F) (h : a ≤ 0 ∨ b ≤ 0) : minmod a b ≤ 0 ∧ (a ≤ 0 → a ≤ minmod a b) ∧ (b ≤ 0 → b ≤ minmod a b) := by
  obtain ⟨h1, h2, h3⟩ := minmod_le (-a) (-b) (by rcases h with h | h; exact Or.inl (by linarith); exact Or.inr (by linarith))
  rw [minmod_neg] at h1 h2 h3
  exact ⟨by linarith, fun h => by have := h2 (by linarith); linarith, fun h => by have := h3 (by linarith); linarith⟩

/-- The value of a stage lies between the two values it is upwind of. -/
theorem stage_between (nu c : F) (hnu : 0 ≤ nu) (hc : 0 ≤ c) (hcfl : nu * c * 3 ≤ 2) (u : List F) (i : Nat) (h0 : 0 < i) (h1 : i + 1 < u.length) :
    (at' u (i - 1) ≤ at' u i → at' u (i - 1) ≤ stage nu c u i ∧ stage nu c u i ≤ at' u i) ∧
    (at' u i ≤ at' u (i - 1) → at' u i ≤ stage nu c u i ∧ stage nu c u i ≤ at' u (i - 1)) := by
  obtain ⟨j, rfl⟩ : ∃ j, i = j + 1 := ⟨i - 1, by omega⟩
  have e : stage nu c u (j + 1) = at' u (j + 1) - nu * c * ((at' u (j + 1) - at' u j) + (slope u (j + 1) - slope u j) / 2) := by
    unfold stage fluxHalf
    simp only [abs_of_nonneg hc, Nat.add_sub_cancel]
    ring
  rw [e, Nat.add_sub_cancel]
  have w1 : slope u (j + 1) = minmod (at' u ((j + 1 + 1) % u.length) - at' u (j + 1)) (at' u (j + 1) - at' u j) := by
    unfold slope
    rw [show j + 1 + u.length - 1 = j + u.length from by omega, Nat.add_mod_right, Nat.mod_eq_of_lt (show j < u.length by omega)]
  have w2 : slope u j = minmod (at' u (j + 1) - at' u j) (at' u j - at' u ((j + u.length - 1) % u.length)) := by
    unfold slope
    rw [Nat.mod_eq_of_lt (show j + 1 < u.length by omega)]
  have hl : 0 ≤ nu * c := mul_nonneg hnu hc
  generalize nu * c = l at hl hcfl
  constructor
  · intro h
    obtain ⟨p1, _, p3⟩ := minmod_le (at' u ((j + 1 + 1) % u.length) - at' u (j + 1)) (at' u (j + 1) - at' u j) (Or.inr (by linarith))
    obtain ⟨q1, q2, _⟩ := minmod_le (at' u (j + 1) - at' u j) (at' u j - at' u ((j + u.length - 1) % u.length)) (Or.inl (by linarith))
    rw [← w1] at p1 p3
    rw [← w2] at q1 q2
    have p3 := p3 (by linarith)
    have q2 := q2 (by linarith)
    generalize slope u (j + 1) = s at *
    generalize slope u j = r at *
    constructor <;> nlinarith
  · intro h
    obtain ⟨p1, _, p3⟩ := minmod_ge (at' u ((j + 1 + 1) % u.length) - at' u (j + 1)) (at' u (j + 1) - at' u j) (Or.inr (by linarith))
    obtain ⟨q1, q2, _⟩ := minmod_ge (at' u (j + 1) - at' u j) (at' u j - at' u ((j + u.length - 1) % u.length)) (Or.inl (by linarith))
    rw [← w1] at p1 p3
    rw [← w2] at q1 q2
    have p3 := p3 (by linarith)
    have q2 := q2 (by linarith)
    generalize slope u (j + 1) = s at *
    generalize slope u j = r at *
    constructor <;> nlinarith

theorem stage_range (nu c : F) (hnu : 0 ≤ nu) (hc : 0 ≤ c) (hcfl : nu * c * 3 ≤ 2) (lo hi : F) (u : List F) (hu : ∀ k, k < u.length → lo ≤ at' u k ∧ at' u k ≤ hi)
    (i : Nat) (h0 : 0 < i) (h1 : i + 1 < u.length) : lo ≤ stage nu c u i ∧ stage nu c u i ≤ hi := by
  obtain ⟨a, b⟩ := stage_between nu c hnu hc hcfl u i h0 h1
  have x := hu i (by omega)
  have y := hu (i - 1) (by omega)
  rcases le_total (at' u (i - 1)) (at' u i) with h | h
  · exact ⟨le_trans y.1 (a h).1, le_trans (a h).2 x.2⟩
  · exact ⟨le_trans x.1 (b h).1, le_trans (b h).2 y.2⟩

theorem tvdStep_range (nu c : F) (hnu : 0 ≤ nu) (hc : 0 ≤ c) (hcfl : nu * c * 3 ≤ 2) (lo hi uL uR : F) (u v : List F)
    (hu : ∀ x ∈ u, lo ≤ x ∧ x ≤ hi) (hL : lo ≤ uL ∧ uL ≤ hi) (hR : lo ≤ uR ∧ uR ≤ hi) (h : tvdStep nu c u uL uR = some v) :
    v.length = u.length ∧ ∀ x ∈ v, lo ≤ x ∧ x ≤ hi := by
  unfold tvdStep at h
  by_cases hn : u.length = 0
  · rw [if_pos hn] at h; cases h
  · rw [if_neg hn] at h
    cases h
    refine ⟨length_build _ _, ?_⟩
    have hu' : ∀ k, k < u.length → lo ≤ at' u k ∧ at' u k ≤ hi := by
      intro k hk
      refine hu _ ?_
      simp [at', List.getD_eq_getElem?_getD, hk]
    generalize hq : (build u.length fun i => if i = u.length - 1 then uR else if i = 0 then uL else stage nu c u i) = w
    have hw : w.length = u.length := by rw [← hq, length_build]
    have hw' : ∀ k, k < w.length → lo ≤ at' w k ∧ at' w k ≤ hi := by
      intro k hk
      rw [← hq, at_build _ (by omega)]
      split
      · exact hR
      · split
        · exact hL
        · exact stage_range nu c hnu hc hcfl lo hi u hu' k (by omega) (by omega)
    intro x hx
    simp only [build, List.mem_map, List.mem_range] at hx
    obtain ⟨i, hi', rfl⟩ := hx
    split
    · exact hR
    · split
      · exact hL
      · have s1 := stage_range nu c hnu hc hcfl lo hi w hw' i (by omega) (by omega)
        have s2 := hu' i hi'
        constructor <;> linarith

/-- **C191** (range): if the time step obeys `3 c dt ≤ 2 dx`, then over any number of steps the simulation of `u_t + c u_x = 0` stays between any bounds
that hold for the initial row and for the observed end values: nothing overshoots.  There is one row per step after the first, all of the same
length; the ends of a row are the observed ones. -/
theorem C191_range (dt dx c : F) (hdt : 0 ≤ dt) (hdx : 0 < dx) (hc : 0 ≤ c) (hcfl : 3 * c * dt ≤ 2 * dx) (lo hi : F) (u : List F) (hne : u ≠ [])
    (bs : List (F × F)) (hu : ∀ x ∈ u, lo ≤ x ∧ x ≤ hi) (hb : ∀ b ∈ bs, (lo ≤ b.1 ∧ b.1 ≤ hi) ∧ lo ≤ b.2 ∧ b.2 ≤ hi) :
    ∃ rows, tvdPosterior (dt / dx) c u bs = some rows ∧ rows.length = bs.length + 1 ∧
      (∀ r ∈ rows, r.length = u.length ∧ ∀ x ∈ r, lo ≤ x ∧ x ≤ hi) ∧
      ∀ (k : Nat) b, bs[k]? = some b → ∃ r, rows[k + 1]? = some r ∧ r.getLast? = some b.2 ∧ (2 ≤ u.length → r.head? = some b.1) := by
  have hnu : 0 ≤ dt / dx := div_nonneg hdt hdx.le
  have hcfl' : dt / dx * c * 3 ≤ 2 := by
    rw [div_mul_eq_mul_div, div_mul_eq_mul_div, div_le_iff₀ hdx]; linarith
  induction bs generalizing u with
  | nil =>
    refine ⟨[u], rfl, rfl, ?_, ?_⟩
    · intro r hr
      rw [List.mem_singleton.1 hr]
      exact ⟨rfl, hu⟩
    · intro k b hb
      simp at hb
  | cons b bs ih =>
    have hn0 : u.length ≠ 0 := fun h => hne (List.length_eq_zero_iff.1 h)
    obtain ⟨v, hv⟩ : ∃ v, tvdStep (dt / dx) c u b.1 b.2 = some v := by
      unfold tvdStep
      rw [if_neg hn0]
      exact ⟨_, rfl⟩
    obtain ⟨hb1, hb2⟩ := hb b (by simp)
    obtain ⟨v1, v2⟩ := tvdStep_range _ c hnu hc hcfl' lo hi b.1 b.2 u v hu hb1 hb2 hv
    have hvne : v ≠ [] := by
      rintro rfl
      exact hn0 (by simpa using v1.symm)
    obtain ⟨rows, r1, r2, r3, r4⟩ := ih v hvne v2 (fun b' hb' => hb b' (List.mem_cons_of_mem _ hb'))
    have hh : rows.head? = some v := by
      cases bs with
      | nil => simp only [tvdPosterior] at r1; cases r1; rfl
      | cons b' bs' =>
        simp only [tvdPosterior] at r1
        split at r1
        · cases r1
        · obtain ⟨z, _, rfl⟩ := Option.map_eq_some_iff.1 r1
          rfl
    refine ⟨u :: rows, by simp [tvdPosterior, hv, r1], by simp [r2], ?_, ?_⟩
    · intro r hr
      rcases List.mem_cons.1 hr with rfl | hr
      · exact ⟨rfl, hu⟩
      · obtain ⟨z1, z2⟩ := r3 r hr
        exact ⟨z1.trans v1, z2⟩
    · intro k b' hk
      cases k with
      | succ k =>
        obtain ⟨r, z1, z2, z3⟩ := r4 k b' (by simpa using hk)
        exact ⟨r, by simpa using z1, z2, fun h => z3 (by omega)⟩
      | zero =>
        simp only [List.getElem?_cons_zero, Option.some.injEq] at hk
        subst hk
        refine ⟨v, by rw [List.getElem?_cons_succ, ← List.head?_eq_getElem?]; exact hh, ?_, ?_⟩
        · unfold tvdStep at hv
          rw [if_neg hn0] at hv
          cases hv
          rw [List.getLast?_eq_getElem?, length_build, get_build _ (by omega), if_pos rfl]
        · intro h2
          unfold tvdStep at hv
          rw [if_neg hn0] at hv
          cases hv
          rw [List.head?_eq_getElem?, get_build _ (by omega), if_neg (by omega), if_pos rfl]

/-- **C191** (monotone profiles): under the same condition a step takes a nondecreasing profile to a nondecreasing one, if the new left end is not above the
old one and the new right end not below the last inner value: no wiggles appear. -/
theorem C191_monotone (dt dx c : F) (hdt : 0 ≤ dt) (hdx : 0 < dx) (hc : 0 ≤ c) (hcfl : 3 * c * dt ≤ 2 * dx) (u v : List F) (uL uR : F) (hn : 2 ≤ u.length)
    (hu : ∀ i, i + 1 < u.length → at' u i ≤ at' u (i + 1)) (hL : uL ≤ at' u 0) (hR : at' u (u.length - 2) ≤ uR)
    (h : tvdStep (dt / dx) c u uL uR = some v) : ∀ i, i + 1 < v.length → at' v i ≤ at' v (i + 1) := by
  have hnu : 0 ≤ dt / dx := div_nonneg hdt hdx.le
  have hcfl' : dt / dx * c * 3 ≤ 2 := by
    rw [div_mul_eq_mul_div, div_mul_eq_mul_div, div_le_iff₀ hdx]; linarith
  unfold tvdStep at h
  rw [if_neg (by omega)] at h
  cases h
  generalize hq : (build u.length fun i => if i = u.length - 1 then uR else if i = 0 then uL else stage (dt / dx) c u i) = w
  have hw : w.length = u.length := by rw [← hq, length_build]
  have su : ∀ i, 0 < i → i + 1 < u.length → at' u (i - 1) ≤ stage (dt / dx) c u i ∧ stage (dt / dx) c u i ≤ at' u i := by
    intro i h0 h1
    refine (stage_between _ c hnu hc hcfl' u i h0 h1).1 ?_
    have := hu (i - 1) (by omega)
    rwa [Nat.sub_add_cancel h0] at this
  have w0 : at' w 0 = uL := by rw [← hq, at_build _ (by omega), if_neg (by omega), if_pos rfl]
  have wl : at' w (u.length - 1) = uR := by rw [← hq, at_build _ (by omega), if_pos rfl]
  have wi : ∀ i, 0 < i → i + 1 < u.length → at' w i = stage (dt / dx) c u i := by
    intro i h0 h1
    rw [← hq, at_build _ (by omega), if_neg (by omega), if_neg (by omega)]
  have hmono : ∀ i, i + 1 < u.length → at' w i ≤ at' w (i + 1) := by
    intro i hi
    by_cases h0 : i = 0
    · subst h0
      rw [w0]
      by_cases h1 : 2 = u.length
      · rw [show 0 + 1 = u.length - 1 from by omega, wl]
        rw [show u.length - 2 = 0 from by omega] at hR
        linarith
      · rw [wi _ (by omega) (by omega)]
        have := (su 1 (by omega) (by omega)).1
        exact le_trans hL this
    · rw [wi i (by omega) hi]
      have a := (su i (by omega) hi).2
      by_cases h1 : i + 1 = u.length - 1
      · rw [h1, wl]
        rw [show u.length - 2 = i from by omega] at hR
        linarith
      · rw [wi _ (by omega) (by omega)]
        exact le_trans a (su (i + 1) (by omega) (by omega)).1
  have sw : ∀ i, 0 < i → i + 1 < u.length → at' w (i - 1) ≤ stage (dt / dx) c w i ∧ stage (dt / dx) c w i ≤ at' w i := by
    intro i h0 h1
    refine (stage_between _ c hnu hc hcfl' w i h0 (by omega)).1 ?_
    have := hmono (i - 1) (by omega)
    rwa [Nat.sub_add_cancel h0] at this
  intro i hi
  rw [length_build] at hi
  rw [at_build _ (by omega), at_build _ hi, if_neg (by omega)]
  by_cases h0 : i = 0
  · subst h0
    rw [if_pos rfl]
    by_cases h1 : 0 + 1 = u.length - 1
    · rw [if_pos h1]
      rw [show u.length - 2 = 0 from by omega] at hR
      linarith
    · rw [if_neg h1, if_neg (by omega)]
      have a := (sw 1 (by omega) (by omega)).1
      have b := hu 0 (by omega)
      rw [show 1 - 1 = 0 from rfl, w0] at a
      have b' : at' u 0 ≤ at' u (0 + 1) := b
      have a' : uL ≤ stage (dt / dx) c w (0 + 1) := a
      linarith
  · rw [if_neg h0]
    have a := (sw i (by omega) hi).2
    rw [wi i (by omega) hi] at a
    have a2 := (su i (by omega) hi).2
    by_cases h1 : i + 1 = u.length - 1
    · rw [if_pos h1]
      rw [show u.length - 2 = i from by omega] at hR
      linarith
    · rw [if_neg h1, if_neg (by omega)]
      have b := (sw (i + 1) (by omega) (by omega)).1
      rw [Nat.add_sub_cancel, wi i (by omega) hi] at b
      have a3 := (sw i (by omega) hi).2
      have d := hu i hi
      have e2 := (su (i + 1) (by omega) (by omega)).1
      rw [wi i (by omega) hi] at a3
      linarith

/-- The shipped numbers (speed 1.4182, time step 0.0005, 100 points on 1.17) obey the condition of C191. -/
theorem C191_shipped : 3 * (14182 / 10000 : ℚ) * (5 / 10000) ≤ 2 * ((117 / 100) / 99) := by norm_num

/-- The hypotheses of C191_range are met by a profile with a bump, changing ends and the shipped numbers. -/
theorem C191_demo :
    ∃ rows, tvdPosterior ((5 / 10000) / ((117 / 100) / 99) : ℚ) (14182 / 10000) [0, 1, 3, 1, 2] [(1, 2), (2, 3), (0, 1)] = some rows ∧
      rows.length = 4 ∧ ∀ r ∈ rows, r.length = 5 ∧ ∀ x ∈ r, 0 ≤ x ∧ x ≤ 3 := by
  obtain ⟨rows, h1, h2, h3, _⟩ := C191_range (5 / 10000 : ℚ) ((117 / 100) / 99) (14182 / 10000) (by norm_num) (by norm_num) (by norm_num)
    (by norm_num) 0 3 [0, 1, 3, 1, 2] (by simp) [(1, 2), (2, 3), (0, 1)] (by intro x hx; fin_cases hx <;> norm_num)
    (by intro b hb; fin_cases hb <;> norm_num)
  exact ⟨rows, h1, h2, h3⟩

/-- Without the condition the bounds fail: with `c dt = 3 dx` the profile 0, 0, 1, 1 with ends 0 and 1 gets a value above 1. -/
theorem C191_condition_counterexample :
    ∃ v, tvdStep (3 : ℚ) 1 [0, 0, 1, 1] 0 1 = some v ∧ ∃ x ∈ v, 1 < x := by
  refine ⟨_, rfl, ?_⟩
  decide +kernel

end Tvd

/-! ### C192: the WENO derivative -/

section Weno
variable {F : Type} [Field F] [LinearOrder F] [IsStrictOrderedRing F]

/-- Whatever its weights, the flux of five values of a quadratic on an even grid is the exact flux: every stencil agrees on it. -/
theorem flux_quadratic (eps : F) (heps : 0 < eps) (a b q x dx : F) :
    let f := fun y : F => a + b * y + q * y ^ 2
    wenoFlux eps (f (x - 2 * dx)) (f (x - dx)) (f x) (f (x + dx)) (f (x + 2 * dx)) =
      a + b * (x + dx / 2) + q * ((x + dx / 2) ^ 2 - dx ^ 2 / 12) := by
  simp only [wenoFlux]
  generalize hb : beta (_ : F) _ _ _ _ = bt
  have hp : 0 ≤ bt.1 ∧ 0 ≤ bt.2.1 ∧ 0 ≤ bt.2.2 := by
    rw [← hb]
    refine ⟨?_, ?_, ?_⟩ <;> simp only [beta] <;> positivity
  obtain ⟨p0, p1, p2⟩ := hp
  have h0 : 0 < (1 / 10 : F) / (eps + bt.1) ^ 2 := by positivity
  have h1 : 0 < (6 / 10 : F) / (eps + bt.2.1) ^ 2 := by positivity
  have h2 : 0 < (3 / 10 : F) / (eps + bt.2.2) ^ 2 := by positivity
  generalize (1 / 10 : F) / (eps + bt.1) ^ 2 = w0 at *
  generalize (6 / 10 : F) / (eps + bt.2.1) ^ 2 = w1 at *
  generalize (3 / 10 : F) / (eps + bt.2.2) ^ 2 = w2 at *
  have hs : w0 + w1 + w2 ≠ 0 := by positivity
  field_simp
  ring

/-- **C192** (weights): for any five values, let `c + sₖ y + tₖ/2 y²` (`y` counted in grid steps from the middle point) be the parabolas through the left,
the middle and the right three of them.  The flux is then a mean `Σ wₖ (c + sₖ/2 + tₖ/12)` of the parabolas' fluxes at `y = 1/2`, with positive weights of sum 1
that are in the ratio `1/10 : 6/10 : 3/10` of the numbers divided by `(eps + ISₖ)²`, `ISₖ = sₖ² + 13/12 tₖ²` the roughness of the parabola on the middle cell
(the integral of `P'² + P''²`). -/
theorem C192_weights (eps : F) (heps : 0 < eps) (a b c d e s0 s1 s2 t0 t1 t2 : F)
    (h0 : b = c - s0 + t0 / 2 ∧ a = c - 2 * s0 + 2 * t0) (h1 : b = c - s1 + t1 / 2 ∧ d = c + s1 + t1 / 2)
    (h2 : d = c + s2 + t2 / 2 ∧ e = c + 2 * s2 + 2 * t2) :
    ∃ w0 w1 w2 m, 0 < w0 ∧ 0 < w1 ∧ 0 < w2 ∧ 0 < m ∧ w0 + w1 + w2 = 1 ∧
      w0 * (eps + (s0 ^ 2 + 13 / 12 * t0 ^ 2)) ^ 2 = m * (1 / 10) ∧
      w1 * (eps + (s1 ^ 2 + 13 / 12 * t1 ^ 2)) ^ 2 = m * (6 / 10) ∧
      w2 * (eps + (s2 ^ 2 + 13 / 12 * t2 ^ 2)) ^ 2 = m * (3 / 10) ∧
      wenoFlux eps a b c d e = w0 * (c + s0 / 2 + t0 / 12) + w1 * (c + s1 / 2 + t1 / 12) + w2 * (c + s2 / 2 + t2 / 12) := by
  have b0 : (beta a b c d e).1 = s0 ^ 2 + 13 / 12 * t0 ^ 2 := by simp only [beta]; rw [h0.2, h0.1]; ring
  have b1 : (beta a b c d e).2.1 = s1 ^ 2 + 13 / 12 * t1 ^ 2 := by simp only [beta]; rw [h1.1, h1.2]; ring
  have b2 : (beta a b c d e).2.2 = s2 ^ 2 + 13 / 12 * t2 ^ 2 := by simp only [beta]; rw [h2.2, h2.1]; ring
  have q0 : 2 * a - 7 * b + 11 * c = 6 * (c + s0 / 2 + t0 / 12) := by rw [h0.2, h0.1]; ring
  have q1 : -b + 5 * c + 2 * d = 6 * (c + s1 / 2 + t1 / 12) := by rw [h1.1, h1.2]; ring
  have q2 : 2 * c + 5 * d - e = 6 * (c + s2 / 2 + t2 / 12) := by rw [h2.2, h2.1]; ring
  simp only [wenoFlux]
  rw [b0, b1, b2, q0, q1, q2]
  have p0 : 0 < eps + (s0 ^ 2 + 13 / 12 * t0 ^ 2) := by positivity
  have p1 : 0 < eps + (s1 ^ 2 + 13 / 12 * t1 ^ 2) := by positivity
  have p2 : 0 < eps + (s2 ^ 2 + 13 / 12 * t2 ^ 2) := by positivity
  generalize eps + (s0 ^ 2 + 13 / 12 * t0 ^ 2) = z0 at *
  generalize eps + (s1 ^ 2 + 13 / 12 * t1 ^ 2) = z1 at *
  generalize eps + (s2 ^ 2 + 13 / 12 * t2 ^ 2) = z2 at *
  have u0 : 0 < (1 / 10 : F) / z0 ^ 2 := by positivity
  have u1 : 0 < (6 / 10 : F) / z1 ^ 2 := by positivity
  have u2 : 0 < (3 / 10 : F) / z2 ^ 2 := by positivity
  have v0 : (1 / 10 : F) / z0 ^ 2 * z0 ^ 2 = 1 / 10 := by field_simp
  have v1 : (6 / 10 : F) / z1 ^ 2 * z1 ^ 2 = 6 / 10 := by field_simp
  have v2 : (3 / 10 : F) / z2 ^ 2 * z2 ^ 2 = 3 / 10 := by field_simp
  generalize (1 / 10 : F) / z0 ^ 2 = a0 at *
  generalize (6 / 10 : F) / z1 ^ 2 = a1 at *
  generalize (3 / 10 : F) / z2 ^ 2 = a2 at *
  refine ⟨a0 / (a0 + a1 + a2), a1 / (a0 + a1 + a2), a2 / (a0 + a1 + a2), 1 / (a0 + a1 + a2), by positivity, by positivity, by positivity, by positivity,
    by field_simp, ?_, ?_, ?_, by ring⟩
  · rw [← v0]; ring
  · rw [← v1]; ring
  · rw [← v2]; ring

/-- The parabolas of C192_weights for the values 0, 0, 0, 1, 1 (a jump): `s = t = 0` on the left. -/
theorem C192_weights_demo :
    ∃ w0 w1 w2 m : ℚ, 0 < w0 ∧ 0 < w1 ∧ 0 < w2 ∧ 0 < m ∧ w0 + w1 + w2 = 1 ∧ w0 * (1 / 1000000) ^ 2 = m * (1 / 10) ∧
      wenoFlux (1 / 1000000) 0 0 0 1 1 = w1 * (1 / 3) + w2 * (2 / 3) := by
  obtain ⟨w0, w1, w2, m, p0, p1, p2, pm, hs, e0, e1, e2, e3⟩ := C192_weights (1 / 1000000 : ℚ) (by norm_num) 0 0 0 1 1 0 (1 / 2) (3 / 2) 0 1 (-1)
    (by norm_num) (by norm_num) (by norm_num)
  refine ⟨w0, w1, w2, m, p0, p1, p2, pm, hs, ?_, ?_⟩
  · rw [← e0]; norm_num
  · rw [e3]; ring

/-- **C192**: on an even grid the derivative array has one value per point, and for every quadratic profile the value at the inner point `i` is the exact
derivative – but at the *next* grid point `i + 1` (the differences are taken one place too far to the right, see the counterexamples); the three outermost
points of each side get 0. -/
theorem C192_shifted_partial (eps : F) (heps : 0 < eps) (a b q x0 dx : F) (hdx : dx ≠ 0) (n : Nat) :
    (wenoDeriv eps dx (profile (fun x => a + b * x + q * x ^ 2) x0 dx n)).length = n ∧
    (∀ i, 3 ≤ i → i + 4 < n → (wenoDeriv eps dx (profile (fun x => a + b * x + q * x ^ 2) x0 dx n))[i]? =
      some (b + 2 * q * (x0 + (i + 1) * dx))) ∧
    ∀ i, i < n → i < 3 ∨ n ≤ i + 3 → (wenoDeriv eps dx (profile (fun x => a + b * x + q * x ^ 2) x0 dx n))[i]? = some 0 := by
  have hf : ∀ i, 3 ≤ i → i + 3 < n → at' (fluxArr eps (profile (fun x => a + b * x + q * x ^ 2) x0 dx n)) i =
      a + b * (x0 + i * dx + dx / 2) + q * ((x0 + i * dx + dx / 2) ^ 2 - dx ^ 2 / 12) := by
    intro i h1 h2
    unfold fluxArr
    rw [at_build _ (by rw [length_profile]; omega), if_pos (by rw [length_profile]; omega)]
    rw [← flux_quadratic eps heps a b q (x0 + i * dx) dx]
    iterate 5 rw [at_profile _ _ _ (by omega)]
    obtain ⟨j, rfl⟩ : ∃ j, i = j + 2 := ⟨i - 2, by omega⟩
    rw [show j + 2 - 2 = j from by omega, show j + 2 - 1 = j + 1 from by omega]
    push_cast
    congr 1 <;> ring
  refine ⟨by rw [wenoDeriv, length_build, length_profile], fun i h1 h2 => ?_, fun i h1 h2 => ?_⟩
  · unfold wenoDeriv
    rw [get_build _ (by rw [length_profile]; omega), if_pos (by rw [length_profile]; omega), hf i h1 (by omega), hf (i + 1) (by omega) (by omega)]
    congr 1
    push_cast
    field_simp
    ring
  · unfold wenoDeriv
    rw [get_build _ (by rw [length_profile]; omega), if_neg (by rw [length_profile]; omega)]

/-- C192 fails inside: for `x²` on every even grid, at every inner point, the value is too large by twice the step. -/
theorem C192_shift_counterexample (eps : F) (heps : 0 < eps) (x0 dx : F) (hdx : dx ≠ 0) (n i : Nat) (h1 : 3 ≤ i) (h2 : i + 4 < n) :
    (wenoDeriv eps dx (profile (fun x => x ^ 2) x0 dx n))[i]? = some (2 * (x0 + i * dx) + 2 * dx) := by
  have h := (C192_shifted_partial eps heps 0 0 1 x0 dx hdx n).2.1 i h1 h2
  have e : (fun x : F => 0 + 0 * x + 1 * x ^ 2) = fun x => x ^ 2 := by funext x; ring
  rw [e] at h
  rw [h]
  congr 1
  ring

/-- C192 fails at the last computed point, number `n - 4`: the flux to its right was never computed and counts as 0, so a constant profile `a` – whose
derivative is 0 everywhere – gets the value `-a / dx` there. -/
theorem C192_end_counterexample (eps : F) (heps : 0 < eps) (a x0 dx : F) (n : Nat) (hn : 7 ≤ n) :
    (wenoDeriv eps dx (profile (fun _ => a) x0 dx n))[n - 4]? = some (-a / dx) := by
  unfold wenoDeriv
  rw [get_build _ (by rw [length_profile]; omega), if_pos (by rw [length_profile]; omega)]
  unfold fluxArr
  rw [at_build _ (by rw [length_profile]; omega), at_build _ (by rw [length_profile]; omega), if_neg (by rw [length_profile]; omega),
    if_pos (by rw [length_profile]; omega)]
  iterate 5 rw [at_profile _ _ _ (by omega)]
  have h := flux_quadratic eps heps a 0 0 0 dx
  simp only [zero_mul, add_zero] at h
  rw [h]
  congr 1
  ring

end Weno

end Verif.EqGpt.Simulate.Claims
