import Verif.Sga.FiniteDiff
import Mathlib.Tactic.Ring
import Mathlib.Tactic.FieldSimp
/-!
# C28: finite differences
-/
namespace Verif.Claims
open Verif.Sga

/-- Samples of a function on the uniform grid `x0, x0 + h, …` of `n` points. -/
def samples {K : Type} [Field K] (f : K → K) (x0 h : K) (n : Nat) : List K :=
  (List.range n).map fun (i : Nat) => f (x0 + (i : K) * h)

theorem samples_getD {K : Type} [Field K] (f : K → K) (x0 h : K) {n i : Nat} (hi : i < n) :
    (samples f x0 h n).getD i 0 = f (x0 + i * h) := by
  simp [samples, List.getD_eq_getElem?_getD, hi]

theorem samples_length {K : Type} [Field K] (f : K → K) (x0 h : K) (n : Nat) : (samples f x0 h n).length = n := by
  simp [samples]

/-- **C28**, first derivative: on every uniform grid with at least three points the result has one value per point and is
the exact derivative `b + 2 c x` of every quadratic `a + b x + c x²`, at the ends included. -/
theorem C28_first {K : Type} [Field K] (h2 : (2 : K) ≠ 0) (a b c x0 h : K) (hh : h ≠ 0) (n : Nat) (hn : 3 ≤ n) :
    finiteDiff (samples (fun x => a + b * x + c * x ^ 2) x0 h n) h = some (samples (fun x => b + 2 * c * x) x0 h n) := by
  unfold finiteDiff
  rw [samples_length, if_neg (by omega)]
  congr 1
  apply List.map_congr_left
  intro i hi
  rw [List.mem_range] at hi
  by_cases h0 : i = 0
  · subst h0
    rw [if_pos rfl, samples_getD _ _ _ (by omega), samples_getD _ _ _ (by omega), samples_getD _ _ _ (by omega)]
    push_cast
    field_simp
    ring
  · rw [if_neg h0]
    by_cases hl : i = n - 1
    · rw [if_pos hl, samples_getD _ _ _ (by omega), samples_getD _ _ _ (by omega), samples_getD _ _ _ (by omega)]
      obtain ⟨m, rfl⟩ : ∃ m, n = m + 3 := ⟨n - 3, by omega⟩
      subst hl
      have e1 : m + 3 - 1 = m + 2 := by omega
      have e2 : m + 3 - 2 = m + 1 := by omega
      have e3 : m + 3 - 3 = m := by omega
      rw [e1, e2, e3]
      push_cast
      field_simp
      ring
    · rw [if_neg hl, samples_getD _ _ _ (by omega), samples_getD _ _ _ (by omega)]
      obtain ⟨m, rfl⟩ : ∃ m, i = m + 1 := ⟨i - 1, by omega⟩
      have e1 : m + 1 - 1 = m := by omega
      rw [e1]
      push_cast
      field_simp
      ring

/-- **C28**, second derivative: on every uniform grid with at least four points the result is the exact second derivative
`2 c + 6 d x` of every cubic, at the ends included. -/
theorem C28_second {K : Type} [Field K] (a b c d x0 h : K) (hh : h ≠ 0) (n : Nat) (hn : 4 ≤ n) :
    finiteDiff2 (samples (fun x => a + b * x + c * x ^ 2 + d * x ^ 3) x0 h n) h =
      some (samples (fun x => 2 * c + 6 * d * x) x0 h n) := by
  unfold finiteDiff2
  rw [samples_length, if_neg (by omega)]
  congr 1
  apply List.map_congr_left
  intro i hi
  rw [List.mem_range] at hi
  by_cases h0 : i = 0
  · subst h0
    rw [if_pos rfl, samples_getD _ _ _ (by omega), samples_getD _ _ _ (by omega), samples_getD _ _ _ (by omega),
      samples_getD _ _ _ (by omega)]
    push_cast
    field_simp
    ring
  · rw [if_neg h0]
    by_cases hl : i = n - 1
    · rw [if_pos hl, samples_getD _ _ _ (by omega), samples_getD _ _ _ (by omega), samples_getD _ _ _ (by omega),
        samples_getD _ _ _ (by omega)]
      obtain ⟨m, rfl⟩ : ∃ m, n = m + 4 := ⟨n - 4, by omega⟩
      subst hl
      have e1 : m + 4 - 1 = m + 3 := by omega
      have e2 : m + 4 - 2 = m + 2 := by omega
      have e3 : m + 4 - 3 = m + 1 := by omega
      have e4 : m + 4 - 4 = m := by omega
      rw [e1, e2, e3, e4]
      push_cast
      field_simp
      ring
    · rw [if_neg hl, samples_getD _ _ _ (by omega), samples_getD _ _ _ (by omega), samples_getD _ _ _ (by omega)]
      obtain ⟨m, rfl⟩ : ∃ m, i = m + 1 := ⟨i - 1, by omega⟩
      have e1 : m + 1 - 1 = m := by omega
      rw [e1]
      push_cast
      field_simp
      ring

/-- **C28**, short inputs are rejected, and only those. -/
theorem C28_short {K : Type} [Field K] (u : List K) (dx : K) :
    (finiteDiff u dx = none ↔ u.length < 3) ∧ (finiteDiff2 u dx = none ↔ u.length < 4) := by
  unfold finiteDiff finiteDiff2
  constructor
  · split <;> simp_all
  · split <;> simp_all

/-- **C28**, locality and linearity: each output value depends linearly on the data. -/
theorem C28_linear {K : Type} [Field K] (u v : List K) (p q dx : K) (h : u.length = v.length) (ru rv : List K)
    (hu : finiteDiff u dx = some ru) (hv : finiteDiff v dx = some rv) :
    finiteDiff (List.zipWith (fun a b => p * a + q * b) u v) dx =
      some (List.zipWith (fun a b => p * a + q * b) ru rv) := by
  have hz : (List.zipWith (fun a b => p * a + q * b) u v).length = u.length := by simp [h]
  have hg : ∀ i, i < u.length → (List.zipWith (fun a b => p * a + q * b) u v).getD i 0 = p * u.getD i 0 + q * v.getD i 0 := by
    intro i hi
    have hi' : i < v.length := by omega
    simp [List.getD_eq_getElem?_getD, hi, hi']
  unfold finiteDiff at hu hv ⊢
  rw [hz]
  by_cases h3 : u.length < 3
  · rw [if_pos h3] at hu; simp at hu
  · rw [if_neg h3] at hu
    rw [← h, if_neg h3] at hv
    rw [if_neg h3]
    simp only [Option.some.injEq] at hu hv ⊢
    subst hu; subst hv
    rw [List.zipWith_map, List.zipWith_self]
    apply List.map_congr_left
    intro i hi
    rw [List.mem_range] at hi
    by_cases h0 : i = 0
    · subst h0
      simp only [if_true]
      rw [hg 0 (by omega), hg 1 (by omega), hg 2 (by omega)]
      ring
    · by_cases hl : i = u.length - 1
      · simp only [if_neg h0, if_pos hl]
        rw [hg _ (by omega), hg _ (by omega), hg _ (by omega)]
        ring
      · simp only [if_neg h0, if_neg hl]
        rw [hg _ (by omega), hg _ (by omega)]
        ring

example : (2 : ℚ) ≠ 0 ∧ finiteDiff (samples (fun x : ℚ => 1 + 2 * x + 3 * x ^ 2) 1 (1 / 2) 4) (1 / 2) =
    some [8, 11, 14, 17] := by
  refine ⟨by norm_num, ?_⟩
  rw [C28_first (by norm_num) _ _ _ _ _ (by norm_num) 4 (by decide)]
  norm_num [samples, List.range_succ]

end Verif.Claims
