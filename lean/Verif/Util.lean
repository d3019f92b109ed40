/-! General list helpers (no claims, core Lean only). -/
namespace Verif

/-- Induction on a list from the right. -/
theorem snoc_induction {α : Type _} {P : List α → Prop} (nil : P [])
    (snoc : ∀ xs x, P xs → P (xs ++ [x])) : ∀ l, P l := by
  intro l
  have : ∀ n, ∀ l : List α, l.length = n → P l := by
    intro n
    induction n with
    | zero => intro l h; rw [List.length_eq_zero_iff.1 h]; exact nil
    | succ n ih =>
      intro l h
      have hne : l ≠ [] := by intro e; simp [e] at h
      rw [← List.dropLast_concat_getLast hne]
      exact snoc _ _ (ih _ (by simp [h]))
  exact this _ l rfl

theorem nodup_getElem_inj {α : Type _} {l : List α} (h : l.Nodup) {i j : Nat} (hi : i < l.length)
    (hj : j < l.length) (he : l[i] = l[j]) : i = j := by
  have := List.pairwise_iff_getElem.1 h
  rcases Nat.lt_trichotomy i j with h1 | h1 | h1
  · exact absurd he (this i j hi hj h1)
  · exact h1
  · exact absurd he.symm (this j i hj hi h1)

theorem filter_single {α : Type _} (p : α → Bool) (x : α) :
    [x].filter p = if p x = true then [x] else [] := by
  by_cases h : p x = true <;> simp [h]

end Verif
