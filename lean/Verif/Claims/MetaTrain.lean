import Verif.Sga.MetaTrain
/-!
# C168: training of the surrogate network: random numbers, data and errors
-/
namespace Verif.Sga.MetaTrain.Claims
open Verif.Sga.MetaTrain
variable {S N W X Y : Type}

/-- Whatever happens, also when it raises, training leaves torch's and numpy's global generators as they were. -/
theorem C168_generators_untouched (p : Parts S W X Y) (fork : Bool) (rows : Option (List (X × Y))) (ratio : ℚ) (epochs seed : Nat) (w : World S N) :
    (trainMetanet p fork rows ratio epochs seed w).1 = w := by
  cases rows with
  | none => rfl
  | some rows =>
    cases fork <;> by_cases h : ratio ≤ 0 ∨ ratio > 1 <;> simp [trainMetanet, body, manualSeed, h]

/-- The network depends on the data, the settings and the seed only: not on earlier draws, nor on how torch saves its states. -/
theorem C168_reproducible (p : Parts S W X Y) (fork fork' : Bool) (rows : Option (List (X × Y))) (ratio : ℚ) (epochs seed : Nat) (w w' : World S N) :
    (trainMetanet p fork rows ratio epochs seed w).2 = (trainMetanet p fork' rows ratio epochs seed w').2 := by
  cases rows with
  | none => rfl
  | some rows =>
    cases fork <;> cases fork' <;> by_cases h : ratio ≤ 0 ∨ ratio > 1 <;> simp [trainMetanet, body, manualSeed, h]

/-- It raises exactly for bad data or a share outside (0, 1]. -/
theorem C168_errors (p : Parts S W X Y) (fork : Bool) (rows : Option (List (X × Y))) (ratio : ℚ) (epochs seed : Nat) (w : World S N) :
    (trainMetanet p fork rows ratio epochs seed w).2 = none ↔ rows = none ∨ ¬ (0 < ratio ∧ ratio ≤ 1) := by
  cases rows with
  | none => simp [trainMetanet]
  | some rows =>
    have e : (ratio ≤ 0 ∨ ratio > 1) ↔ ¬ (0 < ratio ∧ ratio ≤ 1) := by
      constructor
      · rintro (h | h) ⟨h1, h2⟩
        · exact absurd h1 (not_lt.2 h)
        · exact absurd h2 (not_le.2 h)
      · intro h
        by_cases h1 : 0 < ratio
        · exact Or.inr (not_le.1 fun h2 => h ⟨h1, h2⟩)
        · exact Or.inl (not_lt.1 h1)
    by_cases h : ratio ≤ 0 ∨ ratio > 1
    · have h' := e.1 h
      cases fork <;> simp only [trainMetanet, body, if_pos h, true_iff] <;> exact Or.inr h'
    · have h' : 0 < ratio ∧ ratio ≤ 1 := not_not.1 fun hh => h (e.2 hh)
      cases fork <;> simp [trainMetanet, body, if_neg h, h']

theorem filterMap_get (rows : List (X × Y)) : (List.range rows.length).filterMap (fun i => rows[i]?) = rows := by
  induction rows with
  | nil => rfl
  | cons a t ih =>
    rw [List.length_cons, List.range_succ_eq_map, List.filterMap_cons]
    simp only [List.getElem?_cons_zero, List.filterMap_map]
    congr 1

theorem filterMap_length (rows : List (X × Y)) (is : List Nat) (h : ∀ i ∈ is, i < rows.length) :
    (is.filterMap fun i => rows[i]?).length = is.length := by
  induction is with
  | nil => rfl
  | cons i t ih =>
    have hi : i < rows.length := h i List.mem_cons_self
    rw [List.filterMap_cons_some (List.getElem?_eq_getElem hi), List.length_cons, List.length_cons, ih fun j hj => h j (List.mem_cons_of_mem _ hj)]

/-- A successful training makes `epochs` updates of the network drawn from the seed, all on the same pairs: as many grid points as the share says
(rounded down), no point twice, every coordinate with its own value; with share one they are all the points. -/
theorem C168_data (p : Parts S W X Y) (hp : ∀ s n, (p.shuffled s n).Perm (List.range n)) (fork : Bool) (rows : List (X × Y)) (ratio : ℚ)
    (epochs seed : Nat) (w : World S N) (h0 : 0 < ratio) (h1 : ratio ≤ 1) :
    ∃ chosen : List (X × Y),
      (trainMetanet p fork (some rows) ratio epochs seed w).2 = some ((p.epoch chosen)^[epochs] (p.init (p.seeded seed)).1) ∧
      chosen.length = ⌊(rows.length : ℚ) * ratio⌋₊ ∧ chosen.Subperm rows ∧ (ratio = 1 → chosen.Perm rows) := by
  have hn : ¬ (ratio ≤ 0 ∨ ratio > 1) := by
    rintro (h | h)
    · exact absurd h0 (not_lt.2 h)
    · exact absurd h1 (not_le.2 h)
  have hall : ((p.shuffled seed rows.length).filterMap fun i => rows[i]?).Perm rows := by
    have := (hp seed rows.length).filterMap (fun i => rows[i]?)
    rwa [filterMap_get] at this
  have hlt : ∀ i ∈ p.shuffled seed rows.length, i < rows.length := fun i hi => List.mem_range.1 ((hp _ _).mem_iff.1 hi)
  have hlen : (p.shuffled seed rows.length).length = rows.length := by simpa using (hp seed rows.length).length_eq
  have hle : ⌊(rows.length : ℚ) * ratio⌋₊ ≤ rows.length := by
    have : (rows.length : ℚ) * ratio ≤ (rows.length : ℚ) := by
      have := mul_le_mul_of_nonneg_left h1 (Nat.cast_nonneg (α := ℚ) rows.length)
      simpa using this
    calc ⌊(rows.length : ℚ) * ratio⌋₊ ≤ ⌊(rows.length : ℚ)⌋₊ := Nat.floor_mono this
      _ = rows.length := Nat.floor_natCast _
  refine ⟨((p.shuffled seed rows.length).take ⌊(rows.length : ℚ) * ratio⌋₊).filterMap fun i => rows[i]?, ?_, ?_, ?_, ?_⟩
  · cases fork <;> simp only [trainMetanet, body, if_neg hn, manualSeed]
  · rw [filterMap_length rows _ fun i hi => hlt i (List.mem_of_mem_take hi), List.length_take, hlen]
    exact Nat.min_eq_left hle
  · exact (((List.take_sublist _ _).filterMap _).subperm).trans hall.subperm
  · intro h
    rw [h, mul_one, Nat.floor_natCast, List.take_of_length_le (Nat.le_of_eq hlen)]
    exact hall

/-- A share below one point is accepted: the network is returned as it was drawn, trained on nothing (epochs on no data). -/
theorem C168_empty (p : Parts S W X Y) (hp : ∀ s n, (p.shuffled s n).Perm (List.range n)) (fork : Bool) (rows : List (X × Y)) (ratio : ℚ)
    (epochs seed : Nat) (w : World S N) (h0 : 0 < ratio) (h1 : ratio ≤ 1) (hs : (rows.length : ℚ) * ratio < 1) :
    (trainMetanet p fork (some rows) ratio epochs seed w).2 = some ((p.epoch [])^[epochs] (p.init (p.seeded seed)).1) := by
  obtain ⟨c, h, hl, -, -⟩ := C168_data p hp fork rows ratio epochs seed w h0 h1
  rw [Nat.floor_eq_zero.2 hs] at hl
  rwa [List.length_eq_zero_iff.1 hl] at h

/-! Three points, a reversing shuffle, half of the points: one point is used. -/
def exParts : Parts Nat (List Nat) Nat Nat := ⟨id, fun s => ([s], s + 1), fun _ n => (List.range n).reverse, fun d w => w ++ d.map Prod.fst⟩

example : (trainMetanet exParts true (some [(1, 10), (2, 20), (3, 30)]) (1 / 2) 2 7 (⟨5, [6], 8⟩ : World Nat Nat)) = (⟨5, [6], 8⟩, some [7, 3, 3]) := by
  have hf : ⌊(3 : ℚ) / 2⌋₊ = 1 := by
    rw [Nat.floor_eq_iff (by norm_num)]; norm_num
  have hn : ¬ ((1 / 2 : ℚ) ≤ 0 ∨ (1 / 2 : ℚ) > 1) := by norm_num
  simp only [trainMetanet, body, if_neg hn, manualSeed, exParts, List.length_cons, List.length_nil]
  norm_num [List.range_succ]
  rw [hf]
  decide
example : ∀ s n, (exParts.shuffled s n).Perm (List.range n) := fun _ _ => List.reverse_perm _

end Verif.Sga.MetaTrain.Claims
