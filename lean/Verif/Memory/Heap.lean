import Verif.Util
/-!
# Python's `heapq` (CPython Lib/heapq.py), as used by kd/model/discover/dso/memory.py

The standard library is not part of /repo; the functions below are its documented pure-Python algorithms
(`_siftdown`, `_siftup`, `heappush`, `heappop`, `heappushpop`), with "hold the new item out and assign it at the end"
written as a chain of swaps.
-/
namespace Verif.Memory

/-- dso/memory.py:78-116 `ItemContainer` (item = identifier; the extra data is a Batch row, of which the queue only
looks at `rewards` – equal to the score, memory.py:357-362 – and `lengths`). Scores are compared with `<`; they are
integers here, i.e. any finite floats in a common unit. -/
structure Entry where
  score : Int
  id : Nat
  len : Nat := 0
  data : Nat := 0
deriving DecidableEq, Repr

def scoreAt (h : List Entry) (i : Nat) : Int := ((h[i]?).map Entry.score).getD 0

def swap (h : List Entry) (i j : Nat) : List Entry :=
  match h[i]?, h[j]? with
  | some a, some b => (h.set i b).set j a
  | _, _ => h

/-- heapq.py `_siftdown(heap, 0, pos)`: move the item at `pos` towards the root while it is smaller than its parent. -/
def siftdown (h : List Entry) (pos : Nat) : List Entry :=
  if hp : 0 < pos then
    if scoreAt h pos < scoreAt h ((pos - 1) / 2) then siftdown (swap h pos ((pos - 1) / 2)) ((pos - 1) / 2)
    else h
  else h
termination_by pos
decreasing_by omega

/-- heapq.py `_siftup`: "set childpos to index of smaller child" (the right one on ties). -/
def minChild (h : List Entry) (pos : Nat) : Nat :=
  if 2 * pos + 2 < h.length ∧ ¬ scoreAt h (2 * pos + 1) < scoreAt h (2 * pos + 2) then 2 * pos + 2 else 2 * pos + 1

theorem minChild_gt (h : List Entry) (pos : Nat) (hc : 2 * pos + 1 < h.length) :
    pos < minChild h pos ∧ minChild h pos < h.length := by
  unfold minChild
  split <;> omega

theorem swap_length (h : List Entry) (i j : Nat) : (swap h i j).length = h.length := by
  unfold swap; split <;> simp

/-- heapq.py `_siftup`, first loop: move the hole to a leaf along the smaller children.  Returns the heap and the
final position. -/
def sinkHole (h : List Entry) (pos : Nat) : List Entry × Nat :=
  if _hc : 2 * pos + 1 < h.length then sinkHole (swap h pos (minChild h pos)) (minChild h pos)
  else (h, pos)
termination_by h.length - pos
decreasing_by
  rw [swap_length]
  have := minChild_gt h pos _hc
  omega

/-- heapq.py `_siftup(heap, 0)`. -/
def siftup (h : List Entry) : List Entry :=
  let r := sinkHole h 0
  siftdown r.1 r.2

/-- heapq.py `heappush`. -/
def heappush (h : List Entry) (e : Entry) : List Entry := siftdown (h ++ [e]) h.length

/-- heapq.py `heappushpop`: new heap and the returned item. -/
def heappushpop (h : List Entry) (e : Entry) : List Entry × Entry :=
  match h with
  | [] => (h, e)
  | r :: t => if r.score < e.score then (siftup (e :: t), r) else (h, e)

/-- heapq.py `heappop` (`none`: IndexError on an empty heap). -/
def heappop (h : List Entry) : Option (List Entry × Entry) :=
  match h with
  | [] => none
  | r :: t =>
    match t.getLast? with
    | none => some ([], r)
    | some l => some (siftup (l :: t.dropLast), r)

/-! ## Lemmas -/

/-- The heap property: no item is smaller than its parent. -/
def IsHeap (h : List Entry) : Prop := ∀ i, 0 < i → i < h.length → scoreAt h ((i - 1) / 2) ≤ scoreAt h i

attribute [simp] swap_length

theorem set_set_perm {h : List Entry} {i j : Nat} (hi : i < h.length) (hj : j < h.length) :
    ((h.set i h[j]).set j h[i]).Perm h := by
  have split : ∀ (zs : List Entry) (k : Nat) (hk : k < zs.length), zs = zs.take k ++ zs[k] :: zs.drop (k + 1) := by
    intro zs k hk
    rw [← List.drop_eq_getElem_cons hk, List.take_append_drop]
  rw [List.perm_iff_count]
  intro a
  rw [List.count_set (by simpa using hj), List.count_set hi]
  by_cases hij : i = j
  · subst hij
    simp only [List.getElem_set_self]
    have := List.count_pos_iff.2 (List.getElem_mem hi)
    by_cases ha : h[i] == a
    · have ha' : h[i] = a := by simpa using ha
      subst ha'
      simp
    · simp [ha]
  · rw [List.getElem_set_ne hij]
    have h1 := List.count_pos_iff.2 (List.getElem_mem hi)
    have h2 := List.count_pos_iff.2 (List.getElem_mem hj)
    by_cases ha : h[i] = a <;> by_cases hb : h[j] = a
    · subst ha; simp [hb]
    · subst ha; simp [hb]
    · subst hb; simp [ha]
    · simp [ha, hb]

theorem swap_perm (h : List Entry) (i j : Nat) : (swap h i j).Perm h := by
  unfold swap
  split
  · rename_i a b ha hb
    obtain ⟨hi, rfl⟩ := List.getElem?_eq_some_iff.1 ha
    obtain ⟨hj, rfl⟩ := List.getElem?_eq_some_iff.1 hb
    exact set_set_perm hi hj
  · exact .refl _

theorem scoreAt_swap (h : List Entry) {i j : Nat} (hi : i < h.length) (hj : j < h.length) (k : Nat) :
    scoreAt (swap h i j) k = if k = j then scoreAt h i else if k = i then scoreAt h j else scoreAt h k := by
  unfold swap
  rw [List.getElem?_eq_getElem hi, List.getElem?_eq_getElem hj]
  simp only [scoreAt]
  by_cases hkj : k = j
  · subst hkj; simp [hi, hj]
  · rw [List.getElem?_set_ne (Ne.symm hkj), if_neg hkj]
    by_cases hki : k = i
    · subst hki; simp [hi, hj]
    · rw [List.getElem?_set_ne (Ne.symm hki), if_neg hki]

theorem siftdown_perm (h : List Entry) (pos : Nat) : (siftdown h pos).Perm h := by
  induction pos using Nat.strongRecOn generalizing h with
  | ind pos ih =>
    rw [siftdown]
    split
    · split
      · exact (ih _ (by omega) _).trans (swap_perm _ _ _)
      · exact .refl _
    · exact .refl _

/-- `_siftdown` repairs a heap whose only violation is between `pos` and its parent. -/
theorem siftdown_heap (h : List Entry) (pos : Nat) (hpos : pos < h.length)
    (h1 : ∀ i, 0 < i → i < h.length → i ≠ pos → scoreAt h ((i - 1) / 2) ≤ scoreAt h i)
    (h2 : ∀ i, 0 < i → i < h.length → (i - 1) / 2 = pos → 0 < pos → scoreAt h ((pos - 1) / 2) ≤ scoreAt h i) :
    IsHeap (siftdown h pos) := by
  induction pos using Nat.strongRecOn generalizing h with
  | ind pos ih =>
    rw [siftdown]
    split
    · rename_i hp
      split
      · rename_i hlt
        have hq : (pos - 1) / 2 < h.length := by omega
        refine ih _ (by omega) _ (by simpa using hq) ?_ ?_
        · intro i hi0 hil hine
          rw [swap_length] at hil
          rw [scoreAt_swap h hpos hq, scoreAt_swap h hpos hq]
          by_cases hip : i = pos
          · subst hip
            rw [if_pos rfl]
            by_cases e : i = (i - 1) / 2
            · omega
            · rw [if_neg e, if_pos rfl]; omega
          · rw [if_neg hine, if_neg hip]
            by_cases e1 : (i - 1) / 2 = (pos - 1) / 2
            · rw [if_pos e1]
              have := h1 i hi0 hil hip
              rw [e1] at this; omega
            · rw [if_neg e1]
              by_cases e2 : (i - 1) / 2 = pos
              · rw [if_pos e2]
                exact h2 i hi0 hil e2 hp
              · rw [if_neg e2]
                exact h1 i hi0 hil hip
        · intro i hi0 hil hpar hq0
          rw [swap_length] at hil
          rw [scoreAt_swap h hpos hq, scoreAt_swap h hpos hq]
          have e0 : ((pos - 1) / 2 - 1) / 2 ≠ (pos - 1) / 2 := by omega
          have e0' : ((pos - 1) / 2 - 1) / 2 ≠ pos := by omega
          rw [if_neg e0, if_neg e0']
          have hg := h1 ((pos - 1) / 2) hq0 hq (by omega)
          by_cases e1 : i = (pos - 1) / 2
          · omega
          · rw [if_neg e1]
            by_cases e2 : i = pos
            · rw [if_pos e2]; exact hg
            · rw [if_neg e2]
              have := h1 i hi0 hil e2
              rw [hpar] at this; omega
      · rename_i hge
        intro i hi0 hil
        by_cases e : i = pos
        · subst e; omega
        · exact h1 i hi0 hil e
    · rename_i hp
      intro i hi0 hil
      exact h1 i hi0 hil (by omega)

theorem sinkHole_spec (h : List Entry) (pos : Nat) (hpos : pos < h.length)
    (h1 : ∀ i, 0 < i → i < h.length → i ≠ pos → (i - 1) / 2 ≠ pos → scoreAt h ((i - 1) / 2) ≤ scoreAt h i)
    (h2 : ∀ i, 0 < i → i < h.length → (i - 1) / 2 = pos → 0 < pos → scoreAt h ((pos - 1) / 2) ≤ scoreAt h i) :
    (sinkHole h pos).1.Perm h ∧ (sinkHole h pos).2 < h.length ∧
    h.length ≤ 2 * (sinkHole h pos).2 + 1 ∧
    ∀ i, 0 < i → i < h.length → i ≠ (sinkHole h pos).2 → (i - 1) / 2 ≠ (sinkHole h pos).2 →
      scoreAt (sinkHole h pos).1 ((i - 1) / 2) ≤ scoreAt (sinkHole h pos).1 i := by
  induction hn : h.length - pos using Nat.strongRecOn generalizing h pos with
  | ind n ih =>
    rw [sinkHole]
    by_cases hc : 2 * pos + 1 < h.length
    · simp only [hc, dite_true]
      generalize hce : minChild h pos = c
      have hcl : c < h.length ∧ (c = 2 * pos + 1 ∨ c = 2 * pos + 2) ∧
          ∀ i, i < h.length → (i = 2 * pos + 1 ∨ i = 2 * pos + 2) → scoreAt h c ≤ scoreAt h i := by
        unfold minChild at hce
        split at hce
        · rename_i hh
          subst hce
          refine ⟨hh.1, Or.inr rfl, ?_⟩
          rintro i hil (rfl | rfl)
          · omega
          · exact Int.le_refl _
        · rename_i hh
          subst hce
          refine ⟨hc, Or.inl rfl, ?_⟩
          rintro i hil (rfl | rfl)
          · exact Int.le_refl _
          · have : ¬ ¬ scoreAt h (2 * pos + 1) < scoreAt h (2 * pos + 2) := fun h' => hh ⟨hil, h'⟩
            omega
      obtain ⟨hcl, hc2, hmin⟩ := hcl
      have hperm := swap_perm h pos c
      obtain ⟨r1, r2, r3, r4⟩ := ih (h.length - c) (by omega) (swap h pos c) c (by simpa using hcl) (by
          intro i hi0 hil hine hpar
          rw [swap_length] at hil
          rw [scoreAt_swap h hpos hcl, scoreAt_swap h hpos hcl, if_neg hpar, if_neg hine]
          by_cases e1 : (i - 1) / 2 = pos
          · rw [if_pos e1]
            by_cases e2 : i = pos
            · omega
            · rw [if_neg e2]
              exact hmin i hil (by omega)
          · rw [if_neg e1]
            by_cases e2 : i = pos
            · rw [if_pos e2]
              subst e2
              exact h2 c (by omega) hcl (by omega) hi0
            · rw [if_neg e2]
              exact h1 i hi0 hil e2 e1)
        (by
          intro i hi0 hil hpar _
          rw [swap_length] at hil
          rw [scoreAt_swap h hpos hcl, scoreAt_swap h hpos hcl]
          have e1 : (c - 1) / 2 = pos := by omega
          rw [e1, if_neg (by omega), if_pos rfl, if_neg (by omega), if_neg (by omega)]
          have := h1 i hi0 hil (by omega) (by omega)
          rw [hpar] at this; exact this) (by simp)
      refine ⟨r1.trans hperm, by simpa using r2, by simpa using r3, ?_⟩
      intro i hi0 hil
      exact r4 i hi0 (by simpa using hil)
    · simp only [hc, dite_false]
      exact ⟨.refl _, hpos, by omega, h1⟩

theorem siftup_spec (h : List Entry) (hne : h ≠ [])
    (h1 : ∀ i, 0 < i → i < h.length → (i - 1) / 2 ≠ 0 → scoreAt h ((i - 1) / 2) ≤ scoreAt h i) :
    IsHeap (siftup h) ∧ (siftup h).Perm h := by
  have hpos : 0 < h.length := List.length_pos_iff.2 hne
  obtain ⟨r1, r2, r3, r4⟩ := sinkHole_spec h 0 hpos (fun i hi hil _ hp => h1 i hi hil hp) (fun _ _ _ _ h => absurd h (by omega))
  have hl : (sinkHole h 0).1.length = h.length := r1.length_eq
  unfold siftup
  refine ⟨siftdown_heap _ _ (by rw [hl]; exact r2) ?_ ?_, (siftdown_perm _ _).trans r1⟩
  · intro i hi hil hine
    rw [hl] at hil
    exact r4 i hi hil hine (by omega)
  · intro i hi hil hpar
    rw [hl] at hil
    omega

/-- In a heap the first item is a smallest one. -/
theorem heap_head_min {h : List Entry} (hh : IsHeap h) (i : Nat) (hi : i < h.length) : scoreAt h 0 ≤ scoreAt h i := by
  induction i using Nat.strongRecOn with
  | ind i ih =>
    by_cases h0 : i = 0
    · subst h0; exact Int.le_refl _
    · have h1 := ih ((i - 1) / 2) (by omega) (by omega)
      have h2 := hh i (by omega) hi
      omega

theorem heap_cons_min {r : Entry} {t : List Entry} (hh : IsHeap (r :: t)) : ∀ x ∈ r :: t, r.score ≤ x.score := by
  intro x hx
  obtain ⟨i, hi, rfl⟩ := List.getElem_of_mem hx
  have := heap_head_min hh i hi
  simp only [scoreAt, List.getElem?_eq_getElem hi] at this
  simpa using this

theorem heappush_spec {h : List Entry} (hh : IsHeap h) (e : Entry) :
    IsHeap (heappush h e) ∧ (heappush h e).Perm (e :: h) := by
  unfold heappush
  constructor
  · refine siftdown_heap _ _ (by simp) ?_ ?_
    · intro i hi hil hine
      simp at hil
      have hil' : i < h.length := by omega
      have := hh i hi hil'
      simp only [scoreAt] at this ⊢
      rw [List.getElem?_append_left hil', List.getElem?_append_left (by omega)]
      exact this
    · intro i hi hil hpar
      simp at hil; omega
  · exact (siftdown_perm _ _).trans (List.perm_append_singleton e h)

theorem root_free {r e : Entry} {t : List Entry} (hh : IsHeap (r :: t)) :
    ∀ i, 0 < i → i < (e :: t).length → (i - 1) / 2 ≠ 0 → scoreAt (e :: t) ((i - 1) / 2) ≤ scoreAt (e :: t) i := by
  intro i hi hil hp
  have := hh i hi (by simpa using hil)
  simp only [scoreAt] at this ⊢
  obtain ⟨j, rfl⟩ : ∃ j, i = j + 1 := ⟨i - 1, by omega⟩
  obtain ⟨k, hk⟩ : ∃ k, (j + 1 - 1) / 2 = k + 1 := ⟨(j + 1 - 1) / 2 - 1, by omega⟩
  rw [hk] at this ⊢
  simpa using this

/-- `heappushpop` returns a smallest item of heap and newcomer together (the newcomer on ties) and keeps the rest. -/
theorem heappushpop_spec {h : List Entry} (hh : IsHeap h) (e : Entry) :
    IsHeap (heappushpop h e).1 ∧ ((heappushpop h e).2 :: (heappushpop h e).1).Perm (e :: h) ∧
    (∀ x ∈ e :: h, (heappushpop h e).2.score ≤ x.score) ∧
    ((∀ x ∈ h, e.score ≤ x.score) → heappushpop h e = (h, e)) := by
  cases h with
  | nil => simp [heappushpop, IsHeap]
  | cons r t =>
    have hmin := heap_cons_min hh
    simp only [heappushpop]
    split
    · rename_i hlt
      obtain ⟨s1, s2⟩ := siftup_spec (e :: t) (by simp) (root_free hh)
      refine ⟨s1, ?_, ?_, ?_⟩
      · exact (List.Perm.cons r s2).trans (.swap _ _ _)
      · intro x hx
        rcases List.mem_cons.1 hx with rfl | hx
        · exact Int.le_of_lt hlt
        · exact hmin x hx
      · intro h0; have := h0 r (by simp); omega
    · rename_i hge
      refine ⟨hh, .refl _, ?_, fun _ => rfl⟩
      intro x hx
      rcases List.mem_cons.1 hx with rfl | hx
      · exact Int.le_refl _
      · have := hmin x hx; show e.score ≤ _; omega

/-- `heappop` returns a smallest item and keeps the rest. -/
theorem heappop_spec {h : List Entry} (hh : IsHeap h) :
    (h = [] ∧ heappop h = none) ∨ ∃ h' e, heappop h = some (h', e) ∧ IsHeap h' ∧ (e :: h').Perm h ∧
      ∀ x ∈ h, e.score ≤ x.score := by
  cases h with
  | nil => exact Or.inl ⟨rfl, rfl⟩
  | cons r t =>
    refine Or.inr ?_
    have hmin := heap_cons_min hh
    simp only [heappop]
    cases hl : t.getLast? with
    | none =>
      have : t = [] := by simpa using hl
      subst this
      refine ⟨[], r, rfl, ?_, .refl _, hmin⟩
      intro i _ hil; simp at hil
    | some l =>
      have hne : t ≠ [] := by rintro rfl; simp at hl
      have hlast : t = t.dropLast ++ [l] := by
        have := List.getLast?_eq_some_iff.1 hl
        obtain ⟨ys, rfl⟩ := this
        simp
      have hdrop : IsHeap (r :: t.dropLast) := by
        intro i hi hil
        have hlt : i < (r :: t).length := by
          simp at hil ⊢; omega
        have := hh i hi hlt
        have e1 : ∀ k, k < (r :: t.dropLast).length → scoreAt (r :: t) k = scoreAt (r :: t.dropLast) k := by
          intro k hk
          have : r :: t = (r :: t.dropLast) ++ [l] := by
            simp only [List.cons_append, List.cons.injEq, true_and]; exact hlast
          simp only [scoreAt]
          rw [this, List.getElem?_append_left hk]
        rw [e1 i hil, e1 _ (by omega)] at this
        exact this
      obtain ⟨s1, s2⟩ := siftup_spec (l :: t.dropLast) (by simp) (root_free hdrop)
      refine ⟨_, r, rfl, s1, ?_, hmin⟩
      refine List.Perm.cons r (s2.trans ?_)
      conv => rhs; rw [hlast]
      exact (List.perm_append_singleton l _).symm

end Verif.Memory
