import Verif.Discover.Trim
import Verif.Claims.Fit
import Mathlib.Tactic.Linarith
import Mathlib.Tactic.Ring
import Mathlib.Tactic.NormNum
import Mathlib.Algebra.BigOperators.Group.List.Basic
import Mathlib.Algebra.Order.Floor.Semiring
/-!
# C194: trimming the terms of noisy data
-/
namespace Verif.Discover.Trim.Claims
open Verif.Data Verif.Discover.Fit Verif.Discover.Trim

/-- How many entries at each end of an axis with `d` entries belong to the share `p`. -/
def margin (p : ℚ) (d : Nat) : Nat := ⌊p * d⌋₊

/-- Least squares refuses a column that has not as many rows as the left-hand side. -/
def Aligned {K : Type} (lstsq : List (List K) → List K → Option (List K)) : Prop :=
  ∀ cols lhs, (∃ c ∈ cols, c.length ≠ lhs.length) → lstsq cols lhs = none

theorem floor_cast (p : ℚ) (d : Nat) (h0 : 0 ≤ p) : ⌊p * d⌋ = (margin p d : Int) := by
  unfold margin
  rw [← Int.toNat_of_nonneg (Int.floor_nonneg.2 (mul_nonneg h0 (Nat.cast_nonneg d)))]
  rw [Int.floor_toNat]

theorem margin_le (p : ℚ) (d : Nat) (h0 : 0 ≤ p) (h1 : p ≤ 1 / 2) : 2 * margin p d ≤ d := by
  have h := Nat.floor_le (mul_nonneg h0 (Nat.cast_nonneg d) : 0 ≤ p * (d : ℚ))
  have hd : (0 : ℚ) ≤ d := Nat.cast_nonneg d
  have : (2 : ℚ) * (margin p d : ℚ) ≤ d := by unfold margin; nlinarith
  exact_mod_cast this

theorem low_eq (p : ℚ) (d : Nat) (h0 : 0 ≤ p) (h1 : p ≤ 1 / 2) : low p d = margin p d := by
  have := margin_le p d h0 h1
  unfold low clipEnd
  rw [floor_cast p d h0, if_neg (by omega)]
  omega

theorem up_eq (p : ℚ) (d : Nat) (h0 : 0 ≤ p) (h1 : p ≤ 1 / 2) : up p d = d - margin p d := by
  have hm := margin_le p d h0 h1
  have hc : ⌈(1 - p) * (d : ℚ)⌉ = (d : Int) - margin p d := by
    rw [show (1 - p) * (d : ℚ) = -(p * d) + ((d : Int) : ℚ) by push_cast; ring, Int.ceil_add_intCast, Int.ceil_neg, floor_cast p d h0]
    omega
  unfold up clipEnd
  rw [hc, if_neg (by omega)]
  omega

/-- **C194** (the block): with a share of at most one half, an array with two to four axes is trimmed by the whole part of that share of every axis at
both of its ends; every other entry is kept at its place. -/
theorem C194_block {V : Type} (p : ℚ) (h0 : 0 ≤ p) (h1 : p ≤ 1 / 2) (a : Arr V) (h2 : 2 ≤ a.shape.length) (h4 : a.shape.length ≤ 4) :
    (cutBound p a).shape = a.shape.map (fun d => d - 2 * margin p d) ∧
    ∀ i, (cutBound p a).get i = a.get (List.zipWith (· + ·) i (a.shape.map (margin p))) := by
  have hc : a.shape.length = 2 ∨ a.shape.length = 3 ∨ a.shape.length = 4 := by omega
  unfold cutBound
  rw [if_pos hc]
  constructor
  · refine List.map_congr_left fun d _ => ?_
    rw [up_eq p d h0 h1, low_eq p d h0 h1]
    omega
  · intro i
    simp only
    rw [List.map_congr_left fun d _ => low_eq p d h0 h1]

/-- **C194** (other arrays): with one axis or more than four nothing is trimmed. -/
theorem C194_other {V : Type} (p : ℚ) (a : Arr V) (h : a.shape.length < 2 ∨ 4 < a.shape.length) : cutBound p a = a := by
  unfold cutBound
  rw [if_neg (by omega)]

theorem indices_length : ∀ s : List Nat, (indices s).length = s.prod := by
  intro s
  induction s with
  | nil => rfl
  | cons n s ih =>
    rw [indices, List.length_flatMap, List.prod_cons]
    simp [ih]

theorem ravel_length {V : Type} (a : Arr V) : a.ravel.length = a.shape.prod := by simp [Arr.ravel, indices_length]

theorem prod_trim (p : ℚ) : ∀ s : List Nat, (s.map fun d => d - 2 * margin p d).prod ≤ s.prod := by
  intro s
  induction s with
  | nil => simp
  | cons d s ih => simp only [List.map_cons, List.prod_cons]; exact Nat.mul_le_mul (by omega) ih

theorem prod_pos' : ∀ s : List Nat, 0 ∉ s → 0 < s.prod := by
  intro s
  induction s with
  | nil => intro _; simp
  | cons d s ih =>
    intro h
    simp only [List.mem_cons, not_or] at h
    rw [List.prod_cons]
    exact Nat.mul_pos (by omega) (ih h.2)

theorem prod_trim_lt (p : ℚ) : ∀ s : List Nat, 0 ∉ s → (∃ d ∈ s, 0 < margin p d) → (s.map fun d => d - 2 * margin p d).prod < s.prod := by
  intro s
  induction s with
  | nil => rintro _ ⟨d, h, _⟩; nomatch h
  | cons d s ih =>
    intro h0 hex
    simp only [List.mem_cons, not_or] at h0
    simp only [List.map_cons, List.prod_cons]
    have hp := prod_pos' s h0.2
    rcases hex with ⟨e, he, hm⟩
    rcases List.mem_cons.1 he with rfl | he
    · exact lt_of_le_of_lt (Nat.mul_le_mul_left _ (prod_trim p s)) (Nat.mul_lt_mul_of_pos_right (by omega) hp)
    · have := ih h0.2 ⟨e, he, hm⟩
      exact lt_of_le_of_lt (Nat.mul_le_mul_right _ (by omega : d - 2 * margin p d ≤ d)) (Nat.mul_lt_mul_of_pos_left this (by omega))

theorem margin_pos_iff (p : ℚ) (d : Nat) (h0 : 0 ≤ p) : 0 < margin p d ↔ 1 ≤ p * d := by
  unfold margin
  rw [Nat.floor_pos]

/-- **C194** (number of entries): a nonempty grid with two to four axes keeps its number of entries exactly if the share of every axis is below one. -/
theorem C194_whole_iff {V : Type} (p : ℚ) (h0 : 0 ≤ p) (h1 : p ≤ 1 / 2) (a : Arr V) (h2 : 2 ≤ a.shape.length) (h4 : a.shape.length ≤ 4)
    (hne : 0 ∉ a.shape) : (cutBound p a).ravel.length = a.ravel.length ↔ ∀ d ∈ a.shape, p * d < 1 := by
  rw [ravel_length, ravel_length, (C194_block p h0 h1 a h2 h4).1]
  constructor
  · intro h d hd
    by_contra hlt
    have := prod_trim_lt p a.shape hne ⟨d, hd, (margin_pos_iff p d h0).2 (not_lt.1 hlt)⟩
    omega
  · intro h
    congr 1
    conv_rhs => rw [← List.map_id a.shape]
    refine List.map_congr_left fun d hd => ?_
    have : ¬ 0 < margin p d := fun hm => absurd ((margin_pos_iff p d h0).1 hm) (not_le.2 (h d hd))
    simp only [id]
    omega

theorem zipWith_zero : ∀ (i s : List Nat) (f : Nat → Nat), i.length = s.length → (∀ d ∈ s, f d = 0) → List.zipWith (· + ·) i (s.map f) = i := by
  intro i
  induction i with
  | nil => intro s f _ _; rfl
  | cons a i ih =>
    intro s f hl hf
    cases s with
    | nil => simp at hl
    | cons d s =>
      simp only [List.map_cons, List.zipWith_cons_cons]
      rw [hf d (by simp), ih s f (by simpa using hl) fun e he => hf e (by simp [he])]
      rfl

theorem length_of_mem_indices : ∀ (s i : List Nat), i ∈ indices s → i.length = s.length := by
  intro s
  induction s with
  | nil => intro i h; simp [indices] at h; simp [h]
  | cons n s ih =>
    intro i h
    simp only [indices, List.mem_flatMap, List.mem_map] at h
    obtain ⟨_, _, j, hj, rfl⟩ := h
    simp [ih j hj]

/-- **C194** (small grids): if the share of every axis is below one, trimming changes nothing, and a program is fitted as without noise. -/
theorem C194_small_partial {K : Type} [Zero K] [One K] [Add K] [Mul K] (small large : K → Bool) (lstsq : List (List K) → List K → Option (List K)) (c : Cfg)
    (noise p : ℚ) (h0 : 0 ≤ p) (exec : List String → Out K) (traversal : List String) (terms : List (List String)) (ut : Arr K)
    (hs : ∀ d ∈ ut.shape, p * d < 1) (hh : p ≤ 1 / 2) (hg : ∀ t a, exec t = .array a → a.shape = ut.shape) :
    fit small large lstsq c noise p exec traversal terms ut = fit small large lstsq c 0 p exec traversal terms ut := by
  unfold fit
  congr 1
  funext t
  cases he : exec t with
  | invalid e => rfl
  | none => rfl
  | tensor xs => rfl
  | array a =>
    simp only [column, lt_irrefl, if_false]
    congr 1
    split
    · by_cases hd : 2 ≤ a.shape.length ∧ a.shape.length ≤ 4
      · obtain ⟨b1, b2⟩ := C194_block p h0 hh a hd.1 hd.2
        have hz : ∀ d ∈ a.shape, margin p d = 0 := by
          intro d hd
          have : ¬ 0 < margin p d := fun hm => absurd ((margin_pos_iff p d h0).1 hm) (not_le.2 (hs d (hg t a he ▸ hd)))
          omega
        have hsh : (cutBound p a).shape = a.shape := by
          rw [b1]
          conv_rhs => rw [← List.map_id a.shape]
          exact List.map_congr_left fun d hd => by rw [hz d hd]; rfl
        unfold Arr.ravel
        rw [hsh]
        refine List.map_congr_left fun i hi => ?_
        rw [b2 i, zipWith_zero i a.shape _ (length_of_mem_indices _ _ hi) hz]
      · rw [C194_other p a (by omega)]
    · rfl

/-- **C194** (tensors): terms evaluated with PyTorch are never trimmed. -/
theorem C194_tensor {K : Type} [Zero K] [One K] [Add K] [Mul K] (small large : K → Bool) (lstsq : List (List K) → List K → Option (List K)) (c : Cfg)
    (noise p : ℚ) (exec : List String → Out K) (traversal : List String) (terms : List (List String)) (ut : Arr K) (hg : ∀ t a, exec t ≠ .array a) :
    fit small large lstsq c noise p exec traversal terms ut = fit small large lstsq c 0 p exec traversal terms ut := by
  unfold fit
  congr 1
  funext t
  cases he : exec t with
  | invalid e => rfl
  | none => rfl
  | tensor xs => rfl
  | array a => exact absurd he (hg t a)

/-- **C194 (violated).** With a positive noise level, on a grid with an axis of at least 1/p points, no program whose terms are arrays on the grid is ever
fitted: the terms are trimmed and the left-hand side is not. -/
theorem C194_never_counterexample {K : Type} [Ring K] (small large : K → Bool) (lstsq : List (List K) → List K → Option (List K)) (hls : Aligned lstsq)
    (c : Cfg) (noise p : ℚ) (hn : 0 < noise) (h0 : 0 ≤ p) (h1 : p ≤ 1 / 2) (exec : List String → Out K) (ut : Arr K)
    (h2 : 2 ≤ ut.shape.length) (h4 : ut.shape.length ≤ 4) (hne : 0 ∉ ut.shape) (d : Nat) (hd : d ∈ ut.shape) (hp : 1 ≤ p * d)
    (hg : ∀ t a, exec t = .array a → a.shape = ut.shape) (ht : ∀ t xs, exec t ≠ .tensor xs)
    (traversal : List String) (terms : List (List String)) (f : Fitted K) :
    fit small large lstsq c noise p exec traversal terms ut ≠ some (.ok f) := by
  intro h
  obtain ⟨cols, n, e1, e2, e3, e4, e5, _⟩ := Verif.Discover.Fit.Claims.C70_columns small large lstsq c _ traversal terms ut.ravel f h
  obtain ⟨t, ts, rfl⟩ := List.exists_cons_of_ne_nil e2
  have hl : 0 < cols.length := by rw [e1]; simp
  have hr := (e3 0 (by simp) hl).1
  simp only [List.getElem_cons_zero] at hr
  have hlen : cols[0].length ≠ ut.ravel.length := by
    cases he : exec t with
    | invalid e => rw [he] at hr; simp [column] at hr
    | none => rw [he] at hr; simp [column] at hr
    | tensor xs => exact absurd he (ht t xs)
    | array a =>
      rw [he] at hr
      simp only [column, hn, if_true, TermVal.col.injEq] at hr
      rw [← hr]
      have hsh := hg t a he
      have hu : ut.ravel.length = a.ravel.length := by rw [ravel_length, ravel_length, hsh]
      rw [hu]
      intro hw
      have := (C194_whole_iff p h0 h1 a (by rw [hsh]; exact h2) (by rw [hsh]; exact h4) (by rw [hsh]; exact hne)).1 hw d (by rw [hsh]; exact hd)
      linarith
  have hmem : cols[0] ∈ f.rhs := by
    rcases e4 with e4 | ⟨_, e4⟩
    · rw [e4]; exact List.getElem_mem hl
    · rw [e4]; exact List.mem_append_left _ (List.getElem_mem hl)
  rw [hls f.rhs ut.ravel ⟨_, hmem, hlen⟩] at e5
  nomatch e5

/-- The shipped ratio 0.03: an axis of 34 points or more is trimmed, shorter ones are not. -/
theorem C194_shipped (d : Nat) : margin (3 / 100) d = 0 ↔ d ≤ 33 := by
  have := margin_pos_iff (3 / 100) d (by norm_num)
  constructor
  · intro h
    by_contra hd
    have h34 : (34 : ℚ) ≤ d := by exact_mod_cast (by omega : 34 ≤ d)
    have : 0 < margin (3 / 100) d := this.2 (by linarith)
    omega
  · intro h
    by_contra hm
    have h33 : (d : ℚ) ≤ 33 := by exact_mod_cast h
    have := this.1 (by omega)
    linarith

/-- A grid of 3 x 5 points trimmed by a fifth: columns 1 to 3 of all rows are kept. -/
theorem C194_demo : (cutBound (1 / 5) (⟨[3, 5], fun i => i⟩ : Arr (List Nat))).ravel =
    [[0, 1], [0, 2], [0, 3], [1, 1], [1, 2], [1, 3], [2, 1], [2, 2], [2, 3]] := by
  decide +kernel

/-- Least squares with the check of the rows, and a grid and terms meeting the hypotheses of the counterexample. -/
example : (∃ lstsq : List (List ℚ) → List ℚ → Option (List ℚ), Aligned lstsq ∧ lstsq [[1, 2]] [2, 4] = some [2]) ∧
    (2 ≤ [256, 101].length ∧ 0 ∉ [256, 101] ∧ 1 ≤ (3 / 100 : ℚ) * (101 : Nat)) := by
  refine ⟨⟨fun cols lhs => if ∃ c ∈ cols, c.length ≠ lhs.length then none else some [2], ?_, ?_⟩, by decide, by decide, by norm_num⟩
  · intro cols lhs h; simp only [h, if_true]
  · simp

end Verif.Discover.Trim.Claims
