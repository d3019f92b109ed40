import Mathlib.Tactic.Linarith
import Mathlib.Tactic.Ring
import Mathlib.Tactic.FieldSimp
import Mathlib.Tactic.NormNum
import Mathlib.Algebra.Order.Field.Rat
import Mathlib.Algebra.Order.Floor.Ring
import Mathlib.Data.Rat.Floor
import Verif.Discover.Pinn
import Verif.Claims.Pinn
/-! C125, C126: the points the search of the sparse mode works on, and constant parameters. -/
namespace Verif.Discover.Pinn.Claims
open Verif.Discover.Adapter Verif.Discover.Pinn

/-! ## Sorting and quantiles -/

theorem insertQ_perm (a : ℚ) (l : List ℚ) : (insertQ a l).Perm (a :: l) := by
  induction l with
  | nil => exact List.Perm.refl _
  | cons b r ih =>
    unfold insertQ
    by_cases h : a ≤ b
    · rw [if_pos h]
    · rw [if_neg h]
      exact (List.Perm.cons b ih).trans (List.Perm.swap a b r)

theorem insertQ_sorted (a : ℚ) (l : List ℚ) (h : l.Pairwise (· ≤ ·)) : (insertQ a l).Pairwise (· ≤ ·) := by
  induction l with
  | nil => simp [insertQ]
  | cons b r ih =>
    unfold insertQ
    rw [List.pairwise_cons] at h
    by_cases hab : a ≤ b
    · rw [if_pos hab, List.pairwise_cons]
      refine ⟨fun c hc => ?_, List.pairwise_cons.2 h⟩
      rcases List.mem_cons.1 hc with rfl | hc
      · exact hab
      · exact le_trans hab (h.1 c hc)
    · rw [if_neg hab, List.pairwise_cons]
      refine ⟨fun c hc => ?_, ih h.2⟩
      rcases List.mem_cons.1 ((insertQ_perm a r).mem_iff.1 hc) with rfl | hc
      · exact le_of_lt (lt_of_not_ge hab)
      · exact h.1 c hc

/-- `np.sort` gives the same numbers in increasing order. -/
theorem sortQ_perm (l : List ℚ) : (sortQ l).Perm l := by
  induction l with
  | nil => exact List.Perm.refl _
  | cons a l ih => exact (insertQ_perm a (sortQ l)).trans (List.Perm.cons a ih)

theorem sortQ_sorted (l : List ℚ) : (sortQ l).Pairwise (· ≤ ·) := by
  induction l with
  | nil => exact List.Pairwise.nil
  | cons a l ih => exact insertQ_sorted a _ ih

theorem sortQ_length (l : List ℚ) : (sortQ l).length = l.length := (sortQ_perm l).length_eq

theorem sorted_le {s : List ℚ} (h : s.Pairwise (· ≤ ·)) {i j : Nat} {a b : ℚ} (hij : i ≤ j) (ha : s[i]? = some a) (hb : s[j]? = some b) :
    a ≤ b := by
  rcases Nat.lt_or_ge i j with hlt | hge
  · obtain ⟨h1, rfl⟩ := List.getElem?_eq_some_iff.1 ha
    obtain ⟨h2, rfl⟩ := List.getElem?_eq_some_iff.1 hb
    exact List.pairwise_iff_getElem.1 h i j h1 h2 hlt
  · have : i = j := by omega
    subst this
    exact le_of_eq (Option.some.inj (ha.symm.trans hb))

/-- The position of the quantile: index `k` and fraction, of `p = q (n - 1)`. -/
structure At (q : ℚ) (l : List ℚ) (k : Nat) (fr a b : ℚ) : Prop where
  pos : q * ((l.length : ℚ) - 1) = k + fr
  fr0 : 0 ≤ fr
  fr1 : fr < 1
  lo : (sortQ l)[k]? = some a
  hi : 0 < fr → (sortQ l)[k + 1]? = some b
  val : quantile q l = (1 - fr) * a + fr * b

theorem at_quantile (q : ℚ) (l : List ℚ) (h0 : 0 ≤ q) (h1 : q ≤ 1) (hl : l ≠ []) :
    ∃ k fr a b, At q l k fr a b ∧ (k : ℤ) = ⌊q * ((l.length : ℚ) - 1)⌋ := by
  have hn : 0 < l.length := List.length_pos_iff.2 hl
  have hn' : (1 : ℚ) ≤ l.length := by exact_mod_cast hn
  set p := q * ((l.length : ℚ) - 1) with hp
  have hp0 : 0 ≤ p := mul_nonneg h0 (by linarith)
  have hp1 : p ≤ (l.length : ℚ) - 1 := by
    have := mul_le_mul_of_nonneg_right h1 (show (0 : ℚ) ≤ (l.length : ℚ) - 1 by linarith)
    linarith
  have hf0 : 0 ≤ ⌊p⌋ := Int.floor_nonneg.2 hp0
  obtain ⟨k, hk⟩ := Int.eq_ofNat_of_zero_le hf0
  have hkq : (⌊p⌋ : ℚ) = k := by rw [hk]; simp
  have hfl := Int.floor_le p
  have hfl2 := Int.lt_floor_add_one p
  have hfloor : p.floor = ⌊p⌋ := rfl
  have hklt : k < l.length := by
    have : (k : ℚ) ≤ (l.length : ℚ) - 1 := by rw [← hkq]; linarith
    have : ((k + 1 : Nat) : ℚ) ≤ (l.length : ℚ) := by push_cast; linarith
    have := Nat.cast_le.1 this
    omega
  have hs : k < (sortQ l).length := by rw [sortQ_length]; exact hklt
  refine ⟨k, p - k, (sortQ l)[k], (((sortQ l)[k + 1]?).getD ((sortQ l)[k])), ⟨by rw [← hp]; ring, by rw [← hkq]; linarith, by rw [← hkq]; linarith,
    List.getElem?_eq_getElem hs, ?_, ?_⟩, hk.symm⟩
  · intro hpos
    have : (k : ℚ) < (l.length : ℚ) - 1 := by linarith
    have : ((k + 1 : Nat) : ℚ) < (l.length : ℚ) := by push_cast; linarith
    have h2 : k + 1 < (sortQ l).length := by rw [sortQ_length]; exact Nat.cast_lt.1 this
    rw [List.getElem?_eq_getElem h2, Option.getD_some]
  · unfold quantile
    simp only [← hp, hfloor, hk, Int.toNat_natCast, List.getElem?_eq_getElem hs, Option.getD_some]
    push_cast
    ring

theorem At.lo_le {q : ℚ} {l : List ℚ} {k : Nat} {fr a b : ℚ} (h : At q l k fr a b) : a ≤ quantile q l := by
  rw [h.val]
  rcases lt_or_eq_of_le h.fr0 with hp | hp
  · have := sorted_le (sortQ_sorted l) (Nat.le_succ k) h.lo (h.hi hp)
    nlinarith
  · rw [← hp]; linarith

theorem At.le_hi {q : ℚ} {l : List ℚ} {k : Nat} {fr a b : ℚ} (h : At q l k fr a b) (hp : 0 < fr) : quantile q l ≤ b := by
  rw [h.val]
  have := sorted_le (sortQ_sorted l) (Nat.le_succ k) h.lo (h.hi hp)
  have := h.fr1
  nlinarith

theorem filter_le_take (P : ℚ → Bool) (s : List ℚ) (m : Nat) (h : ∀ i a, m ≤ i → s[i]? = some a → P a = false) : (s.filter P).length ≤ m := by
  rw [← List.take_append_drop m s, List.filter_append, List.length_append]
  have h2 : (s.drop m).filter P = [] := by
    rw [List.filter_eq_nil_iff]
    intro a ha
    obtain ⟨i, hi, rfl⟩ := List.mem_drop_iff_getElem.1 ha
    have hi' : m + i < s.length := by omega
    have := h (m + i) _ (by omega) (List.getElem?_eq_getElem hi')
    simp [this]
  rw [h2]
  have := List.length_filter_le P (s.take m)
  have := List.length_take_le m s
  simp only [List.length_nil]
  omega

theorem filter_le_drop (P : ℚ → Bool) (s : List ℚ) (m : Nat) (h : ∀ i a, i < m → s[i]? = some a → P a = false) :
    (s.filter P).length ≤ s.length - m := by
  rw [← List.take_append_drop m s, List.filter_append, List.length_append]
  have h2 : (s.take m).filter P = [] := by
    rw [List.filter_eq_nil_iff]
    intro a ha
    obtain ⟨i, hi, rfl⟩ := List.mem_take_iff_getElem.1 ha
    rw [h i _ (by omega) (List.getElem?_eq_getElem (by omega))]
    simp
  rw [h2]
  have := List.length_filter_le P (s.drop m)
  simp only [List.length_nil, List.length_drop] at *
  simp only [List.length_append, List.length_take, List.length_drop]
  omega

/-- **C125** (quantile): the quantile of level `q` lies between two neighbours of the sorted values, at the position `q (n - 1)` counted from 0;
so it lies between the smallest and the largest value. -/
theorem C125_quantile (q : ℚ) (l : List ℚ) (h0 : 0 ≤ q) (h1 : q ≤ 1) (hl : l ≠ []) :
    (∃ s : List ℚ, s.Perm l ∧ s.Pairwise (· ≤ ·) ∧ ∃ (k : Nat) (fr a b : ℚ), q * ((l.length : ℚ) - 1) = k + fr ∧ 0 ≤ fr ∧ fr < 1 ∧
      s[k]? = some a ∧ (0 < fr → s[k + 1]? = some b) ∧ quantile q l = (1 - fr) * a + fr * b) ∧
    (∃ m ∈ l, m ≤ quantile q l) ∧ (∃ m ∈ l, quantile q l ≤ m) := by
  obtain ⟨k, fr, a, b, h, _⟩ := at_quantile q l h0 h1 hl
  refine ⟨⟨sortQ l, sortQ_perm l, sortQ_sorted l, k, fr, a, b, h.pos, h.fr0, h.fr1, h.lo, h.hi, h.val⟩, ⟨a, ?_, h.lo_le⟩, ?_⟩
  · exact (sortQ_perm l).mem_iff.1 (List.mem_of_getElem? h.lo)
  · rcases lt_or_eq_of_le h.fr0 with hp | hp
    · exact ⟨b, (sortQ_perm l).mem_iff.1 (List.mem_of_getElem? (h.hi hp)), h.le_hi hp⟩
    · refine ⟨a, (sortQ_perm l).mem_iff.1 (List.mem_of_getElem? h.lo), ?_⟩
      rw [h.val, ← hp]; linarith

/-- **C125** (how many values lie outside): at most `⌈q (n - 1)⌉` values are below the quantile of level `q` and as many above that of level
`1 - q`; of distinct values at most `⌊q (n - 1)⌋ + 1` are not above the former, and as many not below the latter. -/
theorem C125_outside (q : ℚ) (l : List ℚ) (h0 : 0 ≤ q) (h1 : q ≤ 1) (hl : l ≠ []) :
    ((l.filter fun v => decide (v < quantile q l)).length : ℤ) ≤ ⌈q * ((l.length : ℚ) - 1)⌉ ∧
    ((l.filter fun v => decide (quantile (1 - q) l < v)).length : ℤ) ≤ ⌈q * ((l.length : ℚ) - 1)⌉ ∧
    (l.Nodup → ((l.filter fun v => decide (v ≤ quantile q l)).length : ℤ) ≤ ⌊q * ((l.length : ℚ) - 1)⌋ + 1 ∧
      ((l.filter fun v => decide (quantile (1 - q) l ≤ v)).length : ℤ) ≤ ⌊q * ((l.length : ℚ) - 1)⌋ + 1) := by
  have hperm := sortQ_perm l
  have hlen := sortQ_length l
  have hn : 0 < l.length := List.length_pos_iff.2 hl
  obtain ⟨k, fr, a, b, h, hk⟩ := at_quantile q l h0 h1 hl
  obtain ⟨k', fr', a', b', h', hk'⟩ := at_quantile (1 - q) l (by linarith) (by linarith) hl
  have hcnt : ∀ P : ℚ → Bool, (l.filter P).length = ((sortQ l).filter P).length := fun P => ((hperm.filter P).length_eq).symm
  have hceil : 0 < fr → (k : ℤ) + 1 ≤ ⌈q * ((l.length : ℚ) - 1)⌉ := by
    intro hp
    have : (k : ℤ) < ⌈q * ((l.length : ℚ) - 1)⌉ := by
      rw [Int.lt_ceil, h.pos]; push_cast; linarith
    omega
  have hceil0 : (k : ℤ) ≤ ⌈q * ((l.length : ℚ) - 1)⌉ := by rw [hk]; exact Int.floor_le_ceil _
  have hsum : (k : ℚ) + fr + ((k' : ℚ) + fr') = (l.length : ℚ) - 1 := by rw [← h.pos, ← h'.pos]; ring
  have hkk' : k' + k + 1 ≤ l.length := by
    have : ((k' + k + 1 : Nat) : ℚ) ≤ (l.length : ℚ) := by push_cast; linarith [h.fr0, h'.fr0]
    exact_mod_cast this
  have hzero : fr = 0 → k' + k + 1 = l.length := by
    intro hz
    have e1 : fr' = ((l.length : ℤ) - 1 - k - k' : ℤ) := by push_cast; linarith
    have e2 : ((l.length : ℤ) - 1 - k - k' : ℤ) = 0 := by
      have a1 : (0 : ℚ) ≤ ((l.length : ℤ) - 1 - k - k' : ℤ) := by rw [← e1]; exact h'.fr0
      have a2 : (((l.length : ℤ) - 1 - k - k' : ℤ) : ℚ) < 1 := by rw [← e1]; exact h'.fr1
      have a3 : (0 : ℤ) ≤ (l.length : ℤ) - 1 - k - k' := by exact_mod_cast a1
      have a4 : (l.length : ℤ) - 1 - k - k' < 1 := by exact_mod_cast a2
      omega
    omega
  have hge2 : l.length ≤ k' + k + 2 := by
    have : (l.length : ℚ) < ((k' + k + 3 : Nat) : ℚ) := by push_cast; linarith [h.fr1, h'.fr1]
    have := Nat.cast_lt.1 this
    omega
  refine ⟨?_, ?_, fun hd => ⟨?_, ?_⟩⟩
  · rw [hcnt]
    rcases lt_or_eq_of_le h.fr0 with hp | hp
    · have := filter_le_take (fun v => decide (v < quantile q l)) (sortQ l) (k + 1) (fun i c hi hc => by
        have := sorted_le (sortQ_sorted l) hi (h.hi hp) hc
        have := h.le_hi hp
        rw [decide_eq_false]; linarith)
      have := hceil hp
      omega
    · have := filter_le_take (fun v => decide (v < quantile q l)) (sortQ l) k (fun i c hi hc => by
        have h3 := sorted_le (sortQ_sorted l) hi h.lo hc
        have h4 : quantile q l = a := by rw [h.val, ← hp]; ring
        rw [decide_eq_false]; linarith)
      omega
  · rw [hcnt]
    have hd : ((sortQ l).filter fun v => decide (quantile (1 - q) l < v)).length ≤ (sortQ l).length - (k' + 1) :=
      filter_le_drop _ _ _ (fun i c hi hc => by
        have h3 := sorted_le (sortQ_sorted l) (show i ≤ k' by omega) hc h'.lo
        have := h'.lo_le
        rw [decide_eq_false]; linarith)
    rw [hlen] at hd
    rcases lt_or_eq_of_le h.fr0 with hp | hp
    · have := hceil hp; omega
    · have := hzero hp.symm; omega
  · rw [hcnt, ← hk]
    have hnd : (sortQ l).Nodup := hperm.nodup_iff.2 hd
    have := filter_le_take (fun v => decide (v ≤ quantile q l)) (sortQ l) (k + 1) (fun i c hi hc => by
      have h3 : a < c := by
        have := sorted_le (sortQ_sorted l) (show k ≤ i by omega) h.lo hc
        rcases lt_or_eq_of_le this with hlt | heq
        · exact hlt
        · obtain ⟨i1, e1⟩ := List.getElem?_eq_some_iff.1 h.lo
          obtain ⟨i2, e2⟩ := List.getElem?_eq_some_iff.1 hc
          have := (List.Nodup.getElem_inj_iff hnd).1 (e1.trans (heq.trans e2.symm))
          omega
      rw [decide_eq_false]
      rcases lt_or_eq_of_le h.fr0 with hp | hp
      · have h4 := sorted_le (sortQ_sorted l) hi (h.hi hp) hc
        have h5 : a < b := by
          have := sorted_le (sortQ_sorted l) (Nat.le_succ k) h.lo (h.hi hp)
          rcases lt_or_eq_of_le this with hlt | heq
          · exact hlt
          · obtain ⟨i1, e1⟩ := List.getElem?_eq_some_iff.1 h.lo
            obtain ⟨i2, e2⟩ := List.getElem?_eq_some_iff.1 (h.hi hp)
            have := (List.Nodup.getElem_inj_iff hnd).1 (e1.trans (heq.trans e2.symm))
            omega
        have h6 : quantile q l < b := by rw [h.val]; nlinarith [h.fr1]
        linarith
      · have h4 : quantile q l = a := by rw [h.val, ← hp]; ring
        linarith)
    omega
  · rw [hcnt, ← hk]
    have hnd : (sortQ l).Nodup := hperm.nodup_iff.2 hd
    rcases lt_or_eq_of_le h'.fr0 with hp | hp
    · have hd : ((sortQ l).filter fun v => decide (quantile (1 - q) l ≤ v)).length ≤ (sortQ l).length - (k' + 1) :=
        filter_le_drop _ _ _ (fun i c hi hc => by
          have h3 := sorted_le (sortQ_sorted l) (show i ≤ k' by omega) hc h'.lo
          have h5 : a' < b' := by
            have := sorted_le (sortQ_sorted l) (Nat.le_succ k') h'.lo (h'.hi hp)
            rcases lt_or_eq_of_le this with hlt | heq
            · exact hlt
            · obtain ⟨i1, e1⟩ := List.getElem?_eq_some_iff.1 h'.lo
              obtain ⟨i2, e2⟩ := List.getElem?_eq_some_iff.1 (h'.hi hp)
              have := (List.Nodup.getElem_inj_iff hnd).1 (e1.trans (heq.trans e2.symm))
              omega
          have h6 : a' < quantile (1 - q) l := by rw [h'.val]; nlinarith
          rw [decide_eq_false]; linarith)
      omega
    · have hd : ((sortQ l).filter fun v => decide (quantile (1 - q) l ≤ v)).length ≤ (sortQ l).length - k' :=
        filter_le_drop _ _ _ (fun i c hi hc => by
          have h3 := sorted_le (sortQ_sorted l) (show i ≤ k' by omega) hc h'.lo
          have h4 : quantile (1 - q) l = a' := by rw [h'.val, ← hp]; ring
          have h5 : c < a' := by
            rcases lt_or_eq_of_le h3 with hlt | heq
            · exact hlt
            · obtain ⟨i1, e1⟩ := List.getElem?_eq_some_iff.1 hc
              obtain ⟨i2, e2⟩ := List.getElem?_eq_some_iff.1 h'.lo
              have := (List.Nodup.getElem_inj_iff hnd).1 (e1.trans (heq.trans e2.symm))
              omega
          rw [decide_eq_false]; linarith)
      have : fr = 0 := by
        have e1 : fr = ((l.length : ℤ) - 1 - k - k' : ℤ) := by push_cast; linarith
        have a1 : (0 : ℚ) ≤ ((l.length : ℤ) - 1 - k - k' : ℤ) := by rw [← e1]; exact h.fr0
        have a2 : (((l.length : ℤ) - 1 - k - k' : ℤ) : ℚ) < 1 := by rw [← e1]; exact h.fr1
        have a3 : (0 : ℤ) ≤ (l.length : ℤ) - 1 - k - k' := by exact_mod_cast a1
        have a4 : (l.length : ℤ) - 1 - k - k' < 1 := by exact_mod_cast a2
        have : ((l.length : ℤ) - 1 - k - k' : ℤ) = 0 := by omega
        rw [e1, this]; simp
      have := hzero this
      omega

/-! ## The points kept -/

/-- A point (space coordinates, then time) inside the quantiles of all coordinates: strictly in space, not strictly in time. -/
def Kept (q : ℚ) (c : Cols) (r : List ℚ) : Prop :=
  (∀ (i : Nat) (col : List ℚ) (v : ℚ), c.x[i]? = some col → r[i]? = some v → quantile q col < v ∧ v < quantile (1 - q) col) ∧
  ∀ v, r[c.x.length]? = some v → quantile q c.t ≤ v ∧ v ≤ quantile (1 - q) c.t

/-- Row `k` of the table. -/
def rowAt (c : Cols) (k : Nat) : List ℚ := (c.x.map fun col => (col[k]?).getD 0) ++ [(c.t[k]?).getD 0]

theorem inside_iff (q : ℚ) (c : Cols) (k : Nat) : inside q c k = true ↔ Kept q c (rowAt c k) := by
  unfold inside Kept rowAt
  simp only [Bool.and_eq_true, List.all_eq_true, decide_eq_true_eq]
  constructor
  · rintro ⟨h1, h2, h3⟩
    refine ⟨fun i col v hc hv => ?_, fun v hv => ?_⟩
    · have hi : i < c.x.length := (List.getElem?_eq_some_iff.1 hc).1
      rw [List.getElem?_append_left (by simpa using hi), List.getElem?_map, hc] at hv
      cases hv
      exact h1 col (List.mem_of_getElem? hc)
    · rw [List.getElem?_append_right (by simp)] at hv
      simp at hv
      subst hv
      exact ⟨h2, h3⟩
  · rintro ⟨h1, h2⟩
    refine ⟨fun col hc => ?_, h2 _ (by rw [List.getElem?_append_right (by simp)]; simp)⟩
    obtain ⟨i, hi⟩ := List.mem_iff_getElem?.1 hc
    refine h1 i col _ hi ?_
    have hi' : i < c.x.length := (List.getElem?_eq_some_iff.1 hi).1
    rw [List.getElem?_append_left (by simpa using hi'), List.getElem?_map, hi]
    rfl

theorem rows_eq (c : Cols) : c.rows = (List.range c.t.length).map (rowAt c) := rfl

open Classical in
theorem cut_rows (q : ℚ) (c : Cols) : (cutQuantile q c).rows = c.rows.filter fun r => decide (Kept q c r) := by
  rw [rows_eq c, List.filter_map]
  have hf : (List.range c.t.length).filter ((fun r => decide (Kept q c r)) ∘ rowAt c) = (List.range c.t.length).filter (inside q c) := by
    apply List.filter_congr
    intro k _
    rw [Function.comp, Bool.eq_iff_iff, decide_eq_true_eq, inside_iff]
  rw [hf]
  unfold cutQuantile Cols.rows
  simp only [List.length_map, List.map_map]
  generalize (List.range c.t.length).filter (inside q c) = ks
  apply List.ext_getElem?
  intro k
  by_cases hk : k < ks.length
  · rw [List.getElem?_map, List.getElem?_range hk, List.getElem?_map, List.getElem?_eq_getElem hk]
    simp [rowAt, Function.comp_def, List.getElem?_eq_getElem hk]
  · rw [List.getElem?_eq_none (by simpa using hk), List.getElem?_eq_none (by simpa using hk)]

open Classical in
/-- **C125.** In the sparse mode the search works exactly on the collocation points inside the quantiles of level `q` and `1 - q` of every
coordinate, in their order, and its data at such a point are the network's value and time derivative there.
Partial, of the whole claim: Ratio 0 still removes the extreme points in space; the one-dimensional variant fails for several coordinates (counterexamples). -/
theorem C125_points_partial (q : ℚ) (n : Field) (f : Cols) :
    ∃ m, generateMulti q n f = some m ∧ m.pts.rows = f.rows.filter (fun r => decide (Kept q f r)) ∧
      m.u = m.pts.rows.map n.value ∧ m.ut = m.pts.rows.map n.dt ∧
      (f.x.length = 1 → generateOne q n f = some m) := by
  refine ⟨⟨cutQuantile q f, _, _⟩, rfl, cut_rows q f, rfl, rfl, fun h => ?_⟩
  unfold generateOne
  rw [if_pos h]

theorem filter_range (P : ℚ → Bool) (l : List ℚ) : ((List.range l.length).filter fun k => P ((l[k]?).getD 0)).length = (l.filter P).length := by
  have : l = (List.range l.length).map fun k => (l[k]?).getD 0 := by
    apply List.ext_getElem?
    intro k
    by_cases hk : k < l.length
    · rw [List.getElem?_map, List.getElem?_range hk]; simp [List.getElem?_eq_getElem hk]
    · rw [List.getElem?_eq_none (by omega), List.getElem?_eq_none (by simpa using hk)]
  conv_rhs => rw [this]
  rw [List.filter_map, List.length_map]
  rfl

theorem filter_and (P Q : Nat → Bool) (l : List Nat) :
    (l.filter P).length ≤ (l.filter fun k => P k && Q k).length + (l.filter fun k => !Q k).length := by
  induction l with
  | nil => simp
  | cons a l ih =>
    simp only [List.filter_cons]
    cases P a <;> cases Q a <;> simp <;> omega

theorem filter_or (P Q : Nat → Bool) (l : List Nat) : (l.filter fun k => P k || Q k).length ≤ (l.filter P).length + (l.filter Q).length := by
  induction l with
  | nil => simp
  | cons a l ih =>
    simp only [List.filter_cons]
    cases P a <;> cases Q a <;> simp <;> omega

theorem not_between (a b v : ℚ) : (!(decide (a < v) && decide (v < b))) = (decide (v ≤ a) || decide (b ≤ v)) := by
  by_cases h1 : a < v <;> by_cases h2 : v < b <;> simp [h1, h2, not_le.2, not_lt.1]

theorem not_within (a b v : ℚ) : (!(decide (a ≤ v) && decide (v ≤ b))) = (decide (v < a) || decide (b < v)) := by
  by_cases h1 : a ≤ v <;> by_cases h2 : v ≤ b <;> simp [h1, h2, not_lt.2, not_le.1]

/-- **C125** (how many points remain): of `n` points with distinct values in each space coordinate, at least
`n - 2 ⌈q (n - 1)⌉ - 2 d (⌊q (n - 1)⌋ + 1)` remain, `d` the number of space coordinates. -/
theorem C125_remaining (q : ℚ) (c : Cols) (h0 : 0 ≤ q) (h1 : q ≤ 1) (ht : c.t ≠ [])
    (hc : ∀ col ∈ c.x, col.length = c.t.length ∧ col.Nodup) :
    (c.t.length : ℤ) - 2 * ⌈q * ((c.t.length : ℚ) - 1)⌉ - 2 * c.x.length * (⌊q * ((c.t.length : ℚ) - 1)⌋ + 1) ≤ (cutQuantile q c).rows.length := by
  have hkeep : (cutQuantile q c).rows.length = ((List.range c.t.length).filter (inside q c)).length := by
    simp [Cols.rows, cutQuantile]
  rw [hkeep]
  have space : ∀ cols : List (List ℚ), (∀ col ∈ cols, col.length = c.t.length ∧ col.Nodup) →
      (c.t.length : ℤ) - 2 * cols.length * (⌊q * ((c.t.length : ℚ) - 1)⌋ + 1) ≤
        ((List.range c.t.length).filter fun k => cols.all fun col =>
          decide (quantile q col < (col[k]?).getD 0) && decide ((col[k]?).getD 0 < quantile (1 - q) col)).length := by
    intro cols
    induction cols with
    | nil => intro _; simp
    | cons col r ih =>
      intro h
      have ih := ih fun col' h' => h col' (List.mem_cons_of_mem _ h')
      obtain ⟨hl, hd⟩ := h col List.mem_cons_self
      have hne : col ≠ [] := by
        intro e; subst e
        exact ht (List.length_eq_zero_iff.1 hl.symm)
      obtain ⟨_, _, h3⟩ := C125_outside q col h0 h1 hne
      obtain ⟨h3, h4⟩ := h3 hd
      rw [hl] at h3 h4
      have step := filter_and (fun k => r.all fun col => decide (quantile q col < (col[k]?).getD 0) && decide ((col[k]?).getD 0 < quantile (1 - q) col))
        (fun k => decide (quantile q col < (col[k]?).getD 0) && decide ((col[k]?).getD 0 < quantile (1 - q) col)) (List.range c.t.length)
      have e1 : ((List.range c.t.length).filter fun k => !(decide (quantile q col < (col[k]?).getD 0) && decide ((col[k]?).getD 0 < quantile (1 - q) col))).length
          ≤ (col.filter fun v => decide (v ≤ quantile q col)).length + (col.filter fun v => decide (quantile (1 - q) col ≤ v)).length := by
        rw [← filter_range, ← filter_range, hl]
        refine le_trans (le_of_eq ?_) (filter_or _ _ _)
        congr 1
        apply List.filter_congr
        intro k _
        exact not_between _ _ _
      have e2 : ((List.range c.t.length).filter fun k => (col :: r).all fun col =>
          decide (quantile q col < (col[k]?).getD 0) && decide ((col[k]?).getD 0 < quantile (1 - q) col)).length =
          ((List.range c.t.length).filter fun k => (r.all fun col => decide (quantile q col < (col[k]?).getD 0) && decide ((col[k]?).getD 0 < quantile (1 - q) col))
            && (decide (quantile q col < (col[k]?).getD 0) && decide ((col[k]?).getD 0 < quantile (1 - q) col))).length := by
        congr 1
        apply List.filter_congr
        intro k _
        rw [List.all_cons, Bool.and_comm]
      rw [e2]
      have : (2 * ((col :: r).length : ℤ)) * (⌊q * ((c.t.length : ℚ) - 1)⌋ + 1) =
          2 * (r.length : ℤ) * (⌊q * ((c.t.length : ℚ) - 1)⌋ + 1) + 2 * (⌊q * ((c.t.length : ℚ) - 1)⌋ + 1) := by
        rw [List.length_cons]; push_cast; ring
      omega
  have hs := space c.x hc
  obtain ⟨h5, h6, _⟩ := C125_outside q c.t h0 h1 ht
  have step := filter_and (fun k => c.x.all fun col => decide (quantile q col < (col[k]?).getD 0) && decide ((col[k]?).getD 0 < quantile (1 - q) col))
    (fun k => decide (quantile q c.t ≤ (c.t[k]?).getD 0) && decide ((c.t[k]?).getD 0 ≤ quantile (1 - q) c.t)) (List.range c.t.length)
  have e1 : ((List.range c.t.length).filter fun k => !(decide (quantile q c.t ≤ (c.t[k]?).getD 0) && decide ((c.t[k]?).getD 0 ≤ quantile (1 - q) c.t))).length
      ≤ (c.t.filter fun v => decide (v < quantile q c.t)).length + (c.t.filter fun v => decide (quantile (1 - q) c.t < v)).length := by
    rw [← filter_range, ← filter_range]
    refine le_trans (le_of_eq ?_) (filter_or _ _ _)
    congr 1
    apply List.filter_congr
    intro k _
    exact not_within _ _ _
  have e3 : (List.range c.t.length).filter (inside q c) = (List.range c.t.length).filter fun k =>
      (c.x.all fun col => decide (quantile q col < (col[k]?).getD 0) && decide ((col[k]?).getD 0 < quantile (1 - q) col)) &&
      (decide (quantile q c.t ≤ (c.t[k]?).getD 0) && decide ((c.t[k]?).getD 0 ≤ quantile (1 - q) c.t)) := rfl
  rw [e3]
  omega

/-- The positions and times 0, …, n - 1. -/
def line (n : Nat) : List ℚ := (List.range n).map Nat.cast

/-- 101 points with distinct positions and a cut of a tenth: at least 59 remain. -/
example : (59 : ℤ) ≤ (cutQuantile (1 / 10) ⟨[line 101], line 101⟩).rows.length := by
  have h := C125_remaining (1 / 10) ⟨[line 101], line 101⟩ (by norm_num) (by norm_num) (by simp [line]) (fun col hc => by
    simp only [List.mem_singleton] at hc
    subst hc
    exact ⟨rfl, List.Nodup.map (fun a b h => by simpa using h) List.nodup_range⟩)
  have hl : (line 101).length = 101 := by simp [line]
  simp only [hl] at h
  have e1 : ⌈(1 : ℚ) / 10 * (((101 : Nat) : ℚ) - 1)⌉ = 10 := by norm_num
  have e2 : ⌊(1 : ℚ) / 10 * (((101 : Nat) : ℚ) - 1)⌋ = 10 := by norm_num
  rw [e1, e2] at h
  simpa using h

/-- **C125 (violated).** Whatever the cut ratio, also 0, a point with the smallest or the largest value of a space coordinate is left out;
with all points at the same place along one space axis nothing remains. -/
theorem C125_extreme_counterexample (q : ℚ) (h0 : 0 ≤ q) (h1 : q ≤ 1) (c : Cols) (i : Nat) (col : List ℚ) (hi : c.x[i]? = some col)
    (hl : col.length = c.t.length) (v : ℚ) (hv : (∀ a ∈ col, v ≤ a) ∨ ∀ a ∈ col, a ≤ v) :
    ∀ r ∈ (cutQuantile q c).rows, r[i]? ≠ some v := by
  classical
  intro r hr
  rw [cut_rows, List.mem_filter, decide_eq_true_eq] at hr
  intro hrv
  have hne : col ≠ [] := by
    intro e
    subst e
    have : c.t = [] := List.length_eq_zero_iff.1 hl.symm
    rw [Cols.rows, this] at hr
    simp at hr
  obtain ⟨h2, h3⟩ := hr.2.1 i col v hi hrv
  rcases hv with hv | hv
  · obtain ⟨m, hm, hle⟩ := (C125_quantile q col h0 h1 hne).2.1
    have := hv m hm
    linarith
  · obtain ⟨m, hm, hle⟩ := (C125_quantile (1 - q) col (by linarith) (by linarith) hne).2.2
    have := hv m hm
    linarith

/-- With a cut ratio of 0 the first and the last of three points are left out. -/
example : (cutQuantile 0 ⟨[[0, 1, 2]], [0, 0, 0]⟩).rows = [[1, 0]] := by decide +kernel

/-- **C125 (violated).** The one-dimensional variant fails with more than one space coordinate. -/
theorem C125_one_counterexample (q : ℚ) (n : Field) (f : Cols) (h : f.x.length ≠ 1) : generateOne q n f = none := by
  unfold generateOne
  rw [if_neg h]

/-! ## C126: constant parameters -/

/-- **C126.** A parameter with the same value at all grid points is used with exactly that value at every point of the search.  A parameter
that is accepted is used with one value, and differs from it by at most `1e-8 + 1e-5 |value|` anywhere; any other is refused.
Partial, of the whole claim: Parameters below 5e-9 in size are taken as constant (counterexample). -/
theorem C126_constant_partial (raw : List ℚ) (n : Nat) :
    (∀ c, raw ≠ [] → (∀ v ∈ raw, v = c) → refreshParam raw n = .ok (List.replicate n c)) ∧
    (∀ l, refreshParam raw n = .ok l → ∃ c, raw.head? = some c ∧ l = List.replicate n c ∧
      ∀ v ∈ raw, |v - c| ≤ 1 / 100000000 + 1 / 100000 * |c|) ∧
    (∀ c, raw.head? = some c → (∃ v ∈ raw, 1 / 100000000 + 1 / 100000 * |c| < |v - c|) → refreshParam raw n = .error .notImplemented) := by
  refine ⟨fun c hne h => ?_, fun l h => ?_, fun c hc hv => ?_⟩
  · cases raw with
    | nil => exact absurd rfl hne
    | cons a r =>
      have ha : a = c := h a List.mem_cons_self
      subst ha
      unfold refreshParam
      simp only
      rw [if_pos]
      rw [List.all_eq_true]
      intro v hv
      rw [h v hv]
      simp only [close, decide_eq_true_eq, sub_self, abs_zero]
      positivity
  · cases raw with
    | nil => cases h
    | cons a r =>
      unfold refreshParam at h
      simp only at h
      by_cases hall : ((a :: r).all fun v => close v a) = true
      · rw [if_pos hall] at h
        cases h
        refine ⟨a, rfl, rfl, fun v hv => ?_⟩
        have := List.all_eq_true.1 hall v hv
        simpa [close] using this
      · rw [if_neg hall] at h; cases h
  · cases raw with
    | nil => cases hc
    | cons a r =>
      cases hc
      unfold refreshParam
      simp only
      rw [if_neg]
      intro hall
      obtain ⟨v, hv, hlt⟩ := hv
      have := List.all_eq_true.1 hall v hv
      simp only [close, decide_eq_true_eq] at this
      linarith

/-- A parameter with two values 1 and 2 is refused, a constant one is spread over the points. -/
example : (match refreshParam [1, 2] 3 with | .error .notImplemented => True | _ => False) ∧
    (match refreshParam [2, 2] 3 with | .ok l => l = [2, 2, 2] | _ => False) := by
  constructor
  · have : refreshParam [1, 2] 3 = .error .notImplemented := (C126_constant_partial [1, 2] 3).2.2 1 rfl ⟨2, by simp, by norm_num⟩
    rw [this]; trivial
  · have : refreshParam [2, 2] 3 = .ok (List.replicate 3 2) := (C126_constant_partial [2, 2] 3).1 2 (by simp) (by simp)
    rw [this]; rfl

/-- **C126 (violated).** A parameter whose values are all small (at most `5e-9` in size) is taken as constant however it varies: the value at
the first grid point is used everywhere. -/
theorem C126_small_counterexample (c : ℚ) (r : List ℚ) (n : Nat) (h : ∀ v ∈ c :: r, |v| ≤ 5 / 1000000000) :
    refreshParam (c :: r) n = .ok (List.replicate n c) := by
  unfold refreshParam
  simp only
  rw [if_pos]
  rw [List.all_eq_true]
  intro v hv
  simp only [close, decide_eq_true_eq]
  have h1 := h v hv
  have h2 := h c List.mem_cons_self
  have h3 : |v - c| ≤ |v| + |c| := abs_sub v c
  have := abs_nonneg c
  linarith

/-- The second value is five times the first. -/
example : (match refreshParam [1 / 1000000000, 5 / 1000000000] 1 with | .ok l => l = [1 / 1000000000] | _ => False) := by
  rw [C126_small_counterexample _ _ _ (by intro v hv; simp at hv; rcases hv with rfl | rfl <;> norm_num [abs_of_pos])]
  rfl

end Verif.Discover.Pinn.Claims
