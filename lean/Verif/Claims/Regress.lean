import Verif.Sga.Regress
/-!
# C30, C31: sequential thresholding and the tolerance search
-/
namespace Verif.Claims
open Verif.Sga

/-! ## Specification: successive thresholding of supports -/

/-- The next support: the columns of `B` whose coefficient in the given fit is not below the tolerance. -/
def nextSupport {K : Type} (t : Thr K) (fit : Nat → K) (B : List Nat) : List Nat := B.filter fun i => !t.below (fit i)

/-- The support after `k` rounds; the first round looks at the starting estimate, later rounds at the fit on the
current support. -/
def support {K : Type} (t : Thr K) (f : Fits K) : Nat → List Nat
  | 0 => List.range f.d
  | k + 1 => nextSupport t (if k = 0 then f.start else f.ridge (support t f k)) (support t f k)

/-- The coefficients on the support after `k` rounds, zero elsewhere. -/
def fitted {K : Type} (t : Thr K) (f : Fits K) (k : Nat) : Nat → K :=
  fun i => if k = 0 then f.start i else if i ∈ support t f k then f.ridge (support t f k) i else t.zero

theorem support_range {K : Type} (t : Thr K) (f : Fits K) (k : Nat) : ∀ i ∈ support t f k, i < f.d := by
  induction k with
  | zero => intro i hi; simpa [support] using hi
  | succ k ih => intro i hi; exact ih i (List.mem_filter.1 hi).1

theorem support_filter {K : Type} (t : Thr K) (f : Fits K) (k : Nat) :
    ∃ p : Nat → Bool, support t f k = (List.range f.d).filter p := by
  induction k with
  | zero => exact ⟨fun _ => true, (List.filter_eq_self.2 (by simp)).symm⟩
  | succ k ih =>
    obtain ⟨p, hp⟩ := ih
    rw [support, nextSupport, hp, List.filter_filter]
    exact ⟨_, rfl⟩

/-- The code's "not below the tolerance" over all columns is the next support, because discarded columns hold zero. -/
theorem newBig_eq {K : Type} (t : Thr K) (f : Fits K) (hz : t.below t.zero = true) (k : Nat) :
    (List.range f.d).filter (fun i => !((List.range f.d).filter fun i => t.below (fitted t f k i)).contains i)
      = support t f (k + 1) := by
  have h1 : (List.range f.d).filter (fun i => !((List.range f.d).filter fun i => t.below (fitted t f k i)).contains i)
      = (List.range f.d).filter (fun i => !t.below (fitted t f k i)) := by
    apply List.filter_congr
    intro i hi
    congr 1
    rw [Bool.eq_iff_iff]
    simp only [List.contains_iff_mem, List.mem_filter]
    exact ⟨fun h => h.2, fun h => ⟨hi, h⟩⟩
  rw [h1, support, nextSupport]
  cases k with
  | zero => simp [support, fitted]
  | succ k =>
    obtain ⟨p, hp⟩ := support_filter t f (k + 1)
    have hmem : ∀ i ∈ List.range f.d, (i ∈ support t f (k + 1) ↔ p i = true) := by
      intro i hi; rw [hp, List.mem_filter]; exact ⟨fun h => h.2, fun h => ⟨hi, h⟩⟩
    have e : (support t f (k + 1)).filter (fun i => !t.below (f.ridge (support t f (k + 1)) i)) =
        (List.range f.d).filter (fun i => p i && !t.below (f.ridge (support t f (k + 1)) i)) := by
      conv => lhs; arg 2; rw [hp]
      rw [List.filter_filter]
      apply List.filter_congr
      intro i _
      rw [Bool.and_comm]
    simp only [Nat.add_eq_zero_iff, Nat.succ_ne_self, and_false, if_false]
    rw [e]
    apply List.filter_congr
    intro i hi
    simp only [fitted, Nat.add_eq_zero_iff, Nat.succ_ne_self, and_false, if_false]
    by_cases hm : i ∈ support t f (k + 1)
    · simp [hm, (hmem i hi).1 hm]
    · have : p i = false := by
        cases h : p i with
        | true => exact absurd ((hmem i hi).2 h) hm
        | false => rfl
      simp [hm, this, hz]

theorem fitted_step {K : Type} (t : Thr K) (f : Fits K) (hz : t.below t.zero = true) (k : Nat) (i : Nat) (hi : i < f.d) :
    assign (support t f (k + 1)) (f.ridge (support t f (k + 1)))
      (assign ((List.range f.d).filter fun i => t.below (fitted t f k i)) (fun _ => t.zero) (fitted t f k)) i
      = fitted t f (k + 1) i := by
  have key := newBig_eq t f hz k
  unfold assign
  by_cases hm : i ∈ support t f (k + 1)
  · simp [hm, fitted]
  · have : i ∈ (List.range f.d).filter fun i => t.below (fitted t f k i) := by
      rw [← key] at hm
      simp only [List.mem_filter, List.mem_range, hi, true_and, Bool.not_eq_true'] at hm
      simpa [hi] using hm
    rw [if_neg hm, if_pos this]
    simp [fitted, hm]

/-- Only the values at real columns matter. -/
theorem strLoop_congr {K : Type} (t : Thr K) (f : Fits K) : ∀ (n j rel : Nat) (B : List Nat) (w w' : Nat → K),
    (∀ i, i < f.d → w i = w' i) →
    (∃ v v', strLoop t f j n rel B w = .early v ∧ strLoop t f j n rel B w' = .early v' ∧ ∀ i, i < f.d → v i = v' i) ∨
    (∃ C v v', strLoop t f j n rel B w = .done C v ∧ strLoop t f j n rel B w' = .done C v' ∧ ∀ i, i < f.d → v i = v' i) := by
  intro n
  induction n with
  | zero => intro j rel B w w' h; exact Or.inr ⟨B, w, w', rfl, rfl, h⟩
  | succ n ih =>
    intro j rel B w w' h
    have e : (List.range f.d).filter (fun i => t.below (w i)) = (List.range f.d).filter (fun i => t.below (w' i)) := by
      apply List.filter_congr
      intro i hi; rw [h i (by simpa using hi)]
    simp only [strLoop]
    rw [e]
    generalize (List.range f.d).filter (fun i => t.below (w' i)) = small
    generalize (List.range f.d).filter (fun i => !small.contains i) = nb
    split
    · exact Or.inr ⟨B, w, w', rfl, rfl, h⟩
    · split
      · split
        · exact Or.inl ⟨w, w', rfl, rfl, h⟩
        · exact Or.inr ⟨B, w, w', rfl, rfl, h⟩
      · apply ih
        intro i hi
        simp only [assign, h i hi]

theorem support_length_le {K : Type} (t : Thr K) (f : Fits K) (k : Nat) :
    (support t f (k + 1)).length ≤ (support t f k).length := by
  rw [support]; exact List.length_filter_le _ _

theorem support_eq_of_length {K : Type} (t : Thr K) (f : Fits K) (k : Nat)
    (h : (support t f k).length = (support t f (k + 1)).length) : support t f (k + 1) = support t f k := by
  rw [support, nextSupport] at h ⊢
  exact List.length_filter_eq_length_iff.1 h.symm |> List.filter_eq_self.2

/-- From round `k ≥ 1` on: the loop stops at some round `m` with that round's support and coefficients. -/
theorem strLoop_from {K : Type} (t : Thr K) (f : Fits K) (hz : t.below t.zero = true) : ∀ (n k : Nat), 0 < k →
    ∃ m v, k ≤ m ∧ m ≤ k + n ∧ strLoop t f k n (support t f k).length (support t f k) (fitted t f k) = .done (support t f m) v ∧
      (∀ i, i < f.d → v i = fitted t f m i) ∧
      (m = k + n ∨ support t f (m + 1) = support t f m ∨ support t f (m + 1) = []) ∧
      ∀ r, k ≤ r → r < m → (support t f (r + 1)).length < (support t f r).length ∧ support t f (r + 1) ≠ [] := by
  intro n
  induction n with
  | zero => intro k hk; exact ⟨k, _, Nat.le_refl _, Nat.le_refl _, rfl, fun _ _ => rfl, Or.inl rfl, by intro r h1 h2; omega⟩
  | succ n ih =>
    intro k hk
    simp only [strLoop]
    rw [newBig_eq t f hz k]
    by_cases h1 : (support t f k).length = (support t f (k + 1)).length
    · rw [if_pos h1]
      exact ⟨k, _, Nat.le_refl _, by omega, rfl, fun _ _ => rfl, Or.inr (Or.inl (support_eq_of_length t f k h1)),
        by intro r h1 h2; omega⟩
    · rw [if_neg h1]
      by_cases h2 : (support t f (k + 1)).length = 0
      · rw [if_pos h2, if_neg (by omega)]
        exact ⟨k, _, Nat.le_refl _, by omega, rfl, fun _ _ => rfl, Or.inr (Or.inr (List.length_eq_zero_iff.1 h2)),
          by intro r h1 h2; omega⟩
      · rw [if_neg h2]
        obtain ⟨m, v, a1, a2, a3, a4, a5, a6⟩ := ih (k + 1) (by omega)
        have hr : ∀ r, k ≤ r → r < m → (support t f (r + 1)).length < (support t f r).length ∧ support t f (r + 1) ≠ [] := by
          intro r b1 b2
          by_cases hr : r = k
          · subst hr
            refine ⟨?_, fun h => h2 (by rw [h]; rfl)⟩
            have := support_length_le t f r
            omega
          · exact a6 r (by omega) b2
        rcases strLoop_congr t f n (k + 1) (support t f (k + 1)).length (support t f (k + 1)) _ (fitted t f (k + 1))
            (fun i hi => fitted_step t f hz k i hi) with ⟨v1, v2, c1, c2, c3⟩ | ⟨C, v1, v2, c1, c2, c3⟩
        · rw [a3] at c2; simp at c2
        · rw [a3] at c2
          injection c2 with c2 c2'
          subst c2; subst c2'
          refine ⟨m, v1, by omega, by omega, c1, fun i hi => (c3 i hi).trans (a4 i hi), ?_, hr⟩
          rcases a5 with h | h | h
          · left; omega
          · right; left; exact h
          · right; right; exact h

/-- **C30**: `STRidge` with a positive tolerance, no starting coefficient exactly at the tolerance and at least one
iteration.  Either every starting coefficient is below the tolerance, and the starting (normalised) coefficients are
returned; or the result is, for the support after some number `m` of thresholding rounds, the least-squares fit on that
support, and zero on every other column (`scale i zero = zero`).  Up to `m` every round discarded at least one column
and never everything, and the loop stopped because the iterations were used up, because round `m + 1` would discard
nothing, or because it would discard everything.  Supports only shrink, by definition of `support`. -/
theorem C30_support_partial {K : Type} (t : Thr K) (f : Fits K) (hz : t.below t.zero = true)
    (hne : ∀ i, i < f.d → t.above (f.start i) = !t.below (f.start i)) (maxit : Nat) (hm : 0 < maxit) (hd : 0 < f.d) :
    (support t f 1 = [] ∧ ∀ i, strRidge t f maxit i = f.start i) ∨
    (∃ m, m ≤ maxit ∧ support t f m ≠ [] ∧
      (∀ i, i < f.d → strRidge t f maxit i =
        f.scale i (if i ∈ support t f m then f.lsq (support t f m) i else t.zero)) ∧
      (m = maxit ∨ support t f (m + 1) = support t f m ∨ support t f (m + 1) = []) ∧
      ∀ r, r < m → (support t f (r + 1)).length < (support t f r).length ∧ support t f (r + 1) ≠ []) := by
  obtain ⟨n, rfl⟩ : ∃ n, maxit = n + 1 := ⟨maxit - 1, by omega⟩
  have h0 : fitted t f 0 = f.start := by funext i; simp [fitted]
  have key := newBig_eq t f hz 0
  rw [h0] at key
  have hb : (List.range f.d).filter (fun i => t.above (f.start i)) = support t f 1 := by
    rw [support, nextSupport]
    apply List.filter_congr
    intro i hi
    simp [hne i (by simpa using hi)]
  have hs0 : (support t f 0).length = f.d := by simp [support]
  simp only [strRidge, strLoop]
  rw [key]
  by_cases h1 : f.d = (support t f 1).length
  · rw [if_pos h1]
    have hs := support_eq_of_length t f 0 (by rw [hs0]; exact h1)
    right
    refine ⟨0, by omega, ?_, ?_, Or.inr (Or.inl hs), by intro r h; omega⟩
    · intro h; rw [h] at hs0; simp at hs0; omega
    · intro i hi
      simp only
      rw [hb, if_pos (by omega), hs]
      have : i ∈ support t f 0 := by simpa [support] using hi
      simp [assign, this]
  · rw [if_neg h1]
    by_cases h2 : (support t f (0 + 1)).length = 0
    · rw [if_pos h2]
      left
      exact ⟨List.length_eq_zero_iff.1 h2, fun i => rfl⟩
    · rw [if_neg h2]
      right
      obtain ⟨m, v, a1, a2, a3, a4, a5, a6⟩ := strLoop_from t f hz n 1 (by omega)
      have hlt : (support t f 1).length < (support t f 0).length := by
        have := support_length_le t f 0
        rw [hs0] at this ⊢
        simp only [Nat.zero_add] at this
        omega
      have hstep : ∀ r, r < m → (support t f (r + 1)).length < (support t f r).length ∧ support t f (r + 1) ≠ [] := by
        intro r hr
        by_cases h : r = 0
        · subst h; exact ⟨hlt, fun h => h2 (by rw [h]; rfl)⟩
        · exact a6 r (by omega) hr
      have hnem : support t f m ≠ [] := by
        obtain ⟨m', rfl⟩ : ∃ m', m = m' + 1 := ⟨m - 1, by omega⟩
        exact (hstep m' (by omega)).2
      refine ⟨m, by omega, hnem, ?_, ?_, hstep⟩
      · rcases strLoop_congr t f n 1 (support t f 1).length (support t f 1)
            (assign (support t f 1) (f.ridge (support t f 1))
              (assign ((List.range f.d).filter fun i => t.below (f.start i)) (fun _ => t.zero) f.start)) (fitted t f 1)
            (fun i hi => by have := fitted_step t f hz 0 i hi; rw [h0] at this; exact this) with
          ⟨v1, v2, c1, c2, c3⟩ | ⟨C, v1, v2, c1, c2, c3⟩
        · rw [a3] at c2; simp at c2
        · rw [a3] at c2
          injection c2 with c2 c2'
          subst c2; subst c2'
          intro i hi
          simp only [Nat.zero_add]
          rw [c1]
          simp only
          have hpos : (support t f m).length > 0 := List.length_pos_iff.2 hnem
          rw [if_pos hpos]
          have hm0 : m ≠ 0 := by omega
          congr 1
          unfold assign
          split
          · rfl
          · rename_i hni
            rw [c3 i hi, a4 i hi]
            simp [fitted, hm0, hni]
      · rcases a5 with h | h | h
        · left; omega
        · exact Or.inr (Or.inl h)
        · exact Or.inr (Or.inr h)

/-- Supports only shrink: a discarded column never comes back. -/
theorem C30_never_readmitted {K : Type} (t : Thr K) (f : Fits K) (k m : Nat) (h : k ≤ m) :
    ∀ i ∈ support t f m, i ∈ support t f k := by
  induction m with
  | zero => have : k = 0 := by omega
            subst this; exact fun i hi => hi
  | succ m ih =>
    by_cases hk : k = m + 1
    · subst hk; exact fun i hi => hi
    · intro i hi
      exact ih (by omega) i (List.mem_filter.1 hi).1

/-- At most `d - 1` rounds can discard something, so a larger iteration limit changes nothing. -/
theorem C30_rounds {K : Type} (t : Thr K) (f : Fits K) (m : Nat)
    (h : ∀ r, r < m → (support t f (r + 1)).length < (support t f r).length) : m + (support t f m).length ≤ f.d := by
  induction m with
  | zero => simp [support]
  | succ m ih =>
    have := ih (fun r hr => h r (by omega))
    have := h m (by omega)
    omega

/-- Rational-free example data: tolerance 10, three columns. -/
def exThr : Thr Int := ⟨0, fun x => decide (x.natAbs < 10), fun x => decide (x.natAbs > 10)⟩
def exFits : Fits Int :=
  ⟨3, fun i => if i = 1 then 3 else 12, fun B i => if B = [0, 2] then (if i = 0 then 15 else 2) else 20,
    fun B i => if B = [0] then 17 else if i = 0 then 1 else 2, fun _ x => x * 2⟩

example : exThr.below exThr.zero = true ∧ (∀ i, i < exFits.d → exThr.above (exFits.start i) = !exThr.below (exFits.start i)) ∧
    (List.range 3).map (strRidge exThr exFits 10) = [34, 0, 0] ∧ support exThr exFits 1 = [0, 2] ∧
    support exThr exFits 2 = [0] := by decide

/-- If every coefficient is below the tolerance the returned vector is not rescaled and not sparse: discarded terms are
reported with nonzero coefficients. -/
theorem C30_all_below_counterexample :
    support exThr { exFits with start := fun _ => 3 } 1 = [] ∧
    (List.range 3).map (strRidge exThr { exFits with start := fun _ => 3 } 10) = [3, 3, 3] := by decide

/-- A starting coefficient exactly at the tolerance is neither small nor large: the returned vector keeps its old value
while the other columns are refitted without it. -/
theorem C30_at_tolerance_counterexample :
    (List.range 3).map (strRidge exThr { exFits with start := fun i => if i = 1 then 10 else 12 } 10) = [2, 20, 4] := by decide

/-! ## C31 -/

theorem trainLoop_best {W T S : Type} (s : Search W T S) (ht : ∀ a b, s.le a b = true ∨ s.le b a = true)
    (htr : ∀ a b c, s.le a b = true → s.le b c = true → s.le a c = true) : ∀ (n it : Nat) (tol dtol : T) (wb : W),
    let r := trainLoop s it n tol dtol wb (s.score wb)
    r.2.1 = s.score r.1 ∧ (r.1 = wb ∨ r.1 ∈ r.2.2) ∧ s.le r.2.1 (s.score wb) = true ∧
    ∀ w ∈ r.2.2, s.le r.2.1 (s.score w) = true := by
  intro n
  induction n with
  | zero =>
    intro it tol dtol wb
    refine ⟨rfl, Or.inl rfl, ?_, by simp [trainLoop]⟩
    rcases ht (s.score wb) (s.score wb) with h | h <;> exact h
  | succ n ih =>
    intro it tol dtol wb
    simp only [trainLoop]
    by_cases hle : s.le (s.score (s.str tol)) (s.score wb) = true
    · rw [if_pos hle]
      obtain ⟨h1, h2, h3, h4⟩ := ih (it + 1) (s.up tol dtol) dtol (s.str tol)
      refine ⟨h1, Or.inr ?_, htr _ _ _ h3 hle, ?_⟩
      · rcases h2 with h | h
        · rw [h]; simp
        · simp [h]
      · intro w hw
        simp only [List.mem_cons] at hw
        rcases hw with rfl | hw
        · exact h3
        · exact h4 w hw
    · rw [if_neg hle]
      obtain ⟨h1, h2, h3, h4⟩ := ih (it + 1) (s.down it tol dtol).1 (s.down it tol dtol).2 wb
      refine ⟨h1, ?_, h3, ?_⟩
      · rcases h2 with h | h
        · exact Or.inl h
        · right; simp [h]
      · intro w hw
        simp only [List.mem_cons] at hw
        rcases hw with rfl | hw
        · refine htr _ _ _ h3 ?_
          rcases ht (s.score wb) (s.score (s.str tol)) with h | h
          · exact h
          · exact absurd h hle
        · exact h4 w hw

/-- **C31**: with scores that are comparable (no NaN), the returned coefficients are among those evaluated (the dense
fit included), the returned score is their score, and no evaluated coefficients have a better one. -/
theorem C31_best_partial {W T S : Type} (s : Search W T S) (ht : ∀ a b, s.le a b = true ∨ s.le b a = true)
    (htr : ∀ a b c, s.le a b = true → s.le b c = true → s.le a c = true) (maxit : Nat) (dtol : T) :
    let r := train s maxit dtol
    r.1 ∈ r.2.2 ∧ r.2.1 = s.score r.1 ∧ (∀ w ∈ r.2.2, s.le r.2.1 (s.score w) = true) ∧
    s.dense ∈ r.2.2 ∧ r.2.2.length = maxit + 1 := by
  obtain ⟨h1, h2, h3, h4⟩ := trainLoop_best s ht htr maxit 0 dtol dtol s.dense
  have hlen : ∀ n it tol dtol wb sb, (trainLoop s it n tol dtol wb sb).2.2.length = n := by
    intro n
    induction n with
    | zero => intros; rfl
    | succ n ih =>
      intro it tol dtol wb sb
      simp only [trainLoop]
      split <;> simp [ih]
  refine ⟨?_, h1, ?_, by simp [train], by simp [train, hlen]⟩
  · simp only [train, List.mem_cons]
    exact h2
  · intro w hw
    simp only [train, List.mem_cons] at hw
    rcases hw with rfl | hw
    · exact h3
    · exact h4 w hw

/-- Scores with NaN (`none`): Python's `<=` is false as soon as one side is NaN. -/
def exSearch (dense : Option Int) : Search Nat Nat (Option Int) :=
  ⟨0, fun t => t + 1, fun w => if w = 0 then dense else some (-(w : Int)),
    fun a b => match a, b with | some x, some y => decide (x ≤ y) | _, _ => false, fun t d => t + d, fun _ t d => (t - 2 * d + 2 * d, 2 * d)⟩

example : (train (exSearch (some 5)) 3 1).1 = 4 ∧ (train (exSearch (some 5)) 3 1).2.1 = some (-4) := by decide

/-- If the score of the dense fit is NaN it is returned although better fits were evaluated. -/
theorem C31_nan_counterexample : (train (exSearch none) 3 1).1 = 0 ∧ (train (exSearch none) 3 1).2.2.contains 2 := by
  decide

end Verif.Claims
