import Verif.Discover.Reward
/-!
# C72 – what the reward measures
-/
namespace Verif.Discover.Reward.Claims

/-- Some two data differ. -/
def NonConstant (y : List ℝ) : Prop := ∃ a ∈ y, ∃ b ∈ y, a ≠ b

theorem sum_nonneg' {l : List ℝ} (h : ∀ a ∈ l, 0 ≤ a) : 0 ≤ l.sum := List.sum_nonneg h

theorem sum_eq_zero' {l : List ℝ} (h : ∀ a ∈ l, 0 ≤ a) (hs : l.sum = 0) : ∀ a ∈ l, a = 0 := by
  induction l with
  | nil => simp
  | cons b l ih =>
    have hb := h b (by simp)
    have hl := sum_nonneg' (l := l) (fun a ha => h a (by simp [ha]))
    rw [List.sum_cons] at hs
    intro a ha
    rcases List.mem_cons.1 ha with rfl | ha
    · linarith
    · exact ih (fun a ha => h a (by simp [ha])) (by linarith) a ha

theorem mse_nonneg (y z : List ℝ) : 0 ≤ mse y z := by
  unfold mse mean
  refine div_nonneg (sum_nonneg' ?_) (Nat.cast_nonneg _)
  intro a ha
  rw [← List.map_uncurry_zip_eq_zipWith] at ha
  obtain ⟨p, -, rfl⟩ := List.mem_map.1 ha
  exact sq_nonneg _

theorem mse_zero_iff {y z : List ℝ} (hl : y.length = z.length) : mse y z = 0 ↔ y = z := by
  unfold mse mean
  constructor
  · intro h
    rcases div_eq_zero_iff.1 h with h | h
    · induction y generalizing z with
      | nil => cases z <;> simp_all
      | cons a y ih =>
        cases z with
        | nil => simp at hl
        | cons b z =>
          simp only [List.zipWith_cons_cons] at h
          have hnn : ∀ x ∈ (a - b) ^ 2 :: List.zipWith (fun a b => (a - b) ^ 2) y z, (0 : ℝ) ≤ x := by
            intro x hx
            rcases List.mem_cons.1 hx with rfl | hx
            · exact sq_nonneg _
            · rw [← List.map_uncurry_zip_eq_zipWith] at hx
              obtain ⟨p, -, rfl⟩ := List.mem_map.1 hx
              exact sq_nonneg _
          have hz := sum_eq_zero' hnn h
          have hab : a = b := by
            have := hz _ (List.mem_cons_self)
            have := pow_eq_zero_iff (n := 2) (by decide) |>.1 this
            linarith
          have hs : (List.zipWith (fun a b => (a - b) ^ 2) y z).sum = 0 := by
            rw [List.sum_cons] at h
            have := sum_nonneg' (fun x hx => hnn x (List.mem_cons_of_mem _ hx))
            have := sq_nonneg (a - b)
            linarith
          rw [hab, ih (by simpa using hl) ?_ hs]
          rw [hs]; simp
    · have : (List.zipWith (fun a b => (a - b) ^ 2) y z).length = 0 := by exact_mod_cast h
      simp only [List.length_zipWith] at this
      have h1 : y = [] := List.length_eq_zero_iff.1 (by omega)
      have h2 : z = [] := List.length_eq_zero_iff.1 (by omega)
      rw [h1, h2]
  · rintro rfl
    have : ∀ y : List ℝ, List.zipWith (fun a b => (a - b) ^ 2) y y = y.map fun _ => (0 : ℝ) := by
      intro y; induction y with
      | nil => rfl
      | cons a y ih => simp [ih]
    rw [this]
    simp

theorem var_pos {y : List ℝ} (h : NonConstant y) : 0 < var y := by
  obtain ⟨a, ha, b, hb, hab⟩ := h
  have hne : y ≠ [] := List.ne_nil_of_mem ha
  unfold var
  have hl : (0 : ℝ) < (y.map fun a => (a - mean y) ^ 2).length := by
    rw [List.length_map]; exact_mod_cast List.length_pos_iff.2 hne
  have hnn : ∀ x ∈ y.map (fun a => (a - mean y) ^ 2), (0 : ℝ) ≤ x := by
    intro x hx; obtain ⟨c, -, rfl⟩ := List.mem_map.1 hx; exact sq_nonneg _
  refine div_pos (lt_of_le_of_ne (sum_nonneg' hnn) ?_) hl
  intro h0
  have hz := sum_eq_zero' hnn h0.symm
  have e1 := pow_eq_zero_iff (n := 2) (by decide) |>.1 (hz _ (List.mem_map.2 ⟨a, ha, rfl⟩))
  have e2 := pow_eq_zero_iff (n := 2) (by decide) |>.1 (hz _ (List.mem_map.2 ⟨b, hb, rfl⟩))
  exact hab (by linarith)

theorem den_pos (y z : List ℝ) : 0 < 1 + Real.sqrt (mse y z / var y) := by
  have := Real.sqrt_nonneg (mse y z / var y); linarith

/-- **C72** (range): with a non-constant left-hand side and a penalty `lam·n ≤ 1`, the reward of a valid program lies
between 0 and `1 - lam·n`, and reaches the upper end exactly when the prediction equals the data (`lam·n < 1`). -/
theorem C72_range (lam : ℝ) (y yHat : List ℝ) (n : Nat) (hl : y.length = yHat.length) (hy : NonConstant y)
    (hp : lam * n ≤ 1) :
    0 ≤ pdeReward lam y yHat n ∧ pdeReward lam y yHat n ≤ 1 - lam * n ∧
      (lam * n < 1 → (pdeReward lam y yHat n = 1 - lam * n ↔ yHat = y)) := by
  have hd := den_pos y yHat
  have hv := var_pos hy
  have hs := Real.sqrt_nonneg (mse y yHat / var y)
  unfold pdeReward
  refine ⟨div_nonneg (by linarith) hd.le, ?_, fun hlt => ?_⟩
  · rw [div_le_iff₀ hd]
    nlinarith
  · rw [div_eq_iff hd.ne']
    constructor
    · intro h
      have h0 : Real.sqrt (mse y yHat / var y) = 0 := by
        have h1 : (1 - lam * n) * Real.sqrt (mse y yHat / var y) = 0 := by linarith [h, mul_add (1 - lam * n) 1 (Real.sqrt (mse y yHat / var y))]
        rcases mul_eq_zero.1 h1 with h2 | h2
        · linarith
        · exact h2
      have h1 := (Real.sqrt_eq_zero (div_nonneg (mse_nonneg _ _) hv.le)).1 h0
      rcases div_eq_zero_iff.1 h1 with h2 | h2
      · exact ((mse_zero_iff hl).1 h2).symm
      · exact absurd h2 hv.ne'
    · rintro rfl
      rw [(mse_zero_iff rfl).2 rfl]
      simp

/-- **C72** (order): among programs with the same number of coefficients a smaller error means a strictly larger reward;
with the same predictions fewer coefficients mean a strictly larger reward. -/
theorem C72_monotone (lam : ℝ) (y z z' : List ℝ) (n : Nat) (hy : NonConstant y) (hp : lam * n < 1) :
    (mse y z < mse y z' ↔ pdeReward lam y z' n < pdeReward lam y z n) ∧
      (0 < lam → ∀ m < n, pdeReward lam y z n < pdeReward lam y z m) := by
  have hv := var_pos hy
  constructor
  · unfold pdeReward
    have hnum : 0 < 1 - lam * n := by linarith
    rw [div_lt_div_iff_of_pos_left hnum (den_pos _ _) (den_pos _ _), add_lt_add_iff_left,
      Real.sqrt_lt_sqrt_iff (div_nonneg (mse_nonneg _ _) hv.le), div_lt_div_iff_of_pos_right hv]
  · intro hlam m hm
    unfold pdeReward
    rw [div_lt_div_iff_of_pos_right (den_pos _ _)]
    have : (m : ℝ) < n := by exact_mod_cast hm
    nlinarith

/-- **C72** (invalid programs): the stored reward of an invalid program is 0 with the coefficient list `[0]`; every valid
program with fewer than `1/lam` coefficients has a larger one and keeps its own coefficients.
Partial, of the whole claim: Full for fewer than 1/lambda terms; beyond that a valid program ranks below invalid ones (counterexample). Real numbers instead of floating point. -/
theorem C72_valid_beats_invalid_partial (lam : ℝ) (y yHat w : List ℝ) (hp : lam * w.length < 1) :
    ∃ r r0 : ℝ, rewardFunction .pdeReward lam 0 y (.fitted yHat w) = some (r, w) ∧
      rewardFunction .pdeReward lam 0 y .invalid = some (r0, [0]) ∧ r0 = 0 ∧ r0 < r :=
  ⟨_, 0, rfl, rfl, rfl, div_pos (by linarith) (den_pos _ _)⟩

/-- … but a valid program with more coefficients than `1/lam` is ranked below every invalid one. -/
theorem C72_many_terms_counterexample : ∃ (y yHat : List ℝ) (n : Nat), NonConstant y ∧ yHat = y ∧
    pdeReward (1 / 100) y yHat n < 0 := by
  refine ⟨[0, 1], [0, 1], 101, ⟨0, by simp, 1, by simp, by norm_num⟩, rfl, ?_⟩
  unfold pdeReward
  apply div_neg_of_neg_of_pos
  · norm_num
  · exact den_pos _ _

theorem mean_scale (c : ℝ) (y : List ℝ) : mean (y.map fun a => c * a) = c * mean y := by
  unfold mean
  rw [List.sum_map_mul_left, List.length_map]
  simp [mul_div_assoc]

/-- **C72** (units): measuring the left-hand side and the prediction in other units does not change the reward. -/
theorem C72_units (lam c : ℝ) (hc : c ≠ 0) (y z : List ℝ) (n : Nat) :
    pdeReward lam (y.map fun a => c * a) (z.map fun a => c * a) n = pdeReward lam y z n := by
  have h1 : mse (y.map fun a => c * a) (z.map fun a => c * a) = c ^ 2 * mse y z := by
    unfold mse
    rw [← mean_scale, List.zipWith_map, List.map_zipWith]
    congr 2
    funext a b; ring
  have h2 : var (y.map fun a => c * a) = c ^ 2 * var y := by
    unfold var
    rw [mean_scale, ← mean_scale (c ^ 2), List.map_map, List.map_map]
    congr 2
    funext a; simp only [Function.comp]; ring
  unfold pdeReward
  rw [h1, h2, mul_div_mul_left _ _ (pow_ne_zero 2 hc)]

/-- **C72** (success): a valid program is reported as recovered exactly if its mean squared error is below the
threshold, and the error reported is that of its own prediction; an invalid one never is. -/
theorem C72_success (th : ℝ) (y : List ℝ) (o : Outcome) :
    (evaluate th y o).2 ↔ ∃ z w, o = .fitted z w ∧ (evaluate th y o).1 = some (mse y z) ∧ mse y z < th := by
  cases o with
  | invalid => simp [evaluate]
  | fitted z w => simp [evaluate]

/-- The other metrics cannot be used: `R2` cannot be constructed, `inv_nrmse` cannot be called. -/
theorem C72_metrics (lam : ℝ) (y yHat : List ℝ) (n : Nat) (m : Metric) :
    ((makeMetric m 1).isSome ∧ (callMetric m lam y yHat n).isSome) ↔ m = .pdeReward ∨ m = .correlation := by
  cases m <;> simp [makeMetric, callMetric]

/-- A metric is constructed exactly from one parameter and any name but `R2`; the invalid reward is then 0 and the maximal one 1. -/
theorem C72_construct (m : Metric) (nargs : Nat) (r : ℚ × ℚ) : makeMetric m nargs = some r ↔ nargs = 1 ∧ m ≠ .r2 ∧ r = (0, 1) := by
  cases m <;> simp only [makeMetric] <;> by_cases h : nargs = 1 <;> simp [h, eq_comm]

-- two data points, prediction off by one at one of them: reward (1 - 0.01·2) / (1 + sqrt 2)
example : NonConstant [0, 1] ∧ pdeReward (1 / 100) [0, 1] [0, 2] 2 = (98 / 100) / (1 + Real.sqrt 2) := by
  refine ⟨⟨0, by simp, 1, by simp, by norm_num⟩, ?_⟩
  unfold pdeReward mse var mean
  norm_num

/-! ### The metric `correlation` -/

theorem sum_expand (α β : ℝ) (f g : ℝ × ℝ → ℝ) (p : List (ℝ × ℝ)) :
    (p.map fun q => (α * f q - β * g q) ^ 2).sum =
      α ^ 2 * (p.map fun q => f q ^ 2).sum - 2 * α * β * (p.map fun q => f q * g q).sum +
        β ^ 2 * (p.map fun q => g q ^ 2).sum := by
  induction p with
  | nil => simp
  | cons q p ih => simp only [List.map_cons, List.sum_cons, ih]; ring

theorem devs_pos {y : List ℝ} (h : NonConstant y) : 0 < (y.map fun a => (a - mean y) ^ 2).sum := by
  have hv := var_pos h
  unfold var at hv
  rw [mean] at hv
  by_contra hc
  have := div_nonpos_of_nonpos_of_nonneg (not_lt.1 hc) (Nat.cast_nonneg (α := ℝ) (y.map fun a => (a - mean y) ^ 2).length)
  linarith

theorem mean_affine (y : List ℝ) (hy : y ≠ []) (a c : ℝ) : mean (y.map fun t => a + c * t) = a + c * mean y := by
  have h : ∀ l : List ℝ, (l.map fun t => a + c * t).sum = a * l.length + c * l.sum := by
    intro l; induction l with
    | nil => simp
    | cons b l ih => simp only [List.map_cons, List.sum_cons, ih, List.length_cons]; push_cast; ring
  have hl : (y.length : ℝ) ≠ 0 := by
    have : y.length ≠ 0 := fun h => hy (List.length_eq_zero_iff.1 h)
    exact_mod_cast this
  unfold mean
  rw [h, List.length_map]
  field_simp

/-- **C72** (correlation): with the metric `correlation`, a non-constant left-hand side and a non-constant prediction of
the same length, the reward of a valid program lies between -1 and 1, is 1 exactly if the prediction is the left-hand side
up to a positive factor and an offset, does not depend on the number of coefficients, and is stored with the program's own
coefficients. -/
theorem C72_correlation (lam inv : ℝ) (y z w : List ℝ) (hl : y.length = z.length) (hy : NonConstant y)
    (hz : NonConstant z) :
    ∃ r, rewardFunction .correlation lam inv y (.fitted z w) = some (r, w) ∧
      (∀ w', rewardFunction .correlation lam inv y (.fitted z w') = some (r, w')) ∧ -1 ≤ r ∧ r ≤ 1 ∧
      (r = 1 ↔ ∃ a c : ℝ, 0 < c ∧ z = y.map fun t => a + c * t) := by
  refine ⟨pearson y z, rfl, fun _ => rfl, ?_⟩
  obtain ⟨p, hp1, hp2⟩ : ∃ p : List (ℝ × ℝ), y = p.map Prod.fst ∧ z = p.map Prod.snd :=
    ⟨y.zip z, (List.map_fst_zip hl.le).symm, (List.map_snd_zip hl.ge).symm⟩
  have hU := devs_pos hy
  have hV := devs_pos hz
  set my := mean y with hmy
  set mz := mean z with hmz
  set U := (y.map fun a => (a - my) ^ 2).sum with hUd
  set V := (z.map fun b => (b - mz) ^ 2).sum with hVd
  set C := (List.zipWith (fun a b => (a - my) * (b - mz)) y z).sum with hCd
  have hr : pearson y z = C / (Real.sqrt U * Real.sqrt V) := rfl
  have eU : (p.map fun q => (q.1 - my) ^ 2).sum = U := by rw [hUd, hp1, List.map_map]; rfl
  have eV : (p.map fun q => (q.2 - mz) ^ 2).sum = V := by rw [hVd, hp2, List.map_map]; rfl
  have eC : (p.map fun q => (q.1 - my) * (q.2 - mz)).sum = C := by
    rw [hCd, hp1, hp2, List.zipWith_map, List.zipWith_self]
  have hsU := Real.sqrt_pos.2 hU
  have hsV := Real.sqrt_pos.2 hV
  have qU := Real.sq_sqrt hU.le
  have qV := Real.sq_sqrt hV.le
  set a := Real.sqrt U with ha
  set b := Real.sqrt V with hb
  have hab : 0 < a * b := mul_pos hsU hsV
  have key : ∀ s : ℝ, (p.map fun q => (b * (q.1 - my) - (s * a) * (q.2 - mz)) ^ 2).sum =
      b ^ 2 * U - 2 * b * (s * a) * C + (s * a) ^ 2 * V := by
    intro s
    rw [sum_expand b (s * a) (fun q => q.1 - my) (fun q => q.2 - mz), eU, eV, eC]
  have hnn : ∀ s : ℝ, 0 ≤ (p.map fun q => (b * (q.1 - my) - (s * a) * (q.2 - mz)) ^ 2).sum := by
    intro s
    apply sum_nonneg'
    intro x hx
    obtain ⟨q, -, rfl⟩ := List.mem_map.1 hx
    exact sq_nonneg _
  rw [hr]
  refine ⟨?_, ?_, ?_⟩
  · rw [le_div_iff₀ hab]
    have h := hnn (-1)
    rw [key, ← qU, ← qV] at h
    have : 0 ≤ 2 * (a * b) * (a * b + C) := by nlinarith
    have := nonneg_of_mul_nonneg_right this (by positivity)
    linarith
  · rw [div_le_iff₀ hab]
    have h := hnn 1
    rw [key, ← qU, ← qV] at h
    have : 0 ≤ 2 * (a * b) * (a * b - C) := by nlinarith
    have := nonneg_of_mul_nonneg_right this (by positivity)
    linarith
  · rw [div_eq_one_iff_eq hab.ne']
    constructor
    · intro hC
      have h0 : (p.map fun q => (b * (q.1 - my) - (1 * a) * (q.2 - mz)) ^ 2).sum = 0 := by
        rw [key, hC, ← qU, ← qV]; ring
      have hz0 := sum_eq_zero' (by
        intro x hx
        obtain ⟨q, -, rfl⟩ := List.mem_map.1 hx
        exact sq_nonneg _) h0
      refine ⟨mz - b / a * my, b / a, div_pos hsV hsU, ?_⟩
      rw [hp1, hp2, List.map_map]
      refine List.map_congr_left fun q hq => ?_
      have h := pow_eq_zero_iff (n := 2) (by decide) |>.1 (hz0 _ (List.mem_map.2 ⟨q, hq, rfl⟩))
      simp only [Function.comp]
      field_simp
      linarith
    · rintro ⟨t, c, hc, hzt⟩
      have hne : y ≠ [] := by obtain ⟨x, hx, -⟩ := hy; exact List.ne_nil_of_mem hx
      have hm : mz = t + c * my := by rw [hmz, hzt, mean_affine y hne, hmy]
      have hV' : V = c ^ 2 * U := by
        rw [hVd, hzt, List.map_map, hUd, ← List.sum_map_mul_left, hm]
        congr 1
        refine List.map_congr_left fun x _ => ?_
        simp only [Function.comp]; ring
      have hC' : C = c * U := by
        rw [hCd, hzt, List.zipWith_map_right, List.zipWith_self, hUd, ← List.sum_map_mul_left, hm]
        congr 1
        refine List.map_congr_left fun x _ => ?_
        ring
      have hb' : b = c * a := by
        rw [hb, hV', Real.sqrt_mul (sq_nonneg c), Real.sqrt_sq hc.le]
      rw [hC', hb', ← qU]; ring

-- the prediction 1 + 2y is as good as y itself under `correlation`; a decreasing one is ranked below an invalid program
example : NonConstant [0, 1] ∧ NonConstant [1, 3] ∧ pearson [0, 1] [1, 3] = 1 ∧ pearson [0, 1] [3, 1] < 0 := by
  refine ⟨⟨0, by simp, 1, by simp, by norm_num⟩, ⟨1, by simp, 3, by simp, by norm_num⟩, ?_, ?_⟩
  · unfold pearson mean
    have h : Real.sqrt 2⁻¹ * Real.sqrt 2 = 1 := by rw [← Real.sqrt_mul (by norm_num)]; norm_num
    norm_num
    try linarith
  · unfold pearson mean
    apply div_neg_of_neg_of_pos
    · norm_num
    · norm_num

end Verif.Discover.Reward.Claims
