import Mathlib.Analysis.Calculus.Deriv.CompMul
import Mathlib.Analysis.Calculus.Deriv.Shift
import Mathlib.Analysis.Calculus.Deriv.Mul
import Mathlib.Analysis.Calculus.Deriv.Add
import Mathlib.Tactic.Linarith
import Mathlib.Tactic.Ring
import Mathlib.Tactic.FieldSimp
import Mathlib.Tactic.NormNum
import Verif.Sga.Autograd
/-! C139–C141: SGA's derivatives from a network, its refined data, and which network is used. -/
namespace Verif.Sga.Autograd.Claims
open Verif.Sga.Autograd

/-! ## C139: derivatives -/

/-- The network represents the field `U` with these statistics: on normalised inputs it gives the normalised value of `U`. -/
def Represents (s : Stats) (net U : List ℝ → ℝ) : Prop :=
  ∀ x : List ℝ, x.length = s.x.length → net (normIn s.x x) = (U x - s.yMean) / s.yStd

/-- `g` is, up to `a` and `b`, the function `f` of the normalised inputs. -/
def Scaled (st : List (ℝ × ℝ)) (a b : ℝ) (f g : List ℝ → ℝ) : Prop := ∀ x : List ℝ, x.length = st.length → g x = a * f (normIn st x) + b

theorem normIn_length (st : List (ℝ × ℝ)) (x : List ℝ) (h : x.length = st.length) : (normIn st x).length = st.length := by
  simp [normIn, h]

theorem normIn_set (st : List (ℝ × ℝ)) (x : List ℝ) (i : Nat) (v : ℝ) (h : x.length = st.length) :
    normIn st (x.set i v) = (normIn st x).set i ((v - (st.getD i (0, 1)).1) / (st.getD i (0, 1)).2) := by
  induction st generalizing x i with
  | nil =>
    have : x = [] := by simpa using h
    subst this
    simp [normIn]
  | cons p st ih =>
    cases x with
    | nil => simp at h
    | cons a x =>
      cases i with
      | zero => simp [normIn]
      | succ i =>
        have := ih x i (by simpa using h)
        simp only [normIn] at this
        simp [normIn, this]

theorem getD_eq {α : Type} {l : List α} {i : Nat} (d : α) (h : i < l.length) : l.getD i d = l[i] := by
  simp [List.getD, List.getElem?_eq_getElem h]

theorem normIn_getD (st : List (ℝ × ℝ)) (x : List ℝ) (i : Nat) (h : x.length = st.length) (hi : i < st.length) :
    (normIn st x).getD i 0 = (x.getD i 0 - (st.getD i (0, 1)).1) / (st.getD i (0, 1)).2 := by
  have hx : i < x.length := by omega
  have hn : i < (normIn st x).length := by rw [normIn_length st x h]; exact hi
  rw [getD_eq _ hn, getD_eq _ hx, getD_eq _ hi]
  simp [normIn]

theorem deriv_affine (g : ℝ → ℝ) (m σ a : ℝ) : deriv (fun s => g ((s - m) / σ)) a = deriv g ((a - m) / σ) / σ := by
  have h1 : (fun s => g ((s - m) / σ)) = fun s => (fun r => g (σ⁻¹ * r)) (s - m) := by
    funext s
    simp only [div_eq_inv_mul]
  rw [h1, deriv_comp_sub_const (fun r => g (σ⁻¹ * r)) m a, deriv_comp_mul_left]
  simp only [smul_eq_mul, div_eq_inv_mul]

theorem scaled_D (st : List (ℝ × ℝ)) (a b : ℝ) (f g : List ℝ → ℝ) (h : Scaled st a b f g) (i : Nat) (hi : i < st.length) :
    Scaled st (a / (st.getD i (0, 1)).2) 0 (D i f) (D i g) := by
  intro x hx
  have h1 : (fun s => g (x.set i s)) = fun s => a * f ((normIn st x).set i ((s - (st.getD i (0, 1)).1) / (st.getD i (0, 1)).2)) + b := by
    funext s
    rw [h _ (by simpa using hx), normIn_set st x i s hx]
  unfold D
  rw [h1, deriv_add_const, deriv_const_mul_field, deriv_affine (fun r => f ((normIn st x).set i r)), normIn_getD st x i hx hi, add_zero]
  ring

theorem safe_ne (s : ℝ) : safe s ≠ 0 := by
  unfold safe
  by_cases h : s = 0
  · rw [if_pos h]; exact one_ne_zero
  · rw [if_neg h]; exact h

theorem gridPts_length (axes : List (List ℝ)) : ∀ x ∈ gridPts axes, x.length = axes.length := by
  induction axes with
  | nil => intro x hx; simp [gridPts] at hx; simp [hx]
  | cons c cs ih =>
    intro x hx
    simp only [gridPts, List.mem_flatMap, List.mem_map] at hx
    obtain ⟨a, _, p, hp, rfl⟩ := hx
    simp [ih p hp]

theorem colStats_length (k : Nat) (pts : List (List ℝ)) : (colStats k pts).length = k := by simp [colStats]

theorem colStats_ne (k : Nat) (pts : List (List ℝ)) (i : Nat) : ((colStats k pts).getD i (0, 1)).2 ≠ 0 := by
  by_cases h : i < k
  · rw [getD_eq _ (by rw [colStats_length]; exact h)]
    simp [colStats, safe_ne]
  · have : (colStats k pts).getD i (0, 1) = (0, 1) := by
      simp [List.getD, colStats, List.getElem?_eq_none (l := List.range k) (by simpa using h)]
    rw [this]; exact one_ne_zero

theorem represents_scaled (s : Stats) (net U : List ℝ → ℝ) (h : Represents s net U) (hs : s.yStd ≠ 0) : Scaled s.x s.yStd s.yMean net U := by
  intro x hx
  rw [h x hx]
  field_simp
  ring

/-- **C139** (meaning of the hypothesis): a network that represents `U` with the statistics of the training data fits every training pair of the
samples of `U`; and there is one for every `U`.
Partial, of the whole claim: Fails on the original grid after delete_edges and for networks from files or other data: the statistics are those of the grid at hand (counterexamples). -/
theorem C139_fit_partial (axes : List (List ℝ)) (U : List ℝ → ℝ) :
    (∀ net, Represents (prepare true axes ((gridPts axes).map U)).2.2 net U →
      (prepare true axes ((gridPts axes).map U)).1.map net = (prepare true axes ((gridPts axes).map U)).2.1) ∧
    ∃ net, Represents (prepare true axes ((gridPts axes).map U)).2.2 net U := by
  constructor
  · intro net h
    simp only [prepare, if_true, List.map_map]
    apply List.map_congr_left
    intro x hx
    have := h x (by
      rw [gridPts_length axes x hx]
      simp [prepare, colStats])
    simpa [prepare] using this
  · obtain ⟨st, hst⟩ : ∃ st, (prepare true axes ((gridPts axes).map U)).2.2 = st := ⟨_, rfl⟩
    rw [hst]
    have hne : ∀ p ∈ st.x, p.2 ≠ 0 := by
      intro p hp
      have : st.x = colStats axes.length (gridPts axes) := by rw [← hst]; simp [prepare]
      rw [this, colStats, List.mem_map] at hp
      obtain ⟨i, _, rfl⟩ := hp
      exact safe_ne _
    refine ⟨fun z => (U (List.zipWith (fun b p => p.2 * b + p.1) z st.x) - st.yMean) / st.yStd, fun x hx => ?_⟩
    have hinv : List.zipWith (fun b p => p.2 * b + p.1) (normIn st.x x) st.x = x := by
      revert hx
      generalize st.x = l at hne ⊢
      intro hx
      induction l generalizing x with
      | nil => have : x = [] := by simpa using hx
               subst this; rfl
      | cons p l ih =>
        cases x with
        | nil => simp at hx
        | cons a x =>
          have h1 := ih x (fun q hq => hne q (List.mem_cons_of_mem _ hq)) (by simpa using hx)
          have h2 := hne p List.mem_cons_self
          simp only [normIn] at h1
          simp only [normIn, List.zipWith_cons_cons, h1]
          congr 1
          field_simp
          ring
    simp only [hinv]

/-- **C139.** If the network trained on the current grid represents the field, the derivative along any axis that is handed to the search is, at
every grid point, the derivative of the field – with and without normalisation. -/
theorem C139_gradients (axes : List (List ℝ)) (U net : List ℝ → ℝ) (i : Nat) (hi : i < axes.length)
    (h : Represents (prepare true axes ((gridPts axes).map U)).2.2 net U) :
    gradND true net axes ((gridPts axes).map U) i = (gridPts axes).map (D i U) ∧
    gradND false U axes ((gridPts axes).map U) i = (gridPts axes).map (D i U) := by
  have hst : (prepare true axes ((gridPts axes).map U)).2.2 =
      ⟨colStats axes.length (gridPts axes), mean ((gridPts axes).map U), safe (std ((gridPts axes).map U))⟩ := by simp [prepare]
  rw [hst] at h
  have hs := scaled_D _ _ _ _ _ (represents_scaled _ _ _ h (safe_ne _)) i (by rw [colStats_length]; exact hi)
  constructor
  · simp only [gradND, if_true]
    apply List.map_congr_left
    intro x hx
    rw [hs x (by rw [gridPts_length axes x hx, colStats_length])]
    ring
  · simp [gradND]

/-- **C139** (two axes): likewise the first and the higher derivatives computed by the network on an x–t grid. -/
theorem C139_high (axes : List (List ℝ)) (U net : List ℝ → ℝ) (xi ti : Nat) (hx : xi < axes.length) (ht : ti < axes.length)
    (h : Represents (prepare true axes ((gridPts axes).map U)).2.2 net U) :
    high2 true net axes ((gridPts axes).map U) xi ti =
      ⟨(gridPts axes).map (D ti U), (gridPts axes).map (D xi U), (gridPts axes).map (D xi (D xi U)), (gridPts axes).map (D xi (D xi (D xi U)))⟩ ∧
    high2 false U axes ((gridPts axes).map U) xi ti =
      ⟨(gridPts axes).map (D ti U), (gridPts axes).map (D xi U), (gridPts axes).map (D xi (D xi U)), (gridPts axes).map (D xi (D xi (D xi U)))⟩ := by
  have hst : (prepare true axes ((gridPts axes).map U)).2.2 =
      ⟨colStats axes.length (gridPts axes), mean ((gridPts axes).map U), safe (std ((gridPts axes).map U))⟩ := by simp [prepare]
  rw [hst] at h
  have h0 := represents_scaled _ _ _ h (safe_ne _)
  have hxl : xi < (colStats axes.length (gridPts axes)).length := by rw [colStats_length]; exact hx
  have htl : ti < (colStats axes.length (gridPts axes)).length := by rw [colStats_length]; exact ht
  have ht1 := scaled_D _ _ _ _ _ h0 ti htl
  have h1 := scaled_D _ _ _ _ _ h0 xi hxl
  have h2 := scaled_D _ _ _ _ _ h1 xi hxl
  have h3 := scaled_D _ _ _ _ _ h2 xi hxl
  have hl : ∀ x ∈ gridPts axes, x.length = (colStats axes.length (gridPts axes)).length := fun x hx => by
    rw [gridPts_length axes x hx, colStats_length]
  have hne := colStats_ne axes.length (gridPts axes) xi
  constructor
  · simp only [high2, if_true, Derivs.mk.injEq]
    refine ⟨List.map_congr_left fun x hx => ?_, List.map_congr_left fun x hx => ?_, List.map_congr_left fun x hx => ?_,
      List.map_congr_left fun x hx => ?_⟩
    · rw [ht1 x (hl x hx)]; ring
    · rw [h1 x (hl x hx)]; ring
    · rw [h2 x (hl x hx)]; field_simp; ring
    · rw [h3 x (hl x hx)]; field_simp; ring
  · simp [high2]

/-- **C139 (violated).** The statistics used are always those of the grid at hand, not those of the training.  If the network was trained with other
statistics – the derivatives on the uncropped grid after the edges were deleted, a network from a file or given by the user, refined data – then
the result is the derivative of the field at another point, times a factor. -/
theorem C139_statistics_counterexample (s : Stats) (net U : List ℝ → ℝ) (h : Represents s net U) (hs : s.yStd ≠ 0) (axes : List (List ℝ)) (field : List ℝ)
    (hk : s.x.length = axes.length) (i : Nat) (hi : i < axes.length) (hσ : (s.x.getD i (0, 1)).2 ≠ 0)
    (x x' : List ℝ) (hx' : x'.length = axes.length) (k : Nat) (hx : (gridPts axes)[k]? = some x)
    (hsame : normIn s.x x' = normIn (colStats axes.length (gridPts axes)) x) :
    (gradND true net axes field i)[k]? =
      some (D i U x' * ((safe (std field) / s.yStd) * ((s.x.getD i (0, 1)).2 / ((colStats axes.length (gridPts axes)).getD i (0, 1)).2))) := by
  have h1 := scaled_D _ _ _ _ _ (represents_scaled _ _ _ h hs) i (by rw [hk]; exact hi) x' (by rw [hk]; exact hx')
  have hne := colStats_ne axes.length (gridPts axes) i
  simp only [gradND, if_true, List.getElem?_map, hx, Option.map_some, ← hsame]
  rw [h1]
  congr 1
  field_simp
  ring

theorem high2_first (normalize : Bool) (net : List ℝ → ℝ) (axes : List (List ℝ)) (field : List ℝ) (xi ti : Nat) :
    (high2 normalize net axes field xi ti).ut = gradND normalize net axes field ti ∧
    (high2 normalize net axes field xi ti).ux = gradND normalize net axes field xi := by
  cases normalize <;> simp [high2, gradND]

/-- The coordinates x = 0, …, 9 and t = 0, 1. -/
def fullAxes : List (List ℝ) := [[0, 1, 2, 3, 4, 5, 6, 7, 8, 9], [0, 1]]

/-- The same after the edges were deleted. -/
def croppedAxes : List (List ℝ) := [[1, 2, 3, 4, 5, 6, 7, 8], [0, 1]]

/-- The field u = x + t. -/
def plane (x : List ℝ) : ℝ := x.getD 0 0 + x.getD 1 0

theorem plane_D (x : List ℝ) (h : x.length = 2) : D 1 plane x = 1 := by
  match x, h with
  | [a, b], _ =>
    have : (fun s => plane ([a, b].set 1 s)) = fun s => s + a := by funext s; simp [plane, add_comm]
    rw [D, this, deriv_add_const, deriv_id'']

theorem std_of (l : List ℝ) (v : ℝ) (h : (l.map fun x => (x - mean l) ^ 2).sum / l.length = v) : std l = Real.sqrt v := by rw [std, h]

theorem safe_pos (v : ℝ) (h : 0 < v) : safe v = v := by rw [safe, if_neg (ne_of_gt h)]

/-- **C139 (violated)** for the derivatives on the original grid after edge deletion: for the field u = x + t, whose time derivative is 1, and a
network that represents it on the cropped grid exactly, u_t on the original grid comes out as √(17/11) at every point. -/
theorem C139_origin_counterexample :
    (∀ x ∈ gridPts fullAxes, D 1 plane x = 1) ∧
    ∀ net, Represents (prepare true croppedAxes ((gridPts croppedAxes).map plane)).2.2 net plane →
      (high2 true net croppedAxes ((gridPts croppedAxes).map plane) 0 1).ut = List.replicate 16 1 ∧
      (high2 true net fullAxes ((gridPts fullAxes).map plane) 0 1).ut = List.replicate 20 (Real.sqrt (17 / 11)) := by
  refine ⟨fun x hx => plane_D x (gridPts_length _ x hx), fun net h => ⟨?_, ?_⟩⟩
  · rw [(high2_first true net _ _ 0 1).1, (C139_gradients croppedAxes plane net 1 (by simp [croppedAxes]) h).1, List.eq_replicate_iff]
    refine ⟨by simp [croppedAxes, gridPts], fun b hb => ?_⟩
    obtain ⟨x, hx, rfl⟩ := List.mem_map.1 hb
    exact plane_D x (gridPts_length _ x hx)
  rw [(high2_first true net _ _ 0 1).1, List.eq_replicate_iff]
  have hlen : (gridPts fullAxes).length = 20 := by simp [fullAxes, gridPts]
  refine ⟨by simp [gradND, hlen], fun b hb => ?_⟩
  have hst : (prepare true croppedAxes ((gridPts croppedAxes).map plane)).2.2 =
      ⟨colStats croppedAxes.length (gridPts croppedAxes), mean ((gridPts croppedAxes).map plane), safe (std ((gridPts croppedAxes).map plane))⟩ := by simp [prepare]
  rw [hst] at h
  obtain ⟨k, hk⟩ := List.mem_iff_getElem?.1 hb
  have hkl : k < (gridPts fullAxes).length := by
    have := (List.getElem?_eq_some_iff.1 hk).1
    simpa [gradND] using this
  obtain ⟨x, hx⟩ : ∃ x, (gridPts fullAxes)[k]? = some x := ⟨_, List.getElem?_eq_getElem hkl⟩
  have hxl : x.length = 2 := gridPts_length fullAxes x (List.mem_of_getElem? hx)
  -- standard deviations
  have hσc : ((colStats croppedAxes.length (gridPts croppedAxes)).getD 1 (0, 1)).2 = 1 / 2 := by
    have : std (column (gridPts croppedAxes) 1) = Real.sqrt (1 / 4) := by
      apply std_of
      norm_num [mean, column, gridPts, croppedAxes]
    have h4 : Real.sqrt (1 / 4) = 1 / 2 := by
      rw [show (1 / 4 : ℝ) = (1 / 2) ^ 2 by norm_num]
      exact Real.sqrt_sq (by norm_num)
    rw [h4] at this
    have h2 : ((colStats croppedAxes.length (gridPts croppedAxes)).getD 1 (0, 1)).2 = safe (std (column (gridPts croppedAxes) 1)) := by
      simp [colStats, croppedAxes]
    rw [h2, this, safe_pos _ (by norm_num)]
  have hσf : ((colStats fullAxes.length (gridPts fullAxes)).getD 1 (0, 1)).2 = 1 / 2 := by
    have : std (column (gridPts fullAxes) 1) = Real.sqrt (1 / 4) := by
      apply std_of
      norm_num [mean, column, gridPts, fullAxes]
    have h4 : Real.sqrt (1 / 4) = 1 / 2 := by
      rw [show (1 / 4 : ℝ) = (1 / 2) ^ 2 by norm_num]
      exact Real.sqrt_sq (by norm_num)
    rw [h4] at this
    have h2 : ((colStats fullAxes.length (gridPts fullAxes)).getD 1 (0, 1)).2 = safe (std (column (gridPts fullAxes) 1)) := by
      simp [colStats, fullAxes]
    rw [h2, this, safe_pos _ (by norm_num)]
  have hyc : safe (std ((gridPts croppedAxes).map plane)) = Real.sqrt (11 / 2) := by
    rw [std_of _ (11 / 2) (by norm_num [mean, gridPts, croppedAxes, plane]), safe_pos _ (Real.sqrt_pos.2 (by norm_num))]
  have hyf : safe (std ((gridPts fullAxes).map plane)) = Real.sqrt (17 / 2) := by
    rw [std_of _ (17 / 2) (by norm_num [mean, gridPts, fullAxes, plane]), safe_pos _ (Real.sqrt_pos.2 (by norm_num))]
  -- the point the network is asked at
  obtain ⟨x', hx', hsame⟩ : ∃ x' : List ℝ, x'.length = 2 ∧ normIn (colStats croppedAxes.length (gridPts croppedAxes)) x' =
      normIn (colStats fullAxes.length (gridPts fullAxes)) x := by
    have hl : (colStats croppedAxes.length (gridPts croppedAxes)).length = 2 := by rw [colStats_length]; rfl
    have hz : (normIn (colStats fullAxes.length (gridPts fullAxes)) x).length = 2 := by
      rw [normIn_length _ _ (by rw [hxl, colStats_length]; rfl), colStats_length]; rfl
    have hne0 := colStats_ne croppedAxes.length (gridPts croppedAxes) 0
    have hne1 := colStats_ne croppedAxes.length (gridPts croppedAxes) 1
    generalize normIn (colStats fullAxes.length (gridPts fullAxes)) x = z at hz
    generalize colStats croppedAxes.length (gridPts croppedAxes) = st at hl hne0 hne1
    match st, hl, z, hz with
    | [p, q], _, [a, b], _ =>
      refine ⟨[p.2 * a + p.1, q.2 * b + q.1], rfl, ?_⟩
      have h0 : p.2 ≠ 0 := hne0
      have h1 : q.2 ≠ 0 := hne1
      simp [normIn, h0, h1]
  have := C139_statistics_counterexample _ net plane h (safe_ne _) fullAxes ((gridPts fullAxes).map plane) (by simp [colStats, croppedAxes, fullAxes]) 1
    (by simp [fullAxes]) (by rw [hσc]; norm_num) x x' hx' k hx hsame
  rw [this] at hk
  rw [← Option.some.inj hk, plane_D x' hx']
  simp only [hσc, hσf, hyc, hyf]
  rw [← Real.sqrt_div (by norm_num)]
  norm_num

/-! ## C140: refined data -/

theorem sum_affine (p q : ℝ) (n : Nat) :
    ((List.range n).map fun (i : Nat) => p + (i : ℝ) * q).sum = n * p + q * (n * ((n : ℝ) - 1) / 2) ∧
    ((List.range n).map fun (i : Nat) => (p + (i : ℝ) * q) ^ 2).sum =
      n * p ^ 2 + p * q * (n * ((n : ℝ) - 1)) + q ^ 2 * (n * ((n : ℝ) - 1) * (2 * n - 1) / 6) := by
  induction n with
  | zero => simp
  | succ n ih =>
    obtain ⟨h1, h2⟩ := ih
    rw [List.range_succ, List.map_append, List.map_append, List.sum_append, List.sum_append, h1, h2]
    push_cast
    constructor
    · simp only [List.map_cons, List.map_nil, List.sum_cons, List.sum_nil]; ring
    · simp only [List.map_cons, List.map_nil, List.sum_cons, List.sum_nil]; ring

theorem linspace_length (a b : ℝ) (n : Nat) : (linspace a b n).length = n := by simp [linspace]

theorem linspace_mean (a b : ℝ) (n : Nat) (hn : 2 ≤ n) : mean (linspace a b n) = (a + b) / 2 := by
  have h1 : (n : ℝ) - 1 ≠ 0 := by
    have : (2 : ℝ) ≤ n := by exact_mod_cast hn
    linarith
  have h0 : (n : ℝ) ≠ 0 := by
    have : (2 : ℝ) ≤ n := by exact_mod_cast hn
    linarith
  rw [mean, linspace_length, linspace, (sum_affine a _ n).1]
  field_simp
  ring

theorem linspace_var (a b : ℝ) (n : Nat) (hn : 2 ≤ n) :
    ((linspace a b n).map fun x => (x - mean (linspace a b n)) ^ 2).sum / (linspace a b n).length = (b - a) ^ 2 * (n + 1) / (12 * (n - 1)) := by
  have h2 : (2 : ℝ) ≤ n := by exact_mod_cast hn
  have h1 : (n : ℝ) - 1 ≠ 0 := by linarith
  have h0 : (n : ℝ) ≠ 0 := by linarith
  have : ((linspace a b n).map fun x => (x - mean (linspace a b n)) ^ 2) =
      (List.range n).map fun (i : Nat) => ((a - b) / 2 + (i : ℝ) * ((b - a) / ((n : ℝ) - 1))) ^ 2 := by
    rw [linspace_mean a b n hn, linspace, List.map_map]
    apply List.map_congr_left
    intro i _
    simp only [Function.comp_apply]
    ring
  rw [this, (sum_affine _ _ n).2, linspace_length]
  field_simp
  ring

theorem sum_col0 (f : ℝ → ℝ) (xs ts : List ℝ) : ((column (gridPts [xs, ts]) 0).map f).sum = ts.length * (xs.map f).sum := by
  induction xs with
  | nil => simp [column, gridPts]
  | cons a xs ih =>
    have h : column (gridPts [a :: xs, ts]) 0 = ts.map (fun _ => a) ++ column (gridPts [xs, ts]) 0 := by
      simp [column, gridPts, Function.comp_def]
    rw [h, List.map_append, List.sum_append, ih]
    simp
    ring

theorem sum_col1 (f : ℝ → ℝ) (xs ts : List ℝ) : ((column (gridPts [xs, ts]) 1).map f).sum = xs.length * (ts.map f).sum := by
  induction xs with
  | nil => simp [column, gridPts]
  | cons a xs ih =>
    have hf : ∀ ts : List ℝ, List.flatMap (fun a => [[a]]) ts = ts.map fun a => [a] := by
      intro ts
      induction ts with
      | nil => rfl
      | cons b ts ih' => rw [List.flatMap_cons, List.map_cons, ih']; rfl
    have h : column (gridPts [a :: xs, ts]) 1 = ts ++ column (gridPts [xs, ts]) 1 := by
      simp [column, gridPts, Function.comp_def, hf]
    rw [h, List.map_append, List.sum_append, ih]
    simp
    ring

theorem col_length (xs ts : List ℝ) (i : Nat) : (column (gridPts [xs, ts]) i).length = xs.length * ts.length := by
  induction xs with
  | nil => simp [column, gridPts]
  | cons a xs ih =>
    have h : (gridPts [a :: xs, ts]).length = ts.length + (gridPts [xs, ts]).length := by simp [gridPts]
    rw [column, List.length_map] at ih ⊢
    rw [h, ih, List.length_cons]
    ring

theorem col0_stats (xs ts : List ℝ) (ht : ts ≠ []) : mean (column (gridPts [xs, ts]) 0) = mean xs ∧ std (column (gridPts [xs, ts]) 0) = std xs := by
  have h0 : (ts.length : ℝ) ≠ 0 := by simpa using ht
  have hm : mean (column (gridPts [xs, ts]) 0) = mean xs := by
    have := sum_col0 id xs ts
    simp only [List.map_id] at this
    rw [mean, this, col_length, mean, Nat.cast_mul, mul_comm (xs.length : ℝ), mul_div_mul_left _ _ h0]
  refine ⟨hm, ?_⟩
  rw [std, hm, sum_col0 (fun x => (x - mean xs) ^ 2), col_length, Nat.cast_mul, mul_comm (xs.length : ℝ), mul_div_mul_left _ _ h0, std]

theorem col1_stats (xs ts : List ℝ) (hx : xs ≠ []) : mean (column (gridPts [xs, ts]) 1) = mean ts ∧ std (column (gridPts [xs, ts]) 1) = std ts := by
  have h0 : (xs.length : ℝ) ≠ 0 := by simpa using hx
  have hm : mean (column (gridPts [xs, ts]) 1) = mean ts := by
    have := sum_col1 id xs ts
    simp only [List.map_id] at this
    rw [mean, this, col_length, mean, Nat.cast_mul, mul_div_mul_left _ _ h0]
  refine ⟨hm, ?_⟩
  rw [std, hm, sum_col1 (fun x => (x - mean ts) ^ 2), col_length, Nat.cast_mul, mul_div_mul_left _ _ h0, std]

/-- How far apart points are seen by the network: the square of the factor for `n` original and `N` refined points. -/
noncomputable def stretch (n N : Nat) : ℝ := Real.sqrt (((n : ℝ) + 1) * (N - 1) / ((n - 1) * (N + 1)))

theorem stretch_gt (n N : Nat) (hn : 2 ≤ n) (h : n < N) : 1 < stretch n N := by
  have h2 : (2 : ℝ) ≤ n := by exact_mod_cast hn
  have h3 : (n : ℝ) + 1 ≤ N := by exact_mod_cast h
  rw [stretch, Real.lt_sqrt (by norm_num), one_pow, lt_div_iff₀ (by nlinarith)]
  nlinarith

theorem linspace_std (a b : ℝ) (n : Nat) (hn : 2 ≤ n) (hab : a < b) : std (linspace a b n) = (b - a) * Real.sqrt ((n + 1) / (12 * (n - 1))) ∧ 0 < std (linspace a b n) := by
  have h2 : (2 : ℝ) ≤ n := by exact_mod_cast hn
  have h1 : (0 : ℝ) < n - 1 := by linarith
  have hpos : 0 < Real.sqrt (((n : ℝ) + 1) / (12 * (n - 1))) := Real.sqrt_pos.2 (by positivity)
  have : std (linspace a b n) = (b - a) * Real.sqrt ((n + 1) / (12 * (n - 1))) := by
    rw [std, linspace_var a b n hn, mul_div_assoc, Real.sqrt_mul (sq_nonneg _), Real.sqrt_sq (by linarith)]
  exact ⟨this, by rw [this]; exact mul_pos (by linarith) hpos⟩

theorem std_ratio (a b : ℝ) (n N : Nat) (hn : 2 ≤ n) (hN : 2 ≤ N) (hab : a < b) : std (linspace a b n) = std (linspace a b N) * stretch n N := by
  rw [(linspace_std a b n hn hab).1, (linspace_std a b N hN hab).1, stretch, mul_assoc, ← Real.sqrt_mul (by
    have : (2 : ℝ) ≤ N := by exact_mod_cast hN
    have : (0 : ℝ) < N - 1 := by linarith
    positivity)]
  congr 2
  have h2 : (2 : ℝ) ≤ n := by exact_mod_cast hn
  have h3 : (2 : ℝ) ≤ N := by exact_mod_cast hN
  have h1 : (n : ℝ) - 1 ≠ 0 := by linarith
  have h4 : (N : ℝ) - 1 ≠ 0 := by linarith
  have h5 : (N : ℝ) + 1 ≠ 0 := by linarith
  field_simp

/-- **C140** (grid): the refined axes have `ratio` times as many points, evenly spaced, with the same end points. -/
theorem C140_axes (normalize : Bool) (net : Option (List ℝ → ℝ)) (ratio n m : Nat) (xlo xhi tlo thi : ℝ) (field : List ℝ) (xs ts u : List ℝ)
    (h : refine normalize net ratio n m xlo xhi tlo thi field = .ok (xs, ts, u)) :
    xs.length = ratio * n ∧ ts.length = ratio * m ∧ u.length = xs.length * ts.length ∧
    (2 ≤ ratio * n → xs[0]? = some xlo ∧ xs[ratio * n - 1]? = some xhi) ∧ (2 ≤ ratio * m → ts[0]? = some tlo ∧ ts[ratio * m - 1]? = some thi) ∧
    (∀ (k : Nat) (x y : ℝ), xs[k]? = some x → xs[k + 1]? = some y → y - x = (xhi - xlo) / (((ratio * n : Nat) : ℝ) - 1)) ∧
    ∀ (k : Nat) (x y : ℝ), ts[k]? = some x → ts[k + 1]? = some y → y - x = (thi - tlo) / (((ratio * m : Nat) : ℝ) - 1) := by
  have key : xs = linspace xlo xhi (ratio * n) ∧ ts = linspace tlo thi (ratio * m) ∧ u.length = (gridPts [xs, ts]).length := by
    unfold refine at h
    cases net with
    | none => cases h
    | some f =>
      simp only at h
      cases normalize with
      | false => simp only [Bool.false_eq_true, if_false] at h; cases h; exact ⟨rfl, rfl, by simp⟩
      | true =>
        simp only [if_true] at h
        split at h
        · cases h
        · cases h; exact ⟨rfl, rfl, by simp⟩
  obtain ⟨rfl, rfl, h3⟩ := key
  have hends : ∀ (a b : ℝ) (N : Nat), 2 ≤ N → (linspace a b N)[0]? = some a ∧ (linspace a b N)[N - 1]? = some b := by
    intro a b N hN
    have h2 : (2 : ℝ) ≤ N := by exact_mod_cast hN
    have h1 : (N : ℝ) - 1 ≠ 0 := by linarith
    constructor
    · rw [linspace, List.getElem?_map, List.getElem?_range (by omega)]; simp
    · rw [linspace, List.getElem?_map, List.getElem?_range (by omega)]
      simp only [Option.map_some, Option.some.injEq]
      rw [Nat.cast_sub (by omega), Nat.cast_one]
      field_simp
      ring
  have hstep : ∀ (a b : ℝ) (N k : Nat) (x y : ℝ), (linspace a b N)[k]? = some x → (linspace a b N)[k + 1]? = some y → y - x = (b - a) / ((N : ℝ) - 1) := by
    intro a b N k x y hx hy
    have hk : k + 1 < N := by
      have := (List.getElem?_eq_some_iff.1 hy).1
      rwa [linspace_length] at this
    rw [linspace, List.getElem?_map, List.getElem?_range (by omega)] at hx hy
    cases hx; cases hy
    push_cast
    ring
  have hl := col_length (linspace xlo xhi (ratio * n)) (linspace tlo thi (ratio * m)) 0
  rw [column, List.length_map] at hl
  exact ⟨linspace_length _ _ _, linspace_length _ _ _, by rw [h3, hl], hends _ _ _, hends _ _ _, hstep _ _ _, hstep _ _ _⟩

/-- **C140 (violated).** The refined data are not the values the network stands for at the refined coordinates.  On an evenly spaced grid of `n` by
`m` points let the network represent the field `U` exactly (with the statistics of its training on this grid).  Refining normalises with the
statistics of the *refined* grid, so the value stored for the point (x, t) is that of `U` at a point further from the centre, by a factor larger
than 1 in both directions; at the ends of the axes the field is extrapolated beyond the data. -/
theorem C140_values_counterexample (net U : List ℝ → ℝ) (ratio n m : Nat) (xlo xhi tlo thi : ℝ) (hn : 2 ≤ n) (hm : 2 ≤ m) (hr : 2 ≤ ratio)
    (hx : xlo < xhi) (ht : tlo < thi) (field : List ℝ) (hfield : field = (gridPts [linspace xlo xhi n, linspace tlo thi m]).map U) (hstd : std field ≠ 0)
    (h : Represents (prepare true [linspace xlo xhi n, linspace tlo thi m] field).2.2 net U) :
    1 < stretch n (ratio * n) ∧ 1 < stretch m (ratio * m) ∧
    refine true (some net) ratio n m xlo xhi tlo thi field = .ok (linspace xlo xhi (ratio * n), linspace tlo thi (ratio * m),
      (gridPts [linspace xlo xhi (ratio * n), linspace tlo thi (ratio * m)]).map fun p =>
        U [(xlo + xhi) / 2 + stretch n (ratio * n) * (p.getD 0 0 - (xlo + xhi) / 2), (tlo + thi) / 2 + stretch m (ratio * m) * (p.getD 1 0 - (tlo + thi) / 2)]) := by
  have hnN : n < ratio * n := by nlinarith
  have hmM : m < ratio * m := by nlinarith
  refine ⟨stretch_gt n _ hn hnN, stretch_gt m _ hm hmM, ?_⟩
  have hne : ∀ (a b : ℝ) (N : Nat), 2 ≤ N → linspace a b N ≠ [] := by
    intro a b N hN h0
    have := linspace_length a b N
    rw [h0] at this
    simp at this
    omega
  -- statistics of the refined grid
  obtain ⟨xs, hxs⟩ : ∃ xs, linspace xlo xhi (ratio * n) = xs := ⟨_, rfl⟩
  obtain ⟨ts, hts⟩ : ∃ ts, linspace tlo thi (ratio * m) = ts := ⟨_, rfl⟩
  have hmx : mean xs = (xlo + xhi) / 2 := by rw [← hxs]; exact linspace_mean _ _ _ (by omega)
  have hmt : mean ts = (tlo + thi) / 2 := by rw [← hts]; exact linspace_mean _ _ _ (by omega)
  have hsx : 0 < std xs := by rw [← hxs]; exact (linspace_std _ _ _ (by omega) hx).2
  have hst : 0 < std ts := by rw [← hts]; exact (linspace_std _ _ _ (by omega) ht).2
  have hrx : std (linspace xlo xhi n) = std xs * stretch n (ratio * n) := by rw [← hxs]; exact std_ratio _ _ _ _ hn (by omega) hx
  have hrt : std (linspace tlo thi m) = std ts * stretch m (ratio * m) := by rw [← hts]; exact std_ratio _ _ _ _ hm (by omega) ht
  have hxsne : xs ≠ [] := by rw [← hxs]; exact hne _ _ _ (by omega)
  have htsne : ts ≠ [] := by rw [← hts]; exact hne _ _ _ (by omega)
  have hraw : rawStats 2 (gridPts [xs, ts]) = [((xlo + xhi) / 2, std xs), ((tlo + thi) / 2, std ts)] := by
    simp only [rawStats, List.range_succ, List.range_zero, List.nil_append, List.cons_append, List.map_cons, List.map_nil,
      (col0_stats xs ts htsne).1, (col0_stats xs ts htsne).2, (col1_stats xs ts hxsne).1, (col1_stats xs ts hxsne).2, hmx, hmt]
  have htrain : colStats 2 (gridPts [linspace xlo xhi n, linspace tlo thi m]) =
      [((xlo + xhi) / 2, std xs * stretch n (ratio * n)), ((tlo + thi) / 2, std ts * stretch m (ratio * m))] := by
    have h1 := col0_stats (linspace xlo xhi n) (linspace tlo thi m) (hne _ _ _ hm)
    have h2 := col1_stats (linspace xlo xhi n) (linspace tlo thi m) (hne _ _ _ hn)
    simp only [colStats, List.range_succ, List.range_zero, List.nil_append, List.cons_append, List.map_cons, List.map_nil, h1.1, h1.2, h2.1, h2.2,
      linspace_mean _ _ _ hn, linspace_mean _ _ _ hm]
    rw [safe_pos _ (linspace_std _ _ _ hn hx).2, safe_pos _ (linspace_std _ _ _ hm ht).2, hrx, hrt]
  have hstats : (prepare true [linspace xlo xhi n, linspace tlo thi m] field).2.2 =
      ⟨[((xlo + xhi) / 2, std xs * stretch n (ratio * n)), ((tlo + thi) / 2, std ts * stretch m (ratio * m))], mean field, std field⟩ := by
    have : safe (std field) = std field := by rw [safe, if_neg hstd]
    simp only [prepare, if_true, List.length_cons, List.length_nil, this]
    rw [show 0 + 1 + 1 = 2 from rfl, htrain]
  rw [hstats] at h
  unfold refine
  simp only [hxs, hts, hraw, if_true]
  rw [if_neg (by
    rintro ⟨p, hp, h0⟩
    simp only [List.mem_cons, List.not_mem_nil, or_false] at hp
    rcases hp with rfl | rfl
    · exact (ne_of_gt hsx) h0
    · exact (ne_of_gt hst) h0)]
  congr 3
  apply List.map_congr_left
  intro p hp
  have hpl := gridPts_length _ p hp
  match p, hpl with
  | [a, b], _ =>
    have hs1 := stretch_gt n _ hn hnN
    have hs2 := stretch_gt m _ hm hmM
    have := h [(xlo + xhi) / 2 + stretch n (ratio * n) * (a - (xlo + xhi) / 2), (tlo + thi) / 2 + stretch m (ratio * m) * (b - (tlo + thi) / 2)] rfl
    have hin : normIn [((xlo + xhi) / 2, std xs * stretch n (ratio * n)), ((tlo + thi) / 2, std ts * stretch m (ratio * m))]
        [(xlo + xhi) / 2 + stretch n (ratio * n) * (a - (xlo + xhi) / 2), (tlo + thi) / 2 + stretch m (ratio * m) * (b - (tlo + thi) / 2)] =
        normIn [((xlo + xhi) / 2, std xs), ((tlo + thi) / 2, std ts)] [a, b] := by
      have e1 : stretch n (ratio * n) ≠ 0 := by linarith
      have e2 : stretch m (ratio * m) ≠ 0 := by linarith
      have e3 : std xs ≠ 0 := ne_of_gt hsx
      have e4 : std ts ≠ 0 := ne_of_gt hst
      simp only [normIn, List.zipWith_cons_cons, List.zipWith_nil_left, List.cons.injEq, and_true, add_sub_cancel_left]
      constructor
      · field_simp
      · field_simp
    simp only [hin] at this
    rw [this]
    simp
    field_simp
    ring

/-- **C140** (without normalisation): the refined data are the network's values at the refined coordinates.
Partial, of the whole claim: With normalisation the refined values belong to stretched coordinates; a missing file ends the process (counterexamples). -/
theorem C140_plain_partial (net : List ℝ → ℝ) (ratio n m : Nat) (xlo xhi tlo thi : ℝ) (field : List ℝ) :
    refine false (some net) ratio n m xlo xhi tlo thi field =
      .ok (linspace xlo xhi (ratio * n), linspace tlo thi (ratio * m), (gridPts [linspace xlo xhi (ratio * n), linspace tlo thi (ratio * m)]).map net) := by
  simp [refine]

/-- **C140 (violated).** A missing file ends the whole process, and data with a single time become NaN. -/
theorem C140_stop_counterexample (normalize : Bool) (net : List ℝ → ℝ) (ratio n m : Nat) (xlo xhi t : ℝ) (field : List ℝ) :
    refine normalize none ratio n m xlo xhi t t field = .error .exit ∧ refine true (some net) ratio n m xlo xhi t t field = .error .nan := by
  refine ⟨rfl, ?_⟩
  unfold refine
  simp only [if_true]
  rw [if_pos]
  refine ⟨(mean (column (gridPts [linspace xlo xhi (ratio * n), linspace t t (ratio * m)]) 1), std (column (gridPts [linspace xlo xhi (ratio * n), linspace t t (ratio * m)]) 1)),
    by simp [rawStats, List.range_succ], ?_⟩
  have hz : linspace t t (ratio * m) = List.replicate (ratio * m) t := by
    rw [linspace, List.eq_replicate_iff]
    simp
  have hall : ∀ y ∈ column (gridPts [linspace xlo xhi (ratio * n), linspace t t (ratio * m)]) 1, y = t := by
    intro y hy
    simp only [column, gridPts, hz, List.mem_map, List.mem_flatMap] at hy
    obtain ⟨p, ⟨a, _, q, ⟨b, hb, r, hr, rfl⟩, rfl⟩, rfl⟩ := hy
    simp at hr ⊢
    exact (List.mem_replicate.1 hb).2
  generalize column (gridPts [linspace xlo xhi (ratio * n), linspace t t (ratio * m)]) 1 = l at hall
  have hrep : l = List.replicate l.length t := List.eq_replicate_iff.2 ⟨rfl, hall⟩
  by_cases h0 : l.length = 0
  · have : l = [] := List.eq_nil_of_length_eq_zero h0
    subst this
    simp [std]
  · have hl : (l.length : ℝ) ≠ 0 := by exact_mod_cast h0
    have hm : mean l = t := by
      rw [mean, hrep]
      simp
      field_simp
    rw [std, hm, hrep]
    simp

/-- The hypotheses are met: the field u = x + t on the corners of the unit square. -/
example : ∃ net, Represents (prepare true [linspace 0 1 2, linspace 0 1 2] ((gridPts [linspace 0 1 2, linspace 0 1 2]).map plane)).2.2 net plane ∧
    std ((gridPts [linspace 0 1 2, linspace 0 1 2]).map plane) ≠ 0 := by
  obtain ⟨net, h⟩ := (C139_fit_partial [linspace 0 1 2, linspace 0 1 2] plane).2
  refine ⟨net, h, ?_⟩
  have hl : linspace 0 1 2 = [0, 1] := by norm_num [linspace, List.range_succ]
  rw [hl, std_of _ (1 / 2) (by norm_num [gridPts, plane, mean])]
  exact ne_of_gt (Real.sqrt_pos.2 (by norm_num))

/-! ## C141: which network -/

/-- **C141** (settings): the fields differentiated by a network are those asked for, or all; a field that is not in the data, or leaving out the
target, is refused.  The target's network is the one in the table of networks, else the single one given; and the target's file is the one in the
table of files, else the single one.
Partial, of the whole claim: Networks are kept in the configuration and reused for other data (counterexample). -/
theorem C141_setup_partial {N : Type} (c : Cfg N) :
    (setup c = none ↔ (∃ f ∈ c.wanted.getD c.fields, f ∉ c.fields) ∨ c.target ∉ c.wanted.getD c.fields) ∧
    ∀ fs ms ps, setup c = some (fs, ms, ps) → fs = c.wanted.getD c.fields ∧
      (∀ f, ms.lookup f = (c.models.lookup f).or (if f = c.target then c.model else none)) ∧
      (∀ f, ps.lookup f = (c.paths.lookup f).or (if f = c.target ∧ c.path ≠ "" then some c.path else none)) := by
  have lookup_app : ∀ {A : Type} (l : List (String × A)) (k : String) (v : A) (f : String),
      (l ++ [(k, v)]).lookup f = (l.lookup f).or (if f = k then some v else none) := by
    intro A l k v f
    induction l with
    | nil =>
      by_cases h : f = k
      · subst h; simp
      · have : (f == k) = false := by simpa using h
        simp [List.lookup, this, h]
    | cons e l ih =>
      obtain ⟨a, b⟩ := e
      rw [List.cons_append, List.lookup_cons, List.lookup_cons]
      by_cases h : (f == a) = true
      · simp [h]
      · have : (f == a) = false := by simpa using h
        simp only [this]
        exact ih
  constructor
  · unfold setup
    simp only
    by_cases h : ((c.wanted.getD c.fields).all c.fields.contains && (c.wanted.getD c.fields).contains c.target) = true
    · rw [if_pos h]
      simp only [Bool.and_eq_true, List.all_eq_true, List.contains_iff_mem] at h
      constructor
      · intro h0; cases h0
      · rintro (⟨f, h1, h2⟩ | h1)
        · exact absurd (h.1 f h1) h2
        · exact absurd h.2 h1
    · rw [if_neg h]
      simp only [Bool.and_eq_true, List.all_eq_true, List.contains_iff_mem, not_and] at h
      refine ⟨fun _ => ?_, fun _ => rfl⟩
      by_cases h1 : ∀ f ∈ c.wanted.getD c.fields, f ∈ c.fields
      · exact Or.inr (h h1)
      · push Not at h1
        exact Or.inl h1
  · intro fs ms ps h
    unfold setup at h
    simp only at h
    by_cases hc : ((c.wanted.getD c.fields).all c.fields.contains && (c.wanted.getD c.fields).contains c.target) = true
    · rw [if_pos hc] at h
      simp only [Option.some.injEq, Prod.mk.injEq] at h
      obtain ⟨rfl, hm, hp⟩ := h
      refine ⟨rfl, fun f => ?_, fun f => ?_⟩
      · rw [← hm]
        cases hmod : c.model with
        | none => simp
        | some m =>
          simp only
          by_cases hs : (c.models.lookup c.target).isSome = true
          · rw [if_pos hs]
            by_cases hf : f = c.target
            · subst hf
              obtain ⟨v, hv⟩ := Option.isSome_iff_exists.1 hs
              simp [hv]
            · simp [hf]
          · rw [if_neg hs]
            exact lookup_app _ _ _ _
      · rw [← hp]
        by_cases hs : (c.path ≠ "" && (c.paths.lookup c.target).isNone) = true
        · rw [if_pos hs, lookup_app]
          simp only [Bool.and_eq_true, decide_eq_true_eq] at hs
          simp [hs.1]
        · rw [if_neg hs]
          by_cases hf : f = c.target ∧ c.path ≠ ""
          · obtain ⟨rfl, hne⟩ := hf
            simp only [hne, ne_eq, not_false_eq_true, decide_true, Bool.true_and, Bool.not_eq_true, Option.isNone_eq_false_iff] at hs
            obtain ⟨v, hv⟩ := Option.isSome_iff_exists.1 hs
            simp [hv]
          · simp [hf]
    · rw [if_neg hc] at h; cases h

theorem lookup_snoc {A : Type} (l : List (String × A)) (k : String) (v : A) (f : String) (h : l.lookup k = none) :
    (l ++ [(k, v)]).lookup f = if f = k then some v else l.lookup f := by
  induction l with
  | nil =>
    by_cases h : f = k
    · subst h; simp
    · have : (f == k) = false := by simpa using h
      simp [List.lookup, this, h]
  | cons e l ih =>
    obtain ⟨a, b⟩ := e
    rw [List.lookup_cons] at h
    by_cases hk : (k == a) = true
    · simp [hk] at h
    have hk' : (k == a) = false := by simpa using hk
    simp only [hk'] at h
    rw [List.cons_append, List.lookup_cons, List.lookup_cons]
    by_cases hf : (f == a) = true
    · have : f ≠ k := by
        rintro rfl
        exact hk hf
      simp [hf, this]
    · have hf' : (f == a) = false := by simpa using hf
      simp only [hf']
      exact ih h

/-- What network a field gets: from the table, else from its file, else trained on the current data. -/
def choice {N : Type} (disk : String → Option N) (train : String → N) (paths : List (String × String)) (models : List (String × N)) (f : String) : N × Source :=
  match models.lookup f, ((paths.lookup f).filter (· != "")).bind disk with
  | some m, _ => (m, .given)
  | none, some m => (m, .file)
  | none, none => (train f, .trained)

theorem resolve_choice {N : Type} (disk : String → Option N) (train : String → N) (paths : List (String × String)) (models : List (String × N)) (f : String) :
    ((resolve disk train paths models f).1, (resolve disk train paths models f).2.1) = choice disk train paths models f ∧
    (∀ g, (resolve disk train paths models f).2.2.lookup g = if g = f then some (choice disk train paths models f).1 else models.lookup g) := by
  unfold resolve choice
  cases hm : models.lookup f with
  | some m =>
    refine ⟨rfl, fun g => ?_⟩
    by_cases hg : g = f
    · subst hg; simp [hm]
    · simp [hg]
  | none =>
    cases hd : ((paths.lookup f).filter (· != "")).bind disk with
    | some m => exact ⟨rfl, fun g => lookup_snoc _ _ _ _ hm⟩
    | none => exact ⟨rfl, fun g => lookup_snoc _ _ _ _ hm⟩

theorem resolveAll_spec {N : Type} (disk : String → Option N) (train : String → N) (paths : List (String × String)) (fs : List String) (models : List (String × N))
    (hnd : fs.Nodup) :
    (resolveAll disk train paths models fs).1 = fs.map (fun f => (f, choice disk train paths models f)) ∧
    ∀ g, (resolveAll disk train paths models fs).2.lookup g = if g ∈ fs then some (choice disk train paths models g).1 else models.lookup g := by
  induction fs generalizing models with
  | nil => exact ⟨rfl, fun g => by simp [resolveAll]⟩
  | cons f fs ih =>
    obtain ⟨hf, hnd'⟩ := List.nodup_cons.1 hnd
    obtain ⟨h1, h2⟩ := resolve_choice disk train paths models f
    obtain ⟨i1, i2⟩ := ih (resolve disk train paths models f).2.2 hnd'
    have hsame : ∀ g ∈ fs, choice disk train paths (resolve disk train paths models f).2.2 g = choice disk train paths models g := by
      intro g hg
      have : g ≠ f := fun h => hf (h ▸ hg)
      unfold choice
      rw [h2 g, if_neg this]
    constructor
    · rw [resolveAll, List.map_cons, i1]
      refine congrArg₂ List.cons ?_ ?_
      · rw [← h1]
      · exact List.map_congr_left fun g hg => by rw [hsame g hg]
    · intro g
      rw [resolveAll]
      simp only
      rw [i2 g]
      by_cases hg : g ∈ fs
      · rw [if_pos hg, if_pos (List.mem_cons_of_mem _ hg), hsame g hg]
      · rw [if_neg hg, h2 g]
        by_cases hgf : g = f
        · subst hgf; simp
        · simp [hgf, hg]

/-- **C141.** Every field gets exactly one network, in order: the given one if there is one, else the one in its file if the file exists, else one
trained on the current data of this very field. -/
theorem C141_source {N : Type} (disk : String → Option N) (train : String → N) (paths : List (String × String)) (models : List (String × N)) (fs : List String)
    (hnd : fs.Nodup) :
    (resolveAll disk train paths models fs).1.map Prod.fst = fs ∧
    ∀ f n src, (f, n, src) ∈ (resolveAll disk train paths models fs).1 →
      (∀ m, models.lookup f = some m → n = m ∧ src = .given) ∧
      (models.lookup f = none → ∀ p m, paths.lookup f = some p → p ≠ "" → disk p = some m → n = m ∧ src = .file) ∧
      (models.lookup f = none → (∀ p, paths.lookup f = some p → p ≠ "" → disk p = none) → n = train f ∧ src = .trained) := by
  obtain ⟨h1, _⟩ := resolveAll_spec disk train paths fs models hnd
  refine ⟨by rw [h1, List.map_map]; simp [Function.comp_def], fun f n src h => ?_⟩
  rw [h1, List.mem_map] at h
  obtain ⟨g, _, hg⟩ := h
  simp only [Prod.mk.injEq] at hg
  obtain ⟨rfl, hc⟩ := hg
  have hc' : choice disk train paths models g = (n, src) := hc
  unfold choice at hc'
  refine ⟨fun m hm => ?_, fun hm p m hp hne hd => ?_, fun hm hd => ?_⟩
  · rw [hm] at hc'
    simp only [Prod.mk.injEq] at hc'
    exact ⟨hc'.1.symm, hc'.2.symm⟩
  · have hb : (p != "") = true := by simpa using hne
    rw [hm, hp] at hc'
    simp only [Option.filter, hb, if_true, Option.bind_some, hd, Prod.mk.injEq] at hc'
    exact ⟨hc'.1.symm, hc'.2.symm⟩
  · have hn : ((paths.lookup g).filter (· != "")).bind disk = none := by
      cases hp : paths.lookup g with
      | none => rfl
      | some p =>
        by_cases hne : p = ""
        · subst hne; rfl
        · have hb : (p != "") = true := by simpa using hne
          simp only [Option.filter, hb, if_true, Option.bind_some]
          exact hd p hp hne
    rw [hm, hn] at hc'
    simp only [Prod.mk.injEq] at hc'
    exact ⟨hc'.1.symm, hc'.2.symm⟩

/-- Three fields: one with a given network, one with a file, one to be trained. -/
example : (resolveAll (fun p => if p = "v.pkl" then some 2 else none) (fun _ => 3) [("v", "v.pkl"), ("w", "w.pkl")] [("u", 1)] ["u", "v", "w"]).1 =
    [("u", 1, .given), ("v", 2, .file), ("w", 3, .trained)] := rfl

/-- **C141 (violated).** Networks are kept in the configuration: another run with the same configuration uses the networks of the first one, whatever
data it has and whatever files have appeared. -/
theorem C141_reuse_counterexample {N : Type} (disk disk' : String → Option N) (train train' : String → N) (paths paths' : List (String × String))
    (models : List (String × N)) (fs : List String) (hnd : fs.Nodup) :
    (resolveAll disk' train' paths' (resolveAll disk train paths models fs).2 fs).1 =
      (resolveAll disk train paths models fs).1.map fun e => (e.1, e.2.1, .given) := by
  obtain ⟨h1, h2⟩ := resolveAll_spec disk train paths fs models hnd
  obtain ⟨h3, _⟩ := resolveAll_spec disk' train' paths' fs (resolveAll disk train paths models fs).2 hnd
  rw [h3, h1, List.map_map]
  apply List.map_congr_left
  intro f hf
  simp only [Function.comp_apply, choice, h2 f, if_pos hf]

end Verif.Sga.Autograd.Claims
