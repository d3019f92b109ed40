import Verif.Dlga.Svd
import Verif.Claims.DlgaFit
import Mathlib.Tactic.Ring
import Mathlib.Tactic.Linarith
import Mathlib.Tactic.FieldSimp
import Mathlib.Tactic.NormNum
import Mathlib.Analysis.Real.Sqrt
import Mathlib.Algebra.Order.BigOperators.Group.List
/-!
# C151: the coefficients of a DLGA equation; C152: its record; C153: tautologies
-/
namespace Verif.Dlga.Claims
open Verif.Dlga

/-- What `np.linalg.svd` promises of the last right singular vector of a matrix with at least as many rows as columns: a unit vector
with the smallest product. -/
structure LastVector (M : List (List ℝ)) (total : Nat) (v : List ℝ) : Prop where
  shape : v.length = M.length
  unit : (v.map (· ^ 2)).sum = 1
  least : ∀ w : List ℝ, w.length = M.length → (w.map (· ^ 2)).sum = 1 → sqNorm M v total ≤ sqNorm M w total

/-- The columns are linearly independent over `total` rows. -/
def Independent (cols : List (List ℝ)) (total : Nat) : Prop :=
  ∀ d : List ℝ, d.length = cols.length → (∀ r, r < total → predict cols d r = 0) → ∀ x ∈ d, x = 0

theorem predict_lin (cols : List (List ℝ)) (a : ℝ) (r : Nat) : ∀ (w c : List ℝ), w.length = cols.length → c.length = cols.length →
    predict cols (List.zipWith (fun x y => x + a * y) w c) r = predict cols w r + a * predict cols c r := by
  induction cols with
  | nil => intro w c _ _; simp [predict]
  | cons k cols ih =>
    intro w c hw hc
    match w, c, hw, hc with
    | x :: w, y :: c, hw, hc =>
      have := ih w c (by simpa using hw) (by simpa using hc)
      simp only [predict, List.zipWith_cons_cons, List.sum_cons] at this ⊢
      rw [this]; ring

theorem predict_scale (cols : List (List ℝ)) (a : ℝ) (r : Nat) : ∀ (c : List ℝ), c.length = cols.length →
    predict cols (c.map (fun x => x * a)) r = a * predict cols c r := by
  induction cols with
  | nil => intro c _; simp [predict]
  | cons k cols ih =>
    intro c hc
    match c, hc with
    | y :: c, hc =>
      have := ih c (by simpa using hc)
      simp only [predict, List.zipWith_cons_cons, List.sum_cons, List.map_cons] at this ⊢
      rw [this]; ring

theorem sumsq_scale (a : ℝ) : ∀ c : List ℝ, ((c.map (fun x => x * a)).map (· ^ 2)).sum = a ^ 2 * (c.map (· ^ 2)).sum := by
  intro c
  induction c with
  | nil => simp
  | cons x c ih => simp only [List.map_cons, List.sum_cons] at ih ⊢; rw [ih]; ring

theorem sumsq_nonneg (c : List ℝ) : 0 ≤ (c.map (· ^ 2)).sum :=
  List.sum_nonneg (by intro x hx; obtain ⟨y, _, rfl⟩ := List.mem_map.1 hx; exact sq_nonneg y)

theorem sqNorm_zero {M : List (List ℝ)} {v : List ℝ} {total : Nat} (h : sqNorm M v total ≤ 0) :
    ∀ r, r < total → predict M v r = 0 := by
  intro r hr
  have h1 : predict M v r ^ 2 ≤ sqNorm M v total := by
    apply List.single_le_sum
    · intro x hx; obtain ⟨k, _, rfl⟩ := List.mem_map.1 hx; exact sq_nonneg _
    · exact List.mem_map.2 ⟨r, List.mem_range.2 hr, rfl⟩
  have : predict M v r ^ 2 = 0 := le_antisymm (h1.trans h) (sq_nonneg _)
  simpa using this

/-- The vector `(1, -c)` scaled to length one. -/
theorem exact_vector (target : List ℝ) (cols : List (List ℝ)) (c : List ℝ) (hc : c.length = cols.length) (total : Nat)
    (hex : ∀ r, r < total → predict cols c r = (target[r]?).getD 0) :
    ∃ w : List ℝ, w.length = (target :: cols).length ∧ (w.map (· ^ 2)).sum = 1 ∧ sqNorm (target :: cols) w total = 0 := by
  set q := 1 + (c.map (· ^ 2)).sum with hq
  have hq0 : 0 < q := by have := sumsq_nonneg c; linarith
  refine ⟨(1 / Real.sqrt q) :: c.map (fun x => x * (-(1 / Real.sqrt q))), by simp [hc], ?_, ?_⟩
  · have hs : (1 / Real.sqrt q) ^ 2 = 1 / q := by rw [div_pow, Real.sq_sqrt hq0.le, one_pow]
    simp only [List.map_cons, List.sum_cons]
    rw [sumsq_scale, neg_sq, hs]
    field_simp
    exact hq.symm
  · have : ∀ r ∈ List.range total, predict (target :: cols) ((1 / Real.sqrt q) :: c.map (fun x => x * (-(1 / Real.sqrt q)))) r ^ 2 = 0 := by
      intro r hr
      have h1 := hex r (List.mem_range.1 hr)
      have h2 := predict_scale cols (-(1 / Real.sqrt q)) r c hc
      simp only [predict, List.zipWith_cons_cons, List.sum_cons] at h1 h2 ⊢
      rw [h2, h1]; ring
    rw [sqNorm, List.map_congr_left this]
    simp

/-- C151: whenever the terms of a candidate satisfy an exact relation with the left-hand side (and are independent), the regression
returns its coefficients up to a common factor `s / (s + 1e-8)`, where `s` is the size of the left-hand side in the normalised relation. -/
theorem C151_exact_partial (last : List (List ℝ) → List ℝ) (target : List ℝ) (cols : List (List ℝ)) (total : Nat)
    (hlast : LastVector (target :: cols) total (last (target :: cols))) (hind : Independent cols total)
    (c : List ℝ) (hc : c.length = cols.length) (hex : ∀ r, r < total → predict cols c r = (target[r]?).getD 0) :
    ∃ s : ℝ, s ^ 2 * (1 + (c.map (· ^ 2)).sum) = 1 ∧ svdSolve last target cols = c.map (fun x => x * (s / (s + tiny))) := by
  obtain ⟨w0, hw0, hw1, hw2⟩ := exact_vector target cols c hc total hex
  have hz := sqNorm_zero (M := target :: cols) (hw2 ▸ hlast.least w0 hw0 hw1)
  obtain ⟨v, hv⟩ : ∃ v, last (target :: cols) = v := ⟨_, rfl⟩
  rw [hv] at hz hlast
  match v, hlast.shape, hv, hz with
  | s :: w, hshape, hv, hz =>
    have hw : w.length = cols.length := by simpa using hshape
    have hzero : ∀ r, r < total → predict cols (List.zipWith (fun x y => x + s * y) w c) r = 0 := by
      intro r hr
      rw [predict_lin cols s r w c hw hc, hex r hr]
      have := hz r hr
      simp only [predict, List.zipWith_cons_cons, List.sum_cons] at this ⊢
      linarith
    have hall := hind _ (by simp [hw, hc]) hzero
    have hwc : w = c.map (fun x => x * (-s)) := by
      apply List.ext_getElem (by simp [hw, hc])
      intro i h1 h2
      have h3 : i < c.length := by simpa using h2
      have := hall (w[i] + s * c[i]) (by
        rw [List.mem_iff_getElem]
        exact ⟨i, by simpa using ⟨h1, h3⟩, by simp⟩)
      simp only [List.getElem_map]
      linarith
    refine ⟨s, ?_, ?_⟩
    · have h1 := hlast.unit
      simp only [List.map_cons, List.sum_cons] at h1
      rw [hwc, sumsq_scale, neg_sq] at h1
      linarith
    · rw [svdSolve, hv, hwc]
      simp only [coefOfVector, List.map_map]
      apply List.map_congr_left
      intro x _
      simp only [Function.comp_apply]
      ring

/-- C151: so every coefficient is off by at most the share `1e-8 / (|s| - 1e-8)` of itself. -/
theorem C151_error_partial (s x : ℝ) (hs : tiny < |s|) : |x * (s / (s + tiny)) - x| ≤ |x| * (tiny / (|s| - tiny)) := by
  have ht : 0 < tiny := by unfold tiny; norm_num
  have h1 : |s| - tiny ≤ |s + tiny| := by
    have := abs_sub_abs_le_abs_sub s (-tiny)
    rw [abs_neg, abs_of_pos ht, sub_neg_eq_add] at this
    exact this
  have h2 : 0 < |s| - tiny := by linarith
  have h3 : s + tiny ≠ 0 := by
    intro h; rw [h, abs_zero] at h1; linarith
  have h4 : x * (s / (s + tiny)) - x = -(x * (tiny / (s + tiny))) := by field_simp; ring
  rw [h4, abs_neg, abs_mul, abs_div, abs_of_pos ht]
  apply mul_le_mul_of_nonneg_left _ (abs_nonneg x)
  exact div_le_div_of_nonneg_left ht.le h2 h1

/-- C151: the residual of an exact relation after the regression. -/
theorem C151_residual_partial (last : List (List ℝ) → List ℝ) (target : List ℝ) (cols : List (List ℝ)) (total : Nat)
    (hlast : LastVector (target :: cols) total (last (target :: cols))) (hind : Independent cols total)
    (c : List ℝ) (hc : c.length = cols.length) (hex : ∀ r, r < total → predict cols c r = (target[r]?).getD 0) :
    ∃ s : ℝ, s ^ 2 * (1 + (c.map (· ^ 2)).sum) = 1 ∧
      (s + tiny ≠ 0 → mse target cols (svdSolve last target cols) total =
        (tiny / (s + tiny)) ^ 2 * mse target cols (cols.map fun _ => 0) total) := by
  obtain ⟨s, hs, he⟩ := C151_exact_partial last target cols total hlast hind c hc hex
  refine ⟨s, hs, fun h0 => ?_⟩
  have hz : ∀ r, predict cols (cols.map fun _ => (0 : ℝ)) r = 0 := by
    intro r
    have := predict_scale cols 0 r (cols.map fun _ => (1 : ℝ)) (by simp)
    simpa using this
  unfold mse
  rw [← mul_div_assoc, ← List.sum_map_mul_left]
  congr 2
  apply List.map_congr_left
  intro r hr
  rw [he, predict_scale cols _ r c hc, hex r (List.mem_range.1 hr), hz]
  field_simp
  ring

/-! ### Otherwise the coefficients are not those of the best fit -/

/-- Three points: the left-hand side 1, 1, 0 and one term 1, 0, 1. -/
def exTarget : List ℝ := [1, 1, 0]
def exCol : List ℝ := [1, 0, 1]

theorem ex_norm (a b : ℝ) : sqNorm [exTarget, exCol] [a, b] 3 = 2 * a ^ 2 + 2 * (a * b) + 2 * b ^ 2 := by
  simp [sqNorm, predict, exTarget, exCol, List.range_succ]
  ring

theorem ex_mse (x : ℝ) : mse exTarget [exCol] [x] 3 = (2 - 2 * x + 2 * x ^ 2) / 3 := by
  simp [mse, predict, exTarget, exCol, List.range_succ]
  ring

/-- C151, false in general: for this data every admissible singular vector gives a coefficient near 1, though 1/2 fits better. -/
theorem C151_fit_counterexample (last : List (List ℝ) → List ℝ)
    (hlast : LastVector [exTarget, exCol] 3 (last [exTarget, exCol])) :
    ∃ x, svdSolve last exTarget [exCol] = [x] ∧ |x - 1| < 1 / 10 ^ 6 ∧
      mse exTarget [exCol] [1 / 2] 3 < mse exTarget [exCol] (svdSolve last exTarget [exCol]) 3 := by
  obtain ⟨v, hv⟩ : ∃ v, last [exTarget, exCol] = v := ⟨_, rfl⟩
  rw [hv] at hlast
  match v, hlast.shape, hv, hlast with
  | [a, b], _, hv, hlast =>
    have hu := hlast.unit
    simp only [List.map_cons, List.map_nil, List.sum_cons, List.sum_nil, add_zero] at hu
    have hq : (Real.sqrt 2) ^ 2 = 2 := Real.sq_sqrt (by norm_num)
    have hq0 : 0 < Real.sqrt 2 := Real.sqrt_pos.2 (by norm_num)
    have h := hlast.least [1 / Real.sqrt 2, -(1 / Real.sqrt 2)] rfl (by
      simp only [List.map_cons, List.map_nil, List.sum_cons, List.sum_nil, add_zero, neg_sq, div_pow, one_pow, hq]; norm_num)
    rw [ex_norm, ex_norm] at h
    have hsq : (1 / Real.sqrt 2) ^ 2 = 1 / 2 := by rw [div_pow, one_pow, hq]
    have h' : (a + b) ^ 2 ≤ 0 := by nlinarith
    have hb : b = -a := by
      have : (a + b) ^ 2 = 0 := le_antisymm h' (sq_nonneg _)
      have : a + b = 0 := by simpa using this
      linarith
    subst hb
    have ha2 : a ^ 2 = 1 / 2 := by nlinarith
    have hx : svdSolve last exTarget [exCol] = [a / (a + tiny)] := by
      rw [svdSolve, hv]; simp only [coefOfVector, List.map_cons, List.map_nil, List.cons.injEq, and_true]; ring
    have habs : (7 : ℝ) / 10 < |a| := by
      by_contra hcon
      have : |a| ≤ 7 / 10 := not_lt.1 hcon
      have h1 : |a| ^ 2 ≤ (7 / 10) ^ 2 := pow_le_pow_left₀ (abs_nonneg a) this 2
      rw [sq_abs, ha2] at h1
      norm_num at h1
    have ht : tiny = 1 / 10 ^ 8 := rfl
    have hts : tiny < |a| := by rw [ht]; refine lt_trans ?_ habs; norm_num
    have herr := C151_error_partial a 1 hts
    rw [one_mul, abs_one, one_mul] at herr
    have hbound : tiny / (|a| - tiny) < 1 / 10 ^ 6 := by
      rw [div_lt_iff₀ (by linarith)]
      rw [ht]; norm_num; linarith
    refine ⟨_, hx, lt_of_le_of_lt herr hbound, ?_⟩
    rw [hx, ex_mse, ex_mse]
    have hx1 : |a / (a + tiny) - 1| < 1 / 10 ^ 6 := lt_of_le_of_lt herr hbound
    rw [abs_lt] at hx1
    have : (1 : ℝ) - 1 / 10 ^ 6 < a / (a + tiny) := by linarith [hx1.1]
    have h3 : (99 : ℝ) / 100 < a / (a + tiny) := lt_trans (by norm_num) this
    nlinarith

/-- A case of the positive statement: the left-hand side is twice the only term. -/
example : ∃ v, LastVector [[2, 0], [1, 0]] 2 v ∧ Independent [[1, 0]] 2 ∧
    ∀ r, r < 2 → predict [[1, 0]] [2] r = (([2, 0] : List ℝ)[r]?).getD 0 := by
  have h5 : (Real.sqrt 5) ^ 2 = 5 := Real.sq_sqrt (by norm_num)
  have hex : ∀ r, r < 2 → predict [[1, 0]] [2] r = (([2, 0] : List ℝ)[r]?).getD 0 := by
    intro r hr
    match r, hr with
    | 0, _ => simp [predict]
    | 1, _ => simp [predict]
  obtain ⟨w, h1, h2, h3⟩ := exact_vector [2, 0] [[1, 0]] [2] rfl 2 hex
  refine ⟨w, ⟨h1, h2, fun w' _ _ => ?_⟩, ?_, hex⟩
  · rw [h3]
    apply List.sum_nonneg
    intro x hx; obtain ⟨k, _, rfl⟩ := List.mem_map.1 hx; exact sq_nonneg _
  · intro d hd hz x hx
    match d, hd with
    | [y], _ =>
      have := hz 0 (by norm_num)
      simp [predict] at this
      simp at hx
      rw [hx]; exact this

/-! ## C152: the record of an estimator -/

theorem generations_record {F E : Type} (gens : List F) (r : Record F E) :
    (gens.foldl Record.generation r).fitness = r.fitness ++ gens ∧
    (gens.foldl Record.generation r).train = r.train ∧ (gens.foldl Record.generation r).valid = r.valid ∧
    (gens.foldl Record.generation r).evolution = r.evolution ++ (gens.zipIdx (r.fitness.length + 1)).map (fun p => (p.2, p.1)) := by
  induction gens generalizing r with
  | nil => simp
  | cons f gens ih =>
    obtain ⟨h1, h2, h3, h4⟩ := ih (r.generation f)
    simp only [List.foldl_cons]
    refine ⟨?_, ?_, ?_, ?_⟩
    · rw [h1]; simp [Record.generation]
    · rw [h2]; simp [Record.generation]
    · rw [h3]; simp [Record.generation]
    · rw [h4]; simp [Record.generation]

theorem iterations_record {F E : Type} (ls : List (E × E)) (r : Record F E) :
    (ls.foldl Record.iteration r).train = r.train ++ ls.map Prod.fst ∧ (ls.foldl Record.iteration r).valid = r.valid ++ ls.map Prod.snd ∧
    (ls.foldl Record.iteration r).fitness = r.fitness ∧ (ls.foldl Record.iteration r).evolution = r.evolution := by
  induction ls generalizing r with
  | nil => simp
  | cons f ls ih =>
    obtain ⟨h1, h2, h3, h4⟩ := ih (r.iteration f)
    simp only [List.foldl_cons]
    refine ⟨?_, ?_, ?_, ?_⟩
    · rw [h1]; simp [Record.iteration]
    · rw [h2]; simp [Record.iteration]
    · rw [h3]; simp [Record.iteration]
    · rw [h4]; simp [Record.iteration]

/-- C152: after any number of fits the histories hold the generations and iterations of all of them, in order, and the generation
numbered `k + 1` is the `k`-th of the fitness history. -/
theorem C152_record {F E : Type} (runs : List (List (E × E) × List F)) :
    let r := runs.foldl (fun (r : Record F E) run => r.fit run.1 run.2) Record.new
    r.fitness = (runs.map Prod.snd).flatten ∧ r.train = ((runs.map Prod.fst).flatten).map Prod.fst ∧
    r.valid = ((runs.map Prod.fst).flatten).map Prod.snd ∧
    r.evolution = ((runs.map Prod.snd).flatten.zipIdx 1).map (fun p => (p.2, p.1)) := by
  have key : ∀ (runs : List (List (E × E) × List F)) (r : Record F E),
      r.evolution = (r.fitness.zipIdx 1).map (fun p => (p.2, p.1)) →
      let q := runs.foldl (fun (r : Record F E) run => r.fit run.1 run.2) r
      q.fitness = r.fitness ++ (runs.map Prod.snd).flatten ∧ q.train = r.train ++ ((runs.map Prod.fst).flatten).map Prod.fst ∧
      q.valid = r.valid ++ ((runs.map Prod.fst).flatten).map Prod.snd ∧
      q.evolution = (q.fitness.zipIdx 1).map (fun p => (p.2, p.1)) := by
    intro runs
    induction runs with
    | nil => intro r hr; simp [hr]
    | cons run runs ih =>
      intro r hr
      obtain ⟨a1, a2, a3, a4⟩ := iterations_record run.1 r
      obtain ⟨b1, b2, b3, b4⟩ := generations_record run.2 (run.1.foldl Record.iteration r)
      obtain ⟨c1, c2, c3, c4⟩ := ih (r.fit run.1 run.2) (by
        show (run.2.foldl Record.generation (run.1.foldl Record.iteration r)).evolution = _
        rw [b4, a4, hr, a3]
        show _ = (((run.2.foldl Record.generation (run.1.foldl Record.iteration r)).fitness).zipIdx 1).map _
        rw [b1, a3, List.zipIdx_append, List.map_append, Nat.add_comm])
      simp only [List.foldl_cons]
      refine ⟨?_, ?_, ?_, c4⟩
      · rw [c1]
        show (run.2.foldl Record.generation (run.1.foldl Record.iteration r)).fitness ++ _ = _
        rw [b1, a3]; simp
      · rw [c2]
        show (run.2.foldl Record.generation (run.1.foldl Record.iteration r)).train ++ _ = _
        rw [b2, a1]; simp
      · rw [c3]
        show (run.2.foldl Record.generation (run.1.foldl Record.iteration r)).valid ++ _ = _
        rw [b3, a2]; simp
  obtain ⟨h1, h2, h3, h4⟩ := key runs Record.new rfl
  refine ⟨by rw [h1]; simp [Record.new], by rw [h2]; simp [Record.new], by rw [h3]; simp [Record.new], ?_⟩
  rw [h4, h1]; simp [Record.new]

/-- Two fits of two generations each: the second starts at number 3. -/
example : ((Record.new : Record Nat Nat).fit [(1, 2)] [9, 8] |>.fit [(3, 4)] [7, 6]) =
    ⟨[9, 8, 7, 6], [1, 3], [2, 4], [(1, 9), (2, 8), (3, 7), (4, 6)]⟩ := by decide

/-! ## C153: the left-hand side as a term -/

/-- C153: an operator list without `u_t` and `u_tt` never shows them on the right-hand side. -/
theorem C153_names_partial (ops : List String) (h1 : "u_t" ∉ ops) (h2 : "u_tt" ∉ ops) (m : Module) :
    "u_t" ∉ Verif.Claims.displayed ops m ∧ "u_tt" ∉ Verif.Claims.displayed ops m := by
  have : ∀ o ∈ Verif.Claims.displayed ops m, o ∈ ops := by
    intro o ho
    simp only [Verif.Claims.displayed, List.mem_filterMap] at ho
    obtain ⟨i, _, hi⟩ := ho
    exact List.mem_of_getElem? hi
  exact ⟨fun h => h1 (this _ h), fun h => h2 (this _ h)⟩

/-- C153, false in general: if `u_t` is one of the operators, the candidate consisting of it alone fits any data with a non-zero time
derivative: it is evaluated to the time derivative itself, gets a coefficient within one part in ten million of 1, and its residual is
less than 10⁻¹⁴ of that of the empty equation. -/
theorem C153_tautology_counterexample (last : List (List ℝ) → List ℝ) (available : String → Option (List ℝ)) (ops : List String)
    (hall : ∀ o ∈ ops, (available o).isSome) (i : Nat) (hi : ops[i]? = some "u_t") (ut : List ℝ) (hut : available "u_t" = some ut)
    (hne : ∃ x ∈ ut, x ≠ 0) (hlast : LastVector [ut, ut] ut.length (last [ut, ut])) :
    translate (thetaColumns available ops) ut.length [[i]] = some ([ut], 1) ∧
    ∃ a, svdSolve last ut [ut] = [a] ∧ |a - 1| < 1 / 10 ^ 7 ∧
      mse ut [ut] [a] ut.length ≤ 1 / 10 ^ 14 * mse ut [ut] [0] ut.length := by
  have htheta : (thetaColumns available ops)[i]? = some ut := by
    have : ∀ (ops : List String) (i : Nat), (∀ o ∈ ops, (available o).isSome) → ops[i]? = some "u_t" →
        (ops.filterMap available)[i]? = some ut := by
      intro ops
      induction ops with
      | nil => intro i _ h; simp at h
      | cons o ops ih =>
        intro i ha h
        obtain ⟨c, hc⟩ := Option.isSome_iff_exists.1 (ha o (by simp))
        rw [List.filterMap_cons_some hc]
        cases i with
        | zero =>
          simp only [List.getElem?_cons_zero, Option.some.injEq] at h ⊢
          subst h; rw [hut] at hc; exact (Option.some.inj hc).symm
        | succ i =>
          simp only [List.getElem?_cons_succ] at h ⊢
          exact ih i (fun o ho => ha o (by simp [ho])) h
    exact this ops i hall hi
  have hone : ∀ l : List ℝ, List.zipWith (· * ·) (List.replicate l.length 1) l = l := by
    intro l; induction l with
    | nil => rfl
    | cons x l ih => simp [List.replicate_succ, ih]
  have hmod : moduleColumn (thetaColumns available ops) ut.length [i] = some ut := by
    simp [moduleColumn, htheta, hone]
  refine ⟨by simp [translate, hmod], ?_⟩
  have hex : ∀ r, r < ut.length → predict [ut] [1] r = (ut[r]?).getD 0 := by intro r _; simp [predict]
  have hind : Independent [ut] ut.length := by
    intro d hd hz x hx
    match d, hd with
    | [y], _ =>
      obtain ⟨z, hz1, hz2⟩ := hne
      obtain ⟨r, hr, hrz⟩ := List.mem_iff_getElem.1 hz1
      have := hz r hr
      simp only [predict, List.zipWith_cons_cons, List.zipWith_nil_left, List.sum_cons, List.sum_nil, add_zero,
        List.getElem?_eq_getElem hr, Option.getD_some, hrz] at this
      have hx' : x = y := by simpa using hx
      rw [hx']
      rcases mul_eq_zero.1 this with h | h
      · exact absurd h hz2
      · exact h
  obtain ⟨s, hs, hm⟩ := C151_residual_partial last ut [ut] ut.length hlast hind [1] rfl hex
  obtain ⟨s', hs', he⟩ := C151_exact_partial last ut [ut] ut.length hlast hind [1] rfl hex
  have hs2 : ∀ t : ℝ, t ^ 2 * (1 + (([1] : List ℝ).map (· ^ 2)).sum) = 1 → (7 : ℝ) / 10 < |t| := by
    intro t ht
    simp at ht
    by_contra hcon
    have h1 : |t| ^ 2 ≤ (7 / 10) ^ 2 := pow_le_pow_left₀ (abs_nonneg t) (not_lt.1 hcon) 2
    rw [sq_abs] at h1
    norm_num at h1
    linarith
  have ht : tiny = 1 / 10 ^ 8 := rfl
  have htp : (0 : ℝ) < tiny := by rw [ht]; norm_num
  have hbound : ∀ t : ℝ, (7 : ℝ) / 10 < |t| → tiny / (|t| - tiny) < 1 / 10 ^ 7 := by
    intro t h
    have : tiny < 1 / 10 := by rw [ht]; norm_num
    rw [div_lt_iff₀ (by linarith), ht]
    norm_num; linarith
  refine ⟨1 * (s' / (s' + tiny)), by rw [he]; rfl, ?_, ?_⟩
  · have h7 := hs2 s' hs'
    have hts : tiny < |s'| := by rw [ht]; refine lt_trans ?_ h7; norm_num
    have := C151_error_partial s' 1 hts
    rw [abs_one, one_mul (tiny / _)] at this
    exact lt_of_le_of_lt this (hbound s' h7)
  · have h7 := hs2 s hs
    have hts : tiny < |s| := by rw [ht]; refine lt_trans ?_ h7; norm_num
    have habs : |s| - tiny ≤ |s + tiny| := by
      have := abs_sub_abs_le_abs_sub s (-tiny)
      rw [abs_neg, abs_of_pos htp, sub_neg_eq_add] at this
      exact this
    have h0 : s + tiny ≠ 0 := by intro h; rw [h, abs_zero] at habs; linarith
    have hm' := hm h0
    rw [he] at hm'
    simp only [List.map_cons, List.map_nil] at hm'
    rw [hm']
    apply mul_le_mul_of_nonneg_right
    · have h3 : |tiny / (s + tiny)| ≤ 1 / 10 ^ 7 := by
        rw [abs_div, abs_of_pos htp]
        refine le_trans ?_ (hbound s h7).le
        exact div_le_div_of_nonneg_left htp.le (by linarith) habs
      have h4 := pow_le_pow_left₀ (abs_nonneg _) h3 2
      rw [sq_abs] at h4
      refine le_trans h4 (le_of_eq ?_)
      norm_num
    · unfold mse
      apply div_nonneg _ (Nat.cast_nonneg _)
      apply List.sum_nonneg
      intro x hx; obtain ⟨k, _, rfl⟩ := List.mem_map.1 hx; exact sq_nonneg _

end Verif.Dlga.Claims
