import Verif.Discover.Weak
import Verif.Claims.Fit
import Mathlib.Algebra.Polynomial.Derivative
import Mathlib.Algebra.Polynomial.Eval.Degree
import Mathlib.Analysis.SpecialFunctions.Sqrt
import Mathlib.Tactic.LinearCombination
import Mathlib.Tactic.Ring
import Mathlib.Tactic.FieldSimp
import Mathlib.Data.Nat.Cast.Basic
import Mathlib.Algebra.CharZero.Defs
/-!
# C197: the weak form of the sparse mode

## Specification
-/
namespace Verif.Discover.Weak.Claims
open Verif.Discover.Fit Verif.Discover.Fit.Claims Verif.Discover.Weak Polynomial

/-- The rule integrates on [-1, 1] the derivative of every polynomial of degree at most `d` exactly. -/
def Exact {K : Type} [Field K] (r : Rule K) (d : Nat) : Prop :=
  r.weights.length = r.nodes.length ∧ r.nodes ≠ [] ∧
  ∀ p : K[X], p.natDegree ≤ d → ((r.nodes.zip r.weights).map fun q => q.2 * p.derivative.eval q.1).sum = p.eval 1 - p.eval (-1)

/-- The centres of the windows: for every time, every position. -/
def centres {K : Type} [Field K] (xLow tLow xUp tUp : K) (xNum tNum : Nat) : List (K × K) :=
  (linspace tLow tUp tNum).flatMap fun t => (linspace xLow xUp xNum).map fun x => (x, t)

/-! ## Lemmas -/

theorem chunk_flat {K : Type} (n : Nat) (hn : 0 < n) : ∀ (bs : List (List K)), (∀ b ∈ bs, b.length = n) →
    (bs.flatten).length = bs.length * n ∧
    (List.range bs.length).map (fun i => ((bs.flatten).drop (i * n)).take n) = bs := by
  intro bs
  induction bs with
  | nil => intro _; simp
  | cons b bs ih =>
    intro h
    obtain ⟨h1, h2⟩ := ih fun c hc => h c (by simp [hc])
    have hb := h b (by simp)
    refine ⟨by rw [List.flatten_cons, List.length_append, h1, List.length_cons, hb, Nat.add_mul]; omega, ?_⟩
    rw [List.length_cons, List.range_succ_eq_map, List.map_cons, List.map_map]
    congr 1
    · simp [← hb]
    · conv_rhs => rw [← h2]
      apply List.map_congr_left
      intro i _
      simp only [Function.comp_apply, List.flatten_cons]
      rw [Nat.succ_mul, Nat.add_comm, ← hb, ← List.drop_drop, List.drop_left]

theorem glq_blocks {K : Type} [Field K] (e : Evaluate K) (hw : e.rule.weights.length = e.rule.nodes.length) (hn : e.rule.nodes ≠ []) (bs : List (List K))
    (h : ∀ b ∈ bs, b.length = e.rule.nodes.length) : glq e bs.flatten = some (bs.map fun b => 1 / 2 * e.L * rowDot b e.rule.weights) := by
  have hp : 0 < e.rule.nodes.length := List.length_pos_iff.2 hn
  obtain ⟨h1, h2⟩ := chunk_flat _ hp bs h
  unfold glq reshapeRows
  rw [if_neg (by simpa using hw), if_neg (by rw [h1]; simp; exact hn), h1, Nat.mul_div_cancel _ hp, h2]
  rfl

theorem row_mesh {K V : Type} (f : K → K → V) (t : K) (nodes : List K) (g : K → K → K) : ∀ xs : List K,
    (((xs.flatMap fun a => nodes.map fun s => g a s).map fun x => (x, t)).map fun q => f q.1 q.2) =
    ((xs.map fun x => (x, t)).map fun q => nodes.map fun s => f (g q.1 s) q.2).flatten := by
  intro xs
  induction xs with
  | nil => rfl
  | cons x xs ih =>
    rw [List.flatMap_cons, List.map_append, List.map_append, ih, List.map_cons, List.map_cons, List.flatten_cons]
    simp [Function.comp_def]

theorem flatMap_mesh {K V : Type} (f : K → K → V) (xs nodes : List K) (g : K → K → K) : ∀ ts : List K,
    ((ts.flatMap fun t => (xs.flatMap fun a => nodes.map fun s => g a s).map fun x => (x, t)).map fun q => f q.1 q.2) =
    ((ts.flatMap fun t => xs.map fun x => (x, t)).map fun q => nodes.map fun s => f (g q.1 s) q.2).flatten := by
  intro ts
  induction ts with
  | nil => rfl
  | cons t ts ih =>
    rw [List.flatMap_cons, List.map_append, ih, List.flatMap_cons, List.map_append, List.flatten_append, row_mesh]

theorem mesh_map {K : Type} [Field K] (g : K → K) (xs : List K) : ∀ ts : List K,
    mesh (xs.map g) ts = (mesh xs ts).map fun q => (g q.1, q.2) := by
  intro ts
  unfold mesh
  induction ts with
  | nil => rfl
  | cons t ts ih => rw [List.flatMap_cons, ih, List.flatMap_cons, List.map_append]; simp [Function.comp_def]

theorem zipWith_sum {K : Type} [Field K] (f : K → K) : ∀ (ns ws : List K), (List.zipWith (· * ·) (ns.map f) ws).sum = ((ns.zip ws).map fun q => q.2 * f q.1).sum := by
  intro ns
  induction ns with
  | nil => intro ws; rfl
  | cons n ns ih => intro ws; cases ws with
    | nil => rfl
    | cons w ws => simp [ih, mul_comm]

/-! ## The theorems -/

/-- **C197** (rows): with as many weights as nodes and at least one node the data are always produced; row `r` of the two fields and of the left-hand side belong to
the same window: its right end, its left end, and the weighted sum of the time derivative over its nodes, times half the width. -/
theorem C197_rows {K V : Type} [Field K] (e : Evaluate K) (hw : e.rule.weights.length = e.rule.nodes.length) (hn : e.rule.nodes ≠ [])
    (xLow tLow xUp tUp : K) (xNum tNum : Nat) (net : K → K → V) (dt : K → K → K) :
    ∃ d, weakFormCal e xLow tLow xUp tUp xNum tNum net dt = some d ∧
      d.x = [(centres xLow tLow xUp tUp xNum tNum).map fun c => (c.1 + e.L / 2, c.2), (centres xLow tLow xUp tUp xNum tNum).map fun c => (c.1 - e.L / 2, c.2)] ∧
      d.u = [(centres xLow tLow xUp tUp xNum tNum).map fun c => net (c.1 + e.L / 2) c.2, (centres xLow tLow xUp tUp xNum tNum).map fun c => net (c.1 - e.L / 2) c.2] ∧
      d.ut = (centres xLow tLow xUp tUp xNum tNum).map fun c =>
        e.L / 2 * ((e.rule.nodes.zip e.rule.weights).map fun q => q.2 * dt (c.1 + e.L / 2 * q.1) c.2).sum := by
  have hL : 1 / 2 * e.L = e.L / 2 := by ring
  have hm : mesh (linspace xLow xUp xNum) (linspace tLow tUp tNum) = centres xLow tLow xUp tUp xNum tNum := rfl
  have hg := glq_blocks e hw hn ((centres xLow tLow xUp tUp xNum tNum).map fun q => e.rule.nodes.map fun s => dt (q.1 + e.L / 2 * s) q.2) (by
    intro b hb
    obtain ⟨q, _, rfl⟩ := List.mem_map.1 hb
    exact List.length_map _)
  unfold centres at hg
  rw [← flatMap_mesh dt (linspace xLow xUp xNum) e.rule.nodes (fun a s => a + e.L / 2 * s)] at hg
  unfold weakFormCal reconstruct
  simp only [hL]
  unfold mesh at hm ⊢
  rw [hg]
  refine ⟨_, rfl, ?_, ?_, ?_⟩
  · have h1 := mesh_map (fun a => a + e.L / 2) (linspace xLow xUp xNum) (linspace tLow tUp tNum)
    have h2 := mesh_map (fun a => a - e.L / 2) (linspace xLow xUp xNum) (linspace tLow tUp tNum)
    unfold mesh at h1 h2
    simp only [h1, h2, hm]
  · have h1 := mesh_map (fun a => a + e.L / 2) (linspace xLow xUp xNum) (linspace tLow tUp tNum)
    have h2 := mesh_map (fun a => a - e.L / 2) (linspace xLow xUp xNum) (linspace tLow tUp tNum)
    unfold mesh at h1 h2
    simp only [h1, h2, hm]
    simp only [List.map_map, Function.comp_def]
  · simp only [List.map_map, Function.comp_def]
    unfold centres
    apply List.map_congr_left
    intro c _
    unfold rowDot
    rw [hL, zipWith_sum fun s => dt (c.1 + e.L / 2 * s) c.2]

/-- **C197** (grid): the centres are the asked number of positions and times, the first at the lower limit, the last at the upper limit (one alone: at the lower one),
with equal distances. -/
theorem C197_grid {K : Type} [Field K] [CharZero K] (lo hi : K) (num : Nat) :
    (linspace lo hi num).length = num ∧ (0 < num → (linspace lo hi num)[0]? = some lo) ∧ (1 < num → (linspace lo hi num)[num - 1]? = some hi) ∧
    ∃ step, ∀ (i : Nat) a b, (linspace lo hi num)[i]? = some a → (linspace lo hi num)[i + 1]? = some b → b = a + step := by
  match num with
  | 0 => exact ⟨rfl, by omega, by omega, 0, fun i a b h => by simp [linspace] at h⟩
  | 1 => exact ⟨rfl, fun _ => rfl, by omega, 0, fun i a b _ h => by simp [linspace] at h⟩
  | n + 2 =>
    have hn : ((n + 1 : Nat) : K) ≠ 0 := Nat.cast_ne_zero.2 (by omega)
    refine ⟨by simp [linspace], fun _ => by simp [linspace], fun _ => ?_, (hi - lo) / ((n + 1 : Nat) : K), fun i a b ha hb => ?_⟩
    · simp only [linspace]
      rw [List.getElem?_map, List.getElem?_range (by omega), Option.map_some, show n + 2 - 1 = n + 1 by omega, mul_div_cancel₀ _ hn]
      simp
    · simp only [linspace, List.getElem?_map] at ha hb
      have h1 : i + 1 < n + 2 := by
        by_contra h
        rw [List.getElem?_eq_none (by simp; omega)] at hb
        simp at hb
      rw [List.getElem?_range (by omega), Option.map_some] at ha
      rw [List.getElem?_range h1, Option.map_some] at hb
      cases ha
      cases hb
      push_cast
      ring

/-- An exact rule on [-1, 1] is exact on every window. -/
theorem window {K : Type} [Field K] (r : Rule K) (d : Nat) (h : Exact r d) (L x : K) (G : K[X]) (hG : G.natDegree ≤ d) :
    L / 2 * ((r.nodes.zip r.weights).map fun q => q.2 * G.derivative.eval (x + L / 2 * q.1)).sum = G.eval (x + L / 2) - G.eval (x - L / 2) := by
  have hp : (G.comp (C x + C (L / 2) * X)).natDegree ≤ d := by
    refine le_trans natDegree_comp_le ?_
    refine le_trans (Nat.mul_le_mul hG (?_ : _ ≤ 1)) (by omega)
    refine le_trans (natDegree_add_le _ _) ?_
    rw [natDegree_C]
    exact max_le (by omega) (le_trans (natDegree_C_mul_le _ _) natDegree_X_le)
  have hx := h.2.2 _ hp
  have e1 : (G.comp (C x + C (L / 2) * X)).eval 1 = G.eval (x + L / 2) := by simp
  have e2 : (G.comp (C x + C (L / 2) * X)).eval (-1) = G.eval (x - L / 2) := by simp [sub_eq_add_neg]
  rw [e1, e2] at hx
  rw [← hx, ← List.sum_map_mul_left]
  congr 1
  apply List.map_congr_left
  intro q _
  rw [derivative_comp]
  simp
  ring

/-- **C197** (exactness): if at every time the derivative of the field with respect to time is the derivative of a polynomial flux along the position, of a degree
the rule integrates exactly, the left-hand side is the flux at the right end of each window minus the flux at its left end. -/
theorem C197_exact {K V : Type} [Field K] (e : Evaluate K) (deg : Nat) (he : Exact e.rule deg) (xLow tLow xUp tUp : K) (xNum tNum : Nat) (net : K → K → V)
    (dt : K → K → K) (G : K → K[X]) (hG : ∀ t, (G t).natDegree ≤ deg) (hdt : ∀ x t, dt x t = (G t).derivative.eval x) :
    ∃ d, weakFormCal e xLow tLow xUp tUp xNum tNum net dt = some d ∧
      d.ut = (centres xLow tLow xUp tUp xNum tNum).map fun c => (G c.2).eval (c.1 + e.L / 2) - (G c.2).eval (c.1 - e.L / 2) := by
  obtain ⟨d, h1, _, _, h4⟩ := C197_rows e he.1 he.2.1 xLow tLow xUp tUp xNum tNum net dt
  refine ⟨d, h1, h4.trans (List.map_congr_left fun c _ => ?_)⟩
  rw [← window e.rule deg he e.L c.1 (G c.2) (hG c.2)]
  simp only [hdt]

theorem sum_map_sub' {K A : Type} [Field K] (f g : A → K) : ∀ l : List A, (l.map fun a => f a - g a).sum = (l.map f).sum - (l.map g).sum := by
  intro l
  induction l with
  | nil => simp
  | cons a l ih => simp only [List.map_cons, List.sum_cons, ih]; ring

theorem foldr_sum {K : Type} [Field K] (l : List K) : l.foldr (· + ·) 0 = l.sum := rfl

theorem dot_map {K A : Type} [Field K] (F : A → K × K → K) (cs : List (K × K)) (terms : List A) (w : List K) :
    dot cs.length (terms.map fun t => cs.map (F t)) w = cs.map fun c => ((terms.zip w).map fun p => F p.1 c * p.2).sum := by
  apply List.ext_getElem
  · simp [dot]
  · intro i h1 h2
    simp only [dot, List.getElem_map, List.getElem_range, foldr_sum, List.zip_map_left, List.map_map, Function.comp_def]
    have hi : i < cs.length := by simpa using h2
    simp [hi]

/-- The columns of the weak form: the terms at the right ends minus the terms at the left ends of the windows. -/
def columns {K : Type} [Field K] (T : List String → K → K → K) (L : K) (cs : List (K × K)) (terms : List (List String)) : List (List K) :=
  terms.map fun t => cs.map fun c => T t (c.1 + L / 2) c.2 - T t (c.1 - L / 2) c.2

/-- **C197** (recovery): for an equation `u_t = (c₁ T₁ + … + cₘ Tₘ)_x` whose flux the rule integrates exactly, and terms that are allowed and have values everywhere,
the weak-form fit of the program with these terms predicts the left-hand side exactly – for every solver that returns an exact solution when there is one – and its
coefficients are `c₁, …, cₘ` if these are the only exact solution.
Partial, of the whole claim: Proved of weak_form_cal, glq_cal and the weak-form fit: rows, exactness, recovery, and the five-node default rule. False of a search: with weak_params the windows are never produced and the first admissible program raises IndexError. -/
theorem C197_recovers_partial {K V : Type} [Field K] (e : Evaluate K) (deg : Nat) (he : Exact e.rule deg) (xLow tLow xUp tUp : K) (xNum tNum : Nat) (net : K → K → V)
    (dt : K → K → K) (G : K → K[X]) (hG : ∀ t, (G t).natDegree ≤ deg) (hdt : ∀ x t, dt x t = (G t).derivative.eval x)
    (T : List String → K → K → K) (terms : List (List String)) (hne : terms ≠ []) (coef : List K) (hlen : coef.length = terms.length)
    (hpde : ∀ x t, (G t).eval x = ((terms.zip coef).map fun p => T p.1 x t * p.2).sum)
    (small large : K → Bool) (lstsq : List (List K) → List K → Option (List K))
    (hs : ∀ cols lhs w0, w0.length = cols.length → dot lhs.length cols w0 = lhs →
      ∃ w, lstsq cols lhs = some w ∧ w.length = cols.length ∧ dot lhs.length cols w = lhs)
    (c : Cfg) (hc : c.addConst = false) (tr : List String) (hreg : (regulations c tr terms).2 = []) :
    ∃ d w, weakFormCal e xLow tLow xUp tUp xNum tNum net dt = some d ∧
      w.length = terms.length ∧ dot d.ut.length (columns T e.L (centres xLow tLow xUp tUp xNum tNum) terms) w = d.ut ∧
      ((∀ a ∈ w, small a = false ∧ large a = false) →
        execute small large lstsq c true (d.x.map fun ps t => .col (ps.map fun q => T t q.1 q.2)) tr terms d.ut =
          .fitted ⟨d.ut, w, columns T e.L (centres xLow tLow xUp tUp xNum tNum) terms⟩) ∧
      ((∀ w', w'.length = terms.length → dot d.ut.length (columns T e.L (centres xLow tLow xUp tUp xNum tNum) terms) w' = d.ut → w' = coef) → w = coef) := by
  obtain ⟨d, h1, hx, _, _⟩ := C197_rows e he.1 he.2.1 xLow tLow xUp tUp xNum tNum net dt
  obtain ⟨d', h1', hut⟩ := C197_exact e deg he xLow tLow xUp tUp xNum tNum net dt G hG hdt
  obtain rfl : d = d' := by rw [h1] at h1'; exact Option.some.inj h1'
  generalize hcs : centres xLow tLow xUp tUp xNum tNum = cs at hx hut ⊢
  have hl : d.ut.length = cs.length := by rw [hut, List.length_map]
  have hsol : dot d.ut.length (columns T e.L cs terms) coef = d.ut := by
    unfold columns
    rw [hl, dot_map (fun t c => T t (c.1 + e.L / 2) c.2 - T t (c.1 - e.L / 2) c.2), hut]
    apply List.map_congr_left
    intro q _
    rw [hpde, hpde, ← sum_map_sub']
    congr 1
    apply List.map_congr_left
    intro p _
    ring
  obtain ⟨w, hw, hwl, hwd⟩ := hs _ _ coef (by rw [hlen]; simp [columns]) hsol
  have hwl' : w.length = terms.length := by rw [hwl]; simp [columns]
  refine ⟨d, w, h1, hwl', hwd, fun hok => ?_, fun hu => hu w hwl' hwd⟩
  have hev : ∀ ps : List (K × K), evaluateTerms c (fun t => .col (ps.map fun q => T t q.1 q.2)) tr terms = .ok (terms.map fun t => ps.map fun q => T t q.1 q.2) := by
    intro ps
    refine (evaluateTerms_ok c _ tr terms _).2 ⟨hreg, by simp [Function.comp_def], hne, ?_⟩
    intro x hx y hy
    obtain ⟨_, _, rfl⟩ := List.mem_map.1 hx
    obtain ⟨_, _, rfl⟩ := List.mem_map.1 hy
    simp
  have hcols : ((terms.map fun t => (cs.map fun c => (c.1 + e.L / 2, c.2)).map fun q => T t q.1 q.2).zip
      (terms.map fun t => (cs.map fun c => (c.1 - e.L / 2, c.2)).map fun q => T t q.1 q.2)).map (fun p => List.zipWith (· - ·) p.1 p.2) = columns T e.L cs terms := by
    unfold columns
    rw [List.zip_map', List.map_map]
    apply List.map_congr_left
    intro t _
    simp [List.zipWith_map_left, List.zipWith_map_right, Function.comp_def]
  have hhd : ((columns T e.L cs terms).headD []).length = d.ut.length := by
    rw [hl]
    unfold columns
    cases terms with
    | nil => exact absurd rfl hne
    | cons t ts => simp
  rw [hx]
  unfold execute
  simp only [List.map_cons, List.map_nil, if_true, hev]
  unfold wfCalculate
  simp only [hev, hcols, hhd]
  unfold coefCalculate
  rw [hw]
  simp only [hc]
  rw [(checkCoefs_false small large false w).2 hok]
  simp only [hwd]
  rfl

/-- **C197 (violated).** Asking for the weak form (`weak_params` in the configuration of the task) does not give it: the data of the windows are never produced, the
task has one field only, and the first program that is not rejected for its terms ends the search with an IndexError – whatever the parameters, the data and the solver. -/
theorem C197_never_counterexample {K P : Type} [Field K] (params : P) (run : List String → TermVal K) (small large : K → Bool)
    (lstsq : List (List K) → List K → Option (List K)) (c : Cfg) (tr : List String) (terms : List (List String)) (ut : List K) :
    (∀ cols, evaluateTerms c run tr terms = .ok cols →
      execute small large lstsq c (task (some params) run).1 (task (some params) run).2 tr terms ut = .indexError) ∧
    execute small large lstsq c (task (none : Option P) run).1 (task (none : Option P) run).2 tr terms ut = ofResult (calculate small large lstsq c run tr terms ut) := by
  constructor
  · intro cols h
    simp [task, execute, h]
  · simp [task, execute]

/-! ## The rule of the program: five nodes -/

/-- The five nodes and weights of `leggauss(5)`, the default. -/
noncomputable def gauss5 : Rule ℝ :=
  let a := √((35 - 2 * √70) / 63)
  let b := √((35 + 2 * √70) / 63)
  ⟨[-b, -a, 0, a, b], [(322 - 13 * √70) / 900, (322 + 13 * √70) / 900, 128 / 225, (322 + 13 * √70) / 900, (322 - 13 * √70) / 900]⟩

/-- **C197** (default rule): the five-node rule integrates the derivatives of fluxes of degree up to 10 exactly, so that the hypothesis of `C197_exact` and
`C197_recovers_partial` is met with the default of the program. -/
theorem C197_gauss : Exact gauss5 10 := by
  have hs : √70 ^ 2 = (70 : ℝ) := Real.sq_sqrt (by norm_num)
  have h0 : (0 : ℝ) ≤ √70 := Real.sqrt_nonneg _
  have hs9 : √70 ≤ (9 : ℝ) := by rw [Real.sqrt_le_left (by norm_num)]; norm_num
  have ha : √((35 - 2 * √70) / 63) ^ 2 = (35 - 2 * √70) / 63 := Real.sq_sqrt (by apply div_nonneg <;> linarith)
  have hb : √((35 + 2 * √70) / 63) ^ 2 = (35 + 2 * √70) / 63 := Real.sq_sqrt (by apply div_nonneg <;> linarith)
  refine ⟨rfl, by simp [gauss5], fun p hp => ?_⟩
  simp only [gauss5]
  generalize √((35 - 2 * √70) / 63) = a at ha
  generalize √((35 + 2 * √70) / 63) = b at hb
  generalize (√70 : ℝ) = s at hs ha hb
  clear h0 hs9
  have M1 : 2 * ((322 + 13 * s) / 900 * a ^ 2 + (322 - 13 * s) / 900 * b ^ 2) = 2 / 3 := by
    rw [ha, hb]; linear_combination (-26 / 14175 : ℝ) * hs
  have M2 : 2 * ((322 + 13 * s) / 900 * a ^ 4 + (322 - 13 * s) / 900 * b ^ 4) = 2 / 5 := by
    rw [show a ^ 4 = (a ^ 2) ^ 2 by ring, show b ^ 4 = (b ^ 2) ^ 2 by ring, ha, hb]
    linear_combination (-76 / 127575 : ℝ) * hs
  have M3 : 2 * ((322 + 13 * s) / 900 * a ^ 6 + (322 - 13 * s) / 900 * b ^ 6) = 2 / 7 := by
    rw [show a ^ 6 = (a ^ 2) ^ 3 by ring, show b ^ 6 = (b ^ 2) ^ 3 by ring, ha, hb]
    linear_combination ((926 / 1607445 : ℝ) + (-104 / 56260575) * s ^ 2) * hs
  have M4 : 2 * ((322 + 13 * s) / 900 * a ^ 8 + (322 - 13 * s) / 900 * b ^ 8) = 2 / 9 := by
    rw [show a ^ 8 = (a ^ 2) ^ 4 by ring, show b ^ 8 = (b ^ 2) ^ 4 by ring, ha, hb]
    linear_combination ((2536 / 2066715 : ℝ) + (-64 / 24111675) * s ^ 2) * hs
  clear ha hb hs
  rw [p.as_sum_range_C_mul_X_pow' (show p.natDegree < 11 by omega)]
  generalize p.coeff = k
  simp only [Finset.sum_range_succ, Finset.sum_range_zero, zero_add, derivative_add, derivative_C_mul_X_pow, eval_add, eval_mul, eval_C, eval_pow, eval_X,
    List.zip_cons_cons, List.zip_nil_right, List.map_cons, List.map_nil, List.sum_cons, List.sum_nil, add_zero, derivative_C_mul, derivative_X_pow]
  norm_num
  linear_combination 3 * k 3 * M1 + 5 * k 5 * M2 + 7 * k 7 * M3 + 9 * k 9 * M4

/-- The hypotheses of `C197_recovers_partial` on a case: `u_t = 3 u_x` with u = x² at all times (as far as the windows see it), the one-node rule of degree 2, terms u. -/
example : Exact (⟨[0], [2]⟩ : Rule ℚ) 2 ∧ (∀ t : ℚ, ((fun _ => C 3 * X ^ 2 : ℚ → ℚ[X]) t).natDegree ≤ 2) ∧
    (∀ x t : ℚ, ((fun _ => C 3 * X ^ 2 : ℚ → ℚ[X]) t).eval x = (([["u1"]].zip [(3 : ℚ)]).map fun p => (fun (_ : List String) (x _ : ℚ) => x ^ 2) p.1 x t * p.2).sum) ∧
    (regulations {} ["u1"] [["u1"]]).2 = [] := by
  refine ⟨⟨rfl, by simp, fun p hp => ?_⟩, fun t => ?_, fun x t => ?_, by decide +kernel⟩
  · rw [p.as_sum_range_C_mul_X_pow' (show p.natDegree < 3 by omega)]
    generalize p.coeff = k
    simp only [Finset.sum_range_succ, Finset.sum_range_zero, zero_add, derivative_add, eval_add, eval_mul, eval_C, eval_pow, eval_X,
      List.zip_cons_cons, List.zip_nil_right, List.map_cons, List.map_nil, List.sum_cons, List.sum_nil, add_zero, derivative_C_mul, derivative_X_pow]
    norm_num
    ring
  · exact le_trans (natDegree_C_mul_le _ _) (by simp)
  · simp; ring

/-- … and the fit: windows of width 2 around 0 and 1 at time 0; the left-hand side is 6x integrated over the windows, and the fit gives the coefficient 3. -/
example : ∃ d : Data ℚ ℚ, weakFormCal (⟨⟨[0], [2]⟩, 2⟩ : Evaluate ℚ) 0 0 1 0 2 1 (fun x _ => x ^ 2) (fun x _ => 6 * x) = some d ∧ d.ut = [0, 12] ∧
    d.u = [[1, 4], [1, 0]] ∧ columns (fun _ x _ => x ^ 2) 2 (centres 0 0 1 0 2 1 : List (ℚ × ℚ)) [["u1"]] = [[0, 4]] :=
  ⟨⟨[[(1, 0), (2, 0)], [(-1, 0), (0, 0)]], [[1, 4], [1, 0]], [0, 12]⟩, by decide +kernel, rfl, rfl, by decide +kernel⟩

end Verif.Discover.Weak.Claims
