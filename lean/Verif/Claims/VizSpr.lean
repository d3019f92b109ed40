import Verif.Viz.Spr
import Verif.Claims.SprRun
import Verif.Claims.VizData
import Mathlib.Tactic.Linarith
import Mathlib.Tactic.NormNum
import Mathlib.Tactic.FieldSimp
import Mathlib.Algebra.Order.Field.Rat
/-!
# C184: the figures of the sparse mode
-/
namespace Verif.Claims.VizSpr
open Verif.Discover Verif.Discover.Search Verif.Discover.Pinn Verif.Discover.Pinn.Claims Verif.Discover.SprRun Verif.Discover.SprRun.Claims
  Verif.Discover.Search.Claims Verif.Viz.Spr Verif.Viz.Data Verif.Viz.Data.Claims

/-! ## Specification -/

/-- The terms of an equation are evaluated point by point: `g l w p` are the values of the terms of `l` at the point `p` for the network with weights `w`. -/
def Pointwise {W O : Type} (S : Setting W O) (g : List Nat → W → List ℚ → List ℚ) : Prop :=
  ∀ l w c, (S.vals l w c).map (·.2) = c.rows.map (g l w)

/-- The right-hand side of an equation at a point. -/
def rightSide (terms coefs : List ℚ) : ℚ := (List.zipWith (· * ·) terms coefs).sum

/-! ## The residual figure -/

theorem prediction_valid {W O : Type} {S : Setting W O} {g : List Nat → W → List ℚ → List ℚ} (hg : Pointwise S g) (n : State W O) (data : Meta) (l : List Nat)
    (hv : (S.score data l).invalid = false) :
    prediction S n data l = some (data.pts.rows.map fun p => rightSide (g l n.w p) (S.fitted data l)) := by
  unfold prediction
  rw [if_neg (by simp [hv])]
  have h := hg l n.w data.pts
  have : ((S.vals l n.w data.pts).map fun p => (List.zipWith (· * ·) p.2 (coefs S data l)).sum) =
      ((S.vals l n.w data.pts).map (·.2)).map fun q => rightSide q (S.fitted data l) := by
    rw [List.map_map]
    apply List.map_congr_left
    intro p _
    simp [rightSide, coefs, hv]
  rw [this, h, List.map_map]
  rfl

open Classical in
/-- **C184** (what is drawn): after a run with at least one round the figure `spr_residual` shows one dot for every collocation point inside the quantiles: its
actual value is the time derivative of the network as the run left it, its predicted value the right-hand side of the equation of the last round, with the
coefficients of that round and the terms of the network *before* its last training; the histogram has the differences.  If that equation is invalid there is no
figure. -/
theorem C184_shown {W O : Type} (S : Setting W O) (ps : List Prior) (L : Nat) (draws : Nat → Draws) (hP : Proper S ps L draws) (n : State W O)
    (out : Outcome W O) (h : run S draws n = some out) (w : Nat) (hw : 0 < w) (s : Adapter.Sparse) (hd : n.data = importData w s)
    (t1 : Table w (s.train.map Prod.fst)) (t2 : Table w (s.val.map Prod.fst)) (t3 : Table w s.colloc)
    (g : List Nat → W → List ℚ → List ℚ) (hg : Pointwise S g) (r : Round W O) (hr : out.log.getLast? = some r) :
    let points := s.colloc.filter fun r => decide (Kept S.cut (split w s.colloc) r)
    let old := fun p => rightSide (g r.used r.net.w p) (S.fitted r.data r.used)
    ((S.score r.data r.used).invalid = true → (residualFigure S out).isNone) ∧
    ((S.score r.data r.used).invalid = false → points ≠ [] →
      ∃ f, residualFigure S out = some f ∧ f.points = points.map (fun p => ((S.field out.net.w).dt p, old p)) ∧
        f.residuals = points.map fun p => ((S.field out.net.w).dt p).map (· - old p)) := by
  intro points old
  obtain ⟨_, _, c3, ⟨c4, _, c6⟩, _⟩ := C182_network S ps L draws hP n out h w hw s hd t1 t2 t3
  have hm : r ∈ out.log := List.mem_of_getLast? hr
  obtain ⟨d1, d2, d3⟩ := c3 r hm
  constructor
  · intro hi
    simp [residualFigure, shownPrediction, hr, prediction, hi, calculate]
  · intro hv hne
    have hp : shownPrediction S out = some (points.map old) := by
      simp only [shownPrediction, hr]
      rw [prediction_valid hg r.net r.data r.used hv, d1]
    have hlen : (points.map old).length = out.data.ut.length := by rw [c6]; simp [points]
    have he : points.map old ≠ [] := by simpa using hne
    refine ⟨⟨out.data.ut.zip (points.map old), List.zipWith (fun a b => a.map (· - b)) out.data.ut (points.map old)⟩, ?_, ?_, ?_⟩
    · simp only [residualFigure, hp, calculate, if_pos hlen, Option.bind_some, sprResidual, if_neg he]
    · show out.data.ut.zip (points.map old) = _
      rw [c6]
      exact List.zip_map'
    · show List.zipWith _ out.data.ut (points.map old) = _
      rw [c6, ← List.map_uncurry_zip_eq_zipWith, List.zip_map', List.map_map]
      rfl

open Classical in
/-- **C184** (partial): the figure is right for the equation of the last round, evaluated by the network as it is, if the last training left the network's terms
at the points as they were. -/
theorem C184_residual_partial {W O : Type} (S : Setting W O) (ps : List Prior) (L : Nat) (draws : Nat → Draws) (hP : Proper S ps L draws) (n : State W O)
    (out : Outcome W O) (h : run S draws n = some out) (w : Nat) (hw : 0 < w) (s : Adapter.Sparse) (hd : n.data = importData w s)
    (t1 : Table w (s.train.map Prod.fst)) (t2 : Table w (s.val.map Prod.fst)) (t3 : Table w s.colloc)
    (g : List Nat → W → List ℚ → List ℚ) (hg : Pointwise S g) (r : Round W O) (hr : out.log.getLast? = some r)
    (hv : (S.score r.data r.used).invalid = false) (hsame : ∀ p ∈ s.colloc, g r.used r.net.w p = g r.used out.net.w p) (f : Scatter)
    (hf : residualFigure S out = some f) :
    f.residuals = (s.colloc.filter fun r => decide (Kept S.cut (split w s.colloc) r)).map
      fun p => ((S.field out.net.w).dt p).map (· - rightSide (g r.used out.net.w p) (S.fitted r.data r.used)) := by
  have key := (C184_shown S ps L draws hP n out h w hw s hd t1 t2 t3 g hg r hr).2 hv
  by_cases hne : (s.colloc.filter fun r => decide (Kept S.cut (split w s.colloc) r)) = []
  · obtain ⟨_, _, c3, ⟨c4, _, c6⟩, _⟩ := C182_network S ps L draws hP n out h w hw s hd t1 t2 t3
    obtain ⟨d1, _⟩ := c3 r (List.mem_of_getLast? hr)
    have hp : shownPrediction S out = some [] := by
      simp only [shownPrediction, hr]
      rw [prediction_valid hg r.net r.data r.used hv, d1, hne]
      rfl
    simp [residualFigure, hp, calculate, sprResidual, c6, hne] at hf
  · obtain ⟨f', e1, _, e3⟩ := key hne
    rw [hf] at e1
    cases e1
    rw [e3]
    apply List.map_congr_left
    intro p hp
    simp only [hsame p (List.mem_filter.1 hp).1]

/-- The run of C182 with the network whose time derivative is its value, and equations with the value as their only term: the coefficient is one. -/
def exGrowth : Setting Nat Nat :=
  { exSetting with field := fun w => ⟨fun _ => some w, fun _ => some w⟩, vals := fun _ w c => c.rows.map fun _ => ((w : ℚ), [(w : ℚ)]) }

/-- **C184** fails: the equation shown is not the one reported, and although the network satisfies both exactly, u_t = u with residual zero, the residual shown is
three at every point. -/
theorem C184_stale_counterexample : (run exGrowth exDraws exNet).map (fun o => (o.result, o.log.getLast?.map (·.used), o.net.w)) =
    some ([1, 4, 3], some [0, 4, 1, 4, 3], 6) ∧
    (run exGrowth exDraws exNet).bind (fun o => (residualFigure exGrowth o).map fun f => (f.points, f.residuals)) = some ([(some 6, 3)], [some 3]) ∧
    (∀ (l : List Nat) (data : Meta), exGrowth.fitted data l = [1]) ∧
    ∀ (l : List Nat) (w : Nat) (c : Cols), ∀ q ∈ exGrowth.vals l w c, rightSide q.2 [1] = q.1 ∧ ∀ p, (exGrowth.field w).dt p = some q.1 := by
  refine ⟨by decide +kernel, by decide +kernel, fun _ _ => rfl, ?_⟩
  intro l w c q hq
  simp only [exGrowth, List.mem_map] at hq
  obtain ⟨_, _, rfl⟩ := hq
  exact ⟨by simp [rightSide], fun _ => rfl⟩

/-- The same without training of the network with the equations. -/
def exStill : Setting Nat Nat := { exGrowth with epochs := 0 }

/-- The run meets the hypotheses of `C184_shown`; without training also those of `C184_residual_partial`, and the residual shown is the right one, zero. -/
theorem C184_hypotheses : Proper exGrowth exPs 8 exDraws ∧ Pointwise exGrowth (fun _ w _ => [(w : ℚ)]) ∧ Proper exStill exPs 8 exDraws ∧
    Pointwise exStill (fun _ w _ => [(w : ℚ)]) ∧
    (run exStill exDraws exNet).map (fun o => (o.net.w, o.log.getLast?.map fun r => (r.net.w, (exStill.score r.data r.used).invalid),
      (residualFigure exStill o).map (·.residuals))) = some (0, some (0, false), some [some 0]) := by
  obtain ⟨h, _⟩ := C182_hypotheses
  refine ⟨⟨h.env, h.room, h.setup, h.score, h.rows⟩, ?_, ⟨h.env, h.room, h.setup, h.score, h.rows⟩, ?_, by decide +kernel⟩ <;>
    (intro l w c; simp [exGrowth, exStill])

/-! ## The field figures -/

theorem low_spec {l : List ℚ} (h : l ≠ []) : low l ∈ l ∧ ∀ v ∈ l, low l ≤ v := by
  cases l with
  | nil => exact absurd rfl h
  | cons a r => exact minL_spec r a

theorem high_spec {l : List ℚ} (h : l ≠ []) : high l ∈ l ∧ ∀ v ∈ l, v ≤ high l := by
  cases l with
  | nil => exact absurd rfl h
  | cons a r => exact maxL_spec r a

theorem low_le_high {l : List ℚ} (h : l ≠ []) : low l ≤ high l := (low_spec h).2 _ (high_spec h).1

/-- An axis from the smallest to the largest coordinate with `n` evenly spaced numbers. -/
structure Spans (n : Nat) (l axis : List ℚ) : Prop where
  length : axis.length = n
  first : ∃ a, axis[0]? = some a ∧ a ∈ l ∧ ∀ v ∈ l, a ≤ v
  last : ∃ b, axis[n - 1]? = some b ∧ b ∈ l ∧ ∀ v ∈ l, v ≤ b
  even : ∀ (i : Nat) a b c, axis[i]? = some a → axis[i + 1]? = some b → axis[i + 2]? = some c → b - a = c - b

theorem axis_get (n : Nat) (l : List ℚ) (i : Nat) (a : ℚ) (h : (axis n l)[i]? = some a) : i < n ∧ a = linspace (low l) (high l) n i := by
  simp only [axis, List.getElem?_map, Option.map_eq_some_iff] at h
  obtain ⟨k, hk, rfl⟩ := h
  obtain ⟨h1, h2⟩ := List.getElem?_eq_some_iff.1 hk
  simp at h1 h2
  subst h2
  exact ⟨h1, rfl⟩

theorem axis_spans (n : Nat) (hn : 2 ≤ n) (l : List ℚ) (hl : l ≠ []) : Spans n l (axis n l) := by
  have hn' : ((n : ℚ) - 1) ≠ 0 := by
    have : (2 : ℚ) ≤ n := by exact_mod_cast hn
    linarith
  refine ⟨by simp [axis], ⟨low l, ?_, low_spec hl⟩, ⟨high l, ?_, high_spec hl⟩, ?_⟩
  · simp only [axis, List.getElem?_map, List.getElem?_range (show 0 < n by omega), Option.map_some]
    simp [linspace]
  · simp only [axis, List.getElem?_map, List.getElem?_range (show n - 1 < n by omega), Option.map_some]
    congr 1
    unfold linspace
    rw [Nat.cast_sub (by omega)]
    push_cast
    field_simp
    ring
  · intro i a b c ha hb hc
    obtain ⟨_, rfl⟩ := axis_get _ _ _ _ ha
    obtain ⟨_, rfl⟩ := axis_get _ _ _ _ hb
    obtain ⟨_, rfl⟩ := axis_get _ _ _ _ hc
    unfold linspace
    push_cast
    ring

/-- What a heat map shows at a position: the interpolated value, zero where there is none. -/
def Draws0 (m : Map) (interp : ℚ × ℚ → Fl) : Prop :=
  ∀ (i j : Nat) a b, m.rows[i]? = some a → m.cols[j]? = some b → m.value i j = some ((interp (a, b)).getD 0)

theorem gridMap_draws (interp : Interp) (n : Nat) (a b : List ℚ) (pts : List (ℚ × ℚ)) (v : List Fl) : Draws0 (gridMap interp n a b pts v) (interp pts v) := by
  intro i j p q hp hq
  obtain ⟨_, rfl⟩ := axis_get _ _ _ _ hp
  obtain ⟨_, rfl⟩ := axis_get _ _ _ _ hq
  show nanToNum _ = _
  cases interp pts v _ <;> rfl

/-- **C184** (fields, one space dimension): both fields are drawn over space and time from the smallest to the largest coordinate; at every position the
true field is interpolated from the left-hand sides and the predicted field from the right-hand sides at the same points. -/
theorem C184_field (interp : Interp) (f : Fields) (x : List ℚ) (hx : f.pts.x = [x]) (hl : x.length = f.pts.t.length) (hne : f.pts.t ≠ []) :
    ∃ a b, fieldOne interp f = some (a, b) ∧ Spans 100 x a.rows ∧ Spans 100 f.pts.t a.cols ∧ b.rows = a.rows ∧ b.cols = a.cols ∧
      Draws0 a (interp (x.zip f.pts.t) f.yTrue) ∧ Draws0 b (interp (x.zip f.pts.t) (f.yPred.map some)) := by
  have hx' : x ≠ [] := by
    intro h
    rw [h] at hl
    exact hne (List.length_eq_zero_iff.1 hl.symm)
  refine ⟨gridMap interp 100 x f.pts.t (x.zip f.pts.t) f.yTrue, gridMap interp 100 x f.pts.t (x.zip f.pts.t) (f.yPred.map some),
    by simp only [fieldOne, hx, if_neg hne], axis_spans 100 (by omega) x hx', axis_spans 100 (by omega) _ hne, rfl, rfl,
    gridMap_draws _ _ _ _ _ _, gridMap_draws _ _ _ _ _ _⟩

/-- What interpolation has to do at the points themselves. -/
def Exact (interp : Interp) : Prop := ∀ pts v (k : Nat) p y, pts.Nodup → v.length = pts.length → pts[k]? = some p → v[k]? = some y → interp pts v p = y

/-- **C184** (fields at the points): a point at a position of the grid is drawn with its own value. -/
theorem C184_field_points (interp : Interp) (hi : Exact interp) (f : Fields) (x : List ℚ) (hx : f.pts.x = [x]) (hl : x.length = f.pts.t.length)
    (hd : (x.zip f.pts.t).Nodup) (hy : f.yTrue.length = x.length) (a b : Map) (hf : fieldOne interp f = some (a, b)) (k i j : Nat) (p q : ℚ) (y : ℚ)
    (hp : x[k]? = some p) (hq : f.pts.t[k]? = some q) (hv : f.yTrue[k]? = some (some y)) (hr : a.rows[i]? = some p) (hc : a.cols[j]? = some q) :
    a.value i j = some y := by
  have hne : f.pts.t ≠ [] := by
    intro h
    rw [h] at hq
    simp at hq
  obtain ⟨a', b', e, _, _, _, _, d1, _⟩ := C184_field interp f x hx hl hne
  rw [hf] at e
  cases e
  rw [d1 i j p q hr hc, hi (x.zip f.pts.t) f.yTrue k (p, q) (some y) hd (by simp [hy, hl]) (by simp [List.getElem?_zip_eq_some, hp, hq]) hv]
  rfl

/-- An interpolation that is exact at the points and has no value elsewhere. -/
def lookupInterp : Interp := fun pts v p => (v[pts.idxOf p]?).getD none

theorem lookup_exact : Exact lookupInterp := by
  intro pts v k p y hn hl hp hv
  obtain ⟨h1, rfl⟩ := List.getElem?_eq_some_iff.1 hp
  simp [lookupInterp, hn.idxOf_getElem k h1, hv]

/-- Four points at the corners of the unit square meet the hypotheses; the point (1, 0) is drawn with its value at the corner, a position between has none. -/
example : let f : Fields := ⟨⟨[[0, 1, 0, 1]], [0, 0, 1, 1]⟩, [some 5, some 6, some 7, some 8], [1, 2, 3, 4]⟩
    ([0, 1, 0, 1].zip f.pts.t).Nodup ∧ (∃ a b, fieldOne lookupInterp f = some (a, b) ∧ a.rows[99]? = some 1 ∧ a.cols[0]? = some 0 ∧ a.value 99 0 = some 6 ∧
      b.value 99 0 = some 2) := by
  refine ⟨by decide +kernel, _, _, rfl, ?_, ?_, ?_, ?_⟩
  · norm_num [gridMap, axis, linspace, low, high, minL, maxL]
  · norm_num [gridMap, axis, linspace, low, high, minL, maxL]
  · norm_num [gridMap, linspace, low, high, minL, maxL, lookupInterp, nanToNum, List.idxOf_cons]
    rfl
  · norm_num [gridMap, linspace, low, high, minL, maxL, lookupInterp, nanToNum, List.idxOf_cons]
    rfl

/-- **C184** fails outside the points: where interpolation gives no value (NaN) the fields are drawn as zero. -/
theorem C184_zero_counterexample (interp : Interp) (f : Fields) (x : List ℚ) (hx : f.pts.x = [x]) (a b : Map) (hf : fieldOne interp f = some (a, b))
    (i j : Nat) (p q : ℚ) (hr : a.rows[i]? = some p) (hc : a.cols[j]? = some q) (hn : interp (x.zip f.pts.t) f.yTrue (p, q) = none) :
    a.value i j = some 0 := by
  have hne : f.pts.t ≠ [] := by
    intro h
    simp [fieldOne, hx, h] at hf
  have e : fieldOne interp f = some (gridMap interp 100 x f.pts.t (x.zip f.pts.t) f.yTrue, gridMap interp 100 x f.pts.t (x.zip f.pts.t) (f.yPred.map some)) := by
    simp only [fieldOne, hx, if_neg hne]
  rw [hf] at e
  cases e
  rw [gridMap_draws interp 100 x f.pts.t (x.zip f.pts.t) f.yTrue i j p q hr hc, hn]
  rfl

/-! ### Several space dimensions -/

theorem edge_eq (t : List ℚ) (i : Nat) : edge t i = low t + (high t - low t) * i / 5 := by
  unfold edge linspace
  norm_num

/-- **C184** (time bins): every point of time is in one of the five bins; if the bins are wider than the tolerance of `isclose` at the last time, in one only: bin `i` has
the times in the `i`-th fifth of the span without its end, the last also the last time. -/
theorem C184_bins (t : List ℚ) (v : ℚ) (hv : v ∈ t) :
    (∃ i < 5, inBin t i v = true) ∧
    (1 / 10 ^ 8 + 1 / 10 ^ 5 * |high t| < (high t - low t) / 5 → (∀ i < 5, ∀ j < 5, inBin t i v = true → inBin t j v = true → i = j) ∧
      ∀ i < 5, inBin t i v = true ↔
        low t + (high t - low t) * i / 5 ≤ v ∧ (v < low t + (high t - low t) * (i + 1) / 5 ∨ i = 4 ∧ v = high t)) := by
  have hne : t ≠ [] := List.ne_nil_of_mem hv
  have h1 := (low_spec hne).2 v hv
  have h2 := (high_spec hne).2 v hv
  have hlh := low_le_high hne
  have e0 := edge_eq t 0
  have e1 := edge_eq t 1
  have e2 := edge_eq t 2
  have e3 := edge_eq t 3
  have e4 := edge_eq t 4
  have e5 := edge_eq t 5
  norm_num at e0 e1 e2 e3 e4 e5
  have e5' : edge t 5 = high t := e5
  constructor
  · by_cases c1 : v < edge t 1
    · exact ⟨0, by omega, by simp only [inBin, c1, e0, h1]; rfl⟩
    by_cases c2 : v < edge t 2
    · exact ⟨1, by omega, by simp [inBin, c2]; linarith⟩
    by_cases c3 : v < edge t 3
    · exact ⟨2, by omega, by simp [inBin, c3]; linarith⟩
    by_cases c4 : v < edge t 4
    · exact ⟨3, by omega, by simp [inBin, c4]; linarith⟩
    refine ⟨4, by omega, ?_⟩
    by_cases c5 : v < edge t 5
    · simp [inBin, c5]; left; linarith
    · have : v = edge t 5 := by linarith
      have hc : isclose v (edge t 5) = true := by
        rw [this]
        simp only [isclose, sub_self, abs_zero, decide_eq_true_eq]
        have := abs_nonneg (edge t 5)
        linarith
      simp [inBin, hc]
  · intro hw
    have hcl : isclose v (edge t 5) = true → edge t 4 ≤ v := by
      intro hc
      simp only [isclose, decide_eq_true_eq, e5'] at hc
      have := (abs_le.1 hc).1
      linarith
    have hb : ∀ i < 5, inBin t i v = true → edge t i ≤ v ∧ (i < 4 → v < edge t (i + 1)) := by
      intro i hi h
      simp only [inBin, Bool.or_eq_true, Bool.and_eq_true, decide_eq_true_eq, beq_iff_eq] at h
      rcases h with ⟨a, b⟩ | ⟨rfl, c⟩
      · exact ⟨a, fun _ => b⟩
      · exact ⟨hcl c, fun h => absurd h (by omega)⟩
    have mono : ∀ i j : Nat, i ≤ j → edge t i ≤ edge t j := by
      intro i j hij
      rw [edge_eq, edge_eq]
      have : (i : ℚ) ≤ j := by exact_mod_cast hij
      have : (high t - low t) * i ≤ (high t - low t) * j := mul_le_mul_of_nonneg_left this (by linarith)
      linarith
    have key : ∀ i < 5, ∀ j < 5, inBin t i v = true → inBin t j v = true → ¬ i < j := by
      intro i hi j hj a b hlt
      have x1 := (hb i hi a).2 (by omega)
      have x2 := (hb j hj b).1
      have x3 := mono (i + 1) j hlt
      linarith
    refine ⟨?_, ?_⟩
    · intro i hi j hj a b
      have := key i hi j hj a b
      have := key j hj i hi b a
      omega
    · intro i hi
      have ei := edge_eq t i
      have ei1 := edge_eq t (i + 1)
      push_cast at ei1
      rw [← ei, ← ei1]
      constructor
      · intro h
        have hh := h
        simp only [inBin, Bool.or_eq_true, Bool.and_eq_true, decide_eq_true_eq, beq_iff_eq] at h
        rcases h with ⟨a, b⟩ | ⟨rfl, c⟩
        · exact ⟨a, .inl b⟩
        · refine ⟨hcl c, ?_⟩
          rcases lt_or_eq_of_le h2 with h | h
          · exact .inl (by show v < edge t 5; rw [e5']; exact h)
          · exact .inr ⟨rfl, h⟩
      · rintro ⟨a, b | ⟨rfl, b⟩⟩
        · simp only [inBin, a, b, decide_true, Bool.and_true, Bool.true_or]
        · have hc : isclose v (edge t 5) = true := by
            rw [e5', b]
            simp only [isclose, sub_self, abs_zero, decide_eq_true_eq]
            have := abs_nonneg (high t)
            linarith
          simp only [inBin, hc, beq_self_eq_true, Bool.and_true, Bool.or_true]

/-- **C184** fails for the bins when the time span is short compared with the times: with times from 1000000 to 1000005 the first point is also in the last bin. -/
theorem C184_bins_counterexample : let t : List ℚ := [1000000, 1000001, 1000002, 1000003, 1000004, 1000005]
    inBin t 0 1000000 = true ∧ inBin t 4 1000000 = true := by
  norm_num [inBin, edge, linspace, low, high, minL, maxL, isclose, abs_of_nonneg, abs_of_neg]

/-- The numbers of the points with times in a bin, and the values at them. -/
theorem pick_spec {α : Type} (d : α) (l : List α) (ks : List Nat) (hk : ∀ k ∈ ks, k < l.length) (m : Nat) (k : Nat) (h : ks[m]? = some k) :
    (pickAt d l ks)[m]? = l[k]? := by
  have := hk k (List.mem_of_getElem? h)
  simp [pickAt, h, List.getElem?_eq_getElem this]

/-- **C184** (fields, more space dimensions): three panels, for the first, the middle and the last fifth of the time span; the title has the middle of the time
of the panel; a panel with at least four points shows the fields interpolated, over the first two space axes, from the points with times in its bin, each
with its own coordinates and values; other panels are empty. -/
theorem C184_panels (interp : Interp) (f : Fields) (x y : List ℚ) (more : List (List ℚ)) (hx : f.pts.x = x :: y :: more) (hne : f.pts.t ≠ [])
    (hlx : x.length = f.pts.t.length) (hly : y.length = f.pts.t.length) (hlt : f.yTrue.length = f.pts.t.length) (hlp : f.yPred.length = f.pts.t.length) :
    ∃ ps, fieldNd interp f = some ps ∧ ps.length = 3 ∧ ∀ (m i : Nat), [0, 2, 4][m]? = some i → ∃ c a b, ps[m]? = some (c, a, b) ∧
      c = low f.pts.t + (high f.pts.t - low f.pts.t) * (2 * i + 1) / 10 ∧ Spans 50 x a.rows ∧ Spans 50 y a.cols ∧ b.rows = a.rows ∧ b.cols = a.cols ∧
      ((binPoints f.pts.t i).length < 4 → ∀ r s, a.value r s = none ∧ b.value r s = none) ∧
      (4 ≤ (binPoints f.pts.t i).length → ∃ pts v w, Draws0 a (interp pts v) ∧ Draws0 b (interp pts w) ∧
        pts.length = (binPoints f.pts.t i).length ∧ v.length = pts.length ∧ w.length = pts.length ∧
        ∀ (n k : Nat), (binPoints f.pts.t i)[n]? = some k → ∃ p q, x[k]? = some p ∧ y[k]? = some q ∧ pts[n]? = some (p, q) ∧ v[n]? = f.yTrue[k]? ∧
          w[n]? = (f.yPred.map some)[k]?) ∧
      (∀ k, k ∈ binPoints f.pts.t i ↔ ∃ τ, f.pts.t[k]? = some τ ∧ inBin f.pts.t i τ = true) := by
  have hxne : x ≠ [] := by
    intro h; rw [h] at hlx; exact hne (List.length_eq_zero_iff.1 hlx.symm)
  have hyne : y ≠ [] := by
    intro h; rw [h] at hly; exact hne (List.length_eq_zero_iff.1 hly.symm)
  refine ⟨[0, 2, 4].map fun i => (center f.pts.t i, binMap interp f x y f.yTrue i, binMap interp f x y (f.yPred.map some) i),
    by simp only [fieldNd, hx, if_neg hne], by simp, ?_⟩
  intro m i hm
  have hmem : ∀ k, k ∈ binPoints f.pts.t i ↔ ∃ τ, f.pts.t[k]? = some τ ∧ inBin f.pts.t i τ = true := by
    intro k
    simp only [binPoints, List.mem_filter, List.mem_range]
    constructor
    · rintro ⟨h1, h2⟩
      rw [List.getElem?_eq_getElem h1] at h2
      exact ⟨_, List.getElem?_eq_getElem h1, h2⟩
    · rintro ⟨τ, h1, h2⟩
      exact ⟨(List.getElem?_eq_some_iff.1 h1).1, by rw [h1]; exact h2⟩
  have hlt' : ∀ k ∈ binPoints f.pts.t i, k < f.pts.t.length := by
    intro k hk
    obtain ⟨τ, h1, _⟩ := (hmem k).1 hk
    exact (List.getElem?_eq_some_iff.1 h1).1
  have hrows : ∀ v, (binMap interp f x y v i).rows = axis 50 x ∧ (binMap interp f x y v i).cols = axis 50 y := by
    intro v
    unfold binMap
    simp only
    split <;> exact ⟨rfl, rfl⟩
  have hdraw : 4 ≤ (binPoints f.pts.t i).length → ∀ v, Draws0 (binMap interp f x y v i)
      (interp ((pickAt 0 x (binPoints f.pts.t i)).zip (pickAt 0 y (binPoints f.pts.t i))) (pickAt none v (binPoints f.pts.t i))) := by
    intro h4 v r s p q hp hq
    rw [(hrows v).1] at hp
    rw [(hrows v).2] at hq
    obtain ⟨_, rfl⟩ := axis_get _ _ _ _ hp
    obtain ⟨_, rfl⟩ := axis_get _ _ _ _ hq
    have e : binMap interp f x y v i = ⟨axis 50 x, axis 50 y, fun a b => nanToNum (interp ((pickAt 0 x (binPoints f.pts.t i)).zip (pickAt 0 y (binPoints f.pts.t i)))
        (pickAt none v (binPoints f.pts.t i)) (linspace (low x) (high x) 50 a, linspace (low y) (high y) 50 b))⟩ := by
      simp only [binMap, if_neg (show ¬ (binPoints f.pts.t i).length < 4 by omega)]
    rw [e]
    show nanToNum _ = _
    cases interp _ _ _ <;> rfl
  refine ⟨center f.pts.t i, binMap interp f x y f.yTrue i, binMap interp f x y (f.yPred.map some) i, ?_, ?_, ?_, ?_, ?_, ?_, ?_, ?_, hmem⟩
  · rw [List.getElem?_map, hm]; rfl
  · simp only [center, edge_eq]
    push_cast
    ring
  · rw [(hrows _).1]; exact axis_spans 50 (by omega) x hxne
  · rw [(hrows _).2]; exact axis_spans 50 (by omega) y hyne
  · rw [(hrows _).1, (hrows _).1]
  · rw [(hrows _).2, (hrows _).2]
  · intro h r s
    simp only [binMap, if_pos h]
    exact ⟨trivial, trivial⟩
  · intro h4
    refine ⟨_, _, _, hdraw h4 _, hdraw h4 _, by simp [pickAt], by simp [pickAt], by simp [pickAt], ?_⟩
    intro n k hn
    have hk := hlt' k (List.mem_of_getElem? hn)
    have hkx : x[k]? = some (x[k]'(by omega)) := List.getElem?_eq_getElem _
    have hky : y[k]? = some (y[k]'(by omega)) := List.getElem?_eq_getElem _
    refine ⟨_, _, hkx, hky, ?_, ?_, ?_⟩
    · rw [List.getElem?_zip_eq_some, pick_spec 0 x _ (fun k h => by rw [hlx]; exact hlt' k h) n k hn,
        pick_spec 0 y _ (fun k h => by rw [hly]; exact hlt' k h) n k hn]
      exact ⟨hkx, hky⟩
    · exact pick_spec none f.yTrue _ (fun k h => by rw [hlt]; exact hlt' k h) n k hn
    · exact pick_spec none (f.yPred.map some) _ (fun k h => by rw [List.length_map, hlp]; exact hlt' k h) n k hn

/-- Points in two space dimensions at five times, four points at the first: the bins wider than the tolerance, four points in the first bin. -/
example : let t : List ℚ := [0, 0, 0, 0, 5]
    1 / 10 ^ 8 + 1 / 10 ^ 5 * |high t| < (high t - low t) / 5 ∧ binPoints t 0 = [0, 1, 2, 3] ∧ binPoints t 2 = [] ∧ binPoints t 4 = [4] := by
  refine ⟨?_, ?_, ?_, ?_⟩
  · norm_num [low, high, minL, maxL]
  all_goals norm_num [binPoints, List.range_succ, List.filter, inBin, edge, linspace, low, high, minL, maxL, isclose]
  all_goals rfl

/-! ### The older functions -/

/-- **C184** fails for `plot_spr_field_comparison`: space and time are exchanged in the picture; at the position (space `a`, time `b`) with numbers `i`, `j` on the
axes it shows the field at the space coordinate with number `j` and the time with number `i`. -/
theorem C184_transposed_counterexample (interp : Interp) (x t : List ℚ) (v : List Fl) (i j : Nat) (a b a' b' : ℚ)
    (_ : (legacyMap interp x t v).rows[i]? = some a) (_ : (legacyMap interp x t v).cols[j]? = some b)
    (h3 : (legacyMap interp x t v).rows[j]? = some a') (h4 : (legacyMap interp x t v).cols[i]? = some b') :
    (legacyMap interp x t v).value i j = interp (x.zip t) v (a', b') := by
  obtain ⟨_, rfl⟩ := axis_get 100 x j a' h3
  obtain ⟨_, rfl⟩ := axis_get 100 t i b' h4
  rfl

/-- **C184** for `plot_spr_residual_analysis`: with one space dimension every residual is at its time and place; it fails with two, where the axis labelled
time has the second space coordinate. -/
theorem C184_scatter_counterexample (f : Fields) (k : Nat) (τ : ℚ) (hτ : f.pts.t[k]? = some τ) (res : Fl)
    (hres : (List.zipWith (fun (a : Fl) b => a.map (· - b)) f.yTrue f.yPred)[k]? = some res) :
    (∀ x p, f.pts.x = [x] → x[k]? = some p → (legacyScatter f)[k]? = some (τ, p, res)) ∧
    (∀ x y more p q, f.pts.x = x :: y :: more → x[k]? = some p → y[k]? = some q → (legacyScatter f)[k]? = some (q, p, res)) := by
  have hk : k < f.pts.t.length := (List.getElem?_eq_some_iff.1 hτ).1
  constructor
  · intro x p hx hp
    simp [legacyScatter, List.getElem?_range hk, hx, hp, hτ, hres]
  · intro x y more p q hx hp hq
    simp [legacyScatter, List.getElem?_range hk, hx, hp, hq, hres]

end Verif.Claims.VizSpr
