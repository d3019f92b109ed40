import Verif.Viz.Line
import Verif.Claims.VizFields

/-!
# C189: the DISCOVER figures for one space dimension

## Specification
-/
namespace Verif.Viz.Line.Claims
open Verif.Data Verif.Viz.Fields Verif.Viz.Line

/-- The right-hand side of an equation whose terms have the values `fs`: coefficients times values, plus the constant if there is one coefficient
more than terms. -/
def rightSide (fs : List (Nat → Nat → ℚ)) (w : List ℚ) (i j : Nat) : ℚ :=
  (List.zipWith (fun f c => f i j * c) fs w).sum + if w.length = fs.length + 1 then w.getLastD 0 else 0

/-- The terms are drawn with the values `fs` at every one of the `n` points and `m` time steps. -/
def Shows (M : Model) (n m : Nat) (terms : List Term) (fs : List (Nat → Nat → ℚ)) : Prop :=
  ∀ i < n, ∀ j < m, ∃ vs, evalAll (snapshot M.x M.trig M.numeral M.u j) terms = .ok vs ∧ (vs.map fun v => v.at_ [i]) = fs.map fun f => f i j

/-- A grid of `n` points and `m` times with its data, and an equation that can be drawn on it. -/
structure Ready (M : Model) (n m : Nat) (terms : List Term) (w : List ℚ) (fs : List (Nat → Nat → ℚ)) : Prop where
  axis : M.x.length = n
  u : M.u.shape = [n, m]
  ut : M.ut.shape = [n, m]
  points : 0 < n
  times : 0 < m
  best : M.best = some (terms, w)
  values : Shows M n m terms fs
  coefficients : w.length = terms.length ∨ w.length = terms.length + 1

/-! ## Lemmas -/

theorem cells_succ (n m : Nat) : cells (n + 1) m = cells n m ++ (List.range m).map fun j => (n, j) := by
  simp [cells, List.range_succ, List.flatMap_append]

theorem length_cells (n m : Nat) : (cells n m).length = n * m := by
  induction n with
  | zero => simp [cells]
  | succ n ih => rw [cells_succ, List.length_append, ih]; simp [Nat.succ_mul]

theorem cells_get (n m i j : Nat) (hi : i < n) (hj : j < m) : (cells n m)[i * m + j]? = some (i, j) := by
  induction n with
  | zero => omega
  | succ n ih =>
    rw [cells_succ]
    by_cases h : i < n
    · have : i * m + j < (cells n m).length := by
        rw [length_cells]
        have : (i + 1) * m ≤ n * m := Nat.mul_le_mul_right m h
        rw [Nat.succ_mul] at this; omega
      rw [List.getElem?_append_left this]
      exact ih h
    · have e : i = n := by omega
      subst e
      rw [List.getElem?_append_right (by rw [length_cells]; omega), length_cells]
      simp [hj]

theorem mem_cells {n m : Nat} {c : Nat × Nat} : c ∈ cells n m ↔ c.1 < n ∧ c.2 < m := by
  obtain ⟨a, b⟩ := c
  simp [cells]

theorem allOk_map {α β : Type} (f : α → Except Exn β) (g : α → β) : ∀ l : List α, (∀ a ∈ l, f a = .ok (g a)) → allOk f l = .ok (l.map g)
  | [], _ => rfl
  | a :: r, h => by
    simp only [allOk, h a (by simp), allOk_map f g r (fun b hb => h b (by simp [hb])), List.map_cons]

theorem allOk_error {α β : Type} (f : α → Except Exn β) : ∀ l : List α, (∃ a ∈ l, ∃ e, f a = .error e) → ∃ e, allOk f l = .error e
  | [], h => by obtain ⟨a, ha, _⟩ := h; simp at ha
  | b :: r, h => by
    simp only [allOk]
    cases hb : f b with
    | error e => exact ⟨e, rfl⟩
    | ok v =>
      obtain ⟨a, ha, e, he⟩ := h
      rcases List.mem_cons.1 ha with rfl | ha
      · rw [he] at hb; cases hb
      · obtain ⟨e', h'⟩ := allOk_error f r ⟨a, ha, e, he⟩
        simp only [h']
        exact ⟨e', rfl⟩

/-- The value of all fields at a point. -/
def pointAt (M : Model) (w : List ℚ) (fs : List (Nat → Nat → ℚ)) (c : Nat × Nat) : Point ℚ :=
  ⟨M.ut.get [c.1, c.2], rightSide fs w c.1 c.2, M.ut.get [c.1, c.2] - rightSide fs w c.1 c.2, (M.x[c.1]?).getD 0, c.2⟩

theorem zipWith_snoc_fs (fs : List (Nat → Nat → ℚ)) (i j : Nat) (w : List ℚ) :
    List.zipWith (· * ·) (fs.map fun f => f i j) w = List.zipWith (fun f c => f i j * c) fs w := by
  rw [List.zipWith_map_left]

theorem fields_ok {M : Model} {n m : Nat} {terms : List Term} {w : List ℚ} {fs : List (Nat → Nat → ℚ)} (h : Ready M n m terms w fs) :
    fields M terms w = .ok (m, (cells n m).map (pointAt M w fs)) := by
  have hlen : fs.length = terms.length := by
    obtain ⟨vs, hv, he⟩ := h.values 0 h.points 0 h.times
    have h1 : vs.length = terms.length := by
      clear he
      have : ∀ (e : Env ℚ) (ts : List Term) (vs : List (Val ℚ)), evalAll e ts = .ok vs → vs.length = ts.length := by
        intro e ts
        induction ts with
        | nil => intro vs hv; simp only [evalAll] at hv; cases hv; rfl
        | cons t r ih =>
          intro vs hv
          simp only [evalAll] at hv
          cases ht : eval e t with
          | error x => rw [ht] at hv; cases hv
          | ok v =>
            rw [ht] at hv
            simp only at hv
            cases hr : evalAll e r with
            | error x => rw [hr] at hv; cases hv
            | ok vs' => rw [hr] at hv; cases hv; simp [ih vs' hr]
      exact this _ _ _ hv
    have h2 := congrArg List.length he
    simp at h2; omega
  have hf : ∀ c ∈ cells n m, fieldAt M.x M.trig M.numeral M.u M.ut terms w c.1 c.2 = .ok (pointAt M w fs c) := by
    intro c hc
    obtain ⟨h1, h2⟩ := mem_cells.1 hc
    obtain ⟨vs, hv, he⟩ := h.values c.1 h1 c.2 h2
    have hcomb : combine (vs.map fun v => v.at_ [c.1]) w = .ok (rightSide fs w c.1 c.2) := by
      rw [he]
      unfold combine rightSide
      rw [List.length_map]
      by_cases hw : fs.length + 1 = w.length
      · rw [if_pos hw, if_pos hw.symm, zipWith_snoc_fs]
      · have hw1 : fs.length = w.length := by rcases h.coefficients with a | a <;> omega
        have hw2 : ¬ w.length = fs.length + 1 := by omega
        rw [if_neg hw, if_pos hw1, if_neg hw2, zipWith_snoc_fs, add_zero]
    unfold fieldAt
    rw [hv]
    simp only [hcomb]
    rfl
  unfold fields
  rw [h.u]
  simp only [h.ut, if_true]
  rw [allOk_map _ _ _ hf]

theorem coords_eq (x : List ℚ) (m : Nat) : coords x m = (cells x.length m).map fun c => ((x[c.1]?).getD 0, c.2) := by
  have hx : x = (List.range x.length).map fun i => (x[i]?).getD 0 := by
    apply List.ext_getElem
    · simp
    · intro i h1 h2; simp [List.getElem?_eq_getElem h1]
  unfold coords cells
  conv_lhs => rw [hx]
  rw [List.flatMap_map, List.map_flatMap]
  congr 1
  funext i
  simp

theorem foldl_max_spec (l : List ℚ) (a : ℚ) : (a ≤ l.foldl max a ∧ ∀ r ∈ l, r ≤ l.foldl max a) ∧ (l.foldl max a = a ∨ l.foldl max a ∈ l) := by
  induction l generalizing a with
  | nil => simp
  | cons b l ih =>
    obtain ⟨⟨h1, h2⟩, h3⟩ := ih (max a b)
    simp only [List.foldl_cons]
    refine ⟨⟨le_trans (le_max_left _ _) h1, ?_⟩, ?_⟩
    · intro r hr
      rcases List.mem_cons.1 hr with rfl | hr
      · exact le_trans (le_max_right _ _) h1
      · exact h2 r hr
    · rcases h3 with h3 | h3
      · rcases max_choice a b with e | e
        · left; rw [h3, e]
        · right; rw [h3, e]; simp
      · right; simp [h3]

theorem foldl_min_spec (l : List ℚ) (a : ℚ) : (l.foldl min a ≤ a ∧ ∀ r ∈ l, l.foldl min a ≤ r) ∧ (l.foldl min a = a ∨ l.foldl min a ∈ l) := by
  induction l generalizing a with
  | nil => simp
  | cons b l ih =>
    obtain ⟨⟨h1, h2⟩, h3⟩ := ih (min a b)
    simp only [List.foldl_cons]
    refine ⟨⟨le_trans h1 (min_le_left _ _), ?_⟩, ?_⟩
    · intro r hr
      rcases List.mem_cons.1 hr with rfl | hr
      · exact le_trans h1 (min_le_right _ _)
      · exact h2 r hr
    · rcases h3 with h3 | h3
      · rcases min_choice a b with e | e
        · left; rw [h3, e]
        · right; rw [h3, e]; simp
      · right; simp [h3]

/-! ## Theorems -/

/-- **C189** (residual figure): every grid point is drawn exactly once, at its coordinate and time step, with the left-hand side minus the right-hand
side there; the histogram and the data handed out hold the same residuals, and the summary is their number, mean and largest size. -/
theorem C189_residual (M : Model) (n m : Nat) (terms : List Term) (w : List ℚ) (fs : List (Nat → Nat → ℚ)) (h : Ready M n m terms w fs) :
    ∃ fig, residual M = .drawn fig ∧ fig.scatter.length = n * m ∧
      (∀ i < n, ∀ j < m, ∃ a, M.x[i]? = some a ∧ fig.scatter[i * m + j]? = some (j, a, M.ut.get [i, j] - rightSide fs w i j)) ∧
      fig.hist = fig.scatter.map (fun p => p.2.2) ∧ fig.data = fig.hist ∧ fig.count = n * m ∧ fig.mean * fig.count = fig.hist.sum ∧
      (∀ r ∈ fig.hist, |r| ≤ fig.maxAbs) ∧ ∃ r ∈ fig.hist, |r| = fig.maxAbs := by
  have hf := fields_ok h
  have hpos : 0 < n * m := Nat.mul_pos h.points h.times
  have hres : ((cells n m).map (pointAt M w fs)).map (·.residual) ≠ [] := by
    intro e
    have := congrArg List.length e
    simp [length_cells] at this
    have h1 := h.points; have h2 := h.times; omega
  have hc : (coords M.x m).length = ((cells n m).map (pointAt M w fs)).length := by rw [coords_eq, h.axis]; simp
  have hr : residual M = .drawn ⟨List.zipWith (fun c r => (c.2, c.1, r)) (coords M.x m) (((cells n m).map (pointAt M w fs)).map (·.residual)),
      ((cells n m).map (pointAt M w fs)).map (·.residual),
      List.zipWith (· - ·) (((cells n m).map (pointAt M w fs)).map (·.ut)) (((cells n m).map (pointAt M w fs)).map (·.rhs)),
      (((cells n m).map (pointAt M w fs)).map (·.residual)).sum / (((cells n m).map (pointAt M w fs)).map (·.residual)).length,
      ((((cells n m).map (pointAt M w fs)).map (·.residual)).map fun r => |r|).foldl max 0,
      (((cells n m).map (pointAt M w fs)).map (·.residual)).length⟩ := by
    unfold residual
    rw [h.best]
    simp only [hf]
    rw [if_neg (not_not.2 hc), if_neg hres]
  have hs : List.zipWith (fun (c : ℚ × Nat) (r : ℚ) => (c.2, c.1, r)) (coords M.x m) (((cells n m).map (pointAt M w fs)).map (·.residual)) =
      (cells n m).map fun c => (c.2, (M.x[c.1]?).getD 0, (pointAt M w fs c).residual) := by
    rw [coords_eq, h.axis, List.map_map, List.zipWith_map, List.zipWith_self]
    simp
  refine ⟨_, hr, by simp only [hs, List.length_map, length_cells], ?_, ?_, ?_, by simp [length_cells], ?_, ?_, ?_⟩
  · intro i hi j hj
    have hx : i < M.x.length := by rw [h.axis]; exact hi
    refine ⟨M.x[i], List.getElem?_eq_getElem hx, ?_⟩
    simp only [hs, List.getElem?_map, cells_get n m i j hi hj, Option.map_some, List.getElem?_eq_getElem hx, Option.getD_some, pointAt]
  · simp only [hs]
    simp only [List.map_map]; rfl
  · simp only [List.map_map, List.zipWith_map, List.zipWith_self]
    rfl
  · have : ((((cells n m).map (pointAt M w fs)).map (·.residual)).length : ℚ) ≠ 0 := by
      simp only [List.length_map, length_cells]
      exact_mod_cast Nat.pos_iff_ne_zero.1 hpos
    exact div_mul_cancel₀ _ this
  · intro r hr'
    exact (foldl_max_spec _ 0).1.2 _ (List.mem_map_of_mem (f := fun r : ℚ => |r|) hr')
  · rcases (foldl_max_spec ((((cells n m).map (pointAt M w fs)).map (·.residual)).map fun r => |r|) 0).2 with e | e
    · obtain ⟨r, hr'⟩ := List.exists_mem_of_ne_nil _ hres
      refine ⟨r, hr', ?_⟩
      have h1 := (foldl_max_spec ((((cells n m).map (pointAt M w fs)).map (·.residual)).map fun r => |r|) 0).1.2 _
        (List.mem_map_of_mem (f := fun r : ℚ => |r|) hr')
      simp only at h1 ⊢
      rw [e] at h1 ⊢
      exact le_antisymm h1 (abs_nonneg r)
    · obtain ⟨r, hr', e'⟩ := List.mem_map.1 e
      exact ⟨r, hr', e'⟩

/-- The ends of a range: bounds of all values, both reached. -/
def Spans (lo hi : ℚ) (vals : List ℚ) : Prop := (∀ v ∈ vals, lo ≤ v ∧ v ≤ hi) ∧ lo ∈ vals ∧ hi ∈ vals

theorem spans_of (v : ℚ) (vs : List ℚ) : Spans (vs.foldl min v) (vs.foldl max v) (v :: vs) := by
  obtain ⟨⟨a1, a2⟩, a3⟩ := foldl_min_spec vs v
  obtain ⟨⟨b1, b2⟩, b3⟩ := foldl_max_spec vs v
  refine ⟨?_, ?_, ?_⟩
  · intro r hr
    rcases List.mem_cons.1 hr with rfl | hr
    · exact ⟨a1, b1⟩
    · exact ⟨a2 r hr, b2 r hr⟩
  · rcases a3 with e | e
    · rw [e]; simp
    · exact List.mem_cons_of_mem _ e
  · rcases b3 with e | e
    · rw [e]; simp
    · exact List.mem_cons_of_mem _ e

/-- **C189** (parity figure): one point per grid point, right-hand side across and left-hand side up; the line `y = x` spans both. -/
theorem C189_parity (M : Model) (n m : Nat) (terms : List Term) (w : List ℚ) (fs : List (Nat → Nat → ℚ)) (h : Ready M n m terms w fs) :
    ∃ fig, parity M = .drawn fig ∧ fig.points.length = n * m ∧
      (∀ i < n, ∀ j < m, fig.points[i * m + j]? = some (rightSide fs w i j, M.ut.get [i, j])) ∧
      Spans fig.lo fig.hi (fig.points.map (·.2) ++ fig.points.map (·.1)) := by
  have hf := fields_ok h
  have hz : List.zipWith (fun p a => (p, a)) (((cells n m).map (pointAt M w fs)).map (·.rhs)) (((cells n m).map (pointAt M w fs)).map (·.ut)) =
      (cells n m).map fun c => (rightSide fs w c.1 c.2, M.ut.get [c.1, c.2]) := by
    rw [List.map_map, List.map_map, List.zipWith_map, List.zipWith_self]
    rfl
  cases hl : ((cells n m).map (pointAt M w fs)).map (·.ut) ++ ((cells n m).map (pointAt M w fs)).map (·.rhs) with
  | nil =>
    have := congrArg List.length hl
    simp [length_cells] at this
    have h1 := h.points; have h2 := h.times; omega
  | cons v vs =>
    refine ⟨⟨List.zipWith (fun p a => (p, a)) (((cells n m).map (pointAt M w fs)).map (·.rhs)) (((cells n m).map (pointAt M w fs)).map (·.ut)),
      vs.foldl min v, vs.foldl max v⟩, by unfold parity; rw [h.best]; simp only [hf, hl], ?_, ?_, ?_⟩
    · simp only [hz, List.length_map, length_cells]
    · intro i hi j hj
      simp only [hz, List.getElem?_map, cells_get n m i j hi hj, Option.map_some]
    · simp only [hz]
      have e : ((cells n m).map fun c => (rightSide fs w c.1 c.2, M.ut.get [c.1, c.2])).map (·.2) ++
          ((cells n m).map fun c => (rightSide fs w c.1 c.2, M.ut.get [c.1, c.2])).map (·.1) = v :: vs := by
        rw [← hl]; simp only [List.map_map]; rfl
      rw [e]
      exact spans_of v vs

/-- **C189** (field figure): the two panels hold the left-hand and the right-hand side at every point and time step, over the space axis of the data,
with one colour range for both. -/
theorem C189_field (M : Model) (n m : Nat) (terms : List Term) (w : List ℚ) (fs : List (Nat → Nat → ℚ)) (h : Ready M n m terms w fs) :
    ∃ fig, field M = .drawn fig ∧ fig.rows = M.x ∧ fig.cols = List.range m ∧
      (∀ i < n, ∀ j < m, fig.truth i j = M.ut.get [i, j] ∧ fig.predicted i j = rightSide fs w i j ∧
        fig.vmin ≤ fig.truth i j ∧ fig.vmin ≤ fig.predicted i j ∧ fig.truth i j ≤ fig.vmax ∧ fig.predicted i j ≤ fig.vmax) := by
  have hf := fields_ok h
  cases hl : ((cells n m).map (pointAt M w fs)).map (·.ut) ++ ((cells n m).map (pointAt M w fs)).map (·.rhs) with
  | nil =>
    have := congrArg List.length hl
    simp [length_cells] at this
    have h1 := h.points; have h2 := h.times; omega
  | cons v vs =>
    refine ⟨⟨M.x, List.range m, fun i j => M.ut.get [i, j], fun i j => ((((cells n m).map (pointAt M w fs)).map (·.rhs))[i * m + j]?).getD 0,
      vs.foldl min v, vs.foldl max v⟩,
      by unfold field; rw [h.best]; simp only [hf]; rw [if_neg (by rw [h.ut, h.axis]; simp)]; simp only [hl], rfl, rfl, ?_⟩
    intro i hi j hj
    have hp : ((((cells n m).map (pointAt M w fs)).map (·.rhs))[i * m + j]?).getD 0 = rightSide fs w i j := by
      simp only [List.getElem?_map, cells_get n m i j hi hj, Option.map_some, Option.getD_some, pointAt]
    have hs := (spans_of v vs).1
    rw [← hl] at hs
    have m1 := hs (M.ut.get [i, j]) (List.mem_append_left _ (List.mem_map.2 ⟨pointAt M w fs (i, j),
      List.mem_map_of_mem (mem_cells.2 ⟨hi, hj⟩), rfl⟩))
    have m2 := hs (rightSide fs w i j) (List.mem_append_right _ (List.mem_map.2 ⟨pointAt M w fs (i, j),
      List.mem_map_of_mem (mem_cells.2 ⟨hi, hj⟩), rfl⟩))
    refine ⟨rfl, hp, m1.1, ?_, m1.2, ?_⟩
    · simp only [hp]; exact m2.1
    · simp only [hp]; exact m2.2

/-- **C189** (no wrong figure): without a best program, with a term that cannot be evaluated at some time step, or with the wrong number of
coefficients, all three calls give a warning and no picture. -/
theorem C189_warning (M : Model) (n m : Nat) (hu : M.u.shape = [n, m]) (hn : 0 < n)
    (h : M.best = none ∨ ∃ terms w, M.best = some (terms, w) ∧ 0 < m ∧
      ((∃ j < m, ∃ e, evalAll (snapshot M.x M.trig M.numeral M.u j) terms = .error e) ∨
        (w.length ≠ terms.length ∧ w.length ≠ terms.length + 1 ∧ ∃ fs, Shows M n m terms fs ∧ fs.length = terms.length))) :
    residual M = .warning ∧ parity M = .warning ∧ field M = .warning := by
  rcases h with h | ⟨terms, w, hb, hm, h⟩
  · simp [residual, parity, field, h]
  · have : ∃ e, fields M terms w = .error e := by
      unfold fields
      rw [hu]
      simp only
      split
      · have hex : ∃ c ∈ cells n m, ∃ e, fieldAt M.x M.trig M.numeral M.u M.ut terms w c.1 c.2 = .error e := by
          rcases h with ⟨j, hj, e, he⟩ | ⟨h1, h2, fs, hs, hl⟩
          · exact ⟨(0, j), mem_cells.2 ⟨hn, hj⟩, e, by unfold fieldAt; rw [he]⟩
          · obtain ⟨vs, hv, hvs⟩ := hs 0 hn 0 hm
            refine ⟨(0, 0), mem_cells.2 ⟨hn, hm⟩, .value, ?_⟩
            unfold fieldAt
            rw [hv]
            have : combine (vs.map fun v => v.at_ [0]) w = .error .value := by
              unfold combine
              rw [hvs, List.length_map, hl, if_neg (by omega), if_neg (by omega)]
            simp only [this]
        obtain ⟨e, he⟩ := allOk_error _ _ hex
        exact ⟨e, by rw [he]⟩
      · exact ⟨_, rfl⟩
    obtain ⟨e, he⟩ := this
    simp [residual, parity, field, hb, he]

/-- **C189** (training values): on an evenly spaced axis, terms made of the field, the coordinate, sums, differences, products, powers and first
derivatives are drawn with the values they had in training, so the three figures show the equation as it was fitted. -/
theorem C189_trained (M : Model) (n m : Nat) (terms : List Term) (fs : List (Nat → Nat → ℚ)) (hu : M.u.shape = [n, m])
    (hx : Verif.Viz.Fields.Claims.Even M.x) (h : List.Forall₂ (Verif.Viz.Fields.Claims.Trained M.x M.u n m) terms fs) : Shows M n m terms fs :=
  fun i hi j hj => Verif.Viz.Fields.Claims.evalAll_trained (by norm_num) M.x M.trig M.numeral M.u n m hu hx i j hi hj terms fs h

/-- A grid of three points and two times with `u_t = 2 u u_x`: the data and the equation. -/
def demo : Model :=
  ⟨[0, 1, 2], ⟨[3, 2], fun i => ((i.sum : Nat) : ℚ)⟩, ⟨[3, 2], fun i => ((i.getD 1 0 : Nat) : ℚ)⟩,
    some ([.bin "mul" (.leaf "u1") (.bin "diff" (.leaf "u1") (.leaf "x1"))], [2]), fun _ a => a, fun _ => none⟩

/-- The hypotheses are met by this equation, and the residual drawn at the second point and time is `1 - 2·2·1`. -/
theorem C189_demo : ∃ fs, Ready demo 3 2 [.bin "mul" (.leaf "u1") (.bin "diff" (.leaf "u1") (.leaf "x1"))] [2] fs ∧
    ∃ fig, residual demo = .drawn fig ∧ fig.scatter[3]? = some ((1 : Nat), (1 : ℚ), (-3 : ℚ)) ∧ fig.maxAbs = 5 ∧ fig.count = 6 := by
  have ht : ∃ f, Verif.Viz.Fields.Claims.Trained demo.x demo.u 3 2 (.bin "mul" (.leaf "u1") (.bin "diff" (.leaf "u1") (.leaf "x1"))) f :=
    ⟨_, .mul (.inl rfl) .field (.diff (.inl rfl) .field rfl)⟩
  obtain ⟨f, hf⟩ := ht
  refine ⟨[f], ⟨rfl, rfl, rfl, by omega, by omega, rfl, C189_trained demo 3 2 _ _ rfl ⟨0, 1, 2, rfl, rfl, rfl, by norm_num⟩ (.cons hf .nil),
    .inl rfl⟩, _, rfl, ?_⟩
  decide +kernel

end Verif.Viz.Line.Claims
