import Verif.Viz.Nd
import Verif.Claims.VizData
import Mathlib.Algebra.Order.Ring.Unbundled.Rat
/-!
# C181: the DISCOVER figures for several space dimensions
-/
namespace Verif.Claims.VizNd
open Verif.Data Verif.Viz.Data Verif.Viz.Nd Verif.Viz.Data.Claims

/-- The place shown by entry `(a, b)` of a heat map at step `j`: all axes after the first two at their middle. -/
def place (coords : List (List Rat)) (j a b : Nat) : List Nat := j :: a :: b :: (coords.drop 2).map fun c => c.length / 2

/-! ## Axes -/

theorem unique_sorted : ∀ l : List Rat, l.Pairwise (· < ·) → unique l = l := by
  intro l
  induction l with
  | nil => intro _; rfl
  | cons a l ih =>
    intro h
    rw [List.pairwise_cons] at h
    show insertU a (unique l) = _
    rw [ih h.2]
    cases l with
    | nil => rfl
    | cons b l =>
      have hab := h.1 b (by simp)
      unfold insertU
      rw [if_pos hab]

/-- **C181**: with increasing coordinates (at least two per axis) the axes of the figures are the coordinates. -/
theorem C181_axes (X : List (List Rat)) (h : ∀ x ∈ X, x.Pairwise (· < ·) ∧ 2 ≤ x.length) : axesOf X = some X := by
  induction X with
  | nil => rfl
  | cons x r ih =>
    have hx := h x (by simp)
    unfold axesOf
    rw [unique_sorted x hx.1, if_neg (by omega), ih fun y hy => h y (by simp [hy])]

theorem axesOf_spec : ∀ (X cs : List (List Rat)), axesOf X = some cs → cs.length = X.length ∧ ∀ c ∈ cs, 2 ≤ c.length := by
  intro X
  induction X with
  | nil => intro cs h; cases h; simp
  | cons x r ih =>
    intro cs h
    unfold axesOf at h
    by_cases hx : (unique x).length < 2
    · rw [if_pos hx] at h; cases h
    · rw [if_neg hx] at h
      cases hr : axesOf r with
      | none => rw [hr] at h; cases h
      | some cs' =>
        rw [hr] at h
        cases h
        obtain ⟨h1, h2⟩ := ih _ hr
        refine ⟨by simp [h1], fun c hc => ?_⟩
        rcases List.mem_cons.1 hc with rfl | hc
        · omega
        · exact h2 c hc

/-! ## What is computed -/

theorem computeNd_spec {X : List (List Rat)} {trig : String → Rat → Rat} {numeral : String → Option Rat} {u ut : A} {terms : List Viz.Fields.Term}
    {w : List Rat} {f : Computed} (h : computeNd X trig numeral u ut terms w = some f) :
    axesOf X = some f.coords ∧ ut.shape = u.shape ∧ f.ut = ut ∧ f.rhs.shape = u.shape ∧
    (∀ j i, f.rhs.get (j :: i) = rhsAt f.coords trig numeral u terms w j i) ∧
    f.t = (List.range (u.shape.headD 0)).map (fun j : Nat => (j : Rat)) ∧
    (∀ j < u.shape.headD 0, evaluates f.coords trig numeral u terms j = true) ∧
    (terms.length + 1 = w.length ∨ terms.length = w.length) := by
  unfold computeNd at h
  cases hx : axesOf X with
  | none => rw [hx] at h; cases h
  | some cs =>
    rw [hx] at h
    simp only at h
    by_cases h1 : u.shape = [] ∨ ut.shape ≠ u.shape
    · rw [if_pos h1] at h; cases h
    · rw [if_neg h1] at h
      by_cases h2 : (!(List.range (u.shape.headD 0)).all (evaluates cs trig numeral u terms)) = true
      · rw [if_pos h2] at h; cases h
      · rw [if_neg h2] at h
        by_cases h3 : terms.length + 1 = w.length ∨ terms.length = w.length
        · rw [if_pos h3] at h
          cases h
          have h4 : ut.shape = u.shape := by
            by_contra hc; exact h1 (Or.inr hc)
          refine ⟨rfl, h4, rfl, rfl, fun j i => rfl, rfl, ?_, h3⟩
          intro j hj
          have : (List.range (u.shape.headD 0)).all (evaluates cs trig numeral u terms) = true := by simpa using h2
          exact List.all_eq_true.1 this j (List.mem_range.2 hj)
        · rw [if_neg h3] at h; cases h

theorem evalAll_length (e : Viz.Fields.Env Rat) : ∀ (ts : List Viz.Fields.Term) vs, Viz.Fields.evalAll e ts = .ok vs → vs.length = ts.length := by
  intro ts
  induction ts with
  | nil => intro vs h; cases h; rfl
  | cons t r ih =>
    intro vs h
    unfold Viz.Fields.evalAll at h
    cases h1 : Viz.Fields.eval e t with
    | error x => rw [h1] at h; cases h
    | ok v =>
      rw [h1] at h
      simp only at h
      cases h2 : Viz.Fields.evalAll e r with
      | error x => rw [h2] at h; cases h
      | ok vs' =>
        rw [h2] at h
        cases h
        simp [ih _ h2]

/-- **C181**: the right-hand side drawn.  At every step each term of the equation has a value on the snapshot of the data at that step, and the
right-hand side at a place is the sum of these values times the coefficients, plus the constant if there is one more coefficient than terms. -/
theorem C181_equation (X : List (List Rat)) (trig : String → Rat → Rat) (numeral : String → Option Rat) (u ut : A) (terms : List Viz.Fields.Term)
    (w : List Rat) (f : Computed) (h : computeNd X trig numeral u ut terms w = some f) (j : Nat) (hj : j < u.shape.headD 0) :
    ∃ vs, Viz.Fields.evalAll (Viz.Fields.snapshotN f.coords trig numeral u j) terms = .ok vs ∧ vs.length = terms.length ∧
      ∀ i, f.rhs.get (j :: i) = (List.zipWith (fun v c => v.at_ i * c) vs w).sum + if terms.length < w.length then w.getLastD 0 else 0 := by
  obtain ⟨_, _, _, _, hr, _, he, hw⟩ := computeNd_spec h
  have hj' := he j hj
  unfold evaluates at hj'
  cases hv : Viz.Fields.evalAll (Viz.Fields.snapshotN f.coords trig numeral u j) terms with
  | error x => rw [hv] at hj'; cases hj'
  | ok vs =>
    have hlen := evalAll_length _ _ _ hv
    refine ⟨vs, rfl, hlen, fun i => ?_⟩
    rw [hr, rhsAt, hv]
    simp only
    have hz : List.zipWith (fun v c => v.at_ i * c) vs w = List.zipWith (· * ·) (vs.map fun v => v.at_ i) w := by
      rw [List.zipWith_map_left]
    unfold Viz.Fields.combine
    rcases hw with hw | hw
    · rw [if_pos (by simpa [hlen] using hw), if_pos (by omega)]
      simp only [hz]
    · rw [if_neg (by simp only [List.length_map]; omega), if_pos (by simpa [hlen] using hw), if_neg (by omega)]
      simp only [hz, add_zero]

/-! ## The panels -/

theorem idxOf_shift (n m : Nat) (h : m < n) : ((List.range n).map (· + 1) ++ [0]).idxOf (m + 1) = m := by
  have hm : m + 1 ∈ (List.range n).map (· + 1) := List.mem_map.2 ⟨m, List.mem_range.2 h, rfl⟩
  rw [List.idxOf_append_of_mem hm]
  have hn : ((List.range n).map (· + 1)).Nodup := List.nodup_range.map (fun a b h => by simpa using h)
  have := hn.idxOf_getElem m (by simpa using h)
  simpa using this

theorem idxOf_shift_zero (n : Nat) : ((List.range n).map (· + 1) ++ [0]).idxOf 0 = n := by
  have hm : 0 ∉ (List.range n).map (· + 1) := by simp
  rw [List.idxOf_append_of_notMem hm]
  simp

theorem transpose_last (a : A) (n : Nat) (i : List Nat) (j : Nat) (hi : i.length = n) :
    (transpose a ((List.range n).map (· + 1) ++ [0])).get (i ++ [j]) = a.get (j :: i) := by
  unfold transpose
  simp only
  congr 1
  apply List.ext_getElem?
  intro m
  rw [List.getElem?_map]
  have hl : ((List.range n).map (· + 1) ++ [0]).length = n + 1 := by simp
  rw [hl]
  cases m with
  | zero =>
    rw [List.getElem?_range (by omega)]
    simp only [Option.map_some, idxOf_shift_zero]
    simp [← hi]
  | succ m =>
    by_cases hm : m < n
    · rw [List.getElem?_range (by omega)]
      simp only [Option.map_some, idxOf_shift n m hm]
      rw [List.getElem?_append_left (by omega), List.getElem?_cons_succ]
      rw [List.getElem?_eq_getElem (by omega)]
      rfl
    · rw [List.getElem?_eq_none (by simp; omega), List.getElem?_eq_none (by simp; omega)]
      rfl

theorem transpose_last_shape (a : A) (n nt : Nat) (s : List Nat) (ha : a.shape = nt :: s) (hs : s.length = n) :
    (transpose a ((List.range n).map (· + 1) ++ [0])).shape = s ++ [nt] := by
  unfold transpose
  simp only [ha]
  rw [List.map_append, List.map_map]
  congr 1
  apply List.ext_getElem?
  intro m
  rw [List.getElem?_map]
  by_cases hm : m < n
  · rw [List.getElem?_range hm]
    simp [List.getElem?_eq_getElem (show m < s.length by omega)]
  · rw [List.getElem?_eq_none (by simp; omega), List.getElem?_eq_none (by omega)]
    rfl

theorem cutLast_spec : ∀ (n : Nat) (a : A) (s t : List Nat), a.shape = s ++ t → t.length = n → (∀ m ∈ t, 0 < m) →
    ∃ b, cutLast n a = .ok b ∧ b.shape = s ∧ ∀ i, i.length = s.length → b.get i = a.get (i ++ t.map (· / 2)) := by
  intro n
  induction n with
  | zero =>
    intro a s t ha ht _
    have : t = [] := List.length_eq_zero_iff.1 ht
    subst this
    exact ⟨a, rfl, by simpa using ha, fun i _ => by simp⟩
  | succ n ih =>
    intro a s t ha ht hp
    obtain ⟨t', m, rfl⟩ : ∃ t' m, t = t' ++ [m] := ⟨t.dropLast, t.getLast (by intro h; simp [h] at ht), (List.dropLast_append_getLast _).symm⟩
    have ha' : a.shape = (s ++ t') ++ [m] := by rw [ha, List.append_assoc]
    have hlen : a.shape.length - 1 = (s ++ t').length := by rw [ha']; simp
    have hlast : a.shape.getLastD 0 = m := by rw [ha']; simp
    have hm : 0 < m := hp m (by simp)
    have hget : (a.shape[(s ++ t').length]?).getD 0 = m := by rw [ha']; simp
    unfold cutLast
    rw [hlast, hlen, takeAxis_ok (by rw [hget]; omega)]
    simp only
    obtain ⟨b, hb, hs, hg⟩ := ih (restrict a (s ++ t').length (m / 2)) s t' (by simp only [restrict]; rw [ha', eraseIdx_last]) (by simpa using ht)
      (fun k hk => hp k (by simp [hk]))
    refine ⟨b, hb, hs, fun i hi => ?_⟩
    rw [hg i hi]
    simp only [restrict]
    congr 1
    have : (s ++ t').length = (i ++ t'.map (· / 2)).length := by simp [hi]
    rw [this, List.insertIdx_length_self]
    simp

/-- The steps drawn are the first, the middle and the last (all of them if there are at most three). -/
theorem steps_spec (nt : Nat) (h : 0 < nt) : 0 ∈ steps nt ∧ nt / 2 ∈ steps nt ∧ nt - 1 ∈ steps nt ∧ (∀ k ∈ steps nt, k < nt) ∧
    (nt ≤ 3 → ∀ k < nt, k ∈ steps nt) ∧ (steps nt).length ≤ 3 := by
  unfold steps
  by_cases h3 : nt ≤ 3
  · rw [if_pos h3]
    simp only [List.mem_range, List.length_range]
    refine ⟨h, by omega, by omega, fun k hk => hk, fun _ k hk => hk, h3⟩
  · rw [if_neg h3]
    simp only [List.mem_cons, List.not_mem_nil, or_false, List.length_cons, List.length_nil]
    refine ⟨by simp, by simp, by simp, by omega, by omega, by omega⟩

/-- **C181**: the panels.  For data with two or more space axes and at least one time step, whose grid has the size of its axes, both figures are
drawn.  The field comparison has a pair of heat maps for the first, the middle and the last step (all steps if there are at most three); entry `(a, b)`
of a pair at step `j` is the left-hand side, and the right-hand side, of the equation at step `j` and grid point `a, b` with the further axes at their
middle, drawn over the coordinates of the first two axes; the heat map of the residual figure is left-hand side minus right-hand side on the same
grid points at the middle step.
Partial, of the whole claim: Full for increasing coordinates; with a decreasing axis the figures are wrong (counterexample). Rational entries; default slicing options (others: C113); titles show step numbers, not times (C118_time_counterexample). -/
theorem C181_figures_partial (X : List (List Rat)) (trig : String → Rat → Rat) (numeral : String → Option Rat) (u ut : A) (terms : List Viz.Fields.Term)
    (w : List Rat) (f : Computed) (h : computeNd X trig numeral u ut terms w = some f) (nt : Nat) (hnt : 0 < nt) (hX : 2 ≤ X.length)
    (hshape : u.shape = nt :: f.coords.map List.length) :
    ∃ panels r y x rest, fieldFigure f (-1) none = .ok panels ∧ residualFigure f = .ok r ∧ f.coords = y :: x :: rest ∧
      (∀ j ∈ [0, nt / 2, nt - 1], ∃ q ∈ panels, q.1.t = (j : Rat)) ∧ (nt ≤ 3 → ∀ j < nt, ∃ q ∈ panels, q.1.t = (j : Rat)) ∧ panels.length ≤ 3 ∧
      (∀ q ∈ panels, ∃ j < nt, q.1.t = (j : Rat) ∧ q.2.t = (j : Rat) ∧ q.1.y = y ∧ q.1.x = x ∧ q.2.y = y ∧ q.2.x = x ∧
        q.1.grid.shape = [y.length, x.length] ∧ q.2.grid.shape = [y.length, x.length] ∧
        ∀ a b, q.1.grid.get [a, b] = ut.get (place f.coords j a b) ∧ q.2.grid.get [a, b] = f.rhs.get (place f.coords j a b)) ∧
      r.y = y ∧ r.x = x ∧ r.t = ((nt / 2 : Nat) : Rat) ∧ r.grid.shape = [y.length, x.length] ∧
      ∀ a < y.length, ∀ b < x.length, r.grid.get [a, b] = ut.get (place f.coords (nt / 2) a b) - f.rhs.get (place f.coords (nt / 2) a b) := by
  obtain ⟨hax, hus, hut, hrs, _, ht, _, _⟩ := computeNd_spec h
  obtain ⟨hcl, hc2⟩ := axesOf_spec _ _ hax
  obtain ⟨y, x, rest, hc⟩ : ∃ y x rest, f.coords = y :: x :: rest := by
    match hf : f.coords with
    | [] => rw [hf] at hcl; simp at hcl; omega
    | [_] => rw [hf] at hcl; simp at hcl; omega
    | y :: x :: rest => exact ⟨y, x, rest, rfl⟩
  have hft : f.t.length = nt := by rw [ht, hshape]; simp
  have hftk : ∀ k < nt, (f.t[k]?).getD 0 = (k : Rat) := by
    intro k hk
    rw [ht, hshape, List.headD_cons, List.getElem?_map, List.getElem?_range hk]
    rfl
  have hutS : f.ut.shape = nt :: f.coords.map List.length := by rw [hut, hus, hshape]
  have hrhS : f.rhs.shape = nt :: f.coords.map List.length := by rw [hrs, hshape]
  -- the comparison
  have hn : f.ut.shape.length - 1 = f.coords.length := by rw [hutS]; simp
  have hts1 := transpose_last_shape f.ut f.coords.length nt _ hutS (by simp)
  have hts2 := transpose_last_shape f.rhs f.coords.length nt _ hrhS (by simp)
  obtain ⟨d, hd⟩ := (C112_field f.coords f.t (transpose f.ut ((List.range f.coords.length).map (· + 1) ++ [0]))
    (transpose f.rhs ((List.range f.coords.length).map (· + 1) ++ [0])) none).2.1 (by rw [hts1, hft]) (by rw [hts1, hts2]) (fun _ h => nomatch h)
  obtain ⟨hws, hdc, hdt, hdu, hdp, _, _⟩ := (C112_field f.coords f.t (transpose f.ut ((List.range f.coords.length).map (· + 1) ++ [0]))
    (transpose f.rhs ((List.range f.coords.length).map (· + 1) ++ [0])) none).1 d hd
  obtain ⟨p, hp, hpc, hpt, hpw, hpg⟩ := loop_spec d.coords.length d (Nat.le_refl _) hws
    (fun c hcm hnil => by
      rw [hdc] at hcm
      have := hc2 c hcm
      rw [hnil] at this
      simp at this) (by rw [hdc, hcl]; exact hX)
  have hpcoords : p.coords = [y, x] := by rw [hpc, hdc, hc]; rfl
  have hptl : p.t.length = nt := by rw [hpt, hdt, hft]
  obtain ⟨w1, w2, _⟩ := hpw
  have hg1 : ∀ k, (lastAt p.truth k).shape = [y.length, x.length] := by
    intro k; simp only [lastAt]; rw [w1, hpcoords]; simp
  have hg2 : ∀ k, (lastAt p.predicted k).shape = [y.length, x.length] := by
    intro k; simp only [lastAt]; rw [w2, hpcoords]; simp
  have hfig : fieldFigure f (-1) none = .ok ((steps nt).map fun k =>
      ((⟨y, x, (p.t[k]?).getD 0, lastAt p.truth k⟩ : Panel), (⟨y, x, (p.t[k]?).getD 0, lastAt p.predicted k⟩ : Panel))) := by
    unfold fieldFigure comparison
    simp only [hn]
    rw [hd]
    simp only
    rw [show slice d (-1) none = .ok p from hp]
    simp only [hpcoords]
    rw [if_neg (by omega), hptl, if_pos ?_]
    rw [List.all_eq_true]
    intro q hq
    obtain ⟨k, _, rfl⟩ := List.mem_map.1 hq
    simp [drawable, hg1, hg2]
  -- the residual
  obtain ⟨rd, hrd, hrdS, hrdv⟩ := sub_same (a := f.ut) (b := f.rhs) (by rw [hutS, hrhS])
  have hk : nt / 2 < nt := by omega
  have htk := takeAxis_ok (a := rd) (k := 0) (c := nt / 2) (by rw [hrdS, hutS]; simpa using hk)
  obtain ⟨g, hgo, hgs, hgg⟩ := cutLast_spec (f.coords.length - 2) (restrict rd 0 (nt / 2)) [y.length, x.length] (rest.map List.length)
    (by simp only [restrict]; rw [hrdS, hutS, hc]; simp) (by rw [hc]; simp) (by
      intro m hm
      obtain ⟨c, hcm, rfl⟩ := List.mem_map.1 hm
      have := hc2 c (by rw [hc]; simp [hcm])
      omega)
  have hres : residualFigure f = .ok ⟨y, x, (f.t[nt / 2]?).getD 0, g⟩ := by
    have hd0 : rd.shape.headD 0 = nt := by rw [hrdS, hutS]; rfl
    unfold residualFigure
    rw [hc] at hgo ⊢
    simp only
    rw [hrd]
    simp only [hd0]
    rw [htk]
    simp only
    rw [hgo]
    simp only
    rw [if_pos (by simp [drawable, hgs])]
  obtain ⟨s1, s2, s3, s4, s5, s6⟩ := steps_spec nt hnt
  have hpt' : ∀ k < nt, (p.t[k]?).getD 0 = (k : Rat) := by intro k hk; rw [hpt, hdt]; exact hftk k hk
  refine ⟨_, _, y, x, rest, hfig, hres, hc, ?_, ?_, by simpa using s6, ?_, rfl, rfl, hftk _ hk, hgs, ?_⟩
  · intro j hj
    have hjm : j ∈ steps nt := by
      simp only [List.mem_cons, List.not_mem_nil, or_false] at hj
      rcases hj with rfl | rfl | rfl <;> assumption
    exact ⟨_, List.mem_map.2 ⟨j, hjm, rfl⟩, hpt' j (s4 j hjm)⟩
  · intro h3 j hj
    exact ⟨_, List.mem_map.2 ⟨j, s5 h3 j hj, rfl⟩, hpt' j hj⟩
  · intro q hq
    obtain ⟨k, hks, rfl⟩ := List.mem_map.1 hq
    refine ⟨k, s4 k hks, hpt' k (s4 k hks), hpt' k (s4 k hks), rfl, rfl, rfl, rfl, hg1 k, hg2 k, fun a b => ?_⟩
    have := hpg a b k
    simp only at this
    have hl : ([a, b] ++ (f.coords.drop 2).map fun c : List Rat => c.length / 2).length = f.coords.length := by simp [hc]
    refine ⟨?_, ?_⟩
    · show p.truth.get ([a, b] ++ [k]) = _
      rw [show [a, b] ++ [k] = [a, b, k] from rfl, this.1, hdu, hdc, transpose_last _ _ _ _ hl, hut]
      rfl
    · show p.predicted.get ([a, b] ++ [k]) = _
      rw [show [a, b] ++ [k] = [a, b, k] from rfl, this.2.1, hdp, hdc, transpose_last _ _ _ _ hl]
      rfl
  · intro a ha b hb
    show g.get [a, b] = _
    rw [hgg [a, b] rfl]
    simp only [restrict, List.insertIdx_zero]
    have hpl : (nt / 2) :: ([a, b] ++ (rest.map List.length).map (· / 2)) = place f.coords (nt / 2) a b := by
      simp [place, hc]
    rw [hpl, hrdv, hut]
    rw [hutS, hc]
    unfold place Inside
    refine .cons hk (.cons ha (.cons hb ?_))
    have hr2 : ∀ c ∈ rest, 2 ≤ c.length := fun c hcm => hc2 c (by rw [hc]; simp [hcm])
    show List.Forall₂ _ (rest.map fun c => c.length / 2) (rest.map List.length)
    clear * - hr2
    induction rest with
    | nil => exact .nil
    | cons c r ih =>
      refine .cons ?_ (ih fun d hd => hr2 d (by simp [hd]))
      have := hr2 c (by simp)
      show c.length / 2 < c.length
      omega

/-- The field `u = x1` on a grid whose first axis is given from large to small. -/
def reversed : A := ⟨[1, 3, 3], fun i => 2 - ((i.getD 1 0 : Nat) : Rat)⟩

/-- **C181** (size of a heat map): a grid is drawn exactly when it has one value for each pair of coordinates, or one for each cell between them; all others are refused. -/
theorem C181_grid (y x : List Rat) (g : A) : drawable y x g = true ↔
    ∃ r c, g.shape = [r, c] ∧ ((r = y.length ∧ c = x.length) ∨ (r + 1 = y.length ∧ c + 1 = x.length)) := by
  unfold drawable
  rw [Bool.or_eq_true, beq_iff_eq, beq_iff_eq]
  constructor
  · rintro (h | h)
    · exact ⟨_, _, h, .inl ⟨rfl, rfl⟩⟩
    · match hs : g.shape with
      | [] => rw [hs] at h; simp at h
      | [_] => rw [hs] at h; simp at h
      | [r, c] => rw [hs] at h; simp at h; exact ⟨r, c, rfl, .inr h⟩
      | _ :: _ :: _ :: _ => rw [hs] at h; simp at h
  · rintro ⟨r, c, hs, (⟨rfl, rfl⟩ | ⟨h1, h2⟩)⟩
    · exact .inl hs
    · exact .inr (by rw [hs]; simp [h1, h2])

/-- **C181 (violated)**: with decreasing coordinates the figures are wrong.  For `u = x1` with `x1 = 2, 1, 0` the derivative along `x1` is drawn as
`-1`, and the value at `x1 = 2` is drawn at the coordinate `0`. -/
theorem C181_order_counterexample : ∃ f r, computeNd [[2, 1, 0], [0, 1, 2]] (fun _ a => a) (fun _ => none) reversed reversed
      [.bin "Diff" (.leaf "u1") (.leaf "x1")] [1] = some f ∧ f.rhs.get [0, 1, 1] = -1 ∧
    residualFigure f = .ok r ∧ r.y = [0, 1, 2] ∧ reversed.get [0, 0, 0] = 2 :=
  ⟨_, _, rfl, by decide +kernel, rfl, by decide +kernel, by decide +kernel⟩

/-- The field `x1 x2 + x3 + t` on three axes and two steps, its left-hand side and the equation `u_t = 3 u_x1 + 1`. -/
def demo : A := ⟨[2, 3, 3, 3], fun i => ((i.getD 1 0 * i.getD 2 0 + i.getD 3 0 + i.getD 0 0 : Nat) : Rat)⟩
def demoT : A := ⟨[2, 3, 3, 3], fun _ => 1⟩

/-- The hypotheses of `C181_figures_partial` are met, and two entries of the figures. -/
theorem C181_hypotheses : ∃ f, computeNd [[0, 1, 2], [0, 1, 2], [0, 1, 2]] (fun _ a => a) (fun _ => none) demo demoT
      [.bin "Diff_3" (.leaf "u1") (.leaf "x1")] [3, 1] = some f ∧ demo.shape = 2 :: f.coords.map List.length ∧
    f.rhs.get (place f.coords 1 1 2) = 7 ∧ ∃ r, residualFigure f = .ok r ∧ r.grid.get [1, 2] = -6 :=
  ⟨_, rfl, rfl, by decide +kernel, _, rfl, by decide +kernel⟩

end Verif.Claims.VizNd
