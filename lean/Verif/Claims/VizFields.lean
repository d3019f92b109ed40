import Verif.Viz.Fields
import Verif.Claims.Diff
/-!
# C118: the fields drawn for a DISCOVER equation

## Specification
-/
namespace Verif.Viz.Fields.Claims
open Verif.Data Verif.Discover Verif.Viz.Fields

variable {K : Type} [Field K]

/-- The value of a term as it was computed in training, at point `i` and time step `j` (`n` points, `m` times): field and coordinate,
sums, differences, products, powers, and the training operators for the derivatives (`Verif.Discover.FD`). -/
inductive Trained (x : List K) (u : Arr K) (n m : Nat) : Term → (Nat → Nat → K) → Prop
  | field : Trained x u n m (.leaf "u1") fun i j => u.get [i, j]
  | coord : Trained x u n m (.leaf "x1") fun i _ => (x[i]?).getD 0
  | add {o a b f g} (ho : o = "add" ∨ o = "add_t") (ha : Trained x u n m a f) (hb : Trained x u n m b g) :
      Trained x u n m (.bin o a b) fun i j => f i j + g i j
  | sub {o a b f g} (ho : o = "sub" ∨ o = "sub_t") (ha : Trained x u n m a f) (hb : Trained x u n m b g) :
      Trained x u n m (.bin o a b) fun i j => f i j - g i j
  | mul {o a b f g} (ho : o = "mul" ∨ o = "mul_t") (ha : Trained x u n m a f) (hb : Trained x u n m b g) :
      Trained x u n m (.bin o a b) fun i j => f i j * g i j
  | pow {o k a f} (ho : (o, k) ∈ [("n2", 2), ("n3", 3), ("n4", 4), ("n5", 5), ("n2_t", 2), ("n3_t", 3)])
      (ha : Trained x u n m a f) : Trained x u n m (.un o a) fun i j => f i j ^ k
  | neg {a f} (ha : Trained x u n m a f) : Trained x u n m (.un "neg" a) fun i j => -f i j
  | diff {o a f r} (ho : o = "diff" ∨ o = "diff_t") (ha : Trained x u n m a f)
      (hr : FD.diff (⟨[n, m], fun idx => f ((idx[0]?).getD 0) ((idx[1]?).getD 0)⟩ : Arr K) x = some r) :
      Trained x u n m (.bin o a (.leaf "x1")) fun i j => r.get [i, j]

/-- The two spacings the code reads off the axis agree. -/
def Even (x : List K) : Prop := ∃ a b c, x[0]? = some a ∧ x[1]? = some b ∧ x[2]? = some c ∧ b - a = c - b

/-! ## Lemmas -/

theorem grad_eq (h2 : (2 : K) ≠ 0) (h : K) (n : Nat) (f : Nat → K) (i : Nat) : grad h n f i = FD.d1 h n f i := by
  unfold grad FD.d1
  by_cases h0 : i = 0
  · rw [if_pos h0, if_pos h0]
    by_cases hh : h = 0
    · simp [hh]
    · field_simp; ring
  · rw [if_neg h0, if_neg h0]
    by_cases hl : i = n - 1
    · rw [if_pos hl, if_pos hl]
      by_cases hh : h = 0
      · simp [hh]
      · field_simp; ring
    · rw [if_neg hl, if_neg hl]

theorem even_spacing {x : List K} (hx : Even x) : ∃ h, FD.spacing x = some h ∧ ∃ a b r, x = a :: b :: r ∧ b - a = h := by
  obtain ⟨a, b, c, ha, hb, hc, he⟩ := hx
  refine ⟨c - b, by simp [FD.spacing, hb, hc], ?_⟩
  match x, ha, hb with
  | a' :: b' :: r, ha, hb =>
    simp at ha hb
    subst ha hb
    exact ⟨_, _, r, rfl, he⟩

theorem trained_eval (h2 : (2 : K) ≠ 0) {x : List K} {trig : String → K → K} {numeral : String → Option K} {u : Arr K} {n m : Nat}
    (hu : u.shape = [n, m]) (hx : Even x) {t : Term} {f : Nat → Nat → K} (h : Trained x u n m t f) (j : Nat) :
    ∃ g, eval (snapshot x trig numeral u j) t = .ok (.arr g) ∧ ∀ i, i < n → j < m → g [i] = f i j := by
  induction h with
  | field => exact ⟨_, rfl, fun i hi hj => rfl⟩
  | coord => exact ⟨_, rfl, fun i hi hj => rfl⟩
  | @add o a b f g ho _ _ iha ihb =>
    obtain ⟨v, hv, hvg⟩ := iha
    obtain ⟨w, hw, hwg⟩ := ihb
    have hb : bare o = "add" := by rcases ho with rfl | rfl <;> decide +kernel
    refine ⟨fun i => v i + w i, ?_, fun i hi hj => by simp only [hvg i hi hj, hwg i hi hj]⟩
    simp only [eval, hv, hw, hb]
    rfl
  | @sub o a b f g ho _ _ iha ihb =>
    obtain ⟨v, hv, hvg⟩ := iha
    obtain ⟨w, hw, hwg⟩ := ihb
    have hb : bare o = "sub" := by rcases ho with rfl | rfl <;> decide +kernel
    refine ⟨fun i => v i - w i, ?_, fun i hi hj => by simp only [hvg i hi hj, hwg i hi hj]⟩
    simp only [eval, hv, hw, hb]
    rfl
  | @mul o a b f g ho _ _ iha ihb =>
    obtain ⟨v, hv, hvg⟩ := iha
    obtain ⟨w, hw, hwg⟩ := ihb
    have hb : bare o = "mul" := by rcases ho with rfl | rfl <;> decide +kernel
    refine ⟨fun i => v i * w i, ?_, fun i hi hj => by simp only [hvg i hi hj, hwg i hi hj]⟩
    simp only [eval, hv, hw, hb]
    rfl
  | @pow o k a f ho _ iha =>
    obtain ⟨v, hv, hvg⟩ := iha
    refine ⟨fun i => v i ^ k, ?_, fun i hi hj => by simp only [hvg i hi hj]⟩
    simp only [eval, hv]
    simp only [List.mem_cons, Prod.mk.injEq, List.not_mem_nil, or_false] at ho
    rcases ho with ⟨rfl, rfl⟩ | ⟨rfl, rfl⟩ | ⟨rfl, rfl⟩ | ⟨rfl, rfl⟩ | ⟨rfl, rfl⟩ | ⟨rfl, rfl⟩ <;> rfl
  | @neg a f _ iha =>
    obtain ⟨v, hv, hvg⟩ := iha
    refine ⟨fun i => -v i, ?_, fun i hi hj => by simp only [hvg i hi hj]⟩
    simp only [eval, hv]
    rfl
  | @diff o a f r ho _ hr iha =>
    obtain ⟨v, hv, hvg⟩ := iha
    have hb : bare o = "diff" := by rcases ho with rfl | rfl <;> decide +kernel
    obtain ⟨h, hsp, p, q, xs, hxs, hstep⟩ := even_spacing hx
    have hn : ¬ n < 3 := by
      intro hn
      simp only [FD.diff, hsp] at hr
      rw [if_pos hn] at hr; cases hr
    have hrv : r = FD.alongAxis (FD.d1 h) 0 ⟨[n, m], fun idx => f ((idx[0]?).getD 0) ((idx[1]?).getD 0)⟩ := by
      simp only [FD.diff, hsp] at hr
      rw [if_neg hn] at hr; cases hr; rfl
    have hshape : (snapshot x trig numeral u j).shape = [n] := by simp [snapshot, hu]
    refine ⟨gradAxis h 0 [n] v, ?_, ?_⟩
    · simp only [eval, hv, hb]
      have h1 : leafVal (snapshot x trig numeral u j) "x1" = .ok (.arr fun i => (x[(i[0]?).getD 0]?).getD 0) := rfl
      rw [h1]
      show fd1 (snapshot x trig numeral u j) 1 (.arr v) = _
      have hst : step (snapshot x trig numeral u j) 0 = .ok h := by
        simp only [step, snapshot, List.getElem?_cons_zero, Option.getD_some, hxs, hstep]
      simp only [fd1, hst, fd, hshape]
      rw [if_neg (by omega), if_neg (by simpa using hn)]
      rfl
    · intro i hi hj
      rw [hrv]
      simp only [gradAxis, FD.alongAxis]
      rw [grad_eq h2]
      unfold FD.d1
      simp only [List.getElem?_cons_zero, Option.getD_some, List.set_cons_zero, List.getElem?_cons_succ]
      by_cases h0 : i = 0
      · rw [if_pos h0, if_pos h0, hvg 0 (by omega) hj, hvg 1 (by omega) hj, hvg 2 (by omega) hj]
      · rw [if_neg h0, if_neg h0]
        by_cases hl : i = n - 1
        · rw [if_pos hl, if_pos hl, hvg (n - 1) (by omega) hj, hvg (n - 2) (by omega) hj, hvg (n - 3) (by omega) hj]
        · rw [if_neg hl, if_neg hl, hvg (i + 1) (by omega) hj, hvg (i - 1) (by omega) hj]

/-- **C118** (terms): on an evenly spaced axis, a term made of the field, the coordinate, sums, differences, products, powers and first
derivatives is drawn with exactly the values it had in training, at every point and time. -/
theorem C118_term (h2 : (2 : K) ≠ 0) (x : List K) (trig : String → K → K) (numeral : String → Option K) (u : Arr K) (n m : Nat)
    (hu : u.shape = [n, m]) (hx : Even x) (t : Term) (f : Nat → Nat → K) (h : Trained x u n m t f) (i j : Nat) (hi : i < n) (hj : j < m) :
    ∃ v, eval (snapshot x trig numeral u j) t = .ok v ∧ v.at_ [i] = f i j := by
  obtain ⟨g, hg, hgi⟩ := trained_eval (trig := trig) h2 hu hx h j
  exact ⟨_, hg, hgi i hi hj⟩

theorem evalAll_trained (h2 : (2 : K) ≠ 0) (x : List K) (trig : String → K → K) (numeral : String → Option K) (u : Arr K) (n m : Nat)
    (hu : u.shape = [n, m]) (hx : Even x) (i j : Nat) (hi : i < n) (hj : j < m) :
    ∀ (ts : List Term) (fs : List (Nat → Nat → K)), List.Forall₂ (Trained x u n m) ts fs →
      ∃ vs, evalAll (snapshot x trig numeral u j) ts = .ok vs ∧ vs.map (fun v => v.at_ [i]) = fs.map fun f => f i j := by
  intro ts fs h
  induction h with
  | nil => exact ⟨[], rfl, rfl⟩
  | cons ht _ ih =>
    obtain ⟨v, hv, hvi⟩ := C118_term h2 x trig numeral u n m hu hx _ _ ht i j hi hj
    obtain ⟨vs, hvs, hvsi⟩ := ih
    exact ⟨v :: vs, by simp only [evalAll, hv, hvs], by simp [hvi, hvsi]⟩

/-- **C118** (the figure): for such terms the right-hand side drawn at every point is the sum of coefficients times training values, plus
the constant if there is one coefficient more than terms; the residual is the left-hand side minus that; another number of
coefficients is refused. -/
theorem C118_field (h2 : (2 : K) ≠ 0) (x : List K) (trig : String → K → K) (numeral : String → Option K) (u ut : Arr K) (n m : Nat)
    (hu : u.shape = [n, m]) (hx : Even x) (ts : List Term) (fs : List (Nat → Nat → K)) (hts : List.Forall₂ (Trained x u n m) ts fs)
    (w : List K) (i j : Nat) (hi : i < n) (hj : j < m) :
    (∀ c0 ws, w = ws ++ [c0] → ws.length = ts.length → ∃ p, fieldAt x trig numeral u ut ts w i j = .ok p ∧ p.ut = ut.get [i, j] ∧
      p.rhs = (List.zipWith (fun f c => f i j * c) fs ws).sum + c0 ∧ p.residual = ut.get [i, j] - p.rhs ∧ x[i]?.getD 0 = p.x) ∧
    (w.length = ts.length → ∃ p, fieldAt x trig numeral u ut ts w i j = .ok p ∧ p.ut = ut.get [i, j] ∧
      p.rhs = (List.zipWith (fun f c => f i j * c) fs w).sum ∧ p.residual = ut.get [i, j] - p.rhs ∧ x[i]?.getD 0 = p.x) ∧
    (w.length ≠ ts.length → w.length ≠ ts.length + 1 → fieldAt x trig numeral u ut ts w i j = .error .value) := by
  obtain ⟨vs, hvs, hvi⟩ := evalAll_trained h2 x trig numeral u n m hu hx i j hi hj ts fs hts
  have hlen : (vs.map fun v => v.at_ [i]).length = ts.length := by rw [hvi, List.length_map]; exact hts.length_eq.symm
  have hfl : fs.length = ts.length := hts.length_eq.symm
  refine ⟨?_, ?_, ?_⟩
  · rintro c0 ws rfl hw
    have hc : combine (vs.map fun v => v.at_ [i]) (ws ++ [c0]) = .ok ((List.zipWith (fun f c => f i j * c) fs ws).sum + c0) := by
      unfold combine
      rw [if_pos (by rw [hlen]; simp [hw])]
      rw [hvi]
      have h3 : List.zipWith (· * ·) (fs.map fun f => f i j) (ws ++ [c0]) = List.zipWith (fun f c => f i j * c) fs ws := by
        have hz : List.zipWith (· * ·) ((fs.map fun f => f i j) ++ []) (ws ++ [c0]) = _ :=
          List.zipWith_append (by rw [List.length_map, hfl, hw])
        rw [List.append_nil] at hz
        rw [hz]
        simp [List.zipWith_map_left]
      rw [h3]
      simp
    exact ⟨⟨ut.get [i, j], _, _, (x[i]?).getD 0, j⟩, by unfold fieldAt; rw [hvs]; simp only [hc]; rfl, rfl, rfl, rfl, rfl⟩
  · intro hw
    have hc : combine (vs.map fun v => v.at_ [i]) w = .ok (List.zipWith (fun f c => f i j * c) fs w).sum := by
      unfold combine
      rw [if_neg (by rw [hlen]; omega), if_pos (by rw [hlen]; omega), hvi, List.zipWith_map_left]
    exact ⟨⟨ut.get [i, j], _, _, (x[i]?).getD 0, j⟩, by unfold fieldAt; rw [hvs]; simp only [hc]; rfl, rfl, rfl, rfl, rfl⟩
  · intro h1 h3
    unfold fieldAt combine
    rw [hvs]
    simp only
    rw [if_neg (by rw [hlen]; omega), if_neg (by rw [hlen]; omega)]

/-! ## Second derivatives -/

theorem binVal_diff2 (e : Env K) (a b : Val K) (c : Term) : binVal e "diff2" a b c = fd1 e 2 a := by simp [binVal]
theorem binVal_Diff3 (e : Env K) (a b : Val K) (c : Term) : binVal e "Diff_3" a b c = fdN e 1 a c := by simp [binVal]

/-- **C118** (second derivatives, partial): for a field that is quadratic in `x` at every time, the second derivative drawn is the exact one, like
the one used in training. -/
theorem C118_second_partial (h2 : (2 : K) ≠ 0) (x0 h : K) (hh : h ≠ 0) (trig : String → K → K) (numeral : String → Option K) (n m : Nat)
    (hn : 4 ≤ n) (u : Arr K) (hu : u.shape = [n, m]) (a b c : Nat → K)
    (hq : ∀ i j : Nat, i < n → j < m → u.get [i, j] = a j + b j * (x0 + i * h) + c j * (x0 + i * h) ^ 2) (i j : Nat) (hi : i < n) (hj : j < m) :
    (∃ v, eval (snapshot (FD.Claims.grid x0 h n) trig numeral u j) (.bin "diff2" (.leaf "u1") (.leaf "x1")) = .ok v ∧ v.at_ [i] = 2 * c j) ∧
    ∃ r, FD.diff2 u (FD.Claims.grid x0 h n) = some r ∧ r.get [i, j] = 2 * c j := by
  constructor
  · have hgl : ∀ k, k < n → (FD.Claims.grid x0 h n)[k]? = some (x0 + (k : K) * h) := by
      intro k hk; simp [FD.Claims.grid, hk]
    have hst : step (snapshot (FD.Claims.grid x0 h n) trig numeral u j) 0 = .ok h := by
      have e0 := hgl 0 (by omega)
      have e1 := hgl 1 (by omega)
      unfold step snapshot
      simp only [List.getElem?_cons_zero, Option.getD_some]
      match hx : FD.Claims.grid x0 h n, e0, e1 with
      | p :: q :: r, e0, e1 =>
        simp at e0 e1
        simp only [e0, e1]
        congr 1; ring
    have hshape : (snapshot (FD.Claims.grid x0 h n) trig numeral u j).shape = [n] := by simp [snapshot, hu]
    refine ⟨.arr ((gradAxis h 0 [n])^[2] fun i => u.get [(i[0]?).getD 0, j]), ?_, ?_⟩
    · have h1 : leafVal (snapshot (FD.Claims.grid x0 h n) trig numeral u j) "x1" =
        .ok (.arr fun i => ((FD.Claims.grid x0 h n)[(i[0]?).getD 0]?).getD 0) := rfl
      have h3 : leafVal (snapshot (FD.Claims.grid x0 h n) trig numeral u j) "u1" = .ok (.arr fun i => u.get [(i[0]?).getD 0, j]) := rfl
      have h4 : bare "diff2" = "diff2" := by decide +kernel
      simp only [eval, h1, h3, h4]
      rw [binVal_diff2]
      simp only [fd1, hst, fd, hshape]
      rw [if_neg (by omega), if_neg (by simp; omega)]
    · show gradAxis h 0 [n] (gradAxis h 0 [n] fun i => u.get [(i[0]?).getD 0, j]) [i] = _
      simp only [gradAxis, List.getElem?_cons_zero, Option.getD_some, List.set_cons_zero]
      rw [grad_eq h2]
      rw [FD.Claims.d1_quadratic h2 (b j) (2 * c j) 0 x0 h hh n (by omega) _ (fun k hk => ?_) i hi]
      · ring
      · rw [grad_eq h2, FD.Claims.d1_quadratic h2 (a j) (b j) (c j) x0 h hh n (by omega) _ (fun l hl => hq l j hl hj) k hk]
        ring
  · obtain ⟨r, hr, _, hrg⟩ := FD.Claims.C76_second_1d x0 h hh n m hn u hu a b c (fun _ => 0) (fun i j hi hj => by rw [hq i j hi hj]; ring)
    exact ⟨r, hr, by rw [hrg i j hi hj]; ring⟩

/-- A hump on five points. -/
def hump : Arr ℚ := ⟨[5, 1], fun i => if i = [2, 0] then 1 else 0⟩

/-- The value drawn for a term, for evaluation. -/
def drawn (u : Arr ℚ) (x : List ℚ) (t : Term) (i j : Nat) : Option ℚ :=
  match eval (snapshot x (fun _ a => a) (fun _ => none) u j) t with
  | .ok v => some (v.at_ [i])
  | .error _ => none

/-- **C118 (violated).** The figures do not show the values used in training: a second derivative is drawn as the derivative of the
derivative (here -1/2 where training has -2), a quotient with a shifted divisor, an unevenly spaced axis with its first instead of its
second spacing; and an equation with `exp`, `log`, `sqrt` or `abs` cannot be drawn. -/
theorem C118_counterexample :
    drawn hump [0, 1, 2, 3, 4] (.bin "diff2" (.leaf "u1") (.leaf "x1")) 2 0 = some (-1 / 2) ∧
    (FD.diff2 hump [0, 1, 2, 3, 4]).map (fun r => r.get [2, 0]) = some (-2) ∧
    drawn hump [0, 1, 2, 3, 4] (.bin "div" (.leaf "u1") (.leaf "u1")) 2 0 = some (100000000 / 100000001) ∧
    drawn hump [0, 1, 3, 5, 7] (.bin "diff" (.leaf "u1") (.leaf "x1")) 1 0 = some (1 / 2) ∧
    (FD.diff hump [0, 1, 3, 5, 7]).map (fun r => r.get [1, 0]) = some (1 / 4) ∧
    (∀ o ∈ ["exp", "log", "sqrt", "abs"], ∀ (e : Env ℚ), eval e (.un o (.leaf "u1")) = .error .value) := by
  refine ⟨by decide +kernel, by decide +kernel, by decide +kernel, by decide +kernel, by decide +kernel, ?_⟩
  intro o ho e
  simp only [List.mem_cons, List.not_mem_nil, or_false] at ho
  rcases ho with rfl | rfl | rfl | rfl <;> rfl

/-- **C118 (violated).** The time axis of the field figures is the number of the time step, whatever the times of the data. -/
theorem C118_time_counterexample (x : List K) (trig : String → K → K) (numeral : String → Option K) (u ut : Arr K) (ts : List Term) (w : List K)
    (i j : Nat) (p : Point K) (h : fieldAt x trig numeral u ut ts w i j = .ok p) : p.t = j := by
  unfold fieldAt at h
  split at h
  · cases h
  · split at h
    · cases h
    · cases h; rfl

/-! ## Several space dimensions -/

/-- **C118** (three space dimensions): a first derivative of the field along any axis is drawn with the values used in training. -/
theorem C118_three (h2 : (2 : K) ≠ 0) (coords : List (List K)) (trig : String → K → K) (numeral : String → Option K) (u r : Arr K)
    (nt n1 n2 n3 : Nat) (hu : u.shape = [nt, n1, n2, n3]) (k : Nat) (name : String) (x : List K)
    (hk : (name, k) ∈ [("x1", 0), ("x2", 1), ("x3", 2)]) (hc : coords.length = 3) (hx : coords[k]? = some x) (he : Even x)
    (ho : ¬ u.shape = [x.length, 1]) (hr : FD.diffThree u x (k + 1) = some r) (j i1 i2 i3 : Nat) :
    ∃ v, eval (snapshotN coords trig numeral u j) (.bin "Diff_3" (.leaf "u1") (.leaf name)) = .ok v ∧
      v.at_ [i1, i2, i3] = r.get [j, i1, i2, i3] := by
  obtain ⟨h, hsp, p, q, xs, hxs, hstep⟩ := even_spacing he
  have hax : axisOf name = some k := by
    simp only [List.mem_cons, Prod.mk.injEq, List.not_mem_nil, or_false] at hk
    rcases hk with ⟨rfl, rfl⟩ | ⟨rfl, rfl⟩ | ⟨rfl, rfl⟩ <;> rfl
  have hu1 : name ≠ "u1" := by
    simp only [List.mem_cons, Prod.mk.injEq, List.not_mem_nil, or_false] at hk
    rcases hk with ⟨rfl, rfl⟩ | ⟨rfl, rfl⟩ | ⟨rfl, rfl⟩ <;> decide
  have hk3 : k < 3 := by
    simp only [List.mem_cons, Prod.mk.injEq, List.not_mem_nil, or_false] at hk
    omega
  have hst : step (snapshotN coords trig numeral u j) k = .ok h := by
    simp only [step, snapshotN, hx, Option.getD_some, hxs, hstep]
  have hshape : (snapshotN coords trig numeral u j).shape = [n1, n2, n3] := by simp [snapshotN, hu]
  have hnd : (snapshotN coords trig numeral u j).nd = true := by simp [Env.nd, snapshotN, hc]
  have hleaf : leafVal (snapshotN coords trig numeral u j) name = .ok (.arr fun i => (x[(i[k]?).getD 0]?).getD 0) := by
    unfold leafVal
    rw [if_neg hu1, hax]
    simp only
    rw [if_pos (Or.inr hnd)]
    simp only [snapshotN, hx]
  unfold FD.diffThree at hr
  rw [if_neg ho, hu, hsp] at hr
  simp only at hr
  have hsize : ∃ n, ([n1, n2, n3][k]?).getD 0 = n ∧ ¬ n < 3 ∧ r = FD.alongAxis (FD.d1 h) (k + 1) u := by
    have : k = 0 ∨ k = 1 ∨ k = 2 := by omega
    rcases this with rfl | rfl | rfl
    · rw [if_pos rfl] at hr
      by_cases hn : n1 < 3
      · rw [if_pos hn] at hr; cases hr
      · rw [if_neg hn] at hr; cases hr; exact ⟨n1, rfl, hn, rfl⟩
    · rw [if_neg (by omega), if_pos rfl] at hr
      by_cases hn : n2 < 3
      · rw [if_pos hn] at hr; cases hr
      · rw [if_neg hn] at hr; cases hr; exact ⟨n2, rfl, hn, rfl⟩
    · rw [if_neg (by omega), if_neg (by omega), if_pos rfl] at hr
      by_cases hn : n3 < 3
      · rw [if_pos hn] at hr; cases hr
      · rw [if_neg hn] at hr; cases hr; exact ⟨n3, rfl, hn, rfl⟩
  obtain ⟨n, hn1, hn2, hrr⟩ := hsize
  refine ⟨.arr (gradAxis h k [n1, n2, n3] fun i => u.get (j :: i)), ?_, ?_⟩
  · have h3 : leafVal (snapshotN coords trig numeral u j) "u1" = .ok (.arr fun i => u.get (j :: i)) := rfl
    have h4 : bare "Diff_3" = "Diff_3" := by decide +kernel
    simp only [eval, h3, hleaf, h4]
    rw [binVal_Diff3]
    simp only [fdN, hax, hst, fd, hshape]
    rw [if_neg (by omega), if_neg (by rw [hn1]; exact hn2)]
    rfl
  · rw [hrr]
    simp only [Val.at_, gradAxis, FD.alongAxis]
    rw [grad_eq h2, hu]
    simp

/-- The three-dimensional statement is met by the field `x1 x2 x3` on a cube of three points a side. -/
example : ∃ r, FD.diffThree (⟨[2, 3, 3, 3], fun i => ((i.drop 1).prod : Nat)⟩ : Arr ℚ) [0, 1, 2] 1 = some r ∧ r.get [0, 1, 2, 2] = 4 :=
  ⟨_, rfl, by decide +kernel⟩

/-- **C118 (violated).** With two space dimensions training closes the ends periodically, the figure does not. -/
theorem C118_two_counterexample :
    let u : Arr ℚ := ⟨[1, 3, 3], fun i => ((i.getD 1 0 : Nat) : ℚ)⟩
    (∃ v, eval (snapshotN [[0, 1, 2], [0, 1, 2]] (fun _ a => a) (fun _ => none) u 0) (.bin "Diff" (.leaf "u1") (.leaf "x1")) = .ok v ∧
      v.at_ [0, 0] = 1) ∧
    ∃ r, FD.diffTwo u [0, 1, 2] 1 = some r ∧ r.get [0, 0, 0] = -1 / 2 := by
  refine ⟨⟨_, rfl, by decide +kernel⟩, _, rfl, by decide +kernel⟩

/-- The equation u_t = u u_x on an even axis meets the hypotheses of `C118_field`. -/
example : Even ([0, 1, 2] : List ℚ) ∧ ∃ f, Trained [0, 1, 2] (⟨[3, 2], fun i => ((i.sum : Nat) : ℚ)⟩ : Arr ℚ) 3 2
    (.bin "mul" (.leaf "u1") (.bin "diff" (.leaf "u1") (.leaf "x1"))) f ∧ f 1 1 = 2 := by
  refine ⟨⟨0, 1, 2, rfl, rfl, rfl, by norm_num⟩, _, .mul (.inl rfl) .field (.diff (.inl rfl) .field rfl), ?_⟩
  decide +kernel

/-- **C118** (arithmetic): whatever the operands are – numbers, fields or both –, sums, differences, products, quotients (with `1e-8` added to the divisor),
powers and negatives are drawn entry by entry, in the order of the operands. -/
theorem C118_arithmetic (e : Env K) (a b : Term) (va vb : Val K) (ha : eval e a = .ok va) (hb : eval e b = .ok vb) (i : List Nat) :
    (∀ o g, (o, g) ∈ [("add", fun x y : K => x + y), ("add_t", fun x y => x + y), ("sub", fun x y => x - y), ("sub_t", fun x y => x - y),
        ("mul", fun x y => x * y), ("mul_t", fun x y => x * y), ("div", fun x y => x / (y + 1 / 10 ^ 8)), ("div_t", fun x y => x / (y + 1 / 10 ^ 8))] →
      ∃ v, eval e (.bin o a b) = .ok v ∧ v.at_ i = g (va.at_ i) (vb.at_ i)) ∧
    (∀ o g, (o, g) ∈ [("n2", fun x : K => x ^ 2), ("n2_t", fun x => x ^ 2), ("n3", fun x => x ^ 3), ("n3_t", fun x => x ^ 3), ("n4", fun x => x ^ 4),
        ("n5", fun x => x ^ 5), ("inv", fun x => 1 / (x + 1 / 10 ^ 8)), ("neg", fun x => -x)] →
      ∃ v, eval e (.un o a) = .ok v ∧ v.at_ i = g (va.at_ i)) := by
  have hbare : bare "add" = "add" ∧ bare "add_t" = "add" ∧ bare "sub" = "sub" ∧ bare "sub_t" = "sub" ∧ bare "mul" = "mul" ∧ bare "mul_t" = "mul" ∧
      bare "div" = "div" ∧ bare "div_t" = "div" ∧ bare "n2" = "n2" ∧ bare "n2_t" = "n2" ∧ bare "n3" = "n3" ∧ bare "n3_t" = "n3" ∧ bare "n4" = "n4" ∧
      bare "n5" = "n5" ∧ bare "inv" = "inv" ∧ bare "neg" = "neg" := by
    refine ⟨?_, ?_, ?_, ?_, ?_, ?_, ?_, ?_, ?_, ?_, ?_, ?_, ?_, ?_, ?_, ?_⟩ <;> decide +kernel
  obtain ⟨b1, b2, b3, b4, b5, b6, b7, b8, b9, b10, b11, b12, b13, b14, b15, b16⟩ := hbare
  constructor
  · intro o g hm
    simp only [List.mem_cons, Prod.mk.injEq, List.not_mem_nil, or_false] at hm
    rcases hm with ⟨rfl, rfl⟩ | ⟨rfl, rfl⟩ | ⟨rfl, rfl⟩ | ⟨rfl, rfl⟩ | ⟨rfl, rfl⟩ | ⟨rfl, rfl⟩ | ⟨rfl, rfl⟩ | ⟨rfl, rfl⟩ <;>
      simp only [eval, ha, hb, b1, b2, b3, b4, b5, b6, b7, b8, binVal] <;>
      refine ⟨_, rfl, ?_⟩ <;> cases va <;> cases vb <;> rfl
  · intro o g hm
    simp only [List.mem_cons, Prod.mk.injEq, List.not_mem_nil, or_false] at hm
    rcases hm with ⟨rfl, rfl⟩ | ⟨rfl, rfl⟩ | ⟨rfl, rfl⟩ | ⟨rfl, rfl⟩ | ⟨rfl, rfl⟩ | ⟨rfl, rfl⟩ | ⟨rfl, rfl⟩ | ⟨rfl, rfl⟩ <;>
      simp only [eval, ha, b9, b10, b11, b12, b13, b14, b15, b16, unVal] <;>
      refine ⟨_, rfl, ?_⟩ <;> cases va <;> rfl

/-- **C118** (Laplacian): in two or three space dimensions the Laplacian of a term is drawn as the sum of its second derivatives as they are
drawn along the axes. -/
theorem C118_laplacian (e : Env K) (t : Term) (f : List Nat → K) (ht : eval e t = .ok (.arr f))
    (v1 v2 : Val K) (h1 : eval e (.bin "Diff2_3" t (.leaf "x1")) = .ok v1) (h2 : eval e (.bin "Diff2_3" t (.leaf "x2")) = .ok v2) :
    (e.coords.length = 2 → ∃ v, eval e (.un "lap_3" t) = .ok v ∧ ∀ i, v.at_ i = v1.at_ i + v2.at_ i) ∧
    (e.coords.length = 3 → ∀ v3, eval e (.bin "Diff2_3" t (.leaf "x3")) = .ok v3 →
      ∃ v, eval e (.un "lap_3" t) = .ok v ∧ ∀ i, v.at_ i = v1.at_ i + v2.at_ i + v3.at_ i) := by
  have hb : bare "lap_3" = "lap_3" := by decide +kernel
  have hb2 : bare "Diff2_3" = "Diff2_3" := by decide +kernel
  have key : ∀ name k v, axisOf name = some k → eval e (.bin "Diff2_3" t (.leaf name)) = .ok v →
      ∃ h g, step e k = .ok h ∧ fd h 2 k e.shape f = .ok g ∧ v = .arr g := by
    intro name k v hk hv
    rw [eval, ht] at hv
    simp only at hv
    cases hl : eval e (.leaf name) with
    | error x => rw [hl] at hv; cases hv
    | ok w =>
      rw [hl] at hv
      simp only [hb2] at hv
      have : binVal e "Diff2_3" (.arr f) w (.leaf name) = fdN e 2 (.arr f) (.leaf name) := by simp [binVal]
      rw [this] at hv
      simp only [fdN, hk] at hv
      cases hs : step e k with
      | error x => rw [hs] at hv; cases hv
      | ok h =>
        rw [hs] at hv
        simp only at hv
        cases hf : fd h 2 k e.shape f with
        | error x => rw [hf] at hv; cases hv
        | ok g => rw [hf] at hv; cases hv; exact ⟨h, g, rfl, hf, rfl⟩
  obtain ⟨a1, g1, s1, d1, rfl⟩ := key "x1" 0 v1 rfl h1
  obtain ⟨a2, g2, s2, d2, rfl⟩ := key "x2" 1 v2 rfl h2
  refine ⟨fun hc => ?_, fun hc v3 h3 => ?_⟩
  · have hr : List.range e.coords.length = [0, 1] := by rw [hc]; rfl
    refine ⟨.arr fun i => g1 i + (g2 i + 0), ?_, fun i => by simp [Val.at_]⟩
    rw [eval, ht]
    simp only [hb]
    have : unVal e "lap_3" (.arr f) = lap e (.arr f) := by simp [unVal]
    rw [this]
    have hnd : e.nd = true := by simp [Env.nd, hc]
    simp only [lap, hnd, if_true, hr, lapSum, s1, s2, d1, d2]
  · obtain ⟨a3, g3, s3, d3, rfl⟩ := key "x3" 2 v3 rfl h3
    have hr : List.range e.coords.length = [0, 1, 2] := by rw [hc]; rfl
    refine ⟨.arr fun i => g1 i + (g2 i + (g3 i + 0)), ?_, fun i => by simp [Val.at_]; ring⟩
    rw [eval, ht]
    simp only [hb]
    have : unVal e "lap_3" (.arr f) = lap e (.arr f) := by simp [unVal]
    rw [this]
    have hnd : e.nd = true := by simp [Env.nd, hc]
    simp only [lap, hnd, if_true, hr, lapSum, s1, s2, s3, d1, d2, d3]

theorem fd1_next (e : Env K) (order : Nat) (h1 : 1 ≤ order) (h3 : order ≤ 3) (v : Val K) :
    fd1 e (order + 1) v = match fd1 e order v with
      | .error x => .error x
      | .ok w => fd1 e 1 w := by
  cases v with
  | num a => rfl
  | arr f =>
    simp only [fd1]
    cases step e 0 with
    | error x => rfl
    | ok h =>
      have e1 : ¬ (order + 1 < 1 ∨ 4 < order + 1) := by omega
      have e2 : ¬ (order < 1 ∨ 4 < order) := by omega
      simp only [fd, e1, e2, if_false]
      by_cases hs : (e.shape[0]?).getD 0 < 3
      · simp [hs]
      · simp only [hs, if_false]
        rw [Function.iterate_succ']
        simp

/-- **C118** (higher derivatives): the second, third and fourth derivative of a term are drawn as the derivative of the next lower one, with the same
failures. -/
theorem C118_higher (e : Env K) (t x : Term) :
    eval e (.bin "diff2" t x) = eval e (.bin "diff" (.bin "diff" t x) x) ∧
    eval e (.bin "diff3" t x) = eval e (.bin "diff" (.bin "diff2" t x) x) ∧
    eval e (.bin "diff4" t x) = eval e (.bin "diff" (.bin "diff3" t x) x) := by
  have b1 : bare "diff" = "diff" := by decide +kernel
  have b2 : bare "diff2" = "diff2" := by decide +kernel
  have b3 : bare "diff3" = "diff3" := by decide +kernel
  have b4 : bare "diff4" = "diff4" := by decide +kernel
  simp only [eval, b1, b2, b3, b4]
  cases eval e t with
  | error y => exact ⟨rfl, rfl, rfl⟩
  | ok v =>
    cases eval e x with
    | error y => exact ⟨rfl, rfl, rfl⟩
    | ok w =>
      have c1 : ∀ v, binVal e "diff" v w x = fd1 e 1 v := fun v => by simp [binVal]
      have c2 : ∀ v, binVal e "diff2" v w x = fd1 e 2 v := fun v => by simp [binVal]
      have c3 : ∀ v, binVal e "diff3" v w x = fd1 e 3 v := fun v => by simp [binVal]
      have c4 : ∀ v, binVal e "diff4" v w x = fd1 e 4 v := fun v => by simp [binVal]
      simp only [c1, c2, c3, c4]
      refine ⟨?_, ?_, ?_⟩
      · rw [fd1_next e 1 (by omega) (by omega)]; cases fd1 e 1 v <;> rfl
      · rw [fd1_next e 2 (by omega) (by omega)]; cases fd1 e 2 v <;> rfl
      · rw [fd1_next e 3 (by omega) (by omega)]; cases fd1 e 3 v <;> rfl

/-- **C118** (Laplacian on a line): with one space dimension the Laplacian of a term is drawn as its second derivative. -/
theorem C118_laplacian_line (e : Env K) (t x : Term) (v : Val K) (h1 : e.coords.length = 1)
    (hv : eval e (.bin "diff2" t x) = .ok v) : eval e (.un "lap" t) = .ok v := by
  have hb : bare "lap" = "lap" := by decide +kernel
  have hb2 : bare "diff2" = "diff2" := by decide +kernel
  simp only [eval] at hv ⊢
  cases ht : eval e t with
  | error y => rw [ht] at hv; cases hv
  | ok w =>
    rw [ht] at hv
    simp only at hv ⊢
    cases hx : eval e x with
    | error y => rw [hx] at hv; cases hv
    | ok w' =>
      rw [hx] at hv
      simp only [hb2, hb] at hv ⊢
      have e1 : binVal e "diff2" w w' x = fd1 e 2 w := by simp [binVal]
      have e2 : unVal e "lap" w = lap e w := by simp [unVal]
      have hnd : e.nd = false := by simp [Env.nd, h1]
      rw [e1] at hv
      simp only [e2, lap, hnd]
      exact hv

/-- Met by the field `x1² + x2²` on a square of five points a side: the Laplacian drawn in the middle is 4. -/
example :
    let e : Env ℚ := ⟨[5, 5], fun i => ((i.getD 0 0 : Nat) : ℚ) ^ 2 + ((i.getD 1 0 : Nat) : ℚ) ^ 2, [[0, 1, 2, 3, 4], [0, 1, 2, 3, 4]], fun _ a => a, fun _ => none⟩
    ∃ v, eval e (.un "lap_3" (.leaf "u1")) = .ok v ∧ v.at_ [2, 2] = 4 := ⟨_, rfl, by decide +kernel⟩

/-- **C118 (violated).** Quotients and reciprocals are drawn with `1e-8` added to the denominator; training divides by the denominator itself. -/
theorem C118_quotient_counterexample (e : Env K) (a b : Term) (f g : List Nat → K) (ha : eval e a = .ok (.arr f)) (hb : eval e b = .ok (.arr g)) :
    (∃ v, eval e (.bin "div" a b) = .ok v ∧ ∀ i, v.at_ i = f i / (g i + 1 / 10 ^ 8)) ∧
    (∃ v, eval e (.un "inv" b) = .ok v ∧ ∀ i, v.at_ i = 1 / (g i + 1 / 10 ^ 8)) := by
  have h1 : bare "div" = "div" := by decide +kernel
  have h2 : bare "inv" = "inv" := by decide +kernel
  refine ⟨⟨.arr fun i => f i / (g i + 1 / 10 ^ 8), ?_, fun i => rfl⟩, ⟨.arr fun i => 1 / (g i + 1 / 10 ^ 8), ?_, fun i => rfl⟩⟩
  · rw [eval, ha]
    simp only [hb, h1]
    rfl
  · rw [eval, hb]
    simp only [h2]
    rfl

end Verif.Viz.Fields.Claims
