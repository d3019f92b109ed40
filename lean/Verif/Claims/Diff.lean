import Verif.Discover.Diff
import Mathlib.Tactic.Ring
import Mathlib.Tactic.FieldSimp
import Mathlib.Tactic.Linarith
import Mathlib.Algebra.Order.Ring.Rat
/-!
# C76: the derivative operators of DISCOVER
-/
namespace Verif.Discover.FD.Claims
open Verif.Data Verif.Discover.FD

variable {K : Type} [Field K]

/-- The uniform grid `x0, x0 + h, …` of `n` points. -/
def grid (x0 h : K) (n : Nat) : List K := (List.range n).map fun (i : Nat) => x0 + (i : K) * h

theorem spacing_grid (x0 h : K) (n : Nat) (hn : 3 ≤ n) : spacing (grid x0 h n) = some h := by
  have e1 : (grid x0 h n)[1]? = some (x0 + ((1 : Nat) : K) * h) := by simp [grid, show 1 < n by omega]
  have e2 : (grid x0 h n)[2]? = some (x0 + ((2 : Nat) : K) * h) := by simp [grid, show 2 < n by omega]
  simp only [spacing, e1, e2, Option.some.injEq]
  push_cast; ring

/-- One line, one-sided ends: exact for quadratics. -/
theorem d1_quadratic (h2 : (2 : K) ≠ 0) (a b c x0 h : K) (hh : h ≠ 0) (n : Nat) (hn : 3 ≤ n) (f : Nat → K)
    (hf : ∀ i, i < n → f i = a + b * (x0 + i * h) + c * (x0 + i * h) ^ 2) (i : Nat) (hi : i < n) :
    d1 h n f i = b + 2 * c * (x0 + i * h) := by
  unfold d1
  by_cases h0 : i = 0
  · subst h0
    rw [if_pos rfl, hf 0 (by omega), hf 1 (by omega), hf 2 (by omega)]
    push_cast; field_simp; ring
  · rw [if_neg h0]
    by_cases hl : i = n - 1
    · rw [if_pos hl, hf _ (by omega), hf _ (by omega), hf _ (by omega)]
      obtain ⟨m, rfl⟩ : ∃ m, n = m + 3 := ⟨n - 3, by omega⟩
      subst hl
      have e1 : m + 3 - 1 = m + 2 := by omega
      have e2 : m + 3 - 2 = m + 1 := by omega
      have e3 : m + 3 - 3 = m := by omega
      rw [e1, e2, e3]
      push_cast; field_simp; ring
    · rw [if_neg hl, hf _ (by omega), hf _ (by omega)]
      obtain ⟨m, rfl⟩ : ∃ m, i = m + 1 := ⟨i - 1, by omega⟩
      have e1 : m + 1 - 1 = m := by omega
      rw [e1]
      push_cast; field_simp; ring

/-- One line, one-sided ends: the second derivative is exact for cubics. -/
theorem d2_cubic (a b c d x0 h : K) (hh : h ≠ 0) (n : Nat) (hn : 4 ≤ n) (f : Nat → K)
    (hf : ∀ i, i < n → f i = a + b * (x0 + i * h) + c * (x0 + i * h) ^ 2 + d * (x0 + i * h) ^ 3) (i : Nat) (hi : i < n) :
    d2 h n f i = 2 * c + 6 * d * (x0 + i * h) := by
  unfold d2
  by_cases h0 : i = 0
  · subst h0
    rw [if_pos rfl, hf 0 (by omega), hf 1 (by omega), hf 2 (by omega), hf 3 (by omega)]
    push_cast; field_simp; ring
  · rw [if_neg h0]
    by_cases hl : i = n - 1
    · rw [if_pos hl, hf _ (by omega), hf _ (by omega), hf _ (by omega), hf _ (by omega)]
      obtain ⟨m, rfl⟩ : ∃ m, n = m + 4 := ⟨n - 4, by omega⟩
      subst hl
      have e1 : m + 4 - 1 = m + 3 := by omega
      have e2 : m + 4 - 2 = m + 2 := by omega
      have e3 : m + 4 - 3 = m + 1 := by omega
      have e4 : m + 4 - 4 = m := by omega
      rw [e1, e2, e3, e4]
      push_cast; field_simp; ring
    · rw [if_neg hl, hf _ (by omega), hf _ (by omega), hf _ (by omega)]
      obtain ⟨m, rfl⟩ : ∃ m, i = m + 1 := ⟨i - 1, by omega⟩
      have e1 : m + 1 - 1 = m := by omega
      rw [e1]
      push_cast; field_simp; ring

/-! ## One space dimension -/

/-- **C76**, `diff`: for every array (points × times) whose columns are quadratic in `x` – each time with its own coefficients – the
result is the exact derivative at every point, the ends included. -/
theorem C76_first_1d (h2 : (2 : K) ≠ 0) (x0 h : K) (hh : h ≠ 0) (n m : Nat) (hn : 3 ≤ n) (u : Arr K) (hs : u.shape = [n, m])
    (a b c : Nat → K)
    (hu : ∀ i j : Nat, i < n → j < m → u.get [i, j] = a j + b j * (x0 + i * h) + c j * (x0 + i * h) ^ 2) :
    ∃ r, diff u (grid x0 h n) = some r ∧ r.shape = [n, m] ∧
      ∀ i j : Nat, i < n → j < m → r.get [i, j] = b j + 2 * c j * (x0 + i * h) := by
  refine ⟨alongAxis (d1 h) 0 u, ?_, hs, ?_⟩
  · simp only [diff, hs, spacing_grid x0 h n hn]
    rw [if_neg (by omega)]
  · intro i j hi hj
    simp only [alongAxis, hs]
    simpa using d1_quadratic h2 (a j) (b j) (c j) x0 h hh n hn (fun k => u.get [k, j]) (fun k hk => hu k j hk hj) i hi

/-- **C76**, `diff2`: exact for every array whose columns are cubic in `x`. -/
theorem C76_second_1d (x0 h : K) (hh : h ≠ 0) (n m : Nat) (hn : 4 ≤ n) (u : Arr K) (hs : u.shape = [n, m]) (a b c d : Nat → K)
    (hu : ∀ i j : Nat, i < n → j < m →
      u.get [i, j] = a j + b j * (x0 + i * h) + c j * (x0 + i * h) ^ 2 + d j * (x0 + i * h) ^ 3) :
    ∃ r, diff2 u (grid x0 h n) = some r ∧ r.shape = [n, m] ∧
      ∀ i j : Nat, i < n → j < m → r.get [i, j] = 2 * c j + 6 * d j * (x0 + i * h) := by
  refine ⟨alongAxis (d2 h) 0 u, ?_, hs, ?_⟩
  · simp only [diff2, hs, spacing_grid x0 h n (by omega)]
    rw [if_neg (by omega)]
  · intro i j hi hj
    simp only [alongAxis, hs]
    simpa using d2_cubic (a j) (b j) (c j) (d j) x0 h hh n hn (fun k => u.get [k, j]) (fun k hk => hu k j hk hj) i hi

/-- **C76**, `diff3`: the third derivative of every cubic is exact at every point. -/
theorem C76_third_1d (h2 : (2 : K) ≠ 0) (x0 h : K) (hh : h ≠ 0) (n m : Nat) (hn : 4 ≤ n) (u : Arr K) (hs : u.shape = [n, m])
    (a b c d : Nat → K)
    (hu : ∀ i j : Nat, i < n → j < m →
      u.get [i, j] = a j + b j * (x0 + i * h) + c j * (x0 + i * h) ^ 2 + d j * (x0 + i * h) ^ 3) :
    ∃ r, diff3 u (grid x0 h n) = some r ∧ r.shape = [n, m] ∧ ∀ i j : Nat, i < n → j < m → r.get [i, j] = 6 * d j := by
  obtain ⟨v, hv, hvs, hvg⟩ := C76_second_1d x0 h hh n m hn u hs a b c d hu
  obtain ⟨r, hr, hrs, hrg⟩ := C76_first_1d h2 x0 h hh n m (by omega) v hvs (fun j => 2 * c j) (fun j => 6 * d j) (fun _ => 0)
    (fun i j hi hj => by rw [hvg i j hi hj]; ring)
  refine ⟨r, by simp [diff3, hv, hr], hrs, fun i j hi hj => ?_⟩
  rw [hrg i j hi hj]; ring

/-- **C76**, `diff4`: zero for every cubic. -/
theorem C76_fourth_1d_partial (x0 h : K) (hh : h ≠ 0) (n m : Nat) (hn : 4 ≤ n) (u : Arr K) (hs : u.shape = [n, m])
    (a b c d : Nat → K)
    (hu : ∀ i j : Nat, i < n → j < m →
      u.get [i, j] = a j + b j * (x0 + i * h) + c j * (x0 + i * h) ^ 2 + d j * (x0 + i * h) ^ 3) :
    ∃ r, diff4 u (grid x0 h n) = some r ∧ r.shape = [n, m] ∧ ∀ i j : Nat, i < n → j < m → r.get [i, j] = 0 := by
  obtain ⟨v, hv, hvs, hvg⟩ := C76_second_1d x0 h hh n m hn u hs a b c d hu
  obtain ⟨r, hr, hrs, hrg⟩ := C76_second_1d x0 h hh n m hn v hvs (fun j => 2 * c j) (fun j => 6 * d j) (fun _ => 0) (fun _ => 0)
    (fun i j hi hj => by rw [hvg i j hi hj]; ring)
  refine ⟨r, by simp [diff4, hv, hr], hrs, fun i j hi hj => ?_⟩
  rw [hrg i j hi hj]; ring

/-- The fourth powers `i⁴` on the grid 0, …, 7. -/
def fourthPowers : Arr ℚ := ⟨[8, 1], fun idx => (((idx[0]?).getD 0 : Nat) : ℚ) ^ 4⟩

/-- The fourth derivative of `x⁴` is 24 everywhere; next to the ends `diff4` gives something else. -/
theorem C76_fourth_counterexample :
    (diff4 fourthPowers (grid 0 1 8)).map (fun r => (List.range 8).map fun i => r.get [i, 0]) =
      some [-24, 0, 24, 24, 24, 24, 0, -24] := by
  decide +kernel

/-! ## Three space dimensions -/

/-- `idx` is an index of an array of this shape. -/
def Inside (shape idx : List Nat) : Prop := List.Forall₂ (· < ·) idx shape

theorem inside_set {shape idx : List Nat} (hi : Inside shape idx) (k j n : Nat) (hk : shape[k]? = some n) (hj : j < n) :
    Inside shape (idx.set k j) := by
  unfold Inside at *
  induction hi generalizing k with
  | nil => simp at hk
  | @cons a b l₁ l₂ h t ih =>
    cases k with
    | zero =>
      simp at hk; subst hk
      exact .cons hj t
    | succ k => exact .cons h (ih k (by simpa using hk))

theorem inside_lt {shape idx : List Nat} (hi : Inside shape idx) (k n : Nat) (hk : shape[k]? = some n) :
    ∃ i, idx[k]? = some i ∧ i < n := by
  unfold Inside at *
  induction hi generalizing k with
  | nil => simp at hk
  | @cons a b l₁ l₂ h t ih =>
    cases k with
    | zero => simp at hk; subst hk; exact ⟨a, by simp, h⟩
    | succ k => simpa using ih k (by simpa using hk)

/-- Along every line of axis `k` the entries are `p x` with `x = x0 + i h` (`i` the index on axis `k`) and a function `p` of that line
(the line is named by the index with position `k` set to 0). -/
def OnLines (u : Arr K) (k : Nat) (x0 h : K) (p : List Nat → K → K) : Prop :=
  ∀ idx, Inside u.shape idx → ∀ i : Nat, idx[k]? = some i → u.get idx = p (idx.set k 0) (x0 + (i : K) * h)

theorem alongAxis_line (op : Nat → (Nat → K) → Nat → K) (k n : Nat) (u : Arr K) (hk : u.shape[k]? = some n) (x0 h : K)
    (p q : List Nat → K → K) (hu : OnLines u k x0 h p)
    (hop : ∀ l (f : Nat → K), (∀ j, j < n → f j = p l (x0 + (j : K) * h)) → ∀ j, j < n → op n f j = q l (x0 + (j : K) * h)) :
    OnLines (alongAxis op k u) k x0 h q := by
  intro idx hidx i hi
  have hidx' : Inside u.shape idx := hidx
  obtain ⟨i', hi', hlt⟩ := inside_lt hidx' k n hk
  have : i' = i := by rw [hi] at hi'; exact (Option.some.inj hi').symm
  subst this
  simp only [alongAxis, hk, hi, Option.getD_some]
  refine hop (idx.set k 0) _ (fun j hj => ?_) i' hlt
  have hlen : k < idx.length := by
    by_contra hc
    rw [List.getElem?_eq_none (by omega)] at hi; cases hi
  have := hu (idx.set k j) (inside_set hidx' k j n hk hj) j (by simp [hlen])
  rw [this]; simp

theorem shape4_axis {t n1 n2 n3 k n : Nat} (hk : k = 1 ∨ k = 2 ∨ k = 3) (h : [t, n1, n2, n3][k]? = some n) :
    (k = 1 ∧ n = n1) ∨ (k = 2 ∧ n = n2) ∨ (k = 3 ∧ n = n3) := by
  rcases hk with rfl | rfl | rfl <;> simp at h <;> omega

/-- **C76**, `Diff_3`: for every array (times × points × points × points) and each space axis, if the entries are quadratic along every line of
that axis, the result is the exact derivative at every grid point, the ends included. -/
theorem C76_first_3d (h2 : (2 : K) ≠ 0) (x0 h : K) (hh : h ≠ 0) (t n1 n2 n3 k n : Nat) (hk : k = 1 ∨ k = 2 ∨ k = 3) (u : Arr K)
    (hs : u.shape = [t, n1, n2, n3]) (hax : u.shape[k]? = some n) (hn : 3 ≤ n) (a b c : List Nat → K)
    (hu : OnLines u k x0 h (fun l x => a l + b l * x + c l * x ^ 2)) :
    ∃ r, diffThree u (grid x0 h n) k = some r ∧ r.shape = u.shape ∧ OnLines r k x0 h (fun l x => b l + 2 * c l * x) := by
  refine ⟨alongAxis (d1 h) k u, ?_, rfl, ?_⟩
  · have hax' := hax
    rw [hs] at hax'
    unfold diffThree
    rw [if_neg (by rw [hs]; simp), hs, spacing_grid x0 h n hn]
    rcases shape4_axis hk hax' with ⟨rfl, rfl⟩ | ⟨rfl, rfl⟩ | ⟨rfl, rfl⟩ <;> simp <;> omega
  · exact alongAxis_line _ k n u hax x0 h _ _ hu
      (fun l f hf j hj => d1_quadratic h2 (a l) (b l) (c l) x0 h hh n hn f hf j hj)

/-- **C76**, `Diff2_3`: exact second derivatives for entries cubic along the lines of the axis. -/
theorem C76_second_3d (x0 h : K) (hh : h ≠ 0) (t n1 n2 n3 k n : Nat) (hk : k = 1 ∨ k = 2 ∨ k = 3) (u : Arr K)
    (hs : u.shape = [t, n1, n2, n3]) (hax : u.shape[k]? = some n) (hn : 4 ≤ n) (a b c d : List Nat → K)
    (hu : OnLines u k x0 h (fun l x => a l + b l * x + c l * x ^ 2 + d l * x ^ 3)) :
    ∃ r, diff2Three u (grid x0 h n) k = some r ∧ r.shape = u.shape ∧ OnLines r k x0 h (fun l x => 2 * c l + 6 * d l * x) := by
  refine ⟨alongAxis (d2 h) k u, ?_, rfl, ?_⟩
  · have hax' := hax
    rw [hs] at hax'
    unfold diff2Three
    rw [if_neg (by rw [hs]; simp), hs, spacing_grid x0 h n (by omega)]
    rcases shape4_axis hk hax' with ⟨rfl, rfl⟩ | ⟨rfl, rfl⟩ | ⟨rfl, rfl⟩ <;> simp <;> omega
  · exact alongAxis_line _ k n u hax x0 h _ _ hu
      (fun l f hf j hj => d2_cubic (a l) (b l) (c l) (d l) x0 h hh n hn f hf j hj)

/-- **C76**, `Laplace_3`: the sum of the three second derivatives, each along its own axis, at every grid point. -/
theorem C76_laplace_3d (t n1 n2 n3 : Nat) (u : Arr K) (hs : u.shape = [t, n1, n2, n3]) (x1 x2 x3 : List K) (r1 r2 r3 : Arr K)
    (h1 : diff2Three u x1 1 = some r1) (h2 : diff2Three u x2 2 = some r2) (h3 : diff2Three u x3 3 = some r3) :
    ∃ r, laplaceThree u [x1, x2, x3] = some r ∧ r.shape = u.shape ∧
      ∀ idx, Inside u.shape idx → r.get idx = r1.get idx + r2.get idx + r3.get idx := by
  refine ⟨addArr (addArr r1 r2) r3, by simp [laplaceThree, h1, h2, h3], ?_, fun _ _ => rfl⟩
  have : r1.shape = u.shape := by
    unfold diff2Three at h1
    rw [if_neg (by rw [hs]; simp), hs] at h1
    split at h1
    · next heq => simp at h1; rw [← h1.2]; rfl
    · cases h1
  exact this

/-! ## Two space dimensions -/

theorem d1p_mod (h : K) (n : Nat) (hn : 2 ≤ n) (f : Nat → K) (i : Nat) (hi : i < n) :
    d1p h n f i = (f ((i + 1) % n) - f ((i + n - 1) % n)) / 2 / h := by
  unfold d1p
  by_cases h0 : i = 0
  · subst h0
    rw [if_pos rfl, Nat.mod_eq_of_lt (show 0 + 1 < n by omega), Nat.mod_eq_of_lt (show 0 + n - 1 < n by omega)]
    simp
  · rw [if_neg h0]
    have e1 : (i + n - 1) % n = i - 1 := by
      rw [show i + n - 1 = (i - 1) + n by omega, Nat.add_mod_right, Nat.mod_eq_of_lt (by omega)]
    rw [e1]
    by_cases hl : i = n - 1
    · rw [if_pos hl, show i + 1 = n by omega, Nat.mod_self, show i - 1 = n - 2 by omega]
    · rw [if_neg hl, Nat.mod_eq_of_lt (show i + 1 < n by omega)]

theorem d2p_mod (h : K) (n : Nat) (hn : 2 ≤ n) (f : Nat → K) (i : Nat) (hi : i < n) :
    d2p h n f i = (f ((i + 1) % n) - 2 * f i + f ((i + n - 1) % n)) / h ^ 2 := by
  unfold d2p
  by_cases h0 : i = 0
  · subst h0
    rw [if_pos rfl, Nat.mod_eq_of_lt (show 0 + 1 < n by omega), Nat.mod_eq_of_lt (show 0 + n - 1 < n by omega)]
    simp; ring
  · rw [if_neg h0]
    have e1 : (i + n - 1) % n = i - 1 := by
      rw [show i + n - 1 = (i - 1) + n by omega, Nat.add_mod_right, Nat.mod_eq_of_lt (by omega)]
    rw [e1]
    by_cases hl : i = n - 1
    · rw [if_pos hl, show i + 1 = n by omega, Nat.mod_self, show i - 1 = n - 2 by omega, hl]; ring
    · rw [if_neg hl, Nat.mod_eq_of_lt (show i + 1 < n by omega)]

theorem shape3_axis {t n1 n2 k n : Nat} (hk : k = 1 ∨ k = 2) (h : [t, n1, n2][k]? = some n) :
    (k = 1 ∧ n = n1) ∨ (k = 2 ∧ n = n2) := by
  rcases hk with rfl | rfl <;> simp at h <;> omega

/-- **C76**, `Diff_2`: at every grid point the centred difference of the two neighbours on the named axis, the axis being closed to
a circle (`(i + 1) % n`, `(i + n - 1) % n`): correct at the ends for periodic data only. -/
theorem C76_first_2d_partial (x0 h : K) (t n1 n2 k n : Nat) (hk : k = 1 ∨ k = 2) (u : Arr K)
    (hs : u.shape = [t, n1, n2]) (hax : u.shape[k]? = some n) (hn : 3 ≤ n) :
    ∃ r, diffTwo u (grid x0 h n) k = some r ∧ r.shape = u.shape ∧
      ∀ idx, Inside u.shape idx → ∀ i, idx[k]? = some i →
        r.get idx = (u.get (idx.set k ((i + 1) % n)) - u.get (idx.set k ((i + n - 1) % n))) / 2 / h := by
  refine ⟨alongAxis (d1p h) k u, ?_, rfl, ?_⟩
  · have hax' := hax
    rw [hs] at hax'
    unfold diffTwo
    rw [if_neg (by rw [hs]; simp), hs, spacing_grid x0 h n hn]
    rcases shape3_axis hk hax' with ⟨rfl, rfl⟩ | ⟨rfl, rfl⟩ <;> simp <;> omega
  · intro idx hidx i hi
    obtain ⟨i', hi', hlt⟩ := inside_lt hidx k n hax
    have : i' = i := by rw [hi] at hi'; exact (Option.some.inj hi').symm
    subst this
    simp only [alongAxis, hax, hi, Option.getD_some]
    exact d1p_mod h n (by omega) _ i' hlt

/-- **C76**, `Diff2_2`: the second difference with the two cyclic neighbours. -/
theorem C76_second_2d_partial (x0 h : K) (t n1 n2 k n : Nat) (hk : k = 1 ∨ k = 2) (u : Arr K)
    (hs : u.shape = [t, n1, n2]) (hax : u.shape[k]? = some n) (hn : 3 ≤ n) :
    ∃ r, diff2Two u (grid x0 h n) k = some r ∧ r.shape = u.shape ∧
      ∀ idx, Inside u.shape idx → ∀ i, idx[k]? = some i →
        r.get idx = (u.get (idx.set k ((i + 1) % n)) - 2 * u.get (idx.set k i) + u.get (idx.set k ((i + n - 1) % n))) / h ^ 2 := by
  refine ⟨alongAxis (d2p h) k u, ?_, rfl, ?_⟩
  · have hax' := hax
    rw [hs] at hax'
    unfold diff2Two
    rw [if_neg (by rw [hs]; simp), hs, spacing_grid x0 h n hn]
    rcases shape3_axis hk hax' with ⟨rfl, rfl⟩ | ⟨rfl, rfl⟩ <;> simp <;> omega
  · intro idx hidx i hi
    obtain ⟨i', hi', hlt⟩ := inside_lt hidx k n hax
    have : i' = i := by rw [hi] at hi'; exact (Option.some.inj hi').symm
    subst this
    simp only [alongAxis, hax, hi, Option.getD_some]
    exact d2p_mod h n (by omega) _ i' hlt

/-- **C76**, two dimensions away from the ends: exact for data quadratic (first derivative) along the axis. -/
theorem C76_first_2d_interior (h2 : (2 : K) ≠ 0) (x0 h : K) (hh : h ≠ 0) (t n1 n2 k n : Nat) (hk : k = 1 ∨ k = 2) (u : Arr K)
    (hs : u.shape = [t, n1, n2]) (hax : u.shape[k]? = some n) (hn : 3 ≤ n) (a b c : List Nat → K)
    (hu : OnLines u k x0 h (fun l x => a l + b l * x + c l * x ^ 2)) :
    ∃ r, diffTwo u (grid x0 h n) k = some r ∧
      ∀ idx, Inside u.shape idx → ∀ i : Nat, idx[k]? = some i → 0 < i → i + 1 < n →
        r.get idx = b (idx.set k 0) + 2 * c (idx.set k 0) * (x0 + (i : K) * h) := by
  obtain ⟨r, hr, _, hg⟩ := C76_first_2d_partial x0 h t n1 n2 k n hk u hs hax hn
  refine ⟨r, hr, fun idx hidx i hi h0 h1 => ?_⟩
  rw [hg idx hidx i hi]
  have hlen : k < idx.length := by
    by_contra hc
    rw [List.getElem?_eq_none (by omega)] at hi; cases hi
  have e1 : (i + n - 1) % n = i - 1 := by
    rw [show i + n - 1 = (i - 1) + n by omega, Nat.add_mod_right, Nat.mod_eq_of_lt (by omega)]
  rw [e1, Nat.mod_eq_of_lt h1, hu _ (inside_set hidx k (i + 1) n hax h1) (i + 1) (by simp [hlen]),
    hu _ (inside_set hidx k (i - 1) n hax (by omega)) (i - 1) (by simp [hlen])]
  obtain ⟨m, rfl⟩ : ∃ m, i = m + 1 := ⟨i - 1, by omega⟩
  simp only [List.set_set, Nat.add_sub_cancel]
  push_cast; field_simp; ring

/-- The data `u = x` (times × x × y), on the grid 0, 1, 2, 3. -/
def ramp : Arr ℚ := ⟨[1, 4, 2], fun idx => ((idx[1]?).getD 0 : Nat)⟩

/-- In two dimensions the derivative of `x` is not 1 at the ends. -/
theorem C76_periodic_counterexample :
    (diffTwo ramp (grid 0 1 4) 1).map (fun r => (List.range 4).map fun i => r.get [0, i, 0]) = some [-1, 1, 1, -1] := by
  decide +kernel

/-- An expression of a coordinate alone (the operand `x²` as a column on the grid 1, 2, 3, 4): the "derivative" is the quotient `x² / x = x`,
in two dimensions … -/
theorem C76_coordinate_counterexample :
    (diffTwo (⟨[4, 1], fun idx => ((idx[0]?).getD 0 + 1 : Nat) ^ 2⟩ : Arr ℚ) (grid 1 1 4) 1).map
      (fun r => (List.range 4).map fun i => r.get [i, 0]) = some [1, 2, 3, 4] := by
  decide +kernel

/-- … while one dimension gives `2 x`. -/
theorem C76_coordinate_1d :
    (diff (⟨[4, 1], fun idx => ((idx[0]?).getD 0 + 1 : Nat) ^ 2⟩ : Arr ℚ) (grid 1 1 4)).map
      (fun r => (List.range 4).map fun i => r.get [i, 0]) = some [2, 4, 6, 8] := by
  decide +kernel

/-- The spacing is read between the second and third point only: on the grid 0, 1, 2, 4 the derivative of `x` is not 1. -/
theorem C76_uneven_counterexample :
    (diff (⟨[4, 1], fun idx => (([0, 1, 2, 4] : List ℚ)[(idx[0]?).getD 0]?).getD 0⟩ : Arr ℚ) [0, 1, 2, 4]).map
      (fun r => (List.range 4).map fun i => r.get [i, 0]) = some [1, 1, 3 / 2, 5 / 2] := by
  decide +kernel

/-- The hypotheses are met: `u = y + x² z` in three dimensions. -/
example : ∃ r, diffThree (⟨[1, 5, 4, 3], fun idx => ((idx[2]?).getD 0 : Nat) + (((idx[1]?).getD 0 : Nat) : ℚ) ^ 2 * ((idx[3]?).getD 0 : Nat)⟩ : Arr ℚ)
    (grid 0 1 5) 1 = some r ∧ OnLines r 1 0 1 (fun l x => 0 + 2 * ((l[3]?).getD 0 : Nat) * x) := by
  obtain ⟨r, h1, _, h3⟩ := C76_first_3d (K := ℚ) (by norm_num) 0 1 (by norm_num) 1 5 4 3 1 5 (.inl rfl)
    ⟨[1, 5, 4, 3], fun idx => ((idx[2]?).getD 0 : Nat) + (((idx[1]?).getD 0 : Nat) : ℚ) ^ 2 * ((idx[3]?).getD 0 : Nat)⟩ rfl rfl (by omega)
    (fun l => ((l[2]?).getD 0 : Nat)) (fun _ => 0) (fun l => ((l[3]?).getD 0 : Nat))
    (by intro idx _ i hi; simp [hi]; ring)
  exact ⟨r, h1, h3⟩

end Verif.Discover.FD.Claims
