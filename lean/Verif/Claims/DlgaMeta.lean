import Verif.Dlga.Meta
import Verif.Claims.DlgaSvd
import Mathlib.Analysis.Calculus.Deriv.Add
import Mathlib.Analysis.Calculus.Deriv.Mul
/-!
# C178: DLGA's library holds derivatives of the network
-/
namespace Verif.Dlga.Meta.Claims
open Verif.Dlga Verif.Dlga.Meta Verif.Sga.Autograd Verif.Dlga.Claims Verif.Claims

theorem sum_modify (f : List ℝ → ℝ) (g : List ℝ → List ℝ) : ∀ (X : List (List ℝ)) (r : Nat) (x : List ℝ), X[r]? = some x →
    ((X.modify r g).map f).sum = ((X.map f).sum - f x) + f (g x) := by
  intro X
  induction X with
  | nil => intro r x h; simp at h
  | cons y X ih =>
    intro r x h
    cases r with
    | zero =>
      have : y = x := by simpa using h
      subst this
      simp
      ring
    | succ r =>
      have := ih r x (by simpa using h)
      simp only [List.modify_succ_cons, List.map_cons, List.sum_cons, this]
      ring

/-- **C178**: differentiating the sum over all points gives, at every point, the partial derivative of the function at that point: points do not
mix. -/
theorem C178_rows (f : List ℝ → ℝ) (i : Nat) (X : List (List ℝ)) : gradCol (fun X => X.map f) i X = X.map (D i f) := by
  unfold gradCol
  apply List.ext_getElem (by simp)
  intro r h1 h2
  have hr : r < X.length := by simpa using h1
  have hx : X[r]? = some X[r] := List.getElem?_eq_getElem hr
  simp only [List.getElem_map, List.getElem_range]
  unfold gradAt D
  have e : (X.getD r []) = X[r] := by rw [List.getD_eq_getElem?_getD, hx]; rfl
  rw [e]
  have : (fun s => ((X.modify r fun row => row.set i s).map f).sum) = fun s => ((X.map f).sum - f X[r]) + f (X[r].set i s) := by
    funext s
    exact sum_modify f _ X r _ hx
  rw [this, deriv_const_add]

theorem gradCol_map (f : List ℝ → ℝ) (i : Nat) : gradCol (fun X => X.map f) i = fun X => X.map (D i f) := by
  funext X
  exact C178_rows f i X

/-- The function an operator name stands for, with coordinates (x, t). -/
noncomputable def meaning (u : List ℝ → ℝ) : String → Option (List ℝ → ℝ)
  | "u" => some u
  | "u_x" => some (D 0 u)
  | "u_xx" => some (D 0 (D 0 u))
  | "u_xxx" => some (D 0 (D 0 (D 0 u)))
  | "u_t" => some (D 1 u)
  | "u_tt" => some (D 1 (D 1 u))
  | _ => none

/-- **C178**: if the points have two or more coordinates, the column of every operator name is the derivative of the network it names, where `x` is the
first and `t` the second coordinate, at every point; other names have none. -/
theorem C178_coordinates_partial (net : List ℝ → ℝ) (d : Nat) (hd : 2 ≤ d) (X : List (List ℝ)) (o : String) :
    available net d X o = (meaning net o).map fun f => X.map f := by
  have h0 : 0 < d := by omega
  have h1 : 1 < d := hd
  have h : uCol net = fun X => X.map net := rfl
  have e1 : uxCol net d = fun X => X.map (D 0 net) := by simp [h0, h1, uxCol, h, gradCol_map]
  have e2 : utCol net d = fun X => X.map (D 1 net) := by simp [h0, h1, utCol, h, gradCol_map]
  have e3 : uxxCol net d = fun X => X.map (D 0 (D 0 net)) := by simp [h0, h1, uxxCol, e1, gradCol_map]
  have e4 : uxxxCol net d = fun X => X.map (D 0 (D 0 (D 0 net))) := by simp [h0, h1, uxxxCol, e3, gradCol_map]
  have e5 : uttCol net d = fun X => X.map (D 1 (D 1 net)) := by simp [h0, h1, uttCol, e2, gradCol_map]
  unfold available
  rw [h, e1, e2, e3, e4, e5]
  by_cases h1 : o = "u"
  · subst h1; simp [meaning]
  by_cases h2 : o = "u_x"
  · subst h2; simp [meaning]
  by_cases h3 : o = "u_t"
  · subst h3; simp [meaning]
  by_cases h4 : o = "u_xx"
  · subst h4; simp [meaning]
  by_cases h5 : o = "u_xxx"
  · subst h5; simp [meaning]
  by_cases h6 : o = "u_tt"
  · subst h6; simp [meaning]
  have : meaning net o = none := by
    unfold meaning
    split <;> simp_all
  simp [h1, h2, h3, h4, h5, h6, this]

/-- **C178**: with points (x, t), the column of every operator name is the derivative of the network it names, at every point; other names have
none. -/
theorem C178_library_partial (net : List ℝ → ℝ) (X : List (List ℝ)) (o : String) :
    available net 2 X o = (meaning net o).map fun f => X.map f := C178_coordinates_partial net 2 (Nat.le_refl 2) X o

/-- **C178** for points with one coordinate: the time derivatives, so the left-hand sides, are zero everywhere. -/
theorem C178_one_coordinate_counterexample (net : List ℝ → ℝ) (X : List (List ℝ)) :
    available net 1 X "u_t" = some (X.map fun _ => 0) ∧ available net 1 X "u_tt" = some (X.map fun _ => 0) ∧ baseTheta net 1 X = none ∧
    ∀ o ∈ ["u", "u_x", "u_xx", "u_xxx"], available net 1 X o = (meaning net o).map fun f => X.map f := by
  have h : uCol net = fun X => X.map net := rfl
  have e1 : uxCol net 1 = fun X => X.map (D 0 net) := by simp [uxCol, h, gradCol_map]
  have e3 : uxxCol net 1 = fun X => X.map (D 0 (D 0 net)) := by simp [uxxCol, e1, gradCol_map]
  have e4 : uxxxCol net 1 = fun X => X.map (D 0 (D 0 (D 0 net))) := by simp [uxxxCol, e3, gradCol_map]
  refine ⟨by simp [available, utCol, zeros], by simp [available, uttCol, zeros], by simp [baseTheta], ?_⟩
  intro o ho
  simp only [List.mem_cons, List.not_mem_nil, or_false] at ho
  rcases ho with rfl | rfl | rfl | rfl
  · simp [available, meaning, h]
  · simp [available, meaning, e1]
  · simp [available, meaning, e3]
  · simp [available, meaning, e4]

/-- **C178** fails for points (x, y, t): the column `u_t` is the derivative along the second coordinate; for u = t it is zero, the time derivative one. -/
theorem C178_three_coordinates_counterexample :
    (∀ (net : List ℝ → ℝ) (X : List (List ℝ)), available net 3 X "u_t" = some (X.map (D 1 net))) ∧
    (∀ (X : List (List ℝ)), (∀ x ∈ X, x.length = 3) → available (fun z => z.getD 2 0) 3 X "u_t" = some (X.map fun _ => 0) ∧
      ∀ x ∈ X, D 2 (fun z => z.getD 2 0) x = 1) := by
  have hg : ∀ (net : List ℝ → ℝ) (X : List (List ℝ)), available net 3 X "u_t" = some (X.map (D 1 net)) := by
    intro net X
    have h : uCol net = fun X => X.map net := rfl
    simp [available, utCol, h, gradCol_map]
  refine ⟨hg, fun X hX => ⟨?_, ?_⟩⟩
  · rw [hg]
    congr 1
    apply List.map_congr_left
    intro x hx
    unfold D
    have : (fun s : ℝ => (x.set 1 s).getD 2 0) = fun _ => x.getD 2 0 := by
      funext s
      rw [List.getD_eq_getElem?_getD, List.getD_eq_getElem?_getD, List.getElem?_set_ne (by omega)]
    rw [this, deriv_const]
  · intro x hx
    unfold D
    have : (fun s : ℝ => (x.set 2 s).getD 2 0) = fun s => s := by
      funext s
      rw [List.getD_eq_getElem?_getD, List.getElem?_set_self (by rw [hX x hx]; omega)]
      rfl
    rw [this]
    simp

/-- **C178**, base class: the library is u, u_x, u_xx, u_xxx, u_t, u_tt in this order (points (x, t)). -/
theorem C178_base (net : List ℝ → ℝ) (X : List (List ℝ)) :
    baseTheta net 2 X = some ((["u", "u_x", "u_xx", "u_xxx", "u_t", "u_tt"].filterMap (meaning net)).map fun f => X.map f) := by
  have h : uCol net = fun X => X.map net := rfl
  simp [baseTheta, h, gradCol_map, meaning]

/-- The right-hand side of an equation: coefficients times products of derivatives of `u`. -/
noncomputable def rhs (u : List ℝ → ℝ) (ops : List String) (g : Genome) (c : List ℝ) (x : List ℝ) : ℝ :=
  (List.zipWith (fun m a => ((displayed ops m).map fun o => ((meaning u o).getD fun _ => 1) x).prod * a) g c).sum

/-- **C178**, recovery: if the network satisfies an equation of the library with left-hand side u_t at all points, the candidate with the terms of the
equation gets its coefficients, up to the factor s / (s + 1e-8), where s is the reciprocal of the norm of (1, coefficients). -/
theorem C178_recovers (net : List ℝ → ℝ) (X : List (List ℝ)) (ops : List String) (hops : ∀ o ∈ ops, (meaning net o).isSome)
    (g : Genome) (hg : ∀ m ∈ g, ∀ a ∈ m, a < ops.length) (c : List ℝ) (hc : c.length = g.length)
    (heq : ∀ x ∈ X, D 1 net x = rhs net ops g c x) (last : List (List ℝ) → List ℝ) :
    ∃ cols ut, translate (thetaColumns (available net 2 X) ops) X.length g = some (cols, (g.map fun m => (displayed ops m).length).sum) ∧
      available net 2 X "u_t" = some ut ∧
      (LastVector (ut :: cols) X.length (last (ut :: cols)) → Independent cols X.length →
        ∃ s : ℝ, s ^ 2 * (1 + (c.map (· ^ 2)).sum) = 1 ∧ svdSolve last ut cols = c.map (fun x => x * (s / (s + tiny)))) := by
  have hall : ∀ o ∈ ops, ∃ col, available net 2 X o = some col ∧ col.length = X.length := by
    intro o ho
    obtain ⟨f, hf⟩ := Option.isSome_iff_exists.1 (hops o ho)
    exact ⟨X.map f, by rw [C178_library_partial, hf]; rfl, by simp⟩
  obtain ⟨cols, t1, t2, t3⟩ := C60_columns (available net 2 X) ops X.length hall g hg
  have hut : available net 2 X "u_t" = some (X.map (D 1 net)) := by rw [C178_library_partial]; rfl
  refine ⟨cols, _, t1, hut, fun hlast hind => ?_⟩
  apply C151_exact_partial last _ cols X.length hlast hind c (by omega)
  intro r hr
  have hx : X[r]? = some X[r] := List.getElem?_eq_getElem hr
  have ht : ((X.map (D 1 net))[r]?).getD 0 = D 1 net X[r] := by simp [hx]
  rw [ht, heq _ (List.getElem_mem hr)]
  unfold predict rhs
  congr 1
  apply List.ext_getElem (by simp; omega)
  intro k h1 h2
  have hk : k < g.length := by simp at h2; omega
  obtain ⟨col, a1, a2, a3⟩ := t3 k g[k] (List.getElem?_eq_getElem hk)
  have hkc : k < cols.length := by omega
  have hcol : cols[k] = col := by
    rw [List.getElem?_eq_getElem hkc] at a1
    exact Option.some.inj a1
  simp only [List.getElem_zipWith]
  rw [hcol, a3 r hr]
  simp only [Option.getD_some]
  congr 2
  apply List.map_congr_left
  intro o ho
  have hmem : o ∈ ops := by
    simp only [displayed, List.mem_filterMap] at ho
    obtain ⟨i, _, hi⟩ := ho
    exact List.mem_of_getElem? hi
  obtain ⟨f, hf⟩ := Option.isSome_iff_exists.1 (hops o hmem)
  unfold polyValueAt
  rw [C178_library_partial, hf]
  simp [hx]

/-- The hypotheses of `C178_recovers` are met by u = x + 2 t, which satisfies u_t = 2 u_x, at the points (0, 0) and (1, 3); the column is independent. -/
theorem C178_hypotheses : (∀ o ∈ ["u_x"], (meaning (fun z => z.getD 0 0 + 2 * z.getD 1 0) o).isSome) ∧
    (∀ x ∈ [[0, 0], [1, 3]], D 1 (fun z => z.getD 0 0 + 2 * z.getD 1 0) x = rhs (fun z => z.getD 0 0 + 2 * z.getD 1 0) ["u_x"] [[0]] [2] x) ∧
    available (fun z => z.getD 0 0 + 2 * z.getD 1 0) 2 [[0, 0], [1, 3]] "u_x" = some [1, 1] ∧ Independent [[1, 1]] 2 := by
  have hx : ∀ a b : ℝ, D 0 (fun z => z.getD 0 0 + 2 * z.getD 1 0) [a, b] = 1 := by
    intro a b
    unfold D
    have : (fun s : ℝ => ([a, b].set 0 s).getD 0 0 + 2 * ([a, b].set 0 s).getD 1 0) = fun s => s + 2 * b := by funext s; simp
    rw [this, deriv_add_const]
    simp
  have ht : ∀ a b : ℝ, D 1 (fun z => z.getD 0 0 + 2 * z.getD 1 0) [a, b] = 2 := by
    intro a b
    unfold D
    have : (fun s : ℝ => ([a, b].set 1 s).getD 0 0 + 2 * ([a, b].set 1 s).getD 1 0) = fun s => a + 2 * s := by funext s; simp
    rw [this, deriv_const_add, deriv_const_mul _ differentiableAt_fun_id]
    simp
  have hr : ∀ (u : List ℝ → ℝ) (x : List ℝ), rhs u ["u_x"] [[0]] [2] x = D 0 u x * 2 := by
    intro u x
    simp [rhs, displayed, meaning]
  refine ⟨by simp [meaning], ?_, ?_, ?_⟩
  · intro x hx'
    simp only [List.mem_cons, List.not_mem_nil, or_false] at hx'
    rcases hx' with rfl | rfl
    · rw [ht, hr]; simp only [hx]; simp
    · rw [ht, hr]; simp only [hx]; simp
  · rw [C178_library_partial]
    simp only [meaning, Option.map_some, List.map_cons, List.map_nil, hx]
  · intro d hd hz x hx'
    match d, hd with
    | [y], _ =>
      have := hz 0 (by norm_num)
      simp [predict] at this
      simp at hx'
      rw [hx']; exact this

end Verif.Dlga.Meta.Claims
