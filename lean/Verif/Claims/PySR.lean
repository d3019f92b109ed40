import Verif.Api.PySR
import Verif.Claims.VizData
/-!
# C120: the PySR estimator
-/
namespace Verif.Api.PySR.Claims
open Verif.Data Verif.Viz.Data Verif.Api.PySR

variable {M S : Type}

/-- **C120** (validation): a feature array that is not two-dimensional, or with another number of rows than there are targets, is refused with
a ValueError and the estimator is as before. -/
theorem C120_refused (b : Backend M S) (e : Est M S) (X y : A) (h : X.shape.length ≠ 2 ∨ X.shape.headD 0 ≠ y.ravel.length) :
    fit b e X y = (e, .error .value) := by
  unfold fit
  by_cases h1 : X.shape.length ≠ 2
  · rw [if_pos h1]
  · rw [if_neg h1, if_pos (by rcases h with h | h; exact absurd h h1; exact h)]

/-- **C120** (fit): a successful fit keeps the configuration, stores the data, and predictions and equation are those of a regressor built
from the configuration and fitted on these data – nothing is left of earlier fits.
Partial, of the whole claim: After a fit that fails inside PySR the old equation is reported with the new data (counterexample). -/
theorem C120_fit_partial (b : Backend M S) (e e' : Est M S) (X y : A) (h : fit b e X y = (e', .ok ())) :
    ∃ m0 m, b.build (kwargs e) = some m0 ∧ b.fit m0 X y.ravel = (m, true) ∧ e'.model = some m ∧ e'.X = some X ∧ e'.y = some y.ravel ∧
      e'.sympy = b.sympy m ∧
      e'.equation = (match b.best m with
        | .row (some q) _ => some q
        | .row none (some t) => some t
        | _ => b.str m) ∧
      (∀ Z, predict b e' Z = match b.predict m Z with | some v => .ok v | none => .error .backend) ∧
      e'.niterations = e.niterations ∧ e'.binary = e.binary ∧ e'.unary = e.unary ∧ e'.extra = e.extra := by
  unfold fit at h
  by_cases h1 : X.shape.length ≠ 2
  · rw [if_pos h1] at h; cases h
  rw [if_neg h1] at h
  by_cases h2 : X.shape.headD 0 ≠ y.ravel.length
  · rw [if_pos h2] at h; cases h
  rw [if_neg h2] at h
  simp only at h
  by_cases h3 : (!b.available) = true
  · rw [if_pos h3] at h; cases h
  rw [if_neg h3] at h
  have hk : kwargs ({ e with X := some X, y := some y.ravel } : Est M S) = kwargs e := rfl
  rw [hk] at h
  cases hb : b.build (kwargs e) with
  | none => rw [hb] at h; cases h
  | some m0 =>
    rw [hb] at h
    simp only at h
    by_cases hf : (b.fit m0 X y.ravel).2 = true
    · rw [if_pos hf] at h
      simp only [Prod.mk.injEq, and_true] at h
      refine ⟨m0, (b.fit m0 X y.ravel).1, rfl, Prod.ext rfl hf, ?_⟩
      generalize (b.fit m0 X y.ravel).1 = m at *
      subst h
      refine ⟨rfl, rfl, rfl, rfl, ?_, fun Z => rfl, rfl, rfl, rfl, rfl⟩
      simp only [equationInfo]
      cases hbm : b.best m with
      | missing => rfl
      | row q t => cases q <;> cases t <;> rfl
    · rw [if_neg hf] at h; cases h

/-- **C120** (history): two estimators with the same configuration are in the same state after a successful fit on the same data, whatever
was fitted before. -/
theorem C120_history (b : Backend M S) (e1 e2 e1' e2' : Est M S) (X y : A) (hn : e1.niterations = e2.niterations) (hb : e1.binary = e2.binary)
    (hu : e1.unary = e2.unary) (hx : e1.extra = e2.extra) (h1 : fit b e1 X y = (e1', .ok ())) (h2 : fit b e2 X y = (e2', .ok ())) :
    e1' = e2' := by
  have hk : kwargs e1 = kwargs e2 := by unfold kwargs; rw [hn, hb, hu, hx]
  obtain ⟨m0, m, a1, a2, a3, a4, a5, a6, a7, _, a9, a10, a11, a12⟩ := C120_fit_partial b e1 e1' X y h1
  obtain ⟨m0', m', b1, b2, b3, b4, b5, b6, b7, _, b9, b10, b11, b12⟩ := C120_fit_partial b e2 e2' X y h2
  rw [hk, b1] at a1
  cases a1
  rw [b2] at a2
  cases a2
  cases e1'; cases e2'
  simp_all

theorem lookup_append_ne (d : List (String × Kw)) (k k' : String) (v : Kw) (h : k' ≠ k) : (d ++ [(k, v)]).lookup k' = d.lookup k' := by
  induction d with
  | nil =>
    have : (k' == k) = false := by simpa using h
    simp [List.lookup_cons, this]
  | cons e d ih => obtain ⟨a, w⟩ := e; rw [List.cons_append, List.lookup_cons, List.lookup_cons, ih]

theorem lookup_append_self (d : List (String × Kw)) (k : String) (v : Kw) (h : d.lookup k = none) : (d ++ [(k, v)]).lookup k = some v := by
  induction d with
  | nil => simp
  | cons e d ih =>
    obtain ⟨a, w⟩ := e
    rw [List.lookup_cons] at h
    rw [List.cons_append, List.lookup_cons]
    cases hk : k == a with
    | true => rw [hk] at h; cases h
    | false => rw [hk] at h; exact ih h

theorem lookup_replace (d : List (String × Kw)) (k k' : String) (v : Kw) :
    (d.map fun e => if e.1 = k then (k, v) else e).lookup k' = if k' = k then (d.lookup k).map (fun _ => v) else d.lookup k' := by
  induction d with
  | nil => simp
  | cons e d ih =>
    obtain ⟨a, w⟩ := e
    rw [List.map_cons]
    by_cases ha : a = k
    · subst ha
      simp only [if_true]
      rw [List.lookup_cons, ih]
      by_cases hk : k' = a
      · subst hk; simp
      · have : (k' == a) = false := by simpa using hk
        rw [if_neg hk, if_neg hk, List.lookup_cons, this]
    · simp only [ha, if_false]
      rw [List.lookup_cons, ih]
      by_cases hk : k' = k
      · subst hk
        have : (k' == a) = false := by simpa using fun h : k' = a => ha h.symm
        rw [if_pos rfl, if_pos rfl, this, List.lookup_cons, this]
      · rw [if_neg hk, if_neg hk, List.lookup_cons]

theorem put_lookup (d : List (String × Kw)) (k k' : String) (v : Kw) : (put d k v).lookup k' = if k' = k then some v else d.lookup k' := by
  unfold put
  by_cases h : (d.lookup k).isSome
  · rw [if_pos h, lookup_replace]
    obtain ⟨w, hw⟩ := Option.isSome_iff_exists.1 h
    simp [hw]
  · rw [if_neg h]
    have hn : d.lookup k = none := Option.not_isSome_iff_eq_none.1 h
    by_cases hk : k' = k
    · subst hk; rw [if_pos rfl, lookup_append_self _ _ _ hn]
    · rw [if_neg hk, lookup_append_ne _ _ _ _ hk]

theorem update_lookup (d x : List (String × Kw)) (k : String) (hx : (x.map Prod.fst).Nodup) :
    (update d x).lookup k = match x.lookup k with | some v => some v | none => d.lookup k := by
  induction x generalizing d with
  | nil => rfl
  | cons e x ih =>
    obtain ⟨a, w⟩ := e
    simp only [List.map_cons, List.nodup_cons] at hx
    rw [update, ih _ hx.2, List.lookup_cons, put_lookup]
    by_cases hk : k = a
    · subst hk
      have : x.lookup k = none := by
        rw [List.lookup_eq_none_iff]
        intro e he
        have : e.1 ≠ k := fun h => hx.1 (h ▸ List.mem_map_of_mem he)
        simpa using fun h => this h.symm
      rw [this]; simp
    · have : (k == a) = false := by simpa using hk
      rw [this]; simp [hk]

/-- **C120** (configuration): the regressor gets the number of iterations and the operators asked for – operators not given are left to
PySR – and every extra argument, which takes precedence. -/
theorem C120_kwargs (e : Est M S) (k : String) (hx : (e.extra.map Prod.fst).Nodup) :
    (kwargs e).lookup k =
      match e.extra.lookup k with
      | some v => some v
      | none =>
        if k = "niterations" then some (.num e.niterations)
        else if k = "binary_operators" then e.binary.map .ops
        else if k = "unary_operators" then e.unary.map .ops
        else none := by
  unfold kwargs
  simp only
  rw [update_lookup _ _ _ hx]
  cases e.extra.lookup k with
  | some v => rfl
  | none =>
    simp only
    by_cases h1 : k = "niterations"
    · subst h1
      cases e.binary <;> cases e.unary <;> simp [put_lookup]
    · have h1' : (k == "niterations") = false := by simpa using h1
      rw [if_neg h1]
      by_cases h2 : k = "binary_operators"
      · subst h2
        cases e.binary <;> cases e.unary <;> simp [put_lookup, List.lookup_cons]
      · rw [if_neg h2]
        by_cases h3 : k = "unary_operators"
        · subst h3
          cases e.binary <;> cases e.unary <;> simp [put_lookup, List.lookup_cons]
        · rw [if_neg h3]
          cases e.binary <;> cases e.unary <;> simp [put_lookup, List.lookup_cons, h1', h2, h3]

/-- **C120** (before fitting): prediction and equation of an estimator that was never fitted raise RuntimeError; figures are a warning. -/
theorem C120_unfitted (b : Backend M S) (n : Int) (bi un : Option (List String)) (ex : List (String × Kw)) (X : A) (lhs : String)
    (ox oy : Option A) :
    predict b (⟨n, bi, un, ex, none, none, none, none, none⟩ : Est M S) X = .error .runtime ∧
    equationLatex b (⟨n, bi, un, ex, none, none, none, none, none⟩ : Est M S) lhs = .error .runtime ∧
    parity b (⟨n, bi, un, ex, none, none, none, none, none⟩ : Est M S) ox oy = none := by
  refine ⟨rfl, rfl, ?_⟩
  unfold parity
  cases trainingData (⟨n, bi, un, ex, none, none, none, none, none⟩ : Est M S) ox oy with
  | none => rfl
  | some p => rfl

/-- **C120** (parity figure): after a successful fit, without data in the options, the figure shows the training targets against the
predictions of the fitted regressor on the training features, residuals target minus prediction. -/
theorem C120_parity (b : Backend M S) (e e' : Est M S) (X y : A) (h : fit b e X y = (e', .ok ())) (p : List Rat)
    (hp : predict b e' X = .ok p) (hl : p.length = y.ravel.length) :
    parity b e' none none = some ⟨y.ravel, p, List.zipWith (· - ·) y.ravel p⟩ := by
  obtain ⟨m0, m, _, _, _, hX, hy, _⟩ := C120_fit_partial b e e' X y h
  have hs : X.shape.headD 0 = y.ravel.length := by
    by_contra hc
    rw [C120_refused b e X y (.inr hc)] at h
    cases h
  have ht : trainingData e' none none = some (X, y.ravel) := by
    simp only [trainingData, hX, hy]
    rw [if_pos hs]
  unfold parity
  rw [ht]
  simp only [hp]
  obtain ⟨c1, _, c3⟩ := Verif.Viz.Data.Claims.C112_parity (column y.ravel) (column p)
  obtain ⟨r, hr⟩ := c3 (by simp [column, hl])
  rw [hr]
  obtain ⟨d1, d2, _, d4⟩ := c1 r hr
  have f1 : (column y.ravel).ravel = y.ravel := Verif.Viz.Data.Claims.flat_ravel _
  have f2 : (column p).ravel = p := Verif.Viz.Data.Claims.flat_ravel _
  rw [f1] at d1 d4
  rw [f2] at d2 d4
  cases r
  simp_all

/-- A backend whose second kind of data makes `fit` raise. -/
def failing : Backend Bool Unit where
  available := true
  build := fun _ => some false
  fit := fun _ X _ => if X.shape = [1, 1] then (true, true) else (false, false)
  best := fun m => .row (some (if m then "x0" else "")) none
  sympy := fun _ => some ()
  latex := fun m => if m then some "x_{0}" else none
  sympyLatex := fun _ => some "x_{0}"
  str := fun _ => some "PySRRegressor"
  predict := fun m X => if m then some (List.replicate (X.shape.headD 0) 0) else none

/-- **C120 (violated).** When a second fit fails in PySR, the estimator keeps the first equation but holds the second data and an unfitted
regressor: the equation is still reported, predictions fail.  And the name for the left-hand side is ignored when PySR writes LaTeX itself. -/
theorem C120_counterexample :
    let e : Est Bool Unit := ⟨10, none, none, [], none, none, none, none, none⟩
    let X : A := ⟨[1, 1], fun _ => 0⟩
    let Z : A := ⟨[2, 1], fun _ => 0⟩
    let e1 := (fit failing e X ⟨[1], fun _ => 0⟩).1
    let e2 := (fit failing e1 Z ⟨[2], fun _ => 0⟩).1
    (fit failing e X ⟨[1], fun _ => 0⟩).2 = .ok () ∧ equationLatex failing e1 "y" = .ok "x_{0}" ∧ e1.equation = some "x0" ∧
    (fit failing e1 Z ⟨[2], fun _ => 0⟩).2 = .error .backend ∧ e2.equation = some "x0" ∧ e2.y = some [0, 0] ∧
    predict failing e2 X = .error .backend ∧ equationLatex failing e2 "y" = .ok "y = x_{0}" := by
  refine ⟨rfl, ?_, rfl, rfl, rfl, rfl, rfl, ?_⟩
  · with_unfolding_all rfl
  · with_unfolding_all rfl

/-- **C120** (parity figure): data given in the options replace the stored ones, features and targets both. -/
theorem C120_parity_given (b : Backend M S) (e : Est M S) (X y : A) (p : List Rat) (hs : X.shape.headD 0 = y.ravel.length)
    (hp : predict b e X = .ok p) (hl : p.length = y.ravel.length) :
    parity b e (some X) (some y) = some ⟨y.ravel, p, List.zipWith (· - ·) y.ravel p⟩ := by
  have ht : trainingData e (some X) (some y) = some (X, y.ravel) := by
    simp only [trainingData]
    rw [if_pos hs]
  unfold parity
  rw [ht]
  simp only [hp]
  obtain ⟨c1, _, c3⟩ := Verif.Viz.Data.Claims.C112_parity (column y.ravel) (column p)
  obtain ⟨r, hr⟩ := c3 (by simp [column, hl])
  rw [hr]
  obtain ⟨d1, d2, _, d4⟩ := c1 r hr
  have f1 : (column y.ravel).ravel = y.ravel := Verif.Viz.Data.Claims.flat_ravel _
  have f2 : (column p).ravel = p := Verif.Viz.Data.Claims.flat_ravel _
  rw [f1] at d1 d4
  rw [f2] at d2 d4
  cases r
  simp_all

/-- **C120** (equation): PySR's own LaTeX if it is not blank; else the chosen label and the LaTeX of the symbolic form; else the stored text. -/
theorem C120_latex (b : Backend M S) (e : Est M S) (m : M) (lhs : String) (hm : e.model = some m) :
    (∀ s, b.latex m = some s → (∃ c ∈ s.toList, c.isWhitespace = false) → equationLatex b e lhs = .ok s) ∧
    ((∀ s, b.latex m = some s → ∀ c ∈ s.toList, c.isWhitespace = true) →
      (∀ z r, e.sympy = some z → b.sympyLatex z = some r → equationLatex b e lhs = .ok (lhs ++ " = " ++ r)) ∧
      (e.sympy = none → ∀ q, e.equation = some q → q ≠ "" → equationLatex b e lhs = .ok q)) := by
  refine ⟨fun s hs hc => ?_, fun hc => ?_⟩
  · have hn : nonBlank s = true := by
      obtain ⟨c, h1, h2⟩ := hc
      simp only [nonBlank, List.any_eq_true]
      exact ⟨c, h1, by rw [h2]; rfl⟩
    simp [equationLatex, hm, hs, hn, Option.filter]
  · have hf : (b.latex m).filter nonBlank = none := by
      cases hl : b.latex m with
      | none => rfl
      | some s =>
        have hn : nonBlank s = false := by
          simp only [nonBlank, List.any_eq_false]
          intro c h1
          rw [hc s hl c h1]; decide
        simp [Option.filter, hn]
    refine ⟨fun z r hz hr => ?_, fun hz q hq hne => ?_⟩
    · simp [equationLatex, hm, hf, hz, hr]
    · have hg : e.equation.filter (· ≠ "") = some q := by simp [hq, hne, Option.filter]
      simp only [equationLatex, hm, hf, hz, hg, Option.bind_none]

end Verif.Api.PySR.Claims
