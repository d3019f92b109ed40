import Mathlib.Algebra.Order.Ring.Rat
import Mathlib.Algebra.Order.Field.Basic
import Mathlib.Algebra.BigOperators.Group.List.Basic
import Mathlib.Algebra.Order.BigOperators.Group.List
import Mathlib.Tactic.Positivity
import Mathlib.Tactic.Ring
import Mathlib.Tactic.Linarith
import Mathlib.Tactic.NormNum
import Verif.Discover.Fit
/-!
# C70 – the coefficients of a valid program belong to its terms and fit the data best; C73 – warnings
-/
namespace Verif.Discover.Fit.Claims

/-! ## Evaluation of the terms -/

theorem runTerms_ok {K : Type} (run : List String → TermVal K) (terms : List (List String)) (cols : List (List K)) :
    runTerms run terms = .ok cols ↔ terms.map run = cols.map TermVal.col := by
  induction terms generalizing cols with
  | nil => cases cols <;> simp [runTerms]
  | cons t ts ih =>
    simp only [runTerms]
    cases h : run t with
    | invalid e => cases cols <;> simp [h]
    | none => cases cols <;> simp [h]
    | col xs =>
      cases h2 : runTerms run ts with
      | error e =>
        cases cols with
        | nil => simp
        | cons c cs =>
          simp only [List.map_cons, h, List.cons.injEq, TermVal.col.injEq, reduceCtorEq, false_iff, not_and]
          intro _ h3
          exact absurd ((ih cs).2 h3) (by simp [h2])
      | ok cs' =>
        have h3 := (ih cs').1 h2
        cases cols with
        | nil => simp
        | cons c cs =>
          simp only [List.map_cons, h, List.cons.injEq, TermVal.col.injEq, Except.ok.injEq]
          constructor
          · rintro ⟨rfl, rfl⟩; exact ⟨rfl, h3⟩
          · rintro ⟨rfl, h4⟩
            refine ⟨rfl, ?_⟩
            have h5 := (ih cs).2 h4
            rw [h2] at h5
            exact Except.ok.inj h5

theorem termErrors_omit (m : Nat) (terms : List (List String)) (k : Nat) (h : (terms.flatMap (termErrors m)) = []) :
    ((terms.zipIdx k).flatMap (fun p => (termErrors m p.1).map fun _ => p.2)) = [] := by
  induction terms generalizing k with
  | nil => rfl
  | cons t ts ih =>
    simp only [List.flatMap_cons, List.append_eq_nil_iff] at h
    rw [List.zipIdx_cons, List.flatMap_cons, ih (k + 1) h.2, h.1]; rfl

theorem omit_nil (c : Cfg) (tr : List String) (terms : List (List String)) (h : (regulations c tr terms).2 = []) :
    (regulations c tr terms).1 = [] := by
  simp only [regulations, checkTerms, List.append_eq_nil_iff] at h ⊢
  exact termErrors_omit _ _ 0 h.2

theorem zipIdx_filter_nil {α : Type} (l : List α) (k : Nat) :
    (((l.zipIdx k).filter (fun q => !(([] : List Nat).contains q.2))).map Prod.fst) = l := by
  induction l generalizing k with
  | nil => rfl
  | cons a l ih => have := ih (k + 1); simp_all [List.zipIdx_cons]

theorem evaluateTerms_ok {K : Type} (c : Cfg) (run : List String → TermVal K) (tr : List String)
    (terms : List (List String)) (cols : List (List K)) :
    evaluateTerms c run tr terms = .ok cols ↔
      (regulations c tr terms).2 = [] ∧ terms.map run = cols.map TermVal.col ∧ terms ≠ [] ∧
        ∀ x ∈ cols, ∀ y ∈ cols, x.length = y.length := by
  unfold evaluateTerms
  simp only
  by_cases hr : (regulations c tr terms).2 = []
  · rw [if_neg (by simp [hr]), omit_nil c tr terms hr]
    simp only [hr, true_and]
    cases h : runTerms run terms with
    | error e =>
      simp only [reduceCtorEq, false_iff, not_and]
      intro h2
      exact absurd ((runTerms_ok run terms cols).2 h2) (by simp [h])
    | ok cols' =>
      have h' := (runTerms_ok run terms cols').1 h
      have huniq : ∀ cols, terms.map run = cols.map TermVal.col → cols = cols' := by
        intro cs hcs
        have := (runTerms_ok run terms cs).2 hcs
        rw [h] at this
        exact (Except.ok.inj this).symm
      cases cols' with
      | nil =>
        have ht : terms = [] := by simpa using h'
        subst ht
        simp
      | cons r rs =>
        have ht : terms ≠ [] := by rintro rfl; simp at h'
        simp only
        by_cases ha : rs.any (fun x => x.length != r.length) = true
        · rw [if_pos ha]
          simp only [reduceCtorEq, false_iff, not_and]
          intro h2 _ hall
          obtain rfl := huniq cols h2
          obtain ⟨x, hx, hne⟩ := List.any_eq_true.1 ha
          have := hall x (by simp [hx]) r (by simp)
          simp [this] at hne
        · rw [if_neg ha]
          have hall : ∀ x ∈ rs, x.length = r.length := by
            intro x hx
            by_contra hne
            exact ha (List.any_eq_true.2 ⟨x, hx, by simpa using hne⟩)
          rw [zipIdx_filter_nil]
          constructor
          · rintro h2
            obtain rfl := Except.ok.inj h2
            refine ⟨h', ht, ?_⟩
            intro x hx y hy
            have hx' : x.length = r.length := by
              rcases List.mem_cons.1 hx with rfl | hx
              · rfl
              · exact hall x hx
            have hy' : y.length = r.length := by
              rcases List.mem_cons.1 hy with rfl | hy
              · rfl
              · exact hall y hy
            omega
          · rintro ⟨h2, _, _⟩
            rw [huniq cols h2]
  · rw [if_pos (by cases hh : (regulations c tr terms).2 <;> simp_all)]
    simp [hr]

/-! ## C70: the fit -/

theorem checkCoefs_false {K : Type} (small large : K → Bool) (ac : Bool) (w : List K) :
    checkCoefs small large ac w = .ok false ↔ ∀ a ∈ w, small a = false ∧ large a = false := by
  induction w with
  | nil => simp [checkCoefs]
  | cons a w ih =>
    simp only [checkCoefs, List.mem_cons, forall_eq_or_imp]
    by_cases h1 : small a = true
    · rw [if_pos h1]
      by_cases h2 : (ac && w.isEmpty) = true
      · rw [if_pos h2]; simp [h1]
      · rw [if_neg h2]; simp [h1]
    · rw [if_neg h1]
      by_cases h2 : large a = true
      · rw [if_pos h2]; simp [h2]
      · rw [if_neg h2, ih]; simp [h1, h2]

theorem checkCoefs_true {K : Type} (small large : K → Bool) (ac : Bool) (w : List K) :
    checkCoefs small large ac w = .ok true ↔
      ac = true ∧ ∃ w0 a, w = w0 ++ [a] ∧ small a = true ∧ ∀ b ∈ w0, small b = false ∧ large b = false := by
  induction w with
  | nil => simp [checkCoefs]
  | cons a w ih =>
    simp only [checkCoefs]
    by_cases h1 : small a = true
    · rw [if_pos h1]
      by_cases h2 : (ac && w.isEmpty) = true
      · rw [if_pos h2]
        simp only [Bool.and_eq_true, List.isEmpty_iff] at h2
        obtain ⟨h2, rfl⟩ := h2
        simp only [true_iff]
        exact ⟨h2, [], a, rfl, h1, by simp⟩
      · rw [if_neg h2]
        simp only [reduceCtorEq, false_iff, not_and]
        rintro hac ⟨w0, b, hw, hb, hall⟩
        cases w0 with
        | nil => simp at hw; simp [hac, hw.2] at h2
        | cons c w0 =>
          obtain ⟨rfl, -⟩ := List.cons.inj hw
          simpa [h1] using (hall a (by simp)).1
    · rw [if_neg h1]
      by_cases h2 : large a = true
      · rw [if_pos h2]
        simp only [reduceCtorEq, false_iff, not_and]
        rintro hac ⟨w0, b, hw, hb, hall⟩
        cases w0 with
        | nil => simp at hw; simp [hw.1, hb] at h1
        | cons c w0 =>
          obtain ⟨rfl, -⟩ := List.cons.inj hw
          simpa [h2] using (hall a (by simp)).2
      · rw [if_neg h2, ih]
        constructor
        · rintro ⟨hac, w0, b, rfl, hb, hall⟩
          refine ⟨hac, a :: w0, b, rfl, hb, ?_⟩
          intro c hc
          rcases List.mem_cons.1 hc with rfl | hc
          · simp [h1, h2]
          · exact hall c hc
        · rintro ⟨hac, w0, b, hw, hb, hall⟩
          cases w0 with
          | nil => simp at hw; simp [hw.1, hb] at h1
          | cons c w0 =>
            obtain ⟨rfl, rfl⟩ := List.cons.inj hw
            exact ⟨hac, w0, b, rfl, hb, fun d hd => hall d (by simp [hd])⟩

section
variable {K : Type} [Add K] [Mul K] [OfNat K 0] [OfNat K 1]

/-- **C70** (terms and coefficients): whenever fitting a program succeeds, every one of its terms evaluated to an array,
all of the same length; column `j` of the matrix is the value of term `j`, followed by at most one column of ones
(only if a constant was asked for); the coefficients are those the least-squares solver returns for exactly this
matrix and the data; the prediction is the matrix times the coefficients. -/
theorem C70_columns (small large : K → Bool) (lstsq : List (List K) → List K → Option (List K)) (c : Cfg)
    (run : List String → TermVal K) (tr : List String) (terms : List (List String)) (lhs : List K) (f : Fitted K)
    (h : calculate small large lstsq c run tr terms lhs = some (.ok f)) :
    ∃ (cols : List (List K)) (n : Nat), cols.length = terms.length ∧ terms ≠ [] ∧
      (∀ j (hj : j < terms.length) (hc : j < cols.length), run terms[j] = .col cols[j] ∧ cols[j].length = n) ∧
      (f.rhs = cols ∨ (c.addConst = true ∧ f.rhs = cols ++ [List.replicate n 1])) ∧
      lstsq f.rhs lhs = some f.w ∧
      f.yHat = (List.range n).map fun i => ((f.rhs.zip f.w).map fun p => (p.1[i]?).getD 0 * p.2).foldr (· + ·) 0 := by
  unfold calculate at h
  cases he : evaluateTerms c run tr terms with
  | error e => simp [he] at h
  | ok cols =>
    obtain ⟨-, hmap, hne, hlen⟩ := (evaluateTerms_ok c run tr terms cols).1 he
    simp only [he] at h
    have hl : cols.length = terms.length := by simpa using (congrArg List.length hmap).symm
    refine ⟨cols, (cols.headD []).length, hl, hne, ?_, ?_⟩
    · intro j hj hc
      have h1 := congrArg (fun l => l[j]?) hmap
      simp only [List.getElem?_map, List.getElem?_eq_getElem hj, List.getElem?_eq_getElem hc, Option.map_some,
        Option.some.injEq] at h1
      refine ⟨h1, ?_⟩
      cases cols with
      | nil => simp at hc
      | cons r rs => exact hlen _ (List.getElem_mem hc) r (by simp)
    · unfold coefCalculate at h
      cases hw : lstsq (if c.addConst = true then cols ++ [List.replicate (cols.headD []).length 1] else cols) lhs with
      | none => simp only [hw] at h; simp at h
      | some w =>
        simp only [hw] at h
        cases hck : checkCoefs small large c.addConst w with
        | error e => simp [hck] at h
        | ok b =>
          simp only [hck] at h
          cases b with
          | false =>
            simp only [Option.some.injEq, Except.ok.injEq] at h
            subst h
            refine ⟨?_, hw, rfl⟩
            by_cases ha : c.addConst = true
            · right; exact ⟨ha, by simp [ha]⟩
            · left; simp [ha]
          | true =>
            have hac := ((checkCoefs_true small large c.addConst w).1 hck).1
            simp only [hac, if_true, List.dropLast_concat] at h
            cases hw' : lstsq cols lhs with
            | none => simp [hw'] at h
            | some w' =>
              simp only [hw', Option.some.injEq, Except.ok.injEq] at h
              subst h
              exact ⟨Or.inl rfl, hw', rfl⟩

/-- **C70** (validity): without a constant, fitting succeeds exactly when no regulation is violated, every term evaluates
to an array of the same length, the solver succeeds, and no coefficient is below `5e-5` or above `1e4` in size. -/
theorem C70_valid_iff (small large : K → Bool) (lstsq : List (List K) → List K → Option (List K)) (c : Cfg)
    (hc : c.addConst = false) (run : List String → TermVal K) (tr : List String) (terms : List (List String))
    (lhs : List K) :
    (∃ f, calculate small large lstsq c run tr terms lhs = some (.ok f)) ↔
      (regulations c tr terms).2 = [] ∧ terms ≠ [] ∧
        ∃ cols w, terms.map run = cols.map TermVal.col ∧ (∀ x ∈ cols, ∀ y ∈ cols, x.length = y.length) ∧
          lstsq cols lhs = some w ∧ ∀ a ∈ w, small a = false ∧ large a = false := by
  unfold calculate
  constructor
  · rintro ⟨f, h⟩
    cases he : evaluateTerms c run tr terms with
    | error e => simp [he] at h
    | ok cols =>
      obtain ⟨hr, hmap, hne, hlen⟩ := (evaluateTerms_ok c run tr terms cols).1 he
      simp only [he, hc] at h
      unfold coefCalculate at h
      simp only [Bool.false_eq_true, if_false] at h
      cases hw : lstsq cols lhs with
      | none => simp [hw] at h
      | some w =>
        simp only [hw] at h
        cases hck : checkCoefs small large false w with
        | error e => simp [hck] at h
        | ok b =>
          cases b with
          | false => exact ⟨hr, hne, cols, w, hmap, hlen, hw, (checkCoefs_false _ _ _ _).1 hck⟩
          | true => exact absurd ((checkCoefs_true _ _ _ _).1 hck).1 (by simp)
  · rintro ⟨hr, hne, cols, w, hmap, hlen, hw, hall⟩
    have he := (evaluateTerms_ok c run tr terms cols).2 ⟨hr, hmap, hne, hlen⟩
    simp only [he, hc, coefCalculate, Bool.false_eq_true, if_false, hw,
      (checkCoefs_false small large false w).2 hall]
    exact ⟨_, rfl⟩

/-- **C70** (reasons): a program that cannot be fitted says why.  Violated regulations are named, joined by `+`; otherwise the first term that does not evaluate
decides – its own error, or `execute_returned_none`; then terms of different sizes are a `dim_error`, a failing solver is `bad_str`, and the first coefficient out
of range is a `small_coe` (unless it is the constant's) or a `large_coe`. -/
theorem C70_reasons (small large : K → Bool) (lstsq : List (List K) → List K → Option (List K)) (c : Cfg) (run : List String → TermVal K)
    (tr : List String) (terms : List (List String)) (lhs : List K) :
    ((regulations c tr terms).2 ≠ [] → calculate small large lstsq c run tr terms lhs = some (.error (String.intercalate "+" (regulations c tr terms).2))) ∧
    ((regulations c tr terms).2 = [] →
      (∀ pre t post, terms = pre ++ t :: post → (∀ s ∈ pre, ∃ xs, run s = .col xs) →
        (∀ e, run t = .invalid e → calculate small large lstsq c run tr terms lhs = some (.error e)) ∧
        (run t = .none → calculate small large lstsq c run tr terms lhs = some (.error "execute_returned_none"))) ∧
      ∀ cols, terms.map run = cols.map TermVal.col →
        ((∃ x ∈ cols, ∃ y ∈ cols, x.length ≠ y.length) → calculate small large lstsq c run tr terms lhs = some (.error "dim_error")) ∧
        ((∀ x ∈ cols, ∀ y ∈ cols, x.length = y.length) → cols ≠ [] → ∀ full,
          full = (if c.addConst then cols ++ [List.replicate (cols.headD []).length 1] else cols) →
          (lstsq full lhs = none → calculate small large lstsq c run tr terms lhs = some (.error "bad_str")) ∧
          ∀ good a rest, lstsq full lhs = some (good ++ a :: rest) → (∀ b ∈ good, small b = false ∧ large b = false) →
            (small a = true → (c.addConst = false ∨ rest ≠ []) → calculate small large lstsq c run tr terms lhs = some (.error "small_coe")) ∧
            (small a = false → large a = true → calculate small large lstsq c run tr terms lhs = some (.error "large_coe")))) := by
  refine ⟨fun hr => ?_, fun hr => ⟨?_, ?_⟩⟩
  · have hl : (regulations c tr terms).2.length > 0 := List.length_pos_iff.2 hr
    unfold calculate evaluateTerms
    simp only [hl, if_true]
  · intro pre t post ht hpre
    have hl : ¬ (regulations c tr terms).2.length > 0 := by simp [hr]
    have key : ∀ e, runTerms run (t :: post) = .error e → calculate small large lstsq c run tr terms lhs = some (.error e) := by
      intro e he
      have h1 : runTerms run terms = .error e := by
        rw [ht]
        clear ht hr hl
        induction pre with
        | nil => exact he
        | cons s pre ih =>
          obtain ⟨xs, hx⟩ := hpre s List.mem_cons_self
          rw [List.cons_append, runTerms, hx]
          simp only [ih fun s hs => hpre s (List.mem_cons_of_mem _ hs)]
      unfold calculate evaluateTerms
      simp only [hl, if_false, h1]
    constructor
    · intro e he
      exact key e (by rw [runTerms, he])
    · intro he
      exact key _ (by rw [runTerms, he])
  · intro cols hmap
    have hl : ¬ (regulations c tr terms).2.length > 0 := by simp [hr]
    constructor
    · rintro ⟨x, hx, y, hy, hxy⟩
      have h1 := (runTerms_ok run terms cols).2 hmap
      unfold calculate evaluateTerms
      cases cols with
      | nil => simp at hx
      | cons r rs =>
        have : rs.any (fun x => x.length != r.length) = true := by
          rw [List.any_eq_true]
          refine Classical.byContradiction fun hn => hxy ?_
          have hall : ∀ z ∈ r :: rs, z.length = r.length := by
            intro z hz
            rcases List.mem_cons.1 hz with rfl | hz
            · rfl
            · refine Classical.byContradiction fun hne => hn ⟨z, hz, by simpa using hne⟩
          rw [hall x hx, hall y hy]
        simp only [hl, if_false, h1, this, if_true]
    · intro hlen hne full hfull
      have hne' : terms ≠ [] := by
        intro h
        subst h
        cases cols with
        | nil => exact hne rfl
        | cons => simp at hmap
      have he := (evaluateTerms_ok c run tr terms cols).2 ⟨hr, hmap, hne', hlen⟩
      have hcalc : calculate small large lstsq c run tr terms lhs = coefCalculate small large lstsq c.addConst (cols.headD []).length full lhs := by
        unfold calculate
        simp only [he, hfull]
      rw [hcalc]
      unfold coefCalculate
      constructor
      · intro h
        simp only [h]
      · intro good a rest h hgood
        have hck : checkCoefs small large c.addConst (good ++ a :: rest) = checkCoefs small large c.addConst (a :: rest) := by
          clear h
          induction good with
          | nil => rfl
          | cons b good ih =>
            have hb := hgood b List.mem_cons_self
            rw [List.cons_append, checkCoefs, hb.1, hb.2]
            simpa using ih fun x hx => hgood x (List.mem_cons_of_mem _ hx)
        simp only [h, hck]
        constructor
        · intro hs hc
          have : (c.addConst && rest.isEmpty) = false := by
            rcases hc with hc | hc
            · simp [hc]
            · cases rest with
              | nil => exact absurd rfl hc
              | cons => simp
          simp only [checkCoefs, hs, this, if_true, Bool.false_eq_true, if_false]
        · intro hs hlg
          simp only [checkCoefs, hs, hlg, if_true, Bool.false_eq_true, if_false]

/-- **C70** (sizes of the coefficients): in a valid fit no coefficient is below `5e-5` or above `1e4` – if no constant
was asked for, or the constant was kept. -/
theorem C70_sizes_partial (small large : K → Bool) (lstsq : List (List K) → List K → Option (List K)) (c : Cfg)
    (run : List String → TermVal K) (tr : List String) (terms : List (List String)) (lhs : List K) (f : Fitted K)
    (h : calculate small large lstsq c run tr terms lhs = some (.ok f))
    (hk : c.addConst = false ∨ f.rhs.length = terms.length + 1) :
    ∀ a ∈ f.w, small a = false ∧ large a = false := by
  unfold calculate at h
  cases he : evaluateTerms c run tr terms with
  | error e => simp [he] at h
  | ok cols =>
    obtain ⟨-, hmap, -, -⟩ := (evaluateTerms_ok c run tr terms cols).1 he
    have hl : cols.length = terms.length := by simpa using (congrArg List.length hmap).symm
    simp only [he] at h
    unfold coefCalculate at h
    cases hw : lstsq (if c.addConst = true then cols ++ [List.replicate (cols.headD []).length 1] else cols) lhs with
    | none => simp only [hw] at h; simp at h
    | some w =>
      simp only [hw] at h
      cases hck : checkCoefs small large c.addConst w with
      | error e => simp [hck] at h
      | ok b =>
        simp only [hck] at h
        cases b with
        | false =>
          simp only [Option.some.injEq, Except.ok.injEq] at h
          subst h
          exact (checkCoefs_false _ _ _ _).1 hck
        | true =>
          have hac := ((checkCoefs_true small large c.addConst w).1 hck).1
          simp only [hac, if_true, List.dropLast_concat] at h
          cases hw' : lstsq cols lhs with
          | none => simp [hw'] at h
          | some w' =>
            simp only [hw', Option.some.injEq, Except.ok.injEq] at h
            subst h
            simp only [hac, Bool.true_eq_false, false_or] at hk
            omega
end

/-! ### Least squares -/

/-- The value of `Σⱼ wⱼ · colⱼ` at row `i` (spec). -/
def combo {K : Type} [Semiring K] (cols : List (List K)) (w : List K) (i : Nat) : K :=
  ((List.range (min cols.length w.length)).map fun j => (w[j]?).getD 0 * (((cols[j]?).getD [])[i]?).getD 0).sum

/-- Sum of squared residuals of the combination (spec). -/
def sse {K : Type} [CommRing K] (cols : List (List K)) (w y : List K) : K :=
  ((List.range y.length).map fun i => ((y[i]?).getD 0 - combo cols w i) ^ 2).sum

/-- Contract of `numpy.linalg.lstsq` over exact numbers (spec): one coefficient per column, same number of rows,
no combination of the columns is closer to the data. -/
def LeastSquares {K : Type} [CommRing K] [LE K] (lstsq : List (List K) → List K → Option (List K)) : Prop :=
  ∀ cols y w, lstsq cols y = some w → w.length = cols.length ∧ (∀ x ∈ cols, x.length = y.length) ∧
    ∀ w' : List K, w'.length = cols.length → sse cols w y ≤ sse cols w' y

theorem foldr_zip_combo {K : Type} [CommRing K] (cols : List (List K)) (w : List K) (i : Nat) :
    ((cols.zip w).map fun p => (p.1[i]?).getD 0 * p.2).foldr (· + ·) 0 = combo cols w i := by
  unfold combo
  induction cols generalizing w with
  | nil => simp
  | cons c cs ih =>
    cases w with
    | nil => simp
    | cons a w =>
      simp only [List.zip_cons_cons, List.map_cons, List.foldr_cons, ih, List.length_cons]
      rw [Nat.add_min_add_right, List.range_succ_eq_map]
      simp [List.map_map, Function.comp_def, mul_comm]

/-- **C70** (best fit): if the solver keeps its contract, the prediction of a valid fit is at every data point the
combination of the terms' values with the returned coefficients, there is exactly one coefficient per column, and no
other coefficients for the same columns predict the data better. -/
theorem C70_best {K : Type} [CommRing K] [LE K] (small large : K → Bool)
    (lstsq : List (List K) → List K → Option (List K)) (hls : LeastSquares lstsq) (c : Cfg)
    (run : List String → TermVal K) (tr : List String) (terms : List (List String)) (lhs : List K) (f : Fitted K)
    (h : calculate small large lstsq c run tr terms lhs = some (.ok f)) :
    f.w.length = f.rhs.length ∧ f.yHat = (List.range lhs.length).map (combo f.rhs f.w) ∧
      ∀ w' : List K, w'.length = f.w.length →
        ((List.range lhs.length).map fun i => ((lhs[i]?).getD 0 - (f.yHat[i]?).getD 0) ^ 2).sum ≤ sse f.rhs w' lhs := by
  obtain ⟨cols, n, hl, hne, hcols, hrhs, hw, hy⟩ := C70_columns small large lstsq c run tr terms lhs f h
  obtain ⟨h1, h2, h3⟩ := hls f.rhs lhs f.w hw
  have hn : n = lhs.length := by
    have hc0 : 0 < cols.length := by
      rw [hl]; exact List.length_pos_iff.2 hne
    have hc1 := (hcols 0 (by omega) hc0).2
    rw [← hc1]
    apply h2
    rcases hrhs with hr | ⟨-, hr⟩
    · rw [hr]; exact List.getElem_mem hc0
    · rw [hr]; exact List.mem_append_left _ (List.getElem_mem hc0)
  have hy' : f.yHat = (List.range lhs.length).map (combo f.rhs f.w) := by
    rw [hy, hn]
    apply List.map_congr_left
    intro i _
    exact foldr_zip_combo f.rhs f.w i
  refine ⟨h1, hy', fun w' hw' => ?_⟩
  refine Eq.trans_le ?_ (h3 w' (by omega))
  unfold sse
  congr 1
  apply List.map_congr_left
  intro i hi
  rw [hy']
  simp [List.getElem?_map, List.getElem?_range (List.mem_range.1 hi)]

/-! ### A concrete case, and the cases the theorems leave out -/

/-- `|w| < 5e-5` and `|w| > 1e4` on rational numbers. -/
def smallQ (a : ℚ) : Bool := decide (|a| < 5 / 100000)
def largeQ (a : ℚ) : Bool := decide (|a| > 10000)

/-- Terms `u1` ↦ (1, 2) and `mul u1 u1` ↦ (1, 4); everything else does not evaluate. -/
def exRun (t : List String) : TermVal ℚ :=
  if t = ["u1"] then .col [1, 2] else if t = ["mul", "u1", "u1"] then .col [1, 4] else .none

/-- The exact solutions needed below. -/
def exLstsq (cols : List (List ℚ)) (y : List ℚ) : Option (List ℚ) :=
  if y = [3, 10] then
    if cols = [[1, 2], [1, 4]] then some [1, 2]
    else if cols = [[1, 2], [1, 4], [1, 1]] then some [1, 2, 0]
    else none
  else if y = [3, 3] then
    if cols = [[1, 2], [1, 1]] then some [0, 3] else none
  else if y = [0, 0] then
    if cols = [[1, 2], [1, 1]] then some [1, 0] else if cols = [[1, 2]] then some [0] else none
  else none

-- u1 + 2 u1² fits (3, 10) exactly; with a constant asked for, the zero constant is dropped
example : calculate smallQ largeQ exLstsq {} exRun ["add", "u1", "mul", "u1", "u1"] [["u1"], ["mul", "u1", "u1"]] [3, 10] =
    some (.ok ⟨[3, 10], [1, 2], [[1, 2], [1, 4]]⟩) := by
  decide +kernel
example : calculate smallQ largeQ exLstsq { addConst := true } exRun ["add", "u1", "mul", "u1", "u1"]
    [["u1"], ["mul", "u1", "u1"]] [3, 10] = some (.ok ⟨[3, 10], [1, 2], [[1, 2], [1, 4]]⟩) := by
  decide +kernel
-- the contract of the solver holds where the example uses it
example : LeastSquares (fun (cols : List (List ℚ)) y =>
    if cols = [[1, 2], [1, 4]] ∧ y = [3, 10] then some [1, 2] else none) := by
  intro cols y w h
  by_cases hc : cols = [[1, 2], [1, 4]] ∧ y = [3, 10]
  · obtain ⟨rfl, rfl⟩ := hc
    simp only [and_self, if_true, Option.some.injEq] at h
    subst h
    refine ⟨rfl, by decide, fun w' _ => ?_⟩
    have : sse (K := ℚ) [[1, 2], [1, 4]] [1, 2] [3, 10] = 0 := by decide +kernel
    rw [this]
    apply List.sum_nonneg
    intro a ha
    obtain ⟨i, -, rfl⟩ := List.mem_map.1 ha
    positivity
  · simp [hc] at h

/-- The sizes are not checked again after a small constant was dropped: `u_t = 6e-5·u - 4e-5` on `u = (1, 2)` is refitted
to `3.6e-5·u` and accepted although the coefficient is below `5e-5` (the two solutions are the exact least-squares ones). -/
theorem C70_constant_counterexample :
    ∃ (lstsq : List (List ℚ) → List ℚ → Option (List ℚ)) (f : Fitted ℚ), LeastSquares lstsq ∧
      calculate smallQ largeQ lstsq { addConst := true } exRun ["u1"] [["u1"]] [2 / 100000, 8 / 100000] = some (.ok f) ∧
      ∃ a ∈ f.w, smallQ a = true := by
  refine ⟨fun cols y => if cols = [[1, 2], [1, 1]] ∧ y = [2 / 100000, 8 / 100000] then some [6 / 100000, -4 / 100000]
    else if cols = [[1, 2]] ∧ y = [2 / 100000, 8 / 100000] then some [36 / 1000000] else none,
    ⟨[36 / 1000000, 72 / 1000000], [36 / 1000000], [[1, 2]]⟩, ?_, by decide +kernel,
    36 / 1000000, by simp, by decide +kernel⟩
  intro cols y w h
  by_cases h1 : cols = [[1, 2], [1, 1]] ∧ y = [2 / 100000, 8 / 100000]
  · obtain ⟨rfl, rfl⟩ := h1
    simp only [and_self, if_true, Option.some.injEq] at h
    subst h
    refine ⟨rfl, by decide, fun w' _ => ?_⟩
    have : sse (K := ℚ) [[1, 2], [1, 1]] [6 / 100000, -4 / 100000] [2 / 100000, 8 / 100000] = 0 := by decide +kernel
    rw [this]
    apply List.sum_nonneg
    intro a ha
    obtain ⟨i, -, rfl⟩ := List.mem_map.1 ha
    positivity
  · by_cases h2 : cols = [[1, 2]] ∧ y = [2 / 100000, 8 / 100000]
    · obtain ⟨rfl, rfl⟩ := h2
      simp at h
      subst h
      refine ⟨rfl, by decide, fun w' hw' => ?_⟩
      match w', hw' with
      | [a], _ =>
        have e1 : sse (K := ℚ) [[1, 2]] [36 / 1000000] [2 / 100000, 8 / 100000] =
          (2 / 100000 - 36 / 1000000) ^ 2 + (8 / 100000 - 72 / 1000000) ^ 2 := by decide +kernel
        have e2 : sse (K := ℚ) [[1, 2]] [a] [2 / 100000, 8 / 100000] =
          (2 / 100000 - a) ^ 2 + (8 / 100000 - 2 * a) ^ 2 := by
          simp [sse, combo, List.range_succ]; ring
        rw [e1, e2]
        nlinarith [sq_nonneg (a - 36 / 1000000)]
    · simp only [h1, h2, if_false] at h
      simp at h

/-- In the weak form with a constant asked for no column of ones is added, but a small last coefficient still drops the
last column: the fit is valid with fewer coefficients than terms. -/
theorem C70_weak_form_counterexample :
    ∃ (lstsq : List (List ℚ) → List ℚ → Option (List ℚ)) (run2 : List String → TermVal ℚ) (f : Fitted ℚ),
      wfCalculate smallQ largeQ lstsq { addConst := true } exRun run2 ["add", "u1", "mul", "u1", "u1"]
        [["u1"], ["mul", "u1", "u1"]] [1, 2] = some (.ok f) ∧ f.w.length < 2 := by
  refine ⟨fun cols _ => if cols = [[1, 2], [1, 4]] then some [1, 0] else if cols = [[1, 2]] then some [1] else none,
    fun _ => .col [0, 0], ⟨[1, 2], [1], [[1, 2]]⟩, by decide +kernel, by decide⟩

/-- … and a term that fails to evaluate on the second data set does not make the program invalid. -/
theorem C70_weak_form_error_counterexample :
    ∃ (lstsq : List (List ℚ) → List ℚ → Option (List ℚ)) (f : Fitted ℚ),
      wfCalculate smallQ largeQ lstsq {} exRun (fun _ => .invalid "overflow") ["u1"] [["u1"]] [2, 4] =
        some (.ok f) := by
  refine ⟨fun cols _ => if cols = [[1, 2]] then some [2] else none, ⟨[2, 4], [2], [[1, 2]]⟩, by decide +kernel⟩

/-- … in general: if the terms evaluate on the first data set but not on the second, a program of up to three terms is fitted with the columns of the
first data set alone (the third diminished by 1), and one of four or more terms raises. -/
theorem C70_weak_form_error {K : Type} [Add K] [Mul K] [Sub K] [OfNat K 0] [OfNat K 1] (small large : K → Bool)
    (lstsq : List (List K) → List K → Option (List K)) (c : Cfg) (run1 run2 : List String → TermVal K) (tr : List String) (terms : List (List String))
    (lhs : List K) (cols1 : List (List K)) (e : String) (h1 : evaluateTerms c run1 tr terms = .ok cols1) (h2 : evaluateTerms c run2 tr terms = .error e) :
    (4 ≤ terms.length → wfCalculate small large lstsq c run1 run2 tr terms lhs = none) ∧
    (terms.length ≤ 3 → ∃ cols : List (List K), cols.length = terms.length ∧
      (∀ (i : Nat) col, cols1[i]? = some col → cols[i]? = some (col.map fun v => v - (if i = 2 then 1 else 0))) ∧
      wfCalculate small large lstsq c run1 run2 tr terms lhs = coefCalculate small large lstsq c.addConst ((cols.headD []).length) cols lhs) := by
  obtain ⟨-, hm1, -, -⟩ := (evaluateTerms_ok c run1 tr terms cols1).1 h1
  have hl1 : cols1.length = terms.length := by simpa using (congrArg List.length hm1).symm
  unfold wfCalculate
  simp only [h1, h2]
  constructor
  · intro h
    rw [if_neg (by omega)]
  · intro h
    rw [if_pos (by omega)]
    refine ⟨_, ?_, ?_, rfl⟩
    · simp [hl1]
    · intro i col hi
      rw [List.getElem?_mapIdx, hi]
      by_cases h : i = 2 <;> simp [h]

/-- **C70** (weak form): without a constant, and if the terms evaluate on both data sets, the columns are the differences
of the terms' values, one coefficient per column from the solver. -/
theorem C70_weak_form_partial {K : Type} [Add K] [Mul K] [Sub K] [OfNat K 0] [OfNat K 1] (small large : K → Bool)
    (lstsq : List (List K) → List K → Option (List K)) (c : Cfg) (hc : c.addConst = false)
    (run1 run2 : List String → TermVal K) (tr : List String) (terms : List (List String)) (lhs : List K) (f : Fitted K)
    (cols2 : List (List K)) (h2 : evaluateTerms c run2 tr terms = .ok cols2)
    (h : wfCalculate small large lstsq c run1 run2 tr terms lhs = some (.ok f)) :
    f.rhs.length = terms.length ∧ lstsq f.rhs lhs = some f.w ∧
      (∀ a ∈ f.w, small a = false ∧ large a = false) ∧
      ∀ j (hj : j < terms.length), ∃ v1 v2, run1 terms[j] = .col v1 ∧ run2 terms[j] = .col v2 ∧
        f.rhs[j]? = some (List.zipWith (· - ·) v1 v2) := by
  unfold wfCalculate at h
  cases he : evaluateTerms c run1 tr terms with
  | error e => simp [he] at h
  | ok cols1 =>
    obtain ⟨-, hm1, hne, -⟩ := (evaluateTerms_ok c run1 tr terms cols1).1 he
    obtain ⟨-, hm2, -, -⟩ := (evaluateTerms_ok c run2 tr terms cols2).1 h2
    have hl1 : cols1.length = terms.length := by simpa using (congrArg List.length hm1).symm
    have hl2 : cols2.length = terms.length := by simpa using (congrArg List.length hm2).symm
    simp only [he, h2, hc] at h
    generalize hcols : ((cols1.zip cols2).map fun p => List.zipWith (· - ·) p.1 p.2) = cols at h
    unfold coefCalculate at h
    cases hw : lstsq cols lhs with
    | none => simp [hw] at h
    | some w =>
      simp only [hw] at h
      cases hck : checkCoefs small large false w with
      | error e => simp [hck] at h
      | ok b =>
        cases b with
        | true => exact absurd ((checkCoefs_true _ _ _ _).1 hck).1 (by simp)
        | false =>
          simp only [hck, Option.some.injEq, Except.ok.injEq] at h
          subst h
          refine ⟨by simp [← hcols, hl1, hl2], hw, (checkCoefs_false _ _ _ _).1 hck, ?_⟩
          intro j hj
          have g1 := congrArg (fun l => l[j]?) hm1
          have g2 := congrArg (fun l => l[j]?) hm2
          have hj1 : j < cols1.length := by omega
          have hj2 : j < cols2.length := by omega
          simp only [List.getElem?_map, List.getElem?_eq_getElem hj, List.getElem?_eq_getElem hj1,
            List.getElem?_eq_getElem hj2, Option.map_some, Option.some.injEq] at g1 g2
          refine ⟨cols1[j], cols2[j], g1, g2, ?_⟩
          simp [← hcols, List.getElem?_map, List.getElem?_zip_eq_some, List.getElem?_eq_getElem, hj1, hj2]

/-! ## C73: a numerical warning marks exactly the program that raised it -/

/-- A history of evaluations (spec): each one either returns a value or raises. -/
def runAll {V : Type} : Log → List (Run V) → List (Option (V × Bool × Option String × Option String)) × Log
  | l, [] => ([], l)
  | l, r :: rs => let (o, l1) := unsafeExecute l r; let (os, l2) := runAll l1 rs; (o :: os, l2)

theorem write_all (ws : List (String × String)) (l : Log) :
    (ws.foldl (fun l w => l.write w.1 w.2) l).newEntry = (l.newEntry || !ws.isEmpty) := by
  induction ws generalizing l with
  | nil => simp
  | cons w ws ih =>
    rw [List.foldl_cons, ih]
    unfold Log.write
    by_cases h : l.newEntry = true
    · simp [h]
    · simp [h]

/-- **C73**: as long as no evaluation raises an exception, in every history every evaluation is reported invalid exactly
if one of its own numerical operations warned, and returns its own value. -/
theorem C73_warnings_partial {V : Type} (rs : List (Run V)) (hv : ∀ r ∈ rs, r.value.isSome) :
    (runAll {} rs).1.map (Option.map fun o => (o.1, o.2.1)) =
      rs.map fun r => r.value.map fun y => (y, !r.warnings.isEmpty) := by
  have key : ∀ (rs : List (Run V)) (l : Log), l.newEntry = false → (∀ r ∈ rs, r.value.isSome) →
      (runAll l rs).1.map (Option.map fun o => (o.1, o.2.1)) =
        rs.map fun r => r.value.map fun y => (y, !r.warnings.isEmpty) := by
    intro rs
    induction rs with
    | nil => intros; rfl
    | cons r rs ih =>
      intro l hl hv
      obtain ⟨y, hy⟩ := Option.isSome_iff_exists.1 (hv r (by simp))
      have hw := write_all r.warnings l
      rw [hl, Bool.false_or] at hw
      simp only [runAll, unsafeExecute, hy, List.map_cons, Option.map_some]
      rw [ih _ _ (fun r hr => hv r (by simp [hr]))]
      · unfold Log.update
        rw [hw]
        cases r.warnings.isEmpty <;> simp
      · unfold Log.update
        rw [hw]
        cases h : r.warnings.isEmpty <;> simp [h]
        simpa [h] using hw
  exact key rs {} rfl hv

/-- **C73** fails after an exception: the warning of an evaluation that raised is charged to the next one. -/
theorem C73_exception_counterexample :
    ∃ rs : List (Run Nat), (runAll {} rs).1.map (Option.map fun o => o.2.1) ≠
      rs.map fun r => r.value.map fun _ => !r.warnings.isEmpty :=
  ⟨[⟨[("divide", "true_divide")], none⟩, ⟨[], some 1⟩], by decide⟩

/-- **C73** fails with torch (every case): after an evaluation with torch that logged a warning, the next evaluation with numpy – which warned of nothing – is
reported invalid with that warning. -/
theorem C73_torch_leak {V W : Type} (ty node : String) (ws : List (String × String)) (v : Option V) (y : W) :
    (unsafeExecute (unsafeExecuteTorch {} ⟨(ty, node) :: ws, some v⟩).2 ⟨[], some y⟩).1 = some (y, true, some ty, some node) := by
  have h : ∀ (ws : List (String × String)), ws.foldl (fun (l : Log) w => l.write w.1 w.2) { newEntry := true, errType := some ty, errNode := some node } =
      { newEntry := true, errType := some ty, errNode := some node } := by
    intro ws
    induction ws with
    | nil => rfl
    | cons w ws ih => exact ih
  have h0 : ((ty, node) :: ws).foldl (fun (l : Log) w => l.write w.1 w.2) {} = { newEntry := true, errType := some ty, errNode := some node } := h ws
  unfold unsafeExecuteTorch
  simp only [h0]
  cases v <;> rfl

/-- **C73**, torch: what one evaluation reports, whatever was logged before: it is invalid exactly if its value is None, with `bad_diff` for error and
node; numpy's warnings do not make it invalid. -/
theorem C73_torch {V : Type} (l : Log) (r : Run (Option V)) :
    (unsafeExecuteTorch l r).1 = r.value.map fun v => (v, v.isNone, (if v.isNone then some "bad_diff" else none), if v.isNone then some "bad_diff" else none) := by
  rcases r with ⟨ws, _ | _ | v⟩ <;> rfl

/-- … and after a failed torch derivative. -/
theorem C73_torch_counterexample :
    ∃ (l : Log), (unsafeExecuteTorch (V := Nat) {} ⟨[], some none⟩).2 = l ∧
      ((unsafeExecute l ⟨[], some 1⟩).1.map fun o => (o.1, o.2.1)) = some (1, true) :=
  ⟨_, rfl, by decide⟩

-- three evaluations, the second one overflows twice
example : (runAll {} [⟨[], some 1⟩, ⟨[("overflow", "exp"), ("invalid", "log")], some 2⟩, ⟨[], some 3⟩]).1 =
    [some (1, false, none, none), some (2, true, some "overflow", some "exp"), some (3, false, none, none)] := by decide

end Verif.Discover.Fit.Claims
