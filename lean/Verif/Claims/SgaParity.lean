import Mathlib.Algebra.Order.Ring.Rat
import Mathlib.Algebra.Field.Rat
import Verif.Viz.SgaParity
/-!
# C210: what the parity figure of SGA compares
-/
namespace Verif.Viz.SgaParity

/-! ## Specification -/

/-- An array as numpy has it: as many entries as the shape says. -/
def Arr.Ok (a : Arr) : Prop := a.shape.foldr (· * ·) 1 = a.vals.length

/-- A figure of the pairs (actual, predicted), entry by entry, with a true summary. -/
def Shows (p : Parity) (mode : String) (actual predicted : List Rat) : Prop :=
  p.mode = mode ∧ p.actual = actual ∧ p.predicted = predicted ∧ p.residuals.length = actual.length ∧
  (∀ (i : Nat) a b, actual[i]? = some a → predicted[i]? = some b → p.residuals[i]? = some (a - b)) ∧
  p.mean * (actual.length : Rat) = p.residuals.sum ∧
  p.meanSquare * (actual.length : Rat) = (p.residuals.map fun r => r * r).sum ∧
  (∀ r ∈ p.residuals, |r| ≤ p.maxAbs) ∧ ∃ r ∈ p.residuals, |r| = p.maxAbs

/-- What a row of the table of given terms contributes: coefficient times entry, over the terms that are not found by the search; the entry is
that of the term called so, the first one if there is none. -/
def rowSum (names : List String) (vals : List Rat) (i : Nat) (terms : List Term) : Rat :=
  ((terms.filter fun t => !t.tree).map fun t =>
    t.coef * (vals[i * names.length + (if t.label ∈ names then names.idxOf t.label else 0)]?).getD 0).sum

/-! ## Proofs -/

private theorem absR_eq (q : Rat) : absR q = |q| := by
  unfold absR
  split
  · rename_i h; rw [abs_of_neg h]
  · rename_i h; rw [abs_of_nonneg (not_lt.1 h)]

private theorem maxAbs_spec : ∀ l : List Rat, l ≠ [] → (∀ r ∈ l, |r| ≤ maxAbs l) ∧ ∃ r ∈ l, |r| = maxAbs l
  | [], h => absurd rfl h
  | [a], _ => by simp [maxAbs, absR_eq]
  | a :: b :: l, _ => by
    obtain ⟨h1, r, h2, h3⟩ := maxAbs_spec (b :: l) (by simp)
    by_cases h : maxAbs (b :: l) < absR a
    · have e : maxAbs (a :: b :: l) = |a| := by rw [maxAbs, if_pos h, absR_eq]; simp
      rw [e]
      rw [absR_eq] at h
      refine ⟨fun x hx => ?_, a, List.mem_cons_self, rfl⟩
      rcases List.mem_cons.1 hx with rfl | hx
      · exact le_refl _
      · exact le_trans (h1 x hx) h.le
    · have e : maxAbs (a :: b :: l) = maxAbs (b :: l) := by rw [maxAbs, if_neg h]; simp
      rw [e]
      rw [absR_eq] at h
      refine ⟨fun x hx => ?_, r, List.mem_cons_of_mem _ h2, h3⟩
      rcases List.mem_cons.1 hx with rfl | hx
      · exact not_lt.1 h
      · exact h1 x hx

private theorem figure_shows (m : String) (a p : Arr) (hl : a.vals.length = p.vals.length) (hne : a.vals ≠ []) :
    ∃ q, figure m a p = .figure q ∧ Shows q m a.vals p.vals := by
  have hlen : (List.zipWith (· - ·) a.vals p.vals).length = a.vals.length := by simp [hl]
  have hr : List.zipWith (· - ·) a.vals p.vals ≠ [] := by
    intro h
    rw [h] at hlen
    exact hne (List.length_eq_zero_iff.1 hlen.symm)
  have hn : ((a.vals.length : Nat) : Rat) ≠ 0 := by
    have : 0 < a.vals.length := List.length_pos_iff.2 hne
    exact_mod_cast this.ne'
  refine ⟨_, by rw [figure, if_neg hne], rfl, rfl, rfl, hlen, ?_, ?_, ?_, ?_⟩
  · intro i x y hx hy
    simp [List.getElem?_zipWith, hx, hy]
  · show mean _ * _ = _
    unfold mean
    rw [hlen, div_mul_cancel₀ _ hn]
  · show mean _ * _ = _
    unfold mean
    rw [List.length_map, hlen, div_mul_cancel₀ _ hn]
  · exact maxAbs_spec _ hr

private theorem reshape_some {v : List Rat} {s : List Nat} {a : Arr} (h : reshape v s = some a) : a = ⟨s, v⟩ ∧ s.foldr (· * ·) 1 = v.length := by
  unfold reshape at h
  split at h
  · cases h; exact ⟨rfl, by assumption⟩
  · exact nomatch h

/-- With a stored prediction of as many entries as the time derivative (in any shape) the figure shows this prediction, entry by entry,
against the time derivative used for the search; `compare='original'` takes the derivative of the original data instead if it has the same
shape, and otherwise silently the first one, labelled as such; the summary is that of the differences. -/
theorem C210_stored (c : Context) (hu : c.ut.Ok) (hne : c.ut.vals ≠ []) (terms : List Term) (a : Arr) (ha : a.Ok)
    (hlen : a.vals.length = c.ut.vals.length) (again : Option (List Rat)) (compare : Option String) :
    (compare ≠ some "original" → ∃ q, parity c terms (some a) again compare = .figure q ∧ Shows q "metadata" c.ut.vals a.vals) ∧
    (∀ o, c.utOrigin = some o → o.Ok → o.shape = c.ut.shape →
      ∃ q, parity c terms (some a) again (some "original") = .figure q ∧ Shows q "original" o.vals a.vals) ∧
    (∀ o, c.utOrigin = some o → o.shape ≠ c.ut.shape →
      ∃ q, parity c terms (some a) again (some "original") = .figure q ∧ Shows q "metadata" c.ut.vals a.vals) ∧
    (c.utOrigin = none → parity c terms (some a) again (some "original") = .warning) := by
  have hp : ∃ p : Arr, prediction c terms (some a) again = some (some p) ∧ p.shape = c.ut.shape ∧ p.vals = a.vals := by
    unfold prediction
    by_cases hs : a.shape = c.ut.shape
    · exact ⟨a, by simp [hs], hs, rfl⟩
    · refine ⟨⟨c.ut.shape, a.vals⟩, ?_, rfl, rfl⟩
      have : c.ut.shape.foldr (· * ·) 1 = a.vals.length := by rw [hlen]; exact hu
      simp [hs, reshape, this]
  obtain ⟨p, hp, hps, hpv⟩ := hp
  have hut : ∃ q, figure "metadata" c.ut p = .figure q ∧ Shows q "metadata" c.ut.vals a.vals := by
    rw [← hpv]
    exact figure_shows _ _ _ (by rw [hpv, hlen]) hne
  refine ⟨fun hc => ?_, fun o ho hok hsh => ?_, fun o ho hsh => ?_, fun ho => ?_⟩
  · obtain ⟨q, h1, h2⟩ := hut
    exact ⟨q, by simp [parity, hp, target, hc, hps, h1], h2⟩
  · have hol : o.vals.length = c.ut.vals.length := by
      rw [← hok, hsh]; exact hu
    have hone : o.vals ≠ [] := by
      intro h
      rw [h] at hol
      exact hne (List.length_eq_zero_iff.1 hol.symm)
    obtain ⟨q, h1, h2⟩ := figure_shows "original" o p (by rw [hpv, hlen, hol]) hone
    rw [hpv] at h2
    exact ⟨q, by simp [parity, hp, target, ho, hps, hsh, h1], h2⟩
  · obtain ⟨q, h1, h2⟩ := hut
    exact ⟨q, by simp [parity, hp, target, ho, hps, hsh, h1], h2⟩
  · simp [parity, hp, target, ho]

/-- Without a usable stored prediction the second evaluation is shown. -/
theorem C210_again (c : Context) (hne : c.ut.vals ≠ []) (terms : List Term) (v : List Rat)
    (hu : c.ut.Ok) (hv : v.length = c.ut.vals.length) (cached : Option Arr) (hc : ∀ a, cached = some a → a.Ok ∧ a.vals.length ≠ c.ut.vals.length) :
    ∃ q, parity c terms cached (some v) none = .figure q ∧ Shows q "metadata" c.ut.vals v := by
  have hp : prediction c terms cached (some v) = some (some ⟨c.ut.shape, v⟩) := by
    have hr : reshape v c.ut.shape = some ⟨c.ut.shape, v⟩ := by
      have : c.ut.shape.foldr (· * ·) 1 = v.length := by rw [hv]; exact hu
      simp [reshape, this]
    unfold prediction
    cases cached with
    | none => simp [hr]
    | some a =>
      obtain ⟨h1, h2⟩ := hc a rfl
      have hs : a.shape ≠ c.ut.shape := fun e => h2 (by rw [← h1, e]; exact hu)
      have hx : reshape a.vals c.ut.shape = none := by
        have : ¬ c.ut.shape.foldr (· * ·) 1 = a.vals.length := fun e => h2 (by rw [← e]; exact hu)
        simp [reshape, this]
      simp [hs, hx, hr]
  obtain ⟨q, h1, h2⟩ := figure_shows "metadata" c.ut ⟨c.ut.shape, v⟩ (by simp [hv]) hne
  exact ⟨q, by simp [parity, hp, target, h1], h2⟩

private theorem sumDefaults_spec (c : Context) (names : List String) (hn : c.names = some names) (hnum : c.num = names.length)
    (h0 : 0 < names.length) (vals : List Rat) (n : Nat) (hd : vals.length / c.num = n) : ∀ (terms : List Term) (acc : List Rat), acc.length = n →
      (sumDefaults c vals terms acc).length = n ∧
      ∀ (i : Nat) x, acc[i]? = some x → (sumDefaults c vals terms acc)[i]? = some (x + rowSum names vals i terms)
  | [], acc, ha => by simp [sumDefaults, rowSum, ha]
  | t :: ts, acc, ha => by
    have ih := sumDefaults_spec c names hn hnum h0 vals n hd ts
    cases htr : t.tree with
    | true => simpa [sumDefaults, rowSum, htr] using ih acc ha
    | false =>
      generalize hj' : (if t.label ∈ names then names.idxOf t.label else 0) = j
      have hc : column c t.label = j := by simp [column, hn, hj']
      have hj : j < c.num := by
        rw [hnum, ← hj']
        split
        · rename_i hm; exact List.idxOf_lt_length_of_mem hm
        · exact h0
      have hcol : (col vals c.num j).length = n := by simp [col, hd]
      have hz : (List.zipWith (fun a b => a + t.coef * b) acc (col vals c.num j)).length = n := by
        simp [ha, hcol]
      obtain ⟨h1, h2⟩ := ih _ hz
      have he : sumDefaults c vals (t :: ts) acc =
          sumDefaults c vals ts (List.zipWith (fun a b => a + t.coef * b) acc (col vals c.num j)) := by
        simp [sumDefaults, htr, hc, hj]
      rw [he]
      refine ⟨h1, fun i x hx => ?_⟩
      have hi : i < n := by rw [← ha]; exact (List.getElem?_eq_some_iff.1 hx).1
      have hci : (col vals c.num j)[i]? = some ((vals[i * names.length + j]?).getD 0) := by
        have hd' := hd
        rw [hnum] at hd'
        simp [col, hnum, hd', hi]
      have := h2 i (x + t.coef * (vals[i * names.length + j]?).getD 0) (by
        rw [List.getElem?_zipWith, hx, hci])
      rw [this]
      simp [rowSum, htr, hj', add_assoc]

/-- The last resort: without a stored prediction and without a second evaluation every point is shown with the sum, over the terms that were
given to the search, of coefficient times the value of the term called so.
Partial, of the whole claim: What is compared and the summary are proved for every shape, prediction and option; the last resort leaves terms out and another shape silently changes the target (C210_dropped_counterexample). -/
theorem C210_given_partial (c : Context) (hu : c.ut.Ok) (hne : c.ut.vals ≠ []) (names : List String) (hn : c.names = some names)
    (hnum : c.num = names.length) (h0 : names ≠ []) (vals : List Rat) (hv : c.defaults = some vals)
    (hlen : vals.length = c.ut.vals.length * names.length) (terms : List Term) :
    ∃ q, parity c terms none none none = .figure q ∧ Shows q "metadata" c.ut.vals q.predicted ∧
      q.predicted.length = c.ut.vals.length ∧
      ∀ i < c.ut.vals.length, q.predicted[i]? = some (rowSum names vals i terms) := by
  have hpos : 0 < names.length := List.length_pos_iff.2 h0
  have hd : vals.length / c.num = c.ut.vals.length := by rw [hlen, hnum, Nat.mul_div_cancel _ hpos]
  obtain ⟨h1, h2⟩ := sumDefaults_spec c names hn hnum hpos vals _ hd terms (List.replicate c.ut.vals.length 0) (by simp)
  have hp : prediction c terms none none =
      some (some ⟨c.ut.shape, sumDefaults c vals terms (List.replicate c.ut.vals.length 0)⟩) := by
    have hm : vals.length % c.num = 0 := by rw [hlen, hnum]; simp
    have hr : c.ut.shape.foldr (· * ·) 1 = (sumDefaults c vals terms (List.replicate c.ut.vals.length 0)).length := by rw [h1]; exact hu
    have hz : c.num ≠ 0 := by omega
    simp [prediction, fromDefaults, hv, hm, hd, hz, reshape, hr]
  obtain ⟨q, h3, h4⟩ := figure_shows "metadata" c.ut ⟨c.ut.shape, sumDefaults c vals terms (List.replicate c.ut.vals.length 0)⟩ (by simp [h1]) hne
  have hq : q.predicted = sumDefaults c vals terms (List.replicate c.ut.vals.length 0) := h4.2.2.1
  refine ⟨q, by simp [parity, hp, target, h3], by rw [hq]; exact h4, by rw [hq, h1], fun i hi => ?_⟩
  rw [hq, h2 i 0 (by simp [hi])]
  simp

/-- Without a table of given terms (none, without columns, or of an impossible size) there is a warning; without names every given term
counts as the first one. -/
theorem C210_no_table (c : Context) (terms : List Term) (h : ∀ vals, c.defaults = some vals → c.num = 0 ∨ vals.length % c.num ≠ 0)
    (compare : Option String) : parity c terms none none compare = .warning := by
  have : fromDefaults c terms = none := by
    unfold fromDefaults
    cases hd : c.defaults with
    | none => rfl
    | some vals => simp [h vals hd]
  simp [parity, prediction, this]

theorem C210_no_names : parity ⟨⟨[2], [1, 2]⟩, none, some [1, 2, 3, 4], 2, none⟩ [⟨"ux", 2, false⟩] none none none =
    .figure ⟨"metadata", [1, 2], [2, 6], [-1, -4], -5/2, 4, 17/2⟩ := by
  decide +kernel

/-- A case: stored as a column, compared with both derivatives. -/
theorem C210_demo :
    let c : Context := ⟨⟨[1, 2], [1, 2]⟩, some ⟨[1, 2], [3, 4]⟩, none, 1, none⟩
    parity c [] (some ⟨[2, 1], [0, 4]⟩) none none = .figure ⟨"metadata", [1, 2], [0, 4], [1, -2], -1/2, 2, 5/2⟩ ∧
    parity c [] (some ⟨[2, 1], [0, 4]⟩) none (some "original") = .figure ⟨"original", [3, 4], [0, 4], [3, 0], 3/2, 3, 9/2⟩ ∧
    parity ⟨⟨[2], [1, 2]⟩, none, some [1, 2, 3, 4], 2, some ["u", "ux"]⟩ [⟨"ux", 2, false⟩, ⟨"u", -1, false⟩] none none none =
      .figure ⟨"metadata", [1, 2], [3, 5], [-2, -3], -5/2, 3, 13/2⟩ := by
  decide +kernel

/-- The last resort leaves the terms the search found out: for the equation u_t = u + 5 u_xx the figure shows u alone, without a warning;
and an original derivative of another shape is replaced without a word. -/
theorem C210_dropped_counterexample :
    let c : Context := ⟨⟨[2], [1, 2]⟩, some ⟨[1, 2], [3, 4]⟩, some [1, 1], 1, some ["u"]⟩
    (∃ q, parity c [⟨"u", 1, false⟩, ⟨"d^2(u,x)", 5, true⟩] none none none = .figure q ∧ q.predicted = [1, 1]) ∧
    ∃ q, parity c [] (some ⟨[2], [0, 0]⟩) none (some "original") = .figure q ∧ q.actual = [1, 2] := by
  refine ⟨⟨⟨"metadata", [1, 2], [1, 1], [0, 1], 1/2, 1, 1/2⟩, ?_, rfl⟩, ⟨⟨"metadata", [1, 2], [0, 0], [1, 2], 3/2, 2, 5/2⟩, ?_, rfl⟩⟩ <;>
    decide +kernel

end Verif.Viz.SgaParity
