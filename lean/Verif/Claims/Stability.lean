import Mathlib.Tactic.Linarith
import Mathlib.Tactic.Ring
import Mathlib.Tactic.NormNum
import Mathlib.Tactic.FieldSimp
import Mathlib.Algebra.Order.Field.Rat
import Mathlib.Algebra.BigOperators.Group.List.Basic
import Mathlib.Algebra.Order.BigOperators.Group.List
import Verif.Discover.Stability
import Verif.Claims.Select
/-! C127: the choice of the reported equation by resampling (sparse mode). -/
namespace Verif.Discover.Stability.Claims
open Verif.Discover Verif.Discover.Pinn Verif.Discover.Stability

/-! ## Choosing the best index -/

theorem fold_best (R : Nat → Nat → Bool) (hirr : ∀ a, R a a = false) (hw : ∀ i b k, R i b = false → R k b = true → R i k = false) (n : Nat) (hn : 0 < n) :
    (List.range n).foldl (fun b k => if R k b then k else b) 0 < n ∧
    ∀ i, i < n → R i ((List.range n).foldl (fun b k => if R k b then k else b) 0) = false := by
  induction n with
  | zero => omega
  | succ n ih =>
    rw [List.range_succ, List.foldl_append, List.foldl_cons, List.foldl_nil]
    rcases Nat.eq_zero_or_pos n with rfl | hp
    · simp only [List.range_zero, List.foldl_nil, hirr]
      exact ⟨by simp, fun i hi => by have : i = 0 := by omega
                                     subst this; simpa using hirr 0⟩
    · obtain ⟨h1, h2⟩ := ih hp
      generalize (List.range n).foldl (fun b k => if R k b then k else b) 0 = r at h1 h2
      cases hR : R n r with
      | true =>
        simp only [if_true]
        refine ⟨by omega, fun i hi => ?_⟩
        rcases Nat.lt_or_ge i n with h | h
        · exact hw i r n (h2 i h) hR
        · have : i = n := by omega
          subst this; exact hirr _
      | false =>
        simp only [Bool.false_eq_true, if_false]
        refine ⟨by omega, fun i hi => ?_⟩
        rcases Nat.lt_or_ge i n with h | h
        · exact h2 i h
        · have : i = n := by omega
          subst this; exact hR

theorem before_irrefl (a : Fl) : before a a = false := by cases a <;> simp [before]

theorem before_weak (a b c : Fl) (h1 : before a b = false) (h2 : before c b = true) : before a c = false := by
  cases a with
  | none => rfl
  | some a =>
    cases b with
    | none => simp [before] at h1
    | some b =>
      cases c with
      | none => simp [before] at h2
      | some c =>
        simp only [before, decide_eq_false_iff_not, decide_eq_true_eq, not_lt] at *
        linarith

theorem firstAt_spec (m : List (List Fl)) (j : Nat) (hm : m ≠ []) :
    firstAt m j < m.length ∧ ∀ i, i < m.length → before (cell m i j) (cell m (firstAt m j) j) = false :=
  fold_best (fun k b => before (cell m k j) (cell m b j)) (fun _ => before_irrefl _) (fun _ _ _ h1 h2 => before_weak _ _ _ h1 h2) m.length
    (List.length_pos_iff.2 hm)

theorem vote_spec (m : List (List Fl)) (n : Nat) (hm : m ≠ []) : vote m n < m.length ∧ ∀ i, i < m.length → places m n i ≤ places m n (vote m n) := by
  have h := fold_best (fun k b => decide (places m n b < places m n k)) (by simp)
    (by intro i b k h1 h2; simp only [decide_eq_false_iff_not, decide_eq_true_eq] at *; omega) m.length (List.length_pos_iff.2 hm)
  have e : vote m n = (List.range m.length).foldl (fun b k => if decide (places m n b < places m n k) = true then k else b) 0 := by
    simp only [vote, decide_eq_true_eq]
  rw [e]
  refine ⟨h.1, fun i hi => ?_⟩
  have := h.2 i hi
  simpa using this

/-- Candidate `i` is strictly better than every other one in resample `j`: a number, below every number of the others. -/
def Best (m : List (List Fl)) (i j : Nat) : Prop := ∃ a, cell m i j = some a ∧ ∀ k, k < m.length → k ≠ i → ∀ b, cell m k j = some b → a < b

theorem firstAt_best (m : List (List Fl)) (i j : Nat) (hi : i < m.length) (h : Best m i j) : firstAt m j = i := by
  have hm : m ≠ [] := List.length_pos_iff.1 (by omega)
  obtain ⟨h1, h2⟩ := firstAt_spec m j hm
  by_contra hne
  obtain ⟨a, ha, hb⟩ := h
  have h3 := h2 i hi
  rw [ha] at h3
  cases hc : cell m (firstAt m j) j with
  | none => rw [hc] at h3; simp [before] at h3
  | some b =>
    rw [hc] at h3
    simp only [before, decide_eq_false_iff_not] at h3
    exact h3 (hb _ h1 hne b hc)

theorem filter_disjoint (P Q : Nat → Bool) (l : List Nat) (h : ∀ k ∈ l, ¬ (P k = true ∧ Q k = true)) : (l.filter P).length + (l.filter Q).length ≤ l.length := by
  induction l with
  | nil => simp
  | cons a l ih =>
    have ih := ih fun k hk => h k (List.mem_cons_of_mem _ hk)
    have := h a List.mem_cons_self
    simp only [List.filter_cons, List.length_cons]
    cases hP : P a <;> cases hQ : Q a <;> simp [hP, hQ] at * <;> omega

/-- **C127** (vote): the chosen candidate is ranked first in at least as many resamples as any other; a candidate that is strictly best in
more than half of the resamples is chosen.
Partial, of the whole claim: The vote and the errors are proved; the test for duplicates may drop the best program before the vote (counterexample). -/
theorem C127_vote_partial (m : List (List Fl)) (n : Nat) (hm : m ≠ []) :
    vote m n < m.length ∧ (∀ i, i < m.length → places m n i ≤ places m n (vote m n)) ∧
    ∀ i, i < m.length → (∃ W : List Nat, W.Nodup ∧ (∀ j ∈ W, j < n ∧ Best m i j) ∧ n < 2 * W.length) → vote m n = i := by
  obtain ⟨h1, h2⟩ := vote_spec m n hm
  refine ⟨h1, h2, fun i hi ⟨W, hW, hb, hn⟩ => ?_⟩
  have hp : W.length ≤ places m n i := by
    unfold places
    apply List.Subperm.length_le
    apply List.subperm_of_subset hW
    intro j hj
    rw [List.mem_filter, List.mem_range]
    refine ⟨(hb j hj).1, ?_⟩
    rw [firstAt_best m i j hi (hb j hj).2]
    simp
  by_contra hne
  have h3 := h2 i hi
  have h4 : places m n i + places m n (vote m n) ≤ n := by
    have := filter_disjoint (fun j => firstAt m j == i) (fun j => firstAt m j == vote m n) (List.range n) (by
      intro k _ ⟨e1, e2⟩
      simp only [beq_iff_eq] at e1 e2
      exact hne (e2.symm.trans e1))
    simpa [places] using this
  omega

/-- Two candidates, three resamples: the second is best in two of them and is chosen. -/
example : vote [[some 1, some 3, some 4], [some 2, some 1, some 1]] 3 = 1 := by decide +kernel

/-! ## The errors of the resamples -/

/-- What `np.linalg.lstsq` promises for `p` terms: as many coefficients, and no other ones have a smaller sum of squares. -/
def LeastSquares (lstsq : List Row → List ℚ) (p : Nat) : Prop :=
  ∀ d : List Row, (∀ r ∈ d, r.1.length = p) → (lstsq d).length = p ∧ ∀ w : List ℚ, w.length = p →
    (d.map fun r => (r.2 - dot r.1 (lstsq d)) ^ 2).sum ≤ (d.map fun r => (r.2 - dot r.1 w) ^ 2).sum

theorem sum_nonneg (l : List ℚ) (h : ∀ a ∈ l, 0 ≤ a) : 0 ≤ l.sum := by
  induction l with
  | nil => simp
  | cons a l ih =>
    rw [List.sum_cons]
    have := h a List.mem_cons_self
    have := ih fun b hb => h b (List.mem_cons_of_mem _ hb)
    linarith

theorem mem_rowsAt (d : List Row) (index : List Nat) (h : ∀ k ∈ index, k < d.length) : ∀ r ∈ rowsAt d index, r ∈ d := by
  intro r hr
  obtain ⟨k, hk, rfl⟩ := List.mem_map.1 hr
  rw [List.getElem?_eq_getElem (h k hk)]
  exact List.getElem_mem _

/-- **C127** (errors): the error of a candidate in a resample is the smallest mean square error any coefficients have there – at least 0, and
0 if the data satisfy the candidate exactly with some coefficients. -/
theorem C127_error (lstsq : List Row → List ℚ) (cv : List (List ℚ) → Fl) (p : Nat) (hls : LeastSquares lstsq p) (d : List Row)
    (hd : ∀ r ∈ d, r.1.length = p) (draws : List (List Nat × List (List Nat))) (hdr : ∀ s ∈ draws, ∀ k ∈ s.1, k < d.length)
    (ms cs : List Fl) (h : calMseCv lstsq cv d.length d draws = some (ms, cs)) :
    ms.length = draws.length ∧ cs.length = draws.length ∧
    ∀ (j : Nat) (s : List Nat × List (List Nat)), draws[j]? = some s → s.1 ≠ [] → ∃ v, ms[j]? = some (some v) ∧ 0 ≤ v ∧
      (∃ w : List ℚ, w.length = p ∧ v = ((rowsAt d s.1).map fun r => (r.2 - dot r.1 w) ^ 2).sum / (s.1.length : ℚ)) ∧
      (∀ w : List ℚ, w.length = p → v ≤ ((rowsAt d s.1).map fun r => (r.2 - dot r.1 w) ^ 2).sum / (s.1.length : ℚ)) ∧
      ((∃ w : List ℚ, w.length = p ∧ ∀ r ∈ d, r.2 = dot r.1 w) → v = 0) := by
  unfold calMseCv at h
  rw [if_neg (by simp)] at h
  cases h
  refine ⟨by simp, by simp, fun j s hs hne => ?_⟩
  have hmem : s ∈ draws := List.mem_of_getElem? hs
  have hsub := mem_rowsAt d s.1 (hdr s hmem)
  have hlen : (rowsAt d s.1).length = s.1.length := by simp [rowsAt]
  have hne' : rowsAt d s.1 ≠ [] := by
    intro e; rw [e] at hlen
    exact hne (List.length_eq_zero_iff.1 hlen.symm)
  have hpos : (0 : ℚ) < s.1.length := by exact_mod_cast List.length_pos_iff.2 hne
  obtain ⟨l1, l2⟩ := hls (rowsAt d s.1) fun r hr => hd r (hsub r hr)
  have hnn : 0 ≤ ((rowsAt d s.1).map fun r => (r.2 - dot r.1 (lstsq (rowsAt d s.1))) ^ 2).sum / (s.1.length : ℚ) := by
    apply div_nonneg _ hpos.le
    apply sum_nonneg
    intro a ha
    obtain ⟨r, _, rfl⟩ := List.mem_map.1 ha
    positivity
  have hmin : ∀ w : List ℚ, w.length = p → ((rowsAt d s.1).map fun r => (r.2 - dot r.1 (lstsq (rowsAt d s.1))) ^ 2).sum / (s.1.length : ℚ) ≤
      ((rowsAt d s.1).map fun r => (r.2 - dot r.1 w) ^ 2).sum / (s.1.length : ℚ) :=
    fun w hw => div_le_div_of_nonneg_right (l2 w hw) hpos.le
  refine ⟨((rowsAt d s.1).map fun r => (r.2 - dot r.1 (lstsq (rowsAt d s.1))) ^ 2).sum / (s.1.length : ℚ), ?_, hnn, ⟨_, l1, rfl⟩, hmin, ?_⟩
  · rw [List.getElem?_map, hs]
    simp only [Option.map_some, mseOf]
    rw [if_neg hne', hlen]
  · rintro ⟨w, hw, hex⟩
    have h1 := hmin w hw
    have h2 : ((rowsAt d s.1).map fun r => (r.2 - dot r.1 w) ^ 2).sum = 0 := by
      apply List.sum_eq_zero
      intro a ha
      obtain ⟨r, hr, rfl⟩ := List.mem_map.1 ha
      rw [hex r (hsub r hr)]; ring
    rw [h2, zero_div] at h1
    linarith

/-- **C127** (empty resample): the error of a resample without rows is NaN. -/
theorem C127_empty_resample (lstsq : List Row → List ℚ) (cv : List (List ℚ) → Fl) (d : List Row) (draws : List (List Nat × List (List Nat)))
    (ms cs : List Fl) (h : calMseCv lstsq cv d.length d draws = some (ms, cs)) (j : Nat) (s : List Nat × List (List Nat))
    (hs : draws[j]? = some s) (he : s.1 = []) : ms[j]? = some none := by
  unfold calMseCv at h
  rw [if_neg (by simp)] at h
  cases h
  rw [List.getElem?_map, hs]
  simp [he, rowsAt, mseOf]

/-- Least squares for one term: `Σ x y / Σ x²`. -/
def oneTerm (d : List Row) : List ℚ := [(d.map fun r => r.1.headD 0 * r.2).sum / (d.map fun r => r.1.headD 0 ^ 2).sum]

theorem sum_squares (d : List Row) (hd : ∀ r ∈ d, r.1.length = 1) (w : ℚ) :
    (d.map fun r => (r.2 - dot r.1 [w]) ^ 2).sum =
      (d.map fun r => r.2 ^ 2).sum - 2 * w * (d.map fun r => r.1.headD 0 * r.2).sum + w ^ 2 * (d.map fun r => r.1.headD 0 ^ 2).sum := by
  induction d with
  | nil => simp
  | cons r d ih =>
    have ih := ih fun r hr => hd r (List.mem_cons_of_mem _ hr)
    obtain ⟨x, hx⟩ := List.length_eq_one_iff.1 (hd r List.mem_cons_self)
    have hdot : dot r.1 [w] = x * w := by rw [hx]; simp [dot]
    have hh : r.1.headD 0 = x := by rw [hx]; rfl
    simp only [List.map_cons, List.sum_cons, ih, hdot, hh]
    ring

theorem sum_zero_of_squares (d : List Row) (h : (d.map fun r => r.1.headD 0 ^ 2).sum = 0) : (d.map fun r => r.1.headD 0 * r.2).sum = 0 := by
  induction d with
  | nil => rfl
  | cons r d ih =>
    simp only [List.map_cons, List.sum_cons] at h ⊢
    have h1 : 0 ≤ (d.map fun r => r.1.headD 0 ^ 2).sum := sum_nonneg _ (by
      intro a ha; obtain ⟨r, _, rfl⟩ := List.mem_map.1 ha; positivity)
    have h2 : 0 ≤ r.1.headD 0 ^ 2 := by positivity
    have h3 : r.1.headD 0 ^ 2 = 0 := by linarith
    rw [ih (by linarith), pow_eq_zero_iff (by norm_num) |>.1 h3]
    ring

/-- The assumption on `lstsq` can be met: for one term. -/
example : LeastSquares oneTerm 1 := by
  intro d hd
  refine ⟨rfl, fun w hw => ?_⟩
  obtain ⟨w, rfl⟩ := List.length_eq_one_iff.1 hw
  rw [oneTerm, sum_squares d hd, sum_squares d hd]
  have h1 : 0 ≤ (d.map fun r => r.1.headD 0 ^ 2).sum := sum_nonneg _ (by
    intro a ha; obtain ⟨r, _, rfl⟩ := List.mem_map.1 ha; positivity)
  have h2 := sum_zero_of_squares d
  generalize (d.map fun r => r.1.headD 0 ^ 2).sum = xx at *
  generalize (d.map fun r => r.1.headD 0 * r.2).sum = xy at *
  rcases lt_or_eq_of_le h1 with hp | hp
  · have : (xy / xx) ^ 2 * xx = xy / xx * xy := by field_simp
    have h3 : xy = xy / xx * xx := by field_simp
    have h4 : 0 ≤ (w - xy / xx) ^ 2 * xx := by positivity
    generalize xy / xx = q at *
    subst h3
    nlinarith
  · rw [h2 hp.symm, ← hp]; simp

theorem cell_criterion {tests : List (List Fl × List Fl)} {i j : Nat} {t : List Fl × List Fl} {a b : Fl} (ht : tests[i]? = some t)
    (ha : t.1[j]? = some a) (hb : t.2[j]? = some b) : cell (tests.map fun t => criterion t.1 t.2) i j = times a b := by
  unfold cell criterion
  rw [List.getElem?_map, ht]
  simp [List.getElem?_zipWith, ha, hb]

/-- **C127** (recovery): if the data satisfy candidate `i` exactly, then it is chosen, provided that in more than half of the resamples its
coefficient of variation is a number while every other candidate has a positive error and a positive coefficient of variation, or no number. -/
theorem C127_recovers (lstsq : List Row → List ℚ) (cv : List (List ℚ) → Fl) (p : Nat) (hls : LeastSquares lstsq p) (d : List Row)
    (hd : ∀ r ∈ d, r.1.length = p) (draws : List (List Nat × List (List Nat))) (hdr : ∀ s ∈ draws, s.1 ≠ [] ∧ ∀ k ∈ s.1, k < d.length)
    (hex : ∃ w : List ℚ, w.length = p ∧ ∀ r ∈ d, r.2 = dot r.1 w)
    (tests : List (List Fl × List Fl)) (i : Nat) (t : List Fl × List Fl) (hi : tests[i]? = some t)
    (ht : calMseCv lstsq cv d.length d draws = some t) (W : List Nat) (hW : W.Nodup) (hhalf : draws.length < 2 * W.length)
    (hj : ∀ j ∈ W, j < draws.length ∧ (∃ c, t.2[j]? = some (some c)) ∧
      ∀ (k : Nat) (t' : List Fl × List Fl), tests[k]? = some t' → k ≠ i → ∃ a b, t'.1[j]? = some a ∧ t'.2[j]? = some b ∧
        ∀ x y, a = some x → b = some y → 0 < x ∧ 0 < y) :
    vote (tests.map fun t => criterion t.1 t.2) draws.length = i := by
  have hil : i < tests.length := (List.getElem?_eq_some_iff.1 hi).1
  have hm : (tests.map fun t => criterion t.1 t.2) ≠ [] := by
    intro e
    have : tests = [] := List.map_eq_nil_iff.1 e
    rw [this] at hil; simp at hil
  refine (C127_vote_partial _ draws.length hm).2.2 i (by simpa using hil) ⟨W, hW, fun j hjW => ?_, hhalf⟩
  obtain ⟨h1, ⟨c, hc⟩, h3⟩ := hj j hjW
  obtain ⟨ms, cs⟩ := t
  obtain ⟨_, _, herr⟩ := C127_error lstsq cv p hls d hd draws (fun s hs => (hdr s hs).2) ms cs ht
  obtain ⟨v, hv, _, _, _, hv0⟩ := herr j draws[j] (List.getElem?_eq_getElem h1) (hdr _ (List.getElem_mem h1)).1
  refine ⟨h1, 0, ?_, fun k hk hki b hb => ?_⟩
  · rw [cell_criterion hi hv hc, hv0 hex]
    simp [times]
  · have hk' : k < tests.length := by simpa using hk
    obtain ⟨a', b', e1, e2, h4⟩ := h3 k tests[k] (List.getElem?_eq_getElem hk') hki
    rw [cell_criterion (List.getElem?_eq_getElem hk') e1 e2] at hb
    cases a' with
    | none => simp [times] at hb
    | some x =>
      cases b' with
      | none => simp [times] at hb
      | some y =>
        obtain ⟨h5, h6⟩ := h4 x y rfl rfl
        simp only [times, Option.some.injEq] at hb
        rw [← hb]
        exact mul_pos h5 h6

/-! ## What is reported -/

/-- **C127.** Without stability selection, or with an empty queue, the program with the highest reward is reported.  Otherwise the reported
program is one of the queue, and of the programs left after dropping duplicates it is one of the first `sel` – the one the vote chooses. -/
theorem C127_reported {P : Type} (len : P → Nat) (nmse : P → Fl) (test : P → Option (List Fl × List Fl)) (sel n : Nat) (queue : List P) (best : P) :
    select len nmse test 0 n queue best = some best ∧ select len nmse test sel n [] best = some best ∧
    (0 < sel → queue ≠ [] → (∀ p ∈ queue, (test p).isSome) → ∃ (res : List (DEntry P Fl)) (k : Nat) (e : DEntry P Fl),
      dropDuplicates sameErr (dEntries len queue (queue.map nmse)) = some res ∧ k < sel ∧ res[k]? = some e ∧
      select len nmse test sel n queue best = some e.tok ∧ e.tok ∈ queue ∧
      ∀ ts, ((res.take sel).mapM fun e => test e.tok) = some ts → k = vote (ts.map fun t => criterion t.1 t.2) n) := by
  refine ⟨rfl, ?_, fun hs hq ht => ?_⟩
  · unfold select
    by_cases h : sel = 0
    · rw [if_pos h]
    · rw [if_neg h]; rfl
  · obtain ⟨res, h1, h2, _, _, h5⟩ := Verif.Claims.C63_sound sameErr len queue (queue.map nmse)
    have hne : res ≠ [] := h5 (by simp) hq
    have hin : ∀ e ∈ res, e.tok ∈ queue := fun e he => (List.of_mem_zip (h2 e he)).1
    have hmap : ∀ l : List (DEntry P Fl), (∀ e ∈ l, e.tok ∈ queue) → ∃ ts, l.mapM (fun e => test e.tok) = some ts ∧ ts.length = l.length := by
      intro l
      induction l with
      | nil => intro _; exact ⟨[], rfl, rfl⟩
      | cons e l ih =>
        intro h
        obtain ⟨ts, e1, e2⟩ := ih fun e he => h e (List.mem_cons_of_mem _ he)
        obtain ⟨t, ht'⟩ := Option.isSome_iff_exists.1 (ht _ (h e List.mem_cons_self))
        exact ⟨t :: ts, by simp [List.mapM_cons, ht', e1], by simp [e2]⟩
    obtain ⟨ts, e1, e2⟩ := hmap (res.take sel) fun e he => hin e (List.mem_of_mem_take he)
    obtain ⟨c, cs, rfl⟩ : ∃ c cs, res = c :: cs := by
      cases res with
      | nil => exact absurd rfl hne
      | cons c cs => exact ⟨c, cs, rfl⟩
    have hm : (ts.map fun t => criterion t.1 t.2) ≠ [] := by
      intro e
      have : ts = [] := List.map_eq_nil_iff.1 e
      rw [this, List.length_take, List.length_cons] at e2
      simp at e2; omega
    have hv := (C127_vote_partial (ts.map fun t => criterion t.1 t.2) n hm).1
    rw [List.length_map, e2, List.length_take] at hv
    have hsel : select len nmse test sel n queue best = ((c :: cs)[vote (ts.map fun t => criterion t.1 t.2) n]?).map DEntry.tok := by
      unfold select
      rw [if_neg (by omega), h1]
      simp only [e1]
    rw [hsel]
    have huniq : ∀ ts', ((c :: cs).take sel).mapM (fun e => test e.tok) = some ts' →
        vote (ts.map fun t => criterion t.1 t.2) n = vote (ts'.map fun t => criterion t.1 t.2) n := by
      intro ts' h'
      rw [e1] at h'
      cases h'
      rfl
    generalize vote (ts.map fun t => criterion t.1 t.2) n = k at hv huniq
    have hk : k < (c :: cs).length := lt_of_lt_of_le hv (Nat.min_le_right _ _)
    have hg := List.getElem?_eq_getElem hk
    generalize (c :: cs)[k] = e at hg
    exact ⟨c :: cs, k, e, h1, lt_of_lt_of_le hv (Nat.min_le_left _ _), hg, by rw [hg]; rfl, hin _ (List.mem_of_getElem? hg), huniq⟩

/-- **C127** (NaN errors): programs whose normalised errors are NaN or at least `1e-5` apart are all kept; none counts as a duplicate. -/
theorem C127_distinct_kept {P : Type} (len : P → Nat) (nmse : P → Fl) (queue : List P)
    (h : queue.Pairwise (fun a b => nmse a = none ∨ nmse b = none ∨ ∃ x y : ℚ, nmse a = some x ∧ nmse b = some y ∧ 1 / 100000 ≤ |x - y|)) :
    ∃ res, dropDuplicates sameErr (dEntries len queue (queue.map nmse)) = some res ∧ res.map (·.tok) = queue := by
  have hz : queue.zip (queue.map nmse) = queue.map fun p => (p, nmse p) := by
    induction queue with
    | nil => rfl
    | cons a q ih => simp [ih (List.pairwise_cons.1 h).2]
  obtain ⟨res, h1, h2⟩ := Verif.Claims.C63_distinct_kept sameErr len queue (queue.map nmse) (by
    rw [hz, List.pairwise_map]
    refine h.imp fun {a b} hab => ?_
    rcases hab with ha | hb | ⟨x, y, ha, hb, hxy⟩
    · simp only [ha]
      cases nmse b <;> rfl
    · simp only [hb, sameErr]
    · simp only [ha, hb, sameErr, decide_eq_false_iff_not, not_lt]
      rw [abs_sub_comm]; exact hxy)
  refine ⟨res, h1, ?_⟩
  have := congrArg (List.map Prod.fst) h2
  rw [hz] at this
  simpa [Function.comp_def] using this

/-- **C127 (violated).** Programs whose normalised errors differ by less than `1e-5` count as duplicates, and of two such programs of the same
length the later one in the queue is kept: the program with the higher reward is not even tested. -/
theorem C127_duplicate_counterexample {P : Type} (len : P → Nat) (nmse : P → Fl) (test : P → Option (List Fl × List Fl)) (sel n : Nat) (a b best : P)
    (x y : ℚ) (ha : nmse a = some x) (hb : nmse b = some y) (hxy : |x - y| < 1 / 100000) (hlen : len a = len b) (hs : 0 < sel)
    (ht : (test b).isSome) : select len nmse test sel n [a, b] best = some b := by
  have h1 : dropDuplicates sameErr (dEntries len [a, b] ([a, b].map nmse)) = some [⟨b, some y, len b⟩] := by
    have hs' : sameErr (some y) (some x) = true := by
      simp only [sameErr, decide_eq_true_eq]
      rw [abs_sub_comm]; exact hxy
    simp [dropDuplicates, dEntries, dropOuter, dropInner, ha, hb, hs', hlen]
  obtain ⟨t, ht'⟩ := Option.isSome_iff_exists.1 ht
  obtain ⟨k, rfl⟩ : ∃ k, sel = k + 1 := ⟨sel - 1, by omega⟩
  have hv := (C127_vote_partial [criterion t.1 t.2] n (by simp)).1
  have hv0 : vote [criterion t.1 t.2] n = 0 := by simpa using hv
  unfold select
  rw [if_neg (by omega), h1]
  simp [List.take_succ_cons, ht', hv0]

/-- The equation found exactly (error 0) and another one with error `9e-6`: the second is reported. -/
example : select (P := String) String.length (fun s => some (if s = "u*u_x" then 0 else 9 / 1000000)) (fun _ => some ([], [])) 3 100
    ["u*u_x", "u+u_x"] "u*u_x" = some "u+u_x" := by
  apply C127_duplicate_counterexample _ _ _ _ _ _ _ _ 0 (9 / 1000000) <;> first | rfl | decide +kernel

/-- **C127** (no numbers): if no candidate has a number in any resample, the first one is chosen. -/
theorem C127_nan (m : List (List Fl)) (n : Nat) (h : ∀ i j, cell m i j = none) : vote m n = 0 := by
  have hf : ∀ j, firstAt m j = 0 := by
    intro j
    unfold firstAt
    generalize List.range m.length = l
    induction l with
    | nil => rfl
    | cons a l ih => rw [List.foldl_cons, h a j]; exact ih
  have hp : ∀ k, k ≠ 0 → places m n k = 0 := by
    intro k hk
    unfold places
    rw [List.length_eq_zero_iff, List.filter_eq_nil_iff]
    intro j _
    rw [hf j]
    simpa using fun h => hk h.symm
  have : ∀ l : List Nat, l.foldl (fun b k => if places m n b < places m n k then k else b) 0 = 0 := by
    intro l
    induction l with
    | nil => rfl
    | cons a l ih =>
      rw [List.foldl_cons]
      by_cases ha : a = 0
      · subst ha; simpa using ih
      · rw [hp a ha, if_neg (by omega)]; exact ih
  exact this _

end Verif.Discover.Stability.Claims
