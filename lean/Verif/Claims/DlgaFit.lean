import Verif.Dlga.Fit
import Verif.Dlga.Display
import Mathlib.Algebra.BigOperators.Group.List.Lemmas
import Mathlib.Algebra.BigOperators.Group.Finset.Basic
import Mathlib.Algebra.Order.Ring.Rat
import Mathlib.Algebra.Field.Rat
import Mathlib.Data.List.Infix
/-!
# C59 (fitness), C60, C61, C62: what DLGA fits, shows and trains on

## Specification
-/
namespace Verif.Claims
open Verif.Dlga

/-- The operators a module stands for, as displayed: the names at its genes. -/
def displayed (ops : List String) (m : Module) : List String := m.filterMap (fun g => ops[g]?)

/-- The value of an available operator at a row. -/
def polyValueAt {K : Type} [One K] (available : String → Option (List K)) (o : String) (r : Nat) : K :=
  match available o with
  | some col => (col[r]?).getD 1
  | none => 1

/-! ## C59: the fitness of a genome -/

/-- C59: `get_fitness` picks the left-hand side with the smaller residual: the reported residual is that of the reported coefficients
for the reported left-hand side, it is not larger than that of the other left-hand side, and the fitness is that residual plus `epi` per
gene. -/
theorem C59_fitness {K : Type} [Field K] [LinearOrder K] (solve : List K → List (List K) → List K) (epi : K) (ut utt : List K)
    (total : Nat) (cols : List (List K)) (len : Nat) :
    ∃ coef residual lhs, getFitness solve epi ut utt total cols len = (coef, residual + epi * (len : K), residual, lhs) ∧
      (lhs = "u_t" ∨ lhs = "u_tt") ∧
      (lhs = "u_t" → coef = solve ut cols ∧ residual = mse ut cols coef total ∧ residual ≤ mse utt cols (solve utt cols) total) ∧
      (lhs = "u_tt" → coef = solve utt cols ∧ residual = mse utt cols coef total ∧ residual ≤ mse ut cols (solve ut cols) total) := by
  unfold getFitness
  by_cases h : mse ut cols (solve ut cols) total < mse utt cols (solve utt cols) total
  · refine ⟨_, _, _, if_pos h, Or.inl rfl, fun _ => ⟨rfl, rfl, le_of_lt h⟩, fun e => absurd e (by decide)⟩
  · refine ⟨_, _, _, if_neg h, Or.inr rfl, fun e => absurd e (by decide), fun _ => ⟨rfl, rfl, not_lt.1 h⟩⟩

/-- C59: the residual is the mean over all rows of the squared difference between the left-hand side and the sum of coefficient times
column. -/
theorem C59_residual {K : Type} [Field K] (target : List K) (cols : List (List K)) (coef : List K) (total : Nat)
    (hl : coef.length = cols.length) :
    mse target cols coef total = (∑ r ∈ Finset.range total, ((target[r]?).getD 0 -
      ∑ j ∈ Finset.range cols.length, (coef[j]?).getD 0 * ((((cols[j]?).getD [])[r]?).getD 0)) ^ 2) / (total : K) := by
  have hp : ∀ (r : Nat) (cols : List (List K)) (coef : List K), coef.length = cols.length →
      predict cols coef r = ∑ j ∈ Finset.range cols.length, (coef[j]?).getD 0 * ((((cols[j]?).getD [])[r]?).getD 0) := by
    intro r cols
    induction cols with
    | nil => intro coef _; simp [predict]
    | cons c cols ih =>
      intro coef h
      match coef, h with
      | a :: coef, h =>
        have e := ih coef (by simpa using h)
        unfold predict at e ⊢
        rw [List.zipWith_cons_cons, List.sum_cons, e, List.length_cons, Finset.sum_range_succ']
        simp only [List.getElem?_cons_succ, List.getElem?_cons_zero, Option.getD_some]
        rw [add_comm, mul_comm a]
  unfold mse
  congr 1
  simp only [hp _ cols coef hl]
  induction total with
  | zero => simp
  | succ n ih => rw [List.range_succ, List.map_append, List.sum_append, ih, Finset.sum_range_succ]; simp

/-! ## C60: the columns are the displayed operators -/

section
variable {K : Type} [Monoid K]

omit [Monoid K] in
theorem theta_get (available : String → Option (List K)) (ops : List String) (hall : ∀ o ∈ ops, (available o).isSome) (i : Nat) :
    (thetaColumns available ops)[i]? = (ops[i]?).bind available := by
  unfold thetaColumns
  induction ops generalizing i with
  | nil => simp
  | cons o ops ih =>
    obtain ⟨c, hc⟩ := Option.isSome_iff_exists.1 (hall o List.mem_cons_self)
    rw [List.filterMap_cons, hc]
    cases i with
    | zero => simp [hc]
    | succ i => simpa using ih (fun o' h => hall o' (List.mem_cons_of_mem _ h)) i

theorem moduleColumn_spec (available : String → Option (List K)) (ops : List String) (total : Nat)
    (hall : ∀ o ∈ ops, ∃ col, available o = some col ∧ col.length = total) (m : Module) (hm : ∀ a ∈ m, a < ops.length) :
    ∃ col, moduleColumn (thetaColumns available ops) total m = some col ∧ col.length = total ∧
      ∀ r, r < total → col[r]? = some ((displayed ops m).map (fun o => polyValueAt available o r)).prod := by
  have hsome : ∀ o ∈ ops, (available o).isSome := fun o ho => by
    obtain ⟨c, hc, _⟩ := hall o ho; rw [hc]; rfl
  have key : ∀ (m : Module) (c : List K), (∀ a ∈ m, a < ops.length) → c.length = total →
      ∃ col, m.foldl (fun acc i =>
          match acc, (thetaColumns available ops)[i]? with
          | some c, some col => some (List.zipWith (· * ·) c col)
          | _, _ => none) (some c) = some col ∧ col.length = total ∧
        ∀ r, r < total → ∀ x, c[r]? = some x → col[r]? = some (x * ((displayed ops m).map (fun o => polyValueAt available o r)).prod) := by
    intro m
    induction m with
    | nil => intro c _ hc; exact ⟨c, rfl, hc, fun r _ x hx => by simp [displayed, hx]⟩
    | cons a m ih =>
      intro c hm hc
      have ha : a < ops.length := hm a List.mem_cons_self
      have hao : ops[a]? = some ops[a] := List.getElem?_eq_getElem ha
      obtain ⟨col, hcol, hlen⟩ := hall ops[a] (List.getElem_mem ha)
      have hth : (thetaColumns available ops)[a]? = some col := by rw [theta_get available ops hsome, hao]; exact hcol
      obtain ⟨col', e, h1, h2⟩ := ih (List.zipWith (· * ·) c col) (fun x hx => hm x (List.mem_cons_of_mem _ hx)) (by simp [hc, hlen])
      refine ⟨col', by rw [List.foldl_cons]; simp only [hth]; exact e, h1, fun r hr x hx => ?_⟩
      have hcr : col[r]? = some col[r] := List.getElem?_eq_getElem (by omega)
      rw [h2 r hr (x * col[r]) (by rw [List.getElem?_zipWith, hx, hcr])]
      have hd : displayed ops (a :: m) = ops[a] :: displayed ops m := by simp [displayed, hao]
      rw [hd, List.map_cons, List.prod_cons]
      have hv : polyValueAt available ops[a] r = col[r] := by simp [polyValueAt, hcol, hcr]
      rw [hv, mul_assoc]
  obtain ⟨col, e, h1, h2⟩ := key m (List.replicate total 1) hm (by simp)
  refine ⟨col, e, h1, fun r hr => ?_⟩
  rw [h2 r hr 1 (by simp [hr]), one_mul]

/-- C60: when every operator of the user is available, each legal genome is translated (no error), the column fitted for its `k`-th module
is the product of exactly the operators displayed for that module, and the length penalty counts the displayed operators. -/
theorem C60_columns (available : String → Option (List K)) (ops : List String) (total : Nat)
    (hall : ∀ o ∈ ops, ∃ col, available o = some col ∧ col.length = total) (g : Genome)
    (hg : ∀ m ∈ g, ∀ a ∈ m, a < librarySize ops) :
    ∃ cols, translate (thetaColumns available ops) total g = some (cols, (g.map (fun m => (displayed ops m).length)).sum) ∧
      cols.length = g.length ∧
      ∀ (k : Nat) m, g[k]? = some m → ∃ col, cols[k]? = some col ∧ col.length = total ∧
        ∀ r, r < total → col[r]? = some ((displayed ops m).map (fun o => polyValueAt available o r)).prod := by
  have hlen : g.map List.length = g.map (fun m => (displayed ops m).length) := by
    refine List.map_congr_left (fun m hm => ?_)
    have := hg m hm
    unfold displayed
    clear hm
    induction m with
    | nil => rfl
    | cons a m ih =>
      have ha : a < ops.length := this a List.mem_cons_self
      rw [List.filterMap_cons, List.getElem?_eq_getElem ha, List.length_cons, List.length_cons,
        ih (fun x hx => this x (List.mem_cons_of_mem _ hx))]
  have key : ∃ cols, g.mapM (moduleColumn (thetaColumns available ops) total) = some cols ∧ cols.length = g.length ∧
      ∀ (k : Nat) m, g[k]? = some m → ∃ col, cols[k]? = some col ∧ col.length = total ∧
        ∀ r, r < total → col[r]? = some ((displayed ops m).map (fun o => polyValueAt available o r)).prod := by
    clear hlen
    induction g with
    | nil => exact ⟨[], rfl, rfl, fun k m hk => by simp at hk⟩
    | cons m g ih =>
      obtain ⟨cols, e, h1, h2⟩ := ih (fun m' hm' => hg m' (List.mem_cons_of_mem _ hm'))
      obtain ⟨col, e', h3, h4⟩ := moduleColumn_spec available ops total hall m (hg m List.mem_cons_self)
      refine ⟨col :: cols, by simp [List.mapM_cons, e, e'], by simp [h1], fun k m' hk => ?_⟩
      cases k with
      | zero => simp at hk; subst hk; exact ⟨col, rfl, h3, h4⟩
      | succ k => simpa using h2 k m' (by simpa using hk)
  obtain ⟨cols, e, h1, h2⟩ := key
  exact ⟨cols, by simp [translate, e, hlen], h1, h2⟩

end

/-- The operators DLGA computes, at one row. -/
def exAvailable (o : String) : Option (List Rat) :=
  if o = "u" then some [2] else if o = "u_x" then some [3] else if o = "u_xx" then some [5] else none

/-- A concrete case: `u*u_xx + u_x`. -/
example : translate (thetaColumns exAvailable ["u", "u_x", "u_xx"]) 1 [[0, 2], [1]] = some ([[10], [3]], 3) := by decide +kernel

/-- C60 fails for an operator that is not available: it is dropped from the library but keeps its index, so the genes after it are fitted
with another operator than displayed (gene 1 is displayed as "u_y" and fitted with `u_x`), and the last gene has no column at all. -/
theorem C60_unknown_counterexample :
    displayed ["u", "u_y", "u_x"] [1] = ["u_y"] ∧ moduleColumn (thetaColumns exAvailable ["u", "u_y", "u_x"]) 1 [1] = some [3] ∧
    2 < librarySize ["u", "u_y", "u_x"] ∧ moduleColumn (thetaColumns exAvailable ["u", "u_y", "u_x"]) 1 [2] = none := by decide +kernel

/-! ### The displayed text -/

/-- The text of a sum: a term that begins with a minus sign is appended as it is, other terms with a plus sign. -/
def signedSum : List Text → Text
  | [] => []
  | t :: r => t ++ (r.map (fun t => if t.head? = some '-' then t else '+' :: t)).flatten

/-- A text without `+-` inside that does not end in `+`. -/
def Tidy (t : Text) : Prop := t ≠ [] ∧ ¬ ['+', '-'] <:+: (t ++ ['-'])

theorem fixSigns_cons (c : Char) (r : Text) (h : ¬ (c = '+' ∧ r.head? = some '-')) : fixSigns (c :: r) = c :: fixSigns r := by
  rw [fixSigns.eq_2]
  rintro r' rfl rfl
  exact h ⟨rfl, rfl⟩

theorem fixSigns_append (t s : Text) (ht : ¬ ['+', '-'] <:+: (t ++ ['-'])) : fixSigns (t ++ s) = t ++ fixSigns s := by
  induction t with
  | nil => rfl
  | cons c t ih =>
    have ht' : ¬ ['+', '-'] <:+: (t ++ ['-']) := fun hc => ht (hc.trans (List.suffix_cons c _).isInfix)
    rw [List.cons_append, List.cons_append, fixSigns_cons, ih ht']
    rintro ⟨rfl, hh⟩
    refine ht ?_
    cases t with
    | nil => exact List.infix_rfl
    | cons d t =>
      simp at hh
      subst hh
      exact ⟨[], t ++ ['-'], rfl⟩

/-- C60: the displayed text is the left-hand side, an equals sign and the signed sum of the displayed terms; no `+-` is left. -/
theorem C60_text (names : List Text) (g : Genome) (lhs : Text) (cs : List Text) (hg : g ≠ [])
    (ht : ∀ t ∈ eqTerms names g cs, Tidy t) :
    convertChrom names g lhs cs = lhs ++ '=' :: signedSum (eqTerms names g cs) := by
  unfold convertChrom
  rw [if_neg hg]
  congr 2
  generalize eqTerms names g cs = ts at ht
  have key : ∀ (ts : List Text) (t : Text), (∀ x ∈ t :: ts, Tidy x) → fixSigns (joinWith ['+'] (t :: ts)) = signedSum (t :: ts) := by
    intro ts
    induction ts with
    | nil =>
      intro t h
      have := fixSigns_append t [] (h t List.mem_cons_self).2
      rw [List.append_nil] at this
      simp [joinWith, signedSum, this, fixSigns]
    | cons t' ts ih =>
      intro t h
      have h1 := ih t' (fun x hx => h x (List.mem_cons_of_mem _ hx))
      rw [joinWith, List.append_assoc, fixSigns_append t _ (h t List.mem_cons_self).2]
      have hne : t' ≠ [] := (h t' (by simp)).1
      have hj : ∃ c r, joinWith ['+'] (t' :: ts) = c :: r ∧ t'.head? = some c := by
        cases t' with
        | nil => exact absurd rfl hne
        | cons c t'' =>
          cases ts with
          | nil => exact ⟨c, t'', rfl, rfl⟩
          | cons _ _ => exact ⟨c, _, rfl, rfl⟩
      obtain ⟨c, r, hj, hc⟩ := hj
      have hs : signedSum (t :: t' :: ts) = t ++ ((if t'.head? = some '-' then [] else ['+']) ++ signedSum (t' :: ts)) := by
        simp only [signedSum, List.map_cons, List.flatten_cons]
        split <;> simp
      rw [hs, hc]
      congr 1
      by_cases hm : c = '-'
      · subst hm
        simp only [if_true, List.nil_append]
        rw [← h1, hj]
        show fixSigns ('+' :: '-' :: r) = _
        rw [fixSigns]
        have : fixSigns ('-' :: r) = '-' :: fixSigns r := fixSigns_cons _ _ (by simp)
        rw [this]
      · have hm' : ¬ (some c = some '-') := by simpa using hm
        rw [if_neg hm', List.singleton_append, List.singleton_append, fixSigns_cons, h1]
        rintro ⟨_, hh⟩
        rw [hj] at hh
        exact hm (by simpa using hh)
  cases ts with
  | nil => rfl
  | cons t ts => exact key ts t ht

/-- C60: for a legal genome with one coefficient per module no term is left out: the `k`-th term is the `k`-th coefficient times the
operators displayed for the `k`-th module. -/
theorem C60_terms (names : List Text) (hn : ∀ x ∈ names, x ≠ []) (g : Genome) (hg : ∀ m ∈ g, m ≠ [] ∧ ∀ a ∈ m, a < names.length)
    (cs : List Text) (hlen : cs.length = g.length) :
    eqTerms names g cs = List.zipWith (fun c m => c ++ '*' :: joinWith ['*'] (moduleNames names m)) cs g := by
  induction g generalizing cs with
  | nil =>
    cases cs with
    | nil => rfl
    | cons _ _ => simp at hlen
  | cons m g ih =>
    cases cs with
    | nil => simp at hlen
    | cons c cs =>
      obtain ⟨hm, hr⟩ := hg m List.mem_cons_self
      have hne : joinWith ['*'] (moduleNames names m) ≠ [] := by
        cases m with
        | nil => exact absurd rfl hm
        | cons a m =>
          have ha : a < names.length := hr a List.mem_cons_self
          have hna := hn _ (List.getElem_mem ha)
          simp only [moduleNames, List.filterMap_cons, List.getElem?_eq_getElem ha]
          intro e
          generalize List.filterMap (fun g => names[g]?) m = rest at e
          cases rest with
          | nil => exact hna e
          | cons x r =>
            rw [joinWith] at e
            simp at e
      rw [eqTerms]
      simp only [if_neg hne, List.zipWith_cons_cons]
      rw [ih (fun m' hm' => hg m' (List.mem_cons_of_mem _ hm')) cs (by simpa using hlen)]

/-- A concrete equation text. -/
example : convertChrom ["u".toList, "u_x".toList] [[0, 1], [1]] "u_t".toList ["-1.0".toList, "-0.5".toList] =
    "u_t=-1.0*u*u_x-0.5*u_x".toList := by decide

/-! ### The LaTeX form -/

/-- C60: the factors shown in LaTeX, with their exponents, multiply to the product of the symbols of the module's genes, whatever the
symbols stand for. -/
theorem C60_latex_factors {R : Type} [CommMonoid R] (v : String → R) (m : Module) :
    ((moduleFactors m).map (fun p => v p.1 ^ p.2)).prod = (m.map (fun g => v (geneSymbol g))).prod := by
  unfold moduleFactors geneCounts
  rw [List.map_map, List.map_map]
  have hp := List.perm_insertionSort (· ≤ ·) m
  have hr : (m.map (fun g => v (geneSymbol g))).prod = ((m.insertionSort (· ≤ ·)).map (fun g => v (geneSymbol g))).prod :=
    (List.Perm.map _ hp.symm).prod_eq
  rw [hr]
  have hc : ∀ g, m.count g = (m.insertionSort (· ≤ ·)).count g := fun g => (hp.count_eq g).symm
  generalize m.insertionSort (· ≤ ·) = l at hc
  have ht : l.toFinset = l.dedup.toFinset := by ext x; simp
  rw [Finset.prod_list_map_count l (fun g => v (geneSymbol g)), ht, List.prod_toFinset _ (List.nodup_dedup l)]
  congr 1
  refine List.map_congr_left (fun g _ => ?_)
  simp [hc]

/-- How a product of powers is written in LaTeX: symbols (without space and `^`), powers `s^{n}` and juxtaposition. -/
inductive ReadsProduct {R : Type} [Monoid R] (v : String → R) : String → R → Prop where
  | sym (s : String) (h : ∀ c ∈ s.toList, c ≠ ' ' ∧ c ≠ '^') : ReadsProduct v s (v s)
  | pow (s : String) (n : Nat) (h : ∀ c ∈ s.toList, c ≠ ' ' ∧ c ≠ '^') : ReadsProduct v (s ++ "^{" ++ toString n ++ "}") (v s ^ n)
  | mul (a b : String) (x y : R) : ReadsProduct v a x → ReadsProduct v b y → ReadsProduct v (a ++ " " ++ b) (x * y)

theorem geneSymbol_clean (g : Nat) : ∀ c ∈ (geneSymbol g).toList, c ≠ ' ' ∧ c ≠ '^' := by
  unfold geneSymbol
  match g with
  | 0 => decide
  | 1 => decide
  | 2 => decide
  | 3 => decide
  | 4 => decide
  | 5 => decide
  | g + 6 =>
    simp only [internalNames, List.getElem?_cons_succ, List.getElem?_nil]
    intro c hc
    simp only [String.toList_append, List.mem_append] at hc
    rcases hc with (hc | hc) | hc
    · revert hc; revert c; decide
    · have h := Nat.isDigit_of_mem_toDigits (b := 10) (n := g + 6) (c := c) (by decide) (by decide)
        (by simpa [toString, Nat.repr] using hc)
      constructor <;> (rintro rfl; revert h; decide)
    · revert hc; revert c; decide

theorem factor_reads {R : Type} [Monoid R] (v : String → R) (p : String × Nat) (hp : ∀ c ∈ p.1.toList, c ≠ ' ' ∧ c ≠ '^') (hn : 0 < p.2) :
    ReadsProduct v (factorText p) (v p.1 ^ p.2) := by
  unfold factorText
  by_cases h : p.2 > 1
  · rw [if_pos h]; exact .pow _ _ hp
  · rw [if_neg h, show p.2 = 1 by omega, pow_one]; exact .sym _ hp

theorem intercalate_reads {R : Type} [Monoid R] (v : String → R) : ∀ (l : List (String × Nat)), l ≠ [] →
    (∀ p ∈ l, (∀ c ∈ p.1.toList, c ≠ ' ' ∧ c ≠ '^') ∧ 0 < p.2) →
    ReadsProduct v (" ".intercalate (l.map factorText)) (l.map fun p => v p.1 ^ p.2).prod := by
  intro l
  induction l with
  | nil => intro h _; exact absurd rfl h
  | cons p l ih =>
    intro _ hl
    obtain ⟨h1, h2⟩ := hl p (by simp)
    by_cases hn : l = []
    · subst hn
      simpa using factor_reads v p h1 h2
    · rw [List.map_cons, List.map_cons, List.prod_cons, String.intercalate_cons_of_ne_nil (by simpa using hn)]
      exact .mul _ _ _ _ (factor_reads v p h1 h2) (ih hn fun q hq => hl q (by simp [hq]))

/-- C60: the LaTeX text of a module reads as the product of the symbols of its genes. -/
theorem C60_latex_text {R : Type} [CommMonoid R] (v : String → R) (m : Module) (hm : m ≠ []) :
    ReadsProduct v (moduleText m) (m.map (fun g => v (geneSymbol g))).prod := by
  rw [← C60_latex_factors, moduleText, if_neg hm]
  have hmem : ∀ p ∈ moduleFactors m, (∀ c ∈ p.1.toList, c ≠ ' ' ∧ c ≠ '^') ∧ 0 < p.2 := by
    intro p hp
    obtain ⟨q, hq, rfl⟩ := List.mem_map.1 hp
    refine ⟨geneSymbol_clean q.1, ?_⟩
    obtain ⟨g, hg, rfl⟩ := List.mem_map.1 hq
    exact List.count_pos_iff.2 (by simpa using hg)
  refine intercalate_reads v _ (fun hf => ?_) hmem
  obtain ⟨a, r, rfl⟩ := List.exists_cons_of_ne_nil hm
  have : a ∈ ((a :: r).insertionSort (· ≤ ·)).dedup := by simp
  simp only [moduleFactors, geneCounts, List.map_eq_nil_iff] at hf
  rw [hf] at this
  simp at this

/-- C60: a module without genes is a constant: shown in the equation as its coefficient alone. -/
theorem C60_latex_constant (abs4 : ℚ → String) (c : ℚ) (h : 1 / 100000000 < |c|) :
    latexTerms abs4 [[]] [c] true = [if c > 0 then abs4 c else "- " ++ abs4 c] := by
  have h1 : closeZero c = false := by
    unfold closeZero
    rw [decide_eq_false_iff_not]
    exact not_le.2 h
  by_cases hc : c > 0 <;> simp [latexTerms, formatTerm, moduleText, h1, hc]

/-- A concrete module text. -/
example : moduleText [1, 0, 1] = "u u_x^{2}" := by decide +kernel

/-- C60: a factor is shown once per distinct gene, in ascending order of the genes. -/
theorem C60_latex_sorted (m : Module) : ((geneCounts m).map Prod.fst).Pairwise (· < ·) ∧
    ∀ g, g ∈ (geneCounts m).map Prod.fst ↔ g ∈ m := by
  have e : (geneCounts m).map Prod.fst = (m.insertionSort (· ≤ ·)).dedup := by
    simp [geneCounts, List.map_map, Function.comp_def]
  rw [e]
  constructor
  · have h1 : (m.insertionSort (· ≤ ·)).dedup.Pairwise (· ≤ ·) :=
      (List.pairwise_insertionSort (· ≤ ·) m).sublist (List.dedup_sublist _)
    have h2 := List.nodup_dedup (m.insertionSort (· ≤ ·))
    exact (h1.and h2).imp (fun h => lt_of_le_of_ne h.1 h.2)
  · intro g; simp

/-- The operators in the order of the built-in list, and how each is written in LaTeX. -/
def standardOps : List String := ["u", "u_x", "u_xx", "u_xxx", "u_t", "u_tt"]
def latexOf (o : String) : String :=
  if o = "u_x" then "u_x" else if o = "u_xx" then "u_{xx}" else if o = "u_xxx" then "u_{xxx}" else if o = "u_t" then "u_t"
  else if o = "u_tt" then "u_{tt}" else o

/-- C60 for LaTeX, partial: the symbols shown are those of the user's operators if these are the built-in ones in the built-in order. -/
theorem C60_latex_names_partial (ops : List String) (h : ops <+: standardOps) (g : Nat) (o : String) (hg : ops[g]? = some o) :
    geneSymbol g = latexOf o := by
  have hs : standardOps[g]? = some o := by
    obtain ⟨t, ht⟩ := h
    rw [← ht, List.getElem?_append_left (List.getElem?_eq_some_iff.1 hg).1]; exact hg
  match g, hs with
  | 0, hs => cases hs; decide
  | 1, hs => cases hs; decide
  | 2, hs => cases hs; decide
  | 3, hs => cases hs; decide
  | 4, hs => cases hs; decide
  | 5, hs => cases hs; decide
  | n + 6, hs => simp [standardOps] at hs

/-- C60 for LaTeX: a gene for which there is no built-in operator is shown as unknown, with its number. -/
theorem C60_latex_unknown (g : Nat) (h : standardOps[g]? = none) : geneSymbol g = "未知G(" ++ toString g ++ ")" := by
  have hg : 6 ≤ g := by simpa [standardOps] using h
  have : internalNames[g]? = none := by simp [internalNames]; omega
  simp only [geneSymbol, this]

/-- C60 fails for LaTeX with other operators: the user's list is not passed on, so with the operators `u, u_xx` the second one is shown
as `u_x`. -/
theorem C60_latex_counterexample :
    displayed ["u", "u_xx"] [1] = ["u_xx"] ∧ latexOf "u_xx" = "u_{xx}" ∧ moduleText [1] = "u_x" := by decide

/-! ## C61: training data and checkpoints -/

theorem swap_length {α : Type} (l : List α) (i j : Nat) : (swap l i j).length = l.length := by
  unfold swap; split <;> simp

theorem swap_perm {α : Type} (l : List α) (i j : Nat) : (swap l i j).Perm l := by
  unfold swap
  split
  · rename_i a b ha hb
    have hi := (List.getElem?_eq_some_iff.1 ha)
    have hj := (List.getElem?_eq_some_iff.1 hb)
    obtain ⟨hi1, hi2⟩ := hi
    obtain ⟨hj1, hj2⟩ := hj
    have := List.set_set_perm hi1 hj1
    rw [hi2, hj2] at this
    exact this
  · exact List.Perm.refl _

theorem swap_zip {α β : Type} (X : List α) (y : List β) (h : X.length = y.length) (i j : Nat) :
    List.zip (swap X i j) (swap y i j) = swap (List.zip X y) i j := by
  by_cases hi : i < X.length
  · by_cases hj : j < X.length
    · have e1 : X[i]? = some X[i] := List.getElem?_eq_getElem hi
      have e2 : X[j]? = some X[j] := List.getElem?_eq_getElem hj
      have e3 : y[i]? = some y[i] := List.getElem?_eq_getElem (h ▸ hi)
      have e4 : y[j]? = some y[j] := List.getElem?_eq_getElem (h ▸ hj)
      have e5 : (X.zip y)[i]? = some (X[i], y[i]) := List.getElem?_zip_eq_some.2 ⟨e1, e3⟩
      have e6 : (X.zip y)[j]? = some (X[j], y[j]) := List.getElem?_zip_eq_some.2 ⟨e2, e4⟩
      simp only [swap, e1, e2, e3, e4, e5, e6]
      refine List.ext_getElem? (fun k => ?_)
      have hlen : (X.zip y).length = X.length := by simp [h]
      rcases hk : ((X.set i X[j]).set j X[i])[k]? with _ | x
      · have : X.length ≤ k := by simpa using hk
        rw [List.getElem?_eq_none (by simp; omega), List.getElem?_eq_none (by simp; omega)]
      · have hkl : k < X.length := by simpa using (List.getElem?_eq_some_iff.1 hk).1
        have hky : k < y.length := h ▸ hkl
        have e : ∀ {γ : Type} (l : List γ) (a b : γ) (hkl : k < l.length), ((l.set i b).set j a)[k]? =
            some (if j = k then a else if i = k then b else l[k]'hkl) := by
          intro γ l a b hkl
          rw [List.getElem?_set, List.getElem?_set]
          by_cases h1 : j = k
          · simp [h1, hkl]
          · by_cases h2 : i = k
            · simp [h1, h2, hkl]
            · simp [h1, h2, hkl]
        rw [e (X.zip y) _ _ (by omega)]
        refine List.getElem?_zip_eq_some.2 ⟨?_, ?_⟩
        · rw [e X _ _ hkl]
          split
          · rfl
          · split
            · rfl
            · simp
        · rw [e y _ _ hky]
          split
          · rfl
          · split
            · rfl
            · simp
    · have e2 : X[j]? = none := List.getElem?_eq_none (by omega)
      have e4 : y[j]? = none := List.getElem?_eq_none (by omega)
      have e6 : (X.zip y)[j]? = none := List.getElem?_eq_none (by simp; omega)
      unfold swap
      rw [e2, e4, e6]
      cases X[i]? <;> cases y[i]? <;> cases (X.zip y)[i]? <;> rfl
  · have e2 : X[i]? = none := List.getElem?_eq_none (by omega)
    have e4 : y[i]? = none := List.getElem?_eq_none (by omega)
    have e6 : (X.zip y)[i]? = none := List.getElem?_eq_none (by simp; omega)
    simp only [swap, e2, e4, e6]

theorem shuffleFrom_facts {α β : Type} (js : Nat → Nat) (k : Nat) (X : List α) (y : List β) (h : X.length = y.length) :
    (shuffleFrom js k X).Perm X ∧ List.zip (shuffleFrom js k X) (shuffleFrom js k y) = shuffleFrom js k (List.zip X y) := by
  induction k generalizing X y with
  | zero => exact ⟨List.Perm.refl _, rfl⟩
  | succ k ih =>
    obtain ⟨h1, h2⟩ := ih (swap X (k + 1) (js (k + 1) % (k + 2))) (swap y (k + 1) (js (k + 1) % (k + 2))) (by simp [swap_length, h])
    refine ⟨h1.trans (swap_perm _ _ _), ?_⟩
    simp only [shuffleFrom]
    rw [h2, swap_zip X y h]

theorem shuffle_perm {α : Type} (js : Nat → Nat) (l : List α) : (shuffle js l).Perm l :=
  (shuffleFrom_facts js _ l l rfl).1

/-- C61: after the shuffle each input still stands next to its own output, and no pair is lost or repeated. -/
theorem C61_aligned {α β : Type} (js : Nat → Nat) (X : List α) (y : List β) (h : X.length = y.length) :
    (List.zip (shuffleBoth js X y).1 (shuffleBoth js X y).2).Perm (List.zip X y) := by
  unfold shuffleBoth shuffle
  rw [← h, (shuffleFrom_facts js _ X y h).2]
  exact (shuffleFrom_facts js _ (List.zip X y) (List.zip X y) rfl).1

/-- C61: the training and the validation part are disjoint selections from the data: together they are part of it, each element used at
most as often as it occurs; everything is used when the two sizes add up to the number of samples. -/
theorem C61_split {α : Type} (a b : Nat) (js : Nat → Nat) (l : List α) :
    (∃ rest, ((splitData a b (shuffle js l)).1 ++ (splitData a b (shuffle js l)).2 ++ rest).Perm l) ∧
    (a + b = l.length → ((splitData a b (shuffle js l)).1 ++ (splitData a b (shuffle js l)).2).Perm l) := by
  have hp := shuffle_perm js l
  generalize hs : shuffle js l = s at hp
  have e : (splitData a b s).1 ++ (splitData a b s).2 = s.take (a + b) := by
    simp [splitData, List.take_add]
  rw [e]
  refine ⟨⟨s.drop (a + b), by rw [List.take_append_drop]; exact hp⟩, fun h => ?_⟩
  rw [List.take_of_length_le (by rw [hp.length_eq]; omega)]
  exact hp

/-- The weights after `k` optimiser steps. -/
def weightsAt {W : Type} (stepW : W → W) (w0 : W) : Nat → W
  | 0 => w0
  | k + 1 => stepW (weightsAt stepW w0 k)

theorem trainLoop_spec {W E : Type} (err : W → E) (stepW : W → W) (every : Nat) (w0 : W) (n : Nat) :
    ∀ i es saved, es = (List.range (i / every)).map (fun k => err (weightsAt stepW w0 ((k + 1) * every - 1))) →
      saved = (List.range (i / every)).map (fun k => ((k + 1) * every, weightsAt stepW w0 ((k + 1) * every))) →
      trainLoop err stepW every n i (weightsAt stepW w0 i) es saved =
        (weightsAt stepW w0 (i + n),
         (List.range ((i + n) / every)).map (fun k => err (weightsAt stepW w0 ((k + 1) * every - 1))),
         (List.range ((i + n) / every)).map (fun k => ((k + 1) * every, weightsAt stepW w0 ((k + 1) * every)))) := by
  induction n with
  | zero => intro i es saved h1 h2; rw [trainLoop, h1, h2]; rfl
  | succ n ih =>
    intro i es saved h1 h2
    have hw : stepW (weightsAt stepW w0 i) = weightsAt stepW w0 (i + 1) := rfl
    rw [trainLoop, hw, show i + (n + 1) = i + 1 + n from by omega]
    by_cases hd : (i + 1) % every = 0
    · rw [if_pos hd]
      have hq : (i + 1) / every = i / every + 1 := by
        rw [Nat.succ_div_of_dvd (Nat.dvd_of_mod_eq_zero hd)]
      have hm : (i / every + 1) * every = i + 1 := by
        rw [← hq]; exact Nat.div_mul_cancel (Nat.dvd_of_mod_eq_zero hd)
      refine ih (i + 1) _ _ ?_ ?_
      · rw [hq, List.range_succ, List.map_append, h1]
        simp only [List.map_cons, List.map_nil, hm, Nat.add_sub_cancel]
      · rw [hq, List.range_succ, List.map_append, h2]
        simp only [List.map_cons, List.map_nil, hm]
    · rw [if_neg hd]
      have hq : (i + 1) / every = i / every := by
        rw [Nat.succ_div_of_not_dvd (fun h => hd (Nat.mod_eq_zero_of_dvd h))]
      exact ih (i + 1) es saved (by rw [hq]; exact h1) (by rw [hq]; exact h2)

/-- C61: for every number of iterations the network that is loaded after training was saved in this run, and it is that of the chosen
epoch; with fewer iterations than the checkpoint interval it is the last one; otherwise the validation error recorded for the chosen
epoch is the smallest recorded. -/
theorem C61_checkpoint_partial {W E : Type} [LinearOrder E] (err : W → E) (stepW : W → W) (every : Nat) (he : 0 < every) (maxIter : Nat)
    (w0 : W) :
    loadNet (trainNN err stepW every maxIter w0).1 (trainNN err stepW every maxIter w0).2 =
      some (weightsAt stepW w0 (trainNN err stepW every maxIter w0).1) ∧
    (maxIter < every → (trainNN err stepW every maxIter w0).1 = maxIter) ∧
    (every ≤ maxIter → ∃ k, (trainNN err stepW every maxIter w0).1 = (k + 1) * every ∧ (k + 1) * every ≤ maxIter ∧
      ∀ k', (k' + 1) * every ≤ maxIter →
        err (weightsAt stepW w0 ((k + 1) * every - 1)) ≤ err (weightsAt stepW w0 ((k' + 1) * every - 1))) := by
  have hspec := trainLoop_spec err stepW every w0 maxIter 0 [] [] (by simp) (by simp)
  simp only [Nat.zero_add] at hspec
  have hw0 : weightsAt stepW w0 0 = w0 := rfl
  rw [hw0] at hspec
  set q := maxIter / every with hq
  have hlt : ∀ k, k < q ↔ (k + 1) * every ≤ maxIter := fun k => by
    rw [hq, Nat.lt_iff_add_one_le, Nat.le_div_iff_mul_le he]
  unfold trainNN
  simp only [hspec]
  generalize hes : (List.range q).map (fun k => err (weightsAt stepW w0 ((k + 1) * every - 1))) = es
  rcases hmin : es.min? with _ | m
  · have hnil : es = [] := by simpa using hmin
    have hq0 : q = 0 := by
      rw [← hes] at hnil; simpa using hnil
    simp only [argmin, hmin, Option.map_none]
    refine ⟨?_, fun _ => trivial, fun h => ?_⟩
    · simp [loadNet, hq0]
    · have := (hlt 0).2 (by omega)
      omega
  · simp only [argmin, hmin, Option.map_some]
    obtain ⟨hmem, hle⟩ := List.min?_eq_some_iff.1 hmin
    have hidx := List.idxOf_lt_length_of_mem hmem
    have hlen : es.length = q := by rw [← hes]; simp
    generalize hk : es.idxOf m = k at hidx ⊢
    rw [hlen] at hidx
    have hval : err (weightsAt stepW w0 ((k + 1) * every - 1)) = m := by
      have h1 : es[k]? = some m := by
        rw [← hk]
        have := List.idxOf_lt_length_of_mem hmem
        rw [List.getElem?_eq_getElem this, List.getElem_idxOf this]
      rw [← hes, List.getElem?_map, List.getElem?_range hidx] at h1
      simpa using h1
    refine ⟨?_, fun h => ?_, fun _ => ⟨k, rfl, (hlt k).1 hidx, fun k' hk' => ?_⟩⟩
    · unfold loadNet
      have huniq : ∀ p ∈ (List.range q).map (fun k => ((k + 1) * every, weightsAt stepW w0 ((k + 1) * every))),
          p.1 = (k + 1) * every → p.2 = weightsAt stepW w0 ((k + 1) * every) := by
        intro p hp hp1
        obtain ⟨k', _, rfl⟩ := List.mem_map.1 hp
        simp only at hp1 ⊢
        rw [hp1]
      rcases hf : ((List.range q).map (fun k => ((k + 1) * every, weightsAt stepW w0 ((k + 1) * every)))).reverse.find?
          (fun p => decide (p.1 = (k + 1) * every)) with _ | p
      · exfalso
        have := List.find?_eq_none.1 hf ((k + 1) * every, weightsAt stepW w0 ((k + 1) * every))
          (by rw [List.mem_reverse]; exact List.mem_map.2 ⟨k, List.mem_range.2 hidx, rfl⟩)
        simp at this
      · have hp := List.mem_reverse.1 (List.mem_of_find?_eq_some hf)
        have hp1 := List.find?_some hf
        simp only [decide_eq_true_eq] at hp1
        rw [hf, Option.map_some, huniq p hp hp1]
    · have := (hlt k).1 hidx
      have : every ≤ (k + 1) * every := Nat.le_mul_of_pos_left _ (by omega)
      omega
    · rw [hval]
      refine hle _ ?_
      rw [← hes]
      exact List.mem_map.2 ⟨k', List.mem_range.2 ((hlt k').2 hk'), rfl⟩

/-- C61 fails in one respect: the weights saved are one optimiser step younger than those whose validation error was recorded, so the
network loaded need not have the smallest validation error among the saved ones (weights 0, 1, 2, 3, 4, a checkpoint every second step,
errors 0, 0, 9, 5, 1: the network after step 2, with error 9, is preferred to the one after step 4, with error 1). -/
theorem C61_checkpoint_counterexample :
    let err : Nat → Nat := fun w => if w = 2 then 9 else if w = 3 then 5 else if w = 4 then 1 else 0
    let t := trainNN err Nat.succ 2 4 0
    t.1 = 2 ∧ loadNet 2 t.2 = some 2 ∧ loadNet 4 t.2 = some 4 ∧ err 4 < err 2 := by decide

/-! ## C62: fitting and the data set -/

/-- C62, partial: with a sample, or with a solution array that is not C-contiguous, fitting leaves the data set's solution as it was. -/
theorem C62_dataset_unchanged_partial {α : Type} (full contiguous : Bool) (js : Nat → Nat) (usol : List α)
    (h : full = false ∨ contiguous = false) : usolAfterFit full contiguous js usol = usol := by
  unfold usolAfterFit
  rcases h with rfl | rfl <;> simp

/-- C62 fails on the full mesh of a C-contiguous solution array: the shuffle of the training data scrambles the data set in place (its
values are permuted among the grid points). -/
theorem C62_dataset_counterexample :
    usolAfterFit true true (fun _ => 0) [1, 2, 3, 4] = [2, 3, 4, 1] ∧
    ∀ js, (usolAfterFit true true js [1, 2, 3, 4]).Perm [1, 2, 3, 4] :=
  ⟨by decide, fun js => shuffle_perm js _⟩

end Verif.Claims
