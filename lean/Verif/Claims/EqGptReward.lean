import Mathlib.Algebra.Order.BigOperators.Group.List
import Mathlib.Algebra.Order.Field.Basic
import Mathlib.Tactic.Linarith
import Mathlib.Tactic.Ring
import Mathlib.Tactic.NormNum
import Mathlib.Tactic.FieldSimp
import Verif.Claims.EqGptSample
import Verif.Claims.Sampling

/-!
# C83: the EqGPT reward
-/

namespace Verif.Claims.EqGpt

open Verif.EqGpt

/-! ## Specification -/

/-- The rest of a term, `op b op c …`, applied from left to right. -/
def evalFrom (v : Nat → Val) (acc : Val) : List Nat → Val
  | o :: b :: r => evalFrom v (if o = 4 then acc.div (v b) else acc.mul (v b)) r
  | _ => acc

/-- The value of a term `a op b op c …` at one grid point, from left to right. -/
def evalTerm (v : Nat → Val) : List Nat → Val
  | [] => .fin 1
  | a :: r => evalFrom v (v a) r

/-- The value of word `w` at grid point `i` of a case. -/
def wordAt (c : Case) (i w : Nat) : Val := ((c.value w)[i]?).getD .nan

/-- The value of a term at a grid point. -/
def termAt (c : Case) (i : Nat) (t : List Nat) : Val := evalTerm (wordAt c i) t

/-- The regression table of a case: one row per grid point, one entry per term. -/
def table (c : Case) (terms : List (List Nat)) : List (List Rat) :=
  (List.range c.n).map (fun i => terms.map (fun t => (termAt c i t).num))

/-- Sum over the rows of the squared defect of `first + Σ xⱼ·otherⱼ = 0`. -/
def defect (rs : List (List Rat)) (x : List Rat) : Rat :=
  (rs.map (fun r => (r.headD 0 + ((r.tail.zip x).map (fun p => p.1 * p.2)).sum) ^ 2)).sum

/-- Sum over the rows of the squared deviation of the first entry from its mean. -/
def spread (rs : List (List Rat)) : Rat :=
  (rs.map (fun r => (r.headD 0 - (rs.map (fun r => r.headD 0)).sum / (rs.length : Rat)) ^ 2)).sum

/-- What `np.linalg.lstsq` does on a table: it returns coefficients with the smallest
defect. -/
def LeastSquares (solve : Solver) (rs : List (List Rat)) : Prop :=
  ∃ x, solve rs = some x ∧ ∀ x', defect rs x ≤ defect rs x'

/-- A case on which every term has a finite value everywhere, no two terms coincide, and the
left-hand side is not constant. -/
structure Clean (c : Case) (terms : List (List Nat)) : Prop where
  width : ∀ w, (c.value w).length = c.n
  finite : ∀ t ∈ terms, ∀ i < c.n, ∃ q, termAt c i t = .fin q
  distinct : terms.Pairwise (fun s t => ∃ i < c.n, termAt c i s ≠ termAt c i t)
  varies : spread (table c terms) ≠ 0

/-! ## Columns -/

private def vecFrom (value : Nat → List Val) : List Val → Bool → List Nat → List Val
  | col, _, [] => col
  | col, dv, [a] =>
      if dv then List.zipWith Val.div col (value a) else List.zipWith Val.mul col (value a)
  | col, dv, a :: o :: r =>
      vecFrom value (if dv then List.zipWith Val.div col (value a)
        else List.zipWith Val.mul col (value a)) (decide (o = 4)) r

private theorem pairs_cons (a o : Nat) (l : List Nat) :
    (evens (a :: o :: l)).zip (odds (a :: o :: l)) = (a, o) :: (evens l).zip (odds l) := by
  cases l with
  | nil => simp [evens, odds]
  | cons b l => simp [evens, odds]

private theorem colLoop_term (value : Nat → List Val) (n : Nat) (mask : List Bool) (x : Nat)
    (hx : x = 1 ∨ x = 2) (rest : List Nat) (t : List Nat) (ht : WellTerm mask t) :
    ∀ (col : List Val) (dv : Bool) (A : List (List Val)),
    colLoop value n ((evens (t ++ x :: rest)).zip (odds (t ++ x :: rest))) col dv A =
      colLoop value n ((evens rest).zip (odds rest))
        (if x = 2 then List.replicate n (.fin 1) else vecFrom value col dv t) false
        (A ++ [vecFrom value col dv t]) := by
  induction t using WellTerm.induct with
  | case1 => exact absurd ht (by simp [WellTerm])
  | case2 a =>
      intro col dv A
      rw [List.singleton_append, pairs_cons]
      rcases hx with rfl | rfl <;> simp [colLoop, vecFrom, tPlus, tDiv, tE]
  | case3 a o r ih =>
      intro col dv A
      obtain ⟨h1, h2, h3⟩ := ht
      rw [List.cons_append, List.cons_append, pairs_cons]
      rcases h2 with rfl | rfl
      · simp only [colLoop, tPlus, tDiv, tE, Nat.reduceEqDiff, if_false]
        rw [ih h3]
        simp [vecFrom]
      · simp only [colLoop, tPlus, tDiv, tE, Nat.reduceEqDiff, if_false, if_true]
        rw [ih h3]
        simp [vecFrom]

private theorem columns_sentence (value : Nat → List Val) (n : Nat) (mask : List Bool)
    (ts : List (List Nat)) (hne : ts ≠ []) (h : ∀ t ∈ ts, WellTerm mask t) (A : List (List Val)) :
    colLoop value n ((evens (sentenceOf ts)).zip (odds (sentenceOf ts)))
      (List.replicate n (.fin 1)) false A
      = A ++ ts.map (vecFrom value (List.replicate n (.fin 1)) false) := by
  induction ts generalizing A with
  | nil => exact absurd rfl hne
  | cons t ts ih =>
      cases ts with
      | nil =>
          have e : sentenceOf [t] = t ++ 1 :: [] := by simp [sentenceOf, List.intercalate]
          rw [e, colLoop_term value n mask 1 (by simp) [] t (h t (by simp))]
          simp [evens, odds, colLoop]
      | cons u us =>
          have e : sentenceOf (t :: u :: us) = t ++ 2 :: sentenceOf (u :: us) := by
            simp [sentenceOf, List.intercalate]
          rw [e, colLoop_term value n mask 2 (by simp) _ t (h t (by simp)), if_pos rfl,
            ih (by simp) (fun s hs => h s (by simp [hs]))]
          simp

private theorem zipWith_range (op : Val → Val → Val) (n : Nat) (f : Nat → Val) (l : List Val)
    (hl : l.length = n) :
    List.zipWith op ((List.range n).map f) l
      = (List.range n).map (fun i => op (f i) ((l[i]?).getD .nan)) := by
  apply List.ext_getElem
  · simp [hl]
  · intro i h1 h2
    have hi : i < l.length := by simp at h1; omega
    simp [List.getElem?_eq_getElem hi]

private theorem vecFrom_range (c : Case) (hw : ∀ w, (c.value w).length = c.n) (mask : List Bool)
    (t : List Nat) (ht : WellTerm mask t) (f : Nat → Val) (dv : Bool) :
    vecFrom c.value ((List.range c.n).map f) dv t
      = (List.range c.n).map (fun i => match t with
          | [] => f i
          | a :: r => evalFrom (wordAt c i)
              (if dv then (f i).div (wordAt c i a) else (f i).mul (wordAt c i a)) r) := by
  induction t using WellTerm.induct generalizing f dv with
  | case1 => exact absurd ht (by simp [WellTerm])
  | case2 a =>
      cases dv <;> simp only [vecFrom, Bool.false_eq_true, if_false, if_true] <;>
        rw [zipWith_range _ _ _ _ (hw a)] <;> simp [evalFrom, wordAt]
  | case3 a o r ih =>
      obtain ⟨h1, h2, h3⟩ := ht
      cases r with
      | nil => exact absurd h3 (by simp [WellTerm])
      | cons b r =>
          have e : (if dv then List.zipWith Val.div ((List.range c.n).map f) (c.value a)
                else List.zipWith Val.mul ((List.range c.n).map f) (c.value a))
              = (List.range c.n).map (fun i =>
                  if dv then (f i).div (wordAt c i a) else (f i).mul (wordAt c i a)) := by
            cases dv <;> simp only [Bool.false_eq_true, if_false, if_true] <;>
              rw [zipWith_range _ _ _ _ (hw a)] <;> rfl
          simp only [vecFrom] at ih ⊢
          rw [e, ih h3]
          simp only [evalFrom, decide_eq_true_eq]

private theorem one_mul_val (v : Val) : Val.mul (.fin 1) v = v := by
  cases v <;> simp [Val.mul]

/-- **C83** The columns entering the regression: for a sentence of complete terms, column `j`
holds at each grid point the value of term `j`, its operands multiplied and divided from left
to right as written. -/
theorem C83_columns (c : Case) (hw : ∀ w, (c.value w).length = c.n) (mask : List Bool)
    (terms : List (List Nat)) (hne : terms ≠ []) (ht : ∀ t ∈ terms, WellTerm mask t) :
    columns c.value c.n (sentenceOf terms)
      = terms.map (fun t => (List.range c.n).map (fun i => termAt c i t)) := by
  unfold columns
  rw [columns_sentence c.value c.n mask terms hne ht, List.nil_append]
  refine List.map_congr_left (fun t hm => ?_)
  have e : List.replicate c.n (Val.fin 1) = (List.range c.n).map (fun _ => Val.fin 1) := by simp
  rw [e, vecFrom_range c hw mask t (ht t hm)]
  refine List.map_congr_left (fun i _ => ?_)
  cases t with
  | nil => exact absurd (ht [] hm) (by simp [WellTerm])
  | cons a r => simp only [Bool.false_eq_true, if_false, one_mul_val, termAt, evalTerm]

/-- The same in ordinary arithmetic, every word having the rational value `q w`. -/
def ratFrom (q : Nat → Rat) (acc : Rat) : List Nat → Rat
  | o :: b :: r => ratFrom q (if o = 4 then acc / q b else acc * q b) r
  | _ => acc

/-- Every word after a division sign is different from zero. -/
def NoZeroDivisor (q : Nat → Rat) : List Nat → Prop
  | o :: b :: r => (o = 4 → q b ≠ 0) ∧ NoZeroDivisor q r
  | _ => True

private theorem evalFrom_rat (v : Nat → Val) (q : Nat → Rat) (t : List Nat) (acc : Rat) (hv : ∀ w ∈ t, v w = .fin (q w))
    (hz : NoZeroDivisor q t) : evalFrom v (.fin acc) t = .fin (ratFrom q acc t) := by
  induction acc, t using ratFrom.induct q with
  | case1 acc o b r ih =>
    obtain ⟨h1, h2⟩ := hz
    have hb := hv b (by simp)
    simp only [evalFrom, ratFrom, hb]
    have := ih (fun w hw => hv w (by simp [hw])) h2
    by_cases ho : o = 4
    · simp only [ho, if_true] at this ⊢
      rw [← this]
      simp [Val.div, h1 ho]
    · simp only [ho, if_false] at this ⊢
      rw [← this]
      simp [Val.mul]
  | case2 t acc h =>
    match t with
    | [] => rfl
    | [_] => rfl
    | _ :: _ :: _ => exact absurd rfl (h _ _ _)

/-- **C83** In ordinary numbers: at a grid point where the words of a term have rational values and no divisor is zero, the entry is the
product and quotient of these values from left to right; dividing a number by zero leaves no number. -/
theorem C83_entries (c : Case) (i : Nat) (q : Nat → Rat) (a : Nat) (t : List Nat) (hv : ∀ w ∈ a :: t, wordAt c i w = .fin (q w)) :
    (NoZeroDivisor q t → termAt c i (a :: t) = .fin (ratFrom q (q a) t)) ∧
    (∀ b, t = [4, b] → q b = 0 → ∀ x, termAt c i (a :: t) ≠ .fin x) := by
  refine ⟨fun hz => ?_, ?_⟩
  · simp only [termAt, evalTerm, hv a (by simp)]
    exact evalFrom_rat _ _ _ _ (fun w hw => hv w (by simp [hw])) hz
  · rintro b rfl hb x
    simp only [termAt, evalTerm, evalFrom, hv a (by simp), hv b (by simp), if_true, Val.div, hb]
    split <;> simp

/-- **C83** With infinite values: a number divided by an infinite value is 0; an infinite value divided by a number, a number other than
0 times an infinite value in either order, and infinity times infinity are infinite; 0 times infinity, infinity through
infinity and everything with NaN are NaN. -/
theorem C83_infinite (c : Case) (i a b o : Nat) (ho : o ≠ 4) (x : Rat) :
    (wordAt c i a = .fin x → wordAt c i b = .inf → termAt c i [a, 4, b] = .fin 0 ∧ termAt c i [b, 4, a] = .inf ∧
      termAt c i [a, o, b] = (if x = 0 then .nan else .inf) ∧ termAt c i [b, o, a] = (if x = 0 then .nan else .inf)) ∧
    (wordAt c i a = .inf → wordAt c i b = .inf → termAt c i [a, 4, b] = .nan ∧ termAt c i [a, o, b] = .inf) ∧
    (wordAt c i a = .nan → termAt c i [a, 4, b] = .nan ∧ termAt c i [a, o, b] = .nan ∧ termAt c i [b, 4, a] = .nan ∧
      termAt c i [b, o, a] = .nan) := by
  refine ⟨fun ha hb => ?_, fun ha hb => ?_, fun ha => ?_⟩
  · simp [termAt, evalTerm, evalFrom, ha, hb, ho, Val.div, Val.mul]
  · simp [termAt, evalTerm, evalFrom, ha, hb, ho, Val.div, Val.mul]
  · cases hb : wordAt c i b <;> simp [termAt, evalTerm, evalFrom, ha, hb, ho, Val.div, Val.mul]

/-- A term `u·u_x/x` with the values 3, 4 and 2. -/
example : NoZeroDivisor (fun w => (w : Rat)) [5, 4, 4, 2] ∧ ratFrom (fun w => (w : Rat)) 3 [5, 4, 4, 2] = 6 := by
  refine ⟨⟨by simp, by decide +kernel, trivial⟩, by decide +kernel⟩

/-! ## One case -/

private theorem same_ne (n : Nat) (f g : Nat → Val) (h : ∃ i < n, f i ≠ g i) :
    sameCol ((List.range n).map f) ((List.range n).map g) = false := by
  obtain ⟨i, hi, hne⟩ := h
  unfold sameCol
  rw [Bool.and_eq_false_iff]
  right
  rw [List.all_eq_false]
  refine ⟨(f i, g i), ?_, ?_⟩
  · rw [List.mem_iff_getElem]
    exact ⟨i, by simp [hi], by simp⟩
  · show ¬ ((f i).same (g i)) = true
    cases hf : f i <;> cases hg : g i <;> simp_all [Val.same]

private theorem dedupCols_distinct (cols kept : List (List Val))
    (h : (kept ++ cols).Pairwise (fun a b => sameCol b a = false)) :
    dedupCols cols kept = kept ++ cols := by
  induction cols generalizing kept with
  | nil => simp [dedupCols]
  | cons a cols ih =>
      have hany : kept.any (fun k => sameCol a k) = false := by
        rw [List.any_eq_false]
        intro k hk
        have := (List.pairwise_append.1 h).2.2 k hk a (by simp)
        simp [this]
      simp only [dedupCols, hany, Bool.false_eq_true, if_false]
      rw [ih (kept ++ [a]) (by simpa using h)]
      simp

private theorem same_iff (a b : Val) (ha : a ≠ .nan) (hb : b ≠ .nan) : a.same b = true ↔ a = b := by
  cases a <;> cases b <;> simp_all [Val.same]

private theorem sameCol_iff : ∀ (a b : List Val), .nan ∉ a → .nan ∉ b → (sameCol a b = true ↔ a = b)
  | [], [], _, _ => by simp [sameCol]
  | [], _ :: _, _, _ => by simp [sameCol]
  | _ :: _, [], _, _ => by simp [sameCol]
  | x :: a, y :: b, ha, hb => by
    have ih := sameCol_iff a b (fun h => ha (List.mem_cons_of_mem _ h)) (fun h => hb (List.mem_cons_of_mem _ h))
    have hxy := same_iff x y (fun h => ha (h ▸ List.mem_cons_self)) (fun h => hb (h ▸ List.mem_cons_self))
    simp only [sameCol, List.length_cons, List.zip_cons_cons, List.all_cons, Bool.and_eq_true, beq_iff_eq, Nat.add_right_cancel_iff,
      List.cons.injEq] at ih ⊢
    rw [← ih, hxy]
    constructor
    · rintro ⟨h1, h2, h3⟩; exact ⟨h2, h1, h3⟩
    · rintro ⟨h2, h1, h3⟩; exact ⟨h1, h2, h3⟩

private theorem dedup_spec (cols : List (List Val)) : ∀ kept : List (List Val), (∀ c ∈ kept ++ cols, Val.nan ∉ c) → kept.Nodup →
    (dedupCols cols kept).Nodup ∧ (∀ c, c ∈ dedupCols cols kept ↔ c ∈ kept ∨ c ∈ cols) ∧
    (dedupCols cols kept).Sublist (kept ++ cols) := by
  induction cols with
  | nil => intro kept _ hk; exact ⟨hk, by simp [dedupCols], by simp [dedupCols]⟩
  | cons a cols ih =>
    intro kept hn hk
    have hany : kept.any (fun k => sameCol a k) = true ↔ a ∈ kept := by
      rw [List.any_eq_true]
      constructor
      · rintro ⟨k, hk, h⟩
        rw [(sameCol_iff a k (hn a (by simp)) (hn k (by simp [hk]))).1 h]
        exact hk
      · intro h
        exact ⟨a, h, (sameCol_iff a a (hn a (by simp)) (hn a (by simp))).2 rfl⟩
    by_cases h : a ∈ kept
    · rw [dedupCols, if_pos (hany.2 h)]
      obtain ⟨h1, h2, h3⟩ := ih kept (fun c hc => hn c (by
        rcases List.mem_append.1 hc with h | h <;> simp [h])) hk
      refine ⟨h1, fun c => ?_, h3.trans (List.Sublist.append (List.Sublist.refl _) (List.sublist_cons_self a cols))⟩
      rw [h2, List.mem_cons]
      constructor
      · rintro (h | h)
        · exact Or.inl h
        · exact Or.inr (Or.inr h)
      · rintro (h | rfl | h)
        · exact Or.inl h
        · exact Or.inl (by assumption)
        · exact Or.inr h
    · rw [dedupCols, if_neg (fun e => h (hany.1 e))]
      obtain ⟨h1, h2, h3⟩ := ih (kept ++ [a]) (fun c hc => hn c (by simpa using hc)) (by
        rw [List.nodup_append]
        refine ⟨hk, by simp, fun b hb c hc e => ?_⟩
        rw [List.mem_singleton] at hc
        rw [e, hc] at hb
        exact h hb)
      refine ⟨h1, fun c => ?_, by simpa using h3⟩
      rw [h2]
      simp [or_assoc]

/-- **C83** Terms with the same values everywhere are counted once: of columns without NaN exactly the different ones remain, in order.
(A column with NaN differs even from itself and is never merged.) -/
theorem C83_merged (cols : List (List Val)) (h : ∀ c ∈ cols, Val.nan ∉ c) :
    (dedupCols cols []).Nodup ∧ (∀ c, c ∈ dedupCols cols [] ↔ c ∈ cols) ∧ (dedupCols cols []).Sublist cols := by
  simpa using dedup_spec cols [] (by simpa using h) .nil

private theorem defect_eq (rs : List (List Rat)) (x : List Rat) : sse rs x = defect rs x := by
  unfold sse defect dot
  congr 1
  refine List.map_congr_left (fun r _ => ?_)
  ring

private theorem spread_eq (rs : List (List Rat)) : sst rs = spread rs := by
  unfold sst spread
  simp only
  congr 1
  have hs : (rs.map (fun r => -(r.headD 0))).sum = -(rs.map (fun r => r.headD 0)).sum := by
    induction rs with
    | nil => simp
    | cons r rs ih => simp only [List.map_cons, List.sum_cons, ih]; ring
  rw [hs]
  refine List.map_congr_left (fun r _ => ?_)
  ring

private theorem case_clean (solve : Solver) (pen : Nat → Rat) (c : Case)
    (mask : List Bool) (terms : List (List Nat)) (hne : terms ≠ [])
    (ht : ∀ t ∈ terms, WellTerm mask t) (hc : Clean c terms)
    (hls : LeastSquares solve (table c terms)) :
    ∃ x, (∀ x', defect (table c terms) x ≤ defect (table c terms) x') ∧
      caseReward solve pen c.n c.value (sentenceOf terms)
        = some (.fin ((1 - pen terms.length)
            * (1 - defect (table c terms) x / spread (table c terms)))) := by
  have hcols := C83_columns c hc.width mask terms hne ht
  have hded : dedupCols (columns c.value c.n (sentenceOf terms)) []
      = terms.map (fun t => (List.range c.n).map (fun i => termAt c i t)) := by
    rw [hcols]
    have := dedupCols_distinct
      (terms.map (fun t => (List.range c.n).map (fun i => termAt c i t))) [] (by
        rw [List.nil_append, List.pairwise_map]
        refine hc.distinct.imp (fun {s t} h => ?_)
        obtain ⟨i, hi, hn⟩ := h
        exact same_ne c.n _ _ ⟨i, hi, fun hh => hn hh.symm⟩)
    simpa using this
  have hrows : rows c.n (terms.map (fun t => (List.range c.n).map (fun i => termAt c i t)))
      = (List.range c.n).map (fun i => terms.map (fun t => termAt c i t)) := by
    unfold rows
    refine List.map_congr_left (fun i hi => ?_)
    rw [List.map_map]
    refine List.map_congr_left (fun t _ => ?_)
    have : i < c.n := List.mem_range.1 hi
    simp [this]
  have hdrop : dropInf ((List.range c.n).map (fun i => terms.map (fun t => termAt c i t)))
      = (List.range c.n).map (fun i => terms.map (fun t => termAt c i t)) := by
    unfold dropInf
    rw [List.filter_eq_self]
    intro r hr
    obtain ⟨i, hi, rfl⟩ := List.mem_map.1 hr
    simp only [Bool.not_eq_eq_eq_not, Bool.not_true]
    rw [← Bool.not_eq_true, List.contains_iff_mem, List.mem_map]
    rintro ⟨t, htm, he⟩
    obtain ⟨q, hq⟩ := hc.finite t htm i (List.mem_range.1 hi)
    rw [hq] at he
    exact absurd he (by simp)
  have hnan : hasNan ((List.range c.n).map (fun i => terms.map (fun t => termAt c i t))) = false := by
    unfold hasNan
    rw [List.any_eq_false]
    intro r hr
    obtain ⟨i, hi, rfl⟩ := List.mem_map.1 hr
    rw [List.contains_iff_mem, List.mem_map]
    rintro ⟨t, htm, he⟩
    obtain ⟨q, hq⟩ := hc.finite t htm i (List.mem_range.1 hi)
    rw [hq] at he
    exact absurd he (by simp)
  have htab : ((List.range c.n).map (fun i => terms.map (fun t => termAt c i t))).map
      (fun r => r.map Val.num) = table c terms := by
    unfold table
    rw [List.map_map]
    refine List.map_congr_left (fun i _ => ?_)
    simp [Function.comp_def]
  obtain ⟨x, hx1, hx2⟩ := hls
  refine ⟨x, hx2, ?_⟩
  unfold caseReward
  simp only [hded, hrows, hdrop, hnan, Bool.false_eq_true, if_false, htab, hx1, r2, spread_eq,
    defect_eq, if_neg hc.varies, List.length_map]

private theorem sumVal_fin (l : List Rat) : sumVal (l.map Val.fin) = .fin l.sum := by
  induction l with
  | nil => rfl
  | cons a l ih => simp [sumVal, ih]

/-- **C83** (partial: cases on which all terms are finite and distinct and the left-hand side
varies).  The reward of a candidate `t₁ + t₂ + …` is the mean over all cases of the data of
`(1 - pen(k))·R²`, where `k` is the number of terms and `R²` is the coefficient of
determination of the best linear combination `t₁ = -Σ xⱼ tⱼ`; no coefficients give a smaller
residual.  `pen k` is `0.02·log10(k)`.  Missing: cases with NaN, see
`C83_nan_counterexample`. -/
theorem C83_reward_partial (solve : Solver) (pen : Nat → Rat)
    (cases : List Case) (hcs : cases ≠ []) (vars : List String) (mask : List Bool)
    (terms : List (List Nat)) (hne : terms ≠ []) (ht : ∀ t ∈ terms, WellTerm mask t)
    (hd : terms.Pairwise (fun s t => ¬ SameOperands s t))
    (hforb : forbidden (terms.flatMap operands) = false)
    (hvars : mentionsAll vars (sentenceOf terms) = true)
    (hclean : ∀ c ∈ cases, Clean c terms)
    (hls : ∀ c ∈ cases, LeastSquares solve (table c terms)) :
    ∃ x : List (List Rat), x.length = cases.length ∧
      (∀ p ∈ cases.zip x, ∀ x', defect (table p.1 terms) p.2 ≤ defect (table p.1 terms) x') ∧
      calcReward solve pen cases vars (sentenceOf terms)
        = .fin (((cases.zip x).map (fun p => (1 - pen terms.length)
            * (1 - defect (table p.1 terms) p.2 / spread (table p.1 terms)))).sum
              / (cases.length : Rat)) := by
  have hfirst : firsts terms = terms := by
    clear hclean hls hvars hforb ht hne
    induction terms with
    | nil => rfl
    | cons t ts ih =>
        have hp := List.pairwise_cons.1 hd
        simp only [firsts, ih hp.2]
        congr 1
        exact List.filter_eq_self.2 (fun s hs => by simpa using hp.1 s hs)
  have hfree : ∀ t ∈ terms, ∀ w ∈ t, 3 ≤ w ∧ w ≠ 5 := fun t hm => (well_free mask t (ht t hm)).1
  have hdel : deleteDuplicate (sentenceOf terms) = sentenceOf terms := by
    have := (C81_first terms hne (fun t hm hc => absurd (hfree t hm _ hc).1 (by omega))
      (fun t hm hc => absurd (hfree t hm _ hc).1 (by omega))).1
    rw [hfirst] at this
    exact this
  obtain ⟨h1, h2, h3⟩ := well_sentence mask terms hne ht
  have hmap : ∀ cs : List Case, (∀ c ∈ cs, Clean c terms) →
      (∀ c ∈ cs, LeastSquares solve (table c terms)) →
      ∃ x : List (List Rat), x.length = cs.length ∧
        (∀ p ∈ cs.zip x, ∀ x', defect (table p.1 terms) p.2 ≤ defect (table p.1 terms) x') ∧
        cs.filterMap (fun c => caseReward solve pen c.n c.value (sentenceOf terms))
          = ((cs.zip x).map (fun p => (1 - pen terms.length)
            * (1 - defect (table p.1 terms) p.2 / spread (table p.1 terms)))).map Val.fin := by
    intro cs
    induction cs with
    | nil => intro _ _; exact ⟨[], rfl, by simp, by simp⟩
    | cons c cs ih =>
        intro hcl hcs
        obtain ⟨xs, e1, e2, e3⟩ := ih (fun d hd => hcl d (by simp [hd])) (fun d hd => hcs d (by simp [hd]))
        obtain ⟨x, f1, f2⟩ := case_clean solve pen c mask terms hne ht (hcl c (by simp)) (hcs c (by simp))
        refine ⟨x :: xs, by simp [e1], ?_, ?_⟩
        · intro p hp
          rcases List.mem_cons.1 hp with rfl | hp
          · exact f1
          · exact e2 p hp
        · rw [List.filterMap_cons, f2]
          simp only [e3, List.zip_cons_cons, List.map_cons]
  obtain ⟨x, e1, e2, e3⟩ := hmap cases hclean hls
  refine ⟨x, e1, e2, ?_⟩
  unfold calcReward
  simp only [hdel, h1, hforb, hvars, Bool.not_true, Bool.or_self, Bool.false_eq_true, if_false]
  rw [if_neg, if_neg]
  · rw [e3]
    have hnn : ((cases.zip x).map (fun p => (1 - pen terms.length)
            * (1 - defect (table p.1 terms) p.2 / spread (table p.1 terms)))).map Val.fin ≠ [] := by
      cases cases with
      | nil => exact absurd rfl hcs
      | cons c cs =>
          cases x with
          | nil => simp at e1
          | cons y ys => simp
    unfold meanVal
    rw [if_neg hnn, sumVal_fin]
    simp [e1]
  · rw [h1] at h3; exact fun hc => hc h3
  · rw [List.any_eq_true]
    rintro ⟨o, ho, hc⟩
    have := h2 o ho
    simp at hc
    omega

/-! ## Bounds and forced zeros -/

private theorem sum_sq_nonneg (l : List Rat) (h : ∀ a ∈ l, 0 ≤ a) : 0 ≤ l.sum :=
  List.sum_nonneg h

private theorem sse_nonneg (rs : List (List Rat)) (x : List Rat) : 0 ≤ sse rs x := by
  apply sum_sq_nonneg
  intro a ha
  obtain ⟨r, _, rfl⟩ := List.mem_map.1 ha
  exact sq_nonneg _

private theorem sst_nonneg (rs : List (List Rat)) : 0 ≤ sst rs := by
  apply sum_sq_nonneg
  intro a ha
  obtain ⟨r, _, rfl⟩ := List.mem_map.1 ha
  exact sq_nonneg _

private theorem case_le (solve : Solver) (pen : Nat → Rat) (hpen : ∀ k, 0 ≤ pen k ∧ pen k ≤ 1)
    (n : Nat) (value : Nat → List Val) (s : List Nat) (r : Rat)
    (h : caseReward solve pen n value s = some (.fin r)) : r ≤ 1 := by
  unfold caseReward at h
  simp only at h
  split at h
  · simp at h
  · split at h
    · simp at h
    · rename_i x _
      simp only [Option.some.injEq] at h
      generalize hq : (dropInf (rows n (dedupCols (columns value n s) []))).map
        (fun r => r.map Val.num) = q at h
      generalize (dedupCols (columns value n s) []).length = k at h
      unfold r2 at h
      by_cases hz : sst q = 0
      · rw [if_pos hz] at h
        by_cases he : sse q x = 0
        · rw [if_pos he] at h; simp at h
        · rw [if_neg he] at h; simp at h
      · rw [if_neg hz] at h
        simp only [Val.fin.injEq] at h
        have hd : 0 ≤ sse q x / sst q := div_nonneg (sse_nonneg q x) (sst_nonneg q)
        have hk := hpen k
        rw [← h]
        nlinarith [mul_nonneg (sub_nonneg.2 hk.2) hd]

private theorem sumVal_le (l : List Val) (h : ∀ v ∈ l, ∀ r, v = .fin r → r ≤ 1) (a : Rat)
    (hs : sumVal l = .fin a) : a ≤ (l.length : Rat) := by
  induction l generalizing a with
  | nil => simp only [sumVal, Val.fin.injEq] at hs; simp [← hs]
  | cons v l ih =>
      simp only [sumVal] at hs
      cases v with
      | nan => cases hl : sumVal l <;> simp [hl] at hs
      | inf => cases hl : sumVal l <;> simp [hl] at hs
      | fin b =>
          cases hl : sumVal l with
          | nan => simp [hl] at hs
          | inf => simp [hl] at hs
          | fin d =>
              simp only [hl, Val.fin.injEq] at hs
              have h1 := ih (fun v hv => h v (by simp [hv])) d hl
              have h2 := h (.fin b) (by simp) b rfl
              simp only [List.length_cons, Nat.cast_add, Nat.cast_one]
              linarith

/-- **C83** No reward exceeds 1, for any sentence, data, solver and size penalty between 0
and 1. -/
theorem C83_at_most_one (solve : Solver) (pen : Nat → Rat) (hpen : ∀ k, 0 ≤ pen k ∧ pen k ≤ 1)
    (cases : List Case) (vars : List String) (s : List Nat) (r : Rat)
    (h : calcReward solve pen cases vars s = .fin r) : r ≤ 1 := by
  unfold calcReward at h
  simp only at h
  have zero : ∀ {q : Rat}, Val.fin 0 = Val.fin q → q ≤ 1 := by
    intro q hq
    simp only [Val.fin.injEq] at hq
    rw [← hq]; norm_num
  split at h
  · exact zero h
  · split at h
    · exact zero h
    · split at h
      · exact zero h
      · unfold meanVal at h
        split at h
        · simp at h
        · rename_i hne
          cases hs : sumVal (cases.filterMap
            (fun c => caseReward solve pen c.n c.value (deleteDuplicate s))) with
          | nan => simp [hs] at h
          | inf => simp [hs] at h
          | fin a =>
              simp only [hs, Val.fin.injEq] at h
              have hb := sumVal_le _ (by
                intro v hv q hq
                obtain ⟨c, _, hcr⟩ := List.mem_filterMap.1 hv
                exact case_le solve pen hpen _ _ _ _ (hq ▸ hcr)) a hs
              rw [← h]
              refine div_le_one_of_le₀ hb ?_
              exact Nat.cast_nonneg _

/-- **C83** A candidate that uses both `u` and `sin(u)`, `u` and `sinh(u)`, `sin(u)` and
`sinh(u)`, all of `u`, `u^2`, `u^3`, or both `x` and `sinx`, is given reward 0, whatever the
data. -/
theorem C83_forbidden (solve : Solver) (pen : Nat → Rat) (cases : List Case) (vars : List String)
    (mask : List Bool) (terms : List (List Nat)) (hne : terms ≠ [])
    (ht : ∀ t ∈ terms, WellTerm mask t) (ws : List String)
    (hws : ws ∈ [["u", "sin(u)"], ["u", "sinh(u)"], ["sin(u)", "sinh(u)"], ["u", "u^2", "u^3"],
      ["x", "sinx"]])
    (hin : ∀ w ∈ ws, ∃ t ∈ firsts terms, ∃ i ∈ operands t, word i = w) :
    calcReward solve pen cases vars (sentenceOf terms) = .fin 0 := by
  have hfree : ∀ t ∈ terms, ∀ w ∈ t, 3 ≤ w ∧ w ≠ 5 := fun t hm => (well_free mask t (ht t hm)).1
  have hdel := (C81_first terms hne (fun t hm hc => absurd (hfree t hm _ hc).1 (by omega))
      (fun t hm hc => absurd (hfree t hm _ hc).1 (by omega))).1
  have hkept : ∀ t ∈ firsts terms, WellTerm mask t :=
    fun t hm => ht t ((firsts_spec terms).1.subset hm)
  obtain ⟨h1, -, -⟩ := well_sentence mask (firsts terms)
    (by cases terms <;> simp_all [firsts]) hkept
  have huniq : ∀ i : Nat, i < 57 → (word i = "u" → i = 7) ∧ (word i = "sin(u)" → i = 29) ∧
      (word i = "sinh(u)" → i = 30) ∧ (word i = "u^2" → i = 19) ∧ (word i = "u^3" → i = 21) ∧
      (word i = "x" → i = 22) ∧ (word i = "sinx" → i = 46) := by decide +kernel
  have hmem : ∀ w ∈ ws, ∃ i ∈ (firsts terms).flatMap operands, i < 57 ∧ word i = w := by
    intro w hw
    obtain ⟨t, htm, i, hi, he⟩ := hin w hw
    refine ⟨i, List.mem_flatMap.2 ⟨t, htm, hi⟩, ?_, he⟩
    by_contra hge
    have : word i = "" := by
      unfold word
      rw [List.getElem?_eq_none (by show 57 ≤ i; omega)]
      rfl
    rw [this] at he
    subst he
    revert hw
    simp only [List.mem_cons, List.not_mem_nil, or_false] at hws
    rcases hws with rfl | rfl | rfl | rfl | rfl <;> decide
  have hforb : forbidden ((firsts terms).flatMap operands) = true := by
    simp only [List.mem_cons, List.not_mem_nil, or_false] at hws
    unfold forbidden
    rcases hws with rfl | rfl | rfl | rfl | rfl
    · obtain ⟨i, hi, hl, hw⟩ := hmem "u" (by simp)
      obtain ⟨j, hj, hl', hw'⟩ := hmem "sin(u)" (by simp)
      rw [(huniq i hl).1 hw] at hi
      rw [(huniq j hl').2.1 hw'] at hj
      simp only [List.contains_iff_mem.2 hi, List.contains_iff_mem.2 hj, Bool.and_self,
        Bool.true_or, Bool.or_true]
    · obtain ⟨i, hi, hl, hw⟩ := hmem "u" (by simp)
      obtain ⟨j, hj, hl', hw'⟩ := hmem "sinh(u)" (by simp)
      rw [(huniq i hl).1 hw] at hi
      rw [(huniq j hl').2.2.1 hw'] at hj
      simp only [List.contains_iff_mem.2 hi, List.contains_iff_mem.2 hj, Bool.and_self,
        Bool.true_or, Bool.or_true]
    · obtain ⟨i, hi, hl, hw⟩ := hmem "sin(u)" (by simp)
      obtain ⟨j, hj, hl', hw'⟩ := hmem "sinh(u)" (by simp)
      rw [(huniq i hl).2.1 hw] at hi
      rw [(huniq j hl').2.2.1 hw'] at hj
      simp only [List.contains_iff_mem.2 hi, List.contains_iff_mem.2 hj, Bool.and_self,
        Bool.true_or, Bool.or_true]
    · obtain ⟨i, hi, hl, hw⟩ := hmem "u" (by simp)
      obtain ⟨j, hj, hl', hw'⟩ := hmem "u^2" (by simp)
      obtain ⟨k, hk, hl'', hw''⟩ := hmem "u^3" (by simp)
      rw [(huniq i hl).1 hw] at hi
      rw [(huniq j hl').2.2.2.1 hw'] at hj
      rw [(huniq k hl'').2.2.2.2.1 hw''] at hk
      simp only [List.contains_iff_mem.2 hi, List.contains_iff_mem.2 hj,
        List.contains_iff_mem.2 hk, Bool.and_self, Bool.true_or, Bool.or_true]
    · obtain ⟨i, hi, hl, hw⟩ := hmem "x" (by simp)
      obtain ⟨j, hj, hl', hw'⟩ := hmem "sinx" (by simp)
      rw [(huniq i hl).2.2.2.2.2.1 hw] at hi
      rw [(huniq j hl').2.2.2.2.2.2 hw'] at hj
      simp only [List.contains_iff_mem.2 hi, List.contains_iff_mem.2 hj, Bool.and_self,
        Bool.true_or, Bool.or_true]
  unfold calcReward
  simp only [hdel, h1, hforb, Bool.true_or, if_true]

/-- The text of a word without the `t` of a square root's name. -/
def plain (w : String) : String := if w = "sqrt(x)" then "sqr(x)" else if w = "sqrt(u)" then "sqr(u)" else w

/-- **C83** (all words): a candidate whose words mention a variable nowhere – the `t` of `sqrt` does not count – is given reward 0, whatever the data, if it has no
Laplacian or divergence. -/
theorem C83_unmentioned_all (solve : Solver) (pen : Nat → Rat) (cases : List Case) (vars : List String) (s : List Nat) (v : Char) (hv : String.singleton v ∈ vars)
    (hno : ∀ i ∈ deleteDuplicate s, v ∉ (plain (word i)).toList)
    (hlap : ¬ "Laplace".toList <:+: (String.join ((deleteDuplicate s).map fun i => plain (word i))).toList)
    (hdiv : ¬ "Div".toList <:+: (String.join ((deleteDuplicate s).map fun i => plain (word i))).toList) :
    calcReward solve pen cases vars s = .fin 0 := by
  have htext : searchText (deleteDuplicate s) = String.join ((deleteDuplicate s).map fun i => plain (word i)) := rfl
  have hno' : v ∉ (String.join ((deleteDuplicate s).map fun i => plain (word i))).toList := by
    rw [String.toList_join]
    intro h
    obtain ⟨l, hl, hvl⟩ := List.mem_flatMap.1 h
    obtain ⟨i, hi, rfl⟩ := List.mem_map.1 hl
    exact hno i hi hvl
  have hm : mentionsAll vars (deleteDuplicate s) = false := by
    unfold mentionsAll
    simp only
    rw [List.all_eq_false]
    refine ⟨String.singleton v, hv, ?_⟩
    simp only [Bool.or_eq_true, not_or, Bool.not_eq_true]
    refine ⟨⟨?_, ?_⟩, ?_⟩
    · rw [← Bool.not_eq_true, Verif.Discover.Claims.hasSub_iff, htext]
      rintro ⟨a, b, hab⟩
      apply hno'
      rw [← hab]
      simp
    · rw [← Bool.not_eq_true, Verif.Discover.Claims.hasSub_iff, htext]
      exact hdiv
    · rw [← Bool.not_eq_true, Verif.Discover.Claims.hasSub_iff, htext]
      exact hlap
  unfold calcReward
  simp only [hm, Bool.not_false, Bool.or_true, if_true]

/-- The hypothesis of C83_unmentioned_all holds for `sqrt(u)` and the variable `t`: the root's own `t` does not count. -/
theorem C83_plain_demo : 't' ∉ (plain "sqrt(u)").toList ∧ 't' ∈ "sqrt(u)".toList ∧ 't' ∉ (plain "sqrt(x)").toList := by
  decide +kernel

/-- **C83** A candidate whose text does not mention every variable is given reward 0,
whatever the data. -/
theorem C83_unmentioned (solve : Solver) (pen : Nat → Rat) (cases : List Case)
    (vars : List String) (s : List Nat) (v : Char) (hv : String.singleton v ∈ vars)
    (hno : v ∉ (String.join ((deleteDuplicate s).map word)).toList)
    (hsq : ∀ i ∈ deleteDuplicate s, word i ≠ "sqrt(x)" ∧ word i ≠ "sqrt(u)")
    (hlap : ¬ "Laplace".toList <:+: (String.join ((deleteDuplicate s).map word)).toList)
    (hdiv : ¬ "Div".toList <:+: (String.join ((deleteDuplicate s).map word)).toList) :
    calcReward solve pen cases vars s = .fin 0 := by
  have htext : searchText (deleteDuplicate s) = String.join ((deleteDuplicate s).map word) := by
    unfold searchText
    congr 1
    refine List.map_congr_left (fun i hi => ?_)
    rw [if_neg (hsq i hi).1, if_neg (hsq i hi).2]
  have hm : mentionsAll vars (deleteDuplicate s) = false := by
    unfold mentionsAll
    simp only
    rw [List.all_eq_false]
    refine ⟨String.singleton v, hv, ?_⟩
    simp only [Bool.or_eq_true, not_or, Bool.not_eq_true]
    refine ⟨⟨?_, ?_⟩, ?_⟩
    · rw [← Bool.not_eq_true, Verif.Discover.Claims.hasSub_iff, htext]
      rintro ⟨a, b, hab⟩
      apply hno
      rw [← hab]
      simp
    · rw [← Bool.not_eq_true, Verif.Discover.Claims.hasSub_iff, htext]
      exact hdiv
    · rw [← Bool.not_eq_true, Verif.Discover.Claims.hasSub_iff, htext]
      exact hlap
  unfold calcReward
  simp only [hm, Bool.not_false, Bool.or_true, if_true]

/-! ## Concrete cases -/

/-- Three grid points on which `ut = -2 uxx`. -/
def diffusion : Case where
  n := 3
  value := fun w =>
    if w = 6 then [.fin (-2), .fin (-4), .fin (-8)]
    else if w = 9 then [.fin 1, .fin 2, .fin 4]
    else [.fin 0, .fin 0, .fin 0]

/-- The same grid, but the value of `uxx` is NaN at one point. -/
def broken : Case where
  n := 3
  value := fun w =>
    if w = 6 then [.fin (-2), .fin (-4), .fin (-8)]
    else if w = 9 then [.fin 1, .nan, .fin 4]
    else [.fin 0, .fin 0, .fin 0]

/-- A mask allowing everything. -/
def openMask : List Bool := List.replicate 57 true

theorem diffusion_clean : Clean diffusion [[6], [9]] where
  width := by intro w; unfold diffusion; simp only; split <;> [rfl; (split <;> rfl)]
  finite := by
    intro t ht i hi
    simp only [List.mem_cons, List.not_mem_nil, or_false] at ht
    have : i = 0 ∨ i = 1 ∨ i = 2 := by simp only [diffusion] at hi; omega
    rcases ht with rfl | rfl <;> rcases this with rfl | rfl | rfl <;> exact ⟨_, rfl⟩
  distinct := by
    simp only [List.pairwise_cons, List.mem_cons, List.not_mem_nil, or_false]
    refine ⟨?_, by simp, by simp⟩
    rintro t rfl
    exact ⟨0, by decide, by decide +kernel⟩
  varies := by decide +kernel

theorem diffusion_solved : LeastSquares (fun _ => some [2]) (table diffusion [[6], [9]]) := by
  refine ⟨[2], rfl, fun x' => ?_⟩
  have h0 : defect (table diffusion [[6], [9]]) [2] = 0 := by decide +kernel
  rw [h0]
  unfold defect
  apply List.sum_nonneg
  intro a ha
  obtain ⟨r, _, rfl⟩ := List.mem_map.1 ha
  exact sq_nonneg _

example :=
  C83_reward_partial (fun _ => some [2]) (fun k => if k ≤ 1 then 0 else 3/500) [diffusion]
    (by simp) ["t", "x"] openMask [[6], [9]] (by simp)
    (by
      intro t ht
      simp only [List.mem_cons, List.not_mem_nil, or_false] at ht
      rcases ht with rfl | rfl <;> exact ⟨by decide, by decide, by decide +kernel⟩)
    (by decide +kernel) (by decide +kernel) (by decide +kernel)
    (by simpa using diffusion_clean) (by simpa using diffusion_solved)

/-- A case of the data on which the candidate cannot be evaluated is left out of the mean
instead of counting as 0: the candidate scores as if that case did not exist; and when no
case can be evaluated the reward is NaN, not 0. -/
theorem C83_nan_counterexample :
    calcReward (fun _ => some [2]) (fun _ => 3/500) [diffusion, broken] ["t", "x"]
        (sentenceOf [[6], [9]])
      = calcReward (fun _ => some [2]) (fun _ => 3/500) [diffusion] ["t", "x"]
        (sentenceOf [[6], [9]]) ∧
    calcReward (fun _ => some [2]) (fun _ => 3/500) [diffusion, broken] ["t", "x"]
        (sentenceOf [[6], [9]]) = .fin (497/500) ∧
    calcReward (fun _ => some [2]) (fun _ => 3/500) [broken] ["t", "x"]
        (sentenceOf [[6], [9]]) = .nan := by
  decide +kernel

example : calcReward (fun _ => some [2]) (fun _ => 3/500) [diffusion] ["t", "x"]
    (sentenceOf [[6], [7], [29], [9]]) = .fin 0 :=
  C83_forbidden _ _ _ _ openMask [[6], [7], [29], [9]] (by simp)
    (by
      intro t ht
      simp only [List.mem_cons, List.not_mem_nil, or_false] at ht
      rcases ht with rfl | rfl | rfl | rfl <;> exact ⟨by decide, by decide, by decide +kernel⟩)
    ["u", "sin(u)"] (by simp) (by
      intro w hw
      simp only [List.mem_cons, List.not_mem_nil, or_false] at hw
      rcases hw with rfl | rfl
      · exact ⟨[7], by decide +kernel, 7, by decide, by decide +kernel⟩
      · exact ⟨[29], by decide +kernel, 29, by decide, by decide +kernel⟩)

example : (maskAfter [diffusion, broken] openMask (sentenceOf [[6], [9]]))[9]? ≠ some true :=
  C84_nan_masked [diffusion, broken] openMask [[9]] openMask
    ⟨by decide, by decide, by decide +kernel⟩
    (by
      intro t ht
      simp only [List.mem_cons, List.not_mem_nil, or_false] at ht
      subst ht
      exact ⟨by decide, by decide, by decide +kernel⟩)
    broken (by simp) 9 ⟨[9], by decide +kernel, by decide⟩ (by decide)

end Verif.Claims.EqGpt
