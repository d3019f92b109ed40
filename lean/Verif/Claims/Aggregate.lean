import Verif.Discover.Aggregate
import Verif.Claims.Select
/-!
# C161, C162: the aggregator
-/
namespace Verif.Discover.Agg.Claims
open Verif.Discover Verif.Discover.Agg

/-! ## C161 -/

theorem dropBoth_fst {T V : Type} (same : V → V → Bool) : ∀ (n i : Nat) (s out : List (DEntry T V)),
    (dropBoth same n i s out).map (·.1) = dropOuter same n i s out := by
  intro n
  induction n with
  | zero => intro i s out; rfl
  | succ n ih =>
    intro i s out
    rw [dropBoth, dropOuter]
    cases s[i]? with
    | none => rfl
    | some cur =>
      simp only
      cases dropInner same cur (s.drop (i + 1)) s false with
      | none => rfl
      | some x => simp only; exact ih _ _ _

theorem dropInner_distinct {T V : Type} (same : V → V → Bool) (cur : DEntry T V) (l s : List (DEntry T V)) (d : Bool)
    (h : ∀ c ∈ l, same c.val cur.val = false) : dropInner same cur l s d = some (s, d) := by
  induction l with
  | nil => rfl
  | cons c l ih =>
    rw [dropInner, if_neg (by rw [h c (by simp)]; simp)]
    exact ih (fun c hc => h c (by simp [hc]))

theorem dropBoth_distinct {T V : Type} (same : V → V → Bool) (s : List (DEntry T V))
    (h : s.Pairwise (fun a b => same b.val a.val = false)) :
    ∀ (n i : Nat), i + n = s.length → dropBoth same n i s (s.take i) = some (s, s) := by
  intro n
  induction n with
  | zero => intro i hi; rw [dropBoth, List.take_of_length_le (by omega)]
  | succ n ih =>
    intro i hi
    have hlt : i < s.length := by omega
    rw [dropBoth, List.getElem?_eq_getElem hlt]
    simp only
    rw [dropInner_distinct same s[i] _ s false (by
      intro c hc
      obtain ⟨j, hj, rfl⟩ := List.mem_iff_getElem.1 hc
      rw [List.getElem_drop]
      exact List.pairwise_iff_getElem.1 h i (i + 1 + j) hlt (by simp at hj; omega) (by omega))]
    simp only [Bool.false_eq_true, if_false]
    have := ih (i + 1) (by omega)
    rw [List.take_add_one, List.getElem?_eq_getElem hlt] at this
    exact this

theorem foldl_max_ge (l : List Int) (a : Int) : a ≤ l.foldl max a ∧ (∀ x ∈ l, x ≤ l.foldl max a) ∧ (l.foldl max a = a ∨ l.foldl max a ∈ l) := by
  induction l generalizing a with
  | nil => simp
  | cons x l ih =>
    obtain ⟨h1, h2, h3⟩ := ih (max a x)
    simp only [List.foldl_cons]
    refine ⟨by omega, ?_, ?_⟩
    · intro y hy
      rcases List.mem_cons.1 hy with rfl | hy
      · omega
      · exact h2 y hy
    · rcases h3 with h | h
      · rw [h]
        rcases Int.le_total a x with h' | h'
        · right; rw [Int.max_eq_right h']; simp
        · left; exact Int.max_eq_left h'
      · right; simp [h]

theorem maxR_spec {l : List Int} {m : Int} (h : maxR l = some m) : m ∈ l ∧ ∀ x ∈ l, x ≤ m := by
  cases l with
  | nil => cases h
  | cons a l =>
    simp only [maxR, Option.some.injEq] at h
    subst h
    obtain ⟨h1, h2, h3⟩ := foldl_max_ge l a
    refine ⟨?_, ?_⟩
    · rcases h3 with h | h
      · rw [h]; simp
      · simp [h]
    · intro x hx
      rcases List.mem_cons.1 hx with rfl | hx
      · exact h1
      · exact h2 x hx

theorem foldl_top (l : List Prog) (a : Prog) :
    (l.foldl (fun b q => if b.r < q.r then q else b) a) ∈ a :: l ∧ ∀ x ∈ a :: l, x.r ≤ (l.foldl (fun b q => if b.r < q.r then q else b) a).r := by
  induction l generalizing a with
  | nil => simp
  | cons x l ih =>
    simp only [List.foldl_cons]
    by_cases hx : a.r < x.r
    · rw [if_pos hx]
      obtain ⟨h1, h2⟩ := ih x
      refine ⟨List.mem_cons_of_mem _ h1, ?_⟩
      intro y hy
      rcases List.mem_cons.1 hy with rfl | hy
      · have := h2 x (by simp); omega
      · exact h2 y hy
    · rw [if_neg hx]
      obtain ⟨h1, h2⟩ := ih a
      refine ⟨?_, ?_⟩
      · rcases List.mem_cons.1 h1 with h | h
        · rw [h]; simp
        · simp [h]
      · intro y hy
        rcases List.mem_cons.1 hy with rfl | hy
        · exact h2 y (by simp)
        · rcases List.mem_cons.1 hy with rfl | hy
          · have := h2 a (by simp); omega
          · exact h2 y (by simp [hy])

theorem topOf_spec {l : List Prog} {p : Prog} (h : topOf l = some p) : p ∈ l ∧ ∀ x ∈ l, x.r ≤ p.r := by
  cases l with
  | nil => cases h
  | cons a l =>
    simp only [topOf, Option.some.injEq] at h
    subst h
    exact foldl_top l a

/-- What a successful call consists of. -/
theorem call_some {same : Int → Int → Bool} {st : State} {programs gp ps : List Prog} {res : Result}
    (h : call same st programs gp ps = some res) :
    ∃ uniq after rMax top last, dropBoth same programs.length 0 (entries programs) [] = some (uniq, after) ∧
      maxR (uniq.map (·.val)) = some rMax ∧ topOf (uniq.map (·.tok) ++ st.best.toList ++ gp) = some top ∧ ps.getLast? = some last ∧
      res.kept = ps.filter (fun p => decide (rMax < p.r)) ∧ res.state = remember st (if last.r < top.r then top else last) ∧
      res.caller = after.map (·.tok) := by
  simp only [call, Option.bind_eq_bind, Option.bind_eq_some_iff, Prod.exists] at h
  obtain ⟨uniq, after, h1, rMax, h2, top, h3, last, h4, h5⟩ := h
  injection h5 with h5
  subst h5
  exact ⟨uniq, after, rMax, top, last, h1, h2, h3, h4, rfl, rfl, rfl⟩

/-- The representatives come from the given programs with their own rewards. -/
theorem uniq_spec {same : Int → Int → Bool} {programs : List Prog} :
    ∃ uniq after, dropBoth same programs.length 0 (entries programs) [] = some (uniq, after) ∧
      (∀ e ∈ uniq, e.tok ∈ programs ∧ e.val = e.tok.r) ∧ (programs ≠ [] → uniq ≠ []) := by
  obtain ⟨res, h1, h2, _, _, h5⟩ := Verif.Claims.dropOuter_spec same (entries programs) programs.length 0 (entries programs) []
    (by simp [entries]) (fun _ h => h) (by simp) (by simp) (by simp)
  have := dropBoth_fst same programs.length 0 (entries programs) []
  rw [h1] at this
  obtain ⟨x, hx, hx1⟩ := Option.map_eq_some_iff.1 this
  refine ⟨x.1, x.2, hx, ?_, ?_⟩
  · intro e he
    rw [hx1] at he
    obtain ⟨p, hp, rfl⟩ := List.mem_map.1 (h2 e he)
    exact ⟨hp, rfl⟩
  · intro hne
    rw [hx1]
    exact h5 (Or.inl (List.length_pos_iff.2 hne))

/-- **C161** (failure): a call fails exactly if it gets no programs or has no expression of its own to offer. -/
theorem C161_fails_iff (same : Int → Int → Bool) (st : State) (programs gp ps : List Prog) :
    call same st programs gp ps = none ↔ programs = [] ∨ ps = [] := by
  obtain ⟨uniq, after, h1, h2, h3⟩ := uniq_spec (same := same) (programs := programs)
  constructor
  · intro h
    apply Classical.byContradiction
    intro hn
    obtain ⟨hp, hps⟩ : programs ≠ [] ∧ ps ≠ [] := ⟨fun h => hn (Or.inl h), fun h => hn (Or.inr h)⟩
    obtain ⟨e, es, rfl⟩ := List.exists_cons_of_ne_nil (h3 hp)
    unfold call at h
    rw [h1] at h
    obtain ⟨last, hl⟩ : ∃ l, ps.getLast? = some l := ⟨ps.getLast hps, List.getLast?_eq_some_getLast hps⟩
    simp [maxR, topOf, hl] at h
  · rintro (rfl | rfl)
    · unfold call
      have : uniq = [] := by
        cases uniq with
        | nil => rfl
        | cons e es => exact absurd (h2 e (by simp)).1 (by simp)
      rw [h1, this]; rfl
    · unfold call
      simp

/-- **C161** (the record): whatever is called, the record never falls, is at least the reward of the expression built last and of the other
candidates it is compared with, and is the reward of the program remembered. -/
theorem C161_record (same : Int → Int → Bool) (st : State) (hst : ∀ p, st.best = some p → p.r = st.bestR) (programs gp ps : List Prog) (res : Result)
    (h : call same st programs gp ps = some res) :
    st.bestR ≤ res.state.bestR ∧ (∀ p, ps.getLast? = some p → p.r ≤ res.state.bestR) ∧ (∀ p ∈ gp, p.r ≤ res.state.bestR) ∧
    (∀ p, res.state.best = some p → p.r = res.state.bestR ∧ (st.best = some p ∨ p ∈ programs ++ gp ++ ps)) := by
  obtain ⟨uniq, after, rMax, top, last, h1, h2, h3, h4, _, h6, _⟩ := call_some h
  obtain ⟨uniq', after', h1', hu, _⟩ := uniq_spec (same := same) (programs := programs)
  rw [h1] at h1'
  simp only [Option.some.injEq, Prod.mk.injEq] at h1'
  obtain ⟨rfl, rfl⟩ := h1'
  obtain ⟨t1, t2⟩ := topOf_spec h3
  obtain ⟨b, hb⟩ : ∃ b, (if last.r < top.r then top else last) = b := ⟨_, rfl⟩
  have hbt : top.r ≤ b.r ∧ last.r ≤ b.r := by subst hb; split <;> constructor <;> omega
  have hbm : st.best = some b ∨ b ∈ programs ++ gp ++ ps := by
    subst hb
    split
    · rcases List.mem_append.1 t1 with h | h
      · rcases List.mem_append.1 h with h | h
        · obtain ⟨e, he, rfl⟩ := List.mem_map.1 h
          right; simp [(hu e he).1]
        · left; simpa using h
      · right; simp [h]
    · right
      have := List.mem_of_getLast? h4
      simp [this]
  rw [hb] at h6
  rw [h6]
  unfold remember
  by_cases hlt : st.bestR < b.r
  · rw [if_pos hlt]
    refine ⟨by simp; omega, ?_, ?_, ?_⟩
    · intro p hp; rw [h4] at hp; injection hp with hp; subst hp; exact hbt.2
    · intro p hp; have := t2 p (by simp [hp]); simp; omega
    · intro p hp; injection hp with hp; subst hp; exact ⟨rfl, hbm⟩
  · rw [if_neg hlt]
    refine ⟨le_refl _, ?_, ?_, ?_⟩
    · intro p hp; rw [h4] at hp; injection hp with hp; subst hp; omega
    · intro p hp; have := t2 p (by simp [hp]); omega
    · intro p hp; exact ⟨hst p hp, Or.inl hp⟩

/-- **C161** (what is returned – partial: for programs whose rewards differ).  The programs returned are exactly those of the aggregator's own
which are better than every program submitted; the list of the caller is left as it was; and the record is at least every reward submitted.
Missing: programs with equal rewards, see the counterexamples. -/
theorem C161_better_partial (same : Int → Int → Bool) (st : State) (programs gp ps : List Prog) (res : Result)
    (hd : programs.Pairwise (fun a b => same b.r a.r = false)) (h : call same st programs gp ps = some res) :
    res.kept = ps.filter (fun p => decide (∀ q ∈ programs, q.r < p.r)) ∧ res.caller = programs ∧ ∀ q ∈ programs, q.r ≤ res.state.bestR := by
  obtain ⟨uniq, after, rMax, top, last, h1, h2, h3, h4, h5, h6, h7⟩ := call_some h
  have hdist := dropBoth_distinct same (entries programs) (by
    unfold entries
    rw [List.pairwise_map]
    exact hd) programs.length 0 (by simp [entries])
  simp only [List.take_zero] at hdist
  rw [hdist] at h1
  simp only [Option.some.injEq, Prod.mk.injEq] at h1
  obtain ⟨rfl, rfl⟩ := h1
  have hval : (entries programs).map (·.val) = programs.map (·.r) := by
    unfold entries; rw [List.map_map]; rfl
  have htok : (entries programs).map (·.tok) = programs := by
    unfold entries; rw [List.map_map]; exact List.map_id _
  rw [hval] at h2
  rw [htok] at h3 h7
  obtain ⟨m1, m2⟩ := maxR_spec h2
  obtain ⟨t1, t2⟩ := topOf_spec h3
  refine ⟨?_, h7, ?_⟩
  · rw [h5]
    apply List.filter_congr
    intro p _
    obtain ⟨q, hq, hqr⟩ := List.mem_map.1 m1
    rw [decide_eq_decide]
    constructor
    · intro hr x hx
      have := m2 x.r (List.mem_map.2 ⟨x, hx, rfl⟩)
      omega
    · intro hall
      have := hall q hq
      omega
  · intro q hq
    have := t2 q (by simp [hq])
    rw [h6]
    unfold remember
    obtain ⟨b, hb⟩ : ∃ b, (if last.r < top.r then top else last) = b := ⟨_, rfl⟩
    have hbt : top.r ≤ b.r := by subst hb; split <;> omega
    rw [hb]
    by_cases hlt : st.bestR < b.r
    · rw [if_pos hlt]; simp; omega
    · rw [if_neg hlt]; omega

/-- Three programs with different rewards, one new program better than all of them, one not. -/
example : (call (· == ·) {} [⟨0, 5, 3⟩, ⟨1, 7, 5⟩, ⟨2, 6, 5⟩] [] [⟨3, 6, 3⟩, ⟨4, 8, 3⟩]) =
    some ⟨[⟨4, 8, 3⟩], ⟨some ⟨4, 8, 3⟩, 8⟩, [⟨0, 5, 3⟩, ⟨1, 7, 5⟩, ⟨2, 6, 5⟩]⟩ := by decide +kernel

/-- **C161**, counterexample: the best program submitted (name 1, reward 95) is overwritten because it has the length of another one
(name 2) that equals a shorter one (name 0): a program with reward 92 then passes for "better than all", the record is 92, and the
caller's list no longer contains the best program. -/
theorem C161_lost_best_counterexample :
    call (· == ·) {} [⟨0, 90, 3⟩, ⟨1, 95, 5⟩, ⟨2, 90, 5⟩] [] [⟨3, 92, 4⟩] =
      some ⟨[⟨3, 92, 4⟩], ⟨some ⟨3, 92, 4⟩, 92⟩, [⟨0, 90, 3⟩, ⟨0, 90, 3⟩, ⟨0, 90, 3⟩]⟩ := by decide +kernel

/-! ## C162 -/

/-- `t'` is the term `t` with other variables in the same places: an input variable at every place of an input variable, a state variable at every place of a
state variable, and the same token elsewhere. -/
inductive SameForm : List Tok → List Tok → Prop
  | nil : SameForm [] []
  | input {t t' : Tok} {ts ts' : List Tok} : t.isInput = true → t'.isInput = true → SameForm ts ts' → SameForm (t :: ts) (t' :: ts')
  | state {t t' : Tok} {ts ts' : List Tok} : t.isInput = false → t.isState = true → t'.isInput = false → t'.isState = true → SameForm ts ts' →
      SameForm (t :: ts) (t' :: ts')
  | other {t : Tok} {ts ts' : List Tok} : t.isInput = false → t.isState = false → SameForm ts ts' → SameForm (t :: ts) (t :: ts')

/-- The input variables of a term, in order; its state variables, in order. -/
def inputsOf (t : List Tok) : List Tok := t.filter (·.isInput)
def statesOf (t : List Tok) : List Tok := t.filter (·.isState)

/-- A library: input variables and state variables without repetition, of different kinds. -/
structure LibOk (inputs states : List Tok) : Prop where
  inputs_nodup : inputs.Nodup
  states_nodup : states.Nodup
  inputs_kind : ∀ t ∈ inputs, t.isInput = true ∧ t.isState = false
  states_kind : ∀ t ∈ states, t.isState = true ∧ t.isInput = false

/-- No token of the term is both an input and a state variable. -/
def TermOk (t : List Tok) : Prop := ∀ x ∈ t, ¬ (x.isInput = true ∧ x.isState = true)

theorem mem_perms {l : List Tok} (hl : l.Nodup) (k : Nat) (p : List Tok) :
    p ∈ perms l k ↔ p.length = k ∧ p.Nodup ∧ ∀ x ∈ p, x ∈ l := by
  induction k generalizing l p with
  | zero =>
    simp only [perms, List.mem_singleton]
    constructor
    · rintro rfl; simp
    · intro h; exact List.length_eq_zero_iff.1 h.1
  | succ k ih =>
    simp only [perms, List.mem_flatMap, List.mem_map]
    constructor
    · rintro ⟨x, hx, q, hq, rfl⟩
      obtain ⟨h1, h2, h3⟩ := (ih (hl.erase x) q).1 hq
      refine ⟨by simp [h1], ?_, ?_⟩
      · rw [List.nodup_cons]
        refine ⟨fun hm => ?_, h2⟩
        have := h3 x hm
        exact (hl.mem_erase_iff.1 this).1 rfl
      · intro y hy
        rcases List.mem_cons.1 hy with rfl | hy
        · exact hx
        · exact List.mem_of_mem_erase (h3 y hy)
    · rintro ⟨h1, h2, h3⟩
      cases p with
      | nil => simp at h1
      | cons x q =>
        rw [List.nodup_cons] at h2
        refine ⟨x, h3 x (by simp), q, ?_, rfl⟩
        rw [ih (hl.erase x)]
        refine ⟨by simpa using h1, h2.2, ?_⟩
        intro y hy
        rw [hl.mem_erase_iff]
        exact ⟨fun h => h2.1 (h ▸ hy), h3 y (by simp [hy])⟩

/-- Substituting as many variables as there are places succeeds and gives a term of the same form with these variables. -/
theorem substitute_spec (t : List Tok) (ht : TermOk t) (ins sts : List Tok) (hi : ins.length = (inputsOf t).length)
    (hs : sts.length = (statesOf t).length) (ki : ∀ x ∈ ins, x.isInput = true ∧ x.isState = false) (ks : ∀ x ∈ sts, x.isState = true ∧ x.isInput = false) :
    ∃ t', substitute t ins sts = some t' ∧ SameForm t t' ∧ inputsOf t' = ins ∧ statesOf t' = sts := by
  induction t generalizing ins sts with
  | nil =>
    refine ⟨[], rfl, .nil, ?_, ?_⟩
    · simpa [inputsOf] using (List.length_eq_zero_iff.1 (by simpa [inputsOf] using hi)).symm
    · simpa [statesOf] using (List.length_eq_zero_iff.1 (by simpa [statesOf] using hs)).symm
  | cons x t ih =>
    have ht' : TermOk t := fun y hy => ht y (by simp [hy])
    have hx := ht x (by simp)
    by_cases h1 : x.isInput = true
    · have h2 : x.isState = false := by cases h : x.isState <;> simp_all
      simp only [inputsOf, List.filter_cons, h1, if_true, List.length_cons] at hi
      simp only [statesOf, List.filter_cons, h2, Bool.false_eq_true, if_false] at hs
      cases ins with
      | nil => simp at hi
      | cons i ins =>
        have hik := ki i (by simp)
        obtain ⟨t', e1, e2, e3, e4⟩ := ih ht' ins sts (by simpa [inputsOf] using hi) hs (fun y hy => ki y (by simp [hy])) ks
        refine ⟨i :: t', by simp [substitute, h1, e1], .input h1 hik.1 e2, ?_, ?_⟩
        · simp only [inputsOf] at e3; simp [inputsOf, hik.1, e3]
        · simp only [statesOf] at e4; simp [statesOf, hik.2, e4]
    · by_cases h2 : x.isState = true
      · have h1' : x.isInput = false := by simpa using h1
        simp only [inputsOf, List.filter_cons, h1', Bool.false_eq_true, if_false] at hi
        simp only [statesOf, List.filter_cons, h2, if_true, List.length_cons] at hs
        cases sts with
        | nil => simp at hs
        | cons s sts =>
          have hsk := ks s (by simp)
          obtain ⟨t', e1, e2, e3, e4⟩ := ih ht' ins sts hi (by simpa [statesOf] using hs) ki (fun y hy => ks y (by simp [hy]))
          refine ⟨s :: t', by simp [substitute, h1, h2, e1], .state h1' h2 hsk.2 hsk.1 e2, ?_, ?_⟩
          · simp only [inputsOf] at e3; simp [inputsOf, hsk.2, e3]
          · simp only [statesOf] at e4; simp [statesOf, hsk.1, e4]
      · have h1' : x.isInput = false := by simpa using h1
        have h2' : x.isState = false := by simpa using h2
        simp only [inputsOf, List.filter_cons, h1', Bool.false_eq_true, if_false] at hi
        simp only [statesOf, List.filter_cons, h2', Bool.false_eq_true, if_false] at hs
        obtain ⟨t', e1, e2, e3, e4⟩ := ih ht' ins sts hi hs ki ks
        refine ⟨x :: t', by simp [substitute, h1, h2, e1], .other h1' h2' e2, ?_, ?_⟩
        · simp only [inputsOf] at e3; simp [inputsOf, h1', e3]
        · simp only [statesOf] at e4; simp [statesOf, h2', e4]

/-- A term of the same form with the same variables is the same. -/
theorem sameForm_unique {t a : List Tok} (ha : SameForm t a) : ∀ {b : List Tok}, SameForm t b → TermOk a → TermOk b → inputsOf a = inputsOf b →
    statesOf a = statesOf b → a = b := by
  induction ha with
  | nil => intro b hb _ _ _ _; cases hb; rfl
  | @input t x ts a h1 h2 _ ih =>
    intro b hb ta tb e1 e2
    cases hb with
    | @input _ y _ b' _ g2 hb' =>
      have hxs : x.isState = false := by have := ta x (by simp); cases h : x.isState <;> simp_all
      have hys : y.isState = false := by have := tb y (by simp); cases h : y.isState <;> simp_all
      simp [inputsOf, h2, g2] at e1
      simp [statesOf, hxs, hys] at e2
      rw [e1.1, ih hb' (fun z hz => ta z (by simp [hz])) (fun z hz => tb z (by simp [hz])) (by simpa [inputsOf] using e1.2)
        (by simpa [statesOf] using e2)]
    | state g => rw [h1] at g; cases g
    | other g => rw [h1] at g; cases g
  | @state t x ts a h1 h2 h3 h4 _ ih =>
    intro b hb ta tb e1 e2
    cases hb with
    | input g => rw [h1] at g; cases g
    | @state _ y _ b' _ _ g3 g4 hb' =>
      simp [inputsOf, h3, g3] at e1
      simp [statesOf, h4, g4] at e2
      rw [e2.1, ih hb' (fun z hz => ta z (by simp [hz])) (fun z hz => tb z (by simp [hz])) (by simpa [inputsOf] using e1)
        (by simpa [statesOf] using e2.2)]
    | other _ g => rw [h2] at g; cases g
  | @other t ts a h1 h2 _ ih =>
    intro b hb ta tb e1 e2
    cases hb with
    | input g => rw [h1] at g; cases g
    | state _ g => rw [h2] at g; cases g
    | @other _ _ b' _ _ hb' =>
      simp [inputsOf, h1] at e1
      simp [statesOf, h2] at e2
      rw [ih hb' (fun z hz => ta z (by simp [hz])) (fun z hz => tb z (by simp [hz])) (by simpa [inputsOf] using e1)
        (by simpa [statesOf] using e2)]

theorem sameForm_counts {t a : List Tok} (h : SameForm t a) (ht : TermOk t) (ha : TermOk a) :
    (inputsOf a).length = (inputsOf t).length ∧ (statesOf a).length = (statesOf t).length := by
  induction h with
  | nil => exact ⟨rfl, rfl⟩
  | @input t x ts a h1 h2 _ ih =>
    obtain ⟨i1, i2⟩ := ih (fun z hz => ht z (by simp [hz])) (fun z hz => ha z (by simp [hz]))
    have hxs : x.isState = false := by have := ha x (by simp); cases h : x.isState <;> simp_all
    have hts : t.isState = false := by have := ht t (by simp); cases h : t.isState <;> simp_all
    simp only [inputsOf, statesOf] at *
    simp [h1, h2, hxs, hts, i1, i2]
  | @state t x ts a h1 h2 h3 h4 _ ih =>
    obtain ⟨i1, i2⟩ := ih (fun z hz => ht z (by simp [hz])) (fun z hz => ha z (by simp [hz]))
    simp only [inputsOf, statesOf] at *
    simp [h1, h2, h3, h4, i1, i2]
  | @other t ts a h1 h2 _ ih =>
    obtain ⟨i1, i2⟩ := ih (fun z hz => ht z (by simp [hz])) (fun z hz => ha z (by simp [hz]))
    simp only [inputsOf, statesOf] at *
    simp [h1, h2, i1, i2]

theorem mapM_id_of_some {α : Type} (l : List (Option α)) (h : ∀ x ∈ l, ∃ a, x = some a) :
    ∃ r, l.mapM id = some r ∧ ∀ a, a ∈ r ↔ some a ∈ l := by
  induction l with
  | nil => exact ⟨[], rfl, by simp⟩
  | cons x l ih =>
    obtain ⟨a, rfl⟩ := h x (by simp)
    obtain ⟨r, h1, h2⟩ := ih (fun y hy => h y (by simp [hy]))
    refine ⟨a :: r, by simp [List.mapM_cons, h1], ?_⟩
    intro b
    simp [h2]

/-- **C162**: completing a term never fails, and gives exactly the terms of the same form whose input variables are pairwise different, from the library and
not those of the term, and whose state variables are those of the term, or – if it has several – pairwise different ones from the library. -/
theorem C162_complete (inputs states : List Tok) (hL : LibOk inputs states) (t : List Tok) (ht : TermOk t) :
    ∃ cs, complete inputs states t = some cs ∧ ∀ t' : List Tok, TermOk t' → (t' ∈ cs ↔ SameForm t t' ∧ (inputsOf t').Nodup ∧
      (∀ x ∈ inputsOf t', x ∈ inputs) ∧ inputsOf t' ≠ inputsOf t ∧
      (statesOf t' = statesOf t ∨ (1 < (statesOf t).length ∧ (statesOf t').Nodup ∧ ∀ x ∈ statesOf t', x ∈ states))) := by
  have hip : ∀ ip, ip ∈ perms inputs (inputsOf t).length → ∀ x ∈ ip, x.isInput = true ∧ x.isState = false :=
    fun ip h x hx => hL.inputs_kind x (((mem_perms hL.inputs_nodup _ _).1 h).2.2 x hx)
  have hsp : ∀ sp, sp ∈ statesOf t :: statePerms states (statesOf t).length →
      sp.length = (statesOf t).length ∧ ∀ x ∈ sp, x.isState = true ∧ x.isInput = false := by
    intro sp h
    rcases List.mem_cons.1 h with rfl | h
    · refine ⟨rfl, fun x hx => ?_⟩
      obtain ⟨h1, h2⟩ := List.mem_filter.1 hx
      refine ⟨h2, ?_⟩
      have := ht x h1
      cases hh : x.isInput <;> simp_all
    · unfold statePerms at h
      by_cases h1 : 1 < (statesOf t).length
      · rw [if_pos h1] at h
        obtain ⟨a, _, b⟩ := (mem_perms hL.states_nodup _ _).1 h
        exact ⟨a, fun x hx => hL.states_kind x (b x hx)⟩
      · rw [if_neg h1] at h; cases h
  obtain ⟨L, hLdef⟩ : ∃ L, L = ((statesOf t :: statePerms states (statesOf t).length).flatMap fun sp =>
    ((perms inputs (inputsOf t).length).filter (fun ip => ip ≠ inputsOf t)).map fun ip => substitute t ip sp) := ⟨_, rfl⟩
  have hcs : complete inputs states t = L.mapM id := by rw [hLdef]; rfl
  have hmem : ∀ x ∈ L, ∃ a, x = some a := by
    intro x hx
    rw [hLdef] at hx
    obtain ⟨sp, h1, h2⟩ := List.mem_flatMap.1 hx
    obtain ⟨ip, h3, rfl⟩ := List.mem_map.1 h2
    have h3' := (List.mem_filter.1 h3).1
    obtain ⟨a, ha, _⟩ := substitute_spec t ht ip sp ((mem_perms hL.inputs_nodup _ _).1 h3').1 (hsp sp h1).1 (hip ip h3') (hsp sp h1).2
    exact ⟨a, ha⟩
  obtain ⟨r, hr1, hr2⟩ := mapM_id_of_some L hmem
  refine ⟨r, by rw [hcs]; exact hr1, ?_⟩
  intro t' ht'
  rw [hr2, hLdef]
  constructor
  · intro h
    obtain ⟨sp, h1, h2⟩ := List.mem_flatMap.1 h
    obtain ⟨ip, h3, h4⟩ := List.mem_map.1 h2
    obtain ⟨h3', h5⟩ := List.mem_filter.1 h3
    obtain ⟨p1, p2, p3⟩ := (mem_perms hL.inputs_nodup _ _).1 h3'
    obtain ⟨a, ha, hf, e1, e2⟩ := substitute_spec t ht ip sp p1 (hsp sp h1).1 (hip ip h3') (hsp sp h1).2
    rw [ha] at h4
    injection h4 with h4
    subst h4
    rw [e1, e2]
    refine ⟨hf, p2, p3, by simpa using h5, ?_⟩
    rcases List.mem_cons.1 h1 with h | h
    · exact Or.inl h
    · right
      unfold statePerms at h
      by_cases hh : 1 < (statesOf t).length
      · rw [if_pos hh] at h
        obtain ⟨_, b, c⟩ := (mem_perms hL.states_nodup _ _).1 h
        exact ⟨hh, b, c⟩
      · rw [if_neg hh] at h; cases h
  · rintro ⟨hf, h1, h2, h3, h4⟩
    obtain ⟨c1, c2⟩ := sameForm_counts hf ht ht'
    have hsp' : statesOf t' ∈ statesOf t :: statePerms states (statesOf t).length := by
      rcases h4 with h | ⟨h, h5, h6⟩
      · rw [h]; simp
      · refine List.mem_cons_of_mem _ ?_
        unfold statePerms
        rw [if_pos h, mem_perms hL.states_nodup]
        exact ⟨c2, h5, h6⟩
    have hip' : inputsOf t' ∈ perms inputs (inputsOf t).length := (mem_perms hL.inputs_nodup _ _).2 ⟨c1, h1, h2⟩
    refine List.mem_flatMap.2 ⟨statesOf t', hsp', List.mem_map.2 ⟨inputsOf t', List.mem_filter.2 ⟨hip', by simpa using h3⟩, ?_⟩⟩
    obtain ⟨a, ha, hfa, e1, e2⟩ := substitute_spec t ht (inputsOf t') (statesOf t') c1 c2 (hip _ hip') (hsp _ hsp').2
    rw [ha]
    congr 1
    have hta : TermOk a := by
      intro x hx hk
      have : x ∈ inputsOf a := List.mem_filter.2 ⟨hx, hk.1⟩
      rw [e1] at this
      have := hip _ hip' x this
      rw [this.2] at hk; exact absurd hk.2 (by simp)
    exact sameForm_unique hfa hf hta ht' e1 e2

/-- **C162** (the directions – partial: one place of an input variable).  With one place for an input variable, the term is completed in every other direction.
Missing: terms with several places, see the counterexample. -/
theorem C162_directions_partial (inputs states : List Tok) (hL : LibOk inputs states) (pre post : List Tok) (x y : Tok)
    (ht : TermOk (pre ++ x :: post)) (hx : x.isInput = true) (hpre : ∀ z ∈ pre ++ post, z.isInput = false) (hy : y ∈ inputs) (hxy : y ≠ x) :
    ∃ cs, complete inputs states (pre ++ x :: post) = some cs ∧ (pre ++ y :: post) ∈ cs := by
  obtain ⟨cs, h1, h2⟩ := C162_complete inputs states hL _ ht
  have hyk := hL.inputs_kind y hy
  have hty : TermOk (pre ++ y :: post) := by
    intro z hz hk
    rcases List.mem_append.1 hz with h | h
    · exact ht z (by simp [h]) hk
    · rcases List.mem_cons.1 h with rfl | h
      · rw [hyk.2] at hk; exact absurd hk.2 (by simp)
      · exact ht z (by simp [h]) hk
  have hxs : x.isState = false := by have := ht x (by simp); cases h : x.isState <;> simp_all
  have f1 : ∀ l : List Tok, (∀ z ∈ l, z.isInput = false) → l.filter (·.isInput) = [] := by
    intro l hl; rw [List.filter_eq_nil_iff]; intro z hz; rw [hl z hz]; simp
  have i1 : inputsOf (pre ++ y :: post) = [y] := by
    simp [inputsOf, hyk.1, f1 pre (fun z hz => hpre z (by simp [hz])), f1 post (fun z hz => hpre z (by simp [hz]))]
  have i2 : inputsOf (pre ++ x :: post) = [x] := by
    simp [inputsOf, hx, f1 pre (fun z hz => hpre z (by simp [hz])), f1 post (fun z hz => hpre z (by simp [hz]))]
  have hrefl : ∀ l : List Tok, (∀ z ∈ l, z.isInput = false) → SameForm l l := by
    intro l
    induction l with
    | nil => intro _; exact .nil
    | cons a l ih =>
      intro hl
      by_cases hs : a.isState = true
      · exact .state (hl a (by simp)) hs (hl a (by simp)) hs (ih (fun z hz => hl z (by simp [hz])))
      · exact .other (hl a (by simp)) (by simpa using hs) (ih (fun z hz => hl z (by simp [hz])))
  have hform : ∀ l : List Tok, (∀ z ∈ l, z.isInput = false) → SameForm (l ++ x :: post) (l ++ y :: post) := by
    intro l
    induction l with
    | nil => intro _; exact .input hx hyk.1 (hrefl post (fun z hz => hpre z (by simp [hz])))
    | cons a l ih =>
      intro hl
      by_cases hs : a.isState = true
      · exact .state (hl a (by simp)) hs (hl a (by simp)) hs (ih (fun z hz => hl z (by simp [hz])))
      · exact .other (hl a (by simp)) (by simpa using hs) (ih (fun z hz => hl z (by simp [hz])))
  refine ⟨cs, h1, (h2 _ hty).2 ⟨hform pre (fun z hz => hpre z (by simp [hz])), ?_, ?_, ?_, ?_⟩⟩
  · rw [i1]; simp
  · rw [i1]; simpa using hy
  · rw [i1, i2]; simpa using hxy
  · left; simp [statesOf, hxs, hyk.2]

/-- The library of a problem with two space directions: `diff`, `u1`, `x1`, `x2`. -/
def diffT : Tok := ⟨0, 2, false, false⟩
def uT : Tok := ⟨1, 0, false, true⟩
def x1T : Tok := ⟨2, 0, true, false⟩
def x2T : Tok := ⟨3, 0, true, false⟩

/-- The hypotheses hold for it. -/
example : LibOk [x1T, x2T] [uT] ∧ TermOk [diffT, uT, x1T] ∧ complete [x1T, x2T] [uT] [diffT, uT, x1T] = some [[diffT, uT, x2T]] :=
  ⟨⟨by decide, by decide, by decide, by decide⟩, by unfold TermOk; decide, by decide +kernel⟩

/-- **C162**, counterexample: `u_xx` written with two first derivatives is completed to the mixed derivatives, not to `u_yy`. -/
theorem C162_second_derivative_counterexample :
    complete [x1T, x2T] [uT] [diffT, diffT, uT, x1T, x1T] =
      some [[diffT, diffT, uT, x1T, x2T], [diffT, diffT, uT, x2T, x1T]] := by decide +kernel

/-- **C162**, counterexample: the third derivative in two dimensions is not completed at all. -/
theorem C162_third_derivative_counterexample :
    complete [x1T, x2T] [uT] [diffT, diffT, diffT, uT, x1T, x1T, x1T] = some [] := by decide +kernel

/-- **C162** (the supplement): nothing is lost; everything added is a completion of a given term; and if the completions of all the terms are at most
ten, all of them are added. -/
theorem C162_supplement (inputs states : List Tok) (terms res : List (List Tok)) (h : spatialComplete inputs states terms = some res) :
    ∃ new, res = terms ++ new ∧ ∀ t' ∈ new, ∃ t ∈ terms, includesInput t = true ∧ ∃ cs, complete inputs states t = some cs ∧ t' ∈ cs := by
  unfold spatialComplete at h
  by_cases h1 : inputs.length = 1
  · rw [if_pos h1] at h; injection h with h; subst h; exact ⟨[], by simp, by simp⟩
  rw [if_neg h1] at h
  obtain ⟨new, hn, rfl⟩ := Option.map_eq_some_iff.1 h
  refine ⟨new, rfl, ?_⟩
  suffices H : ∀ (rest acc new : List (List Tok)), supplement inputs states rest acc = some new →
      (∀ t ∈ rest, t ∈ terms) → (∀ t' ∈ acc, ∃ t ∈ terms, includesInput t = true ∧ ∃ cs, complete inputs states t = some cs ∧ t' ∈ cs) →
      ∀ t' ∈ new, ∃ t ∈ terms, includesInput t = true ∧ ∃ cs, complete inputs states t = some cs ∧ t' ∈ cs from
    H terms [] new hn (fun t h => h) (by simp)
  intro rest
  induction rest with
  | nil => intro acc new h _ ha; rw [supplement] at h; injection h with h; subst h; exact ha
  | cons t rest ih =>
    intro acc new h hr ha
    rw [supplement] at h
    by_cases hi : includesInput t = true
    · rw [if_pos hi] at h
      simp only [Option.bind_eq_bind, Option.bind_eq_some_iff] at h
      obtain ⟨c, hc, h⟩ := h
      have ha' : ∀ t' ∈ acc ++ c, ∃ t ∈ terms, includesInput t = true ∧ ∃ cs, complete inputs states t = some cs ∧ t' ∈ cs := by
        intro t' ht'
        rcases List.mem_append.1 ht' with h | h
        · exact ha t' h
        · exact ⟨t, hr t (by simp), hi, c, hc, h⟩
      by_cases hl : 10 < (acc ++ c).length
      · rw [if_pos hl] at h; injection h with h; subst h; exact ha'
      · rw [if_neg hl] at h; exact ih _ _ h (fun t ht => hr t (by simp [ht])) ha'
    · rw [if_neg hi] at h; exact ih _ _ h (fun t ht => hr t (by simp [ht])) ha

/-- **C162** (all of them, while they are at most ten). -/
theorem C162_supplement_all (inputs states : List Tok) (terms res : List (List Tok)) (h : spatialComplete inputs states terms = some res)
    (h1 : inputs.length ≠ 1) (hlen : res.length ≤ terms.length + 10) (t : List Tok) (ht : t ∈ terms) (hi : includesInput t = true) :
    ∃ cs, complete inputs states t = some cs ∧ ∀ t' ∈ cs, t' ∈ res := by
  unfold spatialComplete at h
  rw [if_neg h1] at h
  obtain ⟨new, hn, rfl⟩ := Option.map_eq_some_iff.1 h
  have hl : new.length ≤ 10 := by simp at hlen; omega
  suffices H : ∀ (rest acc : List (List Tok)), supplement inputs states rest acc = some new → (∀ t' ∈ acc, t' ∈ new) ∧
      ∀ t ∈ rest, includesInput t = true → ∃ cs, complete inputs states t = some cs ∧ ∀ t' ∈ cs, t' ∈ new by
    obtain ⟨cs, h2, h3⟩ := (H terms [] hn).2 t ht hi
    exact ⟨cs, h2, fun t' h => by simp [h3 t' h]⟩
  intro rest
  induction rest with
  | nil => intro acc h; rw [supplement] at h; injection h with h; subst h; exact ⟨fun _ h => h, by simp⟩
  | cons t rest ih =>
    intro acc h
    rw [supplement] at h
    by_cases hi : includesInput t = true
    · rw [if_pos hi] at h
      simp only [Option.bind_eq_bind, Option.bind_eq_some_iff] at h
      obtain ⟨c, hc, h⟩ := h
      by_cases hl' : 10 < (acc ++ c).length
      · rw [if_pos hl'] at h; injection h with h; subst h; omega
      · rw [if_neg hl'] at h
        obtain ⟨i1, i2⟩ := ih _ h
        refine ⟨fun t' h => i1 t' (by simp [h]), ?_⟩
        intro s hs hsi
        rcases List.mem_cons.1 hs with rfl | hs
        · exact ⟨c, hc, fun t' h => i1 t' (by simp [h])⟩
        · exact i2 s hs hsi
    · rw [if_neg hi] at h
      obtain ⟨i1, i2⟩ := ih _ h
      refine ⟨i1, ?_⟩
      intro s hs hsi
      rcases List.mem_cons.1 hs with rfl | hs
      · exact absurd hsi hi
      · exact i2 s hs hsi

/-- A case: two terms in two dimensions. -/
example : spatialComplete [x1T, x2T] [uT] [[uT], [diffT, uT, x1T]] = some [[uT], [diffT, uT, x1T], [diffT, uT, x2T]] := by decide +kernel

end Verif.Discover.Agg.Claims
