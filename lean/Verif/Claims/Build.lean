import Verif.Discover.Build
import Mathlib.Data.List.Nodup
import Mathlib.Algebra.Order.Field.Rat
import Mathlib.Algebra.Order.Field.Basic
import Mathlib.Algebra.Order.AbsoluteValue.Basic
import Mathlib.Tactic.Ring
import Mathlib.Tactic.Linarith
/-!
# C108–C111: the token library

## Specification
-/
namespace Verif.Discover.Build.Claims
open Verif.Discover Verif.Discover.Build

/-- A registered operator. -/
def Registered (o : String) : Prop := ∃ t, (o, t) ∈ functionMap

/-- What an entry `o` of the function set stands for. -/
inductive Means (num : String → Option String) (prot : Bool) (o : String) (t : FTok) : Prop
  /-- the registered operator of that name -/
  | plain (h : (o, t) ∈ functionMap) (hp : prot = false ∨ ¬ Registered ("protected_" ++ o))
  /-- its protected version, if protection is asked for and there is one -/
  | guarded (h : ("protected_" ++ o, t) ∈ functionMap) (hr : Registered o) (hp : prot = true)
  /-- a number: a constant shown as numpy shows it -/
  | number (s : String) (h : ¬ Registered o) (hn : num o = some s) (ht : t = ⟨{ name := s, arity := 0 }, some ("value " ++ o)⟩)
  /-- a constant to be optimised -/
  | const (h : o = "const") (hn : num o = none) (ht : t = ⟨{ name := "const", arity := 0 }, some "placeholder"⟩)

/-- An entry of the function set that means something. -/
def Known (num : String → Option String) (o : String) : Prop := Registered o ∨ (num o).isSome ∨ o = "const"

/-- The name asked for as name of parameter `i`: the given one, or p1, p2, … -/
def Asked (names : Option (List String)) (i : Nat) (n : String) : Prop :=
  (∃ l, names = some l ∧ l[i]? = some n) ∨ ((∀ l, names = some l → l[i]? = none) ∧ n = "p" ++ toString (i + 1))

/-- A name that is taken: x1 … , u1 … , an operator, or "const". -/
def Taken (nIn ns : Nat) (n : String) : Prop :=
  (∃ i < nIn, n = "x" ++ toString (i + 1)) ∨ (∃ i < ns, n = "u" ++ toString (i + 1)) ∨ Registered n ∨ n = "const"

/-! ## The tables -/

theorem keys_nodup : (functionMap.map (·.1)).Nodup := by decide +kernel

theorem table_ok : ∀ e ∈ functionMap,
    (e.1.toList.head? ≠ some 'x' ∧ e.1.toList.head? ≠ some 'u' ∧ e.1 ≠ "const" ∧ ',' ∉ e.1.toList) ∧
    (e.2.tok.arity = 1 ∨ e.2.tok.arity = 2) ∧ e.2.tok.inputVar = none ∧ e.2.tok.stateVar = none ∧ e.2.tok.paramVar = none ∧
    e.2.fn ≠ none ∧ (starts "protected_" e.1 = false → e.2.tok.name = e.1) ∧
    (starts "protected_" e.1 = true → functionMap.lookup ("protected_" ++ e.1) = none) ∧
    (∀ t', functionMap.lookup ("protected_" ++ e.1) = some t' → t'.tok = e.2.tok) := by
  have h : (functionMap.all fun e =>
      decide (e.1.toList.head? ≠ some 'x' ∧ e.1.toList.head? ≠ some 'u' ∧ e.1 ≠ "const" ∧ ',' ∉ e.1.toList) &&
      decide (e.2.tok.arity = 1 ∨ e.2.tok.arity = 2) && decide (e.2.tok.inputVar = none ∧ e.2.tok.stateVar = none ∧ e.2.tok.paramVar = none ∧
        e.2.fn ≠ none) && decide (starts "protected_" e.1 = false → e.2.tok.name = e.1) &&
      decide (starts "protected_" e.1 = true → functionMap.lookup ("protected_" ++ e.1) = none) &&
      (match functionMap.lookup ("protected_" ++ e.1) with | none => true | some t' => decide (t'.tok = e.2.tok))) = true := by
    decide +kernel
  intro e he
  have := List.all_eq_true.1 h e he
  simp only [Bool.and_eq_true, decide_eq_true_eq] at this
  obtain ⟨⟨⟨⟨⟨h1, h2⟩, h3, h4, h5, h6⟩, h7⟩, h8⟩, h9⟩ := this
  refine ⟨h1, h2, h3, h4, h5, h6, h7, h8, ?_⟩
  intro t' ht
  rw [ht] at h9
  simpa using h9

theorem lookup_iff {l : List (String × FTok)} (hn : (l.map (·.1)).Nodup) (k : String) (t : FTok) : l.lookup k = some t ↔ (k, t) ∈ l := by
  induction l with
  | nil => simp
  | cons p r ih =>
    obtain ⟨a, b⟩ := p
    simp only [List.map_cons, List.nodup_cons] at hn
    rw [List.lookup]
    by_cases h : k = a
    · subst h
      simp only [beq_self_eq_true, Option.some.injEq, List.mem_cons, Prod.mk.injEq, true_and]
      constructor
      · exact fun h => Or.inl h.symm
      · rintro (h | h)
        · exact h.symm
        · exact absurd (List.mem_map.2 ⟨_, h, rfl⟩) hn.1
    · have : (k == a) = false := by simpa using h
      rw [this, ih hn.2]
      simp [h]

theorem map_iff (k : String) (t : FTok) : functionMap.lookup k = some t ↔ (k, t) ∈ functionMap := lookup_iff keys_nodup k t

theorem registered_iff (o : String) : (functionMap.lookup o).isSome = true ↔ Registered o := by
  rw [Option.isSome_iff_exists]
  constructor
  · rintro ⟨t, h⟩; exact ⟨t, (map_iff _ _).1 h⟩
  · rintro ⟨t, h⟩; exact ⟨t, (map_iff _ _).2 h⟩

theorem asked_paramName (names : Option (List String)) (i : Nat) : Asked names i (paramName names i) := by
  unfold paramName
  cases names with
  | none => exact Or.inr ⟨(fun l h => nomatch h), rfl⟩
  | some l =>
    simp only [Option.getD_some]
    cases h : l[i]? with
    | none => exact Or.inr ⟨fun l' h' => by cases h'; exact h, by simp [numbered]⟩
    | some n => exact Or.inl ⟨l, rfl, by simpa using h⟩

theorem asked_unique {names : Option (List String)} {i : Nat} {n : String} (h : Asked names i n) : n = paramName names i := by
  rcases h with ⟨l, rfl, h⟩ | ⟨h, rfl⟩
  · simp [paramName, h]
  · cases names with
    | none => simp [paramName, numbered]
    | some l => simp [paramName, h l rfl, numbered]

theorem taken_iff (nIn nState : Nat) (pde : Bool) (n : String) :
    reserved (variables_ nIn nState pde) n = true ↔ Taken nIn (if pde then nState else 0) n := by
  unfold reserved Taken
  simp only [Bool.or_eq_true, registered_iff, beq_iff_eq, List.contains_iff_mem, List.mem_map, variables_, List.mem_append]
  constructor
  · rintro ((⟨t, (⟨i, hi, rfl⟩ | ht), rfl⟩ | h) | h)
    · exact Or.inl ⟨i, List.mem_range.1 hi, rfl⟩
    · cases pde with
      | false => simp at ht
      | true =>
        simp only [if_true, List.mem_map] at ht
        obtain ⟨i, hi, rfl⟩ := ht
        exact Or.inr (Or.inl ⟨i, by simpa using hi, rfl⟩)
    · exact Or.inr (Or.inr (Or.inl h))
    · exact Or.inr (Or.inr (Or.inr h))
  · rintro (⟨i, hi, rfl⟩ | ⟨i, hi, rfl⟩ | h | h)
    · exact Or.inl (Or.inl ⟨_, Or.inl ⟨i, List.mem_range.2 hi, rfl⟩, rfl⟩)
    · cases pde with
      | false => simp at hi
      | true =>
        simp only [if_true] at hi
        refine Or.inl (Or.inl ⟨⟨{ name := numbered "u" i, arity := 0, stateVar := some i }, none⟩, Or.inr ?_, rfl⟩)
        simp only [if_true, List.mem_map]
        exact ⟨i, List.mem_range.2 hi, rfl⟩
    · exact Or.inl (Or.inr h)
    · exact Or.inr h

theorem params_spec (vars : List FTok) (names : Option (List String)) (l : List Nat) :
    ((∀ i ∈ l, reserved vars (paramName names i) = false) →
      params vars names l = .ok (l.map fun i => ⟨{ name := paramName names i, arity := 0, paramVar := some i }, none⟩)) ∧
    ((∃ i ∈ l, reserved vars (paramName names i) = true) → params vars names l = .error .value) := by
  induction l with
  | nil => exact ⟨fun _ => rfl, fun ⟨i, h, _⟩ => nomatch h⟩
  | cons a r ih =>
    constructor
    · intro h
      unfold params
      rw [if_neg (by rw [h a (by simp)]; simp), ih.1 fun i hi => h i (by simp [hi])]
      rfl
    · rintro ⟨i, hi, h⟩
      unfold params
      by_cases ha : reserved vars (paramName names a) = true
      · rw [if_pos ha]
      · rw [if_neg ha]
        have : i ∈ r := by
          rcases List.mem_cons.1 hi with rfl | h'
          · exact absurd h ha
          · exact h'
        rw [ih.2 ⟨i, this, h⟩]

theorem opToken_ok (num : String → Option String) (prot : Bool) (o : String) (h : Known num o) :
    ∃ t, opToken num prot o = .ok t ∧ Means num prot o t := by
  unfold opToken
  by_cases hr : (functionMap.lookup o).isSome = true
  · rw [if_pos hr]
    have hreg := (registered_iff o).1 hr
    unfold resolve
    by_cases hc : (prot && !(starts "protected_" o) && (functionMap.lookup ("protected_" ++ o)).isSome) = true
    · rw [if_pos hc]
      simp only [Bool.and_eq_true] at hc
      obtain ⟨t, ht⟩ := (registered_iff _).1 hc.2
      rw [(map_iff _ _).2 ht]
      exact ⟨t, rfl, .guarded ht hreg hc.1.1⟩
    · rw [if_neg hc]
      obtain ⟨t, ht⟩ := hreg
      rw [(map_iff _ _).2 ht]
      refine ⟨t, rfl, .plain ht ?_⟩
      cases prot with
      | false => exact Or.inl rfl
      | true =>
        right
        intro hr2
        have h2 := (registered_iff _).2 hr2
        simp only [Bool.true_and, Bool.and_eq_true, h2, and_true, Bool.not_eq_true', Bool.not_eq_false] at hc
        have := (table_ok _ ht).2.2.2.2.2.2.2.1 hc
        rw [this] at h2
        simp at h2
  · rw [if_neg hr]
    have hnr : ¬ Registered o := fun h => hr ((registered_iff o).2 h)
    cases hn : num o with
    | some s => exact ⟨_, rfl, .number s hnr hn rfl⟩
    | none =>
      rcases h with h | h | h
      · exact absurd h hnr
      · rw [hn] at h; simp at h
      · simp only [if_pos h]
        exact ⟨_, rfl, .const h hn rfl⟩

theorem opToken_error (num : String → Option String) (prot : Bool) (o : String) (h : ¬ Known num o) : opToken num prot o = .error .value := by
  unfold opToken
  have h1 : ¬ Registered o := fun h' => h (Or.inl h')
  rw [if_neg (fun h' => h1 ((registered_iff o).1 h'))]
  have h2 : num o = none := by
    cases hn : num o with
    | none => rfl
    | some s => exact absurd (Or.inr (Or.inl (by rw [hn]; rfl))) h
  rw [h2]
  simp only
  rw [if_neg fun h' => h (Or.inr (Or.inr h'))]

theorem opTokens_spec (num : String → Option String) (prot : Bool) (fs : List String) :
    ((∀ o ∈ fs, Known num o) → ∃ ts, opTokens num prot fs = .ok ts ∧ ts.length = fs.length ∧
      ∀ (k : Nat) o, fs[k]? = some o → ∃ t, ts[k]? = some t ∧ Means num prot o t) ∧
    ((∃ o ∈ fs, ¬ Known num o) → opTokens num prot fs = .error .value) := by
  induction fs with
  | nil => exact ⟨fun _ => ⟨[], rfl, rfl, fun k o h => by simp at h⟩, fun ⟨o, h, _⟩ => nomatch h⟩
  | cons a r ih =>
    constructor
    · intro h
      obtain ⟨t, ht, hm⟩ := opToken_ok num prot a (h a (by simp))
      obtain ⟨ts, hts, hl, hk⟩ := ih.1 fun o ho => h o (by simp [ho])
      refine ⟨t :: ts, ?_, by simp [hl], ?_⟩
      · simp only [opTokens, ht, hts]
      · intro k o hko
        cases k with
        | zero => simp at hko; subst hko; exact ⟨t, rfl, hm⟩
        | succ k => simpa using hk k o (by simpa using hko)
    · rintro ⟨o, ho, hn⟩
      unfold opTokens
      by_cases ha : Known num a
      · obtain ⟨t, ht, _⟩ := opToken_ok num prot a ha
        have : o ∈ r := by
          rcases List.mem_cons.1 ho with rfl | h'
          · exact absurd ha hn
          · exact h'
        rw [ht]
        simp only [ih.2 ⟨o, this, hn⟩]
      · rw [opToken_error num prot a ha]

/-! ## C108: the library is what was asked for -/

/-- **C108** (contents): the library starts with x1, x2, … , then (PDE tasks) u1, u2, … , then the parameters under the names asked for, then
one token per entry of the function set in its order. -/
theorem C108_layout (num : String → Option String) (nIn : Nat) (fs : List String) (prot : Bool) (nState : Nat) (pde : Bool) (nParam : Nat)
    (names : Option (List String)) (ts : List FTok) (h : createTokens num nIn fs prot nState pde nParam names = .ok ts) :
    let ns := if pde then nState else 0
    ts.length = nIn + ns + nParam + fs.length ∧
    (∀ i < nIn, ts[i]? = some ⟨{ name := "x" ++ toString (i + 1), arity := 0, inputVar := some i }, none⟩) ∧
    (∀ i < ns, ts[nIn + i]? = some ⟨{ name := "u" ++ toString (i + 1), arity := 0, stateVar := some i }, none⟩) ∧
    (∀ i < nParam, ∃ n, Asked names i n ∧ ts[nIn + ns + i]? = some ⟨{ name := n, arity := 0, paramVar := some i }, none⟩) ∧
    ∀ (k : Nat) o, fs[k]? = some o → ∃ t, ts[nIn + ns + nParam + k]? = some t ∧ Means num prot o t := by
  intro ns
  unfold createTokens at h
  simp only at h
  have hvl : (variables_ nIn nState pde).length = nIn + ns := by
    cases pde <;> simp [variables_, ns]
  cases hp : params (variables_ nIn nState pde) names (List.range nParam) with
  | error e => simp [hp] at h
  | ok ps =>
    simp only [hp] at h
    cases ho : opTokens num prot fs with
    | error e => simp [ho] at h
    | ok os =>
      simp only [ho, Except.ok.injEq] at h
      subst h
      have hnr : ∀ i ∈ List.range nParam, reserved (variables_ nIn nState pde) (paramName names i) = false := by
        intro i hi
        by_contra hne
        have := (params_spec (variables_ nIn nState pde) names (List.range nParam)).2 ⟨i, hi, by simpa using hne⟩
        rw [this] at hp
        cases hp
      have hps := (params_spec (variables_ nIn nState pde) names (List.range nParam)).1 hnr
      rw [hps] at hp
      cases hp
      have hk : ∀ o ∈ fs, Known num o := by
        intro o hof
        by_contra hne
        rw [(opTokens_spec num prot fs).2 ⟨o, hof, hne⟩] at ho
        cases ho
      obtain ⟨ts', hts, hl, hmeans⟩ := (opTokens_spec num prot fs).1 hk
      rw [hts] at ho
      cases ho
      refine ⟨by simp [hvl, hl]; omega, ?_, ?_, ?_, ?_⟩
      · intro i hi
        rw [List.append_assoc, List.getElem?_append_left (by omega)]
        unfold variables_
        rw [List.getElem?_append_left (by simpa using hi)]
        simp [hi, numbered]
      · intro i hi
        rw [List.append_assoc, List.getElem?_append_left (by omega)]
        unfold variables_
        rw [List.getElem?_append_right (by simp)]
        cases pde with
        | false => simp [ns] at hi
        | true => simp only [ns, if_true] at hi; simp [hi, numbered]
      · intro i hi
        refine ⟨paramName names i, asked_paramName names i, ?_⟩
        rw [List.append_assoc, List.getElem?_append_right (by omega), List.getElem?_append_left (by simp; omega)]
        have : nIn + ns + i - (variables_ nIn nState pde).length = i := by omega
        rw [this]
        simp [hi]
      · intro k o hko
        obtain ⟨t, ht, hm⟩ := hmeans k o hko
        refine ⟨t, ?_, hm⟩
        rw [List.getElem?_append_right (by simp [hvl])]
        have : nIn + ns + nParam + k - (variables_ nIn nState pde ++
          (List.range nParam).map fun i => (⟨{ name := paramName names i, arity := 0, paramVar := some i }, none⟩ : FTok)).length = k := by
          simp [hvl]
        rw [this]; exact ht

/-- The operators a user can name: the function behind the name and the number of operands of a term built with it. -/
def operatorTable : List (String × String × Nat) :=
  [("add", "np.add", 2), ("sub", "np.subtract", 2), ("mul", "np.multiply", 2), ("div", "np.divide", 2), ("sin", "np.sin", 1), ("cos", "np.cos", 1),
   ("tan", "np.tan", 1), ("exp", "np.exp", 1), ("log", "np.log", 1), ("sqrt", "np.sqrt", 1), ("n2", "np.square", 1), ("neg", "np.negative", 1),
   ("abs", "np.abs", 1), ("tanh", "np.tanh", 1), ("inv", "np.reciprocal", 1), ("logabs", "logabs", 1), ("expneg", "expneg", 1), ("n3", "n3", 1),
   ("n4", "n4", 1), ("n5", "n5", 1), ("sigmoid", "sigmoid", 1), ("harmonic", "harmonic", 1),
   ("diff", "Diff", 2), ("diff2", "Diff2", 2), ("diff3", "Diff3", 2), ("diff4", "Diff4", 2), ("lap", "Laplace", 1), ("Diff", "Diff_2", 2),
   ("Diff2", "Diff2_2", 2), ("Diff_3", "Diff_3", 2), ("Diff2_3", "Diff2_3", 2), ("lap_3", "Laplace_3", 1), ("diff_t", "torch_diff 1", 2),
   ("diff2_t", "torch_diff 2", 2), ("diff3_t", "torch_diff 3", 2), ("diff4_t", "torch_diff 4", 2), ("lap_t", "Laplacian_t", 1), ("add_t", "torch.add", 2),
   ("sub_t", "torch.subtract", 2), ("mul_t", "torch.multiply", 2), ("div_t", "protected_div_torch", 2), ("n2_t", "protected_n2_torch", 1),
   ("n3_t", "protected_n3_torch", 1), ("ddx", "ddx", 1), ("ddy", "ddy", 1), ("laplacian", "laplacian", 1), ("adv", "adv", 1), ("ddx_t", "ddx_t", 1),
   ("ddy_t", "ddy_t", 1), ("laplacian_t", "laplacian_t", 1), ("adv_t", "adv_t", 1)]

/-- **C108** (operators): without protection, an entry of the function set that names an operator of the table becomes the token of that name, computed by
the function of the table and taking that number of operands; and the table has all the names there are, except `max` and `min`
(`C108_max_counterexample`) and the names of protected versions. -/
theorem C108_operators (num : String → Option String) (nIn : Nat) (fs : List String) (nState : Nat) (pde : Bool) (nParam : Nat)
    (names : Option (List String)) (ts : List FTok) (h : createTokens num nIn fs false nState pde nParam names = .ok ts) :
    (∀ (k : Nat) (o f : String) (n : Nat), fs[k]? = some o → (o, f, n) ∈ operatorTable →
      ∃ t, ts[nIn + (if pde then nState else 0) + nParam + k]? = some t ∧ t.tok.name = o ∧ t.fn = some f ∧ t.tok.arity = n) ∧
    ∀ o, Registered o → (∃ f n, (o, f, n) ∈ operatorTable) ∨ o = "max" ∨ o = "min" ∨ "protected_".toList <+: o.toList := by
  constructor
  · intro k o f n ho hf
    obtain ⟨_, _, _, _, hl⟩ := C108_layout _ _ _ _ _ _ _ _ ts h
    obtain ⟨t, ht, hm⟩ := hl k o ho
    refine ⟨t, ht, ?_⟩
    have tbl : ∀ e ∈ operatorTable,
        (functionMap.lookup e.1).map (fun t => (t.tok.name, t.fn, t.tok.arity)) = some (e.1, some e.2.1, e.2.2) := by decide +kernel
    have h2 := tbl _ hf
    have hreg : Registered o := (registered_iff o).1 (by
      cases hx : functionMap.lookup o with
      | none => simp only at h2; rw [hx] at h2; cases h2
      | some _ => rfl)
    cases hm with
    | plain hp _ =>
      simp only at h2
      rw [(map_iff _ _).2 hp] at h2
      simpa using h2
    | guarded _ _ hp => cases hp
    | number _ hn _ _ => exact absurd hreg hn
    | const hc _ _ =>
      subst hc
      exact absurd ((registered_iff _).2 hreg) (by decide +kernel)
  · rintro o ⟨t, ht⟩
    have tbl : (functionMap.all fun e => operatorTable.any (fun r => r.1 == e.1) || e.1 == "max" || e.1 == "min" || starts "protected_" e.1) = true := by
      decide +kernel
    have := List.all_eq_true.1 tbl _ ht
    simp only [Bool.or_eq_true, List.any_eq_true, beq_iff_eq] at this
    rcases this with ((⟨r, hr, he⟩ | h1) | h1) | h1
    · exact .inl ⟨r.2.1, r.2.2, by rw [← he]; exact hr⟩
    · exact .inr (.inl h1)
    · exact .inr (.inr (.inl h1))
    · exact .inr (.inr (.inr (List.isPrefixOf_iff_prefix.1 h1)))

/-- **C108, counterexample** `max` and `min` are registered with one operand, but numpy's functions need two: every term built with them fails. -/
theorem C108_max_counterexample (prot : Bool) :
    createTokens (fun _ => none) 0 ["max", "min"] prot 0 false 0 none =
      .ok [⟨{ name := "max", arity := 1 }, some "np.maximum"⟩, ⟨{ name := "min", arity := 1 }, some "np.minimum"⟩] := by
  cases prot <;> decide +kernel

/-- **C108** (refusals): it is built exactly if every entry of the function set is an operator, a number or "const" and no parameter
asks for a name that is taken; otherwise there is a ValueError. -/
theorem C108_refused (num : String → Option String) (nIn : Nat) (fs : List String) (prot : Bool) (nState : Nat) (pde : Bool) (nParam : Nat)
    (names : Option (List String)) :
    ((∃ ts, createTokens num nIn fs prot nState pde nParam names = .ok ts) ↔
      (∀ o ∈ fs, Known num o) ∧ ∀ i < nParam, ∀ n, Asked names i n → ¬ Taken nIn (if pde then nState else 0) n) ∧
    ((∃ ts, createTokens num nIn fs prot nState pde nParam names = .ok ts) ∨
      createTokens num nIn fs prot nState pde nParam names = .error .value) := by
  unfold createTokens
  simp only
  by_cases h1 : ∃ i ∈ List.range nParam, reserved (variables_ nIn nState pde) (paramName names i) = true
  · rw [(params_spec _ names _).2 h1]
    simp only [reduceCtorEq, exists_false, false_iff, or_true, and_true, not_and]
    intro _ hall
    obtain ⟨i, hi, hr⟩ := h1
    exact hall i (List.mem_range.1 hi) _ (asked_paramName names i) ((taken_iff _ _ _ _).1 hr)
  · have h1' : ∀ i ∈ List.range nParam, reserved (variables_ nIn nState pde) (paramName names i) = false := by
      intro i hi
      by_contra hne
      exact h1 ⟨i, hi, by simpa using hne⟩
    rw [(params_spec _ names _).1 h1']
    simp only
    by_cases h2 : ∀ o ∈ fs, Known num o
    · obtain ⟨ts, hts, _, _⟩ := (opTokens_spec num prot fs).1 h2
      rw [hts]
      simp only [Except.ok.injEq, exists_eq', true_iff, true_or, and_true]
      refine ⟨h2, fun i hi n hn ht => ?_⟩
      rw [asked_unique hn] at ht
      have := (taken_iff _ _ _ _).2 ht
      rw [h1' i (List.mem_range.2 hi)] at this
      cases this
    · have h2' : ∃ o ∈ fs, ¬ Known num o := by
        by_contra hne
        exact h2 fun o ho => by by_contra h; exact hne ⟨o, ho, h⟩
      rw [(opTokens_spec num prot fs).2 h2']
      simp only [reduceCtorEq, exists_false, false_iff, or_true, and_true, not_and]
      exact fun h => absurd h h2

/-- **C108** (well-formed): every library built this way has variables and constants without operands and operators with one or two – what
the search relies on. -/
theorem C108_valid (num : String → Option String) (nIn : Nat) (fs : List String) (prot : Bool) (nState : Nat) (pde : Bool) (nParam : Nat)
    (names : Option (List String)) (ts : List FTok) (h : createTokens num nIn fs prot nState pde nParam names = .ok ts) :
    (lib ts).Valid ∧ (∀ t ∈ ts, t.tok.arity ≤ 2) ∧ (lib ts).stateTokens = (List.range (if pde then nState else 0)).map (nIn + ·) := by
  obtain ⟨hl, hx, hu, hp, ho⟩ := C108_layout num nIn fs prot nState pde nParam names ts h
  have key : ∀ (i : Nat) t, ts[i]? = some t → t.tok.Valid ∧ t.tok.arity ≤ 2 ∧
      (t.tok.stateVar.isSome = true ↔ nIn ≤ i ∧ i < nIn + if pde then nState else 0) := by
    intro i t ht
    have hi : i < ts.length := (List.getElem?_eq_some_iff.1 ht).1
    generalize hns : (if pde then nState else 0) = ns at *
    by_cases h1 : i < nIn
    · rw [hx i h1] at ht
      cases ht
      exact ⟨fun _ => rfl, by simp, by simp; omega⟩
    · by_cases h2 : i < nIn + ns
      · have := hu (i - nIn) (by omega)
        rw [show nIn + (i - nIn) = i by omega, ht] at this
        cases this
        exact ⟨fun _ => rfl, by simp, by simp; omega⟩
      · by_cases h3 : i < nIn + ns + nParam
        · obtain ⟨n, _, this⟩ := hp (i - (nIn + ns)) (by omega)
          rw [show nIn + ns + (i - (nIn + ns)) = i by omega, ht] at this
          cases this
          exact ⟨fun _ => rfl, by simp, by simp; omega⟩
        · have hk : i - (nIn + ns + nParam) < fs.length := by omega
          obtain ⟨t', ht', hm⟩ := ho (i - (nIn + ns + nParam)) _ (List.getElem?_eq_getElem hk)
          rw [show nIn + ns + nParam + (i - (nIn + ns + nParam)) = i by omega, ht] at ht'
          cases ht'
          have hop : ∀ k, (k, t) ∈ functionMap → t.tok.Valid ∧ t.tok.arity ≤ 2 ∧ t.tok.stateVar = none := by
            intro k hkm
            obtain ⟨_, h2, h3, h4, h5, _⟩ := table_ok _ hkm
            simp only at h2 h3 h4 h5
            refine ⟨?_, by omega, h4⟩
            intro h
            simp [h3, h4, h5] at h
          have hfin : t.tok.stateVar = none → (t.tok.stateVar.isSome = true ↔ nIn ≤ i ∧ i < nIn + ns) := by
            intro h; simp [h]; omega
          cases hm with
          | plain h _ => obtain ⟨a, b, c⟩ := hop _ h; exact ⟨a, b, hfin c⟩
          | guarded h _ _ => obtain ⟨a, b, c⟩ := hop _ h; exact ⟨a, b, hfin c⟩
          | number s _ hn hf => subst hf; exact ⟨fun _ => rfl, by simp, hfin rfl⟩
          | const _ _ hf => subst hf; exact ⟨fun _ => rfl, by simp, hfin rfl⟩
  refine ⟨?_, ?_, ?_⟩
  · intro t ht
    simp only [lib, List.mem_map] at ht
    obtain ⟨f, hf, rfl⟩ := ht
    obtain ⟨i, hi⟩ := List.mem_iff_getElem?.1 hf
    exact (key i f hi).1
  · intro t ht
    obtain ⟨i, hi⟩ := List.mem_iff_getElem?.1 ht
    exact (key i t hi).2.1
  · unfold Lib.stateTokens Lib.indices
    generalize hns : (if pde then nState else 0) = ns at *
    have e1 : ∀ i ∈ List.range (lib ts).L, ((Option.map (fun t : Token => t.stateVar.isSome) (lib ts).tokens[i]?).getD false) =
        decide (nIn ≤ i ∧ i < nIn + ns) := by
      intro i hi
      have hi' : i < ts.length := by simpa [Lib.L, lib] using hi
      have h1 := (key i _ (List.getElem?_eq_getElem hi')).2.2
      simp only [lib, List.getElem?_map, List.getElem?_eq_getElem hi', Option.map_some, Option.getD_some]
      rw [Bool.eq_iff_iff, h1, decide_eq_true_iff]
    rw [List.filter_congr e1]
    have e2 : (lib ts).L = nIn + ns + (nParam + fs.length) := by simp only [Lib.L, lib, List.length_map]; omega
    rw [e2, List.range_add, List.range_add, List.filter_append, List.filter_append]
    have f1 : (List.range nIn).filter (fun i => decide (nIn ≤ i ∧ i < nIn + ns)) = [] := by
      rw [List.filter_eq_nil_iff]; intro a ha; simp at ha ⊢; omega
    have f2 : ((List.range ns).map (nIn + ·)).filter (fun i => decide (nIn ≤ i ∧ i < nIn + ns)) = (List.range ns).map (nIn + ·) := by
      rw [List.filter_eq_self]; intro a ha; simp at ha ⊢; omega
    have f3 : ((List.range (nParam + fs.length)).map (nIn + ns + ·)).filter (fun i => decide (nIn ≤ i ∧ i < nIn + ns)) = [] := by
      rw [List.filter_eq_nil_iff]; intro a ha; simp at ha ⊢; omega
    rw [f1, f2, f3]; simp

/-! ## C109: a name stands for one token -/

theorem toString_inj {i j : Nat} (h : toString (i + 1) = toString (j + 1)) : i = j := by
  have h2 : Nat.toDigits 10 (i + 1) = Nat.toDigits 10 (j + 1) := by
    have := congrArg String.toList h
    simpa [toString, Nat.repr] using this
  have := congrArg (fun l => Nat.ofDigitChars 10 l 0) h2
  simp at this
  omega

theorem pre_inj {p : String} {i j : Nat} (h : p ++ toString (i + 1) = p ++ toString (j + 1)) : i = j := by
  have := congrArg String.toList h
  rw [String.toList_append, String.toList_append] at this
  exact toString_inj (String.toList_inj.1 (List.append_cancel_left this))

theorem head_pre (c : Char) (p r : String) (hp : p.toList = [c]) : (p ++ r).toList.head? = some c := by
  rw [String.toList_append, hp]; rfl

/-- An entry that stands for a token of its own name. -/
def OwnName (num : String → Option String) (o : String) : Prop :=
  (Registered o ∧ starts "protected_" o = false) ∨ (o = "const" ∧ num "const" = none)

theorem ownName_name {num : String → Option String} {prot : Bool} {o : String} {t : FTok} (ho : OwnName num o) (hm : Means num prot o t) :
    t.tok.name = o := by
  cases hm with
  | plain h _ =>
    rcases ho with ⟨_, hs⟩ | ⟨rfl, _⟩
    · exact (table_ok _ h).2.2.2.2.2.2.1 hs
    · exact absurd rfl (table_ok _ h).1.2.2.1
  | guarded h hr _ =>
    obtain ⟨t0, h0⟩ := hr
    rcases ho with ⟨_, hs⟩ | ⟨rfl, _⟩
    · rw [(table_ok _ h0).2.2.2.2.2.2.2.2 t ((map_iff _ _).2 h)]
      exact (table_ok _ h0).2.2.2.2.2.2.1 hs
    · exact absurd rfl (table_ok _ h0).1.2.2.1
  | number s h hn _ =>
    rcases ho with ⟨hr, _⟩ | ⟨rfl, hc⟩
    · exact absurd hr h
    · rw [hn] at hc; cases hc
  | const h _ ht => rw [ht, h]

/-- **C109** (distinct names): if the function set names operators (not by their `protected_` names) and "const" without repetition, and the
parameter names are distinct, then all names of the library are distinct. -/
theorem C109_distinct_partial (num : String → Option String) (nIn : Nat) (fs : List String) (prot : Bool) (nState : Nat) (pde : Bool) (nParam : Nat)
    (names : Option (List String)) (ts : List FTok) (h : createTokens num nIn fs prot nState pde nParam names = .ok ts)
    (hfs : fs.Nodup) (hown : ∀ o ∈ fs, OwnName num o)
    (hpar : ∀ i j n, i < nParam → j < nParam → Asked names i n → Asked names j n → i = j) : (ts.map (·.tok.name)).Nodup := by
  obtain ⟨hl, hx, hu, hp, ho⟩ := C108_layout num nIn fs prot nState pde nParam names ts h
  have hfree := ((C108_refused num nIn fs prot nState pde nParam names).1.1 ⟨ts, h⟩).2
  generalize hns : (if pde then nState else 0) = ns at *
  have cls : ∀ (i : Nat) n, (ts.map (·.tok.name))[i]? = some n →
      (i < nIn ∧ n = "x" ++ toString (i + 1)) ∨ (nIn ≤ i ∧ i < nIn + ns ∧ n = "u" ++ toString (i - nIn + 1)) ∨
      (nIn + ns ≤ i ∧ i < nIn + ns + nParam ∧ Asked names (i - (nIn + ns)) n ∧ ¬ Taken nIn ns n) ∨
      (nIn + ns + nParam ≤ i ∧ fs[i - (nIn + ns + nParam)]? = some n ∧ (Registered n ∨ n = "const")) := by
    intro i n hn
    rw [List.getElem?_map] at hn
    cases ht : ts[i]? with
    | none => rw [ht] at hn; cases hn
    | some t =>
      rw [ht] at hn
      simp only [Option.map_some, Option.some.injEq] at hn
      have hi : i < ts.length := (List.getElem?_eq_some_iff.1 ht).1
      by_cases h1 : i < nIn
      · rw [hx i h1] at ht; cases ht
        exact Or.inl ⟨h1, hn.symm⟩
      · by_cases h2 : i < nIn + ns
        · have := hu (i - nIn) (by omega)
          rw [show nIn + (i - nIn) = i by omega, ht] at this
          cases this
          exact Or.inr (Or.inl ⟨by omega, h2, hn.symm⟩)
        · by_cases h3 : i < nIn + ns + nParam
          · obtain ⟨n', hn', this⟩ := hp (i - (nIn + ns)) (by omega)
            rw [show nIn + ns + (i - (nIn + ns)) = i by omega, ht] at this
            cases this
            simp only at hn
            subst hn
            exact Or.inr (Or.inr (Or.inl ⟨by omega, h3, hn', hfree _ (by omega) _ hn'⟩))
          · have hk : i - (nIn + ns + nParam) < fs.length := by omega
            obtain ⟨t', ht', hm⟩ := ho (i - (nIn + ns + nParam)) _ (List.getElem?_eq_getElem hk)
            rw [show nIn + ns + nParam + (i - (nIn + ns + nParam)) = i by omega, ht] at ht'
            cases ht'
            have hmem := hown _ (List.getElem_mem hk)
            have hnm := ownName_name hmem hm
            refine Or.inr (Or.inr (Or.inr ⟨by omega, ?_, ?_⟩))
            · rw [List.getElem?_eq_getElem hk, ← hn, hnm]
            · rw [← hn, hnm]
              rcases hmem with ⟨hr, _⟩ | ⟨hc, _⟩
              · exact Or.inl hr
              · exact Or.inr hc
  have hop : ∀ n, (Registered n ∨ n = "const") → n.toList.head? ≠ some 'x' ∧ n.toList.head? ≠ some 'u' := by
    rintro n (⟨t, ht⟩ | rfl)
    · exact ⟨(table_ok _ ht).1.1, (table_ok _ ht).1.2.1⟩
    · decide
  rw [List.nodup_iff_getElem?_ne_getElem?]
  intro i j hij hj heq
  have hjn : (ts.map (·.tok.name))[j]? = some ((ts.map (·.tok.name))[j]) := List.getElem?_eq_getElem hj
  generalize (ts.map (·.tok.name))[j] = n at hjn
  rw [hjn] at heq
  have cx : ∀ r, ("x" ++ r).toList.head? = some 'x' := fun r => head_pre 'x' "x" r rfl
  have cu : ∀ r, ("u" ++ r).toList.head? = some 'u' := fun r => head_pre 'u' "u" r rfl
  rcases cls i n heq with ⟨a1, a2⟩ | ⟨a1, a2, a3⟩ | ⟨a1, a2, a3, a4⟩ | ⟨a1, a2, a3⟩ <;>
  rcases cls j n hjn with ⟨b1, b2⟩ | ⟨b1, b2, b3⟩ | ⟨b1, b2, b3, b4⟩ | ⟨b1, b2, b3⟩
  · have := pre_inj (a2.symm.trans b2); omega
  · have := cx (toString (i + 1)); rw [← a2, b3, cu] at this; exact absurd this (by decide)
  · exact b4 (Or.inl ⟨i, a1, a2⟩)
  · exact (hop n b3).1 (by rw [a2]; exact cx _)
  · have := cx (toString (j + 1)); rw [← b2, a3, cu] at this; exact absurd this (by decide)
  · have := pre_inj (a3.symm.trans b3); omega
  · exact b4 (Or.inr (Or.inl ⟨i - nIn, by omega, a3⟩))
  · exact (hop n b3).2 (by rw [a3]; exact cu _)
  · exact a4 (Or.inl ⟨j, b1, b2⟩)
  · exact a4 (Or.inr (Or.inl ⟨j - nIn, by omega, b3⟩))
  · have := hpar _ _ n (by omega) (by omega) a3 b3; omega
  · exact a4 (Or.inr (Or.inr b3))
  · exact (hop n a3).1 (by rw [b2]; exact cx _)
  · exact (hop n a3).2 (by rw [b3]; exact cu _)
  · exact b4 (Or.inr (Or.inr a3))
  · have h1 := (List.getElem?_eq_some_iff.1 a2).1
    have h2 := (List.getElem?_eq_some_iff.1 b2).1
    have := (List.nodup_iff_getElem?_ne_getElem?.1 hfs) (i - (nIn + ns + nParam)) (j - (nIn + ns + nParam)) (by omega) h2
    exact this (a2.trans b2.symm)

theorem getName_of_nodup (ts : List FTok) (hn : (ts.map (·.tok.name)).Nodup) (i : Nat) (t : FTok) (ht : ts[i]? = some t) :
    getName ts t.tok.name = some i := by
  unfold getName
  rw [List.findIdx?_eq_some_iff_getElem]
  obtain ⟨hi, rfl⟩ := List.getElem?_eq_some_iff.1 ht
  refine ⟨hi, by simp, ?_⟩
  intro j hj
  have := (List.nodup_iff_getElem?_ne_getElem?.1 hn) j i hj (by simpa using hi)
  simp only [List.getElem?_map, List.getElem?_eq_getElem hi, List.getElem?_eq_getElem (by omega : j < ts.length), Option.map_some, ne_eq,
    Option.some.injEq] at this
  simpa using this

theorem splitComma_append (a b : List Char) (ha : ',' ∉ a) : splitComma (a ++ ',' :: b) = a :: splitComma b := by
  induction a with
  | nil => simp [splitComma]
  | cons c a ih =>
    simp only [List.mem_cons, not_or] at ha
    simp only [List.cons_append, splitComma]
    rw [if_neg (fun h => ha.1 h.symm), ih ha.2]

theorem splitComma_plain (a : List Char) (ha : ',' ∉ a) : splitComma a = [a] := by
  induction a with
  | nil => rfl
  | cons c a ih =>
    simp only [List.mem_cons, not_or] at ha
    simp only [splitComma]
    rw [if_neg (fun h => ha.1 h.symm), ih ha.2]

/-- The names of the tokens with commas between them. -/
def text : List String → List Char
  | [] => []
  | [n] => n.toList
  | n :: r => n.toList ++ ',' :: text r

theorem splitComma_text (l : List String) (hl : l ≠ []) (hc : ∀ n ∈ l, ',' ∉ n.toList) : (splitComma (text l)).map String.ofList = l := by
  induction l with
  | nil => exact absurd rfl hl
  | cons a r ih =>
    cases r with
    | nil => simp [text, splitComma_plain _ (hc a (by simp))]
    | cons b r =>
      simp only [text]
      rw [splitComma_append _ _ (hc a (by simp))]
      simp only [List.map_cons, String.ofList_toList]
      rw [ih (by simp) fun n hn => hc n (by simp [hn])]

/-- **C109** (reading a text): in a library with distinct names, the names of any non-empty sequence of tokens, written with commas, are read
back as exactly these tokens – provided no name contains a comma. -/
theorem C109_text (ts : List FTok) (hn : (ts.map (·.tok.name)).Nodup) (hc : ∀ t ∈ ts, ',' ∉ t.tok.name.toList) (is : List Nat) (us : List FTok)
    (hne : is ≠ []) (hl : us.length = is.length) (h : ∀ (k i : Nat), is[k]? = some i → ∃ t, us[k]? = some t ∧ ts[i]? = some t) :
    actionize ts (text (us.map (·.tok.name))) = some is := by
  have hmem : ∀ u ∈ us, u ∈ ts := by
    intro u hu
    obtain ⟨k, hk⟩ := List.mem_iff_getElem?.1 hu
    have hk' : k < is.length := by rw [← hl]; exact (List.getElem?_eq_some_iff.1 hk).1
    obtain ⟨t, h1, h2⟩ := h k _ (List.getElem?_eq_getElem hk')
    rw [hk] at h1; cases h1
    exact List.mem_of_getElem? h2
  unfold actionize
  rw [splitComma_text _ (by intro h; simp at h; subst h; simp at hl; exact hne (List.length_eq_zero_iff.1 hl.symm)) (by
    intro n hn'
    obtain ⟨u, hu, rfl⟩ := List.mem_map.1 hn'
    exact hc u (hmem u hu))]
  clear hne hmem
  induction is generalizing us with
  | nil => cases us with
    | nil => rfl
    | cons => simp at hl
  | cons i is ih =>
    cases us with
    | nil => simp at hl
    | cons u us =>
      obtain ⟨t, h1, h2⟩ := h 0 i rfl
      simp at h1; subst h1
      simp only [List.map_cons, getNames, getName_of_nodup ts hn i u h2]
      rw [ih us (by simpa using hl) fun k j hk => by simpa using h (k + 1) j (by simpa using hk)]

/-- **C109, counterexample** Accepted libraries with two tokens of one name: a parameter named like the default name of a later one; an operator
next to its protected version; the same number written in two ways; an operator given twice.  Looking the name up gives the first. -/
theorem C109_names_counterexample :
    let num : String → Option String := fun s => if s = "1" ∨ s = "1.0" then some "1.0" else none
    (∃ ts, createTokens num 0 [] false 1 true 2 (some ["p2"]) = .ok ts ∧ ts.map (·.tok.name) = ["u1", "p2", "p2"]) ∧
    (∃ ts, createTokens num 0 ["div", "protected_div"] false 1 true 0 none = .ok ts ∧ ts.map (·.tok.name) = ["u1", "div", "div"] ∧
      ts.map (·.fn) = [none, some "np.divide", some "protected_div"] ∧ getName ts "div" = some 1) ∧
    (∃ ts, createTokens num 0 ["1", "1.0"] false 1 true 0 none = .ok ts ∧ ts.map (·.tok.name) = ["u1", "1.0", "1.0"]) ∧
    (∃ ts, createTokens num 0 ["add", "add"] false 1 true 0 none = .ok ts ∧ ts.map (·.tok.name) = ["u1", "add", "add"]) := by
  refine ⟨?_, ?_, ?_, ?_⟩
  · exact ⟨_, by with_unfolding_all rfl, by decide +kernel⟩
  · exact ⟨_, by with_unfolding_all rfl, by decide +kernel, by decide +kernel, by decide +kernel⟩
  · exact ⟨_, by with_unfolding_all rfl, by decide +kernel⟩
  · exact ⟨_, by with_unfolding_all rfl, by decide +kernel⟩

/-- **C109, counterexample** A parameter whose name contains a comma is accepted, but no text with its name can be read. -/
theorem C109_comma_counterexample :
    ∃ ts, createTokens (fun _ => none) 1 ["add"] false 1 true 1 (some ["a,b"]) = .ok ts ∧ ts.map (·.tok.name) = ["x1", "u1", "a,b", "add"] ∧
      actionize ts (text ["a,b"]) = none := by
  exact ⟨_, by with_unfolding_all rfl, by decide +kernel, by decide +kernel⟩

/-! ## C110: protection -/

theorem means_same {num : String → Option String} {o : String} {t t' : FTok} (h : Means num false o t) (h' : Means num true o t') :
    t.tok = t'.tok := by
  have huniq : ∀ (k : String) (a b : FTok), (k, a) ∈ functionMap → (k, b) ∈ functionMap → a = b := by
    intro k a b ha hb
    have := ((map_iff _ _).2 ha).symm.trans ((map_iff _ _).2 hb)
    simpa using this
  cases h with
  | guarded _ _ hp => cases hp
  | plain h _ =>
    cases h' with
    | plain h' _ => rw [huniq o t t' h h']
    | guarded h' _ _ => exact ((table_ok _ h).2.2.2.2.2.2.2.2 t' ((map_iff _ _).2 h')).symm
    | number s hr _ _ => exact absurd ⟨t, h⟩ hr
    | const hc _ _ => subst hc; exact absurd rfl (table_ok _ h).1.2.2.1
  | number s hr hn ht =>
    cases h' with
    | plain h' _ => exact absurd ⟨t', h'⟩ hr
    | guarded _ h' _ => exact absurd h' hr
    | number s' _ hn' ht' => rw [hn] at hn'; cases hn'; rw [ht, ht']
    | const hc hn' ht' => rw [hn] at hn'; cases hn'
  | const hc hn ht =>
    cases h' with
    | plain h' _ => subst hc; exact absurd rfl (table_ok _ h').1.2.2.1
    | guarded _ h' _ => obtain ⟨t0, h0⟩ := h'; subst hc; exact absurd rfl (table_ok _ h0).1.2.2.1
    | number s' _ hn' ht' => rw [hn] at hn'; cases hn'
    | const _ _ ht' => rw [ht, ht']

/-- **C110** (only the functions change): asking for protection neither refuses nor admits other inputs, and changes neither the names nor the
operand numbers nor the order of the tokens – only the functions behind them. -/
theorem C110_same_shape (num : String → Option String) (nIn : Nat) (fs : List String) (nState : Nat) (pde : Bool) (nParam : Nat)
    (names : Option (List String)) :
    ((∃ ts, createTokens num nIn fs true nState pde nParam names = .ok ts) ↔ ∃ ts, createTokens num nIn fs false nState pde nParam names = .ok ts) ∧
    ∀ ts ts', createTokens num nIn fs false nState pde nParam names = .ok ts → createTokens num nIn fs true nState pde nParam names = .ok ts' →
      ts.map (·.tok) = ts'.map (·.tok) := by
  refine ⟨(C108_refused _ _ _ _ _ _ _ _).1.trans (C108_refused _ _ _ _ _ _ _ _).1.symm, ?_⟩
  intro ts ts' h h'
  obtain ⟨hl, hx, hu, hp, ho⟩ := C108_layout _ _ _ _ _ _ _ _ ts h
  obtain ⟨hl', hx', hu', hp', ho'⟩ := C108_layout _ _ _ _ _ _ _ _ ts' h'
  generalize hns : (if pde then nState else 0) = ns at *
  apply List.ext_getElem?
  intro i
  simp only [List.getElem?_map]
  by_cases h1 : i < nIn
  · rw [hx i h1, hx' i h1]
  · by_cases h2 : i < nIn + ns
    · have e := hu (i - nIn) (by omega)
      have e' := hu' (i - nIn) (by omega)
      rw [show nIn + (i - nIn) = i by omega] at e e'
      rw [e, e']
    · by_cases h3 : i < nIn + ns + nParam
      · obtain ⟨n, hn, e⟩ := hp (i - (nIn + ns)) (by omega)
        obtain ⟨n', hn', e'⟩ := hp' (i - (nIn + ns)) (by omega)
        rw [show nIn + ns + (i - (nIn + ns)) = i by omega] at e e'
        rw [e, e', asked_unique hn, asked_unique hn']
      · by_cases h4 : i < ts.length
        · have hk : i - (nIn + ns + nParam) < fs.length := by omega
          obtain ⟨t, e, hm⟩ := ho (i - (nIn + ns + nParam)) _ (List.getElem?_eq_getElem hk)
          obtain ⟨t', e', hm'⟩ := ho' (i - (nIn + ns + nParam)) _ (List.getElem?_eq_getElem hk)
          rw [show nIn + ns + nParam + (i - (nIn + ns + nParam)) = i by omega] at e e'
          rw [e, e', Option.map_some, Option.map_some, means_same hm hm']
        · rw [List.getElem?_eq_none (by omega), List.getElem?_eq_none (by omega)]

/-- The operators with a protected version, and that version. -/
def protectedVersion : List (String × String) :=
  [("div", "protected_div"), ("exp", "protected_exp"), ("log", "protected_log"), ("logabs", "protected_log"), ("sqrt", "protected_sqrt"),
   ("inv", "protected_inv"), ("expneg", "protected_expneg"), ("n2", "protected_n2"), ("n3", "protected_n3"), ("n4", "protected_n4"),
   ("sigmoid", "protected_sigmoid")]

/-- **C110** (protection is applied): asked for protection, each of the eleven operators with a protected version is computed by it. -/
theorem C110_protected (num : String → Option String) (nIn : Nat) (fs : List String) (nState : Nat) (pde : Bool) (nParam : Nat)
    (names : Option (List String)) (ts : List FTok) (h : createTokens num nIn fs true nState pde nParam names = .ok ts)
    (k : Nat) (o f : String) (ho : fs[k]? = some o) (hf : (o, f) ∈ protectedVersion) :
    ∃ t, ts[nIn + (if pde then nState else 0) + nParam + k]? = some t ∧ t.tok.name = o ∧ t.fn = some f := by
  obtain ⟨_, _, _, _, hl⟩ := C108_layout _ _ _ _ _ _ _ _ ts h
  obtain ⟨t, ht, hm⟩ := hl k o ho
  refine ⟨t, ht, ?_⟩
  have tbl : ∀ e ∈ protectedVersion, (functionMap.lookup e.1).isSome ∧
      ((functionMap.lookup ("protected_" ++ e.1)).map fun t => (t.tok.name, t.fn)) = some (e.1, some e.2) := by decide +kernel
  obtain ⟨h1, h2⟩ := tbl _ hf
  have hreg : Registered o := (registered_iff o).1 h1
  have hreg2 : Registered ("protected_" ++ o) := by
    rw [← registered_iff]
    cases hx : functionMap.lookup ("protected_" ++ o) with
    | none => rw [hx] at h2; cases h2
    | some _ => rfl
  cases hm with
  | plain _ hp =>
    rcases hp with hp | hp
    · cases hp
    · exact absurd hreg2 hp
  | guarded hg _ _ =>
    rw [(map_iff _ _).2 hg] at h2
    simpa using h2
  | number s hn _ _ => exact absurd hreg hn
  | const hc _ _ =>
    subst hc
    exact absurd hf (by simp [protectedVersion])

theorem absR_eq (a : Rat) : absR a = |a| := by
  unfold absR
  by_cases h : a < 0
  · rw [if_pos h, abs_of_neg h]
  · rw [if_neg h, abs_of_nonneg (not_lt.1 h)]

/-- **C110** (protected values): protected division, inversion and powers are the exact ones while the operand is not too small resp. too
large, and their values are bounded in every case. -/
theorem C110_values (a b : Rat) (k : Nat) :
    (1 / 1000 < |b| → protDiv a b = a / b) ∧ (1 / 1000 < |a| → protInv a = 1 / a) ∧ (|a| < 1000000 → protPow k a = a ^ k) ∧
    |protDiv a b| ≤ max 1 (1000 * |a|) ∧ |protInv a| ≤ 1000 ∧ |protPow k a| ≤ 1000000 ^ k := by
  simp only [protDiv, protInv, protPow, absR_eq]
  refine ⟨fun h => if_pos h, fun h => if_pos h, fun h => if_pos h, ?_, ?_, ?_⟩
  · by_cases h : 1 / 1000 < |b|
    · rw [if_pos h]
      have hb : (0 : Rat) < |b| := lt_trans (by norm_num) h
      refine le_trans ?_ (le_max_right _ _)
      rw [abs_div, div_le_iff₀ hb]
      have := abs_nonneg a
      nlinarith
    · rw [if_neg h]; simp
  · by_cases h : 1 / 1000 < |a|
    · rw [if_pos h]
      have hb : (0 : Rat) < |a| := lt_trans (by norm_num) h
      rw [abs_div, abs_one, div_le_iff₀ hb]
      linarith
    · rw [if_neg h]; simp
  · by_cases h : |a| < 1000000
    · rw [if_pos h, abs_pow]
      exact pow_le_pow_left₀ (abs_nonneg a) h.le k
    · rw [if_neg h, abs_zero]
      positivity

/-- **C110** (torch division): exact while the divisor is not too small, and bounded in every case.
Partial, of the whole claim: Exact (rational and real) arithmetic; the torch division loses the sign of tiny negative divisors and disagrees with the numpy one, and the protected sigmoid is 1 instead of 0 from -100 downwards (counterexamples). -/
theorem C110_torch_values_partial (a b : Rat) :
    (1 / 100000000 < |b| → torchDiv a b = a / b) ∧ |torchDiv a b| ≤ 100000000 * |a| := by
  simp only [torchDiv, absR_eq]
  refine ⟨fun h => by rw [if_pos h], ?_⟩
  by_cases h : 1 / 100000000 < |b|
  · rw [if_pos h]
    have hb : (0 : Rat) < |b| := lt_trans (by norm_num) h
    rw [abs_div, div_le_iff₀ hb]
    have := abs_nonneg a
    nlinarith
  · rw [if_neg h, abs_div]
    have : |(1 / 100000000 : Rat)| = 1 / 100000000 := by norm_num
    rw [this, div_div_eq_mul_div, div_one]
    linarith

/-- **C110, counterexample** The torch division has the wrong sign for tiny negative divisors; and the numpy and torch divisions disagree for
divisors between 1e-8 and 1e-3. -/
theorem C110_sign_counterexample :
    torchDiv 1 (-1 / 1000000000) = 100000000 ∧ (1 : Rat) / (-1 / 1000000000) < 0 ∧ protDiv 1 (1 / 2000) = 1 ∧ torchDiv 1 (1 / 2000) = 2000 := by
  decide +kernel

/-! ## C111: torch operators -/

/-- An operator whose name marks it as a torch operator. -/
def Marked (o : String) : Prop := hasSub "_t".toList o.toList = true

theorem torch_table : ∀ e ∈ functionMap, hasSub "_t".toList e.1.toList = false →
    (∀ t', functionMap.lookup (e.1 ++ "_t") = some t' → t'.tok.arity = e.2.tok.arity ∧ t'.tok.name = e.1 ++ "_t") ∧
    functionMap.lookup ("protected_" ++ (e.1 ++ "_t")) = none ∧ (e.1.toList.contains 'u' = true → e.1 = "mul" ∨ e.1 = "sub") := by
  have h : (functionMap.all fun e => hasSub "_t".toList e.1.toList ||
      ((match functionMap.lookup (e.1 ++ "_t") with | none => true | some t' => decide (t'.tok.arity = e.2.tok.arity ∧ t'.tok.name = e.1 ++ "_t")) &&
       (functionMap.lookup ("protected_" ++ (e.1 ++ "_t"))).isNone && decide (e.1.toList.contains 'u' = true → e.1 = "mul" ∨ e.1 = "sub"))) = true := by
    decide +kernel
  intro e he hm
  have := List.all_eq_true.1 h e he
  rw [hm, Bool.false_or] at this
  simp only [Bool.and_eq_true, decide_eq_true_eq] at this
  obtain ⟨⟨h1, h2⟩, h3⟩ := this
  refine ⟨?_, Option.isNone_iff_eq_none.1 h2, h3⟩
  intro t' ht
  rw [ht] at h1
  simpa using h1

theorem resolve_torch (prot : Bool) (o : String) (hr : Registered o) (hm : ¬ Marked o) : resolve prot (o ++ "_t") = o ++ "_t" := by
  obtain ⟨t, ht⟩ := hr
  have := (torch_table _ ht (by simpa [Marked] using hm)).2.1
  simp only at this
  unfold resolve
  rw [this]
  simp

theorem addTorch_spec (prot : Bool) (fs : List String) (hm : ∀ o ∈ fs, Registered o → ¬ Marked o) : ∀ acc : List (String × FTok),
    ((∀ o ∈ fs, Registered o → Registered (o ++ "_t")) → ∃ d, addTorch prot acc fs = .ok (acc ++ d) ∧
      (∀ e ∈ d, e ∈ functionMap ∧ ∃ o ∈ fs, Registered o ∧ e.1 = o ++ "_t") ∧ ∀ o ∈ fs, Registered o → o ++ "_t" ∈ d.map (·.1)) ∧
    ((∃ o ∈ fs, Registered o ∧ ¬ Registered (o ++ "_t")) → addTorch prot acc fs = .error .key) := by
  induction fs with
  | nil => exact fun acc => ⟨fun _ => ⟨[], by simp [addTorch], by simp, by simp⟩, fun ⟨o, h, _⟩ => nomatch h⟩
  | cons a r ih =>
    intro acc
    have ih' := ih fun o ho => hm o (by simp [ho])
    by_cases hr : Registered a
    · have hma := hm a (by simp) hr
      have hst : addTorch prot acc (a :: r) = match functionMap.lookup (a ++ "_t") with
          | none => .error .key
          | some t => addTorch prot (acc ++ [(a ++ "_t", t)]) r := by
        rw [addTorch, if_pos ((registered_iff a).2 hr), if_neg (show ¬ (hasSub "_t".toList a.toList = true) from hma), resolve_torch prot a hr hma]
        cases functionMap.lookup (a ++ "_t") <;> rfl
      constructor
      · intro hall
        obtain ⟨t, ht⟩ := hall a (by simp) hr
        rw [hst, (map_iff _ _).2 ht]
        obtain ⟨d, hd, h1, h2⟩ := (ih' (acc ++ [(a ++ "_t", t)])).1 fun o ho => hall o (by simp [ho])
        refine ⟨(a ++ "_t", t) :: d, by simpa using hd, ?_, ?_⟩
        · intro e he
          rcases List.mem_cons.1 he with rfl | he
          · exact ⟨ht, a, by simp, hr, rfl⟩
          · obtain ⟨h3, o, ho, h4⟩ := h1 e he
            exact ⟨h3, o, by simp [ho], h4⟩
        · intro o ho hro
          rcases List.mem_cons.1 ho with rfl | ho
          · simp
          · simp only [List.map_cons, List.mem_cons]; exact Or.inr (h2 o ho hro)
      · rintro ⟨o, ho, hro, hn⟩
        rw [hst]
        cases hl : functionMap.lookup (a ++ "_t") with
        | none => rfl
        | some t =>
          have hne : o ≠ a := by
            rintro rfl
            exact hn ⟨t, (map_iff _ _).1 hl⟩
          exact (ih' _).2 ⟨o, (List.mem_cons.1 ho).resolve_left hne, hro, hn⟩
    · have hst : addTorch prot acc (a :: r) = addTorch prot acc r := by
        rw [addTorch, if_neg fun h => hr ((registered_iff a).1 h)]
      constructor
      · intro hall
        rw [hst]
        obtain ⟨d, hd, h1, h2⟩ := (ih' acc).1 fun o ho => hall o (by simp [ho])
        refine ⟨d, hd, fun e he => ?_, fun o ho hro => ?_⟩
        · obtain ⟨h3, o, ho, h4⟩ := h1 e he
          exact ⟨h3, o, by simp [ho], h4⟩
        · rcases List.mem_cons.1 ho with rfl | ho
          · exact absurd hro hr
          · exact h2 o ho hro
      · rintro ⟨o, ho, hro, hn⟩
        rw [hst]
        have hne : o ≠ a := by rintro rfl; exact hr hro
        exact (ih' acc).2 ⟨o, (List.mem_cons.1 ho).resolve_left hne, hro, hn⟩

theorem mem_of_lookup {k : String} {t : FTok} : ∀ {l : List (String × FTok)}, l.lookup k = some t → (k, t) ∈ l
  | [], h => by simp at h
  | (k', t') :: r, h => by
    rw [List.lookup_cons] at h
    by_cases hk : k = k'
    · subst hk; simp at h; simp [h]
    · rw [show (k == k') = false by simpa using hk] at h
      exact List.mem_cons_of_mem _ (mem_of_lookup h)

/-- **C111** (the torch dictionary): without torch operators in the function set, every operator gets its torch version if each has one, and
otherwise the set-up ends with KeyError. -/
theorem C111_torch (prot : Bool) (fs : List String) (hm : ∀ o ∈ fs, Registered o → ¬ Marked o) :
    ((∀ o ∈ fs, Registered o → Registered (o ++ "_t")) → ∃ d, addTorch prot [] fs = .ok d ∧
      ∀ o ∈ fs, Registered o → ∃ t, d.lookup (o ++ "_t") = some t ∧ (o ++ "_t", t) ∈ functionMap) ∧
    ((∃ o ∈ fs, Registered o ∧ ¬ Registered (o ++ "_t")) → addTorch prot [] fs = .error .key) := by
  refine ⟨fun h => ?_, (addTorch_spec prot fs hm []).2⟩
  obtain ⟨d, hd, h1, h2⟩ := (addTorch_spec prot fs hm []).1 h
  refine ⟨d, by simpa using hd, fun o ho hr => ?_⟩
  have hs : (d.lookup (o ++ "_t")).isSome := by
    rw [List.lookup_isSome_iff]
    obtain ⟨e, he, heq⟩ := List.mem_map.1 (h2 o ho hr)
    exact ⟨e, he, by simpa using heq.symm⟩
  obtain ⟨t, ht⟩ := Option.isSome_iff_exists.1 hs
  refine ⟨t, ht, ?_⟩
  have := mem_of_lookup ht
  exact (h1 _ this).1

/-- What switching does to one token: variables stay, an operator becomes the torch operator of its name with as many operands. -/
def Switched (t t' : FTok) : Prop :=
  (t.fn = none ∧ t' = t) ∨ (t.fn ≠ none ∧ (t.tok.name ++ "_t", t') ∈ functionMap ∧ t'.tok.arity = t.tok.arity)

/-- **C111** (switching): for a library of operators that all have torch versions, without `sub`, numbers and "const", every expression is
switched token by token: the variables stay, each operator becomes its torch version with as many operands. -/
theorem C111_switch_partial (num : String → Option String) (nIn : Nat) (fs : List String) (prot : Bool) (nState : Nat) (nParam : Nat)
    (names : Option (List String)) (ts : List FTok) (d : List (String × FTok))
    (h : createTokens num nIn fs prot nState true nParam names = .ok ts)
    (hfs : ∀ o ∈ fs, Registered o ∧ ¬ Marked o ∧ starts "protected_" o = false ∧ o ≠ "sub" ∧ Registered (o ++ "_t")) (hne : fs ≠ [])
    (hd : addTorch prot [] fs = .ok d) (tr : List FTok) (htr : ∀ t ∈ tr, t ∈ ts) :
    ∃ tr', switchTokens ts d tr = .ok tr' ∧ tr'.length = tr.length ∧
      ∀ (i : Nat) t, tr[i]? = some t → ∃ t', tr'[i]? = some t' ∧ Switched t t' := by
  obtain ⟨hl, hx, hu, hp, ho⟩ := C108_layout num nIn fs prot nState true nParam names ts h
  have hfree := ((C108_refused num nIn fs prot nState true nParam names).1.1 ⟨ts, h⟩).2
  simp only [if_true] at hl hx hu hp ho hfree
  obtain ⟨d', hd', hlook⟩ := (C111_torch prot fs fun o ho hr => (hfs o ho).2.1).1 fun o ho _ => (hfs o ho).2.2.2.2
  rw [hd] at hd'; cases hd'
  have cls : ∀ t ∈ ts, (t.fn = none ∧ (t.tok.name ∉ fs) ∧ (t.tok.inputVar.isSome ∨ t.tok.paramVar.isSome ∨ (t.tok.name.toList.head? = some 'u' ∧ t.tok.name ≠ "mul"))) ∨
      (t.fn ≠ none ∧ t.tok.name ∈ fs ∧ t.tok.inputVar = none ∧ t.tok.paramVar = none ∧ ∃ e, (t.tok.name, e) ∈ functionMap ∧ e.tok.arity = t.tok.arity) := by
    intro t ht
    obtain ⟨i, hi⟩ := List.mem_iff_getElem?.1 ht
    have hil : i < ts.length := (List.getElem?_eq_some_iff.1 hi).1
    by_cases h1 : i < nIn
    · rw [hx i h1] at hi; cases hi
      refine Or.inl ⟨rfl, ?_, Or.inl rfl⟩
      intro hmem
      obtain ⟨e, he⟩ := (hfs _ hmem).1
      exact (table_ok _ he).1.1 (head_pre 'x' "x" _ rfl)
    · by_cases h2 : i < nIn + nState
      · have e := hu (i - nIn) (by omega)
        rw [show nIn + (i - nIn) = i by omega, hi] at e
        cases e
        refine Or.inl ⟨rfl, ?_, Or.inr (Or.inr ⟨head_pre 'u' "u" _ rfl, ?_⟩)⟩
        · intro hmem
          obtain ⟨e, he⟩ := (hfs _ hmem).1
          exact (table_ok _ he).1.2.1 (head_pre 'u' "u" _ rfl)
        · intro hmul
          have := congrArg (fun s => s.toList.head?) hmul
          simp only at this
          rw [head_pre 'u' "u" _ rfl] at this
          exact absurd this (by decide)
      · by_cases h3 : i < nIn + nState + nParam
        · obtain ⟨n, hn, e⟩ := hp (i - (nIn + nState)) (by omega)
          rw [show nIn + nState + (i - (nIn + nState)) = i by omega, hi] at e
          cases e
          refine Or.inl ⟨rfl, ?_, Or.inr (Or.inl rfl)⟩
          intro hmem
          exact hfree _ (by omega) n hn (Or.inr (Or.inr (Or.inl (hfs _ hmem).1)))
        · have hk : i - (nIn + nState + nParam) < fs.length := by omega
          obtain ⟨t', ht', hm⟩ := ho (i - (nIn + nState + nParam)) _ (List.getElem?_eq_getElem hk)
          rw [show nIn + nState + nParam + (i - (nIn + nState + nParam)) = i by omega, hi] at ht'
          cases ht'
          have hmem := List.getElem_mem hk
          generalize fs[i - (nIn + nState + nParam)] = o at *
          obtain ⟨hr, hmk, hst, _, _⟩ := hfs o hmem
          have hnm := ownName_name (Or.inl ⟨hr, hst⟩) hm
          obtain ⟨e0, he0⟩ := hr
          have key : ∀ k, (k, t) ∈ functionMap → e0.tok.arity = t.tok.arity → t.fn ≠ none ∧ t.tok.name ∈ fs ∧ t.tok.inputVar = none ∧
              t.tok.paramVar = none ∧ ∃ e, (t.tok.name, e) ∈ functionMap ∧ e.tok.arity = t.tok.arity := by
            intro k hkm har
            obtain ⟨_, _, a3, _, a5, a6, _⟩ := table_ok _ hkm
            exact ⟨a6, by rw [hnm]; exact hmem, a3, a5, e0, by rw [hnm]; exact he0, har⟩
          refine Or.inr ?_
          cases hm with
          | plain h' _ =>
            have : e0 = t := by
              have := ((map_iff _ _).2 he0).symm.trans ((map_iff _ _).2 h')
              simpa using this
            exact key _ h' (by rw [this])
          | guarded h' _ _ => exact key _ h' (by rw [(table_ok _ he0).2.2.2.2.2.2.2.2 t ((map_iff _ _).2 h')])
          | number s hnr _ _ => exact absurd ⟨e0, he0⟩ hnr
          | const hc _ _ => subst hc; exact absurd rfl (table_ok _ he0).1.2.2.1
  -- the names switched are those of the function set
  have hnp : ∀ n, n ∈ npNames ts ↔ n ∈ fs := by
    intro n
    simp only [npNames, List.mem_map, List.mem_filter, Bool.and_eq_true, bne_iff_ne, ne_eq, Bool.or_eq_true, Bool.not_eq_true', beq_iff_eq,
      Option.isNone_iff_eq_none]
    constructor
    · rintro ⟨t, ⟨ht, ⟨⟨_, h2⟩, h3⟩, h4⟩, rfl⟩
      rcases cls t ht with ⟨_, _, h5⟩ | ⟨_, h5, _⟩
      · rcases h5 with h5 | h5 | ⟨h5, h6⟩
        · rw [h3] at h5; simp at h5
        · rw [h4] at h5; simp at h5
        · rcases h2 with h2 | h2
          · have : 'u' ∈ t.tok.name.toList := by
              cases hn : t.tok.name.toList with
              | nil => rw [hn] at h5; simp at h5
              | cons c cs => rw [hn] at h5; simp at h5; simp [h5]
            rw [← List.contains_iff_mem] at this
            rw [this] at h2; cases h2
          · exact absurd h2 h6
      · exact h5
    · intro hn
      obtain ⟨k, hk⟩ := List.mem_iff_getElem?.1 hn
      obtain ⟨t, ht, hm⟩ := ho k n hk
      obtain ⟨hr, hmk, hst, hsub, _⟩ := hfs n hn
      have hnm := ownName_name (Or.inl ⟨hr, hst⟩) hm
      have htm := List.mem_of_getElem? ht
      rcases cls t htm with ⟨_, h5, _⟩ | ⟨_, _, h3, h4, _⟩
      · rw [hnm] at h5; exact absurd hn h5
      · refine ⟨t, ⟨htm, ⟨⟨?_, ?_⟩, h3⟩, h4⟩, hnm⟩
        · rw [hnm]
          rintro rfl
          obtain ⟨e, he⟩ := hr
          exact (table_ok _ he).1.2.2.1 rfl
        · rw [hnm]
          obtain ⟨e, he⟩ := hr
          have := (torch_table _ he (by simpa [Marked] using hmk)).2.2
          simp only at this
          cases hc : n.toList.contains 'u' with
          | false => exact Or.inl rfl
          | true =>
            rcases this hc with h | h
            · exact Or.inr h
            · exact absurd h hsub
  have hone : ∀ t ∈ ts, ∃ t', switchToken (npNames ts) d t = .ok t' ∧ Switched t t' := by
    intro t ht
    unfold switchToken
    rcases cls t ht with ⟨h1, h2, _⟩ | ⟨h1, h2, _, _, e, he, har⟩
    · have : (npNames ts).contains t.tok.name = false := by
        rw [Bool.eq_false_iff]; intro hc; exact h2 ((hnp _).1 (List.contains_iff_mem.1 hc))
      rw [if_neg (by rw [this]; simp)]
      exact ⟨t, rfl, Or.inl ⟨h1, rfl⟩⟩
    · have : (npNames ts).contains t.tok.name = true := List.contains_iff_mem.2 ((hnp _).2 h2)
      rw [if_pos this]
      obtain ⟨t', ht', hm'⟩ := hlook _ h2 (hfs _ h2).1
      rw [ht']
      refine ⟨t', rfl, Or.inr ⟨h1, hm', ?_⟩⟩
      have := ((torch_table _ he (by simpa [Marked] using (hfs _ h2).2.1)).1 t' ((map_iff _ _).2 hm')).1
      rw [this]; exact har
  have hall : ∀ l : List FTok, (∀ t ∈ l, t ∈ ts) → ∃ l', switchAll (npNames ts) d l = .ok l' ∧ l'.length = l.length ∧
      ∀ (i : Nat) t, l[i]? = some t → ∃ t', l'[i]? = some t' ∧ Switched t t' := by
    intro l
    induction l with
    | nil => exact fun _ => ⟨[], rfl, rfl, fun i t h => by simp at h⟩
    | cons a r ih =>
      intro hmem
      obtain ⟨a', ha', hs⟩ := hone a (hmem a (by simp))
      obtain ⟨r', hr', hlen, hpt⟩ := ih fun t ht => hmem t (by simp [ht])
      refine ⟨a' :: r', by simp only [switchAll, ha', hr'], by simp [hlen], ?_⟩
      intro i t hi
      cases i with
      | zero => simp at hi; subst hi; exact ⟨a', rfl, hs⟩
      | succ i => simpa using hpt i t (by simpa using hi)
  have hdn : d.isEmpty = false := by
    obtain ⟨o, r, rfl⟩ := List.exists_cons_of_ne_nil hne
    obtain ⟨t, ht, _⟩ := hlook o (by simp) (hfs o (by simp)).1
    cases d with
    | nil => simp at ht
    | cons => rfl
  unfold switchTokens
  rw [if_neg (by rw [hdn]; simp)]
  cases hnn : npNames ts with
  | nil =>
    obtain ⟨o, r, rfl⟩ := List.exists_cons_of_ne_nil hne
    have := (hnp o).2 (by simp)
    rw [hnn] at this; cases this
  | cons n0 nr =>
    have h0 : n0 ∈ fs := (hnp n0).1 (by rw [hnn]; simp)
    simp only
    rw [if_neg (show ¬ (hasSub "_t".toList n0.toList = true) from (hfs n0 h0).2.1), ← hnn]
    exact hall tr htr

/-- **C111** (torch libraries): with a torch operator in the function set – no numpy operator without torch version before it – nothing is switched. -/
theorem C111_torch_library (prot : Bool) (fs rest : List String) (o : String) (ts tr : List FTok) (ho : Registered o) (hm : Marked o)
    (hfs : ∀ q ∈ fs, Registered q → Registered (q ++ "_t")) :
    ∃ d, addTorch prot [] (fs ++ o :: rest) = .ok d ∧ switchTokens ts d tr = .ok tr := by
  have key : ∀ acc, addTorch prot acc (fs ++ o :: rest) = .ok [] := by
    induction fs with
    | nil =>
      intro acc
      rw [List.nil_append, addTorch, if_pos ((registered_iff o).2 ho), if_pos (show hasSub "_t".toList o.toList = true from hm)]
    | cons q fs ih =>
      intro acc
      rw [List.cons_append, addTorch]
      by_cases hq : Registered q
      · rw [if_pos ((registered_iff q).2 hq)]
        by_cases hmq : hasSub "_t".toList q.toList = true
        · rw [if_pos hmq]
        · rw [if_neg hmq]
          have hr : (functionMap.lookup (resolve prot (q ++ "_t"))).isSome = true := by
            unfold resolve
            split
            · rename_i hc
              simp only [Bool.and_eq_true] at hc
              exact hc.2
            · exact (registered_iff _).2 (hfs q (by simp) hq)
          obtain ⟨t, ht⟩ := Option.isSome_iff_exists.1 hr
          rw [ht]
          exact ih (fun q' hq' => hfs q' (by simp [hq'])) _
      · rw [if_neg (fun h => hq ((registered_iff q).1 h))]
        exact ih (fun q' hq' => hfs q' (by simp [hq'])) _
  exact ⟨[], key [], rfl⟩

/-- **C111, counterexamples** `sub` is left as the numpy operator; a number in the library ends the switch with KeyError; one torch operator among
numpy ones and nothing is switched; an operator without torch version ends the set-up with KeyError. -/
theorem C111_switch_counterexample :
    let num : String → Option String := fun s => if s = "2" then some "2.0" else none
    let sub := op "np.subtract" "sub" 2
    let add := op "np.add" "add" 2
    (∃ ts d, createTokens num 0 ["add", "sub"] false 1 true 0 none = .ok ts ∧ addTorch false [] ["add", "sub"] = .ok d ∧
      sub ∈ ts ∧ switchTokens ts d [sub] = .ok [sub]) ∧
    (∃ ts d, createTokens num 0 ["add", "2"] false 1 true 0 none = .ok ts ∧ addTorch false [] ["add", "2"] = .ok d ∧
      ∃ c ∈ ts, c.tok.name = "2.0" ∧ switchTokens ts d [c] = .error .key) ∧
    (∃ ts d, createTokens num 0 ["add", "mul_t"] false 1 true 0 none = .ok ts ∧ addTorch false [] ["add", "mul_t"] = .ok d ∧
      add ∈ ts ∧ switchTokens ts d [add] = .ok [add]) ∧
    addTorch false [] ["add", "sin"] = .error .key := by
  refine ⟨?_, ?_, ?_, ?_⟩
  · exact ⟨_, _, by with_unfolding_all rfl, by with_unfolding_all rfl, by decide +kernel, by with_unfolding_all rfl⟩
  · exact ⟨_, _, by with_unfolding_all rfl, by with_unfolding_all rfl, ⟨{ name := "2.0", arity := 0 }, some "value 2"⟩, by decide +kernel, rfl,
      by with_unfolding_all rfl⟩
  · exact ⟨_, _, by with_unfolding_all rfl, by with_unfolding_all rfl, by decide +kernel, by with_unfolding_all rfl⟩
  · with_unfolding_all rfl

/-- The default operators satisfy the hypotheses. -/
example : ∃ ts, createTokens (fun _ => none) 1 ["add", "mul", "div", "diff", "diff2", "n2", "n3"] true 1 true 1 (some ["nu"]) = .ok ts ∧
    ∃ d, addTorch true [] ["add", "mul", "div", "diff", "diff2", "n2", "n3"] = .ok d ∧
    (ts.map (·.tok.name)).Nodup ∧ ts.map (·.tok.name) = ["x1", "u1", "nu", "add", "mul", "div", "diff", "diff2", "n2", "n3"] ∧
    d.map (·.1) = ["add_t", "mul_t", "div_t", "diff_t", "diff2_t", "n2_t", "n3_t"] :=
  ⟨_, by with_unfolding_all rfl, _, by with_unfolding_all rfl, by decide +kernel, by decide +kernel, by decide +kernel⟩

end Verif.Discover.Build.Claims
