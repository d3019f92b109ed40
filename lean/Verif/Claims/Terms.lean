import Verif.Discover.Terms
/-!
# C18 – splitting an expression into terms; C44 – assembling an expression from terms; C45 – genetic operators
-/
namespace Verif.Discover.Claims
open Tree

/-! ## C18 -/

theorem splitSum_nil (isSum isSub : Nat → Bool) (s : Int) (t : Nat) :
    splitSum isSum isSub s (node t []) = if isSum t then none else some [(s, node t [])] := by
  rw [splitSum]; simp

/-- The signs the code records do not influence which terms it finds. -/
theorem splitSum_terms (isSum isSub : Nat → Bool) (t : Tree) : ∀ s s' : Int,
    (splitSum isSum isSub s t).map (List.map Prod.snd) = (splitSum isSum isSub s' t).map (List.map Prod.snd) := by
  induction t using Tree.induct with
  | h t cs ih =>
    intro s s'
    match cs, ih with
    | [], _ => simp only [splitSum]; split <;> simp
    | [a], _ => simp only [splitSum]; split <;> simp
    | [a, b], ih =>
      simp only [splitSum]
      split
      · have ha := ih a (by simp) (if isSub t then (if s = 1 then 1 else -1) else 1)
          (if isSub t then (if s' = 1 then 1 else -1) else 1)
        cases h1 : splitSum isSum isSub (if isSub t then (if s = 1 then 1 else -1) else 1) a <;>
          cases h2 : splitSum isSum isSub (if isSub t then (if s' = 1 then 1 else -1) else 1) a <;>
          cases h3 : splitSum isSum isSub (if isSub t then -1 else 1) b <;> simp_all
      · simp
    | _ :: _ :: _ :: _, _ => simp only [splitSum]; split <;> simp

/-- **C18** (terms): for every expression in which the additive operators are binary, splitting succeeds and yields
exactly the top-level summands, in order; with the right signs `±1` (those of `Summands`, not the ones the code
records) they add up to the expression, whatever the values of the terms. -/
theorem C18_terms_partial (isSum isSub : Nat → Bool) (ar : Nat → Nat) (har : ∀ t, isSum t = true → ar t = 2)
    (t : Tree) (hw : WF ar t) (s : Int) :
    ∃ ts ss, splitSum isSum isSub s t = some ts ∧ Summands isSum isSub t ss ∧ ts.map Prod.snd = ss.map Prod.snd ∧
      (∀ p ∈ ss, (p.1 = 1 ∨ p.1 = -1) ∧ isSum p.2.root = false) ∧
      ∀ v : Tree → Int, sumVal isSum isSub v t = signedSum v ss := by
  induction t using Tree.induct generalizing s with
  | h t cs ih =>
    simp only [WF] at hw
    by_cases hs : isSum t = true
    · have h2 := har t hs
      have hl : cs.length = 2 := by omega
      match cs, hl, ih, hw with
      | [a, b], _, ih, hw =>
        simp only [WFL] at hw
        obtain ⟨ta, sa, ha1, ha2, ha3, ha4, ha5⟩ := ih a (by simp) hw.2.1
          (if isSub t then (if s = 1 then 1 else -1) else 1)
        obtain ⟨tb, sb, hb1, hb2, hb3, hb4, hb5⟩ := ih b (by simp) hw.2.2.1 (if isSub t then -1 else 1)
        by_cases hsub : isSub t = true
        · refine ⟨ta ++ tb, sa ++ sb.map fun p => (-p.1, p.2), ?_, .sub t a b sa sb hs hsub ha2 hb2, ?_, ?_, ?_⟩
          · simp only [splitSum, hs, if_true, ha1, hb1]
          · simp [ha3, hb3, Function.comp_def]
          · intro p hp
            rcases List.mem_append.1 hp with hp | hp
            · exact ha4 p hp
            · obtain ⟨q, hq, rfl⟩ := List.mem_map.1 hp
              have := hb4 q hq
              refine ⟨?_, this.2⟩
              simp only; omega
          · intro v
            simp only [sumVal, hs, hsub, if_true, ha5 v, hb5 v, signedSum, List.map_append, List.sum_append,
              List.map_map]
            have : ((sb.map ((fun p : Int × Tree => p.1 * v p.2) ∘ fun p => (-p.1, p.2)))).sum =
                - (sb.map fun p => p.1 * v p.2).sum := by
              clear hb1 hb2 hb3 hb4 hb5
              induction sb with
              | nil => simp
              | cons q sb ihq => simp only [List.map_cons, List.sum_cons, ihq, Function.comp]; rw [Int.neg_mul]; omega
            rw [this]; omega
        · have hsub' : isSub t = false := by simpa using hsub
          refine ⟨ta ++ tb, sa ++ sb, ?_, .add t a b sa sb hs hsub' ha2 hb2, ?_, ?_, ?_⟩
          · simp only [splitSum, hs, if_true, ha1, hb1]
          · simp [ha3, hb3]
          · intro p hp
            rcases List.mem_append.1 hp with hp | hp
            · exact ha4 p hp
            · exact hb4 p hp
          · intro v
            simp only [sumVal, hs, if_true, hsub', ha5 v, hb5 v, signedSum, List.map_append, List.sum_append]
            simp
    · have hs' : isSum t = false := by simpa using hs
      refine ⟨[(s, node t cs)], [(1, node t cs)], ?_, .leaf t cs hs', by simp, by simp [hs'], ?_⟩
      · unfold splitSum; split <;> simp_all
      · intro v
        unfold sumVal
        split <;> simp_all [signedSum]

/-- **C18** (signs): the recorded signs are the true ones if no sum or difference is itself subtracted (and the
traversal's root has sign `+1`, as the code starts): then the terms with their recorded signs add up to the
expression. -/
theorem C18_signs_partial (isSum isSub : Nat → Bool) (t : Tree) (hsimple : SimpleSubtrahends isSum isSub t) :
    ∃ ts, splitSum isSum isSub 1 t = some ts ∧ Summands isSum isSub t ts ∧
      ∀ v : Tree → Int, sumVal isSum isSub v t = signedSum v ts := by
  induction hsimple with
  | leaf t cs h =>
    refine ⟨[(1, node t cs)], ?_, .leaf t cs h, ?_⟩
    · unfold splitSum; split <;> simp_all
    · intro v; unfold sumVal; split <;> simp_all [signedSum]
  | add t a b h h' ha hb iha ihb =>
    obtain ⟨x, hx1, hx2, hx3⟩ := iha
    obtain ⟨y, hy1, hy2, hy3⟩ := ihb
    refine ⟨x ++ y, ?_, .add t a b x y h h' hx2 hy2, fun v => ?_⟩
    · simp [splitSum, h, h', hx1, hy1]
    · simp [sumVal, h, h', hx3 v, hy3 v, signedSum, List.sum_append]
  | sub t a s cs h h' ha hb iha =>
    obtain ⟨x, hx1, hx2, hx3⟩ := iha
    have hb' : splitSum isSum isSub (-1) (node s cs) = some [(-1, node s cs)] := by
      unfold splitSum; split <;> simp_all
    refine ⟨x ++ [(-1, node s cs)], ?_, ?_, fun v => ?_⟩
    · simp [splitSum, h, h', hx1, hb']
    · have := Summands.sub t a (node s cs) x [(1, node s cs)] h h' hx2 (.leaf s cs hb)
      simpa using this
    · have e : sumVal isSum isSub v (node s cs) = v (node s cs) := by unfold sumVal; split <;> simp_all
      simp only [sumVal, h, h', if_true, hx3 v, e, signedSum, List.map_append, List.sum_append]
      simp; omega

/-- token 0 is `add`, token 1 is `sub`, everything else is a term. -/
def exIsSum (t : Nat) : Bool := t == 0 || t == 1
def exIsSub (t : Nat) : Bool := t == 1

/-- **C18** fails for the recorded signs: in `a - (b - c)` the code records `+a, -b, -c`, the truth is `+a, -b, +c`. -/
theorem C18_sub_sub_counterexample :
    ∃ ts, splitSum exIsSum exIsSub 1 (node 1 [node 2 [], node 1 [node 3 [], node 4 []]]) = some ts ∧
      ∃ v : Tree → Int, sumVal exIsSum exIsSub v (node 1 [node 2 [], node 1 [node 3 [], node 4 []]]) ≠
        signedSum v ts := by
  refine ⟨[(1, node 2 []), (-1, node 3 []), (-1, node 4 [])], by simp [splitSum, exIsSum, exIsSub],
    fun t => if t.root = 4 then 1 else 0, ?_⟩
  simp [sumVal, signedSum, exIsSum, exIsSub]

/-- … and in `a - (b + c)` it records `+a, +b, +c` instead of `+a, -b, -c`. -/
theorem C18_sub_add_counterexample :
    ∃ ts, splitSum exIsSum exIsSub 1 (node 1 [node 2 [], node 0 [node 3 [], node 4 []]]) = some ts ∧
      ∃ v : Tree → Int, sumVal exIsSum exIsSub v (node 1 [node 2 [], node 0 [node 3 [], node 4 []]]) ≠
        signedSum v ts := by
  refine ⟨[(1, node 2 []), (1, node 3 []), (1, node 4 [])], by simp [splitSum, exIsSum, exIsSub],
    fun t => if t.root = 4 then 1 else 0, ?_⟩
  simp [sumVal, signedSum, exIsSum, exIsSub]

-- add(sub(u, v), mul-term): hypotheses of the theorems above hold and the split is what one expects
example : SimpleSubtrahends exIsSum exIsSub (node 0 [node 1 [node 2 [], node 3 []], node 4 []]) ∧
    splitSum exIsSum exIsSub 1 (node 0 [node 1 [node 2 [], node 3 []], node 4 []]) =
      some [(1, node 2 []), (-1, node 3 []), (1, node 4 [])] :=
  ⟨.add 0 _ _ rfl rfl (.sub 1 _ 3 [] rfl rfl (.leaf 2 [] rfl) rfl) (.leaf 4 [] rfl),
   by simp [splitSum, exIsSum, exIsSub]⟩

/-- **C18** (names): the tokens at which a program is split are the sums and differences of the library, dense and sparse; of these the
second operand of the differences alone changes its sign. -/
theorem C18_names (n : String) : isSumName n = true ↔ n ∈ ["add", "sub", "add_t", "sub_t"] := by
  simp [isSumName, Bool.or_eq_true, or_assoc]

/-- The signs of the names. -/
theorem C18_signs : ["add", "sub", "add_t", "sub_t"].map isSubName = [false, true, false, true] := by decide

example : isSumName "add_t" = true ∧ isSubName "sub_t" = true ∧ isSumName "mul" = false := by decide

/-! ## C44 -/

/-- `t₀ + (t₁ + (… + tₙ))` (spec). -/
def rightSum (add : Nat) : Tree → List Tree → Tree
  | t, [] => t
  | t, t' :: ts => node add [t, rightSum add t' ts]

theorem reconstruct_eq (add : Nat) (t : List Nat) (ts : List (List Nat)) :
    reconstruct add (t :: ts) = some (((t :: ts).dropLast.flatMap fun x => add :: x) ++ (t :: ts).getLast (by simp)) := by
  have key : ∀ (xs : List (List Nat)) (l : List Nat),
      reconstruct add (xs ++ [l]) = some ((xs.flatMap fun x => add :: x) ++ l) := by
    intro xs l
    have hl : ((xs ++ [l]).flatMap fun t => [[add], t]) = (xs.flatMap fun t => [[add], t]) ++ [[add], l] := by
      simp [List.flatMap_append]
    unfold reconstruct
    simp only [hl, List.length_append, List.length_cons, List.length_nil]
    rw [if_neg (by omega)]
    have e : (xs.flatMap fun t => [[add], t]).length + 2 - 2 = (xs.flatMap fun t => [[add], t]).length + 0 := by omega
    rw [e, List.eraseIdx_append_of_length_le (by omega)]
    simp only [Nat.add_zero, Nat.sub_self, List.eraseIdx_cons_zero]
    rw [List.flatten_append]
    congr 1
    have : ∀ xs : List (List Nat), (xs.flatMap fun t => [[add], t]).flatten = xs.flatMap fun x => add :: x := by
      intro xs
      induction xs with
      | nil => rfl
      | cons x xs ih => simp [List.flatMap_cons, ih]
    rw [this]; simp
  have := key (t :: ts).dropLast ((t :: ts).getLast (by simp))
  rw [List.dropLast_concat_getLast] at this
  exact this

/-- **C44** (shape): assembling any non-empty list of complete terms gives the traversal of their right-nested sum,
a complete expression. -/
theorem C44_reconstruct (ar : Nat → Nat) (add : Nat) (hadd : ar add = 2) (t : Tree) (ts : List Tree)
    (hw : WFL ar (t :: ts)) :
    reconstruct add ((t :: ts).map preorder) = some (rightSum add t ts).preorder ∧ WF ar (rightSum add t ts) := by
  constructor
  · rw [List.map_cons, reconstruct_eq]
    congr 1
    clear hw
    induction ts generalizing t with
    | nil => simp [rightSum]
    | cons t' ts ih =>
      have := ih t'
      simp only [rightSum, preorder, preorderL, List.append_nil]
      rw [← this]
      simp [List.dropLast_cons_cons]
  · induction ts generalizing t with
    | nil => simpa [rightSum, WFL] using hw
    | cons t' ts ih =>
      simp only [WFL] at hw
      simp only [rightSum, WF, WFL, List.length_cons, List.length_nil]
      refine ⟨by omega, hw.1, ih t' (by simp only [WFL]; exact hw.2), trivial⟩

/-- **C44** (no loss): splitting the assembled expression again gives the same terms, in the same order, all with
sign `+`; its value is the sum of the terms' values. -/
theorem C44_split_reconstruct (isSum isSub : Nat → Bool) (add : Nat) (ha : isSum add = true) (hb : isSub add = false)
    (t : Tree) (ts : List Tree) (hts : ∀ x ∈ t :: ts, isSum x.root = false) :
    splitSum isSum isSub 1 (rightSum add t ts) = some ((t :: ts).map fun x => (1, x)) ∧
    ∀ v : Tree → Int, sumVal isSum isSub v (rightSum add t ts) = ((t :: ts).map v).sum := by
  have leaf : ∀ x : Tree, isSum x.root = false → splitSum isSum isSub 1 x = some [(1, x)] ∧
      ∀ v : Tree → Int, sumVal isSum isSub v x = v x := by
    intro x hx
    obtain ⟨r, cs⟩ := x
    simp only [root_node] at hx
    constructor
    · unfold splitSum; split <;> simp_all
    · intro v; unfold sumVal; split <;> simp_all
  induction ts generalizing t with
  | nil =>
    have := leaf t (hts t (by simp))
    simpa [rightSum] using this
  | cons t' ts ih =>
    obtain ⟨h1, h2⟩ := ih t' (fun x hx => hts x (List.mem_cons_of_mem _ hx))
    obtain ⟨h3, h4⟩ := leaf t (hts t (by simp))
    constructor
    · simp [rightSum, splitSum, ha, hb, h1, h3]
    · intro v
      simp [rightSum, sumVal, ha, hb, h2 v, h4 v]

/-- **C44** (hand-over): zero-padding a complete traversal to the maximal length and completing it again, as happens
when a program is made from it, returns the traversal unchanged. -/
theorem C44_pad_finish (ar : Nat → Nat) (choice : Nat → Nat) (t : Tree) (hw : WF ar t) (maxLength : Nat)
    (hl : t.preorder.length ≤ maxLength) :
    ∃ padded, tokens2index t.preorder maxLength = some padded ∧ padded.length = maxLength ∧
      finishTokens ar 1 choice padded = some t.preorder := by
  refine ⟨t.preorder ++ List.replicate (maxLength - t.preorder.length) 0, by simp [tokens2index, hl],
    by simp; omega, ?_⟩
  have hmem : -((1 : Nat) : Int) ∈ cumsum ar 0 (t.preorder ++ List.replicate (maxLength - t.preorder.length) 0) := by
    rw [cumsum_mem_iff]
    exact ⟨t.preorder, _, preorder_ne_nil t, rfl, by rw [dang_preorder ar t hw]; omega⟩
  obtain ⟨p, q, hpq, hex, hfin⟩ := finish_chop (choice := choice) (nObj := 1) (by omega) hmem
  have := exact_prefix_unique ar 1 (exact_preorder ar t hw) hex hpq
  rw [hfin, this]

/-- … and a traversal longer than the maximal length is rejected (the assignment raises), never truncated. -/
theorem C44_too_long (tokens : List Nat) (maxLength : Nat) (h : maxLength < tokens.length) :
    tokens2index tokens maxLength = none := by
  unfold tokens2index; rw [if_neg (by omega)]

example : reconstruct 0 [[2], [3, 2], [4]] = some [0, 2, 0, 3, 2, 4] ∧ reconstruct 0 [[2]] = some [2] ∧
    reconstruct 0 [] = none := by decide
def exAr4 : Nat → Nat := fun t => if t = 0 then 2 else if t = 1 then 1 else 0
example : WFL exAr4 [node 2 [], node 1 [node 2 []]] ∧ exAr4 0 = 2 := by simp [WF, WFL, exAr4]
example : ∀ x ∈ [node 2 [], node 3 [node 2 []]], exIsSum x.root = false := by simp [exIsSum]

/-! ## C45 -/

/-- **C45** (point mutation): a mutated token has the arity of the original; a variable stays a variable of the same
kind; with `terminal_only` operators are untouched. -/
theorem C45_mutate_single (lib : Lib) (hlib : lib.Valid) (terminalOnly : Bool) (tok choice new : Nat)
    (h : mutateSingle lib terminalOnly tok choice = some new) :
    lib.arity new = lib.arity tok ∧ new < lib.tokens.length ∧
    (0 < lib.arity tok → terminalOnly = true → new = tok) ∧
    (∀ tk, lib.tokens[tok]? = some tk → tk.stateVar.isSome → ∃ tk', lib.tokens[new]? = some tk' ∧ tk'.stateVar.isSome) ∧
    (∀ tk, lib.tokens[tok]? = some tk → tk.stateVar = none → tk.inputVar.isSome →
      ∃ tk', lib.tokens[new]? = some tk' ∧ tk'.inputVar.isSome) := by
  unfold mutateSingle at h
  cases htok : lib.tokens[tok]? with
  | none => simp [htok] at h
  | some tk =>
    have hlt : tok < lib.tokens.length := (List.getElem?_eq_some_iff.1 htok).1
    have harity : lib.arity tok = tk.arity := by simp [Lib.arity, htok]
    have hvalid : tk.Valid := hlib tk (List.mem_of_getElem? htok)
    simp only [htok] at h
    -- the candidate step
    have go : ∀ cand : List Nat, (if cand.length = 1 then some tok
        else if choice ∈ cand ∧ choice ≠ tok then some choice else none) = some new →
        new = tok ∨ new ∈ cand := by
      intro cand hc
      split at hc
      · exact Or.inl (by simpa using hc.symm)
      · split at hc
        · rename_i h2
          have : choice = new := by simpa using hc
          exact Or.inr (this ▸ h2.1)
        · simp at hc
    have same : new = tok → _ := fun e : new = tok => (show lib.arity new = lib.arity tok ∧ new < lib.tokens.length ∧
        (0 < lib.arity tok → terminalOnly = true → new = tok) ∧
        (∀ tk', some tk = some tk' → tk'.stateVar.isSome →
          ∃ tk'', lib.tokens[new]? = some tk'' ∧ tk''.stateVar.isSome) ∧
        (∀ tk', some tk = some tk' → tk'.stateVar = none → tk'.inputVar.isSome →
          ∃ tk'', lib.tokens[new]? = some tk'' ∧ tk''.inputVar.isSome) from by
      subst e
      refine ⟨rfl, hlt, fun _ _ => rfl, ?_, ?_⟩
      · intro tk' e hs; cases e; exact ⟨tk, htok, hs⟩
      · intro tk' e _ hi; cases e; exact ⟨tk, htok, hi⟩)
    by_cases ha : tk.arity = 0
    · simp only [ha, if_true] at h
      by_cases hs : tk.stateVar.isSome
      · simp only [hs, if_true] at h
        rcases go _ h with e | hm
        · exact same e
        · obtain ⟨tk', htk', hs'⟩ := Lib.mem_indices.1 hm
          have hv' := hlib tk' (List.mem_of_getElem? htk')
          have ha' := hv' (Or.inr (Or.inl hs'))
          refine ⟨by simp [Lib.arity, htk', htok, ha', ha], (List.getElem?_eq_some_iff.1 htk').1,
            fun h0 => by omega, ?_, ?_⟩
          · intro _ _ _; exact ⟨tk', htk', hs'⟩
          · intro tk'' e hn; cases e; simp [hn] at hs
      · simp only [hs] at h
        by_cases hi : tk.inputVar.isSome
        · simp only [hi, if_true, Bool.false_eq_true, if_false] at h
          rcases go _ h with e | hm
          · exact same e
          · -- `tok` itself is an input token, so the fallback to state tokens is not taken
            have hne : tok ∈ lib.indices (fun t => t.inputVar.isSome) := Lib.mem_indices.2 ⟨tk, htok, hi⟩
            have hm' : new ∈ lib.indices (fun t => t.inputVar.isSome) := by
              unfold Lib.inputTokens at hm
              simp only at hm
              split at hm
              · rename_i he
                rw [List.isEmpty_iff] at he
                rw [he] at hne; simp at hne
              · exact hm
            obtain ⟨tk', htk', hi'⟩ := Lib.mem_indices.1 hm'
            have hv' := hlib tk' (List.mem_of_getElem? htk')
            have ha' := hv' (Or.inl hi')
            refine ⟨by simp [Lib.arity, htk', htok, ha', ha], (List.getElem?_eq_some_iff.1 htk').1,
              fun h0 => by omega, ?_, ?_⟩
            · intro tk'' e hs'; cases e; exact absurd hs' hs
            · intro _ _ _ _; exact ⟨tk', htk', hi'⟩
        · simp [hi] at h
    · simp only [ha, if_false] at h
      have hnovar : tk.stateVar.isSome = false ∧ tk.inputVar.isSome = false := by
        constructor
        · cases hh : tk.stateVar.isSome
          · rfl
          · exact absurd (hvalid (Or.inr (Or.inl hh))) ha
        · cases hh : tk.inputVar.isSome
          · rfl
          · exact absurd (hvalid (Or.inl hh)) ha
      cases terminalOnly with
      | true => exact same (by simpa using h.symm)
      | false =>
        simp only [Bool.false_eq_true, if_false] at h
        rcases go _ h with e | hm
        · exact same e
        · have hma := Lib.mem_tokensOfArity.1 hm
          refine ⟨by rw [hma.2, harity], hma.1, fun _ h => by simp at h, ?_, ?_⟩
          · intro tk' e hs; cases e; simp [hnovar.1] at hs
          · intro tk' e _ hs; cases e; simp [hnovar.2] at hs

theorem dang_congr {ar : Nat → Nat} : ∀ {xs ys : List Nat}, xs.map ar = ys.map ar → ∀ d, dang ar d xs = dang ar d ys := by
  intro xs
  induction xs with
  | nil => intro ys h d; cases ys <;> simp_all
  | cons x xs ih =>
    intro ys h d
    cases ys with
    | nil => simp at h
    | cons y ys =>
      simp only [List.map_cons, List.cons.injEq] at h
      simp only [dang, h.1]
      exact ih h.2 _

/-- Token lists with the same arities are complete together. -/
theorem complete_of_arities {ar : Nat → Nat} {xs ys : List Nat} (h : xs.map ar = ys.map ar)
    (hx : ∃ t : Tree, WF ar t ∧ t.preorder = xs) : ∃ t : Tree, WF ar t ∧ t.preorder = ys := by
  obtain ⟨t, hw, rfl⟩ := hx
  have hex := exact_preorder ar t hw
  have hy : Exact ar ((1 : Nat) : Int) ys := by
    refine ⟨by rw [← dang_congr h]; exact hex.1, ?_⟩
    intro p q hpq hq
    have hlen : t.preorder.length = ys.length := by simpa using congrArg List.length h
    have hp : (t.preorder.take p.length).map ar = p.map ar := by
      rw [List.map_take, h, ← List.map_take, hpq, List.take_left]
    rw [← dang_congr hp]
    refine hex.2 _ (t.preorder.drop p.length) (List.take_append_drop _ _).symm ?_
    intro hd
    have h0 := congrArg List.length hd
    rw [List.length_drop, hlen, hpq] at h0
    simp at h0
    exact hq h0
  obtain ⟨ts, hl, hw', hp⟩ := forest_of_exact ar ys 1 hy
  obtain ⟨t', rfl⟩ : ∃ t, ts = [t] := List.length_eq_one_iff.1 hl
  exact ⟨t', by simpa [WFL] using hw', by simpa [preorderL] using hp⟩

theorem mapM_map_eq {α β γ : Type} (f : α → Option β) (g : β → γ) (g' : α → γ) :
    ∀ (xs : List α) (ys : List β), xs.mapM f = some ys → (∀ x ∈ xs, ∀ y, f x = some y → g y = g' x) →
      ys.map g = xs.map g' := by
  intro xs
  induction xs with
  | nil => intro ys h _; simp at h; simp [h]
  | cons x xs ih =>
    intro ys h hf
    rw [List.mapM_cons] at h
    simp only [Option.bind_eq_bind, Option.bind_eq_some_iff, Option.pure_def, Option.some.injEq] at h
    obtain ⟨y, hy, zs, hzs, rfl⟩ := h
    simp only [List.map_cons, List.cons.injEq]
    exact ⟨hf x (by simp) y hy, ih zs hzs (fun a ha => hf a (by simp [ha]))⟩

/-- **C45** (term mutation): whatever is drawn, a mutated complete term is a complete term with the same number of
tokens; terms of fewer than three tokens are unchanged. -/
theorem C45_mutate_term (lib : Lib) (hlib : lib.Valid) (terminalOnly : Bool) (draw : Nat → Option Nat)
    (term new : List Nat) (hterm : ∃ t : Tree, WF lib.arity t ∧ t.preorder = term)
    (h : mutateTerm lib terminalOnly draw term = some new) :
    (∃ t : Tree, WF lib.arity t ∧ t.preorder = new) ∧ new.length = term.length ∧
    (term.length < 3 → new = term) := by
  unfold mutateTerm at h
  split at h
  · rename_i hlen
    have har : new.map lib.arity = term.map lib.arity := by
      have := mapM_map_eq _ lib.arity (fun p : Nat × Nat => lib.arity p.1) _ _ h (by
        rintro ⟨tok, i⟩ _ y hy
        simp only at hy
        cases hd : draw i with
        | none => simp [hd] at hy; rw [hy]
        | some c =>
          simp only [hd] at hy
          exact (C45_mutate_single lib hlib terminalOnly tok c y hy).1)
      rw [this]
      have : (term.zipIdx.map Prod.fst) = term := by simp
      rw [← Function.comp_def, ← List.map_map, this]
    refine ⟨complete_of_arities har.symm hterm, by simpa using congrArg List.length har, fun h => by omega⟩
  · simp only [Option.some.injEq] at h
    subst h
    exact ⟨hterm, rfl, fun _ => rfl⟩

/-- **C45** (crossover): both variants succeed for any indices in range and neither list becomes empty; swapping
exchanges exactly two terms, and the other variant appends the chosen term to the first list and removes it from the
second, unless it is the only one. No term is invented or lost from the pair, except that a lone term is copied. -/
theorem C45_cross_over {α : Type} (swap : Bool) (i j : Nat) (xs ys : List α) (hi : i < xs.length) (hj : j < ys.length) :
    ∃ xs' ys', crossOver swap i j xs ys = some (xs', ys') ∧ xs' ≠ [] ∧ ys' ≠ [] ∧
      (swap = true ∨ 1 < ys.length → (xs' ++ ys').Perm (xs ++ ys)) ∧
      (swap = false → ys.length = 1 → xs' = xs ++ ys ∧ ys' = ys) ∧
      (swap = true → xs'[i]? = ys[j]? ∧ ys'[j]? = xs[i]? ∧ xs'.length = xs.length ∧ ys'.length = ys.length ∧
        (∀ k, k ≠ i → xs'[k]? = xs[k]?) ∧ ∀ k, k ≠ j → ys'[k]? = ys[k]?) ∧
      (swap = false → ∃ y, ys[j]? = some y ∧ xs' = xs ++ [y]) := by
  have hx : xs[i]? = some xs[i] := List.getElem?_eq_getElem hi
  have hy : ys[j]? = some ys[j] := List.getElem?_eq_getElem hj
  have split : ∀ (zs : List α) (k : Nat) (hk : k < zs.length), zs = zs.take k ++ zs[k] :: zs.drop (k + 1) := by
    intro zs k hk
    rw [← List.drop_eq_getElem_cons hk, List.take_append_drop]
  cases swap with
  | true =>
    refine ⟨xs.set i ys[j], ys.set j xs[i], by simp [crossOver, hx, hy], ?_, ?_, ?_, by simp, ?_, by simp⟩
    · intro h; have := congrArg List.length h; simp at this; simp [this] at hi
    · intro h; have := congrArg List.length h; simp at this; simp [this] at hj
    · intro _
      rw [List.set_eq_take_append_cons_drop, if_pos hi, List.set_eq_take_append_cons_drop, if_pos hj]
      conv => rhs; rw [split xs i hi, split ys j hj]
      generalize xs.take i = a; generalize xs.drop (i+1) = b; generalize ys.take j = c; generalize ys.drop (j+1) = d
      have e1 : (a ++ ys[j] :: b ++ (c ++ xs[i] :: d)).Perm (ys[j] :: xs[i] :: (a ++ b ++ (c ++ d))) := by
        have p1 : (a ++ ys[j] :: b).Perm (ys[j] :: (a ++ b)) := List.perm_middle
        have p2 : (c ++ xs[i] :: d).Perm (xs[i] :: (c ++ d)) := List.perm_middle
        refine (p1.append p2).trans ?_
        simp only [List.cons_append]
        exact List.Perm.cons _ List.perm_middle
      have e2 : (a ++ xs[i] :: b ++ (c ++ ys[j] :: d)).Perm (xs[i] :: ys[j] :: (a ++ b ++ (c ++ d))) := by
        have p1 : (a ++ xs[i] :: b).Perm (xs[i] :: (a ++ b)) := List.perm_middle
        have p2 : (c ++ ys[j] :: d).Perm (ys[j] :: (c ++ d)) := List.perm_middle
        refine (p1.append p2).trans ?_
        simp only [List.cons_append]
        exact List.Perm.cons _ List.perm_middle
      exact e1.trans ((List.Perm.swap _ _ _).trans e2.symm)
    · intro _
      refine ⟨by simp [hi, hy], by simp [hj, hx], by simp, by simp, ?_, ?_⟩
      · intro k hk; simp [Ne.symm hk]
      · intro k hk; simp [Ne.symm hk]
  | false =>
    refine ⟨xs ++ [ys[j]], if ys.length > 1 then ys.eraseIdx j else ys, by simp [crossOver, hx, hy], by simp, ?_, ?_,
      ?_, by simp, fun _ => ⟨ys[j], hy, rfl⟩⟩
    · split
      · intro h
        have := congrArg List.length h
        rw [List.length_eraseIdx_of_lt hj] at this
        simp at this; omega
      · intro h; simp [h] at hj
    · intro h
      have hgt : 1 < ys.length := by simpa using h
      rw [if_pos hgt, List.append_assoc]
      apply List.Perm.append_left
      conv => rhs; rw [split ys j hj]
      rw [List.eraseIdx_eq_take_drop_succ]
      exact (List.perm_middle (a := ys[j]) (l₁ := ys.take j) (l₂ := ys.drop (j + 1))).symm
    · intro _ h1
      rw [if_neg (by omega)]
      obtain ⟨y, rfl⟩ := List.length_eq_one_iff.1 h1
      have : j = 0 := by simp at hj; exact hj
      subst this
      simp

/-- library of the examples: 0 add, 1 mul, 2 sin, 3 x1, 4 x2, 5 u1. -/
def exLib5 : Lib := ⟨[{ name := "add", arity := 2 }, { name := "mul", arity := 2 }, { name := "sin", arity := 1 },
  { name := "x1", arity := 0, inputVar := some 0 }, { name := "x2", arity := 0, inputVar := some 1 },
  { name := "u1", arity := 0, stateVar := some 0 }]⟩
example : exLib5.Valid := by unfold Lib.Valid; decide
example : mutateTerm exLib5 false (fun i => if i = 0 then some 0 else if i = 1 then some 4 else none) [1, 3, 5] =
    some [0, 4, 5] := by decide
example : mutateSingle exLib5 false 5 3 = some 5 := by decide     -- the only state variable stays
example : crossOver true 0 1 [10, 11] [20, 21] = some ([21, 11], [20, 10]) ∧
    crossOver false 0 0 [10] [20] = some ([10, 20], [20]) := by decide

end Verif.Discover.Claims
