import Verif.Discover.Exec
import Verif.Discover.Finish
/-!
# C02 – trees and traversals; C03 – executing a traversal
-/
namespace Verif.Discover.Claims
open Tree

/-! ## C02 -/

/-- **C02**, round trip from trees: rebuilding from the traversal of any well-formed expression gives that
expression back and consumes exactly its tokens (what follows is left over), whatever follows, as soon as the
recursion may go as deep as the traversal is long. -/
theorem C02_rebuild_preorder (ar : Nat → Nat) (t : Tree) (hw : WF ar t) (rest : List Nat) (fuel : Nat)
    (hf : t.preorder.length ≤ fuel) : rebuild ar fuel (t.preorder ++ rest) = some (t, rest) :=
  rebuild_preorder ar t hw fuel rest hf

/-- **C02**, round trip from traversals: whenever rebuilding succeeds on any token list, the tree is well formed and
its traversal followed by the unread tokens is the list one started from. -/
theorem C02_preorder_rebuild (ar : Nat → Nat) (fuel : Nat) (xs : List Nat) (t : Tree) (rest : List Nat)
    (h : rebuild ar fuel xs = some (t, rest)) : WF ar t ∧ xs = t.preorder ++ rest :=
  (rebuild_sound ar fuel).1 xs t rest h

/-- **C02**, failure: rebuilding raises (with enough recursion depth) exactly on lists no prefix of which is a
complete expression. -/
theorem C02_rebuild_fails_iff (ar : Nat → Nat) (xs : List Nat) (fuel : Nat) (hf : xs.length ≤ fuel) :
    rebuild ar fuel xs = none ↔ ¬ ∃ t : Tree, WF ar t ∧ t.preorder <+: xs := by
  constructor
  · rintro h ⟨t, hw, q, rfl⟩
    rw [rebuild_preorder ar t hw fuel q (by simp at hf; omega)] at h
    exact absurd h (by simp)
  · intro h
    cases hr : rebuild ar fuel xs with
    | none => rfl
    | some p =>
      obtain ⟨h1, h2⟩ := (rebuild_sound ar fuel).1 xs p.1 p.2 hr
      exact absurd ⟨p.1, h1, p.2, h2.symm⟩ h

/-- **C02**, the stored list determines the expression: two expressions with the same traversal are equal, even if
one traversal is only a prefix of the other. -/
theorem C02_traversal_determines_tree (ar : Nat → Nat) (a b : Tree) (ha : WF ar a) (hb : WF ar b)
    (h : a.preorder <+: b.preorder) : a = b := by
  obtain ⟨q, hq⟩ := h
  have := exact_prefix_unique ar 1 (zs := q) (ws := []) (exact_preorder ar a ha) (exact_preorder ar b hb)
    (by simpa using hq)
  exact preorder_inj ar ha hb this

mutual
def Tree.MaxTwo : Tree → Prop
  | node _ cs => cs.length ≤ 2 ∧ Tree.MaxTwoL cs
def Tree.MaxTwoL : List Tree → Prop
  | [] => True
  | c :: cs => Tree.MaxTwo c ∧ Tree.MaxTwoL cs
end

theorem preTraverse_eq : ∀ fuel (ts : List Tree), Tree.MaxTwoL ts → (preorderL ts).length ≤ fuel →
    preTraverse fuel ts = some (preorderL ts) := by
  intro fuel
  induction fuel with
  | zero =>
    intro ts _ h
    cases ts with
    | nil => simp [preTraverse, preorderL]
    | cons c cs => simp [preorderL, preorder_eq] at h
  | succ fuel ih =>
    intro ts hm h
    cases ts with
    | nil => simp [preTraverse, preorderL]
    | cons c cs =>
      obtain ⟨t, ds⟩ := c
      simp only [Tree.MaxTwoL, Tree.MaxTwo] at hm
      simp only [preorderL, preorder, List.length_append, List.length_cons] at h
      obtain ⟨⟨hl, hm1⟩, hm2⟩ := hm
      match ds, hl, hm1, h with
      | [], _, _, h =>
        simp only [preTraverse]
        rw [ih cs hm2 (by simp [preorderL] at h; omega)]
        simp [preorderL, preorder]
      | [a], _, hm1, h =>
        simp only [preTraverse]
        simp only [Tree.MaxTwoL] at hm1
        rw [ih (a :: cs) (by simp only [Tree.MaxTwoL]; exact ⟨hm1.1, hm2⟩) (by simp [preorderL] at h ⊢; omega)]
        simp [preorderL, preorder]
      | [a, b], _, hm1, h =>
        simp only [preTraverse]
        simp only [Tree.MaxTwoL] at hm1
        rw [ih (a :: b :: cs) (by simp only [Tree.MaxTwoL]; exact ⟨hm1.1, hm1.2.1, hm2⟩)
          (by simp [preorderL] at h ⊢; omega)]
        simp [preorderL, preorder]
      | _ :: _ :: _ :: _, hl, _, _ => simp at hl

theorem maxTwo_of_WF (ar : Nat → Nat) (har : ∀ x, ar x ≤ 2) (t : Tree) : WF ar t → Tree.MaxTwo t := by
  induction t using Tree.induct with
  | h t cs ih =>
    intro hw
    simp only [WF] at hw
    simp only [Tree.MaxTwo]
    refine ⟨by have := har t; omega, ?_⟩
    have aux : ∀ ds : List Tree, (∀ d ∈ ds, d ∈ cs) → WFL ar ds → Tree.MaxTwoL ds := by
      intro ds
      induction ds with
      | nil => intro _ _; simp [Tree.MaxTwoL]
      | cons d ds ihd =>
        intro hm hwl
        simp only [WFL] at hwl
        simp only [Tree.MaxTwoL]
        exact ⟨ih d (hm d (by simp)) hwl.1, ihd (fun x hx => hm x (by simp [hx])) hwl.2⟩
    exact aux cs (fun _ h => h) hw.2

/-- **C02**, the walk the code itself uses to list the tokens of a term: for operators of at most two operands the
work-list walk returns the pre-order traversal, so walk ∘ rebuild and rebuild ∘ walk are the identity. -/
theorem C02_walk (ar : Nat → Nat) (har : ∀ x, ar x ≤ 2) (t : Tree) (hw : WF ar t) (fuel : Nat)
    (hf : t.preorder.length ≤ fuel) :
    preTraverse fuel [t] = some t.preorder ∧
    ∀ xs, preTraverse fuel [t] = some xs → rebuild ar fuel xs = some (t, []) := by
  have h1 : preTraverse fuel [t] = some t.preorder := by
    have := preTraverse_eq fuel [t] (by simp only [Tree.MaxTwoL]; exact ⟨maxTwo_of_WF ar har t hw, trivial⟩)
      (by simpa [preorderL] using hf)
    simpa [preorderL] using this
  refine ⟨h1, fun xs h => ?_⟩
  rw [h1] at h; cases h
  have := rebuild_preorder ar t hw fuel [] hf
  simpa using this

/-- An operator with three operands makes the walk fail its assertion. -/
theorem C02_walk_arity3 (fuel : Nat) (x : Nat) (a b c : Tree) (cs : List Tree) :
    preTraverse (fuel + 1) [node x (a :: b :: c :: cs)] = none := by simp [preTraverse]

def exAr3 : Nat → Nat := fun t => if t = 0 then 2 else if t = 1 then 1 else 0
/-- add(sin(x), x) with 0 = add, 1 = sin, 2 = x -/
def exTree3 : Tree := node 0 [node 1 [node 2 []], node 2 []]
example : WF exAr3 exTree3 ∧ exTree3.preorder.length ≤ 4 ∧ (∀ x, exAr3 x ≤ 2) := by
  refine ⟨by simp [WF, WFL, exAr3, exTree3], by decide, ?_⟩
  intro x; simp only [exAr3]; split <;> (try split) <;> omega
example : ¬ ∃ t : Tree, WF exAr3 t ∧ t.preorder <+: [0, 1, 2] :=
  (C02_rebuild_fails_iff exAr3 [0, 1, 2] 3 (by decide)).1 (by simp [rebuild, rebuildN, exAr3])

/-! ## C03 -/

/-- **C03**, for every operator semantics (numpy or torch or any other): executing the traversal of an expression,
with anything after it, gives exactly what recursive left-to-right evaluation of the expression gives. -/
theorem C03_execute_eval {V : Type} (ar : Nat → Nat) (ap : ApplyFn V) (t : Tree) (hw : WF ar t) (rest : List Nat) :
    execute ar ap (t.preorder ++ rest) = (evalT ap none t).1 := by
  unfold execute
  rw [exec_tree ar ap t hw]
  cases h : evalT ap none t with
  | mk r fl => cases r <;> simp [feed]

/-- operands still missing before the bottom frame is complete. -/
def need {V : Type} (ar : Nat → Nat) : List (Nat × List V) → Int
  | [] => 1
  | f :: fs => ((ar f.1 : Int) - f.2.length - 1) + need ar fs

theorem need_reduce {V : Type} (ar : Nat → Nat) (ap : ApplyFn V) : ∀ (stack : List (Nat × List V))
    (fl : Option Nat) (top : Nat × List V),
    (∀ v, reduce ar ap fl top stack = .inl (.val v) → need ar (top :: stack) = 0) ∧
    (∀ fl' s', reduce ar ap fl top stack = .inr (fl', s') → need ar s' = need ar (top :: stack)) := by
  intro stack
  induction stack with
  | nil =>
    intro fl top
    by_cases h : top.2.length = ar top.1
    · simp only [reduce, h, if_true]
      refine ⟨fun v _ => by simp [need]; omega, fun fl' s' h' => by simp at h'⟩
    · simp only [reduce, h, if_false]
      refine ⟨fun v h' => by simp at h', fun fl' s' h' => ?_⟩
      simp only [Sum.inr.injEq, Prod.mk.injEq] at h'
      rw [← h'.2]
  | cons f fs ih =>
    intro fl top
    by_cases h : top.2.length = ar top.1
    · simp only [reduce, h, if_true]
      cases hap : ap top.1 top.2 fl with
      | mk r fl1 =>
        cases r with
        | retNone => simp
        | raise => simp
        | val v =>
          simp only
          have e : need ar ((f.1, f.2 ++ [v]) :: fs) = need ar (top :: f :: fs) := by
            simp [need]; omega
          rw [← e]
          exact ih fl1 (f.1, f.2 ++ [v])
    · simp only [reduce, h, if_false]
      refine ⟨fun v h' => by simp at h', fun fl' s' h' => ?_⟩
      simp only [Sum.inr.injEq, Prod.mk.injEq] at h'
      rw [← h'.2]

theorem execLoop_val {V : Type} (ar : Nat → Nat) (ap : ApplyFn V) (xs : List Nat) : ∀ (fl : Option Nat)
    (stack : List (Nat × List V)) (v : V), execLoop ar ap fl stack xs = .val v →
    ∃ p q, p ≠ [] ∧ xs = p ++ q ∧ dang ar (need ar stack) p = 0 := by
  induction xs with
  | nil => intro fl stack v h; simp [execLoop] at h
  | cons x xs ih =>
    intro fl stack v h
    have e : need ar ((x, ([] : List V)) :: stack) = need ar stack + ((ar x : Int) - 1) := by
      simp [need]; omega
    simp only [execLoop] at h
    cases hr : reduce ar ap fl (x, []) stack with
    | inl r =>
      simp only [hr] at h
      subst h
      have h0 := (need_reduce ar ap stack fl (x, [])).1 v hr
      refine ⟨[x], xs, by simp, by simp, ?_⟩
      simp only [dang]; omega
    | inr p =>
      obtain ⟨fl', s'⟩ := p
      simp only [hr] at h
      have h0 := (need_reduce ar ap stack fl (x, [])).2 fl' s' hr
      obtain ⟨p, q, _, hpq, hd⟩ := ih fl' s' v h
      refine ⟨x :: p, q, by simp, by simp [hpq], ?_⟩
      simp only [dang]
      rw [← e, ← h0]; exact hd

/-- **C03**, converse: a value is returned only if some prefix of the token list is a complete expression that
recursive evaluation gives this very value; in particular an incomplete traversal never yields a value. -/
theorem C03_value_iff {V : Type} (ar : Nat → Nat) (ap : ApplyFn V) (xs : List Nat) (v : V) :
    execute ar ap xs = .val v ↔
      ∃ t : Tree, WF ar t ∧ t.preorder <+: xs ∧ (evalT ap none t).1 = .val v := by
  constructor
  · intro h
    obtain ⟨p, q, hp, hpq, hd⟩ := execLoop_val ar ap xs none [] v h
    have hmem : -((1 : Nat) : Int) ∈ cumsum ar 0 xs := by
      rw [cumsum_mem_iff]
      refine ⟨p, q, hp, hpq, ?_⟩
      have := dang_eq ar 1 p
      simp only [need] at hd
      omega
    obtain ⟨p, q, hpq, hex, _⟩ := finish_chop (choice := fun _ => 0) (nObj := 1) (by omega) hmem
    obtain ⟨ts, hl, hw, hp⟩ := forest_of_exact ar p 1 hex
    obtain ⟨t, rfl⟩ : ∃ t, ts = [t] := List.length_eq_one_iff.1 hl
    have hw' : WF ar t := by simpa [WFL] using hw
    have hp' : t.preorder = p := by simpa [preorderL] using hp
    refine ⟨t, hw', ⟨q, by rw [hp', hpq]⟩, ?_⟩
    rw [← C03_execute_eval ar ap t hw' q, hp', ← hpq]; exact h
  · rintro ⟨t, hw, ⟨q, rfl⟩, hv⟩
    rw [C03_execute_eval ar ap t hw q, hv]

/-- The input variable read last in `xs` (plus one), or `fl` if none is read (spec for the derivative axis). -/
def lastInput (lib : Lib) (fl : Option Nat) (xs : List Nat) : Option Nat :=
  xs.foldl (fun f t => match (lib.tokens[t]?).bind Token.inputVar with
    | some i => some (i + 1)
    | none => f) fl

theorem npApply_flag {V : Type} (lib : Lib) (env : ExecEnv V) (t : Nat) (vs : List V) (fl : Option Nat) (v : V)
    (fl' : Option Nat) (h : npApply lib env t vs fl = (.val v, fl')) : fl' = lastInput lib fl [t] := by
  simp only [lastInput, List.foldl]
  unfold npApply at h
  cases htok : lib.tokens[t]? with
  | none => simp [htok] at h
  | some tok =>
    simp only [htok] at h
    simp only [Option.bind_some]
    cases hi : tok.inputVar with
    | some i =>
      simp only [hi] at h
      cases hx : env.x i with
      | none => simp [hx] at h
      | some w => simp only [hx, Prod.mk.injEq] at h; exact h.2.symm
    | none =>
      simp only [hi] at h
      cases hp : tok.paramVar with
      | some j => simp only [hp, Prod.mk.injEq] at h; exact h.2.symm
      | none =>
        simp only [hp] at h
        cases hs : tok.stateVar with
        | some j =>
          simp only [hs] at h
          cases hu : env.u j with
          | none => simp [hu] at h
          | some w => simp only [hu, Prod.mk.injEq] at h; exact h.2.symm
        | none =>
          simp only [hs] at h
          generalize hr : (if isDiffName tok.name = true then env.callDiff t vs fl
            else if tok.name = "lap" ∨ tok.name = "lap_3" ∨ tok.name = "lap_t" then env.callLap t vs
            else env.call t vs) = r at h
          cases r with
          | none => simp at h
          | some w => simp only [Prod.mk.injEq] at h; exact h.2.symm

/-- the operands of a token list evaluate left to right, and an operator is read before its operands but applied
after them: the flag after a variable-free operator is the flag after its operands. -/
theorem evalT_flag {V : Type} (lib : Lib) (hlib : lib.Valid) (env : ExecEnv V) (t : Tree) :
    WF lib.arity t → ∀ fl v fl',
    evalT (npApply lib env) fl t = (.val v, fl') → fl' = lastInput lib fl t.preorder := by
  induction t using Tree.induct with
  | h t cs ih =>
    intro hw fl v fl' h
    simp only [WF] at hw
    have aux : ∀ ds : List Tree, (∀ d ∈ ds, d ∈ cs) → WFL lib.arity ds → ∀ fl ws fl',
        evalL (npApply lib env) fl ds = (.inr ws, fl') → fl' = lastInput lib fl (preorderL ds) := by
      intro ds
      induction ds with
      | nil => intro _ _ fl ws fl' h; simp [evalL] at h; simp [preorderL, lastInput, h.2]
      | cons d ds ihd =>
        intro hm hwl fl ws fl' h
        simp only [WFL] at hwl
        simp only [evalL] at h
        cases hd : evalT (npApply lib env) fl d with
        | mk r fl1 =>
          simp only [hd] at h
          cases r with
          | retNone => simp at h
          | raise => simp at h
          | val w =>
            simp only at h
            cases hds : evalL (npApply lib env) fl1 ds with
            | mk r2 fl2 =>
              simp only [hds] at h
              cases r2 with
              | inl r2 => simp at h
              | inr ws2 =>
                simp only [Prod.mk.injEq] at h
                have e1 := ih d (hm d (by simp)) hwl.1 fl w fl1 hd
                have e2 := ihd (fun x hx => hm x (by simp [hx])) hwl.2 fl1 ws2 fl2 hds
                rw [← h.2, e2, e1]
                simp [lastInput, preorderL, List.foldl_append]
    simp only [evalT] at h
    cases hcs : evalL (npApply lib env) fl cs with
    | mk r fl1 =>
      simp only [hcs] at h
      cases r with
      | inl r =>
        simp only [Prod.mk.injEq] at h
        rw [h.1] at hcs
        exact absurd hcs ((evalL_facts _ cs fl).1 v fl1)
      | inr ws =>
        simp only at h
        have e1 := aux cs (fun _ h => h) hw.2 fl ws fl1 hcs
        have e2 := npApply_flag lib env t ws fl1 v fl' h
        by_cases hc : cs = []
        · subst hc
          simp only [preorderL, lastInput, List.foldl] at e1
          subst e1
          simpa [preorder, preorderL] using e2
        · -- an operator with operands is not an input variable
          have hpos : 0 < lib.arity t := by
            have := List.length_pos_iff.2 hc; omega
          have hni : (lib.tokens[t]?).bind Token.inputVar = none := by
            cases htok : lib.tokens[t]? with
            | none => rfl
            | some tok =>
              simp only [Option.bind_some]
              have hv := hlib tok (List.mem_of_getElem? htok)
              have ha : lib.arity t = tok.arity := by simp [Lib.arity, htok]
              cases hi : tok.inputVar with
              | none => rfl
              | some i =>
                have := hv (Or.inl (by simp [hi])); omega
          have e3 : lastInput lib fl1 [t] = fl1 := by simp [lastInput, hni]
          have e4 : lastInput lib fl (preorder (node t cs)) = lastInput lib fl (preorderL cs) := by
            simp [lastInput, preorder, hni]
          rw [e2, e3, e4, e1]

/-- **C03**, the derivative axis (numpy): a derivative operator whose operands evaluate is called with them and with
the input variable most recently read when it is applied: the last one among its own operands' tokens, and if they
mention none, the one read before (`fl`). -/
theorem C03_derivative_axis {V : Type} (lib : Lib) (hlib : lib.Valid) (env : ExecEnv V) (d : Nat) (cs : List Tree)
    (hw : WF lib.arity (node d cs)) (tok : Token) (htok : lib.tokens[d]? = some tok) (hd : isDiffName tok.name = true)
    (hop : tok.inputVar = none ∧ tok.paramVar = none ∧ tok.stateVar = none)
    (fl fl' : Option Nat) (ws : List V) (hops : evalL (npApply lib env) fl cs = (.inr ws, fl')) :
    (evalT (npApply lib env) fl (node d cs)).1 =
      match env.callDiff d ws (lastInput lib fl (preorderL cs)) with
      | some v => .val v
      | none => .retNone := by
  simp only [WF] at hw
  have hfl : fl' = lastInput lib fl (preorderL cs) := by
    have : ∀ ds : List Tree, WFL lib.arity ds → ∀ fl ws fl', evalL (npApply lib env) fl ds = (.inr ws, fl') →
        fl' = lastInput lib fl (preorderL ds) := by
      intro ds
      induction ds with
      | nil => intro _ fl ws fl' h; simp [evalL] at h; simp [preorderL, lastInput, h.2]
      | cons c ds ihd =>
        intro hwl fl ws fl' h
        simp only [WFL] at hwl
        simp only [evalL] at h
        cases hc : evalT (npApply lib env) fl c with
        | mk r fl1 =>
          simp only [hc] at h
          cases r with
          | retNone => simp at h
          | raise => simp at h
          | val w =>
            simp only at h
            cases hds : evalL (npApply lib env) fl1 ds with
            | mk r2 fl2 =>
              simp only [hds] at h
              cases r2 with
              | inl r2 => simp at h
              | inr ws2 =>
                simp only [Prod.mk.injEq] at h
                have e1 := evalT_flag lib hlib env c hwl.1 fl w fl1 hc
                have e2 := ihd hwl.2 fl1 ws2 fl2 hds
                rw [← h.2, e2, e1]
                simp [lastInput, preorderL, List.foldl_append]
    exact this cs hw.2 fl ws fl' hops
  simp only [evalT, hops]
  subst hfl
  simp only [npApply, htok, hop.1, hop.2.1, hop.2.2, hd, if_true]
  cases env.callDiff d ws (lastInput lib fl (preorderL cs)) <;> rfl

/-- **C03**, exceptions (numpy): if every token is in the library and every variable it reads exists, execution of
*any* token list never raises – a failing operator makes the call return None. -/
theorem C03_numpy_never_raises {V : Type} (lib : Lib) (env : ExecEnv V) (xs : List Nat)
    (hin : ∀ t ∈ xs, t < lib.tokens.length)
    (hx : ∀ tok ∈ lib.tokens, ∀ i, tok.inputVar = some i → (env.x i).isSome)
    (hu : ∀ tok ∈ lib.tokens, ∀ j, tok.stateVar = some j → (env.u j).isSome) :
    execute lib.arity (npApply lib env) xs ≠ .raise := by
  have hap : ∀ t, t < lib.tokens.length → ∀ vs fl, (npApply lib env t vs fl).1 ≠ .raise := by
    intro t ht vs fl
    have htok : lib.tokens[t]? = some lib.tokens[t] := List.getElem?_eq_getElem ht
    have hm : lib.tokens[t] ∈ lib.tokens := List.getElem_mem ht
    generalize lib.tokens[t] = tok at htok hm
    simp only [npApply, htok]
    cases hi : tok.inputVar with
    | some i =>
      have := hx tok hm i hi
      simp only
      cases he : env.x i with
      | none => simp [he] at this
      | some w => simp
    | none =>
      simp only
      cases hp : tok.paramVar with
      | some j => simp
      | none =>
        simp only
        cases hs : tok.stateVar with
        | some j =>
          have := hu tok hm j hs
          simp only
          cases he : env.u j with
          | none => simp [he] at this
          | some w => simp
        | none =>
          simp only
          generalize (if isDiffName tok.name = true then env.callDiff t vs fl
            else if tok.name = "lap" ∨ tok.name = "lap_3" ∨ tok.name = "lap_t" then env.callLap t vs
            else env.call t vs) = r
          cases r <;> simp
  have hred : ∀ (stack : List (Nat × List V)) fl (top : Nat × List V), top.1 < lib.tokens.length →
      (∀ f ∈ stack, f.1 < lib.tokens.length) →
      reduce lib.arity (npApply lib env) fl top stack ≠ .inl .raise ∧
      ∀ fl' s', reduce lib.arity (npApply lib env) fl top stack = .inr (fl', s') →
        ∀ f ∈ s', f.1 < lib.tokens.length := by
    intro stack
    induction stack with
    | nil =>
      intro fl top ht _
      simp only [reduce]
      split
      · refine ⟨fun h => ?_, by simp⟩
        simp only [Sum.inl.injEq] at h
        exact hap _ ht _ _ h
      · refine ⟨by simp, fun fl' s' h => ?_⟩
        simp only [Sum.inr.injEq, Prod.mk.injEq] at h
        rw [← h.2]; simpa using ht
    | cons f fs ih =>
      intro fl top ht hs
      simp only [reduce]
      split
      · cases hr : npApply lib env top.1 top.2 fl with
        | mk r fl1 =>
          cases r with
          | val v => exact ih fl1 (f.1, f.2 ++ [v]) (hs f (by simp)) (fun g hg => hs g (by simp [hg]))
          | retNone => simp
          | raise => exact absurd (by rw [hr]) (hap top.1 ht top.2 fl)
      · refine ⟨by simp, fun fl' s' h => ?_⟩
        simp only [Sum.inr.injEq, Prod.mk.injEq] at h
        rw [← h.2]
        intro g hg
        rcases List.mem_cons.1 hg with rfl | hg
        · exact ht
        · exact hs g hg
  have loop : ∀ (xs : List Nat), (∀ t ∈ xs, t < lib.tokens.length) → ∀ fl (stack : List (Nat × List V)),
      (∀ f ∈ stack, f.1 < lib.tokens.length) → execLoop lib.arity (npApply lib env) fl stack xs ≠ .raise := by
    intro xs
    induction xs with
    | nil => intro _ fl stack _; simp [execLoop]
    | cons x xs ih =>
      intro hin fl stack hs
      obtain ⟨h1, h2⟩ := hred stack fl (x, []) (hin x (by simp)) hs
      simp only [execLoop]
      cases hr : reduce lib.arity (npApply lib env) fl (x, []) stack with
      | inl r =>
        simp only
        intro h; subst h
        exact h1 hr
      | inr p =>
        exact ih (fun t ht => hin t (by simp [ht])) p.1 p.2 (h2 p.1 p.2 hr)
  exact loop xs hin none [] (by simp)

/-- A library of the examples: 0 mul, 1 diff, 2 x1, 3 x2, 4 u1. -/
def exLib3 : Lib := ⟨[{ name := "mul", arity := 2 }, { name := "diff", arity := 2 },
  { name := "x1", arity := 0, inputVar := some 0 }, { name := "x2", arity := 0, inputVar := some 1 },
  { name := "u1", arity := 0, stateVar := some 0 }]⟩
/-- "Values" record which calls were made. -/
def exEnv : ExecEnv (List Nat) where
  x := fun i => some [20 + i]
  u := fun j => if j = 0 then some [40] else none
  param := fun _ => []
  call := fun t vs => some (t :: vs.flatten)
  callDiff := fun t vs fl => if fl = some 2 ∨ fl = some 1 then some (t :: (100 + fl.getD 0) :: vs.flatten) else none
  callLap := fun _ _ => none

-- u * du/dx2 : the derivative is called with axis flag 2
example : execute exLib3.arity (npApply exLib3 exEnv) [0, 4, 1, 4, 3, 2, 2] =
    .val [0, 40, 1, 102, 40, 21] := by decide
-- diff(u, u): no input variable has been read, the operator fails, None is returned
example : execute exLib3.arity (npApply exLib3 exEnv) [0, 4, 1, 4, 4] = .retNone := by decide
-- an incomplete traversal gives None
example : execute exLib3.arity (npApply exLib3 exEnv) [0, 4, 1, 4] = .retNone := by decide
example : exLib3.Valid ∧ WF exLib3.arity (node 1 [node 4 [], node 3 []]) ∧ isDiffName "diff" = true ∧
    evalL (npApply exLib3 exEnv) none [node 4 [], node 3 []] = (.inr [[40], [21]], some 2) := by
  refine ⟨?_, by simp [WF, WFL, Lib.arity, exLib3], by decide, by rfl⟩
  unfold Lib.Valid; decide
example : (∀ tok ∈ exLib3.tokens, ∀ i, tok.inputVar = some i → (exEnv.x i).isSome) ∧
    (∀ tok ∈ exLib3.tokens, ∀ j, tok.stateVar = some j → (exEnv.u j).isSome) := by
  constructor
  · intro tok _ i _; rfl
  · intro tok h j hj
    simp only [exLib3, List.mem_cons, List.not_mem_nil, or_false] at h
    rcases h with rfl | rfl | rfl | rfl | rfl <;> simp_all [exEnv]

end Verif.Discover.Claims
