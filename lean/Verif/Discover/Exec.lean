import Verif.Discover.Library
/-!
# Building trees from traversals and executing traversals
(kd/model/discover/stridge.py, kd/model/discover/execute.py)
-/
namespace Verif.Discover
open Tree

mutual
/-- stridge.py:417-428 `STRidge.rebuild_tree` (and the module-level `build_tree`, 164-179, which differs only in
how it labels the node): pops the front token, then builds its operands in order; returns the tree and the
remaining (mutated) list.  `none`: `pop(0)` from an empty list raises IndexError – or the recursion is deeper than
`fuel` (Python's recursion limit; `fuel` is arbitrary). -/
def rebuild (ar : Nat → Nat) : Nat → List Nat → Option (Tree × List Nat)
  | 0, _ => none
  | _ + 1, [] => none
  | fuel + 1, op :: rest =>
    match rebuildN ar fuel (ar op) rest with
    | none => none
    | some (cs, rest') => some (node op cs, rest')
/-- the loop `for _ in range(n_children): node.children.append(self.rebuild_tree())`. -/
def rebuildN (ar : Nat → Nat) : Nat → Nat → List Nat → Option (List Tree × List Nat)
  | _, 0, rest => some ([], rest)
  | fuel, k + 1, rest =>
    match rebuild ar fuel rest with
    | none => none
    | some (c, rest') =>
      match rebuildN ar fuel k rest' with
      | none => none
      | some (cs, rest'') => some (c :: cs, rest'')
end

/-- stridge.py:343-360 `preorder_traverse`: a work list of nodes, children inserted at the front; a node with more
than two children fails the assertion (`none`). `fuel` bounds the `while` loop. -/
def preTraverse : Nat → List Tree → Option (List Nat)
  | _, [] => some []
  | 0, _ :: _ => none
  | fuel + 1, node t cs :: nodes =>
    match cs with
    | [] => (preTraverse fuel nodes).map (t :: ·)
    | [a] => (preTraverse fuel (a :: nodes)).map (t :: ·)
    | [a, b] => (preTraverse fuel (a :: b :: nodes)).map (t :: ·)
    | _ => none

/-- How a Python call ends: with a value, with `return None`, or with an uncaught exception. -/
inductive Res (V : Type) where
  | val (v : V)
  | retNone
  | raise
deriving DecidableEq

/-- What one reduction step does with a token and its evaluated operands, given the current `dim_flag`. -/
abbrev ApplyFn (V : Type) := Nat → List V → Option Nat → Res V × Option Nat

/-- execute.py:17-47, the `while` loop of `python_execute`: `top` is `apply_stack[-1]` (token, operands so far),
`rest` the frames below it.  Result: the call ended (`inl`), or the new flag and stack (`inr`). -/
def reduce {V : Type} (ar : Nat → Nat) (ap : ApplyFn V) :
    Option Nat → Nat × List V → List (Nat × List V) → Sum (Res V) (Option Nat × List (Nat × List V))
  | fl, top, [] =>
    if top.2.length = ar top.1 then .inl (ap top.1 top.2 fl).1
    else .inr (fl, [top])
  | fl, top, f :: fs =>
    if top.2.length = ar top.1 then
      match ap top.1 top.2 fl with
      | (.val v, fl') => reduce ar ap fl' (f.1, f.2 ++ [v]) fs
      | (r, _) => .inl r
    else .inr (fl, top :: f :: fs)

/-- execute.py:14-47, the `for` loop of `python_execute`; when it runs out of tokens the function falls off its
end and returns None. -/
def execLoop {V : Type} (ar : Nat → Nat) (ap : ApplyFn V) :
    Option Nat → List (Nat × List V) → List Nat → Res V
  | _, _, [] => .retNone
  | fl, stack, x :: xs =>
    match reduce ar ap fl (x, []) stack with
    | .inl r => r
    | .inr (fl', stack') => execLoop ar ap fl' stack' xs

/-- execute.py:8-12: empty stack, `dim_flag = None`. -/
def execute {V : Type} (ar : Nat → Nat) (ap : ApplyFn V) (traversal : List Nat) : Res V :=
  execLoop ar ap none [] traversal

/-- The data and operator semantics a traversal is executed with; `none` means an exception. -/
structure ExecEnv (V : Type) where
  x : Nat → Option V
  u : Nat → Option V
  param : Nat → V
  call : Nat → List V → Option V
  callDiff : Nat → List V → Option Nat → Option V
  callLap : Nat → List V → Option V

/-- execute.py:18-42, numpy version.  Reading `x[...]`/`u[...]` is outside the `try` block. -/
def npApply {V : Type} (lib : Lib) (env : ExecEnv V) : ApplyFn V := fun t vs fl =>
  match lib.tokens[t]? with
  | none => (.raise, fl)
  | some tok =>
    match tok.inputVar with
    | some i => match env.x i with
      | some v => (.val v, some (i + 1))
      | none => (.raise, fl)
    | none =>
      match tok.paramVar with
      | some _ => (.val (env.param t), fl)
      | none =>
        match tok.stateVar with
        | some j => match env.u j with
          | some v => (.val v, fl)
          | none => (.raise, fl)
        | none =>
          let r := if isDiffName tok.name then env.callDiff t vs fl
            else if tok.name = "lap" ∨ tok.name = "lap_3" ∨ tok.name = "lap_t" then env.callLap t vs
            else env.call t vs
          match r with
          | some v => (.val v, fl)
          | none => (.retNone, fl)

/-- execute.py:51-105, torch version.  `bad v`: the value is all-NaN or all-infinite, or the check raises.  Only
derivative operators are inside a `try`; they are not given the flag. -/
def torchApply {V : Type} (lib : Lib) (env : ExecEnv V) (bad : V → Bool) : ApplyFn V := fun t vs fl =>
  let chk (r : Option V) (onRaise : Res V) (fl' : Option Nat) : Res V × Option Nat :=
    match r with
    | some v => if bad v then (.retNone, fl') else (.val v, fl')
    | none => (onRaise, fl')
  match lib.tokens[t]? with
  | none => (.raise, fl)
  | some tok =>
    match tok.inputVar with
    | some i => chk (env.x i) .raise (some (i + 1))
    | none =>
      match tok.paramVar with
      | some _ => chk (some (env.param t)) .raise fl
      | none =>
        match tok.stateVar with
        | some j => chk (env.u j) .raise fl
        | none =>
          if isDiffName tok.name then chk (env.call t vs) .retNone fl
          else if hasSub "lap".toList tok.name.toList then chk (env.callLap t vs) .raise fl
          else chk (env.call t vs) .raise fl

/-! ## Specification: the recursive evaluator -/

mutual
/-- Evaluate an expression: operands left to right, then the operator; `fl` is the most recently read input
variable (plus one).  Evaluation stops at the first failing operand. -/
def evalT {V : Type} (ap : ApplyFn V) (fl : Option Nat) : Tree → Res V × Option Nat
  | node t cs =>
    match evalL ap fl cs with
    | (.inl r, fl') => (r, fl')
    | (.inr vs, fl') => ap t vs fl'
def evalL {V : Type} (ap : ApplyFn V) (fl : Option Nat) : List Tree → Sum (Res V) (List V) × Option Nat
  | [] => (.inr [], fl)
  | c :: cs =>
    match evalT ap fl c with
    | (.val v, fl') =>
      match evalL ap fl' cs with
      | (.inl r, fl'') => (.inl r, fl'')
      | (.inr vs, fl'') => (.inr (v :: vs), fl'')
    | (r, fl') => (.inl r, fl')
end

/-! ## Lemmas -/

theorem rebuild_preorder (ar : Nat → Nat) (t : Tree) : WF ar t → ∀ fuel rest, t.preorder.length ≤ fuel →
    rebuild ar fuel (t.preorder ++ rest) = some (t, rest) := by
  induction t using Tree.induct with
  | h t cs ih =>
    intro hw fuel rest hf
    simp only [WF] at hw
    simp only [preorder, List.length_cons] at hf
    cases fuel with
    | zero => omega
    | succ fuel =>
      have key : ∀ ds : List Tree, (∀ d ∈ ds, d ∈ cs) → (preorderL ds).length ≤ fuel → WFL ar ds → ∀ rest,
          rebuildN ar fuel ds.length (preorderL ds ++ rest) = some (ds, rest) := by
        intro ds
        induction ds with
        | nil => intro _ _ _ rest; simp [rebuildN, preorderL]
        | cons d ds ihd =>
          intro hm hl hwl rest
          simp only [preorderL, List.length_append] at hl
          simp only [WFL] at hwl
          simp only [preorderL, List.length_cons, rebuildN, List.append_assoc]
          rw [ih d (hm d (by simp)) hwl.1 fuel _ (by omega)]
          simp only
          rw [ihd (fun x hx => hm x (by simp [hx])) (by omega) hwl.2]
      simp only [preorder, List.cons_append, rebuild]
      rw [← hw.1, key cs (fun _ h => h) (by omega) hw.2]

theorem rebuild_sound (ar : Nat → Nat) : ∀ fuel,
    (∀ xs t rest, rebuild ar fuel xs = some (t, rest) → WF ar t ∧ xs = t.preorder ++ rest) ∧
    (∀ k xs cs rest, rebuildN ar fuel k xs = some (cs, rest) →
      cs.length = k ∧ WFL ar cs ∧ xs = preorderL cs ++ rest) := by
  intro fuel
  have hN : ∀ fuel, (∀ xs t rest, rebuild ar fuel xs = some (t, rest) → WF ar t ∧ xs = t.preorder ++ rest) →
      ∀ k xs cs rest, rebuildN ar fuel k xs = some (cs, rest) →
        cs.length = k ∧ WFL ar cs ∧ xs = preorderL cs ++ rest := by
    intro fuel hr k
    induction k with
    | zero => intro xs cs rest h; simp [rebuildN] at h; obtain ⟨rfl, rfl⟩ := h; simp [WFL, preorderL]
    | succ k ihk =>
      intro xs cs rest h
      simp only [rebuildN] at h
      cases hc : rebuild ar fuel xs with
      | none => simp [hc] at h
      | some p =>
        obtain ⟨c, rest'⟩ := p
        simp only [hc] at h
        cases hcs : rebuildN ar fuel k rest' with
        | none => simp [hcs] at h
        | some q =>
          obtain ⟨ds, rest''⟩ := q
          simp only [hcs, Option.some.injEq, Prod.mk.injEq] at h
          obtain ⟨rfl, rfl⟩ := h
          obtain ⟨h1, h2⟩ := hr _ _ _ hc
          obtain ⟨h3, h4, h5⟩ := ihk _ _ _ hcs
          refine ⟨by simp [h3], ?_, ?_⟩
          · simp only [WFL]; exact ⟨h1, h4⟩
          · simp only [preorderL, List.append_assoc]; rw [h2, h5]
  induction fuel with
  | zero =>
    have h0 : ∀ xs t rest, rebuild ar 0 xs = some (t, rest) → WF ar t ∧ xs = t.preorder ++ rest := by
      intro xs t rest h; simp [rebuild] at h
    exact ⟨h0, hN 0 h0⟩
  | succ fuel ih =>
    have h1 : ∀ xs t rest, rebuild ar (fuel + 1) xs = some (t, rest) → WF ar t ∧ xs = t.preorder ++ rest := by
      intro xs t rest h
      cases xs with
      | nil => simp [rebuild] at h
      | cons op xs =>
        simp only [rebuild] at h
        cases hc : rebuildN ar fuel (ar op) xs with
        | none => simp [hc] at h
        | some p =>
          obtain ⟨cs, rest'⟩ := p
          simp only [hc, Option.some.injEq, Prod.mk.injEq] at h
          obtain ⟨rfl, rfl⟩ := h
          obtain ⟨h1, h2, h3⟩ := ih.2 _ _ _ _ hc
          exact ⟨by simp only [WF]; exact ⟨h1, h2⟩, by simp [preorder, h3]⟩
    exact ⟨h1, hN _ h1⟩

/-- Continue executing after the expression on top of `stack` has produced `v`. -/
def feed {V : Type} (ar : Nat → Nat) (ap : ApplyFn V) (fl : Option Nat) (v : V) (stack : List (Nat × List V))
    (xs : List Nat) : Res V :=
  match stack with
  | [] => .val v
  | f :: fs =>
    match reduce ar ap fl (f.1, f.2 ++ [v]) fs with
    | .inl r => r
    | .inr (fl', stack') => execLoop ar ap fl' stack' xs

theorem reduce_partial {V : Type} (ar : Nat → Nat) (ap : ApplyFn V) (fl : Option Nat) (top : Nat × List V)
    (hl : top.2.length ≠ ar top.1) (stack : List (Nat × List V)) :
    reduce ar ap fl top stack = .inr (fl, top :: stack) := by
  cases stack <;> simp only [reduce, if_neg hl]

theorem evalL_facts {V : Type} (ap : ApplyFn V) (cs : List Tree) : ∀ fl,
    (∀ v fl', evalL ap fl cs ≠ (.inl (.val v), fl')) ∧
    (∀ ws fl', evalL ap fl cs = (.inr ws, fl') → ws.length = cs.length) := by
  induction cs with
  | nil => intro fl; simp [evalL]
  | cons c cs ih =>
    intro fl
    simp only [evalL]
    cases hc : evalT ap fl c with
    | mk r fl1 =>
      cases r with
      | retNone => simp
      | raise => simp
      | val v =>
        simp only
        cases hcs : evalL ap fl1 cs with
        | mk r2 fl2 =>
          cases r2 with
          | inl r2 =>
            simp only [ne_eq, Prod.mk.injEq, Sum.inl.injEq, not_and, reduceCtorEq, false_and, false_implies,
              implies_true, and_true]
            intro w fl' h _
            subst h
            exact (ih fl1).1 w fl2 hcs
          | inr ws =>
            simp only [ne_eq, Prod.mk.injEq, reduceCtorEq, false_and, not_false_eq_true, implies_true,
              Sum.inr.injEq, true_and]
            rintro ws' fl' ⟨rfl, rfl⟩
            simp [(ih fl1).2 ws fl2 hcs]

/-- One complete operator frame. -/
theorem reduce_full {V : Type} (ar : Nat → Nat) (ap : ApplyFn V) (fl : Option Nat) (t : Nat) (vs : List V)
    (hl : vs.length = ar t) (stack : List (Nat × List V)) (xs : List Nat) :
    (match reduce ar ap fl (t, vs) stack with
      | .inl r => r
      | .inr (fl', stack') => execLoop ar ap fl' stack' xs) =
    match ap t vs fl with
    | (.val v, fl') => feed ar ap fl' v stack xs
    | (r, _) => r := by
  cases stack with
  | nil =>
    simp only [reduce, hl, if_true]
    cases hap : ap t vs fl with
    | mk r fl' => cases r <;> simp [feed]
  | cons f fs =>
    simp only [reduce, hl, if_true]
    cases hap : ap t vs fl with
    | mk r fl' => cases r <;> simp [feed]

theorem exec_tree {V : Type} (ar : Nat → Nat) (ap : ApplyFn V) (t : Tree) : WF ar t →
    ∀ (fl : Option Nat) (stack : List (Nat × List V)) (xs : List Nat),
    execLoop ar ap fl stack (t.preorder ++ xs) =
      match evalT ap fl t with
      | (.val v, fl') => feed ar ap fl' v stack xs
      | (r, _) => r := by
  induction t using Tree.induct with
  | h t cs ih =>
    intro hw fl stack xs
    simp only [WF] at hw
    -- operands
    have key : ∀ ds : List Tree, (∀ d ∈ ds, d ∈ cs) → ds ≠ [] → WFL ar ds → ∀ (fl : Option Nat) (vs : List V),
        vs.length + ds.length = ar t →
        execLoop ar ap fl ((t, vs) :: stack) (preorderL ds ++ xs) =
          match evalL ap fl ds with
          | (.inl r, _) => r
          | (.inr ws, fl') =>
            match reduce ar ap fl' (t, vs ++ ws) stack with
            | .inl r => r
            | .inr (fl'', stack') => execLoop ar ap fl'' stack' xs := by
      intro ds
      induction ds with
      | nil => intro _ h; exact absurd rfl h
      | cons d ds ihd =>
        intro hm _ hwl fl vs hlen
        simp only [WFL] at hwl
        simp only [preorderL, List.append_assoc, evalL]
        rw [ih d (hm d (by simp)) hwl.1]
        cases hev : evalT ap fl d with
        | mk r fl1 =>
          cases r with
          | retNone => rfl
          | raise => rfl
          | val v =>
            simp only [feed]
            by_cases hds : ds = []
            · subst hds
              simp only [evalL, preorderL, List.nil_append]
            · have hlt : (vs ++ [v]).length ≠ ar t := by
                have := List.length_pos_iff.2 hds
                simp at hlen ⊢; omega
              have hred : reduce ar ap fl1 (t, vs ++ [v]) stack = .inr (fl1, (t, vs ++ [v]) :: stack) := by
                exact reduce_partial ar ap fl1 (t, vs ++ [v]) hlt stack
              rw [hred]
              simp only
              rw [ihd (fun x hx => hm x (by simp [hx])) hds hwl.2 fl1 (vs ++ [v]) (by simp at hlen ⊢; omega)]
              cases hevl : evalL ap fl1 ds with
              | mk r2 fl2 =>
                cases r2 with
                | inl r => rfl
                | inr ws => simp
    simp only [preorder, List.cons_append, execLoop, evalT]
    by_cases hcs : cs = []
    · subst hcs
      simp only [preorderL, List.nil_append, evalL]
      exact reduce_full ar ap fl t [] (by simpa using hw.1) stack xs
    · have hne : ([] : List V).length ≠ ar t := by
        have := List.length_pos_iff.2 hcs
        simp only [List.length_nil]; omega
      have hred : reduce ar ap fl (t, []) stack = .inr (fl, (t, []) :: stack) := by
        exact reduce_partial ar ap fl (t, []) hne stack
      rw [hred]
      simp only
      rw [key cs (fun _ h => h) hcs hw.2 fl [] (by simpa using hw.1)]
      cases hevl : evalL ap fl cs with
      | mk r fl1 =>
        cases r with
        | inl r =>
          cases r with
          | val v => exact absurd hevl ((evalL_facts ap cs fl).1 v fl1)
          | retNone => rfl
          | raise => rfl
        | inr ws =>
          have hwl : ws.length = cs.length := (evalL_facts ap cs fl).2 ws fl1 hevl
          simp only [List.nil_append]
          exact reduce_full ar ap fl1 t ws (by omega) stack xs

end Verif.Discover
