import Verif.Claims.Exec
/-!
# C66 – torch execution never lets a degenerate value through
-/
namespace Verif.Discover.Claims
open Verif.Discover Tree

theorem torchApply_val {V : Type} {lib : Lib} {env : ExecEnv V} {bad : V → Bool} {t : Nat} {vs : List V}
    {fl fl' : Option Nat} {v : V} (h : torchApply lib env bad t vs fl = (.val v, fl')) : bad v = false := by
  unfold torchApply at h
  revert h
  dsimp only
  intro h
  split at h
  · cases h
  · repeat' (split at h)
    all_goals first
      | (cases h; done)
      | (cases h; simp_all; done)
      | (simp at h; done)
      | (obtain ⟨h1, _⟩ := Prod.mk.inj h; cases h1; simp_all)

mutual
theorem evalT_torch {V : Type} {lib : Lib} {env : ExecEnv V} {bad : V → Bool} :
    ∀ (t : Tree) (fl fl' : Option Nat) (v : V), evalT (torchApply lib env bad) fl t = (.val v, fl') →
      bad v = false ∧ ∀ d ∈ t.subtrees, ∃ g g' w, evalT (torchApply lib env bad) g d = (.val w, g') ∧ bad w = false
  | node t cs, fl, fl', v, h => by
    simp only [evalT] at h
    cases hL : evalL (torchApply lib env bad) fl cs with
    | mk r fl1 =>
      rw [hL] at h
      cases r with
      | inl r =>
        -- a failing operand cannot give a value
        simp only at h
        exact absurd h (fun hh => evalL_inl hL (Prod.mk.inj hh).1)
      | inr vs =>
        simp only at h
        have hb := torchApply_val h
        refine ⟨hb, fun d hd => ?_⟩
        simp only [subtrees, List.mem_cons] at hd
        rcases hd with rfl | hd
        · exact ⟨fl, fl', v, by simp only [evalT, hL]; exact h, hb⟩
        · exact evalL_torch cs fl fl1 vs hL d hd
theorem evalL_torch {V : Type} {lib : Lib} {env : ExecEnv V} {bad : V → Bool} :
    ∀ (cs : List Tree) (fl fl' : Option Nat) (vs : List V), evalL (torchApply lib env bad) fl cs = (.inr vs, fl') →
      ∀ d ∈ subtreesL cs, ∃ g g' w, evalT (torchApply lib env bad) g d = (.val w, g') ∧ bad w = false
  | [], _, _, _, _, d, hd => by simp [subtreesL] at hd
  | c :: cs, fl, fl', vs, h, d, hd => by
    simp only [evalL] at h
    cases hT : evalT (torchApply lib env bad) fl c with
    | mk r fl1 =>
      rw [hT] at h
      cases r with
      | val v =>
        simp only at h
        cases hL : evalL (torchApply lib env bad) fl1 cs with
        | mk r2 fl2 =>
          rw [hL] at h
          cases r2 with
          | inl r => simp at h
          | inr ws =>
            simp only [subtreesL, List.mem_append] at hd
            rcases hd with hd | hd
            · exact (evalT_torch c fl fl1 v hT).2 d hd
            · exact evalL_torch cs fl1 fl2 ws hL d hd
      | retNone => simp at h
      | raise => simp at h
theorem evalL_inl {V : Type} {ap : ApplyFn V} : ∀ {cs : List Tree} {fl fl' : Option Nat} {r : Res V} {v : V},
    evalL ap fl cs = (.inl r, fl') → r ≠ .val v
  | [], _, _, _, _, h => by simp [evalL] at h
  | c :: cs, fl, fl', r, v, h => by
    simp only [evalL] at h
    cases hT : evalT ap fl c with
    | mk r1 fl1 =>
      rw [hT] at h
      cases r1 with
      | val w =>
        simp only at h
        cases hL : evalL ap fl1 cs with
        | mk r2 fl2 =>
          rw [hL] at h
          cases r2 with
          | inl r' => simp at h; obtain ⟨rfl, _⟩ := h; exact evalL_inl hL
          | inr ws => simp at h
      | retNone => simp at h; obtain ⟨rfl, _⟩ := h; simp
      | raise => simp at h; obtain ⟨rfl, _⟩ := h; simp
end

/-- **C66.** Torch execution returns a value only if the traversal starts with a complete expression all of whose
subexpressions evaluated to values passing the check – no intermediate result was all-NaN or all-infinite (`bad`)
– and the value returned is that of the whole expression. -/
theorem C66_no_bad_value {V : Type} (lib : Lib) (env : ExecEnv V) (bad : V → Bool) (xs : List Nat) (v : V)
    (h : execute lib.arity (torchApply lib env bad) xs = .val v) :
    bad v = false ∧ ∃ t : Tree, WF lib.arity t ∧ t.preorder <+: xs ∧
      (evalT (torchApply lib env bad) none t).1 = .val v ∧
      ∀ d ∈ t.subtrees, ∃ fl w, (evalT (torchApply lib env bad) fl d).1 = .val w ∧ bad w = false := by
  obtain ⟨t, hw, hp, hv⟩ := (C03_value_iff lib.arity _ xs v).1 h
  cases he : evalT (torchApply lib env bad) none t with
  | mk r fl' =>
    rw [he] at hv
    simp only at hv
    subst hv
    obtain ⟨h1, h2⟩ := evalT_torch t none fl' v he
    refine ⟨h1, t, hw, hp, by rw [he], fun d hd => ?_⟩
    obtain ⟨g, g', w, e, hb⟩ := h2 d hd
    exact ⟨g, w, by rw [e], hb⟩

/-- What the check does to one application; without the check nothing depends on the axis flag. -/
theorem torchApply_filter {V : Type} (lib : Lib) (env : ExecEnv V) (bad : V → Bool) (t : Nat) (vs : List V)
    (fl fl' : Option Nat) : (torchApply lib env bad t vs fl).1 =
      match (torchApply lib env (fun _ => false) t vs fl').1 with
      | .val v => if bad v then .retNone else .val v
      | r => r := by
  unfold torchApply
  cases h : lib.tokens[t]? with
  | none => rfl
  | some tok =>
    simp only
    cases tok.inputVar with
    | some i => cases hx : env.x i with
      | none => simp [hx]
      | some v => by_cases hb : bad v = true <;> simp [hb, hx]
    | none =>
      cases tok.paramVar with
      | some k => by_cases hb : bad (env.param t) = true <;> simp [hb]
      | none =>
        cases tok.stateVar with
        | some j => cases hx : env.u j with
          | none => simp [hx]
          | some v => by_cases hb : bad v = true <;> simp [hb, hx]
        | none =>
          simp only
          by_cases h1 : isDiffName tok.name = true
          · rw [if_pos h1, if_pos h1]
            cases hx : env.call t vs with
            | none => simp
            | some v => by_cases hb : bad v = true <;> simp [hb]
          · rw [if_neg h1, if_neg h1]
            by_cases h2 : hasSub "lap".toList tok.name.toList = true
            · rw [if_pos h2, if_pos h2]
              cases hx : env.callLap t vs with
              | none => simp
              | some v => by_cases hb : bad v = true <;> simp [hb]
            · rw [if_neg h2, if_neg h2]
              cases hx : env.call t vs with
              | none => simp
              | some v => by_cases hb : bad v = true <;> simp [hb]

/-- Values of an operand list, flags dropped. -/
theorem evalL_cons_inr {V : Type} (ap : ApplyFn V) (fl : Option Nat) (c : Tree) (cs : List Tree) (vs : List V) :
    (evalL ap fl (c :: cs)).1 = .inr vs ↔
      ∃ v ws, vs = v :: ws ∧ (evalT ap fl c).1 = .val v ∧ (evalL ap (evalT ap fl c).2 cs).1 = .inr ws := by
  simp only [evalL]
  cases hT : evalT ap fl c with
  | mk r fl1 =>
    cases r with
    | val v =>
      simp only
      cases hL : evalL ap fl1 cs with
      | mk r2 fl2 => cases r2 with
        | inl r => simp
        | inr ws =>
          simp only [Sum.inr.injEq, Res.val.injEq]
          constructor
          · rintro rfl; exact ⟨v, ws, rfl, rfl, rfl⟩
          · rintro ⟨v', ws', rfl, rfl, rfl⟩; rfl
    | retNone => simp
    | raise => simp

theorem evalT_val {V : Type} (ap : ApplyFn V) (fl : Option Nat) (t : Nat) (cs : List Tree) (v : V) :
    (evalT ap fl (node t cs)).1 = .val v ↔
      ∃ vs, (evalL ap fl cs).1 = .inr vs ∧ (ap t vs (evalL ap fl cs).2).1 = .val v := by
  simp only [evalT]
  cases hL : evalL ap fl cs with
  | mk r fl1 =>
    cases r with
    | inl r =>
      simp only
      constructor
      · intro h; exact absurd h (evalL_inl hL)
      · rintro ⟨vs, h, _⟩; cases h
    | inr vs => simp

mutual
theorem torch_iff {V : Type} (lib : Lib) (env : ExecEnv V) (bad : V → Bool) : ∀ (t : Tree) (fl fl' : Option Nat) (v : V),
    (evalT (torchApply lib env bad) fl t).1 = .val v ↔
      (evalT (torchApply lib env fun _ => false) fl' t).1 = .val v ∧
      ∀ d ∈ t.subtrees, ∃ w, (evalT (torchApply lib env fun _ => false) none d).1 = .val w ∧ bad w = false
  | node t cs, fl, fl', v => by
    have flagfree : ∀ g g' w, (evalT (torchApply lib env fun _ => false) g (node t cs)).1 = .val w →
        (evalT (torchApply lib env fun _ => false) g' (node t cs)).1 = .val w := by
      intro g g' w h
      rw [evalT_val] at h ⊢
      obtain ⟨vs, h1, h2⟩ := h
      refine ⟨vs, ((torchL_iff lib env (fun _ => false) cs g g' vs).1 h1).1, ?_⟩
      rw [torchApply_filter lib env _ t vs _ (evalL (torchApply lib env fun _ => false) g cs).2, h2]
      simp
    constructor
    · intro h
      rw [evalT_val] at h
      obtain ⟨vs, h1, h2⟩ := h
      obtain ⟨k1, k2⟩ := (torchL_iff lib env bad cs fl fl' vs).1 h1
      have hv : (torchApply lib env (fun _ => false) t vs (evalL (torchApply lib env fun _ => false) fl' cs).2).1 = .val v ∧
          bad v = false := by
        rw [torchApply_filter lib env bad t vs _ (evalL (torchApply lib env fun _ => false) fl' cs).2] at h2
        split at h2
        · rename_i w hw
          by_cases hb : bad w = true
          · simp [hb] at h2
          · simp [hb] at h2
            subst h2
            exact ⟨hw, by simpa using hb⟩
        · rename_i r hr
          exact absurd h2 (hr v)
      have hT : (evalT (torchApply lib env fun _ => false) fl' (node t cs)).1 = .val v :=
        (evalT_val ..).2 ⟨vs, k1, hv.1⟩
      refine ⟨hT, fun d hd => ?_⟩
      simp only [subtrees, List.mem_cons] at hd
      rcases hd with rfl | hd
      · exact ⟨v, flagfree _ _ _ hT, hv.2⟩
      · exact k2 d hd
    · rintro ⟨h, hall⟩
      rw [evalT_val] at h ⊢
      obtain ⟨vs, h1, h2⟩ := h
      have k := (torchL_iff lib env bad cs fl fl' vs).2 ⟨h1, fun d hd => hall d (by simp [subtrees, hd])⟩
      refine ⟨vs, k, ?_⟩
      rw [torchApply_filter lib env bad t vs _ (evalL (torchApply lib env fun _ => false) fl' cs).2, h2]
      obtain ⟨w, hw, hb⟩ := hall (node t cs) (by simp [subtrees])
      have := flagfree none fl' w hw
      rw [evalT_val] at this
      obtain ⟨vs', h1', h2'⟩ := this
      rw [h1] at h1'
      cases h1'
      rw [h2] at h2'
      cases h2'
      simp [hb]
theorem torchL_iff {V : Type} (lib : Lib) (env : ExecEnv V) (bad : V → Bool) :
    ∀ (cs : List Tree) (fl fl' : Option Nat) (vs : List V),
    (evalL (torchApply lib env bad) fl cs).1 = .inr vs ↔
      (evalL (torchApply lib env fun _ => false) fl' cs).1 = .inr vs ∧
      ∀ d ∈ subtreesL cs, ∃ w, (evalT (torchApply lib env fun _ => false) none d).1 = .val w ∧ bad w = false
  | [], fl, fl', vs => by simp [evalL, subtreesL]
  | c :: cs, fl, fl', vs => by
    rw [evalL_cons_inr, evalL_cons_inr]
    constructor
    · rintro ⟨v, ws, rfl, h1, h2⟩
      obtain ⟨a1, a2⟩ := (torch_iff lib env bad c fl fl' v).1 h1
      obtain ⟨b1, b2⟩ := (torchL_iff lib env bad cs _ (evalT (torchApply lib env fun _ => false) fl' c).2 ws).1 h2
      refine ⟨⟨v, ws, rfl, a1, b1⟩, fun d hd => ?_⟩
      simp only [subtreesL, List.mem_append] at hd
      rcases hd with hd | hd
      · exact a2 d hd
      · exact b2 d hd
    · rintro ⟨⟨v, ws, rfl, h1, h2⟩, hall⟩
      refine ⟨v, ws, rfl, ?_, ?_⟩
      · exact (torch_iff lib env bad c fl fl' v).2 ⟨h1, fun d hd => hall d (by simp [subtreesL, hd])⟩
      · exact (torchL_iff lib env bad cs _ (evalT (torchApply lib env fun _ => false) fl' c).2 ws).2
          ⟨h2, fun d hd => hall d (by simp [subtreesL, hd])⟩
end

/-- **C66**, exactly when: executing the traversal of an expression returns `v` if and only if plain evaluation
(no check) gives `v` and plain evaluation of *every* subexpression gives a value that is not degenerate.  So the
check only ever turns a result into None, and does so exactly when some intermediate value is degenerate. -/
theorem C66_value_iff {V : Type} (lib : Lib) (env : ExecEnv V) (bad : V → Bool) (t : Tree)
    (hw : WF lib.arity t) (rest : List Nat) (v : V) :
    execute lib.arity (torchApply lib env bad) (t.preorder ++ rest) = .val v ↔
      (evalT (torchApply lib env fun _ => false) none t).1 = .val v ∧
      ∀ d ∈ t.subtrees, ∃ w, (evalT (torchApply lib env fun _ => false) none d).1 = .val w ∧ bad w = false := by
  rw [C03_execute_eval lib.arity _ t hw rest]
  exact torch_iff lib env bad t none none v

/-- A case that meets the hypothesis, and one with a bad intermediate value. -/
example : (execute exLib3.arity (torchApply exLib3 exEnv (fun v => v == [20])) [0, 3, 4]) = .val [0, 21, 40] ∧
    (execute exLib3.arity (torchApply exLib3 exEnv (fun v => v == [21])) [0, 3, 4]) = .retNone := by
  decide +kernel

end Verif.Discover.Claims
