import Verif.Discover.GenericCheck
import Verif.Claims.Sampling
/-!
# C188: the generic check of a constraint
-/
namespace Verif.Discover.Claims
open Tree

theorem makeWith_none (mask : Bool) (ts : List Nat) (t : Nat) : makeWith none mask ts t = makeConstraint mask ts t := rfl

/-- With the mask value `-inf` the constraint is the one of the sampler. -/
theorem C188_same (lib : Lib) (p : Hard) (actions : List Nat) (parent : Int) (sibling : Nat) (d : Int) (t : Nat) :
    p.callWith none lib actions parent sibling d t = p.prior.call lib actions parent sibling d t := by
  cases p with
  | relational c => rcases c with ⟨T, E, r⟩; cases r <;> rfl
  | length mn mx => rfl
  | «repeat» toks mx => rfl
  | noInputs => rfl

/-- A finite mask value: nothing is excluded, and an adjustment of 0 means not masked. -/
theorem makeWith_one (mask : Bool) (ts : List Nat) (t : Nat) :
    (makeConstraint mask ts t = none ∧ makeWith (some 1) mask ts t = some 1) ∨ (makeConstraint mask ts t = some 0 ∧ makeWith (some 1) mask ts t = some 0) := by
  unfold makeConstraint makeWith
  by_cases h : (mask && ts.contains t) = true
  · left; rw [if_pos h, if_pos h]; exact ⟨rfl, rfl⟩
  · right; rw [if_neg h, if_neg h]; exact ⟨rfl, rfl⟩

theorem add_one {a b : Logit} {x y : Logit} (ha : (a = none ∧ ∃ r, 0 < r ∧ x = some r) ∨ (a = some 0 ∧ x = some 0))
    (hb : (b = none ∧ ∃ r, 0 < r ∧ y = some r) ∨ (b = some 0 ∧ y = some 0)) :
    (Logit.add a b = none ∧ ∃ r, 0 < r ∧ Logit.add x y = some r) ∨ (Logit.add a b = some 0 ∧ Logit.add x y = some 0) := by
  rcases ha with ⟨rfl, r, hr, rfl⟩ | ⟨rfl, rfl⟩ <;> rcases hb with ⟨rfl, s, hs, rfl⟩ | ⟨rfl, rfl⟩
  · exact .inl ⟨rfl, r + s, by grind, rfl⟩
  · exact .inl ⟨rfl, r + 0, by grind, rfl⟩
  · exact .inl ⟨rfl, 0 + s, by grind, rfl⟩
  · exact .inr ⟨congrArg some (by grind), congrArg some (by grind)⟩

theorem makeWith_pos (mask : Bool) (ts : List Nat) (t : Nat) :
    (makeConstraint mask ts t = none ∧ ∃ r, 0 < r ∧ makeWith (some 1) mask ts t = some r) ∨
      (makeConstraint mask ts t = some 0 ∧ makeWith (some 1) mask ts t = some 0) := by
  rcases makeWith_one mask ts t with ⟨h, h'⟩ | h
  · exact .inl ⟨h, 1, by decide, h'⟩
  · exact .inr h

theorem call_one (lib : Lib) (p : Hard) (actions : List Nat) (parent : Int) (sibling : Nat) (d : Int) (t : Nat) :
    (p.prior.call lib actions parent sibling d t = none ∧ ∃ r, 0 < r ∧ p.callWith (some 1) lib actions parent sibling d t = some r) ∨
      (p.prior.call lib actions parent sibling d t = some 0 ∧ p.callWith (some 1) lib actions parent sibling d t = some 0) := by
  have hz : ((some 0 : Logit) = none ∧ ∃ r, 0 < r ∧ (some 0 : Logit) = some r) ∨ ((some 0 : Logit) = some 0 ∧ (some 0 : Logit) = some 0) := .inr ⟨rfl, rfl⟩
  cases p with
  | relational c =>
    rcases c with ⟨T, E, r⟩
    cases r
    case sibling => exact add_one (makeWith_pos _ _ _) (makeWith_pos _ _ _)
    all_goals exact makeWith_pos _ _ _
  | length mn mx =>
    refine add_one ?_ ?_
    · cases mx with
      | none => exact hz
      | some m =>
        simp only
        split
        · exact add_one (makeWith_pos _ _ _) (makeWith_pos _ _ _)
        · exact hz
    · cases mn with
      | none => exact hz
      | some m =>
        simp only
        split
        · exact makeWith_pos _ _ _
        · exact hz
  | «repeat» toks mx => exact makeWith_pos _ _ _
  | noInputs => exact makeWith_pos _ _ _

/-- The operands missing after the first `k` tokens. -/
def missing (lib : Lib) (xs : List Nat) (k : Nat) : Int := 1 + ((xs.take k).map fun a => (lib.arity a : Int) - 1).sum

theorem loop_iff (lib : Lib) (p : Hard) (xs : List Nat) (par : List Int) (sib : List Nat) :
    ∀ (as : List Nat) (t : Nat), xs.drop t = as →
      (genericLoop lib p xs par sib t (missing lib xs t) as = true ↔
        ∃ i a, t ≤ i ∧ xs[i]? = some a ∧ p.prior.call lib (xs.take i) (par.getD i 0) (sib.getD i 0) (missing lib xs (i + 1)) a = none) := by
  intro as
  induction as with
  | nil =>
    intro t h
    simp only [genericLoop, Bool.false_eq_true, false_iff]
    rintro ⟨i, a, hi, ha, _⟩
    have := (List.getElem?_eq_some_iff.1 ha).1
    have := List.drop_eq_nil_iff.1 h
    omega
  | cons a as ih =>
    intro t h
    have ht : xs[t]? = some a := by
      have := congrArg (fun l => l[0]?) h
      simpa using this
    have hlt := (List.getElem?_eq_some_iff.1 ht).1
    have hdrop : xs.drop (t + 1) = as := by
      rw [← List.tail_drop, h]; rfl
    have hd : missing lib xs t + ((lib.arity a : Int) - 1) = missing lib xs (t + 1) := by
      unfold missing
      have : xs.take (t + 1) = xs.take t ++ [a] := by
        rw [List.take_succ_eq_append_getElem hlt]
        rw [List.getElem?_eq_getElem hlt] at ht
        cases ht; rfl
      rw [this]
      simp
      omega
    simp only [genericLoop, hd]
    rcases call_one lib p (xs.take t) (par.getD t 0) (sib.getD t 0) (missing lib xs (t + 1)) a with ⟨h1, r, hr, h2⟩ | ⟨h1, h2⟩
    · rw [h2, if_pos (by intro h; cases h; exact absurd hr (by decide))]
      simp only [true_iff]
      exact ⟨t, a, Nat.le_refl _, ht, h1⟩
    · rw [h2, if_neg (by simp), ih (t + 1) hdrop]
      constructor
      · rintro ⟨i, b, hi, hb, hc⟩
        exact ⟨i, b, by omega, hb, hc⟩
      · rintro ⟨i, b, hi, hb, hc⟩
        rcases Nat.lt_or_ge t i with hti | hti
        · exact ⟨i, b, hti, hb, hc⟩
        · have : i = t := by omega
          subst this
          rw [ht] at hb
          cases hb
          rw [h1] at hc
          nomatch hc

/-- **C188** (answer).  The generic check says "violated" exactly if some token of the sequence is masked at its position – but with the number of missing
operands *after* that token, where the sampler takes the number before it. -/
theorem C188_answer (lib : Lib) (p : Hard) (m : Logit) (xs : List Nat) (par : List Int) (sib : List Nat) :
    (genericCheck lib p m xs par sib).1 = true ↔
      ∃ i a, xs[i]? = some a ∧ p.prior.call lib (xs.take i) (par.getD i 0) (sib.getD i 0) (missing lib xs (i + 1)) a = none := by
  unfold genericCheck
  rw [show (1 : Int) = missing lib xs 0 by simp [missing], loop_iff lib p xs par sib xs 0 rfl]
  simp

/-- **C188** (relational and repeat constraints, which do not look at the missing operands): the check agrees with the masks of the sampler. -/
theorem C188_exact_partial (lib : Lib) (p : Hard) (hp : (∃ c, p = .relational c) ∨ ∃ toks mx, p = .repeat toks mx) (m : Logit) (xs : List Nat) (par : List Int)
    (sib : List Nat) :
    (genericCheck lib p m xs par sib).1 = true ↔
      ∃ i a, xs[i]? = some a ∧ p.prior.call lib (xs.take i) (par.getD i 0) (sib.getD i 0) (missing lib xs i) a = none := by
  rw [C188_answer]
  rcases hp with ⟨c, rfl⟩ | ⟨toks, mx, rfl⟩ <;> exact Iff.rfl

/-- **C188** fails for the length constraint: the generic check calls `add(x1, x1)` a violation of the minimal length 3, although the sampler masks none of its
tokens and the constraint's own check accepts it. -/
theorem C188_length_counterexample :
    (genericCheck exLib (.length (some 3) none) none [0, 3, 3] (parentRow exLib [0, 3, 3]) (siblingRow exLib [0, 3, 3])).1 = true ∧
      lengthIsViolated (some 3) none [0, 3, 3] = false ∧
      ∀ i a, [0, 3, 3][i]? = some a → (Prior.length (some 3) none).call exLib ([0, 3, 3].take i) ((parentRow exLib [0, 3, 3]).getD i 0)
        ((siblingRow exLib [0, 3, 3]).getD i 0) (missing exLib [0, 3, 3] i) a ≠ none := by
  refine ⟨by decide +kernel, by decide, ?_⟩
  intro i a h
  match i, h with
  | 0, h => simp at h; subst h; decide
  | 1, h => simp at h; subst h; decide
  | 2, h => simp at h; subst h; decide

/-- **C188** fails: the check changes the constraint.  Afterwards no token is excluded any more, in no situation; the forbidden tokens are even preferred. -/
theorem C188_disabled_counterexample (lib : Lib) (p : Hard) (m : Logit) (xs : List Nat) (par : List Int) (sib : List Nat) (actions : List Nat) (parent : Int)
    (sibling : Nat) (d : Int) (t : Nat) :
    p.callWith (genericCheck lib p m xs par sib).2 lib actions parent sibling d t ≠ none ∧
      (p.prior.call lib actions parent sibling d t = none → ∃ r, 0 < r ∧ p.callWith (genericCheck lib p m xs par sib).2 lib actions parent sibling d t = some r) := by
  rcases call_one lib p actions parent sibling d t with ⟨h1, r, hr, h2⟩ | ⟨h1, h2⟩
  · exact ⟨by show p.callWith (some 1) _ _ _ _ _ _ ≠ none; rw [h2]; simp, fun _ => ⟨r, hr, h2⟩⟩
  · refine ⟨by show p.callWith (some 1) _ _ _ _ _ _ ≠ none; rw [h2]; simp, fun h => ?_⟩
    rw [h1] at h
    nomatch h

-- `add(sin(x1), sin(x1))`-style repeats: the second `sin` is masked
example : (genericCheck exLib (.repeat [2] 1) none [0, 2, 3, 2, 3] (parentRow exLib [0, 2, 3, 2, 3]) (siblingRow exLib [0, 2, 3, 2, 3])).1 = true := by decide +kernel

example : (Hard.repeat [2] 1).prior.call exLib [0, 2, 3] 0 0 1 2 = none ∧ (Hard.repeat [2] 1).callWith (some 1) exLib [0, 2, 3] 0 0 1 2 = some 1 := by decide

end Verif.Discover.Claims
