import Verif.Sga.EvalLemmas
import Verif.Claims.SgaTree
/-!
# C47, C21: evaluation of SGA terms and deletion of rejected terms
-/
namespace Verif.Claims
open Verif.Sga

/-- The column a term contributes (specification): the value of its expression; `none` if the expression has no value
or is identically zero. -/
def termCol {V : Type} (s : Sem V) (t : Levels) : Option V :=
  (decode t 0).bind fun e => (e.value s).filter fun v => !s.isZero v

theorem chain_eval {V : Type} (s : Sem V) (ctx : Ctx) (hc : ctx.Ok)
    (hden : ∀ a, ctx.isDen a = true → a = s.lhs ∨ a ∈ s.axes) (n : Node) (ls : Levels) (h : Chain ctx ([n] :: ls)) :
    ∃ e, decode ([n] :: ls) 0 = some e ∧
      match e.value s with
      | none => ∃ t', evalTerm s (fresh ([n] :: ls)) = .ok (t', none)
      | some v => evalTerm s (fresh ([n] :: ls)) = .ok (fresh ([n] :: ls), if s.isZero v then none else some v) := by
  have hdec := decode_exprs ctx hc ls [n] h 0 (by simp)
  have hl := exprs_length (l := [n]) (ls := ls)
  match hx : exprs ([n] :: ls), hl with
  | [e], _ =>
    rw [hx] at hdec
    refine ⟨e, by simpa using hdec, ?_⟩
    rcases evalUp_ok s ctx hc hden ls [n] h with ⟨top, q1, q2, q3⟩ | ⟨t', q1, e', q2, q3⟩
    · rw [hx] at q3
      cases q3 with
      | cons hr hq =>
        cases hq
        rename_i c
        obtain ⟨v, hv, hf, _⟩ := hr
        rw [hv]
        simp only [evalTerm, q1, hf]
        congr 2
        simp at q2
        simp [resetRoot, fresh, q2]
    · rw [hx] at q2
      simp at q2; subst q2
      rw [q3]
      exact ⟨_, by simp only [evalTerm, q1]; rfl⟩

/-- **C47**: a term of the search (generated and mutated any number of times) is evaluated to the value of its
expression.  It is rejected exactly if that value does not exist or is identically zero; otherwise the column is the
value.  Whenever the value exists, every cache is restored, so evaluating again gives the same result; no evaluation
raises. -/
theorem C47_value {V : Type} (s : Sem V) (ctx : Ctx) (hc : ctx.Ok) (hx : ctx.XDen) (maxDepth : Nat) (hm : 2 ≤ maxDepth)
    (hden : ∀ a, ctx.isDen a = true → a = s.lhs ∨ a ∈ s.axes) {t : Levels} (h : Reach ctx maxDepth t) :
    ∃ e, decode t 0 = some e ∧
      match e.value s with
      | none => ∃ t', evalTerm s (fresh t) = .ok (t', none)
      | some v => evalTerm s (fresh t) = .ok (fresh t, if s.isZero v then none else some v) := by
  obtain ⟨root, ls, rfl, _, hch, _⟩ := reach_chain ctx hc hx maxDepth hm h
  exact chain_eval s ctx hc hden _ ls hch

/-- When an expression has no value: exactly if some sub-expression differentiates along the left-hand-side axis or,
with the guard strategy, divides by something that is zero everywhere. -/
inductive Rejected {V : Type} (s : Sem V) : Expr → Prop where
  | lhs (o : Entry) (l : Expr) (v : Entry) : isD o.name = true → v.name = s.lhs → Rejected s (.bin o l (.leaf v))
  | div (o : Entry) (l r : Expr) (b : V) : o.name = "/" → s.guard = true → r.value s = some b → s.near0 b = true →
      Rejected s (.bin o l r)
  | un (o : Entry) (c : Expr) : Rejected s c → Rejected s (.un o c)
  | left (o : Entry) (l r : Expr) : Rejected s l → Rejected s (.bin o l r)
  | right (o : Entry) (l r : Expr) : Rejected s r → Rejected s (.bin o l r)

theorem C47_rejected {V : Type} (s : Sem V) (ctx : Ctx) (e : Expr) (h : Legal ctx e) :
    e.value s = none ↔ Rejected s e := by
  have slash : isD "/" = false := by decide
  induction e with
  | leaf e => 
    constructor
    · intro h; simp [Expr.value] at h
    · intro h; cases h
  | un e c ih =>
    have ih := ih h.2.2
    constructor
    · intro h
      simp only [Expr.value, Option.map_eq_none_iff] at h
      exact .un _ _ (ih.1 h)
    · intro h
      cases h with
      | un _ _ h => simp [Expr.value, ih.2 h]
  | bin o l r ihl ihr =>
    obtain ⟨_, _, h3, h4, h5⟩ := h
    have ihl := ihl h3
    have ihr := ihr h4
    constructor
    · intro h
      simp only [Expr.value] at h
      cases hl : l.value s with
      | none => exact .left _ _ _ (ihl.1 hl)
      | some a =>
        cases hr : r.value s with
        | none => exact .right _ _ _ (ihr.1 hr)
        | some b =>
          rw [hl, hr] at h
          simp only at h
          by_cases hd : isD o.name = true
          · rw [if_pos hd] at h
            obtain ⟨v, rfl, _⟩ := h5 hd
            by_cases hv : v.name = s.lhs
            · exact .lhs _ _ _ hd hv
            · simp [Expr.root, hv] at h
          · rw [if_neg hd] at h
            by_cases hz : o.name = "/" ∧ s.near0 b = true
            · rw [if_pos hz] at h
              by_cases hg : s.guard = true
              · exact .div _ _ _ b hz.1 hg hr hz.2
              · rw [if_neg hg] at h; simp at h
            · rw [if_neg hz] at h; simp at h
    · intro h
      cases h with
      | lhs _ _ v hd hv =>
        simp only [Expr.value, Expr.root, hd, hv, if_true]
        cases l.value s <;> rfl
      | div _ _ _ b h1 h2 h3 h4 =>
        simp only [Expr.value, h1, h3, slash, h2]
        cases l.value s <;> simp [h4]
      | left _ _ _ h => simp [Expr.value, ihl.2 h]
      | right _ _ _ h =>
        simp only [Expr.value, ihr.2 h]
        cases l.value s <;> rfl

/-! ## C21: deletion -/

/-- The elements whose flag is set. -/
def keep {α β : Type} : List α → List (Option β) → List α
  | a :: as, some _ :: cs => a :: keep as cs
  | _ :: as, none :: cs => keep as cs
  | _, _ => []

def delOf {β : Type} : Nat → List (Option β) → List Nat
  | _, [] => []
  | ix, c :: cs => if c.isNone then ix :: delOf (ix + 1) cs else delOf (ix + 1) cs

theorem popAll_keep {α β : Type} : ∀ (cs : List (Option β)) (done rest : List α) (ix move : Nat),
    done.length + move = ix → rest.length = cs.length →
    popAll (delOf ix cs) move (done ++ rest) = done ++ keep rest cs := by
  intro cs
  induction cs with
  | nil =>
    intro done rest ix move _ h
    simp at h; subst h
    simp [delOf, popAll, keep]
  | cons c cs ih =>
    intro done rest ix move h1 h2
    cases rest with
    | nil => simp at h2
    | cons a rest =>
      have h3 : rest.length = cs.length := by simpa using h2
      cases c with
      | none =>
        simp only [delOf, Option.isNone_none, if_true, popAll, keep]
        have e : ix - move = done.length := by omega
        rw [e]
        have : (done ++ a :: rest).eraseIdx done.length = done ++ rest := by
          rw [List.eraseIdx_append_of_length_le (Nat.le_refl _)]
          simp
        rw [this]
        exact ih done rest (ix + 1) (move + 1) (by omega) h3
      | some b =>
        simp only [delOf, Option.isNone_some, keep]
        have := ih (done ++ [a]) rest (ix + 1) move (by simp; omega) h3
        simpa using this

theorem evalAll_spec {V : Type} (s : Sem V) : ∀ (ts : List (List (List (CNode V)))) (rs : List (List (List (CNode V)) × Option V))
    (ix : Nat), All2 (fun t r => evalTerm s t = .ok r) ts rs →
    evalAll s ix ts = .ok (rs.map (·.1), rs.map (·.2), delOf ix (rs.map (·.2))) := by
  intro ts
  induction ts with
  | nil => intro rs ix h; cases h; rfl
  | cons t ts ih =>
    intro rs ix h
    cases h with
    | cons h1 h2 =>
      rename_i r rs
      obtain ⟨t', c⟩ := r
      simp only [evalAll, h1, ih _ (ix + 1) h2, List.map_cons, delOf]

theorem delOf_length {β : Type} : ∀ (cs : List (Option β)) (ix : Nat),
    (delOf ix cs).length + (cs.filterMap id).length = cs.length := by
  intro cs
  induction cs with
  | nil => intro ix; rfl
  | cons c cs ih =>
    intro ix
    cases c with
    | none => have := ih (ix + 1); simp [delOf]; omega
    | some b => have := ih (ix + 1); simp [delOf]; omega

theorem evalTerms_spec {V : Type} (s : Sem V) (ctx : Ctx) (hc : ctx.Ok) (hx : ctx.XDen) (maxDepth : Nat)
    (hm : 2 ≤ maxDepth) (hden : ∀ a, ctx.isDen a = true → a = s.lhs ∨ a ∈ s.axes) (ts : List Levels)
    (h : ∀ t ∈ ts, Reach ctx maxDepth t) :
    ∃ rs, All2 (fun t r => evalTerm s t = .ok r) (ts.map fresh) rs ∧ rs.map (·.2) = ts.map (termCol s) ∧
      keep (rs.map (·.1)) (rs.map (·.2)) = (ts.filter fun t => (termCol s t).isSome).map fresh ∧
      keep (rs.map (·.2)) (rs.map (·.2)) = (ts.filter fun t => (termCol s t).isSome).map (termCol s) := by
  induction ts with
  | nil => exact ⟨[], .nil, rfl, rfl, rfl⟩
  | cons t ts ih =>
    obtain ⟨rs, h1, h2, h3, h4⟩ := ih (fun t' ht => h t' (by simp [ht]))
    obtain ⟨e, he, hv⟩ := C47_value s ctx hc hx maxDepth hm hden (h t (by simp))
    cases hval : e.value s with
    | none =>
      rw [hval] at hv
      obtain ⟨t', ht'⟩ := hv
      have hcol : termCol s t = none := by simp [termCol, he, hval]
      exact ⟨(t', none) :: rs, .cons ht' h1, by simp [h2, hcol], by simp [keep, hcol, h3], by simp [keep, hcol, h4]⟩
    | some v =>
      rw [hval] at hv
      by_cases hz : s.isZero v = true
      · have hcol : termCol s t = none := by simp [termCol, he, hval, hz]
        exact ⟨(fresh t, none) :: rs, .cons (by rw [hv]; simp [hz]) h1, by simp [h2, hcol], by simp [keep, hcol, h3],
          by simp [keep, hcol, h4]⟩
      · have hcol : termCol s t = some v := by simp [termCol, he, hval, hz]
        exact ⟨(fresh t, some v) :: rs, .cons (by rw [hv]; simp [hz]) h1, by simp [h2, hcol], by simp [keep, hcol, h3],
          by simp [keep, hcol, h4]⟩

/-- **C21**: evaluating a candidate whose terms are any terms of the search: the terms that remain are exactly those
with a nonzero value, in their order, with restored caches; the k-th column is the value of the k-th remaining term;
the width counter (started at the number of terms) is the number of remaining terms. -/
theorem C21_aligned {V : Type} (s : Sem V) (ctx : Ctx) (hc : ctx.Ok) (hx : ctx.XDen) (maxDepth : Nat)
    (hm : 2 ≤ maxDepth) (hden : ∀ a, ctx.isDen a = true → a = s.lhs ∨ a ∈ s.axes) (ts : List Levels)
    (h : ∀ t ∈ ts, Reach ctx maxDepth t) :
    evalTerms s ts.length (ts.map fresh) =
      .ok ((ts.filter fun t => (termCol s t).isSome).map fresh,
        (ts.filter fun t => (termCol s t).isSome).map (termCol s),
        (ts.filter fun t => (termCol s t).isSome).length) := by
  obtain ⟨rs, h1, h2, h3, h4⟩ := evalTerms_spec s ctx hc hx maxDepth hm hden ts h
  simp only [evalTerms, evalAll_spec s _ rs 0 h1]
  have p1 := popAll_keep (rs.map (·.2)) [] (rs.map (·.1)) 0 0 rfl (by simp)
  have p2 := popAll_keep (rs.map (·.2)) [] (rs.map (·.2)) 0 0 rfl (by simp)
  simp only [List.nil_append] at p1 p2
  rw [p1, p2, h3, h4]
  congr 3
  have := delOf_length (rs.map (·.2)) 0
  rw [h2] at this ⊢
  have e : ((ts.map (termCol s)).filterMap id).length = (ts.filter fun t => (termCol s t).isSome).length := by
    clear h h1 h2 h3 h4 p1 p2 this
    induction ts with
    | nil => rfl
    | cons t ts ih =>
      cases hc : termCol s t <;> simp [hc] at ih ⊢ <;> omega
  simp at this e ⊢
  omega

/-- **C21**, again: evaluating the remaining terms a second time deletes nothing and gives the same columns. -/
theorem C21_idempotent {V : Type} (s : Sem V) (ctx : Ctx) (hc : ctx.Ok) (hx : ctx.XDen) (maxDepth : Nat)
    (hm : 2 ≤ maxDepth) (hden : ∀ a, ctx.isDen a = true → a = s.lhs ∨ a ∈ s.axes) (ts : List Levels)
    (h : ∀ t ∈ ts, Reach ctx maxDepth t) (r : List (List (List (CNode V))) × List (Option V) × Nat)
    (hr : evalTerms s ts.length (ts.map fresh) = .ok r) : evalTerms s r.2.2 r.1 = .ok r := by
  rw [C21_aligned s ctx hc hx maxDepth hm hden ts h] at hr
  injection hr with hr
  subst hr
  have := C21_aligned s ctx hc hx maxDepth hm hden (ts.filter fun t => (termCol s t).isSome)
    (fun t ht => h t (List.mem_filter.1 ht).1)
  simpa using this

/-- The tables of a successfully built context know every denominator. -/
theorem built_den_axes {V : Type} {p : Prob} {w : Pays} {ctx : Ctx} (h : p.build w = some ctx) (s : Sem V)
    (hs : s.axes = p.axes) : ∀ a, ctx.isDen a = true → a = s.lhs ∨ a ∈ s.axes := by
  obtain ⟨_, _, _, _, _, _, _, _, _, rfl⟩ := build_spec h
  intro a ha
  unfold Ctx.isDen at ha
  rw [List.any_eq_true] at ha
  obtain ⟨x, hx, he⟩ := ha
  simp at he; subst he
  simp only [Prob.tables, Prob.denTable, List.mem_map] at hx
  obtain ⟨a, ha, rfl⟩ := hx
  right; rw [hs]; exact (List.mem_filter.1 ha).1

/-- A toy data model (arrays of one integer), guard strategy. -/
def exSem : Sem Int where
  var e := if e.name = "u" then 3 else if e.name = "x" then 2 else 0
  un e v := if e.name = "^2" then v * v else v * v * v
  bin e a b := if e.name = "+" then a + b else if e.name = "-" then a - b else if e.name = "*" then a * b else a / b
  der _ a ax := if ax = "x" then a + 100 else a + 200
  near0 b := b == 0
  perturb b := b + 1
  isZero v := v == 0
  lhs := "t"
  axes := ["x", "y", "t"]
  guard := true

def exDraw2 (_ _ : Nat) : GenDraw := ⟨true, ⟨"x", 0, 1⟩, ⟨"v", 0, 0⟩, opD⟩

/-- A candidate of three terms, the middle one `(v / v)` is rejected by the guard. -/
example :
    let ts := [genTree 4 opMul exDraw, genTree 2 opDiv exDraw2, genTree 2 opD exDraw2]
    (∀ t ∈ ts, Reach exCtx 4 t ∨ Reach exCtx 2 t) ∧
    evalTerms exSem 3 (ts.map fresh) = .ok ([genTree 4 opMul exDraw, genTree 2 opD exDraw2].map fresh,
      [some 1209, some 100], 2) := by
  have hf : ∀ d k, (exDraw d k).From exCtx := by
    intro d k
    refine ⟨by simp only [exDraw]; decide, by simp only [exDraw]; decide, ?_⟩
    simp only [exDraw]
    split <;> decide
  have hf2 : ∀ d k, (exDraw2 d k).From exCtx := by
    intro d k
    refine ⟨by simp only [exDraw2]; decide, by simp only [exDraw2]; decide, by simp only [exDraw2]; decide⟩
  refine ⟨?_, by rfl⟩
  intro t ht
  simp at ht
  rcases ht with rfl | rfl | rfl
  · exact Or.inl (.gen _ _ (by decide) hf)
  · exact Or.inr (.gen _ _ (by decide) hf2)
  · exact Or.inr (.gen _ _ (by decide) hf2)

end Verif.Claims
