import Verif.Claims.Objects
import Verif.Discover.Positions
/-!
# C211: parents, siblings and ancestors in programs of several expressions
-/
namespace Verif.Discover.Objects
open Verif.Discover

private theorem gain_app (ar : Nat → Nat) : ∀ a b, gain ar (a ++ b) = gain ar a + gain ar b
  | [], b => by simp [gain]
  | t :: a, b => by simp only [List.cons_append, gain, gain_app ar a b]; omega

private theorem gain_rev (ar : Nat → Nat) : ∀ l, gain ar l.reverse = gain ar l
  | [] => rfl
  | t :: l => by rw [List.reverse_cons, gain_app, gain_rev ar l]; simp only [gain]; omega

private theorem scan_none (ar : Nat → Nat) (har : ∀ t, ar t ≤ 2) : ∀ (l : List Nat) (d : Int) (prev : Nat), d < 0 → psScan ar d prev l = none →
    d + gain ar l < 0
  | [], d, _, hd, _ => by simpa [gain] using hd
  | t :: l, d, prev, hd, h => by
    have := har t
    rw [psScan] at h
    split at h
    · exact nomatch h
    · rename_i hne
      have := scan_none ar har l _ t (by omega) h
      simp only [gain]
      omega

private theorem scan_append (ar : Nat → Nat) : ∀ (l m : List Nat) (d : Int) (prev : Nat) r, psScan ar d prev l = some r → psScan ar d prev (l ++ m) = some r
  | [], _, _, _, _, h => by exact nomatch h
  | t :: l, m, d, prev, r, h => by
    rw [List.cons_append, psScan]
    rw [psScan] at h
    split
    · rename_i h0; rw [if_pos h0] at h; exact h
    · rename_i h0; rw [if_neg h0] at h; exact scan_append ar l m _ t r h

/-- Gains of expressions and of what begins one. -/
private theorem exprs_bounds {ar : Nat → Nat} {k l} (h : Exprs ar k l) :
    gain ar l = -(k : Int) ∧ ∀ p r, l = p ++ r → r ≠ [] → -(k : Int) < gain ar p := by
  induction h with
  | nil =>
    refine ⟨rfl, fun p r h hr => ?_⟩
    rw [eq_comm, List.append_eq_nil_iff] at h
    exact absurd h.2 hr
  | node t k a b _ _ iha ihb =>
    refine ⟨by simp only [gain, gain_app, iha.1, ihb.1]; omega, fun p r h hr => ?_⟩
    cases p with
    | nil => simp only [gain]; omega
    | cons x p =>
      rw [List.cons_append, List.cons.injEq] at h
      obtain ⟨rfl, h⟩ := h
      rcases List.append_eq_append_iff.1 h with ⟨c, rfl, hb⟩ | ⟨c, rfl, hr'⟩
      · have := ihb.2 c r hb hr
        simp only [gain, gain_app, iha.1]
        omega
      · by_cases hc : c = []
        · subst hc
          have h2 := iha.1
          rw [List.append_nil] at h2
          have h3 := ihb.2 [] b rfl (by rw [List.nil_append] at hr'; rw [← hr']; exact hr)
          simp only [gain] at h3
          simp only [gain, h2]
          omega
        · have := iha.2 p c rfl hc
          simp only [gain]
          omega

/-- The parent and the sibling of the next token are those within the expression being written, whatever was written before it. -/
theorem C211_parent (ar : Nat → Nat) (har : ∀ t, ar t ≤ 2) (adj : Nat → Int) (emptyP : Int) (emptyS : Nat) (before cur : List Nat) (hc : Begun ar cur) :
    parentsSiblings ar adj emptyP emptyS (before ++ cur) = parentsSiblings ar adj emptyP emptyS cur := by
  obtain ⟨hne, r, hr, hw⟩ := hc
  have hg := (exprs_bounds hw).2 cur r rfl hr
  unfold parentsSiblings
  rw [List.reverse_append]
  cases hrev : cur.reverse with
  | nil => exact absurd (by simpa using hrev) hne
  | cons x rest =>
    rw [List.cons_append]
    simp only
    split
    · rfl
    · rename_i hx
      cases hs : psScan ar 0 emptyS (x :: rest) with
      | some q => rw [← List.cons_append, scan_append ar _ _ _ _ _ hs]
      | none =>
        rw [psScan] at hs
        have hx0 : ar x = 0 := by omega
        simp only [hx0] at hs
        rw [if_neg (by omega)] at hs
        have := scan_none ar har rest _ x (by omega) hs
        have hcur : gain ar cur = gain ar (x :: rest) := by rw [← hrev, gain_rev]
        simp only [gain, hx0] at hcur
        omega

private theorem anc_shift (ar : Nat → Nat) (eff : List Nat) (k : Int) : ∀ (l : List Nat) (d : Int) (th : Option Int),
    l.foldl (ancStep ar eff) (d + k, th.map (· + k)) =
      ((l.foldl (ancStep ar eff) (d, th)).1 + k, (l.foldl (ancStep ar eff) (d, th)).2.map (· + k))
  | [], d, th => rfl
  | t :: l, d, th => by
    rw [List.foldl_cons, List.foldl_cons]
    have : ancStep ar eff (d + k, th.map (· + k)) t = ((ancStep ar eff (d, th) t).1 + k, (ancStep ar eff (d, th) t).2.map (· + k)) := by
      cases th with
      | none =>
        by_cases he : t ∈ eff
        · simp only [ancStep, Option.map_none, if_pos he, Option.map_some, Prod.mk.injEq, Option.some.injEq]; omega
        · simp only [ancStep, Option.map_none, if_neg he, Prod.mk.injEq, and_true]; omega
      | some th =>
        simp only [ancStep, Option.map_some]
        by_cases he : d + ((ar t : Int) - 1) = th
        · rw [if_pos (by omega), if_pos he]
          simp only [Option.map_none, Prod.mk.injEq, and_true]; omega
        · rw [if_neg (by omega), if_neg he]
          simp only [Option.map_some, Prod.mk.injEq, and_true]; omega
    rw [this]
    exact anc_shift ar eff k l _ _

/-- While nothing is closed below the start: the threshold lies below `dangling` and not below the end. -/
private theorem anc_inv (ar : Nat → Nat) (eff : List Nat) (heff : ∀ t ∈ eff, 1 ≤ ar t) (d0 : Int) : ∀ (l : List Nat) (d : Int) (th : Option Int),
    (∀ x, th = some x → d0 - 1 ≤ x ∧ x < d) → (∀ a b, l = a ++ b → b ≠ [] → d0 ≤ d + gain ar a) →
    (l.foldl (ancStep ar eff) (d, th)).1 = d + gain ar l ∧
    ∀ x, (l.foldl (ancStep ar eff) (d, th)).2 = some x → d0 - 1 ≤ x ∧ x < d + gain ar l
  | [], d, th, h, _ => by simpa [gain] using h
  | t :: l, d, th, h, hl => by
    have hd : d0 ≤ d := by
      have := hl [] (t :: l) rfl (by simp)
      simpa [gain] using this
    have hstep : (ancStep ar eff (d, th) t).1 = d + ((ar t : Int) - 1) ∧
        ∀ x, (ancStep ar eff (d, th) t).2 = some x → d0 - 1 ≤ x ∧ x < d + ((ar t : Int) - 1) := by
      cases th with
      | none =>
        by_cases he : t ∈ eff
        · have := heff t he
          simp only [ancStep, if_pos he, Option.some.injEq, true_and]
          rintro x rfl
          omega
        · simp [ancStep, if_neg he]
      | some th =>
        have := h th rfl
        by_cases he : d + ((ar t : Int) - 1) = th
        · simp [ancStep, if_pos he]
        · simp only [ancStep, if_neg he, Option.some.injEq, true_and]
          rintro x rfl
          omega
    rw [List.foldl_cons]
    rcases hs : ancStep ar eff (d, th) t with ⟨d', th'⟩
    rw [hs] at hstep
    obtain ⟨h1, h2⟩ := hstep
    simp only at h1 h2
    subst h1
    have ih := anc_inv ar eff heff d0 l (d + ((ar t : Int) - 1)) th' h2 (fun a b hab hb => by
      have := hl (t :: a) b (by rw [hab]; rfl) hb
      simp only [gain] at this
      omega)
    have e : d + gain ar (t :: l) = d + ((ar t : Int) - 1) + gain ar l := by simp only [gain]; omega
    rw [e]
    exact ih

private theorem anc_whole {ar : Nat → Nat} {eff : List Nat} (heff : ∀ t ∈ eff, 1 ≤ ar t) {e} (h : Whole ar e) (d : Int) :
    e.foldl (ancStep ar eff) (d, none) = (d - 1, none) := by
  obtain ⟨h1, h2⟩ := exprs_bounds h
  obtain ⟨h3, h4⟩ := anc_inv ar eff heff d e d none (by simp) (fun a b hab hb => by have := h2 a b hab hb; omega)
  have h5 : (e.foldl (ancStep ar eff) (d, none)).2 = none := by
    cases hx : (e.foldl (ancStep ar eff) (d, none)).2 with
    | none => rfl
    | some x => have := h4 x hx; omega
  have h6 : (e.foldl (ancStep ar eff) (d, none)).1 = d - 1 := by rw [h3, h1]; omega
  exact Prod.ext h6 h5

/-- Whether an operator of the set stands above the next token is decided within the expression being written, whatever
expressions were finished before it. -/
theorem C211_ancestor (ar : Nat → Nat) (eff : List Nat) (heff : ∀ t ∈ eff, 1 ≤ ar t) (objs : List (List Nat)) (hw : ∀ e ∈ objs, Whole ar e)
    (cur : List Nat) : ancestors ar eff (objs.flatten ++ cur) = ancestors ar eff cur := by
  have h1 : ∀ d : Int, objs.flatten.foldl (ancStep ar eff) (d, none) = (d - (objs.length : Int), none) := by
    induction objs with
    | nil => intro d; simp
    | cons e objs ih =>
      intro d
      rw [List.flatten_cons, List.foldl_append, anc_whole heff (hw e List.mem_cons_self), ih fun e' h => hw e' (List.mem_cons_of_mem _ h)]
      simp only [List.length_cons, Prod.mk.injEq, and_true]
      omega
  unfold ancestors
  rw [List.foldl_append, h1]
  have := anc_shift ar eff (0 - (objs.length : Int)) cur 0 none
  rw [Int.zero_add] at this
  simp only [Option.map_none] at this
  rw [this]
  simp

/-- A terminal among the operators would reach over the end of an expression. -/
theorem C211_ancestor_terminal_counterexample :
    Whole demoArity [2] ∧ ancestors demoArity [2] ([[2]].flatten ++ [0]) = true ∧ ancestors demoArity [2] [0] = false :=
  ⟨Exprs.node 2 0 [] [] Exprs.nil Exprs.nil, by decide, by decide⟩

/-- A case: after u², in x·(…: the parent is the product, the sibling x, and no square stands above. -/
theorem C211_scan_demo : Begun demoArity [0, 3] ∧
    parentsSiblings demoArity (fun t => (t : Int)) 9 9 ([1, 2] ++ [0, 3]) = some (0, 3) ∧
    ancestors demoArity [1] ([[1, 2]].flatten ++ [0, 3]) = false ∧ ancestors demoArity [1] ([[1, 2]].flatten ++ [1]) = true :=
  ⟨C211_demo.2.2.1, by decide, by decide, by decide⟩

end Verif.Discover.Objects
