import Verif.Discover.Violation
import Verif.Claims.Positions
import Verif.Claims.Sampling
/-!
# C12 – the whole-sequence violation checks agree with the sampling masks
-/
namespace Verif.Discover.Claims
open Tree

/-- The rows handed to the checks, in terms of the expression's nodes. -/
theorem parentRow_eq (lib : Lib) (h2 : ∀ t, lib.arity t ≤ 2) (t : Tree) (hw : WF lib.arity t) :
    parentRow lib t.preorder = t.allNodes.map fun i => (i.parent.map lib.parentAdjust).getD lib.emptyParent := by
  unfold parentRow; rw [atOnceEmptyParent_eq, C04_at_once _ h2 _ _ _ t hw]; simp

theorem siblingRow_eq (lib : Lib) (h2 : ∀ t, lib.arity t ≤ 2) (t : Tree) (hw : WF lib.arity t) :
    siblingRow lib t.preorder = t.allNodes.map fun i => i.elder.getD lib.L := by
  unfold siblingRow; rw [C04_at_once _ h2 _ _ _ t hw]; simp

theorem zip_map_map {α β γ : Type} (f : α → β) (g : α → γ) (l : List α) :
    (l.map f).zip (l.map g) = l.map fun a => (f a, g a) := by
  induction l with
  | nil => rfl
  | cons x xs ih => simp [ih]

theorem checkViolation_iff {α : Type} [DecidableEq α] {ar : Nat → Nat} {t : Tree} (hw : WF ar t)
    (A : List Nat) (g : NodeInfo → α) (O : List α) :
    checkViolation t.preorder A (t.allNodes.map g) O = true ↔
      ∃ info ∈ t.allNodes, info.tok ∈ A ∧ g info ∈ O := by
  unfold checkViolation
  rw [preorder_eq_map_nodes hw, zip_map_map]
  simp

theorem len2_of_second {ar : Nat → Nat} (h2 : ∀ t, ar t ≤ 2) {p : Nat} {cs : List Tree} (hwf : WF ar (node p cs))
    {j : Nat} {c : Tree} (hj : cs[j]? = some c) (h0 : j ≠ 0) : ∃ a, cs = [a, c] := by
  have hl : cs.length ≤ 2 := by have := h2 p; simp only [WF] at hwf; omega
  match cs, hl with
  | [], _ => simp at hj
  | [a], _ =>
    have := (List.getElem?_eq_some_iff.1 hj).1
    simp at this; omega
  | [a, b], _ =>
    have := (List.getElem?_eq_some_iff.1 hj).1
    have : j = 1 := by simp at this; omega
    subst this
    simp at hj; subst hj; exact ⟨a, rfl⟩

/-- **C12** for child, sibling and only-unique-child constraints: on the traversal of an expression (arities at
most two) the check reports a violation exactly when the expression contains the forbidden relationship – which
by C06 is what the masks exclude during sampling. -/
theorem C12_relational (lib : Lib) (h2 : ∀ t, lib.arity t ≤ 2) (c : Relational) (hin : c.InLib lib)
    (hrel : c.rel = .child ∨ c.rel = .sibling ∨ c.rel = .uchild) (junk : List Nat)
    (t : Tree) (hw : WF lib.arity t) :
    ∃ b, c.isViolated lib junk t.preorder (parentRow lib t.preorder) (siblingRow lib t.preorder) = some b ∧
      (b = true ↔ c.rel.Forbidden c.targets c.effectors t) := by
  obtain ⟨T, E, rel⟩ := c
  obtain ⟨hT, hE⟩ := hin
  simp only at hT hE hrel ⊢
  have hLT : lib.L ∉ T := fun h => Nat.lt_irrefl _ (hT _ h)
  have hLE : lib.L ∉ E := fun h => Nat.lt_irrefl _ (hE _ h)
  -- the two generic steps
  have hpar : ∀ info ∈ t.allNodes, ∀ E' : List Nat,
      (info.parent.map lib.parentAdjust).getD lib.emptyParent ∈ E'.map lib.parentAdjust ↔
        ∃ p, info.parent = some p ∧ p ∈ E' := by
    intro info hi E'
    cases hp : info.parent with
    | none => simpa using lib.emptyParent_not_mem E'
    | some p =>
      obtain ⟨i, _, hi'⟩ := mem_allNodes_idx hi
      have := parent_arity hw hi' hp
      simp only [Option.map_some, Option.getD_some, Lib.adj_mem_iff this]
      simp
  have hsib : ∀ (info : NodeInfo) (X : List Nat), lib.L ∉ X →
      (info.elder.getD lib.L ∈ X ↔ ∃ e, info.elder = some e ∧ e ∈ X) := by
    intro info X hX
    cases info.elder with
    | none => simpa using hX
    | some e => simp
  rcases hrel with rfl | rfl | rfl
  · -- child
    refine ⟨_, rfl, ?_⟩
    rw [parentRow_eq lib h2 t hw, checkViolation_iff hw]
    constructor
    · rintro ⟨info, hi, h1, h3⟩
      obtain ⟨p, hp, hpE⟩ := (hpar info hi E).1 h3
      obtain ⟨cs, j, c, hs, hj, ht, he⟩ := info_child hi hp
      exact ⟨p, cs, hs, hpE, c, List.mem_of_getElem? hj, by rw [← ht]; exact h1⟩
    · rintro ⟨p, cs, hs, hpE, c, hc, hcT⟩
      obtain ⟨j, hj, rfl⟩ := List.getElem_of_mem hc
      obtain ⟨info, hi, ht, hp, he, _⟩ := child_info hs (List.getElem?_eq_getElem hj)
      exact ⟨info, hi, by rw [ht]; exact hcT, (hpar info hi E).2 ⟨p, hp, hpE⟩⟩
  · -- sibling
    refine ⟨_, rfl, ?_⟩
    rw [siblingRow_eq lib h2 t hw, Bool.or_eq_true, checkViolation_iff hw, checkViolation_iff hw]
    have key : ∀ A X : List Nat, lib.L ∉ X →
        ((∃ info ∈ t.allNodes, info.tok ∈ A ∧ info.elder.getD lib.L ∈ X) ↔
          ∃ p cs, node p cs ∈ t.subtrees ∧ ∃ a b, cs = [a, b] ∧ b.root ∈ A ∧ a.root ∈ X) := by
      intro A X hX
      constructor
      · rintro ⟨info, hi, h1, h3⟩
        obtain ⟨e, he, heX⟩ := (hsib info X hX).1 h3
        rcases nodes_cases t _ _ _ info hi with rfl | ⟨p, cs, j, c, hs, hj, h4, h5, h6⟩
        · simp at he
        · have hj0 : j ≠ 0 := by intro h0; rw [if_pos h0] at h6; rw [h6] at he; simp at he
          obtain ⟨a, rfl⟩ := len2_of_second h2 (subtree_wf t hw _ hs) hj hj0
          rw [if_neg hj0, he] at h6
          simp at h6
          exact ⟨p, _, hs, a, c, rfl, by rw [← h4]; exact h1, by rw [← h6]; exact heX⟩
      · rintro ⟨p, cs, hs, a, b, rfl, hb, ha⟩
        obtain ⟨info, hi, ht, hp, he, _⟩ := child_info hs (j := 1) (c := b) rfl
        refine ⟨info, hi, by rw [ht]; exact hb, (hsib info X hX).2 ⟨a.root, ?_, ha⟩⟩
        simpa using he
    rw [key T E hLE, key E T hLT]
    simp only [Rel.Forbidden]
    constructor
    · rintro (⟨p, cs, hs, a, b, e, hb, ha⟩ | ⟨p, cs, hs, a, b, e, hb, ha⟩)
      · exact ⟨p, cs, hs, a, b, e, Or.inr ⟨ha, hb⟩⟩
      · exact ⟨p, cs, hs, a, b, e, Or.inl ⟨ha, hb⟩⟩
    · rintro ⟨p, cs, hs, a, b, e, (⟨ha, hb⟩ | ⟨ha, hb⟩)⟩
      · exact Or.inr ⟨p, cs, hs, a, b, e, hb, ha⟩
      · exact Or.inl ⟨p, cs, hs, a, b, e, hb, ha⟩
  · -- uchild
    refine ⟨_, rfl, ?_⟩
    have hchk : checkViolationUchild t.preorder (parentRow lib t.preorder) (siblingRow lib t.preorder) T
        ((E.filter fun e => lib.unaryTokens.contains e).map lib.parentAdjust) (E.map lib.parentAdjust) = true ↔
        ∃ info ∈ t.allNodes, info.tok ∈ T ∧
          ((∃ p, info.parent = some p ∧ p ∈ E ∧ lib.arity p = 1) ∨
            ((∃ e, info.elder = some e ∧ e ∈ T) ∧ ∃ p, info.parent = some p ∧ p ∈ E)) := by
      rw [parentRow_eq lib h2 t hw, siblingRow_eq lib h2 t hw]
      unfold checkViolationUchild
      conv => lhs; rw [preorder_eq_map_nodes hw, zip_map_map, zip_map_map]
      simp only [List.any_map, List.any_eq_true, Function.comp, Bool.and_eq_true, Bool.or_eq_true,
        List.contains_iff_mem]
      constructor
      · rintro ⟨info, hi, h1, h3⟩
        refine ⟨info, hi, h1, ?_⟩
        rw [hsib info T hLT] at h3
        have h4 := hpar info hi E
        have h5 := hpar info hi (E.filter fun e => lib.unaryTokens.contains e)
        rcases h3 with h3 | ⟨h3, h6⟩
        · obtain ⟨p, hp, hpE⟩ := h5.1 h3
          obtain ⟨i, _, hi'⟩ := mem_allNodes_idx hi
          have har := parent_arity hw hi' hp
          have hpE' := List.mem_filter.1 hpE
          have hu : p ∈ lib.unaryTokens := by simpa using hpE'.2
          exact Or.inl ⟨p, hp, hpE'.1, (Lib.mem_tokensOfArity.1 hu).2⟩
        · exact Or.inr ⟨h3, h4.1 h6⟩
      · rintro ⟨info, hi, h1, h3⟩
        refine ⟨info, hi, h1, ?_⟩
        rw [hsib info T hLT, hpar info hi E, hpar info hi (E.filter fun e => lib.unaryTokens.contains e)]
        rcases h3 with ⟨p, hp, hpE, ha⟩ | h3
        · left
          refine ⟨p, hp, List.mem_filter.2 ⟨hpE, ?_⟩⟩
          have : p ∈ lib.unaryTokens := Lib.mem_tokensOfArity.2 ⟨hE p hpE, ha⟩
          simpa using this
        · exact Or.inr h3
    rw [hchk]
    constructor
    · rintro ⟨info, hi, h1, h3⟩
      rcases h3 with ⟨p, hp, hpE, ha⟩ | ⟨⟨e, he, heT⟩, p, hp, hpE⟩
      · obtain ⟨cs, j, c, hs, hj, ht, _⟩ := info_child hi hp
        have hwf := subtree_wf t hw _ hs
        simp only [WF] at hwf
        rw [ha] at hwf
        obtain ⟨c0, rfl⟩ := List.length_eq_one_iff.1 hwf.1
        have hjl := (List.getElem?_eq_some_iff.1 hj).1
        have : j = 0 := by simp at hjl; omega
        subst this
        simp at hj; subst hj
        exact ⟨p, _, hs, hpE, Or.inl ⟨c0, rfl, by rw [← ht]; exact h1⟩⟩
      · obtain ⟨cs, j, c, hs, hj, ht, he'⟩ := info_child hi hp
        have hj0 : j ≠ 0 := by intro h0; rw [if_pos h0] at he'; rw [he'] at he; simp at he
        obtain ⟨a, rfl⟩ := len2_of_second h2 (subtree_wf t hw _ hs) hj hj0
        rw [if_neg hj0, he] at he'
        simp at he'
        exact ⟨p, _, hs, hpE, Or.inr ⟨a, c, rfl, by rw [← he']; exact heT, by rw [← ht]; exact h1⟩⟩
    · rintro ⟨p, cs, hs, hpE, (⟨a, rfl, ha⟩ | ⟨a, b, rfl, ha, hb⟩)⟩
      · obtain ⟨info, hi, ht, hp, he, _⟩ := child_info hs (j := 0) (c := a) rfl
        have hwf := subtree_wf t hw _ hs
        simp only [WF] at hwf
        exact ⟨info, hi, by rw [ht]; exact ha, Or.inl ⟨p, hp, hpE, by simpa using hwf.1.symm⟩⟩
      · obtain ⟨info, hi, ht, hp, he, _⟩ := child_info hs (j := 1) (c := b) rfl
        exact ⟨info, hi, by rw [ht]; exact hb, Or.inr ⟨⟨a.root, by simpa using he, ha⟩, p, hp, hpE⟩⟩

/-- **C12** for the trig constraint, on any token list: the check reports a violation exactly when some token is
one the sampling mask of the same constraint forbids at its position. -/
theorem C12_trig (lib : Lib) (h2 : ∀ t, lib.arity t ≤ 2) (xs : List Nat) (hL : ∀ x ∈ xs, x < lib.L) :
    trigIsViolated lib xs = true ↔
      ∃ i tok, xs[i]? = some tok ∧ ∀ parent sibling dangling,
        (Prior.relational (trigConstraint lib)).call lib (xs.take i) parent sibling dangling tok = none := by
  unfold trigIsViolated
  rw [descNoTarget_iff lib h2 _ xs hL false 0 0 none rfl (by intro v hv; simp at hv)]
  constructor
  · rintro ⟨p, a, q, rfl, ha, hs⟩
    refine ⟨p.length, a, by simp, fun _ _ _ => ?_⟩
    simp only [Prior.call, Relational.call, trigConstraint, makeConstraint_none]
    rw [List.take_left]
    exact ⟨hs, ha⟩
  · rintro ⟨i, tok, hi, hcall⟩
    have := hcall 0 0 0
    simp only [Prior.call, Relational.call, trigConstraint, makeConstraint_none] at this
    have hlt := (List.getElem?_eq_some_iff.1 hi).1
    refine ⟨xs.take i, tok, xs.drop (i + 1), ?_, this.2, this.1⟩
    have h1 := (List.take_append_drop i xs).symm
    rw [List.drop_eq_getElem_cons hlt, ← (List.getElem?_eq_some_iff.1 hi).2] at *
    exact h1

theorem subtrees_trans (t : Tree) : ∀ s ∈ t.subtrees, ∀ c ∈ s.children, c ∈ t.subtrees := by
  induction t using Tree.induct with
  | h t cs ih =>
    intro s hs c hc
    rw [subtrees_eq, List.mem_cons] at hs ⊢
    right
    rcases hs with rfl | hs
    · exact mem_subtreesL.2 ⟨c, hc, self_mem_subtrees _⟩
    · obtain ⟨d, hd, hsd⟩ := mem_subtreesL.1 hs
      exact mem_subtreesL.2 ⟨d, hd, ih d hd s hsd c hc⟩

/-- Every listed node is the root of a subexpression. -/
theorem nodes_subtree (t : Tree) : ∀ p e anc, ∀ info ∈ t.nodes p e anc, ∃ d ∈ t.subtrees, d.root = info.tok := by
  intro p e anc info hi
  rcases nodes_cases t p e anc info hi with rfl | ⟨q, cs, j, c, hs, hj, h1, _⟩
  · exact ⟨t, self_mem_subtrees _, rfl⟩
  · refine ⟨c, ?_, h1.symm⟩
    exact subtrees_trans t _ hs c (List.mem_of_getElem? hj)

/-- An ancestor of a node is a subexpression having the node strictly below it. -/
theorem anc_subtree (t : Tree) : ∀ p e anc, ∀ info ∈ t.nodes p e anc, ∀ a ∈ info.anc, a ∉ anc →
    ∃ cs d, node a.1 cs ∈ t.subtrees ∧ d ∈ subtreesL cs ∧ d.root = info.tok := by
  induction t using Tree.induct with
  | h t cs ih =>
    intro p e anc info hi a ha hna
    simp only [nodes, List.mem_cons] at hi
    rcases hi with rfl | hi
    · exact absurd ha hna
    · obtain ⟨j, c, hj, hc⟩ := nodesL_mem' hi
      have hcm := List.mem_of_getElem? hj
      by_cases hat : a = (t, 0 + j)
      · subst hat
        obtain ⟨d, hd, hr⟩ := nodes_subtree c _ _ _ info hc
        exact ⟨cs, d, self_mem_subtrees _, mem_subtreesL.2 ⟨c, hcm, hd⟩, hr⟩
      · obtain ⟨cs', d, hs, hd, hr⟩ := ih c hcm _ _ _ info hc a ha (by simp [hna]; simpa using hat)
        refine ⟨cs', d, ?_, hd, hr⟩
        rw [subtrees_eq, List.mem_cons]
        exact Or.inr (mem_subtreesL.2 ⟨c, hcm, hs⟩)

/-- **C12** for the trig constraint on complete expressions with unary trig tokens: violation reported iff a
trig/derivative operator occurs below another. -/
theorem C12_trig_tree (lib : Lib) (h2 : ∀ t, lib.arity t ≤ 2) (t : Tree) (hw : WF lib.arity t)
    (hL : ∀ x ∈ t.preorder, x < lib.L) (hun : ∀ e ∈ lib.trigTokens, lib.arity e = 1) :
    trigIsViolated lib t.preorder = true ↔ Rel.descendant.Forbidden lib.trigTokens lib.trigTokens t := by
  rw [C12_trig lib h2 _ hL]
  constructor
  · rintro ⟨i, tok, hi, hcall⟩
    have := hcall 0 0 0
    simp only [Prior.call, Relational.call, trigConstraint, makeConstraint_none] at this
    obtain ⟨hanc, htok⟩ := this
    have hlt : i < t.allNodes.length := by rw [allNodes_length]; exact (List.getElem?_eq_some_iff.1 hi).1
    have hinfo := List.getElem?_eq_getElem hlt
    obtain ⟨a, ha, haE⟩ := (C05_ancestors_partial lib.arity _ hun t hw i _ hinfo).1 hanc
    have htk := (ann_allNodes lib.arity t hw i _ hinfo).2
    rw [hi] at htk
    obtain ⟨cs, d, hs, hd, hr⟩ := anc_subtree t none none [] _ (List.getElem_mem hlt) a ha (by simp)
    exact ⟨a.1, cs, hs, haE, d, hd, by rw [hr]; rw [← Option.some.inj htk]; exact htok⟩
  · rintro ⟨p, cs, hs, hpE, d, hd, hdT⟩
    obtain ⟨c, hc, hdc⟩ := mem_subtreesL.1 hd
    obtain ⟨j, hj, rfl⟩ := List.getElem_of_mem hc
    obtain ⟨info, hi, ht, hanc⟩ := descendant_info hs (List.getElem?_eq_getElem hj) hdc
    obtain ⟨i, hlt, hi'⟩ := mem_allNodes_idx hi
    refine ⟨i, info.tok, (ann_allNodes lib.arity t hw i info hi').2, fun _ _ _ => ?_⟩
    simp only [Prior.call, Relational.call, trigConstraint, makeConstraint_none]
    exact ⟨(C05_ancestors_partial lib.arity _ hun t hw i _ hi').2 ⟨_, hanc, hpE⟩, by rw [ht]; exact hdT⟩

/-- **C12** for the repeat constraint, on any token list: violated iff more than `mx` of the listed tokens. -/
theorem C12_repeat (toks : List Nat) (mx : Nat) (xs : List Nat) :
    repeatIsViolated toks mx xs = true ↔ mx < (xs.filter fun a => decide (a ∈ toks)).length := by
  simp [repeatIsViolated]

/-- **C12** for the repeat constraint against the masks: violated iff some token is masked at its position. -/
theorem C12_repeat_mask (lib : Lib) (toks : List Nat) (mx : Nat) (xs : List Nat) :
    repeatIsViolated toks mx xs = true ↔
      ∃ i tok, xs[i]? = some tok ∧ ∀ parent sibling dangling,
        (Prior.repeat toks mx).call lib (xs.take i) parent sibling dangling tok = none := by
  rw [C12_repeat]
  constructor
  · intro h
    -- the first occurrence number `mx + 1`
    have aux : ∀ ys : List Nat, mx < (ys.filter fun a => decide (a ∈ toks)).length →
        ∃ p a q, ys = p ++ a :: q ∧ a ∈ toks ∧ mx ≤ (p.filter fun a => decide (a ∈ toks)).length := by
      intro ys
      induction ys using snoc_induction with
      | nil => intro h; simp at h
      | snoc ys y ih =>
        intro h
        by_cases hb : mx < (ys.filter fun a => decide (a ∈ toks)).length
        · obtain ⟨p, a, q, rfl, h1, h2⟩ := ih hb
          exact ⟨p, a, q ++ [y], by simp, h1, h2⟩
        · by_cases hy : y ∈ toks
          · refine ⟨ys, y, [], rfl, hy, ?_⟩
            simp [hy] at h; simp at hb; omega
          · simp [hy] at h; simp at hb; omega
    obtain ⟨p, a, q, rfl, ha, hle⟩ := aux xs h
    refine ⟨p.length, a, by simp, fun _ _ _ => ?_⟩
    simp only [Prior.call, makeConstraint_none]
    rw [List.take_left]
    exact ⟨by simpa using hle, ha⟩
  · rintro ⟨i, tok, hi, hcall⟩
    have := hcall 0 0 0
    simp only [Prior.call, makeConstraint_none] at this
    obtain ⟨hlt, he⟩ := List.getElem?_eq_some_iff.1 hi
    have h1 := (List.take_append_drop i xs).symm
    rw [List.drop_eq_getElem_cons hlt, he] at h1
    rw [h1, List.filter_append, List.length_append, List.filter_cons_of_pos (by simpa using this.2)]
    have h3 : mx ≤ ((xs.take i).filter fun a => decide (a ∈ toks)).length := by simpa using this.1
    simp only [List.length_cons]; omega

/-- **C12** for the length constraint: violated iff the length is outside `min..max`. -/
theorem C12_length (mn mx : Option Nat) (xs : List Nat) :
    lengthIsViolated mn mx xs = true ↔ (∃ m, mn = some m ∧ xs.length < m) ∨ (∃ m, mx = some m ∧ m < xs.length) := by
  unfold lengthIsViolated
  cases mn <;> cases mx <;> simp

/-- **C12** for the no-inputs constraint: violated iff no state variable occurs. -/
theorem C12_noInputs (lib : Lib) (xs : List Nat) :
    noInputsIsViolated lib xs = true ↔ ∀ x ∈ xs, x ∉ lib.stateTokens := by
  unfold noInputsIsViolated
  simp [List.filter_eq_nil_iff]
  constructor
  · intro h x hx hs; exact h x hs hx
  · intro h x hs hx; exact h x hx hs

/-- **C12** for the inverse constraint: violated iff some operator is applied directly to its inverse. -/
theorem C12_inverse (lib : Lib) (h2 : ∀ t, lib.arity t ≤ 2) (junk : List Nat) (t : Tree) (hw : WF lib.arity t) :
    inverseIsViolated lib (lib.inverseTokens.map fun (tgt, eff) => ⟨[tgt], [eff], .child⟩) junk t.preorder
        (parentRow lib t.preorder) (siblingRow lib t.preorder) = true ↔
      ∃ p cs, node p cs ∈ t.subtrees ∧ ∃ c ∈ cs, (c.root, p) ∈ lib.inverseTokens := by
  have hlt : ∀ n i, lib.tokenFromName n = some i → i < lib.L := by
    intro n i h
    unfold Lib.tokenFromName at h
    obtain ⟨tk, htk, _⟩ := Lib.mem_indices.1 (List.mem_of_getLast? h)
    exact (List.getElem?_eq_some_iff.1 htk).1
  have hin : ∀ pr ∈ lib.inverseTokens, pr.1 < lib.L ∧ pr.2 < lib.L := by
    intro pr hpr
    unfold Lib.inverseTokens at hpr
    obtain ⟨⟨k, v⟩, _, hkv⟩ := List.mem_filterMap.1 hpr
    cases hk : lib.tokenFromName k with
    | none => simp [hk] at hkv
    | some a =>
      cases hv : lib.tokenFromName v with
      | none => simp [hk, hv] at hkv
      | some b =>
        simp [hk, hv] at hkv; subst hkv
        exact ⟨hlt _ _ hk, hlt _ _ hv⟩
  unfold inverseIsViolated
  simp only [List.any_eq_true, List.mem_map, beq_iff_eq]
  have hc : ∀ a b, a < lib.L → b < lib.L →
      (Relational.isViolated lib ⟨[a], [b], .child⟩ junk t.preorder (parentRow lib t.preorder)
        (siblingRow lib t.preorder) = some true ↔ Rel.child.Forbidden [a] [b] t) := by
    intro a b ha hb
    obtain ⟨v, hv, hiff⟩ := C12_relational lib h2 ⟨[a], [b], .child⟩ ⟨by simpa using ha, by simpa using hb⟩
      (Or.inl rfl) junk t hw
    rw [hv]
    simpa using hiff
  constructor
  · rintro ⟨c, ⟨⟨a, b⟩, hab, rfl⟩, hv⟩
    obtain ⟨p, cs, hs, hp, c, hc', hr⟩ := (hc a b (hin _ hab).1 (hin _ hab).2).1 hv
    simp at hp hr; subst hp
    exact ⟨p, cs, hs, c, hc', by rw [hr]; exact hab⟩
  · rintro ⟨p, cs, hs, c, hc', hab⟩
    refine ⟨_, ⟨_, hab, rfl⟩, (hc _ _ (hin _ hab).1 (hin _ hab).2).2 ?_⟩
    exact ⟨p, cs, hs, by simp, c, hc', by simp⟩

/-- Simulation for `descWithTarget`: whenever it is inside an effector, so is the sampling mask. -/
theorem descWithTarget_sound (lib : Lib) (h2 : ∀ t, lib.arity t ≤ 2) (T effSeen E : List Nat)
    (hsub : ∀ e ∈ effSeen, e ∈ E) (hpos : ∀ e ∈ E, 0 < lib.arity e) (xs : List Nat) :
    (∀ x ∈ xs, x < lib.L) → ∀ (desc : Bool) (d D : Int) (th : Option Int),
    (desc = true → 0 < d ∧ ∃ v, th = some v ∧ v + d ≤ D) → (∀ v, th = some v → v < D) →
    descWithTarget lib T effSeen desc d xs = true →
      ∃ p a q, xs = p ++ a :: q ∧ a ∈ T ∧ (p.foldl (ancStep lib.arity E) (D, th)).2.isSome = true := by
  induction xs with
  | nil => intro _ desc d D th _ _ h; simp [descWithTarget] at h
  | cons x xs ih =>
    intro hL desc d D th hdesc hth h
    have hxL := hL x (by simp)
    have hL' : ∀ y ∈ xs, y < lib.L := fun y hy => hL y (by simp [hy])
    have hx2 := h2 x
    have hth' : ∀ v, (ancStep lib.arity E (D, th) x).2 = some v → v < (ancStep lib.arity E (D, th) x).1 := by
      intro v hv
      unfold ancStep at hv ⊢
      cases th with
      | none =>
        simp only at hv ⊢
        split at hv
        · rename_i hxE; simp only [hxE, if_true] at hv ⊢; simp at hv; omega
        · simp at hv
      | some w =>
        simp only at hv ⊢
        have := hth w rfl
        split at hv
        · simp at hv
        · rename_i hne; rw [if_neg hne]; simp at hv; subst hv; simp only; omega
    have lift : ∀ (desc' : Bool) (d' : Int),
        (desc' = true → 0 < d' ∧ ∃ v, (ancStep lib.arity E (D, th) x).2 = some v ∧
          v + d' ≤ (ancStep lib.arity E (D, th) x).1) →
        descWithTarget lib T effSeen desc' d' xs = true →
        ∃ p a q, x :: xs = p ++ a :: q ∧ a ∈ T ∧ (p.foldl (ancStep lib.arity E) (D, th)).2.isSome = true := by
      intro desc' d' h1 h3
      obtain ⟨p, a, q, e, ha, hs⟩ := ih hL' desc' d' _ _ h1 hth' h3
      exact ⟨x :: p, a, q, by simp [e], ha, by simpa using hs⟩
    simp only [descWithTarget, List.contains_iff_mem] at h
    by_cases hxe : x ∈ effSeen
    · rw [if_pos hxe] at h
      refine lift true 1 (fun _ => ⟨by omega, ?_⟩) h
      have hxE := hsub x hxe
      have hpx := hpos x hxE
      unfold ancStep
      cases th with
      | none => simp [hxE]
      | some w =>
        have := hth w rfl
        simp only
        rw [if_neg (by omega)]
        exact ⟨w, rfl, by simp only; omega⟩
    · rw [if_neg hxe] at h
      by_cases hxT : x ∈ T
      · rw [if_pos hxT] at h
        cases hd : desc with
        | true =>
          obtain ⟨_, v, hv, _⟩ := hdesc hd
          exact ⟨[], x, xs, rfl, hxT, by simp [hv]⟩
        | false =>
          rw [hd] at h
          simp only [Bool.false_eq_true, if_false] at h
          exact lift false d (by simp) h
      · rw [if_neg hxT] at h
        cases hd : desc with
        | true =>
          obtain ⟨hd0, v, hv, hle⟩ := hdesc hd
          rw [hd] at h
          have hd' : (if lib.binaryTokens.contains x = true then d + 1
              else if (!lib.unaryTokens.contains x) = true then d - 1 else d) = d + ((lib.arity x : Int) - 1) := by
            simp only [List.contains_eq_mem, Lib.binaryTokens, Lib.unaryTokens, Lib.mem_tokensOfArity, hxL, true_and]
            have : lib.arity x = 0 ∨ lib.arity x = 1 ∨ lib.arity x = 2 := by omega
            rcases this with h | h | h <;> simp [h]
            omega
          simp only [List.contains_iff_mem, if_true] at h hd'
          rw [hd'] at h
          refine lift _ _ ?_ h
          intro hne
          have hne' : d + ((lib.arity x : Int) - 1) ≠ 0 := by simpa using hne
          refine ⟨by omega, v, ?_⟩
          unfold ancStep
          rw [hv]; simp only
          rw [if_neg (by omega)]
          exact ⟨rfl, by simp only; omega⟩
        | false =>
          rw [hd] at h
          simp only [Bool.false_eq_true, if_false] at h
          exact lift false d (by simp) h

/-- **C12** for the descendant relationship (partial: only this direction holds, see the counterexamples below):
a reported violation is a real one – some target token is masked at its position during sampling.  (With more
targets than effectors the compiled check reads past the effector array, hence the hypothesis.) -/
theorem C12_descendant_partial (lib : Lib) (h2 : ∀ t, lib.arity t ≤ 2) (c : Relational) (hrel : c.rel = .descendant)
    (hlen : c.targets.length ≤ c.effectors.length) (hpos : ∀ e ∈ c.effectors, 0 < lib.arity e)
    (junk : List Nat) (xs : List Nat) (hL : ∀ x ∈ xs, x < lib.L) (parent : List Int) (sibling : List Nat)
    (h : c.isViolated lib junk xs parent sibling = some true) :
    ∃ i tok, xs[i]? = some tok ∧ ∀ parent sibling dangling,
      (Prior.relational c).call lib (xs.take i) parent sibling dangling tok = none := by
  simp only [Relational.isViolated, hrel, Option.some.injEq] at h
  obtain ⟨p, a, q, rfl, ha, hs⟩ := descWithTarget_sound lib h2 c.targets _ c.effectors
    (by
      intro e he
      rw [List.take_append_of_le_length hlen] at he
      exact List.mem_of_mem_take he) hpos xs hL false 0 0 none (by simp) (by simp) h
  refine ⟨p.length, a, by simp, fun _ _ _ => ?_⟩
  simp only [Prior.call, Relational.call, hrel, makeConstraint_none]
  rw [List.take_left]
  exact ⟨hs, ha⟩

/-! ## Where the checks and the masks disagree (library `exLib` of Claims/Sampling.lean:
0 add, 1 diff, 2 sin, 3 x1, 4 u1, 5 exp, 6 log) -/

/-- A nested effector resets the counter of open slots: in `exp(add(exp(x1), sin(x1)))` the `sin` is below `exp`
(and masked), but the check – effectors `[exp]`, targets `[sin]` – reports no violation. -/
theorem C12_nested_effector_counterexample :
    let c : Relational := ⟨[2], [5], .descendant⟩
    let t := node 5 [node 0 [node 5 [node 3 []], node 2 [node 3 []]]]
    WF exLib.arity t ∧ Rel.descendant.Forbidden c.targets c.effectors t ∧
    c.isViolated exLib [] t.preorder (parentRow exLib t.preorder) (siblingRow exLib t.preorder) = some false := by
  refine ⟨by simp [WF, WFL, exLib, Lib.arity], ?_, by decide⟩
  exact ⟨5, _, self_mem_subtrees _, by simp, node 2 [node 3 []], by simp [subtreesL, subtrees], by simp⟩

/-- Only as many effectors as there are targets are looked at: effectors `[exp, log]`, targets `[sin]`,
`log(sin(x1))` is not reported. -/
theorem C12_effector_count_counterexample :
    let c : Relational := ⟨[2], [5, 6], .descendant⟩
    let t := node 6 [node 2 [node 3 []]]
    WF exLib.arity t ∧ Rel.descendant.Forbidden c.targets c.effectors t ∧
    c.isViolated exLib [] t.preorder (parentRow exLib t.preorder) (siblingRow exLib t.preorder) = some false := by
  refine ⟨by simp [WF, WFL, exLib, Lib.arity], ?_, by decide⟩
  exact ⟨6, _, self_mem_subtrees _, by simp, node 2 [node 3 []], by simp [subtreesL, subtrees], by simp⟩

/-- A token that is both target and effector is never reported below another effector. -/
theorem C12_target_effector_counterexample :
    let c : Relational := ⟨[5, 2], [2, 5], .descendant⟩
    let t := node 5 [node 2 [node 3 []]]
    WF exLib.arity t ∧ Rel.descendant.Forbidden c.targets c.effectors t ∧
    c.isViolated exLib [] t.preorder (parentRow exLib t.preorder) (siblingRow exLib t.preorder) = some false := by
  refine ⟨by simp [WF, WFL, exLib, Lib.arity], ?_, by decide⟩
  exact ⟨5, _, self_mem_subtrees _, by simp, node 2 [node 3 []], by simp [subtreesL, subtrees], by simp⟩

/-- Left- and right-child constraints have no check at all: `is_violated` raises for every input. -/
theorem C12_lchild_rchild_raise (lib : Lib) (T E junk xs : List Nat) (parent : List Int) (sibling : List Nat) :
    Relational.isViolated lib ⟨T, E, .lchild⟩ junk xs parent sibling = none ∧
    Relational.isViolated lib ⟨T, E, .rchild⟩ junk xs parent sibling = none := ⟨rfl, rfl⟩

/-! ## Non-vacuity -/

/-- `add(exp(x1), sin(u1))`: not a violation of "x1 not child of sin"; `add(exp(u1), sin(x1))` is. -/
example :
    let c : Relational := ⟨[3], [2], .child⟩
    let ok := node 0 [node 5 [node 3 []], node 2 [node 4 []]]
    let bad := node 0 [node 5 [node 4 []], node 2 [node 3 []]]
    c.InLib exLib ∧ WF exLib.arity ok ∧ WF exLib.arity bad ∧
    c.isViolated exLib [] ok.preorder (parentRow exLib ok.preorder) (siblingRow exLib ok.preorder) = some false ∧
    c.isViolated exLib [] bad.preorder (parentRow exLib bad.preorder) (siblingRow exLib bad.preorder) = some true := by
  refine ⟨by unfold Relational.InLib; decide, by simp [WF, WFL, exLib, Lib.arity], by simp [WF, WFL, exLib, Lib.arity],
    by decide, by decide⟩
example :
    let c : Relational := ⟨[3], [0, 2], .uchild⟩
    let bad := node 0 [node 3 [], node 3 []]
    c.isViolated exLib [] bad.preorder (parentRow exLib bad.preorder) (siblingRow exLib bad.preorder) = some true := by
  decide
example :
    let c : Relational := ⟨[3], [4], .sibling⟩
    let bad := node 0 [node 3 [], node 4 []]
    c.isViolated exLib [] bad.preorder (parentRow exLib bad.preorder) (siblingRow exLib bad.preorder) = some true := by
  decide
example :
    let c : Relational := ⟨[2], [5], .descendant⟩
    let bad := node 5 [node 0 [node 3 [], node 2 [node 3 []]]]
    c.isViolated exLib [] bad.preorder (parentRow exLib bad.preorder) (siblingRow exLib bad.preorder) = some true := by
  decide
example : trigIsViolated exLib [2, 5, 2, 3] = true ∧ trigIsViolated exLib [0, 2, 3, 2, 3] = false := by decide
example : ∀ e ∈ (⟨exLib.tokens.eraseIdx 1⟩ : Lib).trigTokens, (⟨exLib.tokens.eraseIdx 1⟩ : Lib).arity e = 1 := by decide
example : exLib.inverseTokens = [(5, 6), (6, 5)] := by decide

end Verif.Discover.Claims
