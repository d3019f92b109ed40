import Verif.Discover.Prior
import Verif.Discover.Bridge
import Verif.Discover.Finish
/-!
# Constraint specification and helper lemmas
-/
namespace Verif.Discover
open Tree

/-- **Specification**: expression `t` contains a target in the forbidden relationship to an effector. -/
def Rel.Forbidden (rel : Rel) (targets effectors : List Nat) (t : Tree) : Prop :=
  ∃ p cs, node p cs ∈ t.subtrees ∧
    match rel with
    | .child => p ∈ effectors ∧ ∃ c ∈ cs, c.root ∈ targets
    | .lchild => p ∈ effectors ∧ ∃ c, cs.head? = some c ∧ c.root ∈ targets
    | .rchild => p ∈ effectors ∧ ∃ a b, cs = [a, b] ∧ b.root ∈ targets
    | .uchild => p ∈ effectors ∧
        ((∃ a, cs = [a] ∧ a.root ∈ targets) ∨ (∃ a b, cs = [a, b] ∧ a.root ∈ targets ∧ b.root ∈ targets))
    | .sibling => ∃ a b, cs = [a, b] ∧
        ((a.root ∈ targets ∧ b.root ∈ effectors) ∨ (a.root ∈ effectors ∧ b.root ∈ targets))
    | .descendant => p ∈ effectors ∧ ∃ d ∈ subtreesL cs, d.root ∈ targets

/-- `library.actionize` only produces indices of the library (library.py:254-261). -/
def Relational.InLib (lib : Lib) (c : Relational) : Prop :=
  (∀ t ∈ c.targets, t < lib.L) ∧ (∀ t ∈ c.effectors, t < lib.L)

theorem subtree_wf {ar : Nat → Nat} (t : Tree) : WF ar t → ∀ s ∈ t.subtrees, WF ar s := by
  induction t using Tree.induct with
  | h t cs ih =>
    intro hw s hs
    rw [subtrees_eq] at hs
    rcases List.mem_cons.1 hs with rfl | hs
    · exact hw
    · simp only [children_node] at hs
      obtain ⟨c, hc, hsc⟩ := mem_subtreesL.1 hs
      simp only [WF] at hw
      exact ih c hc (WFL_iff.1 hw.2 c hc) s hsc

theorem take_prefix {α : Type} {p xs : List α} (h : p <+: xs) {i : Nat} (hi : i ≤ p.length) :
    xs.take i = p.take i := by
  obtain ⟨q, rfl⟩ := h
  rw [List.take_append_of_le_length hi]

theorem getElem?_prefix {α : Type} {p xs : List α} (h : p <+: xs) {i : Nat} (hi : i < p.length) :
    xs[i]? = p[i]? := by
  obtain ⟨q, rfl⟩ := h
  rw [List.getElem?_append_left hi]

/-- Nodes after the first have a parent of positive arity. -/
theorem parent_arity {ar : Nat → Nat} {t : Tree} (hw : WF ar t) {i : Nat} {info : NodeInfo}
    (hi : t.allNodes[i]? = some info) {p : Nat} (hp : info.parent = some p) : 0 < ar p := by
  obtain ⟨⟨ctx, hg, hpre, hp', he, ha⟩, htok⟩ := ann_allNodes ar t hw i info hi
  cases ctx with
  | nil => rw [hp] at hp'; simp at hp'
  | cons f fs =>
    rw [hp] at hp'; simp at hp'; subst hp'
    have := (hg f (by simp)).1
    omega

/-- Only the first node has no parent. -/
theorem index_pos_of_parent {t : Tree} {i : Nat} {info : NodeInfo}
    (hi : t.allNodes[i]? = some info) {p : Nat} (hp : info.parent = some p) : 0 < i := by
  cases i with
  | zero => cases t; simp [allNodes, nodes] at hi; subst hi; simp at hp
  | succ i => omega

/-- parent/sibling pair computed by the code at a non-root node. -/
theorem psOf_node {lib : Lib} (h2 : ∀ t, lib.arity t ≤ 2) {t : Tree} (hw : WF lib.arity t) {i : Nat}
    {info : NodeInfo} (hi : t.allNodes[i]? = some info) {p : Nat} (hp : info.parent = some p) :
    psOf lib (t.preorder.take i) = (lib.parentAdjust p, info.elder.getD lib.L) := by
  obtain ⟨⟨ctx, hg, hpre, hp', he, ha⟩, htok⟩ := ann_allNodes lib.arity t hw i info hi
  cases ctx with
  | nil => rw [hp] at hp'; simp at hp'
  | cons f fs =>
    rw [hp] at hp'; simp at hp'; subst hp'
    unfold psOf
    rw [hpre, parentsSiblings_flat _ _ _ _ f fs hg (h2 _), he]
    simp [Lib.emptySibling]

/-- Every non-root node of an expression that is a prefix of a sampled list was allowed by every prior, when
called with the true parent / elder sibling. -/
theorem sampled_node {lib ps xs obs prior} (h : Sampled lib ps xs obs prior) (h2 : ∀ t, lib.arity t ≤ 2)
    {t : Tree} (hw : WF lib.arity t) (hpre : t.preorder <+: xs) {info : NodeInfo} (hm : info ∈ t.allNodes)
    {p : Nat} (hp : info.parent = some p) {pr : Prior} (hpr : pr ∈ ps) :
    ∃ i, i < t.preorder.length ∧ t.allNodes[i]? = some info ∧ 0 < lib.arity p ∧ info.tok < lib.L ∧
    pr.call lib (t.preorder.take i) (lib.parentAdjust p) (info.elder.getD lib.L)
      (dang lib.arity 1 (t.preorder.take i)) info.tok ≠ none := by
  obtain ⟨i, hlt, hi⟩ := mem_allNodes_idx hm
  have hpos := index_pos_of_parent hi hp
  have htok := (ann_allNodes lib.arity t hw i info hi).2
  have hx : xs[i]? = some info.tok := by rw [getElem?_prefix hpre hlt, htok]
  obtain ⟨hL, _, hall⟩ := h.allowed i info.tok hx
  have := hall hpos pr hpr
  rw [take_prefix hpre (by omega), psOf_node h2 hw hi hp] at this
  exact ⟨i, hlt, hi, parent_arity hw hi hp, hL, this⟩

theorem tok_lt_of_sampled {lib ps xs obs prior} (h : Sampled lib ps xs obs prior) {t : Tree}
    (hpre : t.preorder <+: xs) : ∀ s ∈ t.subtrees, s.root < lib.L := by
  have hmem : ∀ t : Tree, ∀ s ∈ t.subtrees, s.root ∈ t.preorder := by
    intro t
    induction t using Tree.induct with
    | h t cs ih =>
      intro s hs
      rw [subtrees_eq] at hs
      rcases List.mem_cons.1 hs with rfl | hs
      · simp [preorder]
      · simp only [children_node] at hs
        obtain ⟨c, hc, hsc⟩ := mem_subtreesL.1 hs
        have := ih c hc s hsc
        simp only [preorder, List.mem_cons]
        right
        have aux : ∀ cs : List Tree, c ∈ cs → ∀ x ∈ c.preorder, x ∈ preorderL cs := by
          intro cs
          induction cs with
          | nil => simp
          | cons d ds ihd =>
            intro hc x hx
            simp only [preorderL, List.mem_append]
            rcases List.mem_cons.1 hc with rfl | hc
            · exact Or.inl hx
            · exact Or.inr (ihd hc x hx)
        exact aux cs hc _ this
  intro s hs
  have h1 : s.root ∈ xs := hpre.subset (hmem t s hs)
  obtain ⟨i, hi, he⟩ := List.getElem_of_mem h1
  exact (h.allowed i s.root (by rw [List.getElem?_eq_getElem hi, he])).1

/-- Last position of a complete expression: one slot open, the token is a terminal. -/
theorem last_position {ar : Nat → Nat} {t : Tree} (hw : WF ar t) :
    ∃ q x, t.preorder = q ++ [x] ∧ dang ar 1 q = 1 ∧ ar x = 0 := by
  have hne := preorder_ne_nil t
  have hsplit := List.dropLast_concat_getLast hne
  refine ⟨_, _, hsplit.symm, ?_⟩
  have h1 := (exact_preorder ar t hw).2 _ _ hsplit.symm (by simp)
  have h2 := (exact_preorder ar t hw).1
  rw [← hsplit, dang_append] at h2
  simp only [dang] at h2
  omega

end Verif.Discover
