import Verif.Discover.Positions
/-! Helper lemmas: `allNodes` information versus subexpressions (no claims). -/
namespace Verif.Discover
open Tree

theorem nodesL_mem {p : Nat} {e : Option Nat} {anc : List (Nat × Nat)} {k : Nat} {cs : List Tree}
    {info : NodeInfo} (h : info ∈ nodesL p e anc k cs) :
    ∃ (j : Nat) (c : Tree) (e' : Option Nat), cs[j]? = some c ∧ info ∈ c.nodes (some p) e' ((p, k + j) :: anc) := by
  induction cs generalizing e k with
  | nil => simp [nodesL] at h
  | cons c cs ih =>
    simp only [nodesL, List.mem_append] at h
    rcases h with h | h
    · exact ⟨0, c, e, rfl, h⟩
    · obtain ⟨j, c', e', hj, hc⟩ := ih h
      refine ⟨j + 1, c', e', by simpa using hj, ?_⟩
      rw [show k + (j + 1) = k + 1 + j by omega]; exact hc

theorem mem_nodesL {p : Nat} {anc : List (Nat × Nat)} {cs : List Tree} :
    ∀ {e : Option Nat} {k j : Nat} {c : Tree} {info : NodeInfo}, cs[j]? = some c →
    info ∈ c.nodes (some p) (if j = 0 then e else e.or (cs.head?.map Tree.root)) ((p, k + j) :: anc) →
    info ∈ nodesL p e anc k cs := by
  induction cs with
  | nil => intro e k j c info h; simp at h
  | cons c0 cs ih =>
    intro e k j c info h hi
    simp only [nodesL, List.mem_append]
    cases j with
    | zero =>
      left; simp at h; subst h; simpa using hi
    | succ j =>
      right
      apply ih (j := j) (c := c) (by simpa using h)
      rw [show k + 1 + j = k + (j + 1) by omega]
      have : (if j = 0 then e.or (some c0.root) else (e.or (some c0.root)).or (cs.head?.map Tree.root)) =
          e.or (some c0.root) := by
        split
        · rfl
        · cases e <;> simp
      rw [this]
      simpa using hi

theorem subtree_nodes (t : Tree) : ∀ s ∈ t.subtrees, ∀ p e anc, ∃ p' e' anc',
    (∀ info ∈ s.nodes p' e' anc', info ∈ t.nodes p e anc) := by
  induction t using Tree.induct with
  | h t cs ih =>
    intro s hs p e anc
    rw [subtrees_eq] at hs
    rcases List.mem_cons.1 hs with rfl | hs
    · exact ⟨p, e, anc, fun _ h => h⟩
    · simp only [children_node] at hs
      obtain ⟨c, hc, hsc⟩ := mem_subtreesL.1 hs
      obtain ⟨j, hj, rfl⟩ := List.getElem_of_mem hc
      obtain ⟨p', e', anc', h⟩ := ih cs[j] hc s hsc (some t)
        (if j = 0 then none else (none : Option Nat).or (cs.head?.map Tree.root)) ((t, 0 + j) :: anc)
      refine ⟨p', e', anc', fun info hi => ?_⟩
      simp only [nodes, List.mem_cons]
      right
      exact mem_nodesL (List.getElem?_eq_getElem hj) (h info hi)

theorem nodes_head (t : Tree) (p e anc) : ⟨t.root, p, e, anc⟩ ∈ t.nodes p e anc := by
  cases t; simp [nodes]

/-- A child of a subexpression is listed with its parent and its elder sibling. -/
theorem child_info {t : Tree} {p : Nat} {cs : List Tree} (hs : node p cs ∈ t.subtrees) {j : Nat} {c : Tree}
    (hj : cs[j]? = some c) :
    ∃ info ∈ t.allNodes, info.tok = c.root ∧ info.parent = some p ∧
      info.elder = (if j = 0 then none else cs.head?.map Tree.root) ∧ (p, j) ∈ info.anc := by
  obtain ⟨p', e', anc', h⟩ := subtree_nodes t _ hs none none []
  refine ⟨⟨c.root, some p, if j = 0 then none else cs.head?.map Tree.root, (p, j) :: anc'⟩, ?_, rfl, rfl, rfl, ?_⟩
  · apply h
    simp only [nodes, List.mem_cons]
    right
    apply mem_nodesL hj
    have := nodes_head c (some p) (if j = 0 then none else cs.head?.map Tree.root) ((p, j) :: anc')
    simpa using this
  · simp

theorem nodes_anc_suffix (t : Tree) : ∀ p e anc, ∀ info ∈ t.nodes p e anc, anc <:+ info.anc := by
  induction t using Tree.induct with
  | h t cs ih =>
    intro p e anc info hi
    simp only [nodes, List.mem_cons] at hi
    rcases hi with rfl | hi
    · exact List.suffix_refl _
    · obtain ⟨j, c, e', hj, hc⟩ := nodesL_mem hi
      have := ih c (List.mem_of_getElem? hj) _ _ _ info hc
      exact (List.suffix_cons _ _).trans this

/-- A strict descendant through operand `j` is listed with its ancestor. -/
theorem descendant_info {t : Tree} {p : Nat} {cs : List Tree} (hs : node p cs ∈ t.subtrees) {j : Nat} {c d : Tree}
    (hj : cs[j]? = some c) (hd : d ∈ c.subtrees) :
    ∃ info ∈ t.allNodes, info.tok = d.root ∧ (p, j) ∈ info.anc := by
  obtain ⟨p', e', anc', h⟩ := subtree_nodes t _ hs none none []
  obtain ⟨p2, e2, anc2, h2⟩ := subtree_nodes c d hd (some p)
    (if j = 0 then none else cs.head?.map Tree.root) ((p, j) :: anc')
  have hmem := h2 _ (nodes_head d p2 e2 anc2)
  refine ⟨⟨d.root, p2, e2, anc2⟩, h _ ?_, rfl, ?_⟩
  · simp only [nodes, List.mem_cons]
    right
    apply mem_nodesL hj
    simpa using hmem
  · exact (nodes_anc_suffix c _ _ _ _ hmem).subset (by simp)

theorem mem_allNodes_idx {t : Tree} {info : NodeInfo} (h : info ∈ t.allNodes) :
    ∃ i, i < t.preorder.length ∧ t.allNodes[i]? = some info := by
  obtain ⟨i, hi, rfl⟩ := List.getElem_of_mem h
  exact ⟨i, by rw [← allNodes_length]; exact hi, List.getElem?_eq_getElem hi⟩

end Verif.Discover
