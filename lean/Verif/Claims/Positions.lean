import Verif.Discover.Bridge
/-!
# C04, C05 – parent, sibling and ancestor of the next token
-/
namespace Verif.Discover.Claims
open Tree

/-- **C04.** For every expression over tokens of arity at most two and every node except the root: given the
traversal up to (not including) that node, `parents_siblings` returns the (adjusted) operator the node hangs
under, and the root of that operator's first operand – or the empty marker if the node is the first operand. -/
theorem C04_parent_sibling (ar : Nat → Nat) (h2 : ∀ t, ar t ≤ 2) (adj : Nat → Int) (eP : Int) (eS : Nat)
    (t : Tree) (hw : WF ar t) (i : Nat) (hi : 0 < i) (info : NodeInfo) (hinfo : t.allNodes[i]? = some info) :
    ∃ p, info.parent = some p ∧
      parentsSiblings ar adj eP eS (t.preorder.take i) = some (adj p, info.elder.getD eS) := by
  obtain ⟨⟨ctx, hg, hpre, hp, he, ha⟩, htok⟩ := ann_allNodes ar t hw i info hinfo
  cases ctx with
  | nil =>
    simp [flat] at hpre
    rcases hpre with h | h
    · omega
    · exact absurd h (preorder_ne_nil t)
  | cons f fs =>
    refine ⟨f.tok, by simpa using hp, ?_⟩
    rw [hpre, parentsSiblings_flat ar adj eP eS f fs hg (h2 _), he]
    simp

/-- **C04**, batch version: `jit_parents_siblings_at_once` lists, for every node in pre-order, the adjusted
parent and the elder sibling (empty markers where there is none). -/
theorem C04_at_once (ar : Nat → Nat) (h2 : ∀ t, ar t ≤ 2) (adj : Nat → Int) (eP : Int) (eS : Nat)
    (t : Tree) (hw : WF ar t) :
    parentsSiblingsAtOnce ar adj eP eS t.preorder =
      t.allNodes.map fun info => ((info.parent.map adj).getD eP, info.elder.getD eS) := by
  apply List.ext_getElem?
  intro i
  simp only [parentsSiblingsAtOnce, List.getElem?_map]
  by_cases hi : i < t.preorder.length
  · have hlt : i < t.allNodes.length := by rw [allNodes_length]; exact hi
    rw [List.getElem?_range hi, List.getElem?_eq_getElem hlt]
    simp only [Option.map_some, Option.some.injEq]
    by_cases h0 : i = 0
    · subst h0
      cases t; simp [allNodes, nodes]
    · rw [if_neg h0]
      obtain ⟨p, hp, hps⟩ := C04_parent_sibling ar h2 adj eP eS t hw i (by omega) _ (List.getElem?_eq_getElem hlt)
      rw [hp]
      unfold parentsSiblings at hps
      revert hps
      cases (t.preorder.take i).reverse with
      | nil => simp
      | cons x rest =>
        simp only
        split
        · intro h; simpa using Option.some.inj h
        · split <;> intro h <;> simpa using Option.some.inj h
  · rw [List.getElem?_eq_none (by simpa using hi), List.getElem?_eq_none (by rw [allNodes_length]; omega)]
    rfl

/-- The bound on arities in C04 is needed: at the second operand of a ternary operator the backward scan
runs past the parent.  (No shipped token has arity three.) -/
theorem C04_arity3_counterexample :
    let ar : Nat → Nat := fun t => if t = 0 then 3 else 0
    parentsSiblings ar (fun t => t) 9 9 [0, 1] = some (9, 9) ∧
    (node 0 [node 1 [], node 1 [], node 1 []]).allNodes[2]? = some ⟨1, some 0, some 1, [(0, 1)]⟩ := by
  decide

/-- **C05**, exact behaviour: the mask for the next token is raised iff some ancestor is an effector *of which
the token lies in the first operand*. -/
theorem C05_ancestors_exact (ar : Nat → Nat) (eff : List Nat) (heff : ∀ e ∈ eff, 0 < ar e)
    (t : Tree) (hw : WF ar t) (i : Nat) (info : NodeInfo) (hinfo : t.allNodes[i]? = some info) :
    ancestors ar eff (t.preorder.take i) = true ↔ ∃ a ∈ info.anc, a.1 ∈ eff ∧ a.2 = 0 := by
  obtain ⟨⟨ctx, hg, hpre, hp, he, ha⟩, htok⟩ := ann_allNodes ar t hw i info hinfo
  rw [hpre, ancestors_flat ar eff heff ctx hg, ha]
  constructor
  · rintro ⟨f, hf, h1, h2⟩
    exact ⟨f.anc, List.mem_map_of_mem hf, h1, by simp [Frame.anc, h2]⟩
  · rintro ⟨a, ham, h1, h2⟩
    obtain ⟨f, hf, rfl⟩ := List.mem_map.1 ham
    exact ⟨f, hf, h1, by simpa [Frame.anc] using h2⟩

/-- **C05** for unary effectors (partial: the English property is about all effectors, see the counterexample
below): the mask is raised iff an ancestor is an effector. -/
theorem C05_ancestors_partial (ar : Nat → Nat) (eff : List Nat) (heff : ∀ e ∈ eff, ar e = 1)
    (t : Tree) (hw : WF ar t) (i : Nat) (info : NodeInfo) (hinfo : t.allNodes[i]? = some info) :
    ancestors ar eff (t.preorder.take i) = true ↔ ∃ a ∈ info.anc, a.1 ∈ eff := by
  rw [C05_ancestors_exact ar eff (fun e he => by have := heff e he; omega) t hw i info hinfo]
  obtain ⟨⟨ctx, hg, hpre, hp, he, ha⟩, htok⟩ := ann_allNodes ar t hw i info hinfo
  constructor
  · rintro ⟨a, h1, h2, _⟩; exact ⟨a, h1, h2⟩
  · rintro ⟨a, h1, h2⟩
    refine ⟨a, h1, h2, ?_⟩
    rw [ha] at h1
    obtain ⟨f, hf, rfl⟩ := List.mem_map.1 h1
    have h3 := (hg f hf).1
    have h4 := heff _ h2
    simp only [Frame.anc] at h4 ⊢; omega

/-- **C05 fails for binary effectors**: below the *second* operand of the effector `0` (arity 2, e.g. a
derivative operator) the mask is not raised although `0` is an ancestor. -/
theorem C05_binary_counterexample :
    let ar : Nat → Nat := fun t => if t = 0 then 2 else 0
    let t : Tree := node 0 [node 1 [], node 1 []]
    ancestors ar [0] (t.preorder.take 2) = false ∧
    t.allNodes[2]? = some ⟨1, some 0, some 1, [(0, 1)]⟩ := by decide

/-- Example library: 0 binary, 1 unary, 2 and 3 terminals; expression `0(1(2), 3)`. -/
def exT : Tree := node 0 [node 1 [node 2 []], node 3 []]
def exAr' : Nat → Nat := fun t => if t = 0 then 2 else if t = 1 then 1 else 0
example : WF exAr' exT ∧ (∀ t, exAr' t ≤ 2) := by
  refine ⟨by simp [exT, WF, WFL, exAr'], fun t => ?_⟩
  unfold exAr'; split <;> (try split) <;> omega
example : exT.allNodes[3]? = some ⟨3, some 0, some 1, [(0, 1)]⟩ := by decide
example : exT.allNodes[2]? = some ⟨2, some 1, none, [(1, 0), (0, 0)]⟩ := by decide
example : parentsSiblings exAr' (fun t => t) 7 7 (exT.preorder.take 3) = some (0, 1) := by decide
example : (∀ e ∈ [1], exAr' e = 1) ∧ ancestors exAr' [1] (exT.preorder.take 2) = true ∧
    ancestors exAr' [1] (exT.preorder.take 3) = false := by decide

end Verif.Discover.Claims
