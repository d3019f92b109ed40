import Verif.Discover.Finish
/-!
# C01 – completing a sampled token list
-/
namespace Verif.Discover.Claims
open Tree

/-- `p` is the shortest prefix of `xs` that is a complete expression (spec). -/
def ShortestComplete (ar : Nat → Nat) (p xs : List Nat) : Prop :=
  (∃ t : Tree, WF ar t ∧ t.preorder = p) ∧ p <+: xs ∧
  ∀ p', p' <+: xs → (∃ t : Tree, WF ar t ∧ t.preorder = p') → p'.length ≥ p.length

/-- **C01.** For every library (arity function), every non-empty sampled list and every random filler drawn
from arity-0 tokens, completion succeeds and returns the traversal of exactly one well-formed expression:
the shortest complete prefix of the sample if some prefix is complete, otherwise the sample itself followed
by exactly as many filler tokens as there are open slots. -/
theorem C01_finish_wellformed (ar : Nat → Nat) (choice : Nat → Nat) (hch : ∀ i, ar (choice i) = 0)
    (tokens : List Nat) (hne : tokens ≠ []) :
    ∃ out, finishTokens ar 1 choice tokens = some out ∧
      (∃ t : Tree, WF ar t ∧ t.preorder = out) ∧
      ((∃ p, p <+: tokens ∧ ∃ t : Tree, WF ar t ∧ t.preorder = p) →
          ShortestComplete ar out tokens) ∧
      ((¬ ∃ p, p <+: tokens ∧ ∃ t : Tree, WF ar t ∧ t.preorder = p) →
          ∃ k, 0 < k ∧ out = tokens ++ (List.range k).map choice) := by
  by_cases h : -1 ∈ cumsum ar 0 tokens
  · obtain ⟨p, q, hpq, hex, hfin⟩ := finish_chop (choice := choice) (nObj := 1) (by omega) (by simpa using h)
    obtain ⟨ts, hl, hw, hp⟩ := forest_of_exact ar p 1 hex
    obtain ⟨t, rfl⟩ : ∃ t, ts = [t] := List.length_eq_one_iff.1 hl
    have htree : ∃ t : Tree, WF ar t ∧ t.preorder = p := ⟨t, by simpa [WFL] using hw, by simpa [preorderL] using hp⟩
    refine ⟨p, hfin, htree, fun _ => ⟨htree, ⟨q, hpq.symm⟩, ?_⟩, ?_⟩
    · rintro p' ⟨q', hq'⟩ ⟨t', hw', rfl⟩
      have := exact_prefix_unique ar 1 (exact_preorder ar t' hw') hex (hq'.trans hpq)
      rw [this]; exact Nat.le_refl _
    · intro hno; exact absurd ⟨p, ⟨q, hpq.symm⟩, htree⟩ hno
  · have hfin := (finish_extend (choice := choice) hne h)
    have hex := exact_fill ar choice tokens hne h hch
    obtain ⟨ts, hl, hw, hp⟩ := forest_of_exact ar _ 1 hex
    obtain ⟨t, rfl⟩ : ∃ t, ts = [t] := List.length_eq_one_iff.1 hl
    refine ⟨_, hfin.2, ⟨t, by simpa [WFL] using hw, by simpa [preorderL] using hp⟩, ?_, fun _ => ⟨_, ?_, rfl⟩⟩
    · rintro ⟨p, ⟨q, hq⟩, t', hw', rfl⟩
      exfalso; apply h
      rw [cumsum_mem_iff]
      refine ⟨t'.preorder, q, preorder_ne_nil t', hq.symm, ?_⟩
      rw [dang_preorder ar t' hw']; omega
    · omega

/-- **C01** (no tokens): an empty list is not completed to a program, the call fails. -/
theorem C01_finish_empty (ar : Nat → Nat) (choice : Nat → Nat) (n : Nat) : finishTokens ar n choice [] = none := by
  simp [finishTokens, cumsum]

/-- **C01**, idempotence: a complete traversal is returned unchanged (whatever the random draws). -/
theorem C01_finish_complete_unchanged (ar : Nat → Nat) (choice : Nat → Nat) (t : Tree) (hw : WF ar t) :
    finishTokens ar 1 choice t.preorder = some t.preorder := by
  have hmem : -((1 : Nat) : Int) ∈ cumsum ar 0 t.preorder := by
    rw [cumsum_mem_iff]
    exact ⟨t.preorder, [], preorder_ne_nil t, by simp, by rw [dang_preorder ar t hw]; omega⟩
  obtain ⟨p, q, hpq, hex, hfin⟩ := finish_chop (choice := choice) (nObj := 1) (by omega) hmem
  have := exact_prefix_unique ar 1 (zs := []) (ws := q) (exact_preorder ar t hw) hex (by simpa using hpq)
  rw [hfin, this]

/-- **C01**, several objects: with `n_objects = n`, if the sample contains enough tokens, the result is the
concatenation of exactly `n` well-formed expressions and a prefix of the sample; otherwise (n ≠ 1) the call
raises.  The filler branch is never taken. -/
theorem C01_finish_multi (ar : Nat → Nat) (choice : Nat → Nat) (n : Nat) (hn : 1 < n) (tokens : List Nat) :
    (∀ out, finishTokens ar n choice tokens = some out →
      out <+: tokens ∧ ∃ ts : List Tree, ts.length = n ∧ WFL ar ts ∧ preorderL ts = out) ∧
    (finishTokens ar n choice tokens = none ↔
      ¬ ∃ p, p <+: tokens ∧ ∃ ts : List Tree, ts.length = n ∧ WFL ar ts ∧ preorderL ts = p) := by
  by_cases h : -(n : Int) ∈ cumsum ar 0 tokens
  · obtain ⟨p, q, hpq, hex, hfin⟩ := finish_chop (choice := choice) (nObj := n) (by omega) h
    have hts := forest_of_exact ar p n hex
    constructor
    · intro out ho
      rw [hfin] at ho; cases ho
      exact ⟨⟨q, hpq.symm⟩, hts⟩
    · rw [hfin]; simp only [reduceCtorEq, false_iff, Classical.not_not]
      exact ⟨p, ⟨q, hpq.symm⟩, hts⟩
  · have hfin : finishTokens ar n choice tokens = none := by
      have hc : (cumsum ar 0 tokens).contains (-(n : Int)) = false := by simpa using h
      have : ¬ n = 1 := by omega
      simp [finishTokens, this]
      intro h2; exact absurd h2 h
    rw [hfin]
    refine ⟨by simp, ?_⟩
    simp only [true_iff]
    rintro ⟨p, ⟨q, hq⟩, ts, hl, hw, rfl⟩
    apply h
    rw [cumsum_mem_iff]
    refine ⟨preorderL ts, q, ?_, hq.symm, ?_⟩
    · cases ts with
      | nil => simp at hl; omega
      | cons t ts => simp [preorderL, preorder_eq]
    · rw [dang_preorderL ar ts hw, hl]; omega

/-- The library `{0: binary, 1: unary, 2: terminal}` used in the examples. -/
def exAr : Nat → Nat := fun t => if t = 0 then 2 else if t = 1 then 1 else 0

example : (∀ i : Nat, exAr ((fun _ => 2) i) = 0) ∧ [0, 1, 2] ≠ [] ∧
    finishTokens exAr 1 (fun _ => 2) [0, 1, 2] = some [0, 1, 2, 2] :=
  ⟨fun _ => rfl, by decide, by decide⟩
example : finishTokens exAr 1 (fun _ => 2) [1, 2, 0, 0] = some [1, 2] := by decide
example : finishTokens exAr 2 (fun _ => 2) [1, 2, 0, 2, 2, 2] = some [1, 2, 0, 2, 2] := by decide
example : WF exAr (.node 0 [.node 1 [.node 2 []], .node 2 []]) := by simp [WF, WFL, exAr]

end Verif.Discover.Claims
