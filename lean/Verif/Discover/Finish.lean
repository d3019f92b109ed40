import Verif.Discover.Basic
import Verif.Util
/-!
# `_finish_tokens` (kd/model/discover/program.py:22-57)
-/
namespace Verif.Discover

/-- program.py:43-46 `dangling - 1 = np.cumsum(arities - 1)`: running sums of `arity - 1`, starting from
`d` (the code starts from 0). -/
def cumsum (ar : Nat → Nat) (d : Int) : List Nat → List Int
  | [] => []
  | x :: xs => (d + ((ar x : Int) - 1)) :: cumsum ar (d + ((ar x : Int) - 1)) xs

/-- program.py:21-58 `_finish_tokens`.  `ar` is `Program.library.arities`, `nObj` is `Program.n_objects`,
`choice i` is the i-th value drawn by `np.random.choice(input_tokens, size=...)`.
`none` stands for an exception: the `assert n_objects == 1` (line 54) and the index error of
`dangling[-1]` on an empty token list (line 55). -/
def finishTokens (ar : Nat → Nat) (nObj : Nat) (choice : Nat → Nat) (tokens : List Nat) :
    Option (List Nat) :=
  let cs := cumsum ar 0 tokens                       -- dangling - 1
  if cs.contains (-(nObj : Int)) then                -- line 48
    some (tokens.take (1 + cs.idxOf (-(nObj : Int))))  -- lines 50-51 (argmax of == is the first index)
  else if nObj = 1 then                              -- line 54
    match cs.getLast? with
    | none => none                                   -- dangling[-1] : IndexError
    | some c => some (tokens ++ (List.range (1 + c).toNat).map choice)   -- line 55
  else none

/-! ## Lemmas -/

theorem cumsum_length (ar : Nat → Nat) (d : Int) (xs : List Nat) :
    (cumsum ar d xs).length = xs.length := by
  induction xs generalizing d with
  | nil => rfl
  | cons x xs ih => simp [cumsum, ih]

theorem cumsum_getElem (ar : Nat → Nat) (d : Int) (xs : List Nat) (i : Nat)
    (h : i < (cumsum ar d xs).length) :
    (cumsum ar d xs)[i] = dang ar d (xs.take (i + 1)) := by
  induction xs generalizing d i with
  | nil => simp [cumsum] at h
  | cons x xs ih =>
    cases i with
    | zero => simp [cumsum, dang]
    | succ i => simp [cumsum, dang, ih]

theorem dang_step_ge (ar : Nat → Nat) (d : Int) (x : Nat) (xs : List Nat) :
    dang ar d xs - 1 ≤ dang ar d (xs ++ [x]) := by
  rw [dang_append]; simp [dang]; omega

/-- If the running count never hits `t` it stays above `t`. -/
theorem dang_gt_of_not_mem (ar : Nat → Nat) (t d : Int) (hd : t < d) (xs : List Nat)
    (h : ∀ i, i < xs.length → dang ar d (xs.take (i + 1)) ≠ t) :
    ∀ p q, xs = p ++ q → t < dang ar d p := by
  intro p
  induction p using snoc_induction with
  | nil => intro q _; simpa [dang] using hd
  | snoc p x ih =>
    intro q hq
    have h1 := ih (x :: q) (by simp [hq])
    have h2 := dang_step_ge ar d x p
    have h3 := h p.length (by simp [hq])
    have e : xs.take (p.length + 1) = p ++ [x] := by
      rw [hq, show p.length + 1 = (p ++ [x]).length by simp, List.take_left]
    rw [e] at h3
    omega

theorem finish_chop {ar : Nat → Nat} {nObj : Nat} {choice : Nat → Nat} {tokens : List Nat}
    (hpos : 0 < nObj) (h : -(nObj : Int) ∈ cumsum ar 0 tokens) :
    ∃ p q, tokens = p ++ q ∧ Exact ar nObj p ∧ finishTokens ar nObj choice tokens = some p := by
  have hc : (cumsum ar 0 tokens).contains (-(nObj : Int)) = true := by simpa using h
  have hlt := List.idxOf_lt_length_iff.2 h
  generalize hk : (cumsum ar 0 tokens).idxOf (-(nObj : Int)) = k at *
  have hget : (cumsum ar 0 tokens)[k] = -(nObj : Int) := by
    subst hk; exact List.getElem_idxOf hlt
  rw [cumsum_getElem] at hget
  refine ⟨tokens.take (k + 1), tokens.drop (k + 1), by simp, ⟨?_, ?_⟩, ?_⟩
  · rw [dang_eq, hget]; omega
  · intro p q hpq hq
    have hlen : k < tokens.length := by simpa [cumsum_length] using hlt
    have hpl : p.length ≤ k := by
      have := congrArg List.length hpq
      have : 0 < q.length := List.length_pos_iff.2 hq
      simp at *; omega
    have hp : tokens = p ++ (q ++ tokens.drop (k + 1)) := by
      rw [← List.append_assoc, ← hpq, List.take_append_drop]
    have := dang_gt_of_not_mem ar (-(nObj : Int)) 0 (by omega) p (by
      intro i hi he
      have hik : i < k := by omega
      have hne : (cumsum ar 0 tokens)[i]'(by omega) ≠ -(nObj : Int) := by
        intro he2
        have := List.not_of_lt_findIdx (p := (· == -(nObj : Int))) (xs := cumsum ar 0 tokens) (i := i)
          (by have := hk; unfold List.idxOf at this; omega)
        simp [he2] at this
      rw [cumsum_getElem] at hne
      apply hne
      rw [hp, List.take_append_of_le_length (by omega)]; exact he) p [] (by simp)
    rw [dang_eq]; omega
  · simp only [finishTokens, hc, if_true, hk]
    rw [Nat.add_comm]

theorem finish_extend {ar : Nat → Nat} {choice : Nat → Nat} {tokens : List Nat}
    (hne : tokens ≠ []) (h : -1 ∉ cumsum ar 0 tokens) :
    0 < dang ar 1 tokens ∧ finishTokens ar 1 choice tokens =
      some (tokens ++ (List.range (dang ar 1 tokens).toNat).map choice) := by
  have hlen : (cumsum ar 0 tokens).length = tokens.length := cumsum_length ..
  have hgt := dang_gt_of_not_mem ar (-1) 0 (by omega) tokens (by
    intro i hi he
    apply h
    rw [← he, ← cumsum_getElem ar 0 tokens i (by rw [cumsum_length]; exact hi)]
    exact List.getElem_mem _) tokens [] (by simp)
  have e := dang_eq ar 1 tokens
  refine ⟨by omega, ?_⟩
  have hpos : 0 < tokens.length := List.length_pos_iff.2 hne
  have hl : (cumsum ar 0 tokens).getLast? = some (dang ar 0 tokens) := by
    rw [List.getLast?_eq_getElem?, List.getElem?_eq_getElem (by omega), cumsum_getElem]
    congr 2
    apply List.take_of_length_le; omega
  have hc : (cumsum ar 0 tokens).contains (-((1 : Nat) : Int)) = false := by
    simpa using h
  simp only [finishTokens, hc, hl, if_true]
  rw [e, Int.add_comm]
  simp

/-- Filling `k` open slots with terminals completes the expression. -/
theorem dang_fill (ar : Nat → Nat) (choice : Nat → Nat) (d : Int) (k : Nat)
    (h : ∀ i, i < k → ar (choice i) = 0) :
    dang ar d ((List.range k).map choice) = d - k := by
  induction k with
  | zero => simp [dang]
  | succ k ih =>
    rw [List.range_succ, List.map_append, dang_append, ih (fun i hi => h i (by omega))]
    simp [dang, h k (by omega)]; omega

theorem cumsum_mem_iff (ar : Nat → Nat) (d t : Int) (tokens : List Nat) :
    t ∈ cumsum ar d tokens ↔ ∃ p q, p ≠ [] ∧ tokens = p ++ q ∧ dang ar d p = t := by
  constructor
  · intro h
    obtain ⟨i, hi, he⟩ := List.getElem_of_mem h
    rw [cumsum_getElem] at he
    rw [cumsum_length] at hi
    refine ⟨tokens.take (i + 1), tokens.drop (i + 1), ?_, by simp, he⟩
    intro hn; rcases List.take_eq_nil_iff.1 hn with h0 | h0
    · omega
    · simp [h0] at hi
  · rintro ⟨p, q, hp, rfl, rfl⟩
    have hpos : 0 < p.length := List.length_pos_iff.2 hp
    have hlt : p.length - 1 < (cumsum ar d (p ++ q)).length := by rw [cumsum_length]; simp; omega
    have := cumsum_getElem ar d (p ++ q) (p.length - 1) hlt
    have e : (p ++ q).take (p.length - 1 + 1) = p := by
      rw [show p.length - 1 + 1 = p.length by omega, List.take_left]
    rw [e] at this
    rw [← this]
    exact List.getElem_mem _

/-- The completed list is exact. -/
theorem exact_fill (ar : Nat → Nat) (choice : Nat → Nat) (tokens : List Nat)
    (hne : tokens ≠ []) (h : -1 ∉ cumsum ar 0 tokens)
    (hch : ∀ i, ar (choice i) = 0) :
    Exact ar 1 (tokens ++ (List.range (dang ar 1 tokens).toNat).map choice) := by
  have hpos := (finish_extend (choice := choice) hne h).1
  constructor
  · rw [dang_append, dang_fill _ _ _ _ (fun i _ => hch i)]; omega
  · intro p q hpq hq
    rcases List.append_eq_append_iff.1 hpq with ⟨a, ha, hb⟩ | ⟨a, ha, hb⟩
    · subst ha
      rw [dang_append]
      have : a = (List.range a.length).map choice := by
        have h1 : a = ((List.range (dang ar 1 tokens).toNat).map choice).take a.length := by
          rw [hb]; simp
        conv => lhs; rw [h1]
        rw [← List.map_take, List.take_range]
        congr 2
        have := congrArg List.length hb
        simp at this; omega
      rw [this, dang_fill _ _ _ _ (fun i _ => hch i)]
      have h2 := congrArg List.length hb
      have : 0 < q.length := List.length_pos_iff.2 hq
      simp at h2; omega
    · have hmem : ∀ i, i < tokens.length → dang ar 0 (tokens.take (i + 1)) ≠ -1 := by
        intro i hi he
        apply h
        rw [← he, ← cumsum_getElem ar 0 tokens i (by rw [cumsum_length]; exact hi)]
        exact List.getElem_mem _
      have := dang_gt_of_not_mem ar (-1) 0 (by omega) tokens hmem p a ha
      rw [dang_eq]; omega

end Verif.Discover
