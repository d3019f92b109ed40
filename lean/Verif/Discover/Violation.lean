import Verif.Discover.Constraints
/-!
# Whole-sequence constraint checks (`is_violated`), prior.py and subroutines.py:290-623
One action row (`actions.shape[0] == 1`); `parents`/`siblings` are the rows produced by
`jit_parents_siblings_at_once`.
-/
namespace Verif.Discover
open Tree

/-- subroutines.py:290-346 `jit_check_constraint_violation`: some position has its action in `aToks` and its
`other` entry in `oToks`. -/
def checkViolation {α : Type} [DecidableEq α] (actions : List Nat) (aToks : List Nat) (other : List α)
    (oToks : List α) : Bool :=
  (actions.zip other).any fun (a, o) => aToks.contains a && oToks.contains o

/-- subroutines.py:349-421 `jit_check_constraint_violation_uchild`. -/
def checkViolationUchild (actions : List Nat) (parent : List Int) (sibling : List Nat) (aToks : List Nat)
    (adjU adjE : List Int) : Bool :=
  (actions.zip (parent.zip sibling)).any fun (a, p, s) =>
    aToks.contains a && (adjU.contains p || (aToks.contains s && adjE.contains p))

/-- subroutines.py:422-534 `…_descendant_no_target_tokens`, the loop with state (descendant, dangling). -/
def descNoTarget (lib : Lib) (eff : List Nat) : Bool → Int → List Nat → Bool
  | _, _, [] => false
  | desc, d, a :: as =>
    if eff.contains a then
      if desc then true else descNoTarget lib eff true 1 as
    else if desc then
      let d' := if lib.binaryTokens.contains a then d + 1
        else if !lib.unaryTokens.contains a then d - 1 else d
      descNoTarget lib eff (decide (d' ≠ 0)) d' as
    else descNoTarget lib eff false d as

/-- subroutines.py:536-621 `…_descendant_with_target_tokens`.  The code scans `effector_tokens` with the bound
`T = target_tokens.shape[0]` (line 592); `effSeen` is what that scan reads: the first `T` effectors (padded by
whatever lies in memory behind the array if `T` is larger, see `Relational.isViolated`). -/
def descWithTarget (lib : Lib) (targets effSeen : List Nat) : Bool → Int → List Nat → Bool
  | _, _, [] => false
  | desc, d, a :: as =>
    if effSeen.contains a then descWithTarget lib targets effSeen true 1 as
    else if targets.contains a then
      if desc then true else descWithTarget lib targets effSeen desc d as
    else if desc then
      let d' := if lib.binaryTokens.contains a then d + 1
        else if !lib.unaryTokens.contains a then d - 1 else d
      descWithTarget lib targets effSeen (decide (d' ≠ 0)) d' as
    else descWithTarget lib targets effSeen false d as

/-- prior.py:437-460 `RelationalConstraint.is_violated`.  `none` is the `UnboundLocalError` raised for
"lchild"/"rchild", which have no branch.  `junk` is the memory behind the effector array. -/
def Relational.isViolated (lib : Lib) (c : Relational) (junk : List Nat) (actions : List Nat)
    (parent : List Int) (sibling : List Nat) : Option Bool :=
  let adjE := c.effectors.map lib.parentAdjust
  match c.rel with
  | .descendant =>
    some (descWithTarget lib c.targets ((c.effectors ++ junk).take c.targets.length) false 0 actions)
  | .child => some (checkViolation actions c.targets parent adjE)
  | .sibling =>
    some (checkViolation actions c.targets sibling c.effectors ||
      checkViolation actions c.effectors sibling c.targets)
  | .uchild =>
    let adjU := (c.effectors.filter fun e => lib.unaryTokens.contains e).map lib.parentAdjust
    some (checkViolationUchild actions parent sibling c.targets adjU adjE)
  | .lchild => none
  | .rchild => none

/-- prior.py:507-511 `TrigConstraint.is_violated`. -/
def trigIsViolated (lib : Lib) (actions : List Nat) : Bool :=
  descNoTarget lib (trigConstraint lib).effectors false 0 actions

/-- prior.py:553-556 `NoInputsConstraint.is_violated`. -/
def noInputsIsViolated (lib : Lib) (actions : List Nat) : Bool :=
  decide ((lib.stateTokens.filter fun t => actions.contains t).length = 0)

/-- prior.py:807-808 `RepeatConstraint.is_violated`. -/
def repeatIsViolated (toks : List Nat) (mx : Nat) (actions : List Nat) : Bool :=
  decide ((actions.filter fun a => toks.contains a).length > mx)

/-- prior.py:896-903 `LengthConstraint.is_violated`. -/
def lengthIsViolated (mn mx : Option Nat) (actions : List Nat) : Bool :=
  (match mn with | some m => decide (actions.length < m) | none => false) ||
  (match mx with | some m => decide (actions.length > m) | none => false)

/-- subroutines.py:112 `empty_parent = np.max(parent_adjust) + 1`.  (`np.max` of an empty array raises; an
empty library is rejected earlier, library.py:152-154.  `parent_adjust` is never below -1.) -/
def atOnceEmptyParent (lib : Lib) : Int :=
  ((List.range lib.L).map lib.parentAdjust).foldl max (-1) + 1

/-- `jit_parents_siblings_at_once(actions, arities, parent_adjust)` for a library, one row: the parent row.
(`empty_sibling = len(arities)`, line 113.) -/
def parentRow (lib : Lib) (actions : List Nat) : List Int :=
  (parentsSiblingsAtOnce lib.arity lib.parentAdjust (atOnceEmptyParent lib) lib.L actions).map Prod.fst
/-- … and the sibling row. -/
def siblingRow (lib : Lib) (actions : List Nat) : List Nat :=
  (parentsSiblingsAtOnce lib.arity lib.parentAdjust (atOnceEmptyParent lib) lib.L actions).map Prod.snd

/-- prior.py:590-596 `InverseUnaryConstraint.is_violated`. -/
def inverseIsViolated (lib : Lib) (cs : List Relational) (junk : List Nat) (actions : List Nat)
    (parent : List Int) (sibling : List Nat) : Bool :=
  cs.any fun c => c.isViolated lib junk actions parent sibling == some true

/-! ## Lemmas -/

theorem foldl_max_ge (l : List Int) : ∀ a, a ≤ l.foldl max a ∧ ∀ x ∈ l, x ≤ l.foldl max a := by
  induction l with
  | nil => intro a; simp
  | cons y ys ih =>
    intro a
    have h := ih (max a y)
    simp only [List.foldl_cons, List.mem_cons]
    refine ⟨by have := h.1; omega, ?_⟩
    rintro x (rfl | hx)
    · have := h.1; omega
    · exact h.2 x hx

theorem foldl_max_mem (l : List Int) : ∀ a, l.foldl max a = a ∨ l.foldl max a ∈ l := by
  induction l with
  | nil => intro a; simp
  | cons y ys ih =>
    intro a
    simp only [List.foldl_cons, List.mem_cons]
    rcases ih (max a y) with h | h
    · rw [h]; omega
    · exact Or.inr (Or.inr h)


theorem nodesL_mem' {p : Nat} {anc : List (Nat × Nat)} {cs : List Tree} {info : NodeInfo} :
    ∀ {e : Option Nat} {k : Nat}, info ∈ nodesL p e anc k cs →
    ∃ (j : Nat) (c : Tree), cs[j]? = some c ∧
      info ∈ c.nodes (some p) (if j = 0 then e else e.or (cs.head?.map Tree.root)) ((p, k + j) :: anc) := by
  induction cs with
  | nil => intro e k h; simp [nodesL] at h
  | cons c cs ih =>
    intro e k h
    simp only [nodesL, List.mem_append] at h
    rcases h with h | h
    · exact ⟨0, c, rfl, by simpa using h⟩
    · obtain ⟨j, c', hj, hc⟩ := ih h
      refine ⟨j + 1, c', by simpa using hj, ?_⟩
      rw [show k + (j + 1) = k + 1 + j by omega]
      have : (if j = 0 then e.or (some c.root) else (e.or (some c.root)).or (cs.head?.map Tree.root)) =
          e.or (some c.root) := by
        split
        · rfl
        · cases e <;> simp
      rw [this] at hc
      simpa using hc

theorem nodes_cases (t : Tree) : ∀ p e anc, ∀ info ∈ t.nodes p e anc,
    info = ⟨t.root, p, e, anc⟩ ∨ ∃ (q : Nat) (cs : List Tree) (j : Nat) (c : Tree),
      node q cs ∈ t.subtrees ∧ cs[j]? = some c ∧ info.tok = c.root ∧ info.parent = some q ∧
      info.elder = (if j = 0 then none else cs.head?.map Tree.root) := by
  induction t using Tree.induct with
  | h t cs ih =>
    intro p e anc info hi
    simp only [nodes, List.mem_cons] at hi
    rcases hi with rfl | hi
    · exact Or.inl rfl
    · right
      obtain ⟨j, c, hj, hc⟩ := nodesL_mem' hi
      rcases ih c (List.mem_of_getElem? hj) _ _ _ info hc with rfl | ⟨q, cs', j', c', hs, hj', h1, h2, h3⟩
      · refine ⟨t, cs, j, c, self_mem_subtrees _, hj, rfl, rfl, ?_⟩
        simp
      · refine ⟨q, cs', j', c', ?_, hj', h1, h2, h3⟩
        rw [subtrees_eq, List.mem_cons]
        right
        exact mem_subtreesL.2 ⟨c, List.mem_of_getElem? hj, hs⟩

/-- Nodes with a parent are exactly operands of subexpressions. -/
theorem info_child {t : Tree} {info : NodeInfo} (hi : info ∈ t.allNodes) {p : Nat} (hp : info.parent = some p) :
    ∃ (cs : List Tree) (j : Nat) (c : Tree), node p cs ∈ t.subtrees ∧ cs[j]? = some c ∧ info.tok = c.root ∧
      info.elder = (if j = 0 then none else cs.head?.map Tree.root) := by
  rcases nodes_cases t _ _ _ info hi with rfl | ⟨q, cs, j, c, hs, hj, h1, h2, h3⟩
  · simp at hp
  · rw [h2] at hp; simp at hp; subst hp
    exact ⟨cs, j, c, hs, hj, h1, h3⟩

theorem Lib.emptyParent_eq_count (lib : Lib) :
    lib.emptyParent = ((List.range lib.L).filter fun i => decide (lib.arity i > 0)).length := by
  have key : ∀ n, (((List.range n).filter fun i => decide (lib.arity i > 0)).length : Int) =
      n - ((List.range n).filter fun i => lib.arity i == 0).length := by
    intro n
    induction n with
    | zero => simp
    | succ n ih =>
      rw [List.range_succ, List.filter_append, List.filter_append, List.length_append, List.length_append,
        filter_single, filter_single]
      by_cases h : lib.arity n = 0
      · simp [h]; simp at ih; omega
      · have : 0 < lib.arity n := by omega
        simp [h, this]; simp at ih; omega
  have hterm : lib.terminalTokens = (List.range lib.L).filter fun i => lib.arity i == 0 := by
    unfold Lib.terminalTokens Lib.tokensOfArity Lib.indices
    apply List.filter_congr
    intro i hi
    have : i < lib.tokens.length := by simpa [Lib.L] using hi
    simp [Lib.arity, this]
  unfold Lib.emptyParent
  rw [hterm, key]

theorem Lib.parentAdjust_lt_empty (lib : Lib) (e : Nat) : lib.parentAdjust e < lib.emptyParent := by
  rw [Lib.emptyParent_eq_count]
  unfold Lib.parentAdjust
  split
  · rename_i h
    have h1 := Lib.range_filter_lt_strict (fun i => decide (lib.arity i > 0)) (Lib.arity_pos_lt h) (by simpa using h)
    omega
  · omega

theorem Lib.emptyParent_attained (lib : Lib) (h : 0 < lib.emptyParent) :
    ∃ i, i < lib.L ∧ lib.parentAdjust i = lib.emptyParent - 1 := by
  rw [Lib.emptyParent_eq_count] at h ⊢
  have key : ∀ n, 0 < ((List.range n).filter fun i => decide (lib.arity i > 0)).length →
      ∃ i, i < n ∧ lib.arity i > 0 ∧ (((List.range i).filter fun i => decide (lib.arity i > 0)).length : Int) =
        ((List.range n).filter fun i => decide (lib.arity i > 0)).length - 1 := by
    intro n
    induction n with
    | zero => intro h; simp at h
    | succ n ih =>
      rw [List.range_succ, List.filter_append, List.length_append, filter_single]
      by_cases hn : lib.arity n > 0
      · intro _
        exact ⟨n, by omega, hn, by simp [hn]⟩
      · intro h0
        simp only [hn, decide_false, Bool.false_eq_true, if_false, List.length_nil, Nat.add_zero] at h0 ⊢
        obtain ⟨i, hi, h1, h2⟩ := ih h0
        exact ⟨i, by omega, h1, h2⟩
  obtain ⟨i, hi, h1, h2⟩ := key lib.L (by omega)
  refine ⟨i, hi, ?_⟩
  unfold Lib.parentAdjust
  rw [if_pos h1]; exact h2

theorem Lib.emptyParent_nonneg (lib : Lib) : 0 ≤ lib.emptyParent := by
  have h := lib.parentAdjust_lt_empty 0
  have : (-1 : Int) ≤ lib.parentAdjust 0 := by unfold Lib.parentAdjust; split <;> omega
  omega

/-- The two definitions of the empty-parent marker agree. -/
theorem atOnceEmptyParent_eq (lib : Lib) : atOnceEmptyParent lib = lib.emptyParent := by
  unfold atOnceEmptyParent
  have hle : ∀ x ∈ (List.range lib.L).map lib.parentAdjust, x ≤ lib.emptyParent - 1 := by
    intro x hx
    obtain ⟨i, _, rfl⟩ := List.mem_map.1 hx
    have := lib.parentAdjust_lt_empty i; omega
  have hub : ((List.range lib.L).map lib.parentAdjust).foldl max (-1) ≤ lib.emptyParent - 1 := by
    rcases foldl_max_mem ((List.range lib.L).map lib.parentAdjust) (-1) with h | h
    · rw [h]; have := lib.emptyParent_nonneg; omega
    · exact hle _ h
  have hlb : lib.emptyParent - 1 ≤ ((List.range lib.L).map lib.parentAdjust).foldl max (-1) := by
    by_cases h0 : lib.emptyParent = 0
    · have := (foldl_max_ge ((List.range lib.L).map lib.parentAdjust) (-1)).1; omega
    · obtain ⟨i, hi, he⟩ := lib.emptyParent_attained (by have := lib.emptyParent_nonneg; omega)
      have := (foldl_max_ge ((List.range lib.L).map lib.parentAdjust) (-1)).2 (lib.parentAdjust i)
        (List.mem_map.2 ⟨i, by simpa using hi, rfl⟩)
      omega
  omega

theorem Lib.emptyParent_not_mem (lib : Lib) (E : List Nat) : lib.emptyParent ∉ E.map lib.parentAdjust := by
  intro h
  obtain ⟨e, _, he⟩ := List.mem_map.1 h
  have := lib.parentAdjust_lt_empty e
  omega

theorem preorder_eq_map_nodes {ar : Nat → Nat} {t : Tree} (hw : WF ar t) :
    t.preorder = t.allNodes.map NodeInfo.tok := by
  apply List.ext_getElem?
  intro i
  rw [List.getElem?_map]
  by_cases hi : i < t.allNodes.length
  · rw [List.getElem?_eq_getElem hi]
    exact (ann_allNodes ar t hw i _ (List.getElem?_eq_getElem hi)).2
  · rw [List.getElem?_eq_none (by rw [← allNodes_length]; omega), List.getElem?_eq_none (by omega)]
    rfl

theorem Lib.adjUnary_mem {lib : Lib} {E : List Nat} {p : Nat} (hp : 0 < lib.arity p) :
    lib.parentAdjust p ∈ (E.filter fun e => lib.unaryTokens.contains e).map lib.parentAdjust ↔
      p ∈ E ∧ lib.arity p = 1 := by
  rw [Lib.adj_mem_iff hp, List.mem_filter]
  constructor
  · rintro ⟨h1, h2⟩
    have : p ∈ lib.unaryTokens := by simpa using h2
    exact ⟨h1, (Lib.mem_tokensOfArity.1 this).2⟩
  · rintro ⟨h1, h2⟩
    have : p ∈ lib.unaryTokens := Lib.mem_tokensOfArity.2 ⟨Lib.arity_pos_lt hp, h2⟩
    exact ⟨h1, by simpa using this⟩

/-- Simulation of `ancestors` by the post-hoc scan. -/
theorem descNoTarget_iff (lib : Lib) (h2 : ∀ t, lib.arity t ≤ 2) (eff : List Nat) (xs : List Nat) :
    (∀ x ∈ xs, x < lib.L) → ∀ (desc : Bool) (d D : Int) (th : Option Int), desc = th.isSome →
    (∀ v, th = some v → d = D - v ∧ v < D) →
    (descNoTarget lib eff desc d xs = true ↔
      ∃ p a q, xs = p ++ a :: q ∧ a ∈ eff ∧ (p.foldl (ancStep lib.arity eff) (D, th)).2.isSome = true) := by
  induction xs with
  | nil => intro _ desc d D th _ _; simp [descNoTarget]
  | cons x xs ih =>
    intro hL desc d D th hdesc hth
    have hsplit : (∃ p a q, x :: xs = p ++ a :: q ∧ a ∈ eff ∧
          (p.foldl (ancStep lib.arity eff) (D, th)).2.isSome = true) ↔
        (x ∈ eff ∧ th.isSome = true) ∨ (∃ p a q, xs = p ++ a :: q ∧ a ∈ eff ∧
          (p.foldl (ancStep lib.arity eff) (ancStep lib.arity eff (D, th) x)).2.isSome = true) := by
      constructor
      · rintro ⟨p, a, q, he, ha, hs⟩
        cases p with
        | nil => simp at he; left; rw [he.1]; exact ⟨ha, by simpa using hs⟩
        | cons y p =>
          simp at he; right
          refine ⟨p, a, q, he.2, ha, ?_⟩
          rw [he.1]; simpa using hs
      · rintro (⟨h1, h3⟩ | ⟨p, a, q, he, ha, hs⟩)
        · exact ⟨[], x, xs, rfl, h1, by simpa using h3⟩
        · exact ⟨x :: p, a, q, by simp [he], ha, by simpa using hs⟩
    rw [hsplit]
    have hxL := hL x (by simp)
    have hx2 := h2 x
    simp only [descNoTarget]
    by_cases hx : x ∈ eff
    · simp only [List.contains_iff_mem, hx, if_true]
      cases hd : desc with
      | true =>
        rw [hd] at hdesc
        simp [← hdesc]
      | false =>
        rw [hd] at hdesc
        have hnone : th = none := by
          cases th with
          | none => rfl
          | some v => simp at hdesc
        subst hnone
        simp only [Bool.false_eq_true, if_false, Option.isSome_none, and_false, false_or]
        rw [ancStep_none, if_pos hx]
        exact ih (fun y hy => hL y (by simp [hy])) true 1 _ _ rfl (by
          intro v hv; simp at hv; subst hv; constructor <;> omega)
    · simp only [List.contains_iff_mem, hx, if_false, false_and, false_or]
      cases hd : desc with
      | true =>
        rw [hd] at hdesc
        obtain ⟨v, rfl⟩ := Option.isSome_iff_exists.1 hdesc.symm
        obtain ⟨h3, h4⟩ := hth v rfl
        have hd' : (if x ∈ lib.binaryTokens then d + 1
            else if (!decide (x ∈ lib.unaryTokens)) = true then d - 1 else d) = d + ((lib.arity x : Int) - 1) := by
          simp only [Lib.binaryTokens, Lib.unaryTokens, Lib.mem_tokensOfArity, hxL, true_and]
          have : lib.arity x = 0 ∨ lib.arity x = 1 ∨ lib.arity x = 2 := by omega
          rcases this with h | h | h <;> simp [h]
          omega
        simp only [if_true, List.contains_eq_mem]
        rw [hd']
        simp only [ancStep]
        by_cases hz : D + ((lib.arity x : Int) - 1) = v
        · rw [if_pos hz]
          apply ih (fun y hy => hL y (by simp [hy]))
          · simp; omega
          · intro w hw; simp at hw
        · rw [if_neg hz]
          apply ih (fun y hy => hL y (by simp [hy]))
          · simp; omega
          · intro w hw; simp at hw; subst hw; constructor <;> omega
      | false =>
        rw [hd] at hdesc
        have hnone : th = none := by
          cases th with
          | none => rfl
          | some v => simp at hdesc
        subst hnone
        simp only [Bool.false_eq_true, if_false]
        rw [ancStep_none, if_neg hx]
        exact ih (fun y hy => hL y (by simp [hy])) false d _ none rfl (by intro v hv; simp at hv)

end Verif.Discover
