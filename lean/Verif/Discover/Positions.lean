import Verif.Discover.Basic
import Verif.Util
/-!
# Parent / sibling / ancestor subroutines (kd/model/discover/dso/subroutines.py)
The batch dimension is dropped: every row of the batch is processed independently (`for r in prange(N)`).
-/
namespace Verif.Discover

/-- subroutines.py:57-66, the backward loop `for c in range(L)`: `d` is `dangling`, `prev` the token at
`L - c` (the previously visited one), the list is the rest of the row in reverse.  `some (p, s)` is the pair
read at `dangling == 0` (lines 63-66), `none` when the loop ends without `break`. -/
def psScan (ar : Nat → Nat) : Int → Nat → List Nat → Option (Nat × Nat)
  | _, _, [] => none
  | d, prev, x :: xs =>
    let d' := d + ((ar x : Int) - 1)
    if d' = 0 then some (x, prev) else psScan ar d' x xs

/-- subroutines.py:7-66 `parents_siblings` on one row: (adjusted parent, sibling) of the next token.
`none` stands for the out-of-range read `tokens[r, -1]` of an empty row. -/
def parentsSiblings (ar : Nat → Nat) (adj : Nat → Int) (emptyP : Int) (emptyS : Nat) (tokens : List Nat) :
    Option (Int × Nat) :=
  match tokens.reverse with
  | [] => none
  | x :: rest =>
    if ar x > 0 then some (adj x, emptyS)                 -- lines 53-56
    else match psScan ar 0 emptyS (x :: rest) with         -- lines 57-66
      | some (p, s) => some (adj p, s)
      | none => some (emptyP, emptyS)

/-- subroutines.py:69-144 `jit_parents_siblings_at_once` on one row: entry `b` of the result.  Entry 0 keeps
the fill values; entry `b ≥ 1` runs the same backward loop as `parents_siblings` on `tokens[:b]`
(lines 122-141; the loop body is textually the same with `L` replaced by `b`). -/
def parentsSiblingsAtOnce (ar : Nat → Nat) (adj : Nat → Int) (emptyP : Int) (emptyS : Nat)
    (tokens : List Nat) : List (Int × Nat) :=
  (List.range tokens.length).map fun b =>
    if b = 0 then (emptyP, emptyS)
    else
      let row := (tokens.take b).reverse
      match row with
      | [] => (emptyP, emptyS)
      | x :: rest =>
        if ar x > 0 then (adj x, emptyS)
        else match psScan ar 0 emptyS (x :: rest) with
          | some (p, s) => (adj p, s)
          | none => (emptyP, emptyS)

/-- subroutines.py:178-196, one iteration of the loop of `ancestors`; the state is (dangling, threshold). -/
def ancStep (ar : Nat → Nat) (eff : List Nat) (s : Int × Option Int) (a : Nat) : Int × Option Int :=
  let d := s.1 + ((ar a : Int) - 1)
  match s.2 with
  | none => if a ∈ eff then (d, some (d - 1)) else (d, none)
  | some th => if d = th then (d, none) else (d, some th)

/-- subroutines.py:147-202 `ancestors` on one row. -/
def ancestors (ar : Nat → Nat) (eff : List Nat) (actions : List Nat) : Bool :=
  (actions.foldl (ancStep ar eff) (0, none)).2.isSome

/-! ## Contexts: the shape of a partial traversal (helper notion) -/

structure Frame where
  tok : Nat
  done : List Tree

/-- innermost frame first -/
def flat : List Frame → List Nat
  | [] => []
  | f :: fs => flat fs ++ f.tok :: Tree.preorderL f.done

def GoodCtx (ar : Nat → Nat) (ctx : List Frame) : Prop :=
  ∀ f ∈ ctx, f.done.length < ar f.tok ∧ Tree.WFL ar f.done

def Frame.anc (f : Frame) : Nat × Nat := (f.tok, f.done.length)

/-- `info` describes the next token after the partial traversal `pre`. -/
def Ann (ar : Nat → Nat) (pre : List Nat) (info : NodeInfo) : Prop :=
  ∃ ctx, GoodCtx ar ctx ∧ pre = flat ctx ∧ info.parent = (ctx.head?.map Frame.tok) ∧
    info.elder = (ctx.head?.bind fun f => f.done.head?.map Tree.root) ∧
    info.anc = ctx.map Frame.anc

open Tree in
theorem ann_tree (ar : Nat → Nat) (t : Tree) : WF ar t → ∀ (ctx : List Frame), GoodCtx ar ctx →
    ∀ p e anc, p = (ctx.head?.map Frame.tok) → e = (ctx.head?.bind fun f => f.done.head?.map Tree.root) →
      anc = ctx.map Frame.anc → ∀ i info, (t.nodes p e anc)[i]? = some info →
      Ann ar (flat ctx ++ t.preorder.take i) info ∧ t.preorder[i]? = some info.tok := by
  induction t using Tree.induct with
  | h t cs ih =>
    intro hw ctx hc p e anc hp he ha i info hi
    simp only [WF] at hw
    obtain ⟨hl, hw⟩ := hw
    have aux : ∀ (cs : List Tree), (∀ c ∈ cs, WF ar c → ∀ (ctx : List Frame), GoodCtx ar ctx →
        ∀ p e anc, p = (ctx.head?.map Frame.tok) → e = (ctx.head?.bind fun f => f.done.head?.map Tree.root) →
        anc = ctx.map Frame.anc → ∀ i info, (c.nodes p e anc)[i]? = some info →
        Ann ar (flat ctx ++ c.preorder.take i) info ∧ c.preorder[i]? = some info.tok) → WFL ar cs →
        ∀ (done : List Tree), WFL ar done → done.length + cs.length = ar t →
        ∀ i info, (nodesL t (done.head?.map Tree.root) anc done.length cs)[i]? = some info →
        Ann ar (flat (⟨t, done⟩ :: ctx) ++ (preorderL cs).take i) info ∧ (preorderL cs)[i]? = some info.tok := by
      intro cs
      induction cs with
      | nil => intro _ _ done _ _ i info h; simp [nodesL] at h
      | cons c cs ihc =>
        intro h1 h2 done hd hlen i info h
        simp only [WFL] at h2
        simp only [nodesL] at h
        have hlenc : (c.nodes (some t) (done.head?.map Tree.root) ((t, done.length) :: anc)).length
            = c.preorder.length := by
          have gen : ∀ c : Tree, ∀ p e a, (c.nodes p e a).length = c.preorder.length := by
            intro c
            induction c using Tree.induct with
            | h t cs ih =>
              intro p e a
              have aux2 : ∀ cs : List Tree, (∀ c ∈ cs, ∀ p e a, (c.nodes p e a).length = c.preorder.length) →
                  ∀ e a k, (nodesL t e a k cs).length = (preorderL cs).length := by
                intro cs
                induction cs with
                | nil => intro _ e a k; simp [nodesL, preorderL]
                | cons c cs ihc =>
                  intro h e a k
                  simp [nodesL, preorderL, h c (by simp), ihc (fun c hc => h c (by simp [hc]))]
              simp [nodes, preorder, aux2 cs ih]
          exact gen _ _ _ _
        by_cases hi : i < c.preorder.length
        · rw [List.getElem?_append_left (by omega)] at h
          have hg : GoodCtx ar (⟨t, done⟩ :: ctx) := by
            intro f hf
            rcases List.mem_cons.1 hf with rfl | hf
            · exact ⟨by simp at hlen ⊢; omega, hd⟩
            · exact hc f hf
          have := h1 c (by simp) h2.1 (⟨t, done⟩ :: ctx) hg (some t) (done.head?.map Tree.root)
            ((t, done.length) :: anc) (by simp) (by simp) (by simp [Frame.anc, ha]) i info h
          simp only [preorderL]
          rw [List.take_append_of_le_length (by omega), List.getElem?_append_left hi]
          exact this
        · rw [List.getElem?_append_right (by omega), hlenc] at h
          have e1 : (done.head?.map Tree.root).or (some c.root) = ((done ++ [c]).head?.map Tree.root) := by
            cases done <;> simp
          have e2 : done.length + 1 = (done ++ [c]).length := by simp
          rw [e1, e2] at h
          have := ihc (fun c hc => h1 c (by simp [hc])) h2.2 (done ++ [c])
            (WFL_append.2 ⟨hd, by simpa [WFL] using h2.1⟩) (by simp at hlen ⊢; omega)
            (i - c.preorder.length) info h
          simp only [preorderL]
          rw [List.take_append, List.take_of_length_le (by omega), List.getElem?_append_right (by omega)]
          simpa [flat, preorderL_append, preorderL] using this
    cases i with
    | zero =>
      simp only [nodes, List.getElem?_cons_zero, Option.some.injEq] at hi
      subst hi
      simp only [preorder, List.take_zero, List.append_nil, List.getElem?_cons_zero, and_true]
      exact ⟨ctx, hc, rfl, hp, he, ha⟩
    | succ i =>
      simp only [nodes, List.getElem?_cons_succ] at hi
      have := aux cs ih hw [] trivial (by simpa using hl) i info (by simpa using hi)
      simpa [preorder, flat, preorderL] using this

/-- Every node of a well-formed expression is annotated by the context of its traversal prefix. -/
theorem ann_allNodes (ar : Nat → Nat) (t : Tree) (h : t.WF ar) (i : Nat) (info : NodeInfo)
    (hi : t.allNodes[i]? = some info) :
    Ann ar (t.preorder.take i) info ∧ t.preorder[i]? = some info.tok := by
  have := ann_tree ar t h [] (by intro f hf; simp at hf) none none [] rfl rfl rfl i info hi
  simpa [flat] using this

open Tree in
theorem nodes_length (c : Tree) : ∀ p e a, (c.nodes p e a).length = c.preorder.length := by
  induction c using Tree.induct with
  | h t cs ih =>
    intro p e a
    have aux2 : ∀ cs : List Tree, (∀ c ∈ cs, ∀ p e a, (c.nodes p e a).length = c.preorder.length) →
        ∀ e a k, (nodesL t e a k cs).length = (preorderL cs).length := by
      intro cs
      induction cs with
      | nil => intro _ e a k; simp [nodesL, preorderL]
      | cons c cs ihc =>
        intro h e a k
        simp [nodesL, preorderL, h c (by simp), ihc (fun c hc => h c (by simp [hc]))]
    simp [nodes, preorder, aux2 cs ih]

theorem allNodes_length (t : Tree) : t.allNodes.length = t.preorder.length := nodes_length t _ _ _

/-! ## Backward scan -/

theorem psScan_skip (ar : Nat → Nat) (rest : List Nat) (ys : List Nat) :
    ∀ (d : Int) (prev : Nat) (hne : ys ≠ []), (∀ s, s <:+ ys → s ≠ [] → dang ar d s ≠ 0) →
    psScan ar d prev (ys.reverse ++ rest) = psScan ar (dang ar d ys) (ys.head hne) rest := by
  induction ys generalizing rest with
  | nil => intro d prev hne; exact absurd rfl hne
  | cons y ys ih =>
    intro d prev hne hs
    have hfull := hs (y :: ys) (List.suffix_refl _) (by simp)
    simp only [List.reverse_cons, List.append_assoc, List.cons_append, List.nil_append]
    by_cases hys : ys = []
    · subst hys
      simp [dang] at hfull
      simp [psScan, dang, hfull]
    · rw [ih (y :: rest) d prev hys (fun s hs' hn => hs s (hs'.trans (List.suffix_cons _ _)) hn)]
      have e : dang ar d (y :: ys) = dang ar d ys + ((ar y : Int) - 1) := by
        simp only [dang]; rw [dang_shift]
      rw [e] at hfull
      simp only [psScan]
      rw [if_neg hfull, e]
      simp

open Tree in
theorem psScan_forest (ar : Nat → Nat) (rest : List Nat) (t : Tree) (ts : List Tree)
    (hw : WFL ar (t :: ts)) (d : Int) (hd : d ≤ 0) (prev : Nat) :
    psScan ar d prev ((preorderL (t :: ts)).reverse ++ rest) =
      psScan ar (d - (ts.length + 1)) t.root rest := by
  have hne : preorderL (t :: ts) ≠ [] := by simp [preorderL, preorder_eq]
  rw [psScan_skip ar rest _ d prev hne]
  · rw [dang_preorderL ar _ hw]
    have : (preorderL (t :: ts)).head hne = t.root := by
      simp [preorderL, preorder_eq]
    rw [this]; congr 1
  · rintro s ⟨p, hp⟩ hs
    have hex := exact_preorderL ar _ hw
    have h1 := hex.2 p s hp.symm hs
    have h2 := hex.1
    rw [← hp, dang_append, dang_eq] at h2
    rw [dang_eq]; omega

open Tree in
/-- The last token of a complete forest is a terminal. -/
theorem getLast_preorderL (ar : Nat → Nat) (ts : List Tree) (h : WFL ar ts) (hne : preorderL ts ≠ []) :
    ar ((preorderL ts).getLast hne) = 0 := by
  have hex := exact_preorderL ar ts h
  have hsplit := List.dropLast_concat_getLast hne
  have h1 := hex.2 (preorderL ts).dropLast [(preorderL ts).getLast hne] hsplit.symm (by simp)
  have h2 := hex.1
  rw [← hsplit, dang_append] at h2
  simp only [dang] at h2
  omega

/-- What `parents_siblings` returns for a partial traversal with context `ctx`. -/
theorem parentsSiblings_flat (ar : Nat → Nat) (adj : Nat → Int) (eP : Int) (eS : Nat)
    (f : Frame) (ctx : List Frame) (hg : GoodCtx ar (f :: ctx)) (h2 : ar f.tok ≤ 2) :
    parentsSiblings ar adj eP eS (flat (f :: ctx)) =
      some (adj f.tok, (f.done.head?.map Tree.root).getD eS) := by
  obtain ⟨hlt, hw⟩ := hg f (by simp)
  obtain ⟨tok, done⟩ := f
  cases done with
  | nil =>
    simp at hlt
    simp [parentsSiblings, flat, Tree.preorderL, hlt]
  | cons c cs =>
    simp at hlt h2 hw
    have hcs : cs = [] := by
      apply List.length_eq_zero_iff.1; omega
    subst hcs
    have har : ar tok = 2 := by simp at hlt; omega
    have hne : Tree.preorderL [c] ≠ [] := by simp [Tree.preorderL, Tree.preorder_eq]
    have hlast := getLast_preorderL ar [c] hw hne
    have hrev : (flat (⟨tok, [c]⟩ :: ctx)).reverse =
        (Tree.preorderL [c]).reverse ++ (tok :: (flat ctx).reverse) := by simp [flat]
    have hcons : (Tree.preorderL [c]).reverse = (Tree.preorderL [c]).getLast hne ::
        (Tree.preorderL [c]).dropLast.reverse := by
      conv => lhs; rw [← List.dropLast_concat_getLast hne]
      simp
    have hscan := psScan_forest ar (tok :: (flat ctx).reverse) c [] hw 0 (by omega) eS
    have hscan2 : psScan ar 0 eS ((Tree.preorderL [c]).reverse ++ (tok :: (flat ctx).reverse)) =
        some (tok, c.root) := by
      rw [hscan]
      simp [psScan, har]
    unfold parentsSiblings
    rw [hrev]
    rw [hcons] at hscan2 ⊢
    simp only [List.cons_append] at hscan2 ⊢
    rw [hscan2]
    simp [hlast]

/-! ## Ancestor scan -/

theorem ancStep_none {ar : Nat → Nat} {eff : List Nat} {d : Int} {a : Nat} :
    ancStep ar eff (d, none) a =
      if a ∈ eff then (d + ((ar a : Int) - 1), some (d + ((ar a : Int) - 1) - 1))
      else (d + ((ar a : Int) - 1), none) := rfl

/-- While "on", the scan stays on as long as the count stays above the threshold. -/
theorem anc_on (ar : Nat → Nat) (eff : List Nat) (th : Int) (xs : List Nat) :
    ∀ d : Int, (∀ p q, xs = p ++ q → p ≠ [] → th < dang ar d p) →
    xs.foldl (ancStep ar eff) (d, some th) = (dang ar d xs, some th) := by
  induction xs with
  | nil => intro d _; rfl
  | cons x xs ih =>
    intro d h
    have h1 := h [x] xs rfl (by simp)
    simp only [dang] at h1
    have : ancStep ar eff (d, some th) x = (d + ((ar x : Int) - 1), some th) := by
      simp only [ancStep]
      rw [if_neg (by omega)]
    rw [List.foldl_cons, this, ih]
    · rfl
    · intro p q hpq hp
      have := h (x :: p) q (by simp [hpq]) (by simp)
      simpa [dang] using this

open Tree in
/-- A complete expression scanned while "on" with threshold just below switches "off" exactly at its end. -/
theorem anc_tree_off (ar : Nat → Nat) (eff : List Nat) (t : Tree) (hw : WF ar t) (d : Int) :
    t.preorder.foldl (ancStep ar eff) (d, some (d - 1)) = (d - 1, none) := by
  have hne := preorder_ne_nil t
  have hsplit := List.dropLast_concat_getLast hne
  have hex := exact_preorder ar t hw
  have hd := dang_preorder ar t hw d
  rw [← hsplit, List.foldl_append, anc_on]
  · rw [← hsplit, dang_append] at hd
    simp only [dang] at hd
    simp [ancStep, hd]
  · intro p q hpq hp
    have := hex.2 p (q ++ [t.preorder.getLast hne]) (by rw [← List.append_assoc, ← hpq, hsplit]) (by simp)
    rw [dang_eq] at this ⊢; omega

open Tree in
theorem anc_forest_on (ar : Nat → Nat) (eff : List Nat) (ts : List Tree) (hw : WFL ar ts) (d th : Int)
    (h : th < d - ts.length) :
    (preorderL ts).foldl (ancStep ar eff) (d, some th) = (d - ts.length, some th) := by
  rw [anc_on, dang_preorderL ar ts hw]
  intro p q hpq hp
  by_cases hq : q = []
  · subst hq
    simp at hpq; subst hpq
    rw [dang_preorderL ar ts hw]; exact h
  · have := (exact_preorderL ar ts hw).2 p q hpq hq
    rw [dang_eq] at this ⊢; omega

open Tree in
/-- A complete expression scanned while "off" leaves the scan "off" (no terminal effectors). -/
theorem anc_tree_none (ar : Nat → Nat) (eff : List Nat) (heff : ∀ e ∈ eff, 0 < ar e) (t : Tree) :
    WF ar t → ∀ d, t.preorder.foldl (ancStep ar eff) (d, none) = (d - 1, none) := by
  induction t using Tree.induct with
  | h t cs ih =>
    intro hw d
    simp only [WF] at hw
    obtain ⟨hl, hw⟩ := hw
    have aux : ∀ cs : List Tree, (∀ c ∈ cs, WF ar c → ∀ d, c.preorder.foldl (ancStep ar eff) (d, none) = (d - 1, none)) →
        WFL ar cs → ∀ d, (preorderL cs).foldl (ancStep ar eff) (d, none) = (d - cs.length, none) := by
      intro cs
      induction cs with
      | nil => intro _ _ d; simp [preorderL]
      | cons c cs ihc =>
        intro h1 h2 d
        simp only [WFL] at h2
        simp only [preorderL, List.foldl_append]
        rw [h1 c (by simp) h2.1, ihc (fun c hc => h1 c (by simp [hc])) h2.2]
        congr 1; simp; omega
    simp only [preorder, List.foldl_cons, ancStep_none]
    by_cases he : t ∈ eff
    · have := heff t he
      cases cs with
      | nil => simp at hl; omega
      | cons c cs =>
        simp only [WFL] at hw
        rw [if_pos he]
        simp only [preorderL, List.foldl_append]
        rw [anc_tree_off ar eff c hw.1, aux cs (fun c hc => ih c (by simp [hc])) hw.2]
        congr 1; simp at hl; omega
    · rw [if_neg he, aux cs ih hw]
      congr 1; omega

open Tree in
theorem anc_forest_none (ar : Nat → Nat) (eff : List Nat) (heff : ∀ e ∈ eff, 0 < ar e) (ts : List Tree)
    (hw : WFL ar ts) : ∀ d, (preorderL ts).foldl (ancStep ar eff) (d, none) = (d - ts.length, none) := by
  induction ts with
  | nil => intro d; simp [preorderL]
  | cons c cs ihc =>
    intro d
    simp only [WFL] at hw
    simp only [preorderL, List.foldl_append]
    rw [anc_tree_none ar eff heff c hw.1, ihc hw.2]
    congr 1; simp; omega

/-- The state of the ancestor scan after a partial traversal. -/
theorem anc_flat (ar : Nat → Nat) (eff : List Nat) (heff : ∀ e ∈ eff, 0 < ar e) (ctx : List Frame)
    (hg : GoodCtx ar ctx) :
    ∃ d th, (flat ctx).foldl (ancStep ar eff) (0, none) = (d, th) ∧ (∀ v, th = some v → v < d) ∧
      (th.isSome = true ↔ ∃ f ∈ ctx, f.tok ∈ eff ∧ f.done = []) := by
  induction ctx with
  | nil => exact ⟨0, none, rfl, by simp, by simp⟩
  | cons f fs ih =>
    obtain ⟨hlt, hw⟩ := hg f (by simp)
    obtain ⟨d, th, hS, hv, hiff⟩ := ih (fun g hg' => hg g (by simp [hg']))
    obtain ⟨tok, done⟩ := f
    simp only at hlt hw
    simp only [flat, List.foldl_append, List.foldl_cons, hS]
    cases th with
    | some v =>
      have hvd := hv v rfl
      have : ancStep ar eff (d, some v) tok = (d + ((ar tok : Int) - 1), some v) := by
        simp only [ancStep]; rw [if_neg (by omega)]
      rw [this, anc_forest_on ar eff done hw _ _ (by omega)]
      refine ⟨_, _, rfl, ?_, ?_⟩
      · intro w hw'; cases hw'; omega
      · simp only [Option.isSome_some, true_iff]
        obtain ⟨g, hgm, hge⟩ := hiff.1 rfl
        exact ⟨g, by simp [hgm], hge⟩
    | none =>
      rw [ancStep_none]
      have hno : ¬ ∃ f ∈ fs, f.tok ∈ eff ∧ f.done = [] := by
        intro h; have := hiff.2 h; simp at this
      by_cases he : tok ∈ eff
      · rw [if_pos he]
        cases done with
        | nil =>
          refine ⟨_, _, rfl, ?_, ?_⟩
          · intro w hw'; simp at hw'; omega
          · simp [he]
        | cons c cs =>
          simp only [Tree.WFL] at hw
          simp only [Tree.preorderL, List.foldl_append]
          rw [anc_tree_off ar eff c hw.1, anc_forest_none ar eff heff cs hw.2]
          refine ⟨_, _, rfl, by simp, ?_⟩
          simp only [Option.isSome_none, Bool.false_eq_true, false_iff]
          rintro ⟨g, hgm, hge⟩
          rcases List.mem_cons.1 hgm with rfl | hgm
          · simp at hge
          · exact hno ⟨g, hgm, hge⟩
      · rw [if_neg he, anc_forest_none ar eff heff done hw]
        refine ⟨_, _, rfl, by simp, ?_⟩
        simp only [Option.isSome_none, Bool.false_eq_true, false_iff]
        rintro ⟨g, hgm, hge⟩
        rcases List.mem_cons.1 hgm with rfl | hgm
        · exact he hge.1
        · exact hno ⟨g, hgm, hge⟩

theorem ancestors_flat (ar : Nat → Nat) (eff : List Nat) (heff : ∀ e ∈ eff, 0 < ar e) (ctx : List Frame)
    (hg : GoodCtx ar ctx) :
    ancestors ar eff (flat ctx) = true ↔ ∃ f ∈ ctx, f.tok ∈ eff ∧ f.done = [] := by
  obtain ⟨d, th, hS, _, hiff⟩ := anc_flat ar eff heff ctx hg
  simp only [ancestors, hS, hiff]

end Verif.Discover
