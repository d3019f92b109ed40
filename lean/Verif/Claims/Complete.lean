import Verif.Claims.Violation
import Verif.Claims.Positions
/-!
# C64 – the masks exclude nothing but violations
-/
namespace Verif.Discover.Claims
open Tree

/-- **Specification**: expression `t` obeys the constraint `p`, said about the expression as a tree.
(`2 ≤ length` for the length constraint: it never allows a terminal as first token.) -/
def Obeys (lib : Lib) (t : Tree) : Prior → Prop
  | .relational c => ¬ c.rel.Forbidden c.targets c.effectors t
  | .length mn mx => 2 ≤ t.preorder.length ∧ (∀ m, mn = some m → m ≤ t.preorder.length) ∧
      (∀ m, mx = some m → t.preorder.length ≤ m)
  | .repeat toks mx => (t.preorder.filter fun a => decide (a ∈ toks)).length ≤ mx
  | .noInputs => ∃ x ∈ t.preorder, x ∈ lib.stateTokens
  | .inverse cs => ∀ c ∈ cs, ¬ c.rel.Forbidden c.targets c.effectors t
  | .soft _ _ => True

/-- What `library.actionize` gives (indices of the library), and no terminal as effector of a descendant constraint. -/
def WellPosed (lib : Lib) : Prior → Prop
  | .relational c => c.InLib lib ∧ (c.rel = .descendant → ∀ e ∈ c.effectors, 0 < lib.arity e)
  | .inverse cs => ∀ c ∈ cs, c.InLib lib ∧ (c.rel = .descendant → ∀ e ∈ c.effectors, 0 < lib.arity e)
  | _ => True

theorem relational_call_forbidden {lib : Lib} (h2 : ∀ t, lib.arity t ≤ 2) {t : Tree} (hw : WF lib.arity t)
    (hL : ∀ x ∈ t.preorder, x < lib.L) (c : Relational) (hin : c.InLib lib)
    (heff : c.rel = .descendant → ∀ e ∈ c.effectors, 0 < lib.arity e)
    (i : Nat) (hi0 : 0 < i) (info : NodeInfo) (hi : t.allNodes[i]? = some info)
    (hcall : c.call lib (t.preorder.take i) (psOf lib (t.preorder.take i)).1 (psOf lib (t.preorder.take i)).2 info.tok = none) :
    c.rel.Forbidden c.targets c.effectors t := by
  obtain ⟨p, hp, _⟩ := C04_parent_sibling lib.arity h2 lib.parentAdjust 0 0 t hw i hi0 info hi
  have hmem : info ∈ t.allNodes := List.mem_of_getElem? hi
  obtain ⟨cs, j, c', hs, hj, htok, hel⟩ := info_child hmem hp
  have har := parent_arity hw hi hp
  rw [psOf_node h2 hw hi hp] at hcall
  have hwf := subtree_wf t hw _ hs
  simp only [WF] at hwf
  have hlen : cs.length ≤ 2 := by rw [hwf.1]; exact h2 p
  have hjl : j < cs.length := (List.getElem?_eq_some_iff.1 hj).1
  have hroots : ∀ a ∈ cs, a.root < lib.L := by
    intro a ha
    obtain ⟨k, hk, rfl⟩ := List.mem_iff_getElem.1 ha
    obtain ⟨inf, hinf, ht, _⟩ := child_info hs (List.getElem?_eq_getElem hk)
    rw [← ht]
    apply hL
    rw [preorder_eq_map_nodes hw]
    exact List.mem_map_of_mem hinf
  -- the elder sibling marker
  have helder : (j = 0 ∧ info.elder = none) ∨ ∃ a b, cs = [a, b] ∧ c' = b ∧ info.elder = some a.root := by
    by_cases h0 : j = 0
    · exact Or.inl ⟨h0, by rw [hel, if_pos h0]⟩
    · right
      match cs, hlen, hjl, hj, hel with
      | [a, b], _, hjl, hj, hel =>
        have : j = 1 := by simp at hjl; omega
        subst this
        refine ⟨a, b, rfl, ?_, by rw [hel]; simp⟩
        simpa using hj.symm
      | [a], _, hjl, _, _ => simp at hjl; omega
  obtain ⟨T, E, rel⟩ := c
  by_cases hdesc : rel = .descendant
  · subst hdesc
    simp only [Relational.call, makeConstraint_none] at hcall
    obtain ⟨a, ha, haE, _⟩ := (C05_ancestors_exact lib.arity E (heff rfl) t hw i info hi).1 hcall.1
    obtain ⟨cs', d, hs', hd, hr⟩ := anc_subtree t none none [] _ hmem a ha (by simp)
    exact ⟨a.1, cs', hs', haE, d, hd, by rw [hr]; exact hcall.2⟩
  refine ⟨p, cs, hs, ?_⟩
  cases rel with
  | child =>
    simp only [Relational.call, makeConstraint_none, List.contains_iff_mem] at hcall
    exact ⟨(Lib.adj_mem_iff har).1 hcall.1, c', List.mem_of_getElem? hj, htok ▸ hcall.2⟩
  | lchild =>
    simp only [Relational.call, makeConstraint_none, Bool.and_eq_true, List.contains_iff_mem, beq_iff_eq] at hcall
    refine ⟨(Lib.adj_mem_iff har).1 hcall.1.1, c', ?_, htok ▸ hcall.2⟩
    rcases helder with ⟨h0, _⟩ | ⟨a, b, rfl, _, hea⟩
    · subst h0; rw [← hj]; cases cs <;> rfl
    · have h3 := hcall.1.2
      rw [hea] at h3
      have h4 := hroots a (by simp)
      simp at h3; omega
  | rchild =>
    simp only [Relational.call, makeConstraint_none, Bool.and_eq_true, List.contains_iff_mem, decide_eq_true_eq] at hcall
    refine ⟨(Lib.adj_mem_iff har).1 hcall.1.1, ?_⟩
    rcases helder with ⟨_, hn⟩ | ⟨a, b, rfl, rfl, _⟩
    · have h3 := hcall.1.2
      rw [hn] at h3; simp at h3
    · exact ⟨a, c', rfl, htok ▸ hcall.2⟩
  | uchild =>
    simp only [Relational.call, makeConstraint_none, Bool.or_eq_true, Bool.and_eq_true, List.contains_iff_mem] at hcall
    obtain ⟨h3, h4⟩ := hcall
    rcases h3 with h3 | ⟨h3, h5⟩
    · obtain ⟨hpE, h1⟩ := (Lib.adjUnary_mem har).1 h3
      refine ⟨hpE, Or.inl ?_⟩
      rw [h1] at hwf
      match cs, hwf.1, hj with
      | [a], _, hj =>
        have hj' := List.mem_of_getElem? hj
        rw [List.mem_singleton] at hj'
        exact ⟨a, rfl, by rw [← hj', ← htok]; exact h4⟩
    · refine ⟨(Lib.adj_mem_iff har).1 h5, Or.inr ?_⟩
      rcases helder with ⟨_, hn⟩ | ⟨a, b, rfl, rfl, hea⟩
      · rw [hn] at h3
        have := hin.1 _ h3
        simp at this
      · rw [hea] at h3
        exact ⟨a, c', rfl, h3, htok ▸ h4⟩
  | sibling =>
    simp only [Relational.call, Logit.add_eq_none, makeConstraint_none, List.contains_iff_mem] at hcall
    rcases helder with ⟨_, hn⟩ | ⟨a, b, rfl, rfl, hea⟩
    · rw [hn] at hcall
      rcases hcall with ⟨h3, _⟩ | ⟨h3, _⟩
      · have := hin.2 _ h3; simp at this
      · have := hin.1 _ h3; simp at this
    · rw [hea] at hcall
      refine ⟨a, c', rfl, ?_⟩
      rcases hcall with ⟨h3, h4⟩ | ⟨h3, h4⟩
      · exact Or.inr ⟨h3, htok ▸ h4⟩
      · exact Or.inl ⟨h3, htok ▸ h4⟩
  | descendant => exact absurd rfl hdesc

theorem dang_ge (ar : Nat → Nat) (xs : List Nat) : ∀ d : Int, d - xs.length ≤ dang ar d xs := by
  induction xs with
  | nil => intro d; simp [dang]
  | cons x xs ih =>
    intro d
    have := ih (d + ((ar x : Int) - 1))
    simp only [dang, List.length_cons]
    omega

/-- A constraint that masks a token of a complete expression, at the token's place, is not obeyed by the expression. -/
theorem call_obeys {lib : Lib} (h2 : ∀ t, lib.arity t ≤ 2) {t : Tree} (hw : WF lib.arity t)
    (hL : ∀ x ∈ t.preorder, x < lib.L) (p : Prior) (hp : WellPosed lib p) (hob : Obeys lib t p)
    (i : Nat) (hi0 : 0 < i) (tok : Nat) (hi : t.preorder[i]? = some tok) :
    p.call lib (t.preorder.take i) (psOf lib (t.preorder.take i)).1 (psOf lib (t.preorder.take i)).2
      (dang lib.arity 1 (t.preorder.take i)) tok ≠ none := by
  have hil : i < t.preorder.length := (List.getElem?_eq_some_iff.1 hi).1
  have hia : i < t.allNodes.length := by rw [allNodes_length]; exact hil
  have hinfo : t.allNodes[i]? = some t.allNodes[i] := List.getElem?_eq_getElem hia
  have htok : t.allNodes[i].tok = tok := by
    have := (ann_allNodes lib.arity t hw i _ hinfo).2
    rw [hi] at this
    simpa using this.symm
  have hsplit : t.preorder = t.preorder.take i ++ tok :: t.preorder.drop (i + 1) := by
    conv => lhs; rw [← List.take_append_drop i t.preorder]
    rw [List.drop_eq_getElem_cons hil]
    have : t.preorder[i] = tok := by
      rw [List.getElem?_eq_getElem hil] at hi; simpa using hi
    rw [this]
  have hex := exact_preorder lib.arity t hw
  have hbal : dang lib.arity 1 (t.preorder.take i) + ((lib.arity tok : Int) - 1) ≤ (t.preorder.drop (i + 1)).length := by
    have h0 := hex.1
    rw [hsplit, dang_append] at h0
    simp only [dang] at h0
    have := dang_ge lib.arity (t.preorder.drop (i + 1)) (dang lib.arity 1 (t.preorder.take i) + ((lib.arity tok : Int) - 1))
    omega
  have hdl : (t.preorder.drop (i + 1)).length = t.preorder.length - (i + 1) := by simp
  -- a terminal in the last open slot ends the expression
  have hlast : dang lib.arity 1 (t.preorder.take i) = 1 → lib.arity tok = 0 → t.preorder = t.preorder.take i ++ [tok] := by
    intro hd ha
    by_cases hr : t.preorder.drop (i + 1) = []
    · rw [hr] at hsplit; exact hsplit
    · exfalso
      have := hex.2 (t.preorder.take i ++ [tok]) (t.preorder.drop (i + 1)) (by rw [List.append_assoc]; exact hsplit) hr
      rw [dang_append] at this
      simp only [dang] at this
      omega
  cases p with
  | relational c =>
    intro hcall
    exact hob (relational_call_forbidden h2 hw hL c hp.1 hp.2 i hi0 _ hinfo (by rw [htok]; exact hcall))
  | inverse cs =>
    intro hcall
    simp only [Prior.call, foldl_add_eq_none] at hcall
    rcases hcall with h | ⟨c, hc, hcall⟩
    · cases h
    · exact hob c hc (relational_call_forbidden h2 hw hL c (hp c hc).1 (hp c hc).2 i hi0 _ hinfo (by rw [htok]; exact hcall))
  | soft f g => simp [Prior.call]
  | «repeat» toks mx =>
    intro hcall
    simp only [Prior.call, makeConstraint_none, decide_eq_true_eq] at hcall
    simp only [Obeys] at hob
    rw [hsplit] at hob
    simp [List.filter_append, hcall.2] at hob
    have h3 := hcall.1
    simp only [List.contains_eq_mem] at h3
    omega
  | noInputs =>
    intro hcall
    simp only [Prior.call, makeConstraint_none, Bool.and_eq_true, decide_eq_true_eq] at hcall
    obtain ⟨⟨hd, hns⟩, hmem⟩ := hcall
    obtain ⟨tk, htk, hprop⟩ := Lib.mem_indices.1 hmem
    simp only [Bool.and_eq_true, beq_iff_eq] at hprop
    have ha : lib.arity tok = 0 := by simp [Lib.arity, htk, hprop.1]
    obtain ⟨x, hx, hxs⟩ := hob
    rw [hlast hd ha] at hx
    rcases List.mem_append.1 hx with hx | hx
    · have : x ∈ (t.preorder.take i).filter fun a => lib.stateTokens.contains a := by
        rw [List.mem_filter]; exact ⟨hx, by simpa using hxs⟩
      rw [List.length_eq_zero_iff.1 hns] at this
      cases this
    · rw [List.mem_singleton] at hx
      subst hx
      obtain ⟨tk', htk', hst⟩ := Lib.mem_indices.1 hxs
      rw [htk] at htk'
      simp only [Option.some.injEq] at htk'
      subst htk'
      have := hprop.2
      rw [Option.isNone_iff_eq_none] at this
      rw [this] at hst
      simp at hst
  | length mn mx =>
    obtain ⟨_, hmn, hmx⟩ := hob
    intro hcall
    simp only [Prior.call, lengthCall, Logit.add_eq_none] at hcall
    have hk : (t.preorder.take i).length = i := by simp; omega
    rw [hk] at hcall
    rcases hcall with h | h
    · cases mx with
      | none => cases h
      | some m =>
        have hm := hmx m rfl
        simp only [] at h
        by_cases hc : i + 1 ≥ m / 2
        · rw [if_pos hc] at h
          simp only [Logit.add_eq_none, makeConstraint_none, decide_eq_true_eq] at h
          rcases h with ⟨h3, h4⟩ | ⟨h3, h4⟩
          · have := (Lib.mem_tokensOfArity.1 h4).2
            omega
          · have := (Lib.mem_tokensOfArity.1 h4).2
            omega
        · rw [if_neg hc] at h; cases h
    · cases mn with
      | none => cases h
      | some m =>
        have hm := hmn m rfl
        simp only [] at h
        by_cases hc : i + 1 < m
        · rw [if_pos hc] at h
          simp only [makeConstraint_none, decide_eq_true_eq] at h
          have ha := (Lib.mem_tokensOfArity.1 h.2).2
          have hl := congrArg List.length (hlast h.1 ha)
          simp at hl; omega
        · rw [if_neg hc] at h; cases h

/-- **C64.** The masks forbid nothing but violations: for any set of priors, every complete expression over the library
that obeys all of them can be drawn (the network giving it positive probability).  Together with C06–C11, which say that
only such expressions can be drawn, the masks are exact. -/
theorem C64_complete (lib : Lib) (ps : List Prior) (h2 : ∀ t, lib.arity t ≤ 2) (hps : ∀ p ∈ ps, WellPosed lib p)
    (t : Tree) (hw : WF lib.arity t) (hL : ∀ x ∈ t.preorder, x < lib.L) (hob : ∀ p ∈ ps, Obeys lib t p) :
    ∃ obs prior, Sampled lib ps t.preorder obs prior := by
  have key : ∀ k, k ≤ t.preorder.length → ∃ obs prior, Sampled lib ps (t.preorder.take k) obs prior := by
    intro k
    induction k with
    | zero => intro _; exact ⟨_, _, by simpa using Sampled.start⟩
    | succ k ih =>
      intro hk
      obtain ⟨obs, prior, h⟩ := ih (by omega)
      have hkl : k < t.preorder.length := by omega
      have htake : t.preorder.take (k + 1) = t.preorder.take k ++ [t.preorder[k]] := by
        rw [List.take_add_one, List.getElem?_eq_getElem hkl]; rfl
      rw [htake]
      refine ⟨_, _, Sampled.step h t.preorder[k] (hL _ (List.getElem_mem _)) ?_⟩
      by_cases h0 : k = 0
      · subst h0
        have hs : prior = jointInitial lib ps := h.start_inv (by simp)
        rw [hs]
        intro hn
        obtain ⟨p, hp, hcall⟩ := jointInitial_none.1 hn
        cases p with
        | length mn mx =>
          simp only [Prior.initial] at hcall
          by_cases hterm : lib.terminalTokens.contains t.preorder[0] = true
          · have ha : lib.arity t.preorder[0] = 0 := (Lib.mem_tokensOfArity.1 (by simpa [Lib.terminalTokens] using hterm)).2
            have hlen := (hob _ hp).1
            obtain ⟨tok, cs⟩ := t
            simp only [preorder, List.getElem_cons_zero] at ha
            simp only [WF] at hw
            rw [ha] at hw
            have : cs = [] := List.length_eq_zero_iff.1 hw.1
            subst this
            simp [preorder, preorderL] at hlen
          · rw [if_neg hterm] at hcall; cases hcall
        | _ => simp [Prior.initial] at hcall
      · intro hn
        have hne : t.preorder.take k ≠ [] := by
          intro e
          have := congrArg List.length e
          rw [List.length_take, List.length_nil] at this; omega
        obtain ⟨p, hp, hcall⟩ := (h.prior_none hne _).1 hn
        exact call_obeys h2 hw hL p (hps p hp) (hob p hp) k (by omega) _ (List.getElem?_eq_getElem hkl) hcall
  have := key t.preorder.length (Nat.le_refl _)
  simpa using this

/-- **C64**, with the other direction for one relational constraint other than descendant and a minimum
length: the expressions that can be drawn are exactly those that obey both. -/
theorem C64_exact (lib : Lib) (h2 : ∀ t, lib.arity t ≤ 2) (c : Relational) (hin : c.InLib lib) (hrel : c.rel ≠ .descendant)
    (mn : Nat) (t : Tree) (hw : WF lib.arity t) (hL : ∀ x ∈ t.preorder, x < lib.L) :
    (∃ obs prior, Sampled lib [.relational c, .length (some mn) none] t.preorder obs prior) ↔
      ¬ c.rel.Forbidden c.targets c.effectors t ∧ mn ≤ t.preorder.length ∧ 2 ≤ t.preorder.length := by
  constructor
  · rintro ⟨obs, prior, h⟩
    have hm := C08_min_length lib _ mn none (by simp) h t hw (List.prefix_refl _)
    exact ⟨C06_relational lib _ h2 c (by simp) hin hrel h t hw (List.prefix_refl _), hm.1, hm.2⟩
  · rintro ⟨h1, h3, h4⟩
    apply C64_complete lib _ h2 _ t hw hL
    · intro p hp
      simp only [List.mem_cons, List.not_mem_nil, or_false] at hp
      rcases hp with rfl | rfl
      · exact h1
      · exact ⟨h4, fun m hm => by simp at hm; omega, by simp⟩
    · intro p hp
      simp only [List.mem_cons, List.not_mem_nil, or_false] at hp
      rcases hp with rfl | rfl
      · exact ⟨hin, fun h => absurd h hrel⟩
      · trivial

/-- A case meeting the hypotheses: `add (diff u x) u` under three constraints. -/
example : ∃ obs prior, Sampled ⟨[⟨"add", 2, none, none, none⟩, ⟨"diff", 2, none, none, none⟩, ⟨"u", 0, none, some 0, none⟩, ⟨"x", 0, some 0, none, none⟩]⟩
    [.relational ⟨[3], [1], .lchild⟩, .length (some 4) (some 6), .noInputs, .repeat [2] 2] [0, 1, 2, 3, 2] obs prior :=
  sampled_of_canDraw (by decide +kernel)

/-- **C64** (no preference): constraints only allow or forbid; together, first token or later, they leave every allowed token the same weight 0 (only
the two soft priors weigh). -/
theorem C64_unweighted (lib : Lib) (ps : List Prior) (hs : ∀ f g, Prior.soft f g ∉ ps) (t : Nat) :
    (jointInitial lib ps t = none ∨ jointInitial lib ps t = some 0) ∧
    ∀ actions parent sibling dangling, jointCall lib ps actions parent sibling dangling t = none ∨ jointCall lib ps actions parent sibling dangling t = some 0 := by
  have hm : ∀ m toks, makeConstraint m toks t = none ∨ makeConstraint m toks t = some 0 := by
    intro m toks
    unfold makeConstraint
    split <;> simp
  have hadd : ∀ a b : Logit, (a = none ∨ a = some 0) → (b = none ∨ b = some 0) → Logit.add a b = none ∨ Logit.add a b = some 0 := by
    rintro a b (rfl | rfl) (rfl | rfl) <;> simp [Logit.add] <;> grind
  have hrel : ∀ (c : Relational) actions parent sibling, c.call lib actions parent sibling t = none ∨ c.call lib actions parent sibling t = some 0 := by
    intro c actions parent sibling
    unfold Relational.call
    cases c.rel <;> simp only <;> first | exact hm _ _ | exact hadd _ _ (hm _ _) (hm _ _)
  have hfold : ∀ {α : Type} (f : α → Logit) (l : List α) (a : Logit), (a = none ∨ a = some 0) → (∀ x ∈ l, f x = none ∨ f x = some 0) →
      l.foldl (fun acc x => Logit.add acc (f x)) a = none ∨ l.foldl (fun acc x => Logit.add acc (f x)) a = some 0 := by
    intro α f l
    induction l with
    | nil => intro a ha _; exact ha
    | cons x r ih =>
      intro a ha hl
      rw [List.foldl_cons]
      exact ih _ (hadd _ _ ha (hl x (by simp))) (fun y hy => hl y (by simp [hy]))
  constructor
  · unfold jointInitial
    refine hfold _ _ _ (Or.inr rfl) ?_
    intro p hp
    cases p with
    | soft f g => exact absurd hp (hs f g)
    | length mn mx => simp only [Prior.initial]; split <;> simp
    | _ => simp [Prior.initial]
  · intro actions parent sibling dangling
    unfold jointCall
    refine hfold _ _ _ (Or.inr rfl) ?_
    intro p hp
    cases p with
    | soft f g => exact absurd hp (hs f g)
    | relational c => exact hrel c _ _ _
    | «repeat» toks mx => exact hm _ _
    | noInputs => exact hm _ _
    | inverse cs =>
      simp only [Prior.call]
      exact hfold _ _ _ (Or.inr rfl) (fun c _ => hrel c _ _ _)
    | length mn mx =>
      simp only [Prior.call, lengthCall]
      refine hadd _ _ ?_ ?_
      · cases mx with
        | none => simp
        | some m =>
          simp only
          split
          · exact hadd _ _ (hm _ _) (hm _ _)
          · simp
      · cases mn with
        | none => simp
        | some m =>
          simp only
          split
          · exact hm _ _
          · simp

end Verif.Discover.Claims
