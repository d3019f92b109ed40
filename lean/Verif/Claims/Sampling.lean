import Verif.Discover.Constraints
/-!
# C06–C11 – constraints hold in every sampled expression

Common setting: `Sampled lib ps xs obs prior` says that the controller can draw the token list `xs` under the
priors `ps` (any network logits).  The program made from `xs` is `finishTokens … xs`; by C01 it is the
traversal of a tree `t` and, when the sample contains a complete expression, `t.preorder <+: xs`.
C08 shows that with a length constraint the sample always does.
-/
namespace Verif.Discover.Claims
open Tree

/-- **C06.** child / sibling / only-unique-child / left-child / right-child constraints: no expression drawn
under the constraint contains a target in the forbidden relationship to an effector. -/
theorem C06_relational (lib : Lib) (ps : List Prior) (h2 : ∀ t, lib.arity t ≤ 2)
    (c : Relational) (hc : Prior.relational c ∈ ps) (hin : c.InLib lib) (hrel : c.rel ≠ .descendant)
    {xs : List Nat} {obs : Obs} {prior : Nat → Logit} (h : Sampled lib ps xs obs prior)
    (t : Tree) (hw : WF lib.arity t) (hpre : t.preorder <+: xs) :
    ¬ c.rel.Forbidden c.targets c.effectors t := by
  rintro ⟨p, cs, hs, hbad⟩
  have hLt := tok_lt_of_sampled h hpre
  have hLc : ∀ c' ∈ cs, c'.root < lib.L := by
    intro c' hc'
    obtain ⟨j, hj, rfl⟩ := List.getElem_of_mem hc'
    obtain ⟨info, hi, ht, hp, _⟩ := child_info hs (List.getElem?_eq_getElem hj)
    obtain ⟨_, _, _, _, hL, _⟩ := sampled_node h h2 hw hpre hi hp hc
    rw [← ht]; exact hL
  have hwf := subtree_wf t hw _ hs
  simp only [WF] at hwf
  obtain ⟨T, E, rel⟩ := c
  obtain ⟨hT, hE⟩ := hin
  simp only at hT hE hrel
  cases rel with
  | descendant => exact hrel rfl
  | child =>
    obtain ⟨hpE, c', hc', hcT⟩ := hbad
    obtain ⟨j, hj, rfl⟩ := List.getElem_of_mem hc'
    obtain ⟨info, hi, ht, hp, he, _⟩ := child_info hs (List.getElem?_eq_getElem hj)
    obtain ⟨i, _, _, har, _, hcall⟩ := sampled_node h h2 hw hpre hi hp hc
    apply hcall
    simp only [Prior.call, Relational.call, makeConstraint_none]
    exact ⟨by simpa using (Lib.adj_mem_iff har).2 hpE, by rw [ht]; exact hcT⟩
  | lchild =>
    obtain ⟨hpE, c', hc', hcT⟩ := hbad
    obtain ⟨info, hi, ht, hp, he, _⟩ := child_info hs (j := 0) (c := c') (by simpa [List.head?_eq_getElem?] using hc')
    obtain ⟨i, _, _, har, _, hcall⟩ := sampled_node h h2 hw hpre hi hp hc
    apply hcall
    simp only [Prior.call, Relational.call, makeConstraint_none, Bool.and_eq_true]
    exact ⟨⟨by simpa using (Lib.adj_mem_iff har).2 hpE, by simp [he]⟩, by rw [ht]; exact hcT⟩
  | rchild =>
    obtain ⟨hpE, a, b, rfl, hcT⟩ := hbad
    obtain ⟨info, hi, ht, hp, he, _⟩ := child_info hs (j := 1) (c := b) rfl
    obtain ⟨i, _, _, har, _, hcall⟩ := sampled_node h h2 hw hpre hi hp hc
    have ha := hLc a (by simp)
    apply hcall
    simp only [Prior.call, Relational.call, makeConstraint_none, Bool.and_eq_true]
    exact ⟨⟨by simpa using (Lib.adj_mem_iff har).2 hpE, by simpa [he] using ha⟩, by rw [ht]; exact hcT⟩
  | uchild =>
    obtain ⟨hpE, hbad⟩ := hbad
    rcases hbad with ⟨a, rfl, haT⟩ | ⟨a, b, rfl, haT, hbT⟩
    · obtain ⟨info, hi, ht, hp, he, _⟩ := child_info hs (j := 0) (c := a) rfl
      obtain ⟨i, _, _, har, _, hcall⟩ := sampled_node h h2 hw hpre hi hp hc
      apply hcall
      simp only [Prior.call, Relational.call, makeConstraint_none, Bool.or_eq_true]
      refine ⟨Or.inl ?_, by rw [ht]; exact haT⟩
      have hpu : p ∈ E.filter fun e => lib.unaryTokens.contains e := by
        rw [List.mem_filter]
        refine ⟨hpE, ?_⟩
        have : p ∈ lib.unaryTokens :=
          Lib.mem_tokensOfArity.2 ⟨Lib.arity_pos_lt har, by simpa using hwf.1.symm⟩
        simpa using this
      simpa using (Lib.adj_mem_iff har).2 hpu
    · obtain ⟨info, hi, ht, hp, he, _⟩ := child_info hs (j := 1) (c := b) rfl
      obtain ⟨i, _, _, har, _, hcall⟩ := sampled_node h h2 hw hpre hi hp hc
      apply hcall
      simp only [Prior.call, Relational.call, makeConstraint_none, Bool.or_eq_true, Bool.and_eq_true]
      refine ⟨Or.inr ⟨by simpa [he] using haT, ?_⟩, by rw [ht]; exact hbT⟩
      simpa using (Lib.adj_mem_iff har).2 hpE
  | sibling =>
    obtain ⟨a, b, rfl, hbad⟩ := hbad
    obtain ⟨info, hi, ht, hp, he, _⟩ := child_info hs (j := 1) (c := b) rfl
    obtain ⟨i, _, _, har, _, hcall⟩ := sampled_node h h2 hw hpre hi hp hc
    apply hcall
    simp only [Prior.call, Relational.call, Logit.add_eq_none, makeConstraint_none]
    rcases hbad with ⟨h1, h3⟩ | ⟨h1, h3⟩
    · exact Or.inr ⟨by simpa [he] using h1, by rw [ht]; exact h3⟩
    · exact Or.inl ⟨by simpa [he] using h1, by rw [ht]; exact h3⟩

/-- **C06** for the descendant relationship (partial: only operands reached through the *first* operand of an
effector are protected, which is everything when the effectors are unary – see C05). -/
theorem C06_descendant_partial (lib : Lib) (ps : List Prior) (h2 : ∀ t, lib.arity t ≤ 2)
    (c : Relational) (hc : Prior.relational c ∈ ps) (hrel : c.rel = .descendant)
    (heff : ∀ e ∈ c.effectors, 0 < lib.arity e)
    {xs : List Nat} {obs : Obs} {prior : Nat → Logit} (h : Sampled lib ps xs obs prior)
    (t : Tree) (hw : WF lib.arity t) (hpre : t.preorder <+: xs) :
    ∀ p c0 cs, node p (c0 :: cs) ∈ t.subtrees → p ∈ c.effectors → ∀ d ∈ c0.subtrees, d.root ∉ c.targets := by
  intro p c0 cs hs hpE d hd hdT
  obtain ⟨info, hi, ht, hanc⟩ := descendant_info hs (j := 0) (c := c0) rfl hd
  obtain ⟨i, hlt, hi'⟩ := mem_allNodes_idx hi
  have hpar : ∃ q, info.parent = some q := by
    obtain ⟨⟨ctx, hg, hpre', hp', he, ha⟩, htok⟩ := ann_allNodes lib.arity t hw i info hi'
    cases ctx with
    | nil => rw [ha] at hanc; simp at hanc
    | cons f fs => exact ⟨f.tok, by simpa using hp'⟩
  obtain ⟨q, hq⟩ := hpar
  obtain ⟨i, _, hi', har, _, hcall⟩ := sampled_node h h2 hw hpre hi hq hc
  apply hcall
  obtain ⟨⟨ctx, hg, hpre', hp', he, ha⟩, htok⟩ := ann_allNodes lib.arity t hw i info hi'
  simp only [Prior.call, Relational.call, hrel, makeConstraint_none]
  refine ⟨?_, by rw [ht]; exact hdT⟩
  rw [hpre', ancestors_flat lib.arity _ heff ctx hg]
  rw [ha] at hanc
  obtain ⟨f, hf, hfe⟩ := List.mem_map.1 hanc
  simp only [Frame.anc, Prod.mk.injEq] at hfe
  exact ⟨f, hf, by rw [hfe.1]; exact hpE, List.length_eq_zero_iff.1 hfe.2⟩

/-- **C06**, descendants of *unary* effectors: full strength. -/
theorem C06_descendant_unary (lib : Lib) (ps : List Prior) (h2 : ∀ t, lib.arity t ≤ 2)
    (c : Relational) (hc : Prior.relational c ∈ ps) (hrel : c.rel = .descendant)
    (heff : ∀ e ∈ c.effectors, lib.arity e = 1)
    {xs : List Nat} {obs : Obs} {prior : Nat → Logit} (h : Sampled lib ps xs obs prior)
    (t : Tree) (hw : WF lib.arity t) (hpre : t.preorder <+: xs) :
    ¬ Rel.descendant.Forbidden c.targets c.effectors t := by
  rintro ⟨p, cs, hs, hpE, d, hd, hdT⟩
  have hwf := subtree_wf t hw _ hs
  simp only [WF] at hwf
  rw [heff p hpE] at hwf
  obtain ⟨c0, rfl⟩ := List.length_eq_one_iff.1 hwf.1
  simp only [subtreesL, List.append_nil] at hd
  exact C06_descendant_partial lib ps h2 c hc hrel (fun e he => by have := heff e he; omega) h t hw hpre
    p c0 [] hs hpE d hd hdT

/-- C07 in terms of the library's token sets.  With the trig constraint and the derivative-right-operand constraint, no trig or derivative
operator occurs anywhere below another one.  Hypothesis on the library: its trig functions (sin, …) are unary
and no trig or derivative operator is a terminal. -/
theorem no_nested_trig_tokens (lib : Lib) (ps : List Prior) (h2 : ∀ t, lib.arity t ≤ 2)
    (htrig : Prior.relational (trigConstraint lib) ∈ ps)
    (hright : Prior.relational (diffRightConstraint lib) ∈ ps)
    (hun : ∀ t ∈ lib.trigTokens, 0 < lib.arity t ∧ (t ∉ lib.diffTokens → lib.arity t = 1))
    {xs : List Nat} {obs : Obs} {prior : Nat → Logit} (h : Sampled lib ps xs obs prior)
    (t : Tree) (hw : WF lib.arity t) (hpre : t.preorder <+: xs) :
    ¬ Rel.descendant.Forbidden lib.trigTokens lib.trigTokens t := by
  rintro ⟨p, cs, hs, hpE, d, hd, hdT⟩
  have hwf := subtree_wf t hw _ hs
  simp only [WF] at hwf
  have hfirst := C06_descendant_partial lib ps h2 (trigConstraint lib) htrig rfl
    (fun e he => (hun e he).1) h t hw hpre
  cases cs with
  | nil => simp [subtreesL] at hd
  | cons c0 cs =>
    simp only [subtreesL, List.mem_append] at hd
    rcases hd with hd | hd
    · exact hfirst p c0 cs hs hpE d hd hdT
    · -- the second operand: `p` is a binary derivative operator, its right operand is an input variable
      have h22 := h2 p
      have hlen : cs.length ≤ 1 := by have := hwf.1; simp at this; omega
      obtain ⟨b, hb, hdb⟩ := mem_subtreesL.1 hd
      have hcs : cs = [b] := by
        cases cs with
        | nil => simp at hb
        | cons x ys =>
          have : ys = [] := by
            apply List.length_eq_zero_iff.1
            rw [List.length_cons] at hlen; omega
          subst this; simp at hb; rw [hb]
      subst hcs
      have hp2 : lib.arity p = 2 := by simpa using hwf.1.symm
      have hpd : p ∈ lib.diffTokens := by
        apply Classical.byContradiction
        intro hn; have := (hun p hpE).2 hn; omega
      have hbL : b.root < lib.L := by
        obtain ⟨info, hi, ht, hp, _⟩ := child_info hs (j := 1) (c := b) rfl
        obtain ⟨_, _, _, _, hL, _⟩ := sampled_node h h2 hw hpre hi hp hright
        rw [← ht]; exact hL
      have hnot : b.root ∉ (diffRightConstraint lib).targets := by
        intro hbt
        apply C06_relational lib ps h2 (diffRightConstraint lib) hright ?_ (by simp [diffRightConstraint]) h t hw hpre
        · exact ⟨p, [c0, b], hs, hpd, c0, b, rfl, hbt⟩
        · constructor
          · intro x hx
            simp only [diffRightConstraint, List.mem_append, List.mem_filter, Lib.unaryTokens,
              Lib.binaryTokens, Lib.terminalTokens, Lib.mem_tokensOfArity] at hx
            rcases hx with (hx | hx) | hx
            · exact hx.1
            · exact hx.1
            · exact hx.1.1
          · intro x hx
            obtain ⟨tk, htk, _⟩ := Lib.mem_indices.1 hx
            exact (List.getElem?_eq_some_iff.1 htk).1
      have hb0 : lib.arity b.root = 0 := by
        have := h2 b.root
        apply Classical.byContradiction
        intro hne
        apply hnot
        simp only [diffRightConstraint, List.mem_append, Lib.unaryTokens, Lib.binaryTokens,
          Lib.mem_tokensOfArity]
        left
        have : lib.arity b.root = 1 ∨ lib.arity b.root = 2 := by omega
        rcases this with h1 | h1
        · exact Or.inl ⟨hbL, h1⟩
        · exact Or.inr ⟨hbL, h1⟩
      have hbwf : WF lib.arity b := WFL_iff.1 hwf.2 b (by simp)
      obtain ⟨r, ccs⟩ := b
      simp only [WF] at hbwf
      simp only [root_node] at hb0
      have : ccs = [] := by apply List.length_eq_zero_iff.1; omega
      subst this
      simp [subtrees, subtreesL] at hdb
      subst hdb
      have := (hun r (by simpa using hdT)).1
      omega

/-- A trigonometric function or its inverse, by name. -/
def IsTrigName (n : String) : Prop :=
  n = "sin" ∨ n = "cos" ∨ n = "tan" ∨ n = "csc" ∨ n = "sec" ∨ n = "cot" ∨
  n = "arcsin" ∨ n = "arccos" ∨ n = "arctan" ∨ n = "arccsc" ∨ n = "arcsec" ∨ n = "arccot"
/-- A derivative operator, by name: the name contains `diff` or `Diff`. -/
def IsDerivName (n : String) : Prop := "diff".toList <:+: n.toList ∨ "Diff".toList <:+: n.toList

theorem hasSub_iff (p xs : List Char) : hasSub p xs = true ↔ p <:+: xs := by
  induction xs with
  | nil => simp [hasSub]
  | cons c cs ih =>
    rw [hasSub, Bool.or_eq_true, ih, List.isPrefixOf_iff_prefix, List.infix_cons_iff]

theorem isDiffName_iff (n : String) : isDiffName n = true ↔ IsDerivName n := by
  unfold isDiffName IsDerivName
  rw [Bool.or_eq_true, hasSub_iff, hasSub_iff]

theorem mem_trigTokens {lib : Lib} {i : Nat} {tok : Token} (h : lib.tokens[i]? = some tok) :
    i ∈ lib.trigTokens ↔ IsTrigName tok.name ∨ IsDerivName tok.name := by
  unfold Lib.trigTokens
  rw [Lib.mem_indices]
  have hn : trigNames.contains tok.name = true ↔ IsTrigName tok.name := by
    simp [trigNames, IsTrigName]
  constructor
  · rintro ⟨t, ht, hp⟩
    rw [h] at ht
    cases ht
    rw [Bool.or_eq_true, hn, isDiffName_iff] at hp
    exact hp
  · intro hp
    refine ⟨tok, h, ?_⟩
    rw [Bool.or_eq_true, hn, isDiffName_iff]
    exact hp

theorem mem_diffTokens {lib : Lib} {i : Nat} {tok : Token} (h : lib.tokens[i]? = some tok) :
    i ∈ lib.diffTokens ↔ IsDerivName tok.name := by
  unfold Lib.diffTokens
  rw [Lib.mem_indices]
  constructor
  · rintro ⟨t, ht, hp⟩
    rw [h] at ht
    cases ht
    exact (isDiffName_iff _).1 hp
  · intro hp
    exact ⟨tok, h, (isDiffName_iff _).2 hp⟩

/-- **C07.** With the trig constraint and the derivative-right-operand constraint, no operator named as a
trigonometric function or a derivative occurs anywhere below another one.  Hypothesis on the library: its
trigonometric functions (sin, …) are unary and its derivative operators are not terminals. -/
theorem C07_no_nested_trig (lib : Lib) (ps : List Prior) (h2 : ∀ t, lib.arity t ≤ 2)
    (htrig : Prior.relational (trigConstraint lib) ∈ ps)
    (hright : Prior.relational (diffRightConstraint lib) ∈ ps)
    (hun : ∀ tok ∈ lib.tokens, (IsTrigName tok.name → tok.arity = 1) ∧ (IsDerivName tok.name → 0 < tok.arity))
    {xs : List Nat} {obs : Obs} {prior : Nat → Logit} (h : Sampled lib ps xs obs prior)
    (t : Tree) (hw : WF lib.arity t) (hpre : t.preorder <+: xs)
    (p : Nat) (cs : List Tree) (hs : node p cs ∈ t.subtrees) (d : Tree) (hd : d ∈ subtreesL cs)
    (tp td : Token) (htp : lib.tokens[p]? = some tp) (htd : lib.tokens[d.root]? = some td)
    (hup : IsTrigName tp.name ∨ IsDerivName tp.name) : ¬ (IsTrigName td.name ∨ IsDerivName td.name) := by
  intro hdn
  apply no_nested_trig_tokens lib ps h2 htrig hright ?_ h t hw hpre
  · exact ⟨p, cs, hs, (mem_trigTokens htp).2 hup, d, hd, (mem_trigTokens htd).2 hdn⟩
  · intro i hi
    obtain ⟨tok, hi', _⟩ := Lib.mem_indices.1 hi
    have har : lib.arity i = tok.arity := by simp [Lib.arity, hi']
    have hm := hun tok (List.mem_of_getElem? hi')
    rw [har]
    rcases (mem_trigTokens hi').1 hi with h1 | h1
    · have := hm.1 h1
      exact ⟨by omega, fun _ => this⟩
    · exact ⟨hm.2 h1, fun hn => absurd ((mem_diffTokens hi').2 h1) hn⟩

/-- Running count of open slots never exceeds one plus the number of tokens (arities at most two). -/
theorem dang_le (ar : Nat → Nat) (h2 : ∀ t, ar t ≤ 2) (xs : List Nat) : dang ar 1 xs ≤ 1 + xs.length := by
  have : ∀ d : Int, dang ar d xs ≤ d + xs.length := by
    induction xs with
    | nil => intro d; simp [dang]
    | cons x xs ih =>
      intro d
      have := ih (d + ((ar x : Int) - 1))
      have := h2 x
      simp only [dang, List.length_cons]; omega
  exact this 1

/-- The open slots always fit in the remaining length (helper for C08). -/
theorem open_slots_fit (lib : Lib) (ps : List Prior) (h2 : ∀ t, lib.arity t ≤ 2) (mn : Option Nat) (mx : Nat)
    (hmx : 3 ≤ mx) (hc : Prior.length mn (some mx) ∈ ps)
    {xs : List Nat} {obs : Obs} {prior : Nat → Logit} (h : Sampled lib ps xs obs prior) :
    ∀ p q, xs = p ++ q → p ≠ [] → (∀ p' q', p = p' ++ q' → p' ≠ [] → q' ≠ [] → 0 < dang lib.arity 1 p') →
      dang lib.arity 1 p ≤ (mx : Int) - p.length := by
  intro p
  induction p using snoc_induction with
  | nil => intro q _ hne; exact absurd rfl hne
  | snoc p x ih =>
    intro q hq _ hopen
    by_cases hp0 : p = []
    · subst hp0
      have := h2 x
      simp [dang]; omega
    · have hd := hopen p [x] rfl hp0 (by simp)
      have ih' := ih (x :: q) (by simp [hq]) hp0 (by
        intro p' q' hpq hp' hq'
        exact hopen p' (q' ++ [x]) (by simp [hpq]) hp' (by simp))
      have hx : xs[p.length]? = some x := by rw [hq]; simp
      have htake : xs.take p.length = p := by rw [hq]; simp
      have hall := (h.allowed p.length x hx)
      have hcall := hall.2.2 (List.length_pos_iff.2 hp0) _ hc
      rw [htake] at hcall
      simp only [Prior.call, lengthCall] at hcall
      have hle := dang_le lib.arity h2 p
      have hx2 := h2 x
      rw [dang_append]
      simp only [dang, List.length_append, List.length_cons, List.length_nil]
      by_cases hhalf : p.length + 1 ≥ mx / 2
      · rw [if_pos hhalf] at hcall
        have h1 : ¬ (dang lib.arity 1 p ≥ (mx : Int) - p.length - 1 ∧ x ∈ lib.binaryTokens) := by
          rintro ⟨ha, hb⟩
          apply hcall
          rw [Logit.add_eq_none, Logit.add_eq_none]
          exact Or.inl (Or.inl (makeConstraint_none.2 ⟨by simpa using ha, hb⟩))
        have h3 : ¬ (dang lib.arity 1 p = (mx : Int) - p.length ∧ x ∈ lib.unaryTokens) := by
          rintro ⟨ha, hb⟩
          apply hcall
          rw [Logit.add_eq_none, Logit.add_eq_none]
          exact Or.inl (Or.inr (makeConstraint_none.2 ⟨by simpa using ha, hb⟩))
        simp only [Lib.binaryTokens, Lib.unaryTokens, Lib.mem_tokensOfArity, hall.1, true_and] at h1 h3
        omega
      · omega

/-- **C08.** With a length constraint `min..max` (`max ≥ 3`, arities at most two), sampling up to the length
limit always yields a complete expression, whatever the network and whatever other priors are present; the
program (after `_finish_tokens`) is a sampled prefix – no filler is used – of at most `max` tokens. -/
theorem C08_max_length (lib : Lib) (ps : List Prior) (h2 : ∀ t, lib.arity t ≤ 2) (mn : Option Nat) (mx : Nat)
    (hmx : 3 ≤ mx) (hc : Prior.length mn (some mx) ∈ ps)
    {xs : List Nat} {obs : Obs} {prior : Nat → Logit} (h : Sampled lib ps xs obs prior)
    (hlen : xs.length = mx) (choice : Nat → Nat) :
    ∃ t : Tree, WF lib.arity t ∧ finishTokens lib.arity 1 choice xs = some t.preorder ∧
      t.preorder <+: xs ∧ t.preorder.length ≤ mx := by
  have hmem : (-1 : Int) ∈ cumsum lib.arity 0 xs := by
    apply Classical.byContradiction
    intro hno
    have hne : xs ≠ [] := by intro e; simp [e] at hlen; omega
    have hpos : ∀ p q, xs = p ++ q → 0 < dang lib.arity 1 p := by
      intro p q hpq
      have := dang_gt_of_not_mem lib.arity (-1) 0 (by omega) xs (by
        intro i hi he
        apply hno
        rw [← he, ← cumsum_getElem lib.arity 0 xs i (by rw [cumsum_length]; exact hi)]
        exact List.getElem_mem _) p q hpq
      rw [dang_eq]; omega
    have := open_slots_fit lib ps h2 mn mx hmx hc h xs [] (by simp) hne
      (fun p' q' hpq _ _ => hpos p' q' hpq)
    have := hpos xs [] (by simp)
    omega
  obtain ⟨p, q, hpq, hex, hfin⟩ := finish_chop (choice := choice) (nObj := 1) (by omega) (by simpa using hmem)
  obtain ⟨ts, hl, hw, hp⟩ := forest_of_exact lib.arity p 1 hex
  obtain ⟨t, rfl⟩ : ∃ t, ts = [t] := List.length_eq_one_iff.1 hl
  have e : t.preorder = p := by simpa [preorderL] using hp
  refine ⟨t, by simpa [WFL] using hw, by rw [e]; exact hfin, ⟨q, by rw [e]; exact hpq.symm⟩, ?_⟩
  rw [e, ← hlen, hpq]; simp

/-- **C08**, lower bound: no complete expression shorter than `min` (and never a single token) can be drawn. -/
theorem C08_min_length (lib : Lib) (ps : List Prior) (mn : Nat) (mx : Option Nat)
    (hc : Prior.length (some mn) mx ∈ ps)
    {xs : List Nat} {obs : Obs} {prior : Nat → Logit} (h : Sampled lib ps xs obs prior)
    (t : Tree) (hw : WF lib.arity t) (hpre : t.preorder <+: xs) :
    mn ≤ t.preorder.length ∧ 2 ≤ t.preorder.length := by
  obtain ⟨q, x, hqx, hd, hx0⟩ := last_position hw
  have hx : xs[q.length]? = some x := by
    rw [getElem?_prefix hpre (by rw [hqx]; simp), hqx]; simp
  have htake : xs.take q.length = q := by
    rw [take_prefix hpre (by rw [hqx]; simp), hqx]; simp
  have hall := h.allowed q.length x hx
  have hterm : x ∈ lib.terminalTokens := Lib.mem_tokensOfArity.2 ⟨hall.1, hx0⟩
  have hq : q ≠ [] := by
    intro hq
    have := hall.2.1 (by simp [hq]) _ hc
    simp [Prior.initial, hterm] at this
  have hqpos := List.length_pos_iff.2 hq
  refine ⟨?_, by rw [hqx]; simp; omega⟩
  have hcall := hall.2.2 hqpos _ hc
  rw [htake] at hcall
  apply Classical.byContradiction
  intro hlt
  apply hcall
  simp only [Prior.call, lengthCall, Logit.add_eq_none]
  right
  have : q.length + 1 < mn := by rw [hqx] at hlt; simp at hlt; omega
  rw [if_pos this, makeConstraint_none]
  exact ⟨by simpa using hd, hterm⟩

/-- **C08**, progress: if the library has a terminal and a unary operator and `min ≤ max`, then at every step
the length constraint leaves at least one token allowed. -/
theorem C08_never_stuck (lib : Lib) (mn mx : Nat) (hmm : mn ≤ mx)
    (term un : Nat) (hterm : term < lib.L ∧ lib.arity term = 0) (hun : un < lib.L ∧ lib.arity un = 1)
    {xs : List Nat} {obs : Obs} {prior : Nat → Logit}
    (h : Sampled lib [Prior.length (some mn) (some mx)] xs obs prior) :
    ∃ tok, tok < lib.L ∧ prior tok ≠ none := by
  by_cases hne : xs = []
  · refine ⟨un, hun.1, ?_⟩
    rw [h.start_inv hne]
    intro hn
    obtain ⟨p, hp, hpn⟩ := jointInitial_none.1 hn
    simp at hp; subst hp
    simp [Prior.initial, Lib.terminalTokens, Lib.mem_tokensOfArity, hun] at hpn
  · have hcallnone : ∀ t, prior t = none →
        lengthCall lib (some mn) (some mx) xs.length (dang lib.arity 1 xs) t = none := by
      intro t ht
      obtain ⟨p, hp, hpn⟩ := (h.prior_none hne t).1 ht
      simp at hp; subst hp
      simpa [Prior.call] using hpn
    by_cases hcase : xs.length + 1 < mn ∧ dang lib.arity 1 xs = 1
    · refine ⟨un, hun.1, fun hn => ?_⟩
      have := hcallnone _ hn
      simp only [lengthCall, Logit.add_eq_none] at this
      rcases this with h1 | h1
      · split at h1
        · rw [Logit.add_eq_none] at h1
          rcases h1 with h1 | h1
          · have := (makeConstraint_none.1 h1).2
            simp only [Lib.binaryTokens, Lib.mem_tokensOfArity] at this; omega
          · have := (makeConstraint_none.1 h1).1
            simp at this; omega
        · simp at h1
      · split at h1
        · have := (makeConstraint_none.1 h1).2
          simp only [Lib.terminalTokens, Lib.mem_tokensOfArity] at this; omega
        · simp at h1
    · refine ⟨term, hterm.1, fun hn => ?_⟩
      have := hcallnone _ hn
      simp only [lengthCall, Logit.add_eq_none] at this
      rcases this with h1 | h1
      · split at h1
        · rw [Logit.add_eq_none] at h1
          rcases h1 with h1 | h1
          · have := (makeConstraint_none.1 h1).2
            simp only [Lib.binaryTokens, Lib.mem_tokensOfArity] at this; omega
          · have := (makeConstraint_none.1 h1).2
            simp only [Lib.unaryTokens, Lib.mem_tokensOfArity] at this; omega
        · simp at h1
      · split at h1
        · have := (makeConstraint_none.1 h1).1
          simp at this; omega
        · simp at h1

/-- **C09.** Under a repeat constraint with `max ≥ 1`, the listed tokens occur at most `max` times in total in
every sampled list (hence in the program cut from it). -/
theorem C09_repeat (lib : Lib) (ps : List Prior) (toks : List Nat) (mx : Nat) (hmx : 1 ≤ mx)
    (hc : Prior.repeat toks mx ∈ ps)
    {xs : List Nat} {obs : Obs} {prior : Nat → Logit} (h : Sampled lib ps xs obs prior) :
    (xs.filter fun a => toks.contains a).length ≤ mx := by
  have key : ∀ p q, xs = p ++ q → (p.filter fun a => toks.contains a).length ≤ mx := by
    intro p
    induction p using snoc_induction with
    | nil => intro q _; simp
    | snoc p x ih =>
      intro q hq
      have ih' := ih (x :: q) (by simp [hq])
      rw [List.filter_append, List.length_append]
      by_cases hx : toks.contains x
      · by_cases hp0 : p = []
        · subst hp0
          rw [filter_single, if_pos hx]; simp; omega
        · have hxs : xs[p.length]? = some x := by rw [hq]; simp
          have htake : xs.take p.length = p := by rw [hq]; simp
          have hcall := (h.allowed p.length x hxs).2.2 (List.length_pos_iff.2 hp0) _ hc
          rw [htake] at hcall
          have : ¬ (mx ≤ (p.filter fun a => toks.contains a).length) := by
            intro hge
            apply hcall
            simp only [Prior.call, makeConstraint_none]
            exact ⟨by simpa using hge, by simpa using hx⟩
          rw [filter_single, if_pos hx, List.length_singleton]; omega
      · rw [filter_single, if_neg hx, List.length_nil]; omega
  exact key xs [] (by simp)

theorem mentions_state (lib : Lib) (ps : List Prior) (hc : Prior.noInputs ∈ ps)
    {xs : List Nat} {obs : Obs} {prior : Nat → Logit} (h : Sampled lib ps xs obs prior)
    (t : Tree) (hw : WF lib.arity t) (hpre : t.preorder <+: xs) (hop : 0 < lib.arity t.root) :
    ∃ tok ∈ t.preorder, tok ∈ lib.stateTokens := by
  obtain ⟨q, x, hqx, hd, hx0⟩ := last_position hw
  have hx : xs[q.length]? = some x := by
    rw [getElem?_prefix hpre (by rw [hqx]; simp), hqx]; simp
  have htake : xs.take q.length = q := by
    rw [take_prefix hpre (by rw [hqx]; simp), hqx]; simp
  have hall := h.allowed q.length x hx
  have hq : q ≠ [] := by
    intro hq
    subst hq
    rw [preorder_eq] at hqx
    simp at hqx
    rw [hqx.1] at hop; omega
  have hcall := hall.2.2 (List.length_pos_iff.2 hq) _ hc
  rw [htake] at hcall
  by_cases hst : ∃ tok ∈ q, tok ∈ lib.stateTokens
  · obtain ⟨tok, h1, h3⟩ := hst
    exact ⟨tok, by rw [hqx]; simp [h1], h3⟩
  · refine ⟨x, by rw [hqx]; simp, ?_⟩
    apply Classical.byContradiction
    intro hxs
    apply hcall
    simp only [Prior.call, makeConstraint_none, Bool.and_eq_true]
    refine ⟨⟨by simpa using hd, ?_⟩, ?_⟩
    · simp only [List.length_eq_zero_iff, List.filter_eq_nil_iff, decide_eq_true_eq]
      intro a ha hc'
      exact hst ⟨a, ha, by simpa using hc'⟩
    · have hxL := hall.1
      have hg : lib.tokens[x]? = some lib.tokens[x] := List.getElem?_eq_getElem hxL
      refine Lib.mem_indices.2 ⟨_, hg, ?_⟩
      have har : lib.tokens[x].arity = 0 := by
        have := hx0; unfold Lib.arity at this; rw [hg] at this; simpa using this
      have hsv : lib.tokens[x].stateVar.isNone = true := by
        cases hs : lib.tokens[x].stateVar with
        | none => rfl
        | some v =>
          exfalso; apply hxs
          exact Lib.mem_indices.2 ⟨_, hg, by simp [hs]⟩
      simp [har, hsv]

/-- **C10.** Under the no-inputs constraint every sampled expression with more than one token contains a
state variable. -/
theorem C10_mentions_state (lib : Lib) (ps : List Prior) (hc : Prior.noInputs ∈ ps)
    {xs : List Nat} {obs : Obs} {prior : Nat → Logit} (h : Sampled lib ps xs obs prior)
    (t : Tree) (hw : WF lib.arity t) (hpre : t.preorder <+: xs) (hop : 0 < lib.arity t.root) :
    ∃ i ∈ t.preorder, ∃ tok, lib.tokens[i]? = some tok ∧ ∃ k, tok.stateVar = some k := by
  obtain ⟨i, hi, hs⟩ := mentions_state lib ps hc h t hw hpre hop
  obtain ⟨tok, ht, hp⟩ := Lib.mem_indices.1 hs
  exact ⟨i, hi, tok, ht, Option.isSome_iff_exists.1 hp⟩

/-- **C11.** In a library with distinct token names, no sampled expression applies an operator directly to its
listed inverse. -/
theorem C11_no_inverse_pair (lib : Lib) (ps : List Prior) (h2 : ∀ t, lib.arity t ≤ 2)
    (hnd : (lib.tokens.map Token.name).Nodup) (hc : inverseConstraint lib ∈ ps)
    {xs : List Nat} {obs : Obs} {prior : Nat → Logit} (h : Sampled lib ps xs obs prior)
    (t : Tree) (hw : WF lib.arity t) (hpre : t.preorder <+: xs)
    (p : Nat) (cs : List Tree) (hs : node p cs ∈ t.subtrees) (c : Tree) (hcm : c ∈ cs)
    (tp tc : Token) (htp : lib.tokens[p]? = some tp) (htc : lib.tokens[c.root]? = some tc) :
    ¬ (tp.name = "inv" ∧ tc.name = "inv" ∨ tp.name = "neg" ∧ tc.name = "neg" ∨
       tp.name = "exp" ∧ tc.name = "log" ∨ tp.name = "log" ∧ tc.name = "exp" ∨
       tp.name = "sqrt" ∧ tc.name = "n2" ∨ tp.name = "n2" ∧ tc.name = "sqrt") := by
  intro hlit
  have hinv : (tc.name, tp.name) ∈ inverseNames := by
    rcases hlit with h | h | h | h | h | h <;> simp [inverseNames, h.1, h.2]
  obtain ⟨j, hj, rfl⟩ := List.getElem_of_mem hcm
  obtain ⟨info, hi, ht, hp, he, _⟩ := child_info hs (List.getElem?_eq_getElem hj)
  obtain ⟨i, _, _, har, _, hcall⟩ := sampled_node h h2 hw hpre hi hp hc
  apply hcall
  have hname : ∀ i tk, lib.tokens[i]? = some tk → lib.tokenFromName tk.name = some i := by
    intro i tk hi
    have hall : ∀ k ∈ lib.indices (fun t => t.name == tk.name), k = i := by
      intro k hk
      obtain ⟨t', ht', hn⟩ := Lib.mem_indices.1 hk
      have e1 : (lib.tokens.map Token.name)[k]? = some tk.name := by
        rw [List.getElem?_map, ht']; simpa using hn
      have e2 : (lib.tokens.map Token.name)[i]? = some tk.name := by
        rw [List.getElem?_map, hi]; rfl
      obtain ⟨hk1, hk2⟩ := List.getElem?_eq_some_iff.1 e1
      obtain ⟨hi1, hi2⟩ := List.getElem?_eq_some_iff.1 e2
      exact nodup_getElem_inj hnd hk1 hi1 (hk2.trans hi2.symm)
    have hmem : i ∈ lib.indices (fun t => t.name == tk.name) := Lib.mem_indices.2 ⟨tk, hi, by simp⟩
    unfold Lib.tokenFromName
    cases hl : (lib.indices fun t => t.name == tk.name).getLast? with
    | none => rw [List.getLast?_eq_none_iff] at hl; rw [hl] at hmem; simp at hmem
    | some k => rw [hall k (List.mem_of_getLast? hl)]
  have hpair : (cs[j].root, p) ∈ lib.inverseTokens := by
    unfold Lib.inverseTokens
    rw [List.mem_filterMap]
    exact ⟨_, hinv, by simp [hname _ _ htp, hname _ _ htc]⟩
  simp only [inverseConstraint, Prior.call]
  rw [foldl_add_eq_none]
  right
  refine ⟨⟨[cs[j].root], [p], .child⟩, List.mem_map.2 ⟨_, hpair, rfl⟩, ?_⟩
  simp only [Relational.call, makeConstraint_none]
  exact ⟨by simp, by simp [ht]⟩

/-- **C06 + C08**, end to end: with a length constraint (`max ≥ 3`) and a relational constraint, *the program
built from any full-length sample* violates neither. -/
theorem C06_program_with_length (lib : Lib) (ps : List Prior) (h2 : ∀ t, lib.arity t ≤ 2) (mn mx : Nat)
    (hmx : 3 ≤ mx) (hlen : Prior.length (some mn) (some mx) ∈ ps)
    (c : Relational) (hc : Prior.relational c ∈ ps) (hin : c.InLib lib) (hrel : c.rel ≠ .descendant)
    {xs : List Nat} {obs : Obs} {prior : Nat → Logit} (h : Sampled lib ps xs obs prior)
    (hxs : xs.length = mx) (choice : Nat → Nat) :
    ∃ t : Tree, WF lib.arity t ∧ finishTokens lib.arity 1 choice xs = some t.preorder ∧
      mn ≤ t.preorder.length ∧ t.preorder.length ≤ mx ∧ ¬ c.rel.Forbidden c.targets c.effectors t := by
  obtain ⟨t, hw, hfin, hpre, hle⟩ := C08_max_length lib ps h2 (some mn) mx hmx hlen h hxs choice
  exact ⟨t, hw, hfin, (C08_min_length lib ps mn (some mx) hlen h t hw hpre).1, hle,
    C06_relational lib ps h2 c hc hin hrel h t hw hpre⟩

/-! ## Where the hypotheses matter -/

/-- 0 `add` (binary), 1 `diff` (binary), 2 `sin` (unary), 3 `x1` (input), 4 `u1` (state), 5 `exp`, 6 `log`. -/
def exLib : Lib := ⟨[⟨"add", 2, none, none, none⟩, ⟨"diff", 2, none, none, none⟩, ⟨"sin", 1, none, none, none⟩,
  ⟨"x1", 0, some 0, none, none⟩, ⟨"u1", 0, none, some 0, none⟩, ⟨"exp", 1, none, none, none⟩,
  ⟨"log", 1, none, none, none⟩]⟩

/-- Without a length constraint a sample may stay incomplete, and the random fillers of `_finish_tokens` are
not checked against the constraints: `diff` cut off after one token is completed to `diff(x1, x1)` although
`x1` is forbidden as left operand of `diff`. -/
theorem C06_filler_counterexample :
    let c : Relational := ⟨[3], [1], .lchild⟩
    ∃ obs prior, Sampled exLib [.relational c] [1] obs prior ∧
      finishTokens exLib.arity 1 (fun _ => 3) [1] = some [1, 3, 3] ∧
      c.rel.Forbidden c.targets c.effectors (node 1 [node 3 [], node 3 []]) := by
  obtain ⟨o, p, h⟩ := sampled_of_canDraw (lib := exLib) (ps := [.relational ⟨[3], [1], .lchild⟩]) (xs := [1])
    (by decide)
  refine ⟨o, p, h, by decide, ?_⟩
  exact ⟨1, [node 3 [], node 3 []], by simp [subtrees], by simp, _, rfl, by simp⟩

/-- The descendant constraint does not protect the second operand of a binary effector: with targets `[add]`
and effectors `[diff]`, `diff(x1, add(x1, x1))` can be drawn. -/
theorem C06_descendant_counterexample :
    let c : Relational := ⟨[0], [1], .descendant⟩
    (∃ obs prior, Sampled exLib [.relational c] [1, 3, 0, 3, 3] obs prior) ∧
    (node 1 [node 3 [], node 0 [node 3 [], node 3 []]]).preorder = [1, 3, 0, 3, 3] ∧
    Rel.descendant.Forbidden c.targets c.effectors (node 1 [node 3 [], node 0 [node 3 [], node 3 []]]) := by
  refine ⟨sampled_of_canDraw (by decide), by decide, ?_⟩
  exact ⟨1, _, self_mem_subtrees _, by simp, node 0 [node 3 [], node 3 []], by simp [subtreesL, subtrees], by simp⟩

/-- `max = 2` is not enforced (C08 needs `max ≥ 3`): a binary first token already forces three tokens. -/
theorem C08_max2_counterexample :
    ∃ obs prior, Sampled exLib [.length none (some 2)] [0, 3] obs prior ∧
      finishTokens exLib.arity 1 (fun _ => 3) [0, 3] = some [0, 3, 3] := by
  obtain ⟨o, p, h⟩ := sampled_of_canDraw (lib := exLib) (ps := [.length none (some 2)]) (xs := [0, 3]) (by decide)
  exact ⟨o, p, h, by decide⟩

/-- Without a unary operator the constraint can forbid every token (C08 progress needs one): binary-only
library, `min = max = 4`, after `add x1` nothing may be drawn. -/
theorem C08_stuck_counterexample :
    let lib : Lib := ⟨[⟨"add", 2, none, none, none⟩, ⟨"x1", 0, some 0, none, none⟩]⟩
    ∃ obs prior, Sampled lib [.length (some 4) (some 4)] [0, 1] obs prior ∧ ∀ tok, tok < lib.L → prior tok = none := by
  refine ⟨_, _, Sampled.step (Sampled.step Sampled.start 0 (by decide) (by decide)) 1 (by decide) (by decide), ?_⟩
  intro tok ht
  have : tok = 0 ∨ tok = 1 := by simp [Lib.L] at ht; omega
  rcases this with rfl | rfl <;> decide

/-- `max = 0` repeats are not enforced on the very first token (its prior is `initial_prior`, all zeros). -/
theorem C09_max0_counterexample :
    ∃ obs prior, Sampled exLib [.repeat [2] 0] [2, 3] obs prior := sampled_of_canDraw (by decide)

/-- A one-token expression escapes the no-inputs constraint (same reason; a length constraint excludes it). -/
theorem C10_single_token_counterexample :
    ∃ obs prior, Sampled exLib [.noInputs] [3] obs prior := sampled_of_canDraw (by decide)

/-! ## Non-vacuity -/

theorem exLib_arity (t : Nat) : exLib.arity t ≤ 2 := by
  by_cases h : t < 7
  · have : t = 0 ∨ t = 1 ∨ t = 2 ∨ t = 3 ∨ t = 4 ∨ t = 5 ∨ t = 6 := by omega
    rcases this with rfl | rfl | rfl | rfl | rfl | rfl | rfl <;> decide
  · unfold Lib.arity
    rw [List.getElem?_eq_none (by simp [exLib]; omega)]
    simp

/-- All the constraints at once. -/
def exPriors : List Prior :=
  [.length (some 3) (some 8), .relational (trigConstraint exLib), .relational (diffRightConstraint exLib),
   .relational (diffLeftConstraint exLib), .repeat [0] 2, .noInputs, inverseConstraint exLib]

/-- `add(diff(u1, x1), sin(u1))` followed by two further draws fills the eight steps. -/
example : ∃ obs prior, Sampled exLib exPriors [0, 1, 4, 3, 2, 4, 4, 4] obs prior :=
  sampled_of_canDraw (by decide)
example : WF exLib.arity (node 0 [node 1 [node 4 [], node 3 []], node 2 [node 4 []]]) ∧
    (node 0 [node 1 [node 4 [], node 3 []], node 2 [node 4 []]]).preorder <+: [0, 1, 4, 3, 2, 4, 4, 4] := by
  refine ⟨?_, ⟨[4, 4], by decide⟩⟩
  simp [WF, WFL, exLib, Lib.arity]
example : (∀ t ∈ exLib.trigTokens, 0 < exLib.arity t ∧ (t ∉ exLib.diffTokens → exLib.arity t = 1)) := by decide
example : (exLib.tokens.map Token.name).Nodup ∧ exLib.inverseTokens = [(5, 6), (6, 5)] := by decide
example : (diffLeftConstraint exLib).InLib exLib ∧ (diffRightConstraint exLib).InLib exLib := by
  unfold Relational.InLib; decide
/-- The joint mask is not trivial: after `diff` the token `x1` is forbidden, `u1` is not. -/
example : canDraw exLib exPriors [] [1, 3] (initialObs exLib) (jointInitial exLib exPriors) = false ∧
    canDraw exLib exPriors [] [1, 4] (initialObs exLib) (jointInitial exLib exPriors) = true := by decide

end Verif.Discover.Claims
