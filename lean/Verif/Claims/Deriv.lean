import Verif.Claims.Sampling
/-!
# C67 – the shape of sampled derivatives (the PDE-specific constraints)
-/
namespace Verif.Discover.Claims
open Verif.Discover Tree

theorem indices_lt {lib : Lib} {p : Token → Bool} {i : Nat} (h : i ∈ lib.indices p) : i < lib.L := by
  obtain ⟨t, ht, _⟩ := Lib.mem_indices.1 h
  exact (List.getElem?_eq_some_iff.1 ht).1

theorem mem_inputTokens {lib : Lib} (hex : ∃ tok ∈ lib.tokens, tok.inputVar.isSome = true) {i : Nat} :
    i ∈ lib.inputTokens ↔ ∃ tok, lib.tokens[i]? = some tok ∧ tok.inputVar.isSome = true := by
  obtain ⟨tok, hm, hv⟩ := hex
  obtain ⟨k, hk, rfl⟩ := List.getElem_of_mem hm
  have hne : lib.indices (fun t => t.inputVar.isSome) ≠ [] := by
    intro h
    have : k ∈ lib.indices (fun t => t.inputVar.isSome) :=
      Lib.mem_indices.2 ⟨_, List.getElem?_eq_getElem hk, hv⟩
    rw [h] at this; cases this
  have he : lib.inputTokens = lib.indices (fun t => t.inputVar.isSome) := by
    unfold Lib.inputTokens
    simp [hne]
  rw [he, Lib.mem_indices]

theorem inputTokens_lt {lib : Lib} {i : Nat} (h : i ∈ lib.inputTokens) : i < lib.L := by
  unfold Lib.inputTokens at h
  simp only at h
  split at h <;> exact indices_lt h

theorem unique_name {lib : Lib} (hnd : (lib.tokens.map Token.name).Nodup) {i j : Nat} {a b : Token}
    (hi : lib.tokens[i]? = some a) (hj : lib.tokens[j]? = some b) (h : a.name = b.name) : i = j := by
  have e1 : (lib.tokens.map Token.name)[i]? = some a.name := by rw [List.getElem?_map, hi]; rfl
  have e2 : (lib.tokens.map Token.name)[j]? = some a.name := by rw [List.getElem?_map, hj, h]; rfl
  obtain ⟨k1, k2⟩ := List.getElem?_eq_some_iff.1 e1
  obtain ⟨l1, l2⟩ := List.getElem?_eq_some_iff.1 e2
  exact nodup_getElem_inj hnd k1 l1 (k2.trans l2.symm)

/-- With distinct names, the first token of a name is the token of that name. -/
theorem mem_firstOf {lib : Lib} (hnd : (lib.tokens.map Token.name).Nodup) {names : List String} {i : Nat}
    {tok : Token} (hi : lib.tokens[i]? = some tok) : i ∈ lib.firstOf names ↔ tok.name ∈ names := by
  unfold Lib.firstOf
  rw [List.mem_filterMap]
  have key : ∀ n k, (lib.indices (fun t => t.name == n)).head? = some k →
      ∃ t, lib.tokens[k]? = some t ∧ t.name = n := by
    intro n k h
    obtain ⟨t, ht, hn⟩ := Lib.mem_indices.1 (List.mem_of_head? h)
    exact ⟨t, ht, by simpa using hn⟩
  constructor
  · rintro ⟨n, hn, hh⟩
    obtain ⟨t, ht, rfl⟩ := key n i hh
    rw [hi] at ht; cases ht; exact hn
  · intro hn
    refine ⟨tok.name, hn, ?_⟩
    have hmem : i ∈ lib.indices (fun t => t.name == tok.name) := Lib.mem_indices.2 ⟨tok, hi, by simp⟩
    cases hh : (lib.indices fun t => t.name == tok.name).head? with
    | none => rw [List.head?_eq_none_iff] at hh; rw [hh] at hmem; cases hmem
    | some k =>
      obtain ⟨t, ht, hn'⟩ := key _ _ hh
      rw [unique_name hnd ht hi hn']

theorem firstOf_lt {lib : Lib} {names : List String} {i : Nat} (h : i ∈ lib.firstOf names) : i < lib.L := by
  unfold Lib.firstOf at h
  obtain ⟨n, _, hh⟩ := List.mem_filterMap.1 h
  exact indices_lt (List.mem_of_head? hh)

theorem arity_of {lib : Lib} {i : Nat} {tok : Token} (h : lib.tokens[i]? = some tok) : lib.arity i = tok.arity := by
  simp [Lib.arity, h]

/-- **C67**, right operand: under `DiffConstraint_right`, in every sampled expression the second operand of a
derivative is a single input variable (the library having one). -/
theorem C67_right_operand (lib : Lib) (ps : List Prior) (h2 : ∀ t, lib.arity t ≤ 2)
    (hin : ∃ tok ∈ lib.tokens, tok.inputVar.isSome = true)
    (hc : Prior.relational (diffRightConstraint lib) ∈ ps)
    {xs : List Nat} {obs : Obs} {prior : Nat → Logit} (h : Sampled lib ps xs obs prior)
    (t : Tree) (hw : WF lib.arity t) (hpre : t.preorder <+: xs)
    (p : Nat) (a b : Tree) (hs : node p [a, b] ∈ t.subtrees) (tp : Token) (htp : lib.tokens[p]? = some tp)
    (hd : IsDerivName tp.name) :
    ∃ x tok, b = node x [] ∧ lib.tokens[x]? = some tok ∧ tok.inputVar.isSome = true := by
  have hinlib : (diffRightConstraint lib).InLib lib := by
    constructor
    · intro x hx
      simp only [diffRightConstraint, List.mem_append, List.mem_filter, Lib.unaryTokens, Lib.binaryTokens,
        Lib.terminalTokens, Lib.mem_tokensOfArity] at hx
      rcases hx with (hx | hx) | hx
      · exact hx.1
      · exact hx.1
      · exact hx.1.1
    · intro x hx; exact indices_lt hx
  have hbL : b.root < lib.L := by
    obtain ⟨info, hi, ht, hp, _⟩ := child_info hs (j := 1) (c := b) rfl
    obtain ⟨_, _, _, _, hL, _⟩ := sampled_node h h2 hw hpre hi hp hc
    rw [← ht]; exact hL
  have hnot : b.root ∉ (diffRightConstraint lib).targets := fun hbt =>
    C06_relational lib ps h2 _ hc hinlib (by simp [diffRightConstraint]) h t hw hpre
      ⟨p, [a, b], hs, (mem_diffTokens htp).2 hd, a, b, rfl, hbt⟩
  simp only [diffRightConstraint, List.mem_append, List.mem_filter, Lib.unaryTokens, Lib.binaryTokens,
    Lib.terminalTokens, Lib.mem_tokensOfArity, not_or] at hnot
  obtain ⟨⟨n1, n2⟩, n3⟩ := hnot
  have hb0 : lib.arity b.root = 0 := by
    have := h2 b.root
    rcases Nat.lt_or_ge 0 (lib.arity b.root) with hlt | hge
    · rcases Nat.lt_or_ge 1 (lib.arity b.root) with h1 | h1
      · exact absurd ⟨hbL, by omega⟩ n2
      · exact absurd ⟨hbL, by omega⟩ n1
    · omega
  have hbin : b.root ∈ lib.inputTokens := by
    apply Classical.byContradiction
    intro hn
    exact n3 ⟨⟨hbL, hb0⟩, by simpa using hn⟩
  obtain ⟨tok, htok, hv⟩ := (mem_inputTokens hin).1 hbin
  have hbwf : WF lib.arity b := by
    have := subtree_wf t hw _ hs
    simp only [WF, WFL] at this
    exact this.2.2.1
  obtain ⟨r, cs⟩ := b
  simp only [WF] at hbwf
  simp only [root_node] at hb0 htok
  refine ⟨r, tok, ?_, htok, hv⟩
  have : cs = [] := List.length_eq_zero_iff.1 (by omega)
  rw [this]

/-- **C67**, left operand: under `DiffConstraint_left`, what is differentiated is never itself an input variable or
the constant. -/
theorem C67_left_operand (lib : Lib) (ps : List Prior) (h2 : ∀ t, lib.arity t ≤ 2)
    (hin : ∃ tok ∈ lib.tokens, tok.inputVar.isSome = true) (hnd : (lib.tokens.map Token.name).Nodup)
    (hc : Prior.relational (diffLeftConstraint lib) ∈ ps)
    {xs : List Nat} {obs : Obs} {prior : Nat → Logit} (h : Sampled lib ps xs obs prior)
    (t : Tree) (hw : WF lib.arity t) (hpre : t.preorder <+: xs)
    (p : Nat) (a : Tree) (cs : List Tree) (hs : node p (a :: cs) ∈ t.subtrees) (tp : Token)
    (htp : lib.tokens[p]? = some tp) (hd : IsDerivName tp.name)
    (ta : Token) (hta : lib.tokens[a.root]? = some ta) :
    ta.inputVar = none ∧ ta.name ≠ "const" := by
  have hinlib : (diffLeftConstraint lib).InLib lib := by
    constructor
    · intro x hx
      simp only [diffLeftConstraint, List.mem_append] at hx
      rcases hx with hx | hx
      · exact firstOf_lt hx
      · exact inputTokens_lt hx
    · intro x hx; exact indices_lt hx
  have hnot : a.root ∉ (diffLeftConstraint lib).targets := fun hbt =>
    C06_relational lib ps h2 _ hc hinlib (by simp [diffLeftConstraint]) h t hw hpre
      ⟨p, a :: cs, hs, (mem_diffTokens htp).2 hd, a, rfl, hbt⟩
  simp only [diffLeftConstraint, List.mem_append, not_or, mem_firstOf hnd hta,
    mem_inputTokens hin] at hnot
  refine ⟨?_, by simpa using hnot.1⟩
  cases hv : ta.inputVar with
  | none => rfl
  | some v => exact absurd ⟨ta, hta, by simp [hv]⟩ hnot.2

/-- **C67**, strict left operand: under `DiffConstraint_left_strict`, what is differentiated is a state variable or
another derivative. -/
theorem C67_left_strict (lib : Lib) (ps : List Prior) (h2 : ∀ t, lib.arity t ≤ 2)
    (hnd : (lib.tokens.map Token.name).Nodup)
    (hc : Prior.relational (diffLeftStrictConstraint lib) ∈ ps)
    {xs : List Nat} {obs : Obs} {prior : Nat → Logit} (h : Sampled lib ps xs obs prior)
    (t : Tree) (hw : WF lib.arity t) (hpre : t.preorder <+: xs)
    (p : Nat) (a : Tree) (cs : List Tree) (hs : node p (a :: cs) ∈ t.subtrees) (tp : Token)
    (htp : lib.tokens[p]? = some tp) (hd : IsDerivName tp.name)
    (ta : Token) (hta : lib.tokens[a.root]? = some ta) :
    ta.stateVar.isSome = true ∨ IsDerivName ta.name := by
  have hinlib : (diffLeftStrictConstraint lib).InLib lib :=
    ⟨fun x hx => indices_lt hx, fun x hx => indices_lt hx⟩
  have hnot : a.root ∉ (diffLeftStrictConstraint lib).targets := fun hbt =>
    C06_relational lib ps h2 _ hc hinlib (by simp [diffLeftStrictConstraint]) h t hw hpre
      ⟨p, a :: cs, hs, (mem_diffTokens htp).2 hd, a, rfl, hbt⟩
  apply Classical.byContradiction
  intro hn
  apply hnot
  refine Lib.mem_indices.2 ⟨ta, hta, ?_⟩
  rw [not_or] at hn
  have h1 : isDiffName ta.name = false := by
    cases hq : isDiffName ta.name with
    | false => rfl
    | true => exact absurd ((isDiffName_iff _).1 hq) hn.2
  rw [Bool.not_eq_true', Bool.or_eq_false_iff]
  refine ⟨h1, ?_⟩
  rw [List.any_eq_false]
  intro s hs' hh
  rw [Bool.and_eq_true] at hh
  obtain ⟨k, hk, rfl⟩ := List.getElem_of_mem hs'
  have hk' : lib.tokens[k]? = some lib.tokens[k] := List.getElem?_eq_getElem hk
  have : k = a.root := unique_name hnd hk' hta (by simpa using hh.2)
  subst this
  rw [hta] at hk'
  have hEq := Option.some.inj hk'
  exact hn.1 (by rw [hEq]; exact hh.1)

theorem below_names (lib : Lib) (ps : List Prior) (h2 : ∀ t, lib.arity t ≤ 2)
    (hin : ∃ tok ∈ lib.tokens, tok.inputVar.isSome = true)
    (names : List String) (c : Relational) (hrel : c.rel = .descendant) (heff : c.effectors = lib.diffTokens)
    (htargets : ∀ i tok, lib.tokens[i]? = some tok → tok.name ∈ names → i ∈ c.targets)
    (hnames : ∀ tok ∈ lib.tokens, tok.inputVar.isSome = true → tok.name ∉ names)
    (hpos : ∀ tok ∈ lib.tokens, IsDerivName tok.name → 0 < tok.arity)
    (hc : Prior.relational c ∈ ps) (hr : Prior.relational (diffRightConstraint lib) ∈ ps)
    {xs : List Nat} {obs : Obs} {prior : Nat → Logit} (h : Sampled lib ps xs obs prior)
    (t : Tree) (hw : WF lib.arity t) (hpre : t.preorder <+: xs)
    (p : Nat) (cs : List Tree) (hs : node p cs ∈ t.subtrees) (tp : Token)
    (htp : lib.tokens[p]? = some tp) (hd : IsDerivName tp.name)
    (d : Tree) (hdm : d ∈ subtreesL cs) (td : Token) (htd : lib.tokens[d.root]? = some td) :
    td.name ∉ names := by
  intro hmem
  have hfirst := C06_descendant_partial lib ps h2 c hc hrel (fun e he => by
    rw [heff] at he
    obtain ⟨te, hte, _⟩ := Lib.mem_indices.1 he
    rw [arity_of hte]
    exact hpos te (List.mem_of_getElem? hte) ((mem_diffTokens hte).1 he)) h t hw hpre
  have htgt : d.root ∈ c.targets := htargets _ _ htd hmem
  have hp : p ∈ c.effectors := by rw [heff]; exact (mem_diffTokens htp).2 hd
  have hwf := subtree_wf t hw _ hs
  simp only [WF] at hwf
  have har := h2 p
  match cs, hs, hdm, hwf with
  | [], _, hdm, _ => simp [subtreesL] at hdm
  | [a], hs, hdm, _ => exact hfirst p a [] hs hp d (by simpa [subtreesL] using hdm) htgt
  | [a, b], hs, hdm, _ =>
    simp only [subtreesL, List.append_nil, List.mem_append] at hdm
    rcases hdm with hda | hdb
    · exact hfirst p a [b] hs hp d hda htgt
    · obtain ⟨x, tok, rfl, htok, hv⟩ := C67_right_operand lib ps h2 hin hr h t hw hpre p a b hs tp htp hd
      simp [subtrees, subtreesL] at hdb
      subst hdb
      simp only [root_node] at htd
      rw [htok] at htd
      cases htd
      exact hnames _ (List.mem_of_getElem? htok) hv hmem
  | a :: b :: c :: cs, _, _, hwf => have := hwf.1; simp at this; omega

/-- **C67**, everything below: under `DiffConstraint_des` and `DiffConstraint_right`, no sum, difference or constant
occurs anywhere below a derivative. -/
theorem C67_below_sums (lib : Lib) (ps : List Prior) (h2 : ∀ t, lib.arity t ≤ 2)
    (hin : ∃ tok ∈ lib.tokens, tok.inputVar.isSome = true)
    (hnd : (lib.tokens.map Token.name).Nodup)
    (hnames : ∀ tok ∈ lib.tokens, tok.inputVar.isSome = true →
      tok.name ∉ ["add", "add_t", "sub", "sub_t", "const"])
    (hpos : ∀ tok ∈ lib.tokens, IsDerivName tok.name → 0 < tok.arity)
    (hc : Prior.relational (diffDesConstraint lib) ∈ ps) (hr : Prior.relational (diffRightConstraint lib) ∈ ps)
    {xs : List Nat} {obs : Obs} {prior : Nat → Logit} (h : Sampled lib ps xs obs prior)
    (t : Tree) (hw : WF lib.arity t) (hpre : t.preorder <+: xs)
    (p : Nat) (cs : List Tree) (hs : node p cs ∈ t.subtrees) (tp : Token)
    (htp : lib.tokens[p]? = some tp) (hd : IsDerivName tp.name)
    (d : Tree) (hdm : d ∈ subtreesL cs) (td : Token) (htd : lib.tokens[d.root]? = some td) :
    td.name ∉ ["add", "add_t", "sub", "sub_t", "const"] := by
  refine below_names lib ps h2 hin _ (diffDesConstraint lib) rfl rfl ?_ hnames hpos hc hr h t hw hpre p cs hs tp htp hd
    d hdm td htd
  intro i tok hi hmem
  simp only [diffDesConstraint, List.mem_append, mem_firstOf hnd hi]
  simp only [List.mem_cons, List.not_mem_nil, or_false] at hmem ⊢
  rcases hmem with h | h | h | h | h <;> simp [h]

/-- **C67**, everything below: under `DiffConstraint_des2` and `DiffConstraint_right`, no power, product, quotient,
elementary function or constant occurs anywhere below a derivative. -/
theorem C67_below_nonlinear (lib : Lib) (ps : List Prior) (h2 : ∀ t, lib.arity t ≤ 2)
    (hin : ∃ tok ∈ lib.tokens, tok.inputVar.isSome = true)
    (hnd : (lib.tokens.map Token.name).Nodup)
    (hnames : ∀ tok ∈ lib.tokens, tok.inputVar.isSome = true →
      tok.name ∉ ["n2", "n3", "n4", "mul", "div", "exp", "log", "sin", "cos", "const"])
    (hpos : ∀ tok ∈ lib.tokens, IsDerivName tok.name → 0 < tok.arity)
    (hc : Prior.relational (diffDes2Constraint lib) ∈ ps) (hr : Prior.relational (diffRightConstraint lib) ∈ ps)
    {xs : List Nat} {obs : Obs} {prior : Nat → Logit} (h : Sampled lib ps xs obs prior)
    (t : Tree) (hw : WF lib.arity t) (hpre : t.preorder <+: xs)
    (p : Nat) (cs : List Tree) (hs : node p cs ∈ t.subtrees) (tp : Token)
    (htp : lib.tokens[p]? = some tp) (hd : IsDerivName tp.name)
    (d : Tree) (hdm : d ∈ subtreesL cs) (td : Token) (htd : lib.tokens[d.root]? = some td) :
    td.name ∉ ["n2", "n3", "n4", "mul", "div", "exp", "log", "sin", "cos", "const"] := by
  refine below_names lib ps h2 hin _ (diffDes2Constraint lib) rfl rfl ?_ hnames hpos hc hr h t hw hpre p cs hs tp htp hd
    d hdm td htd
  intro i tok hi hmem
  simp only [diffDes2Constraint, List.mem_append, mem_firstOf hnd hi]
  simp only [List.mem_cons, List.not_mem_nil, or_false] at hmem ⊢
  rcases hmem with h | h | h | h | h | h | h | h | h | h <;> simp [h]

/-- **C67**, Laplacians: under `LaplaceConstraint`, a (unary) Laplace operator is only applied to a state variable. -/
theorem C67_laplace (lib : Lib) (ps : List Prior) (h2 : ∀ t, lib.arity t ≤ 2)
    (hc : Prior.relational (laplaceConstraint lib) ∈ ps)
    {xs : List Nat} {obs : Obs} {prior : Nat → Logit} (h : Sampled lib ps xs obs prior)
    (t : Tree) (hw : WF lib.arity t) (hpre : t.preorder <+: xs)
    (p : Nat) (a : Tree) (hs : node p [a] ∈ t.subtrees) (tp : Token)
    (htp : lib.tokens[p]? = some tp) (hd : "lap".toList <:+: tp.name.toList)
    (ta : Token) (hta : lib.tokens[a.root]? = some ta) : ta.stateVar.isSome = true := by
  have hinlib : (laplaceConstraint lib).InLib lib :=
    ⟨fun x hx => indices_lt hx, fun x hx => indices_lt hx⟩
  have hnot : a.root ∉ (laplaceConstraint lib).targets := fun hbt =>
    C06_relational lib ps h2 _ hc hinlib (by simp [laplaceConstraint]) h t hw hpre
      ⟨p, [a], hs, Lib.mem_indices.2 ⟨tp, htp, (hasSub_iff _ _).2 hd⟩, Or.inl ⟨a, rfl, hbt⟩⟩
  cases hv : ta.stateVar with
  | some v => rfl
  | none => exact absurd (Lib.mem_indices.2 ⟨ta, hta, by simp [hv]⟩) hnot

/-! A concrete derivative drawn under all of these constraints: `diff(u1, x1)` in the example library. -/

theorem exLib_arity2 (t : Nat) : exLib.arity t ≤ 2 := by
  match t with
  | 0 | 1 | 2 | 3 | 4 | 5 | 6 => decide
  | n + 7 => simp [Lib.arity, exLib]

example : ∃ obs prior, Sampled exLib [.relational (diffRightConstraint exLib), .relational (diffLeftConstraint exLib),
    .relational (diffLeftStrictConstraint exLib), .relational (diffDesConstraint exLib), .relational (diffDes2Constraint exLib),
    .relational (laplaceConstraint exLib)] [1, 4, 3] obs prior := by
  refine ⟨_, _, ((Sampled.start.step 1 (by decide) ?_).step 4 (by decide) ?_).step 3 (by decide) ?_⟩ <;> decide +kernel

example : (∃ tok ∈ exLib.tokens, tok.inputVar.isSome = true) ∧ exLib.Valid ∧ (exLib.tokens.map Token.name).Nodup ∧
    (∀ tok ∈ exLib.tokens, tok.inputVar.isSome = true → tok.name ∉ ["add", "add_t", "sub", "sub_t", "const"]) := by
  refine ⟨by decide, by unfold Lib.Valid; decide, by decide, by decide⟩

end Verif.Discover.Claims
