import Verif.Viz.TreeFig
import Mathlib.Data.List.Nodup
/-!
# C195 – the expression-tree figure
-/
namespace Verif.Viz.TreeFig.Claims
open Verif.Viz.TreeFig

/-! ## Specification: expressions -/

/-- An expression: a token applied to expressions. -/
inductive Expr where
  | node (value : Name) (args : List Expr)

def Expr.value : Expr → Name
  | .node v _ => v

mutual
/-- The tokens in preorder: what a program's traversal is. -/
def Expr.tokens : Expr → List Name
  | .node v args => v :: tokensArgs args
def tokensArgs : List Expr → List Name
  | [] => []
  | a :: r => a.tokens ++ tokensArgs r
end

mutual
/-- Every token has as many operands as its arity says. -/
def Expr.WellFormed (arity : Name → Nat) : Expr → Prop
  | .node v args => args.length = arity v ∧ wellFormedArgs arity args
def wellFormedArgs (arity : Name → Nat) : List Expr → Prop
  | [] => True
  | a :: r => a.WellFormed arity ∧ wellFormedArgs arity r
end

mutual
/-- Operator and operand, each with the number of its token, counted from `p`: the operands of the token `p` start at `p + 1`, one behind the other. -/
def Expr.links (p : Nat) : Expr → List ((Nat × Name) × (Nat × Name))
  | .node v args => linksArgs (p, v) (p + 1) args
def linksArgs (par : Nat × Name) (q : Nat) : List Expr → List ((Nat × Name) × (Nat × Name))
  | [] => []
  | a :: r => (par, (q, a.value)) :: (a.links q ++ linksArgs par (q + a.tokens.length) r)
end

/-- The tokens numbered from `c`. -/
def numbered (c : Nat) (l : List Name) : List (Nat × Name) := l.zipIdx c |>.map fun t => (t.2, t.1)

/-- The identity of a numbered token. -/
def idOf (t : Nat × Name) : Name := nodeId t.2 t.1

mutual
/-- The tokens of a drawn tree in the order of drawing. -/
def nodeTokens : Node → List Name
  | .mk v ss => v :: slotTokens ss
def slotTokens : Slots → List Name
  | .nil => []
  | .missing r => slotTokens r
  | .cons n r => nodeTokens n ++ slotTokens r
end

mutual
/-- Some operand is missing. -/
def nodeMissing : Node → Prop
  | .mk _ ss => slotMissing ss
def slotMissing : Slots → Prop
  | .nil => False
  | .missing _ => True
  | .cons n r => nodeMissing n ∨ slotMissing r
end

/-- The number of child places. -/
def slotCount : Slots → Nat
  | .nil => 0
  | .missing r => slotCount r + 1
  | .cons _ r => slotCount r + 1

mutual
/-- Every node has as many child places as its arity says. -/
def NodeArity (arity : Name → Nat) : Node → Prop
  | .mk v ss => slotCount ss = arity v ∧ SlotArity arity ss
def SlotArity (arity : Name → Nat) : Slots → Prop
  | .nil => True
  | .missing r => SlotArity arity r
  | .cons n r => NodeArity arity n ∧ SlotArity arity r
end

/-! ## Building -/

mutual
/-- The tree of an expression. -/
def ofExpr : Expr → Node
  | .node v args => .mk v (ofArgs args)
def ofArgs : List Expr → Slots
  | [] => .nil
  | a :: r => .cons (ofExpr a) (ofArgs r)
end

theorem tokens_pos (e : Expr) : 0 < e.tokens.length := by
  cases e; simp [Expr.tokens]

mutual
theorem build_expr (arity : Name → Nat) : ∀ (e : Expr) (f : Nat) (rest : List Name), e.WellFormed arity → e.tokens.length ≤ f →
    build arity f (e.tokens ++ rest) = (some (ofExpr e), rest)
  | .node v args, f, rest, hw, hf => by
    cases f with
    | zero => simp [Expr.tokens] at hf
    | succ f =>
      have h := slots_expr arity args f rest hw.2 (by simp [Expr.tokens] at hf; omega)
      simp only [Expr.tokens, List.cons_append, build, ofExpr]
      rw [← hw.1, h]
theorem slots_expr (arity : Name → Nat) : ∀ (args : List Expr) (f : Nat) (rest : List Name), wellFormedArgs arity args → (tokensArgs args).length ≤ f →
    slotsWith (build arity f) args.length (tokensArgs args ++ rest) = (ofArgs args, rest)
  | [], f, rest, _, _ => by simp [slotsWith, ofArgs, tokensArgs]
  | a :: r, f, rest, hw, hf => by
    simp only [tokensArgs, List.length_append] at hf
    have h1 := build_expr arity a f (tokensArgs r ++ rest) hw.1 (by omega)
    have h2 := slots_expr arity r f rest hw.2 (by omega)
    simp only [tokensArgs, List.length_cons, slotsWith, List.append_assoc, h1, h2, ofArgs, consSlot]
end

/-! ## Drawing -/

theorem numbered_append (c : Nat) (a b : List Name) : numbered c (a ++ b) = numbered c a ++ numbered (c + a.length) b := by
  unfold numbered
  rw [List.zipIdx_append, List.map_append]

theorem numbered_cons (c : Nat) (v : Name) (b : List Name) : numbered c (v :: b) = (c, v) :: numbered (c + 1) b := by
  simp [numbered]

/-- The edge from the parent, if any. -/
def fromParent (par : Option Name) (t : Nat × Name) : List (Name × Name) :=
  match par with
  | none => []
  | some p => [(p, idOf t)]

theorem addNode_eq (g : Graph) (par : Option Name) (v : Name) (c : Nat) :
    addNode g par v c = ⟨g.nodes ++ [(idOf (c, v), v)], g.edges ++ fromParent par (c, v)⟩ := by
  cases par <;> simp [addNode, fromParent, idOf]

mutual
theorem draw_expr : ∀ (e : Expr) (par : Option Name) (g : Graph) (c : Nat),
    draw (ofExpr e) par (g, c) = (⟨g.nodes ++ (numbered c e.tokens).map fun t => (idOf t, t.2),
      g.edges ++ fromParent par (c, e.value) ++ (e.links c).map fun k => (idOf k.1, idOf k.2)⟩, c + e.tokens.length)
  | .node v args, par, g, c => by
    simp only [ofExpr, draw]
    rw [addNode_eq, show nodeId v c = idOf (c, v) from rfl, draw_args args (c, v)]
    simp only [Expr.tokens, Expr.links, Expr.value, numbered_cons, List.map_cons, List.length_cons, List.append_assoc, List.cons_append, List.nil_append]
    congr 1; omega
theorem draw_args : ∀ (args : List Expr) (par : Nat × Name) (g : Graph) (c : Nat),
    drawSlots (ofArgs args) (idOf par) (g, c) = (⟨g.nodes ++ (numbered c (tokensArgs args)).map fun t => (idOf t, t.2),
      g.edges ++ (linksArgs par c args).map fun k => (idOf k.1, idOf k.2)⟩, c + (tokensArgs args).length)
  | [], par, g, c => by simp [ofArgs, drawSlots, tokensArgs, linksArgs, numbered]
  | a :: r, par, g, c => by
    simp only [ofArgs, drawSlots]
    rw [draw_expr a, draw_args r par]
    simp only [tokensArgs, linksArgs, numbered_append, List.map_append, List.map_cons, List.length_append, List.append_assoc, fromParent,
      List.cons_append, List.nil_append]
    congr 1; omega
end

/-- **C195.** The figure of a program shows exactly its expression: one node for every token in preorder, labelled with the token's text, and one edge from every
operator to each of its operands in order.  Tokens behind the expression are not shown. -/
theorem C195_figure (lib : List (Name × Nat)) (e : Expr) (hw : e.WellFormed (arityOf lib)) (rest : List Name) (c : Nat) :
    treePlot lib (e.tokens ++ rest) c =
      (⟨(numbered c e.tokens).map fun t => (idOf t, t.2), (e.links c).map fun k => (idOf k.1, idOf k.2)⟩, c + e.tokens.length) := by
  unfold treePlot figure
  rw [build_expr (arityOf lib) e _ rest hw (by simp)]
  simp only
  rw [draw_expr]
  simp [fromParent]

/-! ## Identities -/

theorem digits_no_bar (n : Nat) : '_' ∉ Nat.toDigits 10 n := by
  intro h
  have := Nat.isDigit_of_mem_toDigits (b := 10) (by decide) (by decide) h
  exact absurd this (by decide)

theorem split_last (a b x y : List Char) (hx : '_' ∉ x) (hy : '_' ∉ y) (h : a ++ '_' :: x = b ++ '_' :: y) : a = b ∧ x = y := by
  induction a generalizing b with
  | nil =>
    cases b with
    | nil => simpa using h
    | cons d b =>
      simp only [List.nil_append, List.cons_append, List.cons.injEq] at h
      exact absurd (h.2 ▸ (by simp : '_' ∈ b ++ '_' :: y)) hx
  | cons d a ih =>
    cases b with
    | nil =>
      simp only [List.nil_append, List.cons_append, List.cons.injEq] at h
      exact absurd (h.2 ▸ (by simp : '_' ∈ a ++ '_' :: x)) hy
    | cons d' b =>
      simp only [List.cons_append, List.cons.injEq] at h
      obtain ⟨h1, h2⟩ := ih b h.2
      exact ⟨by rw [h.1, h1], h2⟩

/-- **C195** (identities): two node identities agree only for the same token text and the same number: whatever the texts of the tokens. -/
theorem C195_identity (v w : Name) (c d : Nat) : nodeId v c = nodeId w d ↔ v = w ∧ c = d := by
  constructor
  · intro h
    obtain ⟨h1, h2⟩ := split_last _ _ _ _ (digits_no_bar c) (digits_no_bar d) h
    refine ⟨h1, ?_⟩
    have e1 := Nat.ofDigitChars_toDigits (b := 10) (n := c) (by decide) (by decide)
    have e2 := Nat.ofDigitChars_toDigits (b := 10) (n := d) (by decide) (by decide)
    rw [h2] at e1
    exact e1.symm.trans e2
  · rintro ⟨rfl, rfl⟩; rfl

theorem numbered_fst (c : Nat) (l : List Name) : (numbered c l).map Prod.fst = List.range' c l.length := by
  unfold numbered
  rw [List.map_map]
  induction l generalizing c with
  | nil => rfl
  | cons v l ih => simp only [List.zipIdx_cons, List.map_cons, List.length_cons, List.range'_succ, Function.comp]; rw [← ih (c + 1)]

mutual
theorem links_heads : ∀ (e : Expr) (p : Nat), (p, e.value) :: (e.links p).map Prod.snd = numbered p e.tokens
  | .node v args, p => by
    simp only [Expr.tokens, numbered_cons, Expr.links, Expr.value]
    rw [linksArgs_heads args (p, v) (p + 1)]
theorem linksArgs_heads : ∀ (args : List Expr) (par : Nat × Name) (q : Nat), (linksArgs par q args).map Prod.snd = numbered q (tokensArgs args)
  | [], _, _ => by simp [linksArgs, tokensArgs, numbered]
  | a :: r, par, q => by
    simp only [linksArgs, tokensArgs, List.map_cons, List.map_append]
    rw [numbered_append, ← links_heads a q, linksArgs_heads r par]
    simp
end

mutual
theorem links_tails : ∀ (e : Expr) (p : Nat), ∀ k ∈ e.links p, k.1 ∈ numbered p e.tokens ∧ k.1.1 < k.2.1
  | .node v args, p, k, hk => by
    simp only [Expr.links] at hk
    simp only [Expr.tokens, numbered_cons]
    rcases linksArgs_tails args (p, v) (p + 1) (by simp) k hk with ⟨h, h'⟩
    refine ⟨?_, h'⟩
    rcases h with h | h
    · rw [h]; exact List.mem_cons_self ..
    · exact List.mem_cons_of_mem _ h
theorem linksArgs_tails : ∀ (args : List Expr) (par : Nat × Name) (q : Nat), par.1 < q → ∀ k ∈ linksArgs par q args,
    (k.1 = par ∨ k.1 ∈ numbered q (tokensArgs args)) ∧ k.1.1 < k.2.1
  | [], _, _, _, k, hk => by simp [linksArgs] at hk
  | a :: r, par, q, hq, k, hk => by
    simp only [linksArgs, List.mem_cons, List.mem_append] at hk
    simp only [tokensArgs, numbered_append, List.mem_append]
    rcases hk with rfl | hk | hk
    · exact ⟨.inl rfl, hq⟩
    · obtain ⟨h1, h2⟩ := links_tails a q k hk
      exact ⟨.inr (.inl h1), h2⟩
    · obtain ⟨h1, h2⟩ := linksArgs_tails r par (q + a.tokens.length) (by omega) k hk
      exact ⟨h1.imp id .inr, h2⟩
end

/-- **C195** (a tree): all node identities of a figure differ; every node except the first – the root – has exactly one incoming edge (the edges lead to the second,
third, … node, in this order), and every edge starts at a node drawn before the one it leads to. -/
theorem C195_tree (lib : List (Name × Nat)) (e : Expr) (hw : e.WellFormed (arityOf lib)) (c : Nat) (g : Graph) (c' : Nat) (hg : treePlot lib e.tokens c = (g, c')) :
    (g.nodes.map Prod.fst).Nodup ∧ g.nodes.map Prod.snd = e.tokens ∧ g.edges.map Prod.snd = (g.nodes.map Prod.fst).tail ∧
    ∀ p ∈ g.edges, ∃ i j : Nat, i < j ∧ (g.nodes.map Prod.fst)[i]? = some p.1 ∧ (g.nodes.map Prod.fst)[j]? = some p.2 := by
  have hf := C195_figure lib e hw [] c
  rw [List.append_nil, hg] at hf
  obtain ⟨rfl, rfl⟩ := Prod.mk.inj hf
  have hids : ((numbered c e.tokens).map fun t => (idOf t, t.2)).map Prod.fst = (numbered c e.tokens).map idOf := by
    rw [List.map_map]; rfl
  have hget : ∀ t ∈ numbered c e.tokens, ∃ i, ((numbered c e.tokens).map idOf)[i]? = some (idOf t) ∧ t.1 = c + i := by
    intro t ht
    obtain ⟨i, hi, hc⟩ := List.mem_iff_getElem?.1 ht |>.elim fun i hi => (⟨i, hi, by
      have h1 : ((numbered c e.tokens).map Prod.fst)[i]? = some t.1 := by rw [List.getElem?_map, hi]; rfl
      rw [numbered_fst] at h1
      have hl : i < e.tokens.length := by
        have := (List.getElem?_eq_some_iff.1 h1).1; simpa using this
      rw [List.getElem?_range' hl] at h1
      simp at h1; omega⟩ : ∃ i, (numbered c e.tokens)[i]? = some t ∧ t.1 = c + i)
    exact ⟨i, by rw [List.getElem?_map, hi]; rfl, hc⟩
  refine ⟨?_, ?_, ?_, ?_⟩
  · rw [hids]
    have hnd : (numbered c e.tokens).Pairwise fun a b => a.1 ≠ b.1 := by
      have h : ((numbered c e.tokens).map Prod.fst).Nodup := by rw [numbered_fst]; exact List.nodup_range'
      exact List.pairwise_map.1 h
    exact List.pairwise_map.2 (hnd.imp fun h hh => h ((C195_identity ..).1 hh).2)
  · rw [List.map_map]
    unfold numbered
    rw [List.map_map]
    show List.map (fun t : Name × Nat => t.1) _ = _
    rw [List.zipIdx_map_fst]
  · rw [hids, List.map_map]
    rw [← links_heads e c, List.map_cons, List.tail_cons, List.map_map]; rfl
  · intro p hp
    obtain ⟨k, hk, rfl⟩ := List.mem_map.1 hp
    obtain ⟨h1, h2⟩ := links_tails e c k hk
    have h3 : k.2 ∈ numbered c e.tokens := by
      rw [← links_heads e c]; exact List.mem_cons_of_mem _ (List.mem_map_of_mem hk)
    obtain ⟨i, hi, hi'⟩ := hget _ h1
    obtain ⟨j, hj, hj'⟩ := hget _ h3
    rw [hids]
    exact ⟨i, j, by omega, hi, hj⟩

mutual
theorem links_shift : ∀ (x : Expr) (a b k : Nat), x.links (b + k) = (x.links (a + k)).map fun k => ((k.1.1 - a + b, k.1.2), (k.2.1 - a + b, k.2.2))
  | .node v args, a, b, k => by
    simp only [Expr.links]
    have := linksArgs_shift args v a b k (k + 1)
    simpa [Nat.add_assoc] using this
theorem linksArgs_shift : ∀ (args : List Expr) (v : Name) (a b k m : Nat), linksArgs (b + k, v) (b + m) args =
    (linksArgs (a + k, v) (a + m) args).map fun k => ((k.1.1 - a + b, k.1.2), (k.2.1 - a + b, k.2.2))
  | [], _, _, _, _, _ => rfl
  | x :: r, v, a, b, k, m => by
    simp only [linksArgs, List.map_cons, List.map_append]
    rw [links_shift x a b m, Nat.add_assoc, Nat.add_assoc, linksArgs_shift r v a b k (m + x.tokens.length)]
    congr 1
    simp only [Prod.mk.injEq, and_true]
    omega
end

/-- **C195** (again): a later figure of the same program is the earlier one with other numbers: same labels, and an edge between the same nodes. -/
theorem C195_again (lib : List (Name × Nat)) (e : Expr) (hw : e.WellFormed (arityOf lib)) (c d : Nat) :
    ∃ f : Name → Name, (treePlot lib e.tokens d).1.nodes = (treePlot lib e.tokens c).1.nodes.map (fun n => (f n.1, n.2)) ∧
      (treePlot lib e.tokens d).1.edges = (treePlot lib e.tokens c).1.edges.map (fun k => (f k.1, f k.2)) := by
  have h1 := C195_figure lib e hw [] c
  have h2 := C195_figure lib e hw [] d
  rw [List.append_nil] at h1 h2
  have hshift : ∀ (l : List Name) (a b : Nat), numbered b l = (numbered a l).map fun t => (t.1 - a + b, t.2) := by
    intro l a b
    suffices h : ∀ k, numbered (b + k) l = (numbered (a + k) l).map fun t => (t.1 - a + b, t.2) by simpa using h 0
    induction l with
    | nil => intro k; rfl
    | cons v l ih =>
      intro k
      rw [numbered_cons, numbered_cons, List.map_cons]
      congr 1
      · simp only [Prod.mk.injEq, and_true]; omega
      · exact ih (k + 1)
  let f : Name → Name := fun n => match (numbered c e.tokens).find? fun t => idOf t == n with
    | none => n
    | some t => idOf (t.1 - c + d, t.2)
  have hf : ∀ t ∈ numbered c e.tokens, f (idOf t) = idOf (t.1 - c + d, t.2) := by
    intro t ht
    simp only [f]
    cases hh : (numbered c e.tokens).find? fun s => idOf s == idOf t with
    | none => exact absurd (List.find?_eq_none.1 hh t ht) (by simp)
    | some s =>
      have := List.find?_some hh
      simp only [beq_iff_eq] at this
      obtain ⟨e1, e2⟩ := (C195_identity ..).1 this
      simp only [e1, e2]
  have hlink : ∀ (x : Expr) (a b : Nat), x.links b = (x.links a).map fun k => ((k.1.1 - a + b, k.1.2), (k.2.1 - a + b, k.2.2)) :=
    fun x a b => by simpa using links_shift x a b 0
  refine ⟨f, ?_, ?_⟩
  · rw [h1, h2]
    simp only
    rw [hshift e.tokens c d, List.map_map, List.map_map]
    exact List.map_congr_left fun t ht => by simp only [Function.comp]; rw [hf t ht]
  · rw [h1, h2]
    simp only
    rw [hlink e c d, List.map_map, List.map_map]
    refine List.map_congr_left fun k hk => ?_
    have h3 : k.2 ∈ numbered c e.tokens := by
      rw [← links_heads e c]; exact List.mem_cons_of_mem _ (List.mem_map_of_mem hk)
    simp only [Function.comp]
    rw [hf _ (links_tails e c k hk).1, hf _ h3]

theorem figures_ids (lib : List (Name × Nat)) : ∀ (es : List Expr) (c : Nat), (∀ e ∈ es, e.WellFormed (arityOf lib)) →
    (figures lib (es.map Expr.tokens) c).flatMap (fun g => g.nodes.map Prod.fst) = (numbered c (es.flatMap Expr.tokens)).map idOf := by
  intro es
  induction es with
  | nil => intro c _; rfl
  | cons e es ih =>
    intro c h
    have h1 := C195_figure lib e (h e (by simp)) [] c
    rw [List.append_nil] at h1
    rw [List.map_cons, figures, List.flatMap_cons, h1]
    simp only
    rw [ih _ (fun x hx => h x (by simp [hx])), List.flatMap_cons, numbered_append, List.map_append, List.map_map]
    rfl

/-- **C195** (one process): over all figures drawn in a process no node identity is used twice. -/
theorem C195_process (lib : List (Name × Nat)) (es : List Expr) (hw : ∀ e ∈ es, e.WellFormed (arityOf lib)) (c : Nat) :
    ((figures lib (es.map Expr.tokens) c).flatMap fun g => g.nodes.map Prod.fst).Nodup := by
  rw [figures_ids lib es c hw]
  have hnd : (numbered c (es.flatMap Expr.tokens)).Pairwise fun a b => a.1 ≠ b.1 := by
    have h : ((numbered c (es.flatMap Expr.tokens)).map Prod.fst).Nodup := by rw [numbered_fst]; exact List.nodup_range'
    exact List.pairwise_map.1 h
  exact List.pairwise_map.2 (hnd.imp fun h hh => h ((C195_identity ..).1 hh).2)

/-- **C195** (arities): in a library of differently named tokens a token has its own number of operands in the figure; a text that is no token's name – a constant
shown by its value – has none. -/
theorem C195_arity (lib : List (Name × Nat)) (hn : (lib.map Prod.fst).Nodup) :
    (∀ t ∈ lib, arityOf lib t.1 = t.2) ∧ ∀ v, v ∉ lib.map Prod.fst → arityOf lib v = 0 := by
  constructor
  · intro t ht
    unfold arityOf
    cases hh : lib.reverse.find? fun s => s.1 == t.1 with
    | none => exact absurd (List.find?_eq_none.1 hh t (by simpa using ht)) (by simp)
    | some s =>
      have h1 := List.find?_some hh
      have h2 : s ∈ lib := by simpa using List.mem_of_find?_eq_some hh
      simp only [beq_iff_eq] at h1
      obtain ⟨i, hi⟩ := List.mem_iff_getElem?.1 ht
      obtain ⟨j, hj⟩ := List.mem_iff_getElem?.1 h2
      have hil := (List.getElem?_eq_some_iff.1 hi)
      have hjl := (List.getElem?_eq_some_iff.1 hj)
      obtain ⟨hil1, hil2⟩ := hil
      obtain ⟨hjl1, hjl2⟩ := hjl
      have he : i = j := (List.Nodup.getElem_inj_iff (l := lib.map Prod.fst) hn (i := i) (j := j) (hi := by simpa using hil1) (hj := by simpa using hjl1)).1 (by
        simp [hil2, hjl2, h1])
      subst he
      rw [hi] at hj
      cases hj; rfl
  · intro v hv
    unfold arityOf
    rw [List.find?_eq_none.2 (fun s hs hh => hv (by
      simp only [beq_iff_eq] at hh
      exact hh ▸ List.mem_map_of_mem (by simpa using hs)))]
    rfl

theorem slots_short (arity : Name → Nat) (f : Nat)
    (hb : ∀ l : List Name, l.length ≤ f → ∃ o r, build arity f l = (o, r) ∧
      (match o with
        | none => l = [] ∧ r = []
        | some n => nodeTokens n ++ r = l ∧ NodeArity arity n ∧ (nodeMissing n → r = []))) :
    ∀ (n : Nat) (l : List Name), l.length ≤ f → ∃ s r, slotsWith (build arity f) n l = (s, r) ∧ slotTokens s ++ r = l ∧ SlotArity arity s ∧ slotCount s = n ∧
      (slotMissing s → r = []) := by
  intro n
  induction n with
  | zero => intro l _; exact ⟨.nil, l, rfl, rfl, trivial, rfl, fun h => h.elim⟩
  | succ n ih =>
    intro l hl
    obtain ⟨o, r, h1, h2⟩ := hb l hl
    cases o with
    | none =>
      obtain ⟨rfl, rfl⟩ := h2
      obtain ⟨s, r', g1, g2, g3, g4, g5⟩ := ih [] (by simp)
      refine ⟨.missing s, r', ?_, by simpa [slotTokens] using g2, g3, by simp [slotCount, g4], ?_⟩
      · simp only [slotsWith, h1, g1, consSlot]
      · intro _; exact (List.append_eq_nil_iff.1 g2).2
    | some x =>
      simp only at h2
      obtain ⟨h2, h3, h4⟩ := h2
      obtain ⟨s, r', g1, g2, g3, g4, g5⟩ := ih r (by rw [← h2] at hl; simp at hl; omega)
      refine ⟨.cons x s, r', ?_, ?_, ⟨h3, g3⟩, by simp [slotCount, g4], ?_⟩
      · simp only [slotsWith, h1, g1, consSlot]
      · simp only [slotTokens, List.append_assoc, g2, h2]
      · rintro (h | h)
        · rw [h4 h] at g2; exact (List.append_eq_nil_iff.1 g2).2
        · exact g5 h

theorem build_short (arity : Name → Nat) : ∀ (f : Nat) (l : List Name), l.length ≤ f → ∃ o r, build arity f l = (o, r) ∧
    (match o with
      | none => l = [] ∧ r = []
      | some n => nodeTokens n ++ r = l ∧ NodeArity arity n ∧ (nodeMissing n → r = [])) := by
  intro f
  induction f with
  | zero =>
    intro l hl
    have : l = [] := List.length_eq_zero_iff.1 (by omega)
    subst this
    exact ⟨none, [], rfl, rfl, rfl⟩
  | succ f ih =>
    intro l hl
    cases l with
    | nil => exact ⟨none, [], rfl, rfl, rfl⟩
    | cons v l =>
      obtain ⟨s, r, h1, h2, h3, h4, h5⟩ := slots_short arity f ih (arity v) l (by simp at hl; omega)
      refine ⟨some (.mk v s), r, by simp only [build, h1], ?_, ⟨h4, h3⟩, h5⟩
      simp only [nodeTokens, List.cons_append, h2]

mutual
theorem draw_labels : ∀ (n : Node) (p : Option Name) (st : Graph × Nat), (draw n p st).1.nodes.map Prod.snd = st.1.nodes.map Prod.snd ++ nodeTokens n
  | .mk v ss, p, st => by
    simp only [draw]
    rw [drawSlots_labels ss]
    simp [addNode, nodeTokens]
theorem drawSlots_labels : ∀ (s : Slots) (p : Name) (st : Graph × Nat), (drawSlots s p st).1.nodes.map Prod.snd = st.1.nodes.map Prod.snd ++ slotTokens s
  | .nil, p, st => by simp [drawSlots, slotTokens]
  | .missing r, p, st => by simp only [drawSlots, slotTokens]; exact drawSlots_labels r p st
  | .cons n r, p, st => by
    simp only [drawSlots, slotTokens]
    rw [drawSlots_labels r, draw_labels n, List.append_assoc]
end

/-- **C195** (any token list): whatever the tokens – too few or too many for an expression –, drawing ends and its labels are a beginning of them; every shown token
has as many child places as its arity says, and a place is empty only if all tokens are shown: missing operands are left out without a word. -/
theorem C195_short (lib : List (Name × Nat)) (l : List Name) (c : Nat) (hl : l ≠ []) :
    ∃ n rest, (treePlot lib l c).1.nodes.map Prod.snd = nodeTokens n ∧ nodeTokens n ++ rest = l ∧ NodeArity (arityOf lib) n ∧ (nodeMissing n → rest = []) := by
  obtain ⟨o, r, h1, h2⟩ := build_short (arityOf lib) l.length l (Nat.le_refl _)
  cases o with
  | none => exact absurd h2.1 hl
  | some n =>
    simp only at h2
    refine ⟨n, r, ?_, h2⟩
    unfold treePlot figure
    rw [h1]
    simp only
    rw [draw_labels]
    rfl

/-- A case meeting the hypotheses: `add (mul u ux) u` with a constant's value in the library's language, drawn after another figure. -/
example : (Expr.node "add".toList [.node "mul".toList [.node "u1".toList [], .node "2.5".toList []], .node "u1".toList []]).WellFormed
      (arityOf [("add".toList, 2), ("mul".toList, 2), ("u1".toList, 0)]) ∧
    treePlot [("add".toList, 2), ("mul".toList, 2), ("u1".toList, 0)] ["add".toList, "mul".toList, "u1".toList, "2.5".toList, "u1".toList] 9 =
      (⟨[("add_9".toList, "add".toList), ("mul_10".toList, "mul".toList), ("u1_11".toList, "u1".toList), ("2.5_12".toList, "2.5".toList), ("u1_13".toList, "u1".toList)],
        [("add_9".toList, "mul_10".toList), ("mul_10".toList, "u1_11".toList), ("mul_10".toList, "2.5_12".toList), ("add_9".toList, "u1_13".toList)]⟩, 14) := by
  refine ⟨?_, by decide +kernel⟩
  refine ⟨by decide +kernel, ⟨by decide +kernel, ⟨by decide +kernel, trivial⟩, ⟨by decide +kernel, trivial⟩, trivial⟩, ⟨by decide +kernel, trivial⟩, trivial⟩

end Verif.Viz.TreeFig.Claims
