import Verif.Sga.Tree
/-!
# Lemmas about the level tables (helper lemmas, no claims)
-/
namespace Verif.Sga

/-- Total number of children of a list of nodes. -/
def sumAr : List Node → Nat
  | [] => 0
  | n :: ns => n.arity + sumAr ns

theorem sumAr_append (a b : List Node) : sumAr (a ++ b) = sumAr a + sumAr b := by
  induction a with
  | nil => simp [sumAr]
  | cons x a ih => simp [sumAr, ih]; omega

/-- Position of the first child of node `i`. -/
def off (l : List Node) (i : Nat) : Nat := sumAr (l.take i)

theorem slotsFrom_length (l : List Node) : ∀ s, (slotsFrom s l).length = sumAr l := by
  induction l with
  | nil => intro s; rfl
  | cons p l ih => intro s; simp [slotsFrom, sumAr, ih]

theorem slotsFrom_get (l : List Node) : ∀ s i p j, l[i]? = some p → j < p.arity →
    (slotsFrom s l)[off l i + j]? = some (s + i, p, j) := by
  induction l with
  | nil => intro s i p j h _; simp at h
  | cons q l ih =>
    intro s i p j h hj
    unfold slotsFrom
    cases i with
    | zero =>
      simp at h; subst h
      rw [List.getElem?_append_left (by simp [off, sumAr]; exact hj)]
      simp [off, sumAr, hj]
    | succ i =>
      simp at h
      have e : off (q :: l) (i + 1) + j = q.arity + (off l i + j) := by simp [off, sumAr]; omega
      rw [e, List.getElem?_append_right (by simp)]
      simp only [List.length_map, List.length_range, Nat.add_sub_cancel_left]
      rw [ih (s + 1) i p j h hj]
      congr 2; omega

theorem slotsFrom_inv (l : List Node) : ∀ s k i p j, (slotsFrom s l)[k]? = some (i, p, j) →
    ∃ i', i = s + i' ∧ l[i']? = some p ∧ j < p.arity ∧ k = off l i' + j := by
  induction l with
  | nil => intro s k i p j h; simp [slotsFrom] at h
  | cons q l ih =>
    intro s k i p j h
    unfold slotsFrom at h
    by_cases hk : k < q.arity
    · rw [List.getElem?_append_left (by simpa using hk)] at h
      simp [hk] at h
      obtain ⟨rfl, rfl, rfl⟩ := h
      exact ⟨0, by simp, by simp, hk, by simp [off, sumAr]⟩
    · rw [List.getElem?_append_right (by simp; omega)] at h
      simp only [List.length_map, List.length_range] at h
      obtain ⟨i', e1, e2, e3, e4⟩ := ih _ _ _ _ _ h
      exact ⟨i' + 1, by omega, by simpa using e2, e3, by simp [off, sumAr] at e4 ⊢; omega⟩

theorem slots_length (l : List Node) : (slots l).length = sumAr l := slotsFrom_length l 0

theorem slots_get {l : List Node} {i j : Nat} {p : Node} (h : l[i]? = some p) (hj : j < p.arity) :
    (slots l)[off l i + j]? = some (i, p, j) := by
  have := slotsFrom_get l 0 i p j h hj
  simpa [slots] using this

theorem slots_inv {l : List Node} {k i j : Nat} {p : Node} (h : (slots l)[k]? = some (i, p, j)) :
    l[i]? = some p ∧ j < p.arity ∧ k = off l i + j := by
  obtain ⟨i', e1, e2, e3, e4⟩ := slotsFrom_inv l 0 k i p j h
  simp at e1; subst e1
  exact ⟨e2, e3, e4⟩

/-! ## Well-formed tables -/

/-- One level: symbols are legal, and nodes with children point to the place where the children of all nodes before
them end. -/
structure Ok1 (ctx : Ctx) (lvl : List Node) : Prop where
  leaf : ∀ (i : Nat) (n : Node), lvl[i]? = some n → n.arity = 0 → n.sym ∈ ctx.VARS ∨ n.sym ∈ ctx.den
  op : ∀ (i : Nat) (n : Node), lvl[i]? = some n → 0 < n.arity → n.sym ∈ ctx.OPS ∧ n.childSt = some (off lvl i)

/-- Two adjacent levels: the lower one consists exactly of the children of the upper one, in order; the second child
of a derivative is a denominator leaf. -/
structure Ok2 (ctx : Ctx) (prev next : List Node) : Prop where
  len : next.length = sumAr prev
  child : ∀ (i : Nat) (p : Node) (j : Nat), prev[i]? = some p → j < p.arity → ∃ c, next[off prev i + j]? = some c ∧ c.parentIdx = some i ∧
    (isD p.name = true → j = 1 → c.arity = 0 ∧ ctx.isDen c.name = true)

def Chain (ctx : Ctx) : Levels → Prop
  | [] => True
  | [l] => Ok1 ctx l ∧ ∀ n ∈ l, n.arity = 0
  | l :: l2 :: ls => Ok1 ctx l ∧ Ok2 ctx l l2 ∧ Chain ctx (l2 :: ls)

theorem Chain.ok1 {ctx : Ctx} {l : List Node} {ls : Levels} (h : Chain ctx (l :: ls)) : Ok1 ctx l := by
  cases ls with
  | nil => exact h.1
  | cons _ _ => exact h.1

/-! ## Decoding -/

theorem decode_ok (ctx : Ctx) (hc : ctx.Ok) : ∀ (ls : Levels) (l : List Node), Chain ctx (l :: ls) →
    ∀ i n, l[i]? = some n → ∃ e, decode (l :: ls) i = some e ∧ Legal ctx e ∧ e.root = n.sym ∧
      e.depth ≤ (l :: ls).length ∧ (n.arity = 0 → e = .leaf n.sym) := by
  intro ls
  induction ls with
  | nil =>
    intro l h i n hn
    have ha := h.2 n (List.mem_of_getElem? hn)
    refine ⟨.leaf n.sym, ?_, ?_, rfl, by simp [Expr.depth], fun _ => rfl⟩
    · unfold decode; rw [hn]; simp only [ha]
    · exact h.1.leaf i n hn ha
  | cons l2 ls ih =>
    intro l h i n hn
    obtain ⟨h1, h2, h3⟩ := h
    by_cases ha : n.arity = 0
    · refine ⟨.leaf n.sym, ?_, h1.leaf i n hn ha, rfl, by simp [Expr.depth], fun _ => rfl⟩
      unfold decode; rw [hn]; simp only [ha]
    · obtain ⟨ho, hst⟩ := h1.op i n hn (by omega)
      obtain ⟨c0, g0, _, _⟩ := h2.child i n 0 hn (by omega)
      obtain ⟨e0, d0, l0, r0, p0, f0⟩ := ih l2 h3 _ _ g0
      rcases hc.ops _ ho with h1a | h2a
      · refine ⟨.un n.sym e0, ?_, ⟨ho, h1a, l0⟩, rfl, ?_, fun h => absurd h ha⟩
        · have e : n.arity = 1 := h1a
          unfold decode; rw [hn]
          simp only [e, hst]
          have := d0; rw [Nat.add_zero] at this; rw [this]; rfl
        · simp only [Expr.depth, List.length_cons] at p0 ⊢; omega
      · have e : n.arity = 2 := h2a
        obtain ⟨c1, g1, _, q1⟩ := h2.child i n 1 hn (by omega)
        obtain ⟨e1, d1, l1, r1, p1, f1⟩ := ih l2 h3 _ _ g1
        refine ⟨.bin n.sym e0 e1, ?_, ⟨ho, h2a, l0, l1, ?_⟩, rfl, ?_, fun h => absurd h ha⟩
        · unfold decode; rw [hn]
          simp only [e, hst]
          have := d0; rw [Nat.add_zero] at this; rw [this, d1]
        · intro hd
          obtain ⟨z1, z2⟩ := q1 hd rfl
          exact ⟨c1.sym, f1 z1, z2⟩
        · simp only [Expr.depth, List.length_cons] at p0 p1 ⊢; omega

theorem decode_leaf_sym {ls : Levels} {l : List Node} {i : Nat} {n : Node} (hn : l[i]? = some n) (ha : n.arity = 0) :
    decode (l :: ls) i = some (.leaf n.sym) := by
  unfold decode; rw [hn]; simp only [ha]

theorem dfs_leaf {ls : Levels} {l : List Node} {i : Nat} {n : Node} (hn : l[i]? = some n) (ha : n.arity = 0) :
    dfs (l :: ls) i = some [n.name] := by
  unfold dfs; rw [hn]
  cases hs : n.childSt with
  | none => simp [hs]
  | some st => simp [hs, ha]

/-- `dfs` lists the names of the decoded expression in pre-order. -/
theorem dfs_decode (ctx : Ctx) (hc : ctx.Ok) : ∀ (ls : Levels) (l : List Node), Chain ctx (l :: ls) →
    ∀ i n e, l[i]? = some n → decode (l :: ls) i = some e → dfs (l :: ls) i = some e.preorder := by
  intro ls
  induction ls with
  | nil =>
    intro l h i n e hn he
    have ha := h.2 n (List.mem_of_getElem? hn)
    rw [decode_leaf_sym hn ha] at he
    simp at he; subst he
    rw [dfs_leaf hn ha]; rfl
  | cons l2 ls ih =>
    intro l h i n e hn he
    by_cases ha : n.arity = 0
    · rw [decode_leaf_sym hn ha] at he
      simp at he; subst he
      rw [dfs_leaf hn ha]; rfl
    · obtain ⟨h1, h2, h3⟩ := h
      obtain ⟨ho, hst⟩ := h1.op i n hn (by omega)
      obtain ⟨c0, g0, _, _⟩ := h2.child i n 0 hn (by omega)
      obtain ⟨e0, d0, _⟩ := decode_ok ctx hc ls l2 h3 _ _ g0
      have s0 := ih l2 h3 _ c0 e0 g0 d0
      rw [Nat.add_zero] at d0 s0
      rcases hc.ops _ ho with h1a | h2a
      · have e1 : n.arity = 1 := h1a
        have : decode (l :: l2 :: ls) i = some (.un n.sym e0) := by
          unfold decode; rw [hn]; simp only [e1, hst, d0]; rfl
        rw [this] at he; simp at he; subst he
        unfold dfs; rw [hn]
        have hr : List.range 1 = [0] := rfl
        simp [hst, e1, hr, s0, Expr.preorder, Node.name]
      · have e2 : n.arity = 2 := h2a
        obtain ⟨c1, g1, _, _⟩ := h2.child i n 1 hn (by omega)
        obtain ⟨e1, d1, _⟩ := decode_ok ctx hc ls l2 h3 _ _ g1
        have s1 := ih l2 h3 _ c1 e1 g1 d1
        have : decode (l :: l2 :: ls) i = some (.bin n.sym e0 e1) := by
          unfold decode; rw [hn]; simp only [e2, hst, d0, d1]
        rw [this] at he; simp at he; subst he
        unfold dfs; rw [hn]
        have hr : List.range 2 = [0, 1] := rfl
        simp [hst, e2, hr, s0, s1, Expr.preorder, Node.name]

/-! ## All expressions of a level at once -/

def buildNode (n : Node) (es : List Expr) : Expr :=
  match n.arity, es with
  | 1, a :: _ => .un n.sym a
  | 2, a :: b :: _ => .bin n.sym a b
  | _, _ => .leaf n.sym

/-- The expressions of a level from those of the next level. -/
def build : List Node → List Expr → List Expr
  | [], _ => []
  | n :: ns, es => buildNode n es :: build ns (es.drop n.arity)

theorem build_length (l : List Node) : ∀ es, (build l es).length = l.length := by
  induction l with
  | nil => intro es; rfl
  | cons n l ih => intro es; simp [build, ih]

theorem build_get (l : List Node) : ∀ es i n, l[i]? = some n → (build l es)[i]? = some (buildNode n (es.drop (off l i))) := by
  induction l with
  | nil => intro es i n h; simp at h
  | cons m l ih =>
    intro es i n h
    cases i with
    | zero => simp at h; subst h; simp [build, off, sumAr]
    | succ i =>
      simp at h
      simp only [build, List.getElem?_cons_succ]
      rw [ih _ _ _ h, List.drop_drop]
      simp [off, sumAr]

def sizes (es : List Expr) : Nat := (es.map Expr.size).sum

theorem build_size (l : List Node) : ∀ es, (∀ n ∈ l, n.arity ≤ 2) → es.length = sumAr l →
    sizes (build l es) = l.length + sizes es := by
  induction l with
  | nil =>
    intro es _ h
    simp [sumAr] at h; subst h; rfl
  | cons n l ih =>
    intro es ha h
    have h2 := ha n (by simp)
    simp only [sumAr] at h
    have hd : (es.drop n.arity).length = sumAr l := by simp; omega
    have := ih (es.drop n.arity) (fun m hm => ha m (by simp [hm])) hd
    simp only [build, sizes, List.map_cons, List.sum_cons, List.length_cons] at this ⊢
    have hcase : n.arity = 0 ∨ n.arity = 1 ∨ n.arity = 2 := by omega
    rcases hcase with h0 | h0 | h0
    · simp [buildNode, h0, Expr.size] at this ⊢; omega
    · match es, h with
      | a :: es, _ => simp [buildNode, h0, Expr.size] at this ⊢; omega
      | [], h => simp at h; omega
    · match es, h with
      | a :: b :: es, _ => simp [buildNode, h0, Expr.size] at this ⊢; omega
      | [_], h => simp at h; omega
      | [], h => simp at h; omega

/-- The expressions of all nodes of the first level. -/
def exprs : Levels → List Expr
  | [] => []
  | l :: ls => build l (exprs ls)

theorem Chain.arity_le {ctx : Ctx} (hc : ctx.Ok) {l : List Node} {ls : Levels} (h : Chain ctx (l :: ls)) :
    ∀ n ∈ l, n.arity ≤ 2 := by
  intro n hn
  obtain ⟨i, hi⟩ := List.getElem?_of_mem hn
  by_cases ha : n.arity = 0
  · omega
  · obtain ⟨ho, _⟩ := h.ok1.op i n hi (by omega)
    have : n.arity = n.sym.arity := rfl
    rcases hc.ops _ ho with h | h <;> omega

theorem exprs_length {l : List Node} {ls : Levels} : (exprs (l :: ls)).length = l.length := by
  simp [exprs, build_length]

theorem decode_exprs (ctx : Ctx) (hc : ctx.Ok) : ∀ (ls : Levels) (l : List Node), Chain ctx (l :: ls) →
    ∀ i, i < l.length → decode (l :: ls) i = (exprs (l :: ls))[i]? := by
  intro ls
  induction ls with
  | nil =>
    intro l h i hi
    have hn := List.getElem?_eq_getElem hi
    have ha := h.2 _ (List.getElem_mem hi)
    rw [decode_leaf_sym hn ha]
    simp only [exprs]
    rw [build_get l [] i _ hn]
    simp [buildNode]
  | cons l2 ls ih =>
    intro l h i hi
    obtain ⟨h1, h2, h3⟩ := h
    have hn := List.getElem?_eq_getElem hi
    generalize l[i] = n at hn
    rw [exprs, build_get l _ i n hn]
    by_cases ha : n.arity = 0
    · rw [decode_leaf_sym hn ha]; simp [buildNode, ha]
    · obtain ⟨ho, hst⟩ := h1.op i n hn (by omega)
      have key : ∀ j, j < n.arity → ∃ e, decode (l2 :: ls) (off l i + j) = some e ∧
          ((exprs (l2 :: ls)).drop (off l i))[j]? = some e := by
        intro j hj
        obtain ⟨c, g, _⟩ := h2.child i n j hn hj
        obtain ⟨e, d, _⟩ := decode_ok ctx hc ls l2 h3 _ _ g
        refine ⟨e, d, ?_⟩
        rw [List.getElem?_drop, ← ih l2 h3 _ (List.getElem?_eq_some_iff.1 g).1, d]
      rcases hc.ops _ ho with h1a | h2a
      · have e1 : n.arity = 1 := h1a
        obtain ⟨e0, d0, x0⟩ := key 0 (by omega)
        rw [Nat.add_zero] at d0
        have : decode (l :: l2 :: ls) i = some (.un n.sym e0) := by
          unfold decode; rw [hn]; simp only [e1, hst, d0]; rfl
        rw [this]
        generalize (exprs (l2 :: ls)).drop (off l i) = es at x0
        match es, x0 with
        | a :: es, x0 => simp at x0; subst x0; simp [buildNode, e1]
      · have e2 : n.arity = 2 := h2a
        obtain ⟨e0, d0, x0⟩ := key 0 (by omega)
        obtain ⟨e1, d1, x1⟩ := key 1 (by omega)
        rw [Nat.add_zero] at d0
        have : decode (l :: l2 :: ls) i = some (.bin n.sym e0 e1) := by
          unfold decode; rw [hn]; simp only [e2, hst, d0, d1]
        rw [this]
        generalize (exprs (l2 :: ls)).drop (off l i) = es at x0 x1
        match es, x0, x1 with
        | a :: b :: es, x0, x1 => simp at x0 x1; subst x0; subst x1; simp [buildNode, e2]
        | [a], _, x1 => simp at x1

theorem exprs_size (ctx : Ctx) (hc : ctx.Ok) : ∀ (ls : Levels) (l : List Node), Chain ctx (l :: ls) →
    sizes (exprs (l :: ls)) = ((l :: ls).map List.length).sum := by
  intro ls
  induction ls with
  | nil =>
    intro l h
    simp only [exprs]
    have hz : sumAr l = 0 := by
      have := h.2
      clear h
      induction l with
      | nil => rfl
      | cons n l ih => simp [sumAr, this n (by simp), ih (fun m hm => this m (by simp [hm]))]
    rw [build_size l [] (h.arity_le hc) (by simp [hz])]
    simp [sizes]
  | cons l2 ls ih =>
    intro l h
    have ha := h.arity_le hc
    obtain ⟨h1, h2, h3⟩ := h
    rw [exprs, build_size l _ ha (by rw [exprs_length, h2.len]), ih l2 h3]
    simp

/-! ## The printed form -/

def initM (n : Node) : MNode := ⟨n.name, n.arity, n.arity, n.parentIdx⟩
def finalM (n : Node) (e : Expr) : MNode := ⟨e.shown, 0, n.arity, n.parentIdx⟩

theorem modify_mid (done rest : List MNode) (x : MNode) (f : MNode → MNode) :
    (done ++ x :: rest).modify done.length f = done ++ f x :: rest := by
  induction done with
  | nil => simp
  | cons d ds ih => simp [ih]

theorem merge_fold : ∀ (l : List Node) (done : List MNode) (es : List Expr) (kids : List MNode),
    (∀ n ∈ l, n.arity ≤ 2) → es.length = sumAr l → kids.length = sumAr l →
    (∀ (k i : Nat) (p : Node) (j : Nat), (slotsFrom done.length l)[k]? = some (i, p, j) →
      ∃ (m : MNode) (e : Expr), kids[k]? = some m ∧ es[k]? = some e ∧ m.name = e.shown ∧ m.status = 0 ∧ m.parentIdx = some i) →
    kids.foldl mergeInto (done ++ l.map initM) = done ++ List.zipWith finalM l (build l es) := by
  intro l
  induction l with
  | nil =>
    intro done es kids _ he hk _
    simp [sumAr] at hk; subst hk
    simp
  | cons n l ih =>
    intro done es kids ha he hk hs
    have h2 := ha n (by simp)
    have ha' : ∀ m ∈ l, m.arity ≤ 2 := fun m hm => ha m (by simp [hm])
    simp only [sumAr] at he hk
    have hlen : (done ++ [finalM n (buildNode n es)]).length = done.length + 1 := by simp
    have hcase : n.arity = 0 ∨ n.arity = 1 ∨ n.arity = 2 := by omega
    have shift : ∀ k i p j, (slotsFrom (done.length + 1) l)[k]? = some (i, p, j) →
        (slotsFrom done.length (n :: l))[n.arity + k]? = some (i, p, j) := by
      intro k i p j h
      unfold slotsFrom
      rw [List.getElem?_append_right (by simp)]
      simpa using h
    rcases hcase with h0 | h0 | h0
    · have := ih (done ++ [finalM n (buildNode n es)]) es kids ha' (by omega) (by omega) (by
        rw [hlen]
        intro k i p j h
        have := hs _ _ _ _ (shift _ _ _ _ h)
        simpa [h0] using this)
      have hinit : initM n = finalM n (buildNode n es) := by
        simp [initM, finalM, buildNode, h0, Expr.shown, Node.name]
      simp only [List.map_cons, build, h0, List.drop_zero, List.zipWith_cons_cons]
      rw [hinit]
      simpa using this
    · match es, kids, he, hk with
      | e0 :: es, k0 :: kids, he, hk =>
        obtain ⟨m, e, g1, g2, g3, g4, g5⟩ := hs 0 done.length n 0 (by
          unfold slotsFrom
          rw [List.getElem?_append_left (by simp [h0])]
          simp [h0])
        simp at g1 g2; subst g1; subst g2
        have := ih (done ++ [finalM n (.un n.sym e0)]) es kids ha' (by simp at he; omega) (by simp at hk; omega) (by
          intro k i p j h
          have := hs _ _ _ _ (shift k i p j (by simpa using h))
          simpa [h0, Nat.add_comm 1 k] using this)
        simp only [List.map_cons, List.foldl_cons]
        have hm : mergeInto (done ++ initM n :: l.map initM) k0 = (done ++ [finalM n (.un n.sym e0)]) ++ l.map initM := by
          unfold mergeInto
          rw [if_pos g4, g5]
          simp only
          rw [modify_mid]
          simp [initM, finalM, h0, g3, Expr.shown, Node.name]
        rw [hm, this]
        simp [build, buildNode, h0]
      | [], _, he, _ => simp at he; omega
      | _ :: _, [], _, hk => simp at hk; omega
    · match es, kids, he, hk with
      | e0 :: e1 :: es, k0 :: k1 :: kids, he, hk =>
        obtain ⟨m, e, g1, g2, g3, g4, g5⟩ := hs 0 done.length n 0 (by
          unfold slotsFrom
          rw [List.getElem?_append_left (by simp [h0])]
          simp [h0])
        simp at g1 g2; subst g1; subst g2
        obtain ⟨m, e, r1, r2, r3, r4, r5⟩ := hs 1 done.length n 1 (by
          unfold slotsFrom
          rw [List.getElem?_append_left (by simp [h0])]
          simp [h0])
        simp at r1 r2; subst r1; subst r2
        have := ih (done ++ [finalM n (.bin n.sym e0 e1)]) es kids ha' (by simp at he; omega) (by simp at hk; omega) (by
          intro k i p j h
          have := hs _ _ _ _ (shift k i p j (by simpa using h))
          simpa [h0, Nat.add_comm 2 k] using this)
        simp only [List.map_cons, List.foldl_cons]
        have hm : mergeInto (mergeInto (done ++ initM n :: l.map initM) k0) k1 =
            (done ++ [finalM n (.bin n.sym e0 e1)]) ++ l.map initM := by
          have a1 : mergeInto (done ++ initM n :: l.map initM) k0 =
              done ++ ⟨"(" ++ e0.shown ++ " " ++ n.name, 1, n.arity, n.parentIdx⟩ :: l.map initM := by
            unfold mergeInto
            rw [if_pos g4, g5]
            simp only
            rw [modify_mid]
            simp [initM, h0, g3]
          rw [a1]
          unfold mergeInto
          rw [if_pos r4, r5]
          simp only
          rw [modify_mid]
          simp [finalM, h0, r3, Expr.shown, Node.name, String.append_assoc]
        rw [hm, this]
        simp [build, buildNode, h0]
      | [], _, he, _ => simp at he; omega
      | [_], _, he, _ => simp at he; omega
      | _ :: _ :: _, [], _, hk => simp at hk; omega
      | _ :: _ :: _, [_], _, hk => simp at hk; omega

theorem mergeUp_eq (ctx : Ctx) (hc : ctx.Ok) : ∀ (ls : Levels) (l : List Node), Chain ctx (l :: ls) →
    mergeUp (l :: ls) = List.zipWith finalM l (exprs (l :: ls)) := by
  intro ls
  induction ls with
  | nil =>
    intro l h
    simp only [mergeUp, List.foldl_nil, exprs]
    have := h.2
    clear h
    induction l with
    | nil => rfl
    | cons n l ih =>
      have h0 := this n (by simp)
      simp only [List.map_cons, build, List.zipWith_cons_cons]
      rw [ih (fun m hm => this m (by simp [hm]))]
      simp [finalM, buildNode, h0, Expr.shown, Node.name]
  | cons l2 ls ih =>
    intro l h
    have ha := h.arity_le hc
    obtain ⟨h1, h2, h3⟩ := h
    rw [mergeUp, ih l2 h3]
    have hlen := exprs_length (l := l2) (ls := ls)
    have := merge_fold l [] (exprs (l2 :: ls)) (List.zipWith finalM l2 (exprs (l2 :: ls))) ha
      (by rw [hlen, h2.len]) (by simp [hlen, h2.len]) (by
        intro k i p j hk
        obtain ⟨g1, g2, g3⟩ := slots_inv hk
        obtain ⟨c, e1, e2, _⟩ := h2.child i p j g1 g2
        have hkl := (List.getElem?_eq_some_iff.1 e1).1
        have hk2 : k < (exprs (l2 :: ls)).length := by rw [hlen, g3]; exact hkl
        refine ⟨finalM c (exprs (l2 :: ls))[k], (exprs (l2 :: ls))[k], ?_, List.getElem?_eq_getElem hk2, rfl, rfl, e2⟩
        subst g3
        rw [List.getElem?_zipWith, e1, List.getElem?_eq_getElem hk2])
    have hi : (fun n : Node => (⟨n.name, n.arity, n.arity, n.parentIdx⟩ : MNode)) = initM := rfl
    rw [hi]
    simpa [exprs] using this

theorem inorder_eq (ctx : Ctx) (hc : ctx.Ok) (n : Node) (ls : Levels) (h : Chain ctx ([n] :: ls)) (e : Expr)
    (he : decode ([n] :: ls) 0 = some e) : inorder ([n] :: ls) = some e.shown := by
  rw [decode_exprs ctx hc ls [n] h 0 (by simp)] at he
  unfold inorder
  rw [mergeUp_eq ctx hc ls [n] h]
  have hl := exprs_length (l := [n]) (ls := ls)
  match hx : exprs ([n] :: ls), hl with
  | [a], _ => rw [hx] at he; simp at he; subst he; simp [finalM]

end Verif.Sga
