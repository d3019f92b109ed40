import Verif.Sga.TreeLemmas
/-!
# Generation and mutation keep the level tables well-formed (helper lemmas)
-/
namespace Verif.Sga

/-- The draws come from the tables of the context. -/
structure GenDraw.From (ctx : Ctx) (d : GenDraw) : Prop where
  den : d.den ∈ ctx.den
  var : d.var ∈ ctx.VARS
  op : d.op ∈ ctx.OPS

/-- What one produced child satisfies. -/
structure GenChild (ctx : Ctx) (bottom : Bool) (i : Nat) (p : Node) (j : Nat) (start : Nat) (c : Node) : Prop where
  parent : c.parentIdx = some i
  d : isD p.name = true → j = 1 → c.arity = 0 ∧ ctx.isDen c.name = true
  leaf : c.arity = 0 → c.sym ∈ ctx.VARS ∨ c.sym ∈ ctx.den
  op : 0 < c.arity → c.sym ∈ ctx.OPS ∧ c.childSt = some start
  bot : bottom = true → c.arity = 0

theorem isDen_of_mem {ctx : Ctx} {e : Entry} (h : e ∈ ctx.den) : ctx.isDen e.name = true := by
  unfold Ctx.isDen
  simp only [List.any_eq_true]
  exact ⟨e, h, by simp⟩

theorem genLevel_spec (ctx : Ctx) (hc : ctx.Ok) (bottom : Bool) (dr : Nat → GenDraw) (hd : ∀ k, (dr k).From ctx) :
    ∀ (ss : List (Nat × Node × Nat)) (k next : Nat),
      (genLevel bottom dr ss k next).length = ss.length ∧
      ∀ (m i : Nat) (p : Node) (j : Nat), ss[m]? = some (i, p, j) →
        ∃ c, (genLevel bottom dr ss k next)[m]? = some c ∧
          GenChild ctx bottom i p j (next + sumAr ((genLevel bottom dr ss k next).take m)) c := by
  intro ss
  induction ss with
  | nil => intro k next; simp [genLevel]
  | cons s ss ih =>
    intro k next
    obtain ⟨i, p, j⟩ := s
    -- a generic step
    have step : ∀ (c : Node) (next' : Nat), next' = next + c.arity → GenChild ctx bottom i p j next c →
        (c :: genLevel bottom dr ss (k + 1) next').length = ss.length + 1 ∧
        ∀ (m i' : Nat) (p' : Node) (j' : Nat), ((i, p, j) :: ss)[m]? = some (i', p', j') →
          ∃ c', (c :: genLevel bottom dr ss (k + 1) next')[m]? = some c' ∧
            GenChild ctx bottom i' p' j' (next + sumAr ((c :: genLevel bottom dr ss (k + 1) next').take m)) c' := by
      intro c next' hn hg
      obtain ⟨h1, h2⟩ := ih (k + 1) next'
      refine ⟨by simp [h1], ?_⟩
      intro m i' p' j' hm
      cases m with
      | zero =>
        simp at hm
        obtain ⟨rfl, rfl, rfl⟩ := hm
        exact ⟨c, by simp, by simpa [sumAr] using hg⟩
      | succ m =>
        simp at hm
        obtain ⟨c', e1, e2⟩ := h2 m i' p' j' hm
        refine ⟨c', by simpa using e1, ?_⟩
        simp only [List.take_succ_cons, sumAr]
        rw [← Nat.add_assoc, ← hn]
        exact e2
    have hf := hd k
    have zden : (⟨(dr k).den, none, some i⟩ : Node).arity = 0 := hc.den _ hf.den
    have zvar : (⟨(dr k).var, none, some i⟩ : Node).arity = 0 := hc.vars _ hf.var
    have gvar : (isD p.name && j == 1) = false → GenChild ctx bottom i p j next ⟨(dr k).var, none, some i⟩ := by
      intro hnd
      refine ⟨rfl, ?_, fun _ => Or.inl hf.var, fun h => by omega, fun _ => zvar⟩
      intro h1 h2
      simp [h1, h2] at hnd
    simp only [genLevel]
    by_cases h1 : (isD p.name && j == 1) = true
    · simp only [h1, if_true]
      exact step _ next (by rw [zden]; rfl)
        ⟨rfl, fun _ _ => ⟨zden, isDen_of_mem hf.den⟩, fun _ => Or.inr hf.den, fun h => by omega, fun _ => zden⟩
    · have h1' : (isD p.name && j == 1) = false := by simpa using h1
      simp only [h1', Bool.false_eq_true, if_false]
      by_cases h2 : bottom = true
      · simp only [h2, if_true] at *
        exact step _ next (by rw [zvar]; rfl) (gvar h1')
      · have h2' : bottom = false := by simpa using h2
        subst h2'
        simp only [Bool.false_eq_true, if_false]
        by_cases h3 : (dr k).coin = true
        · simp only [h3, if_true]
          exact step _ next (by rw [zvar]; rfl) (gvar h1')
        · simp only [h3]
          refine step _ (next + (dr k).op.arity) rfl ⟨rfl, ?_, ?_, fun _ => ⟨hf.op, rfl⟩, by simp⟩
          · intro a b; simp [a, b] at h1
          · intro h
            have : (dr k).op.arity = 0 := h
            rcases hc.ops _ hf.op with h | h <;> omega

/-- Every node of a level made from `slots prev` occupies a slot. -/
theorem slot_exists {prev : List Node} {m : Nat} (h : m < (slots prev).length) :
    ∃ i p j, (slots prev)[m]? = some (i, p, j) := by
  have := List.getElem?_eq_getElem h
  exact ⟨_, _, _, this⟩

theorem genLevel_ok (ctx : Ctx) (hc : ctx.Ok) (bottom : Bool) (dr : Nat → GenDraw) (hd : ∀ k, (dr k).From ctx)
    (prev : List Node) :
    Ok1 ctx (genLevel bottom dr (slots prev) 0 0) ∧ Ok2 ctx prev (genLevel bottom dr (slots prev) 0 0) ∧
      (bottom = true → ∀ n ∈ genLevel bottom dr (slots prev) 0 0, n.arity = 0) := by
  obtain ⟨h1, h2⟩ := genLevel_spec ctx hc bottom dr hd (slots prev) 0 0
  have back : ∀ (m : Nat) (n : Node), (genLevel bottom dr (slots prev) 0 0)[m]? = some n → ∃ i p j,
      GenChild ctx bottom i p j (off (genLevel bottom dr (slots prev) 0 0) m) n := by
    intro m n hn
    have hm := (List.getElem?_eq_some_iff.1 hn).1
    rw [h1] at hm
    obtain ⟨i, p, j, hs⟩ := slot_exists hm
    obtain ⟨c, e1, e2⟩ := h2 m i p j hs
    rw [hn] at e1; simp at e1; subst e1
    refine ⟨i, p, j, ?_⟩
    simpa [off] using e2
  refine ⟨⟨?_, ?_⟩, ⟨by rw [h1, slots_length], ?_⟩, ?_⟩
  · intro m n hn h0
    obtain ⟨i, p, j, g⟩ := back m n hn
    exact g.leaf h0
  · intro m n hn h0
    obtain ⟨i, p, j, g⟩ := back m n hn
    exact g.op h0
  · intro i p j hi hj
    obtain ⟨c, e1, e2⟩ := h2 _ i p j (slots_get hi hj)
    exact ⟨c, e1, e2.parent, e2.d⟩
  · intro hb n hn
    obtain ⟨m, hm⟩ := List.getElem?_of_mem hn
    obtain ⟨i, p, j, g⟩ := back m n hm
    exact g.bot hb

theorem genRest_chain (ctx : Ctx) (hc : ctx.Ok) (dr : Nat → Nat → GenDraw) (hd : ∀ d k, (dr d k).From ctx) :
    ∀ (n depth : Nat) (prev : List Node), Ok1 ctx prev → (n = 0 → ∀ x ∈ prev, x.arity = 0) →
      Chain ctx (prev :: genRest dr n depth prev) := by
  intro n
  induction n with
  | zero => intro depth prev h1 h2; exact ⟨h1, h2 rfl⟩
  | succ n ih =>
    intro depth prev h1 _
    obtain ⟨a, b, c⟩ := genLevel_ok ctx hc (n == 0) (dr depth) (hd depth) prev
    refine ⟨h1, b, ih _ _ a ?_⟩
    intro h0; exact c (by simp [h0])

theorem genRest_length (dr : Nat → Nat → GenDraw) : ∀ n depth prev, (genRest dr n depth prev).length = n := by
  intro n
  induction n with
  | zero => intros; rfl
  | succ n ih => intro d p; simp [genRest, ih]

theorem root_ok1 (ctx : Ctx) (hc : ctx.Ok) (root : Entry) (hr : root ∈ ctx.ROOT) : Ok1 ctx [⟨root, some 0, none⟩] := by
  have ho := hc.root _ hr
  constructor
  · intro i n hn h0
    cases i with
    | zero =>
      simp at hn; subst hn
      have : root.arity = 0 := h0
      rcases hc.ops _ ho with h | h <;> omega
    | succ i => simp at hn
  · intro i n hn _
    cases i with
    | zero => simp at hn; subst hn; exact ⟨ho, by simp [off, sumAr]⟩
    | succ i => simp at hn

theorem genTree_chain (ctx : Ctx) (hc : ctx.Ok) (maxDepth : Nat) (hm : 2 ≤ maxDepth) (root : Entry)
    (hr : root ∈ ctx.ROOT) (dr : Nat → Nat → GenDraw) (hd : ∀ d k, (dr d k).From ctx) :
    Chain ctx (genTree maxDepth root dr) := by
  unfold genTree
  refine genRest_chain ctx hc dr hd _ _ _ (root_ok1 ctx hc root hr) ?_
  intro h; omega

/-! ## Mutation -/

/-- The draws come from the tables of the context. -/
structure MutDraw.From (ctx : Ctx) (d : MutDraw) : Prop where
  vars : ∀ e ∈ d.vars, e ∈ ctx.VARS
  op1 : ∀ e ∈ d.op1, e ∈ ctx.OP1
  op2 : ∀ e ∈ d.op2, e ∈ ctx.OP2

/-- What is known about a node of the level being mutated. `start` is where its children begin. -/
structure MutNode (ctx : Ctx) (below : List Node) (i : Nat) (p : Node) (j : Nat) (start : Nat) (c : Node) : Prop where
  parent : c.parentIdx = some i
  d : isD p.name = true → j = 1 → c.arity = 0 ∧ ctx.isDen c.name = true
  leaf : c.arity = 0 → c.sym ∈ ctx.VARS ∨ c.sym ∈ ctx.den
  op : 0 < c.arity → c.sym ∈ ctx.OPS ∧ c.childSt = some start
  right : c.arity = 2 → ∃ r, below[start + 1]? = some r ∧ (isD c.name = true → r.arity = 0 ∧ ctx.isDen r.name = true)

/-- The context accepts `x` as a denominator whenever the variable table offers an `x`. -/
def Ctx.XDen (ctx : Ctx) : Prop := ∀ e ∈ ctx.VARS, e.name = "x" → ctx.isDen "x" = true

theorem set_mid (done todo : List Node) (x y : Node) : (done ++ x :: todo).set done.length y = done ++ y :: todo := by
  induction done with
  | nil => simp
  | cons d ds ih => simp [ih]

theorem getElem?_mid (done todo : List Node) (x : Node) : (done ++ x :: todo)[done.length]? = some x := by simp


theorem mutLevel_spec (ctx : Ctx) (hc : ctx.Ok) (hx : ctx.XDen) (dr : Nat → MutDraw) (hd : ∀ k, (dr k).From ctx)
    (below : List Node) (hb : ∀ r ∈ below, ctx.isDen r.name = true → r.arity = 0) :
    ∀ (ss : List (Nat × Node × Nat)) (done todo : List Node),
      ss.length = todo.length →
      (∀ (m i : Nat) (p : Node) (j : Nat), ss[m]? = some (i, p, j) → ∃ st, p.childSt = some st ∧ st + j = done.length + m) →
      (∀ (m i : Nat) (p : Node) (j : Nat) (c : Node), ss[m]? = some (i, p, j) → todo[m]? = some c →
        MutNode ctx below i p j (sumAr done + sumAr (todo.take m)) c) →
      mutLevel ctx dr below ss done.length (sumAr done) (done ++ todo) ≠ .error .raised ∧
      ∀ cur', mutLevel ctx dr below ss done.length (sumAr done) (done ++ todo) = .ok cur' →
        ∃ todo', cur' = done ++ todo' ∧ todo'.map Node.arity = todo.map Node.arity ∧
          ∀ (m i : Nat) (p : Node) (j : Nat) (c : Node), ss[m]? = some (i, p, j) → todo'[m]? = some c →
            MutNode ctx below i p j (sumAr done + sumAr (todo'.take m)) c := by
  intro ss
  induction ss with
  | nil =>
    intro done todo hl _ _
    have : todo = [] := by
      cases todo with
      | nil => rfl
      | cons _ _ => simp at hl
    subst this
    refine ⟨by simp [mutLevel], ?_⟩
    intro cur' h
    simp [mutLevel] at h
    exact ⟨[], by simp [h], rfl, by intro m i p j c h; simp at h⟩
  | cons s ss ih =>
    intro done todo hl hst hn
    obtain ⟨i, p, j⟩ := s
    match todo, hl with
    | c :: todo, hl =>
      simp at hl
      obtain ⟨st, g1, g2⟩ := hst 0 i p j rfl
      simp at g2
      have hcur : (done ++ c :: todo)[st + j]? = some c := by rw [g2]; simp
      have hc0 : MutNode ctx below i p j (sumAr done) c := by
        have := hn 0 i p j c rfl rfl
        simpa [sumAr] using this
      -- the recursive call after replacing `c` by `c1`
      have step : ∀ c1 : Node, c1.arity = c.arity → MutNode ctx below i p j (sumAr done) c1 →
          mutLevel ctx dr below ss (done.length + 1) (sumAr done + c1.arity) (done ++ c1 :: todo) ≠ .error .raised ∧
          ∀ cur', mutLevel ctx dr below ss (done.length + 1) (sumAr done + c1.arity) (done ++ c1 :: todo) = .ok cur' →
            ∃ todo', cur' = done ++ todo' ∧ todo'.map Node.arity = (c :: todo).map Node.arity ∧
              ∀ (m i' : Nat) (p' : Node) (j' : Nat) (c' : Node), ((i, p, j) :: ss)[m]? = some (i', p', j') →
                todo'[m]? = some c' → MutNode ctx below i' p' j' (sumAr done + sumAr (todo'.take m)) c' := by
        intro c1 ha hm1
        have hsum : sumAr (done ++ [c1]) = sumAr done + c1.arity := by simp [sumAr_append, sumAr]
        have := ih (done ++ [c1]) todo hl (by
            intro m i' p' j' hm
            obtain ⟨st', a, b⟩ := hst (m + 1) i' p' j' (by simpa using hm)
            exact ⟨st', a, by simp; omega⟩) (by
            intro m i' p' j' c' hm hc'
            have := hn (m + 1) i' p' j' c' (by simpa using hm) (by simpa using hc')
            rw [hsum, ha]
            simpa [sumAr, Nat.add_assoc] using this)
        rw [hsum] at this
        simp only [List.length_append, List.length_cons, List.length_nil, Nat.zero_add, List.append_assoc,
          List.cons_append, List.nil_append] at this
        refine ⟨this.1, ?_⟩
        intro cur' he
        obtain ⟨todo', e1, e2, e3⟩ := this.2 cur' he
        refine ⟨c1 :: todo', e1, by simp [ha, e2], ?_⟩
        intro m i' p' j' c' hm hc'
        cases m with
        | zero =>
          simp at hm hc'
          obtain ⟨rfl, rfl, rfl⟩ := hm
          subst hc'
          simpa [sumAr] using hm1
        | succ m =>
          simp at hm hc'
          have := e3 m i' p' j' c' hm hc'
          simpa [sumAr, Nat.add_assoc] using this
      have hset : ∀ y, (done ++ c :: todo).set (st + j) y = done ++ y :: todo := by
        intro y; rw [g2]; exact set_mid done todo c y
      simp only [mutLevel, g1, hcur]
      have hf := hd done.length
      by_cases hmu : (dr done.length).mute = true
      · simp only [hmu, Bool.not_true, Bool.false_eq_true, if_false, hset]
        by_cases h0 : c.arity = 0
        · simp only [h0, if_true]
          cases hfi : (dr done.length).vars.find? (leafExit ctx p.name c.name) with
          | none => simp
          | some e =>
            simp only
            have hmem := hf.vars e (List.mem_of_find?_eq_some hfi)
            have hex := List.find?_some hfi
            have za : (⟨e, none, some i⟩ : Node).arity = 0 := hc.vars _ hmem
            have := step ⟨e, none, some i⟩ (by rw [za, h0]) ⟨rfl, ?_, fun _ => Or.inl hmem, fun h => by omega, fun h => by omega⟩
            · rw [za] at this; simpa using this
            · intro hp _
              refine ⟨za, ?_⟩
              simp only [leafExit, hp, Bool.true_and, Bool.and_true] at hex
              simp only [Bool.or_eq_true, Bool.not_eq_true', Bool.or_eq_false_iff, Bool.not_eq_false'] at hex
              rcases hex with h | h
              · exact h.2
              · simp at h
                have := hx e hmem h.2
                simp only [Node.name, h.2]; exact this
        · simp only [h0, if_false]
          by_cases h1 : c.arity = 1
          · simp only [h1, if_true]
            cases hfi : (dr done.length).op1.find? (fun e => !(e.name == c.name)) with
            | none => simp
            | some e =>
              simp only
              obtain ⟨a1, a2⟩ := hc.op1 e (hf.op1 e (List.mem_of_find?_eq_some hfi))
              have ea : (⟨e, some (sumAr done), some i⟩ : Node).arity = 1 := a2
              have := step ⟨e, some (sumAr done), some i⟩ (by rw [ea, h1])
                ⟨rfl, ?_, fun h => by omega, fun _ => ⟨a1, rfl⟩, fun h => by omega⟩
              · rw [ea] at this; rw [a2]; exact this
              · intro hp hj
                have := (hc0.d hp hj).1
                omega
          · simp only [h1, if_false]
            by_cases h2 : c.arity = 2
            · obtain ⟨r, r1, r2⟩ := hc0.right h2
              have hcs := (hc0.op (by omega)).2
              simp only [h2, if_true, hcs, Option.bind_some, r1]
              cases hfi : (dr done.length).op2.find? (op2Exit ctx c.name r.name) with
              | none => simp
              | some e =>
                simp only
                obtain ⟨a1, a2⟩ := hc.op2 e (hf.op2 e (List.mem_of_find?_eq_some hfi))
                have hex := List.find?_some hfi
                have ea : (⟨e, some (sumAr done), some i⟩ : Node).arity = 2 := a2
                have := step ⟨e, some (sumAr done), some i⟩ (by rw [ea, h2])
                  ⟨rfl, ?_, fun h => by omega, fun _ => ⟨a1, rfl⟩, fun _ => ⟨r, r1, ?_⟩⟩
                · rw [ea] at this; rw [a2]; exact this
                · intro hp hj
                  have := (hc0.d hp hj).1
                  omega
                · intro hde
                  have hde' : isD e.name = true := hde
                  simp only [op2Exit, hde', Bool.true_and] at hex
                  simp only [Bool.not_eq_true', Bool.or_eq_false_iff, Bool.not_eq_false'] at hex
                  exact ⟨hb r (List.mem_of_getElem? r1) hex.2, hex.2⟩
            · exfalso
              have := (hc0.op (by omega)).1
              have e : c.arity = c.sym.arity := rfl
              rcases hc.ops _ this with h | h <;> omega
      · have hmu' : (dr done.length).mute = false := by simpa using hmu
        simp only [hmu', Bool.not_false, if_true]
        exact step c rfl hc0

/-! ### A whole level and all levels -/

theorem sumAr_congr : ∀ {a b : List Node}, a.map Node.arity = b.map Node.arity → sumAr a = sumAr b := by
  intro a
  induction a with
  | nil => intro b h; simp at h; subst h; rfl
  | cons x a ih =>
    intro b h
    match b, h with
    | y :: b, h =>
      simp at h
      simp [sumAr, h.1, ih (by simpa using h.2)]

theorem off_congr {a b : List Node} (h : a.map Node.arity = b.map Node.arity) (i : Nat) : off a i = off b i := by
  unfold off
  apply sumAr_congr
  rw [List.map_take, List.map_take, h]

/-- The level below, or the empty list for the bottom level. -/
def belowOf (ls : Levels) : List Node := ls.headD []

theorem Chain.below_den {ctx : Ctx} (hc : ctx.Ok) {l : List Node} {ls : Levels} (h : Chain ctx (l :: ls)) :
    ∀ r ∈ belowOf ls, ctx.isDen r.name = true → r.arity = 0 := by
  intro r hr hd
  match ls, h with
  | [], _ => simp [belowOf] at hr
  | l2 :: ls, h =>
    simp [belowOf] at hr
    obtain ⟨m, hm⟩ := List.getElem?_of_mem hr
    by_cases h0 : r.arity = 0
    · exact h0
    · obtain ⟨ho, _⟩ := h.2.2.ok1.op m r hm (by omega)
      have := hc.opNotDen _ ho
      rw [show ctx.isDen r.sym.name = ctx.isDen r.name from rfl] at this
      rw [this] at hd; simp at hd

/-- What `Chain` says about a node of a level with the level above. -/
theorem Chain.mutNode {ctx : Ctx} {prev cur : List Node} {ls : Levels} (h2 : Ok2 ctx prev cur)
    (h3 : Chain ctx (cur :: ls)) {m i j : Nat} {p c : Node} (hs : (slots prev)[m]? = some (i, p, j))
    (hm : cur[m]? = some c) : MutNode ctx (belowOf ls) i p j (off cur m) c := by
  obtain ⟨g1, g2, g3⟩ := slots_inv hs
  obtain ⟨c', e1, e2, e3⟩ := h2.child i p j g1 g2
  rw [← g3, hm] at e1; simp at e1; subst e1
  refine ⟨e2, e3, fun h => h3.ok1.leaf m c hm h, fun h => h3.ok1.op m c hm h, ?_⟩
  intro ha
  match ls, h3 with
  | [], h3 =>
    have := h3.2 c (List.mem_of_getElem? hm)
    omega
  | l2 :: ls, h3 =>
    obtain ⟨r, r1, _, r3⟩ := h3.2.1.child m c 1 hm (by omega)
    exact ⟨r, by simpa [belowOf] using r1, fun hd => r3 hd rfl⟩

theorem mutLevel_chain (ctx : Ctx) (hc : ctx.Ok) (hx : ctx.XDen) (dr : Nat → MutDraw) (hd : ∀ k, (dr k).From ctx)
    (prev cur : List Node) (ls : Levels) (h1 : Ok1 ctx prev) (h2 : Ok2 ctx prev cur) (h3 : Chain ctx (cur :: ls)) :
    mutLevel ctx dr (belowOf ls) (slots prev) 0 0 cur ≠ .error .raised ∧
    ∀ cur', mutLevel ctx dr (belowOf ls) (slots prev) 0 0 cur = .ok cur' →
      cur'.map Node.arity = cur.map Node.arity ∧ Ok2 ctx prev cur' ∧ Chain ctx (cur' :: ls) := by
  have hlen : (slots prev).length = cur.length := by rw [slots_length, h2.len]
  have := mutLevel_spec ctx hc hx dr hd (belowOf ls) (h3.below_den hc) (slots prev) [] cur hlen
    (by
      intro m i p j hs
      obtain ⟨g1, g2, g3⟩ := slots_inv hs
      exact ⟨off prev i, (h1.op i p g1 (by omega)).2, by simp [g3]⟩)
    (by
      intro m i p j c hs hm
      have := h3.mutNode h2 hs hm
      simpa [off, sumAr] using this)
  simp only [List.length_nil, List.nil_append, sumAr] at this
  refine ⟨this.1, ?_⟩
  intro cur' he
  obtain ⟨_, rfl, e2, e3⟩ := this.2 cur' he
  have hl' : cur'.length = cur.length := by
    have := congrArg List.length e2
    simpa using this
  have back : ∀ (m : Nat) (n : Node), cur'[m]? = some n → ∃ i p j, MutNode ctx (belowOf ls) i p j (off cur' m) n := by
    intro m n hn
    have hm := (List.getElem?_eq_some_iff.1 hn).1
    obtain ⟨i, p, j, hs⟩ := slot_exists (prev := prev) (m := m) (by omega)
    exact ⟨i, p, j, by simpa [off] using e3 m i p j n hs hn⟩
  have hok1 : Ok1 ctx cur' := by
    constructor
    · intro m n hn h0
      obtain ⟨i, p, j, g⟩ := back m n hn
      exact g.leaf h0
    · intro m n hn h0
      obtain ⟨i, p, j, g⟩ := back m n hn
      exact g.op h0
  refine ⟨e2, ⟨by rw [hl', h2.len], ?_⟩, ?_⟩
  · intro i p j hi hj
    have hs := slots_get hi hj
    obtain ⟨c0, q1, _⟩ := h2.child i p j hi hj
    have hlt : off prev i + j < cur'.length := by
      rw [hl']; exact (List.getElem?_eq_some_iff.1 q1).1
    have hg := List.getElem?_eq_getElem hlt
    have g := e3 _ i p j _ hs hg
    exact ⟨_, hg, g.parent, g.d⟩
  · match ls, h3, back with
    | [], h3, _ =>
      refine ⟨hok1, ?_⟩
      intro n hn
      have hmem : n.arity ∈ cur'.map Node.arity := List.mem_map_of_mem hn
      rw [e2] at hmem
      simp only [List.mem_map] at hmem
      obtain ⟨c, hc1, hc2⟩ := hmem
      rw [← hc2]; exact h3.2 c hc1
    | l2 :: ls, h3, back =>
      refine ⟨hok1, ⟨by rw [h3.2.1.len]; exact (sumAr_congr e2).symm, ?_⟩, h3.2.2⟩
      intro m n j hn hj
      have hm := (List.getElem?_eq_some_iff.1 hn).1
      have hm' : m < cur.length := by omega
      have hcm := List.getElem?_eq_getElem hm'
      have har : n.arity = cur[m].arity := by
        have a : (cur'.map Node.arity)[m]? = some n.arity := by simp [hn]
        rw [e2] at a
        simp [hcm] at a
        exact a.symm
      obtain ⟨r, r1, r2, r3⟩ := h3.2.1.child m cur[m] j hcm (by omega)
      rw [off_congr e2]
      refine ⟨r, r1, r2, ?_⟩
      intro hd' hj1
      obtain ⟨i', p', j', g⟩ := back m n hn
      subst hj1
      have ho := (g.op (by omega)).1
      have h2' : n.arity = 2 := by
        have : n.arity = n.sym.arity := rfl
        rw [this]; exact hc.opsD _ ho hd'
      obtain ⟨r', s1, s2⟩ := g.right h2'
      rw [off_congr e2] at s1
      simp [belowOf] at s1
      rw [r1] at s1; simp at s1; subst s1
      exact s2 hd'

theorem mutRest_chain (ctx : Ctx) (hc : ctx.Ok) (hx : ctx.XDen) (dr : Nat → Nat → MutDraw)
    (hd : ∀ d k, (dr d k).From ctx) : ∀ (ls : Levels) (depth : Nat) (prev : List Node), Chain ctx (prev :: ls) →
      mutRest ctx dr depth prev ls ≠ .error .raised ∧
      ∀ ls', mutRest ctx dr depth prev ls = .ok ls' →
        Chain ctx (prev :: ls') ∧ ls'.map (·.map Node.arity) = ls.map (·.map Node.arity) := by
  intro ls
  induction ls with
  | nil =>
    intro depth prev h
    refine ⟨by simp [mutRest], ?_⟩
    intro ls' he
    simp [mutRest] at he; subst he
    exact ⟨h, rfl⟩
  | cons cur below ih =>
    intro depth prev h
    obtain ⟨h1, h2, h3⟩ := h
    have hl := mutLevel_chain ctx hc hx (dr depth) (hd depth) prev cur below h1 h2 h3
    simp only [mutRest]
    cases hm : mutLevel ctx (dr depth) (below.headD []) (slots prev) 0 0 cur with
    | error f =>
      rw [show below.headD [] = belowOf below from rfl] at hm
      rw [hm] at hl
      exact ⟨by simpa using hl.1, by simp⟩
    | ok cur' =>
      obtain ⟨a1, a2, a3⟩ := hl.2 cur' hm
      obtain ⟨b1, b2⟩ := ih (depth + 1) cur' a3
      simp only
      cases hr : mutRest ctx dr (depth + 1) cur' below with
      | error f => rw [hr] at b1; exact ⟨by simpa using b1, by simp⟩
      | ok rest =>
        refine ⟨by simp, ?_⟩
        intro ls' he
        simp at he; subst he
        obtain ⟨c1, c2⟩ := b2 rest hr
        exact ⟨⟨h1, a2, c1⟩, by simp [a1, c2]⟩

theorem mutTree_chain (ctx : Ctx) (hc : ctx.Ok) (hx : ctx.XDen) (dr : Nat → Nat → MutDraw)
    (hd : ∀ d k, (dr d k).From ctx) (r : List Node) (ls : Levels) (h : Chain ctx (r :: ls)) :
    mutTree ctx dr (r :: ls) ≠ .error .raised ∧
    ∀ t', mutTree ctx dr (r :: ls) = .ok t' → ∃ ls', t' = r :: ls' ∧ Chain ctx (r :: ls') ∧
      t'.map (·.map Node.arity) = (r :: ls).map (·.map Node.arity) := by
  obtain ⟨a, b⟩ := mutRest_chain ctx hc hx dr hd ls 1 r h
  simp only [mutTree]
  cases hr : mutRest ctx dr 1 r ls with
  | error f => rw [hr] at a; exact ⟨by simpa using a, by simp⟩
  | ok rest =>
    refine ⟨by simp, ?_⟩
    intro t' he
    simp at he; subst he
    obtain ⟨c1, c2⟩ := b rest hr
    exact ⟨rest, rfl, c1, by simp [c2]⟩

/-! ### Same arities, same shape -/

theorem sameShape_decode (ctx : Ctx) (hc : ctx.Ok) : ∀ (ls ls' : Levels) (l l' : List Node), Chain ctx (l :: ls) →
    Chain ctx (l' :: ls') → (l :: ls).map (·.map Node.arity) = (l' :: ls').map (·.map Node.arity) →
    ∀ i e e', decode (l :: ls) i = some e → decode (l' :: ls') i = some e' → e.sameShape e' := by
  intro ls
  induction ls with
  | nil =>
    intro ls' l l' h h' ha i e e' he he'
    have hl : ls' = [] := by
      have := congrArg List.length ha
      simpa using this.symm
    subst hl
    cases hn : l[i]? with
    | none => simp [decode, hn] at he
    | some n =>
      cases hn' : l'[i]? with
      | none => simp [decode, hn'] at he'
      | some n' =>
        rw [decode_leaf_sym hn (h.2 n (List.mem_of_getElem? hn))] at he
        rw [decode_leaf_sym hn' (h'.2 n' (List.mem_of_getElem? hn'))] at he'
        simp at he he'; subst he; subst he'
        simp [Expr.sameShape]
  | cons l2 ls ih =>
    intro ls' l l' h h' ha i e e' he he'
    match ls', h', ha, he' with
    | l2' :: ls', h', ha, he' =>
      simp only [List.map_cons, List.cons.injEq] at ha
      obtain ⟨ha1, ha2⟩ := ha
      have ha2' : (l2 :: ls).map (·.map Node.arity) = (l2' :: ls').map (·.map Node.arity) := by
        simp only [List.map_cons, List.cons.injEq]; exact ha2
      cases hn : l[i]? with
      | none => simp [decode, hn] at he
      | some n =>
        have hn2 : (l'.map Node.arity)[i]? = some n.arity := by rw [← ha1]; simp [hn]
        simp only [List.getElem?_map, Option.map_eq_some_iff] at hn2
        obtain ⟨n', hn', har⟩ := hn2
        by_cases h0 : n.arity = 0
        · rw [decode_leaf_sym hn h0] at he
          rw [decode_leaf_sym hn' (by omega)] at he'
          simp at he he'; subst he; subst he'
          simp [Expr.sameShape]
        · obtain ⟨ho, hst⟩ := h.ok1.op i n hn (by omega)
          obtain ⟨ho', hst'⟩ := h'.ok1.op i n' hn' (by omega)
          rw [← off_congr ha1] at hst'
          obtain ⟨c0, g0, _⟩ := h.2.1.child i n 0 hn (by omega)
          obtain ⟨a0, d0, _⟩ := decode_ok ctx hc ls l2 h.2.2 _ _ g0
          obtain ⟨c0', g0', _⟩ := h'.2.1.child i n' 0 hn' (by omega)
          obtain ⟨a0', d0', _⟩ := decode_ok ctx hc ls' l2' h'.2.2 _ _ g0'
          rw [← off_congr ha1] at d0'
          have s0 := ih ls' l2 l2' h.2.2 h'.2.2 ha2' _ _ _ d0 d0'
          rw [Nat.add_zero] at d0 d0'
          rcases hc.ops _ ho with h1a | h2a
          · have q : n.arity = 1 := h1a
            have q' : n'.arity = 1 := by omega
            have e1 : decode (l :: l2 :: ls) i = some (.un n.sym a0) := by
              unfold decode; rw [hn]; simp only [q, hst, d0]; rfl
            have e1' : decode (l' :: l2' :: ls') i = some (.un n'.sym a0') := by
              unfold decode; rw [hn']; simp only [q', hst', d0']; rfl
            rw [e1] at he; rw [e1'] at he'
            simp at he he'; subst he; subst he'
            exact s0
          · have q : n.arity = 2 := h2a
            have q' : n'.arity = 2 := by omega
            obtain ⟨c1, g1, _⟩ := h.2.1.child i n 1 hn (by omega)
            obtain ⟨a1, d1, _⟩ := decode_ok ctx hc ls l2 h.2.2 _ _ g1
            obtain ⟨c1', g1', _⟩ := h'.2.1.child i n' 1 hn' (by omega)
            obtain ⟨a1', d1', _⟩ := decode_ok ctx hc ls' l2' h'.2.2 _ _ g1'
            rw [← off_congr ha1] at d1'
            have s1 := ih ls' l2 l2' h.2.2 h'.2.2 ha2' _ _ _ d1 d1'
            have e1 : decode (l :: l2 :: ls) i = some (.bin n.sym a0 a1) := by
              unfold decode; rw [hn]; simp only [q, hst, d0, d1]
            have e1' : decode (l' :: l2' :: ls') i = some (.bin n'.sym a0' a1') := by
              unfold decode; rw [hn']; simp only [q', hst', d0', d1']
            rw [e1] at he; rw [e1'] at he'
            simp at he he'; subst he; subst he'
            exact ⟨s0, s1⟩
    | [], _, ha, _ => simp at ha

end Verif.Sga
