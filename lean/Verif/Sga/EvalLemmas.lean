import Verif.Sga.Eval
/-!
# Lemmas about term evaluation (helper lemmas, no claims)
-/
namespace Verif.Sga

/-- Pointwise relation of two lists of equal length. -/
inductive All2 {α β : Type} (R : α → β → Prop) : List α → List β → Prop
  | nil : All2 R [] []
  | cons {a b as bs} : R a b → All2 R as bs → All2 R (a :: as) (b :: bs)

/-- A cached node is ready: reading it gives the value of the expression. -/
def Rdy {V : Type} (s : Sem V) (c : CNode V) (e : Expr) : Prop :=
  ∃ v, e.value s = some v ∧ fetch s c = .ok v ∧ e.root = c.1.sym

def rst {V : Type} (c : CNode V) : CNode V := (c.1, none)
def frN {V : Type} (n : Node) : CNode V := (n, none)

theorem modify_at {α : Type} (done rest : List α) (x : α) (f : α → α) :
    (done ++ x :: rest).modify done.length f = done ++ f x :: rest := by
  induction done with
  | nil => simp
  | cons d ds ih => simp [ih]

theorem resetAt_at {V : Type} (done rest : List (CNode V)) (x : CNode V) :
    resetAt (done ++ x :: rest) done.length = done ++ rst x :: rest := modify_at done rest x _

theorem get_at {α : Type} (done rest : List α) (x : α) : (done ++ x :: rest)[done.length]? = some x := by simp

/-- The right child of a derivative is an axis the context knows. -/
def AxOk {V : Type} (s : Sem V) : Expr → Prop
  | .leaf _ => True
  | .un _ c => AxOk s c
  | .bin e l r => AxOk s l ∧ AxOk s r ∧ (isD e.name = true → r.root.name = s.lhs ∨ r.root.name ∈ s.axes)

theorem evalNodes_ok {V : Type} (s : Sem V) : ∀ (l : List Node) (done todo : List (CNode V)) (es : List Expr),
    All2 (Rdy s) todo es → todo.length = sumAr l → (∀ n ∈ l, n.arity ≤ 2) →
    (∀ (i : Nat) (n : Node), l[i]? = some n → 0 < n.arity → n.childSt = some (done.length + off l i)) →
    (∀ e ∈ build l es, AxOk s e) →
    (∃ t', evalNodes s (l.map frN) (done ++ todo) = .ok (t', done ++ todo.map rst, false) ∧
      t'.map (·.1) = l ∧ All2 (Rdy s) t' (build l es)) ∨
    (∃ t' k', evalNodes s (l.map frN) (done ++ todo) = .ok (t', k', true) ∧ ∃ e ∈ build l es, e.value s = none) := by
  intro l
  induction l with
  | nil =>
    intro done todo es h1 h2 _ _ _
    simp [sumAr] at h2; subst h2
    exact Or.inl ⟨[], by simp [evalNodes], rfl, .nil⟩
  | cons n l ih =>
    intro done todo es h1 h2 h3 h4 h6
    have ha := h3 n (by simp)
    have h3' : ∀ m ∈ l, m.arity ≤ 2 := fun m hm => h3 m (by simp [hm])
    simp only [sumAr] at h2
    have hcase : n.arity = 0 ∨ n.arity = 1 ∨ n.arity = 2 := by omega
    rcases hcase with h0 | h0 | h0
    · have h6' : ∀ e ∈ build l es, AxOk s e := by
        intro e he; apply h6; simp only [build, h0, List.drop_zero]; exact List.mem_cons_of_mem _ he
      have h4' : ∀ (i : Nat) (m : Node), l[i]? = some m → 0 < m.arity → m.childSt = some (done.length + off l i) := by
        intro i m hi hm
        have := h4 (i + 1) m (by simpa using hi) hm
        simpa [off, sumAr, h0] using this
      have hrdy : Rdy s (frN n : CNode V) (buildNode n es) := by
        refine ⟨s.var n.sym, ?_, ?_, ?_⟩
        · simp [buildNode, h0, Expr.value]
        · simp [fetch, frN, h0]
        · simp [buildNode, h0, Expr.root, frN]
      have hb : build (n :: l) es = buildNode n es :: build l es := by simp [build, h0]
      rw [hb]
      rcases ih done todo es h1 (by omega) h3' h4' h6' with ⟨t', q1, q2, q3⟩ | ⟨t', k', q1, e, q2, q3⟩
      · left
        refine ⟨frN n :: t', ?_, by simp [q2, frN], .cons hrdy q3⟩
        simp only [List.map_cons, frN, evalNodes, h0, if_true]
        rw [q1]
      · right
        refine ⟨frN n :: t', k', ?_, e, List.mem_cons_of_mem _ q2, q3⟩
        simp only [List.map_cons, frN, evalNodes, h0, if_true]
        rw [q1]
    · cases h1 with
      | nil => simp at h2; omega
      | cons hr h1 =>
      rename_i c0 e0 todo es
      obtain ⟨v0, hv0, hf0, hr0⟩ := hr
      have hst := h4 0 n (by simp) (by omega)
      simp only [off, List.take_zero, sumAr, Nat.add_zero] at hst
      have h6' : ∀ e ∈ build l es, AxOk s e := by
        intro e he; apply h6; simp only [build, h0, List.drop_succ_cons, List.drop_zero]; exact List.mem_cons_of_mem _ he
      have h4' : ∀ (i : Nat) (m : Node), l[i]? = some m → 0 < m.arity →
          m.childSt = some ((done ++ [rst c0]).length + off l i) := by
        intro i m hi hm
        have := h4 (i + 1) m (by simpa using hi) hm
        simp [off, sumAr, h0] at this ⊢
        rw [this]; congr 1; omega
      have hb : build (n :: l) (e0 :: es) = .un n.sym e0 :: build l es := by simp [build, h0, buildNode]
      rw [hb]
      have hrdy : Rdy s ((n, some (s.un n.sym v0)) : CNode V) (.un n.sym e0) := by
        refine ⟨_, ?_, rfl, rfl⟩
        simp [Expr.value, hv0]
      have hstep : ∀ r, evalNodes s (l.map frN) ((done ++ [rst c0]) ++ todo) = .ok r →
          evalNodes s ((n :: l).map frN) (done ++ c0 :: todo) = .ok ((n, some (s.un n.sym v0)) :: r.1, r.2.1, r.2.2) := by
        intro r q1
        simp only [List.map_cons, frN, evalNodes, h0, hst]
        simp only [get_at, evalUn, hf0, resetAt_at]
        simp only [List.append_assoc, List.cons_append, List.nil_append] at q1
        rw [q1]
        simp
      rcases ih (done ++ [rst c0]) todo es h1 (by simp at h2; omega) h3' h4' h6' with ⟨t', q1, q2, q3⟩ | ⟨t', k', q1, e, q2, q3⟩
      · left
        refine ⟨_, ?_, ?_, .cons hrdy q3⟩
        · rw [hstep _ q1]; simp
        · simp [q2]
      · right
        exact ⟨_, _, hstep _ q1, e, List.mem_cons_of_mem _ q2, q3⟩
    · cases h1 with
      | nil => simp at h2; omega
      | cons hr h1 =>
      cases h1 with
      | nil => simp at h2; omega
      | cons hr' h1 =>
      rename_i c0 e0 c1 e1 todo es
      obtain ⟨v0, hv0, hf0, hr0⟩ := hr
      obtain ⟨v1, hv1, hf1, hr1⟩ := hr'
      have hst := h4 0 n (by simp) (by omega)
      simp only [off, List.take_zero, sumAr, Nat.add_zero] at hst
      have h6' : ∀ e ∈ build l es, AxOk s e := by
        intro e he; apply h6; simp only [build, h0, List.drop_succ_cons, List.drop_zero]; exact List.mem_cons_of_mem _ he
      have h4' : ∀ (i : Nat) (m : Node), l[i]? = some m → 0 < m.arity →
          m.childSt = some ((done ++ [rst c0, rst c1]).length + off l i) := by
        intro i m hi hm
        have := h4 (i + 1) m (by simpa using hi) hm
        simp [off, sumAr, h0] at this ⊢
        rw [this]; congr 1; omega
      have hb : build (n :: l) (e0 :: e1 :: es) = .bin n.sym e0 e1 :: build l es := by simp [build, h0, buildNode]
      rw [hb] at h6 ⊢
      have hax := (h6 (.bin n.sym e0 e1) (by simp)).2.2
      have hname : e1.root.name = c1.1.name := by rw [hr1]; rfl
      have hget1 : (done ++ c0 :: c1 :: todo)[done.length + 1]? = some c1 := by
        simp
      have hreset : resetAt (resetAt (done ++ c0 :: c1 :: todo) done.length) (done.length + 1) =
          (done ++ [rst c0, rst c1]) ++ todo := by
        rw [resetAt_at]
        have := resetAt_at (done ++ [rst c0]) todo c1
        simpa using this
      -- the outcome of evaluating the node agrees with the value of the expression
      have hnode : (evalBin s n c0 c1 = .invalid ∧ (Expr.bin n.sym e0 e1).value s = none) ∨
          (∃ v, evalBin s n c0 c1 = .val v ∧ (Expr.bin n.sym e0 e1).value s = some v) := by
        unfold evalBin
        simp only [Expr.value, hv0, hv1, hname]
        have hnn : n.sym.name = n.name := rfl
        rw [hnn] at hax ⊢
        by_cases hd : isD n.name = true
        · simp only [hd, if_true]
          by_cases hl : c1.1.name = s.lhs
          · left; simp [hl]
          · right
            have := hax hd
            rw [hname] at this
            have hm : c1.1.name ∈ s.axes := by
              rcases this with h | h
              · exact absurd h hl
              · exact h
            simp [hl, hm, hf0]
        · simp only [hd]
          simp only [hf0, hf1]
          by_cases hz : n.name = "/" ∧ s.near0 v1 = true
          · simp only [hz.1, hz.2, and_self, if_true]
            cases s.guard <;> simp
          · right; simp [hz]
      rcases hnode with ⟨g1, g2⟩ | ⟨v, g1, g2⟩
      · right
        refine ⟨(n, none) :: l.map frN, (done ++ [rst c0, rst c1]) ++ todo, ?_, .bin n.sym e0 e1, by simp, g2⟩
        simp only [List.map_cons, frN, evalNodes, h0, hst]
        simp only [get_at, hget1, g1, hreset]
        simp
      · have hrdy : Rdy s ((n, some v) : CNode V) (.bin n.sym e0 e1) := ⟨_, g2, rfl, rfl⟩
        have hstep : ∀ r, evalNodes s (l.map frN) ((done ++ [rst c0, rst c1]) ++ todo) = .ok r →
            evalNodes s ((n :: l).map frN) (done ++ c0 :: c1 :: todo) = .ok ((n, some v) :: r.1, r.2.1, r.2.2) := by
          intro r q1
          simp only [List.map_cons, frN, evalNodes, h0, hst]
          simp only [get_at, hget1, g1, hreset]
          rw [q1]
          simp
        rcases ih (done ++ [rst c0, rst c1]) todo es h1 (by simp at h2; omega) h3' h4' h6' with ⟨t', q1, q2, q3⟩ | ⟨t', k', q1, e, q2, q3⟩
        · left
          refine ⟨_, ?_, ?_, .cons hrdy q3⟩
          · rw [hstep _ q1]; simp
          · simp [q2]
        · right
          exact ⟨_, _, hstep _ q1, e, List.mem_cons_of_mem _ q2, q3⟩

/-- A rejected child makes its parent rejected. -/
theorem build_none {V : Type} (s : Sem V) : ∀ (l : List Node) (es : List Expr), (∀ n ∈ l, n.arity ≤ 2) →
    es.length = sumAr l → (∃ e ∈ es, e.value s = none) → ∃ e ∈ build l es, e.value s = none := by
  intro l
  induction l with
  | nil =>
    intro es _ h he
    simp [sumAr] at h; subst h
    simp at he
  | cons n l ih =>
    intro es ha h he
    have h2 := ha n (by simp)
    simp only [sumAr] at h
    have ih' := ih (es.drop n.arity) (fun m hm => ha m (by simp [hm])) (by simp; omega)
    by_cases hd : ∃ e ∈ es.drop n.arity, e.value s = none
    · obtain ⟨e, q1, q2⟩ := ih' hd
      exact ⟨e, by simp [build, q1], q2⟩
    · have ht : ∃ e ∈ es.take n.arity, e.value s = none := by
        obtain ⟨e, q1, q2⟩ := he
        rw [← List.take_append_drop n.arity es, List.mem_append] at q1
        rcases q1 with q1 | q1
        · exact ⟨e, q1, q2⟩
        · exact absurd ⟨e, q1, q2⟩ hd
      refine ⟨buildNode n es, by simp [build], ?_⟩
      have hcase : n.arity = 0 ∨ n.arity = 1 ∨ n.arity = 2 := by omega
      rcases hcase with h0 | h0 | h0
      · simp [h0] at ht
      · match es, h with
        | a :: es, _ =>
          simp [h0] at ht
          simp [buildNode, h0, Expr.value, ht]
        | [], h => simp at h; omega
      · match es, h with
        | a :: b :: es, _ =>
          simp [h0] at ht
          rcases ht with ht | ht
          · simp [buildNode, h0, Expr.value, ht]
          · simp only [buildNode, h0, Expr.value, ht]
            cases a.value s <;> rfl
        | [_], h => simp at h; omega
        | [], h => simp at h; omega

theorem legal_axOk {V : Type} (s : Sem V) (ctx : Ctx) (hden : ∀ a, ctx.isDen a = true → a = s.lhs ∨ a ∈ s.axes) :
    ∀ e, Legal ctx e → AxOk s e := by
  intro e
  induction e with
  | leaf e => intro _; exact trivial
  | un e c ih => intro h; exact ih h.2.2
  | bin e l r ihl ihr =>
    intro h
    obtain ⟨h1, h2, h3, h4, h5⟩ := h
    refine ⟨ihl h3, ihr h4, ?_⟩
    intro hd
    obtain ⟨v, rfl, hv⟩ := h5 hd
    exact hden _ hv

theorem fresh_cons {V : Type} (l : List Node) (ls : Levels) : (fresh (l :: ls) : List (List (CNode V))) = l.map frN :: fresh ls := rfl

theorem all2_leaves {V : Type} (s : Sem V) : ∀ (l : List Node) (es : List Expr), (∀ n ∈ l, n.arity = 0) →
    All2 (Rdy s) (l.map frN : List (CNode V)) (build l es) := by
  intro l
  induction l with
  | nil => intro es _; exact .nil
  | cons n l ih =>
    intro es h
    have h0 := h n (by simp)
    refine .cons ?_ (ih _ (fun m hm => h m (by simp [hm])))
    refine ⟨s.var n.sym, ?_, ?_, ?_⟩
    · simp [buildNode, h0, Expr.value]
    · simp [fetch, frN, h0]
    · simp [buildNode, h0, Expr.root, frN]

theorem all2_length {α β : Type} {R : α → β → Prop} {a : List α} {b : List β} (h : All2 R a b) : a.length = b.length := by
  induction h with
  | nil => rfl
  | cons _ _ ih => simp [ih]

theorem sumAr_zero {l : List Node} (h : sumAr l = 0) : ∀ n ∈ l, n.arity = 0 := by
  induction l with
  | nil => intro n hn; simp at hn
  | cons m l ih =>
    simp only [sumAr] at h
    intro n hn
    simp at hn
    rcases hn with rfl | hn
    · omega
    · exact ih (by omega) n hn

theorem exprs_ax {V : Type} (s : Sem V) (ctx : Ctx) (hc : ctx.Ok)
    (hden : ∀ a, ctx.isDen a = true → a = s.lhs ∨ a ∈ s.axes) {ls : Levels} {l : List Node} (h : Chain ctx (l :: ls)) :
    ∀ e ∈ exprs (l :: ls), AxOk s e := by
  intro e he
  obtain ⟨i, hi⟩ := List.getElem?_of_mem he
  have hl : i < l.length := by rw [← exprs_length (l := l) (ls := ls)]; exact (List.getElem?_eq_some_iff.1 hi).1
  obtain ⟨e', h1, h2, _⟩ := decode_ok ctx hc ls l h i _ (List.getElem?_eq_getElem hl)
  rw [decode_exprs ctx hc ls l h i hl, hi] at h1
  simp at h1; subst h1
  exact legal_axOk s ctx hden _ h2

theorem map_fr {V : Type} (l : List Node) : (l.map frN : List (CNode V)).map (·.1) = l := by
  induction l with
  | nil => rfl
  | cons n l ih => simpa [frN] using ih

theorem map_rst {V : Type} : ∀ (top : List (CNode V)), top.map rst = (top.map (·.1)).map frN := by
  intro top; simp [rst, frN]

theorem evalUp_ok {V : Type} (s : Sem V) (ctx : Ctx) (hc : ctx.Ok)
    (hden : ∀ a, ctx.isDen a = true → a = s.lhs ∨ a ∈ s.axes) : ∀ (ls : Levels) (l : List Node), Chain ctx (l :: ls) →
    (∃ top, evalUp s (fresh (l :: ls)) = .ok (top :: fresh ls, false) ∧ top.map (·.1) = l ∧
      All2 (Rdy s) top (exprs (l :: ls))) ∨
    (∃ t', evalUp s (fresh (l :: ls)) = .ok (t', true) ∧ ∃ e ∈ exprs (l :: ls), e.value s = none) := by
  intro ls
  induction ls with
  | nil =>
    intro l h
    left
    refine ⟨l.map frN, rfl, map_fr l, all2_leaves s l _ h.2⟩
  | cons l2 ls ih =>
    intro l h
    have ha := h.arity_le hc
    have hax := exprs_ax s ctx hc hden h
    obtain ⟨h1, h2, h3⟩ := h
    have hlen : (exprs (l2 :: ls)).length = sumAr l := by rw [exprs_length, h2.len]
    rcases ih l2 h3 with ⟨top, q1, q2, q3⟩ | ⟨t', q1, q2⟩
    · have hup : evalUp s (fresh (l :: l2 :: ls)) =
          if top.isEmpty then .ok (l.map frN :: top :: fresh ls, false)
          else match evalNodes s (l.map frN) top with
            | .error f => .error f
            | .ok (l', k', b) => .ok (l' :: k' :: fresh ls, b) := by
        rw [fresh_cons, fresh_cons, evalUp, ← fresh_cons, q1]
        rfl
      rw [hup]
      by_cases hem : top = []
      · subst hem
        simp at q2; subst q2
        left
        refine ⟨l.map frN, by simp [fresh], map_fr l, ?_⟩
        apply all2_leaves
        exact sumAr_zero (by rw [← hlen, exprs_length]; rfl)
      · have hne : top.isEmpty = false := by simpa using hem
        rw [hne]
        have := evalNodes_ok s l [] top (exprs (l2 :: ls)) q3 (by rw [all2_length q3, hlen]) ha (by
          intro i n hi hn
          simpa using (h1.op i n hi hn).2) hax
        simp only [List.nil_append] at this
        rcases this with ⟨t', r1, r2, r3⟩ | ⟨t', k', r1, r2⟩
        · left
          refine ⟨t', ?_, r2, r3⟩
          rw [r1, map_rst, q2]; rfl
        · right
          exact ⟨_, by rw [r1]; rfl, r2⟩
    · right
      refine ⟨l.map frN :: t', ?_, build_none s l _ ha hlen q2⟩
      rw [fresh_cons, fresh_cons, evalUp, ← fresh_cons, q1]

end Verif.Sga
