import Verif.Sga.LatexUnique
import Verif.Claims.Equation
/-!
# C51: what the LaTeX of an SGA term determines (the positive part)
-/
namespace Verif.Claims
open Verif.Sga Verif.Sga.Latex

/-! ## Specification -/

/-- The same term up to the bracketing of products: the least congruence with `(a * b) * c = a * (b * c)`. -/
inductive Same : Expr → Expr → Prop
  | refl (e : Expr) : Same e e
  | symm {a b : Expr} : Same a b → Same b a
  | trans {a b c : Expr} : Same a b → Same b c → Same a c
  | un (x : Entry) {a b : Expr} : Same a b → Same (.un x a) (.un x b)
  | bin (x : Entry) {a b c d : Expr} : Same a b → Same c d → (isD x.name = true → c = d) → Same (.bin x a c) (.bin x b d)
  | assoc (m : Entry) (a b c : Expr) : m.name = "*" → Same (.bin m (.bin m a b) c) (.bin m a (.bin m b c))

/-- Tables of a problem in which names identify symbols, also as they are shown; the operators are the standard ones, and variables are shown as words
(`LeafOk`). -/
structure Readable (ctx : Ctx) : Prop where
  ops : ∀ e ∈ ctx.OPS, (e.name.toList, e.arity) ∈ stdOps
  opNames : ∀ x ∈ ctx.OPS, ∀ y ∈ ctx.OPS, x.name = y.name → x = y
  varNames : ∀ x y, (x ∈ ctx.VARS ∨ x ∈ ctx.den) → (y ∈ ctx.VARS ∨ y ∈ ctx.den) → renderLeaf x.name.toList = renderLeaf y.name.toList → x = y
  words : ∀ x, (x ∈ ctx.VARS ∨ x ∈ ctx.den) → LeafOk (renderLeaf x.name.toList)

/-- No power is taken of a product whose text begins with an opening and ends with a closing bracket (the case of `C51_power_counterexample`). -/
def PowersOk : Expr → Prop
  | .leaf _ => True
  | .un _ c => PowersOk c ∧ ((c.tex true).head? = some '(' ∧ (c.tex true).getLast? = some ')' → c.root.name = "+" ∨ c.root.name = "-")
  | .bin _ l r => PowersOk l ∧ PowersOk r

/-- No derivatives. -/
def NoDerivative : Expr → Prop
  | .leaf _ => True
  | .un _ c => NoDerivative c
  | .bin x l r => isD x.name = false ∧ NoDerivative l ∧ NoDerivative r

/-! ## Terms as shown -/

def toT : Expr → T
  | .leaf x => .leaf (renderLeaf x.name.toList)
  | .un x c => .pow (x.name == "^3") (toT c)
  | .bin x l r =>
    if x.name = "+" then .sum false (toT l) (toT r)
    else if x.name = "-" then .sum true (toT l) (toT r)
    else if x.name = "*" then .mul (toT l) (toT r)
    else if x.name = "/" then .frac (toT l) (toT r)
    else .d (x.name == "d^2") (toT l) (r.tex true)

/-- Terms over variables `V` and operators `S`. -/
def In (V S : Entry → Prop) : Expr → Prop
  | .leaf x => V x
  | .un x c => S x ∧ (x.name = "^2" ∨ x.name = "^3") ∧ In V S c
  | .bin x l r => S x ∧ (x.name = "+" ∨ x.name = "-" ∨ x.name = "*" ∨ x.name = "/" ∨ x.name = "d" ∨ x.name = "d^2") ∧ In V S l ∧ In V S r ∧
      (isD x.name = true → ∃ v, r = .leaf v)

theorem toT_tex (V S : Entry → Prop) : ∀ e, In V S e → (toT e).tex = e.tex true := by
  intro e
  induction e with
  | leaf x => intro _; rfl
  | un x c ih =>
    intro h
    obtain ⟨_, hn, hc⟩ := h
    have e1 : (toT (.un x c)).tex = ensureGroup (toT c).tex ++ ex (x.name == "^3") := rfl
    rw [e1, ih hc]
    rcases hn with hn | hn <;> rw [Expr.tex, hn] <;> simp [combine, ex]
  | bin x l r ihl ihr =>
    intro h
    obtain ⟨_, hn, hl, hr, _⟩ := h
    have i1 := ihl hl
    have i2 := ihr hr
    rcases hn with hn | hn | hn | hn | hn | hn <;> simp [toT, hn, T.tex, Expr.tex, combine, i1, i2]

theorem toT_inj (V S : Entry → Prop) (hV : ∀ x y, V x → V y → renderLeaf x.name.toList = renderLeaf y.name.toList → x = y)
    (hS : ∀ x y, S x → S y → x.name = y.name → x = y) : ∀ e e', In V S e → In V S e' → toT e = toT e' → e = e' := by
  intro e
  induction e with
  | leaf x =>
    intro e' h h' he
    cases e' with
    | leaf y => simp only [toT, T.leaf.injEq] at he; rw [hV x y h h' he]
    | un y c => cases he
    | bin y l r => rcases h'.2.1 with hn | hn | hn | hn | hn | hn <;> simp [toT, hn] at he
  | un x c ih =>
    intro e' h h' he
    cases e' with
    | leaf y => cases he
    | un y c' =>
      simp only [toT, T.pow.injEq] at he
      rw [ih c' h.2.2 h'.2.2 he.2]
      rw [hS x y h.1 h'.1]
      rcases h.2.1 with hn | hn <;> rcases h'.2.1 with hn' | hn' <;> rw [hn, hn'] <;> simp [hn, hn'] at he
    | bin y l r => rcases h'.2.1 with hn | hn | hn | hn | hn | hn <;> simp [toT, hn] at he
  | bin x l r ihl ihr =>
    intro e' h h' he
    cases e' with
    | leaf y => rcases h.2.1 with hn | hn | hn | hn | hn | hn <;> simp [toT, hn] at he
    | un y c => rcases h.2.1 with hn | hn | hn | hn | hn | hn <;> simp [toT, hn] at he
    | bin y l' r' =>
      obtain ⟨s, hn, hl, hr, hd⟩ := h
      obtain ⟨s', hn', hl', hr', hd'⟩ := h'
      have key : x.name = y.name ∧ toT l = toT l' ∧ toT r = toT r' := by
        have leafCase : isD x.name = true → isD y.name = true → r.tex true = r'.tex true → toT r = toT r' := by
          intro a b c
          obtain ⟨v, rfl⟩ := hd a
          obtain ⟨v', rfl⟩ := hd' b
          simp only [Expr.tex] at c
          simp only [toT, c]
        rcases hn with hn | hn | hn | hn | hn | hn <;> rcases hn' with hn' | hn' | hn' | hn' | hn' | hn' <;> simp [toT, hn, hn'] at he <;>
          first
          | exact ⟨by rw [hn, hn'], he.1, he.2⟩
          | exact ⟨by rw [hn, hn'], he.1, leafCase (by rw [hn]; decide) (by rw [hn']; decide) he.2⟩
      rw [hS x y s s' key.1, ihl l' hl hl' key.2.1, ihr r' hr hr' key.2.2]

/-! ## Bracketing products to the right -/

def eunf (m : Entry) : List Expr → Expr
  | [] => .leaf m
  | [f] => f
  | f :: g :: fs => .bin m f (eunf m (g :: fs))

def efacs (m : Entry) : Expr → List Expr
  | .leaf x => [.leaf x]
  | .un x c => [.un x (eunf m (efacs m c))]
  | .bin x l r =>
    if x.name = "*" then efacs m l ++ efacs m r
    else if isD x.name then [.bin x (eunf m (efacs m l)) r]
    else [.bin x (eunf m (efacs m l)) (eunf m (efacs m r))]

theorem efacs_ne (m : Entry) : ∀ e, efacs m e ≠ [] := by
  intro e
  induction e with
  | leaf x => simp [efacs]
  | un x c _ => simp [efacs]
  | bin x l r ihl _ =>
    unfold efacs
    split
    · simp [ihl]
    · split <;> simp

theorem eunf_append (m : Entry) (hm : m.name = "*") : ∀ a b : List Expr, a ≠ [] → b ≠ [] → Same (.bin m (eunf m a) (eunf m b)) (eunf m (a ++ b)) := by
  intro a
  induction a with
  | nil => intro b h; exact absurd rfl h
  | cons f a ih =>
    intro b _ hb
    cases a with
    | nil =>
      cases b with
      | nil => exact absurd rfl hb
      | cons g b => exact .refl _
    | cons g a =>
      refine .trans (.assoc m f (eunf m (g :: a)) (eunf m b) hm) ?_
      exact .bin m (.refl f) (ih b (by simp) hb) (fun h => by rw [hm] at h; cases h)

theorem same_right (V S : Entry → Prop) (m : Entry) (hm : m.name = "*") (hS : ∀ x, S x → x.name = "*" → x = m) : ∀ e, In V S e →
    Same e (eunf m (efacs m e)) := by
  intro e
  induction e with
  | leaf x => intro _; exact .refl _
  | un x c ih => intro h; exact .un x (ih h.2.2)
  | bin x l r ihl ihr =>
    intro h
    obtain ⟨s, _, hl, hr, hd⟩ := h
    unfold efacs
    by_cases h1 : x.name = "*"
    · rw [if_pos h1]
      have := hS x s h1
      subst this
      exact .trans (.bin x (ihl hl) (ihr hr) (fun h => by rw [h1] at h; cases h)) (eunf_append x h1 _ _ (efacs_ne _ l) (efacs_ne _ r))
    · rw [if_neg h1]
      by_cases h2 : isD x.name = true
      · rw [if_pos h2]; exact .bin x (ihl hl) (.refl r) (fun _ => rfl)
      · rw [if_neg h2]; exact .bin x (ihl hl) (ihr hr) (fun h => absurd h h2)

theorem eunf_in (V S : Entry → Prop) (m : Entry) (hm : m.name = "*") (hmS : S m) : ∀ fs : List Expr, fs ≠ [] → (∀ f ∈ fs, In V S f) → In V S (eunf m fs) := by
  intro fs
  induction fs with
  | nil => intro h; exact absurd rfl h
  | cons f fs ih =>
    intro _ h
    cases fs with
    | nil => exact h f (by simp)
    | cons g fs => exact ⟨hmS, by simp [hm], h f (by simp), ih (by simp) (fun x hx => h x (by simp [hx])), fun hd => by rw [hm] at hd; cases hd⟩

theorem efacs_in (V S : Entry → Prop) (m : Entry) (hm : m.name = "*") (hmS : S m) : ∀ e, In V S e → ∀ f ∈ efacs m e, In V S f := by
  intro e
  induction e with
  | leaf x => intro h f hf; simp only [efacs, List.mem_singleton] at hf; subst hf; exact h
  | un x c ih =>
    intro h f hf
    simp only [efacs, List.mem_singleton] at hf
    subst hf
    exact ⟨h.1, h.2.1, eunf_in V S m hm hmS _ (efacs_ne m c) (ih h.2.2)⟩
  | bin x l r ihl ihr =>
    intro h f hf
    obtain ⟨s, hn, hl, hr, hd⟩ := h
    unfold efacs at hf
    by_cases h1 : x.name = "*"
    · rw [if_pos h1, List.mem_append] at hf
      exact hf.elim (ihl hl f) (ihr hr f)
    · rw [if_neg h1] at hf
      by_cases h2 : isD x.name = true
      · rw [if_pos h2, List.mem_singleton] at hf
        subst hf
        exact ⟨s, hn, eunf_in V S m hm hmS _ (efacs_ne m l) (ihl hl), hr, hd⟩
      · rw [if_neg h2, List.mem_singleton] at hf
        subst hf
        exact ⟨s, hn, eunf_in V S m hm hmS _ (efacs_ne m l) (ihl hl), eunf_in V S m hm hmS _ (efacs_ne m r) (ihr hr), fun h => absurd h h2⟩

theorem toT_eunf (m : Entry) (hm : m.name = "*") : ∀ fs : List Expr, fs ≠ [] → toT (eunf m fs) = unf (fs.map toT) := by
  intro fs
  induction fs with
  | nil => intro h; exact absurd rfl h
  | cons f fs ih =>
    intro _
    cases fs with
    | nil => rfl
    | cons g fs =>
      have e1 : toT (eunf m (f :: g :: fs)) = .mul (toT f) (toT (eunf m (g :: fs))) := by
        show toT (.bin m f (eunf m (g :: fs))) = _
        simp [toT, hm]
      rw [e1, ih (by simp)]
      rfl

theorem toT_efacs (V S : Entry → Prop) (m : Entry) (hm : m.name = "*") : ∀ e, In V S e → (efacs m e).map toT = (toT e).rfacs := by
  intro e
  induction e with
  | leaf x => intro _; rfl
  | un x c ih =>
    intro h
    simp only [efacs, List.map_cons, List.map_nil, toT, T.rfacs]
    rw [toT_eunf m hm _ (efacs_ne m c), ih h.2.2]
  | bin x l r ihl ihr =>
    intro h
    obtain ⟨_, hn, hl, hr, _⟩ := h
    have i1 := ihl hl
    have i2 := ihr hr
    have j1 := toT_eunf m hm _ (efacs_ne m l)
    have j2 := toT_eunf m hm _ (efacs_ne m r)
    rw [i1] at j1
    rw [i2] at j2
    rcases hn with hn | hn | hn | hn | hn | hn <;> simp [efacs, toT, hn, isD, T.rfacs, i1, i2, j1, j2]

theorem toT_ok (V S : Entry → Prop) (hw : ∀ x, V x → LeafOk (renderLeaf x.name.toList)) : ∀ e, In V S e → PowersOk e → (toT e).Ok := by
  intro e
  induction e with
  | leaf x => intro h _; exact hw x h
  | un x c ih =>
    intro h hp
    refine ⟨ih h.2.2 hp.1, ?_⟩
    rw [toT_tex V S c h.2.2]
    intro hh
    have hs := hp.2 hh
    cases c with
    | leaf y =>
      exfalso
      obtain ⟨a, s, e1, h1, _⟩ := leafOk_head (hw y h.2.2)
      simp [Expr.tex, e1, h1] at hh
    | un y c => rcases h.2.2.2.1 with hn | hn <;> simp [Expr.root, hn] at hs
    | bin y l r => rcases hs with hs | hs <;> simp only [Expr.root] at hs <;> simp [toT, hs, T.isSum]
  | bin x l r ihl ihr =>
    intro h hp
    obtain ⟨_, hn, hl, hr, hd⟩ := h
    have i1 := ihl hl hp.1
    have i2 := ihr hr hp.2
    have der : isD x.name = true → LeafOk (r.tex true) := by
      intro hx
      obtain ⟨v, rfl⟩ := hd hx
      exact hw v hr
    rcases hn with hn | hn | hn | hn | hn | hn <;> simp [toT, hn, T.Ok, i1, i2] <;> exact der (by rw [hn]; decide)

theorem legal_in {ctx : Ctx} (h : Readable ctx) (m : Entry) : ∀ e, Legal ctx e → In (fun x => x ∈ ctx.VARS ∨ x ∈ ctx.den) (fun x => x ∈ ctx.OPS ∨ x = m) e := by
  have nm : ∀ (s : String) (t : String), s.toList = t.toList → s = t := fun s t e => String.toList_inj.1 e
  intro e
  induction e with
  | leaf x => exact id
  | un x c ih =>
    intro hl
    obtain ⟨h1, h2, h3⟩ := hl
    have := h.ops x h1
    rw [h2] at this
    refine ⟨Or.inl h1, ?_, ih h3⟩
    simp only [stdOps, List.mem_cons, Prod.mk.injEq, List.not_mem_nil, or_false] at this
    rcases this with ⟨_, e⟩ | ⟨_, e⟩ | ⟨_, e⟩ | ⟨_, e⟩ | ⟨_, e⟩ | ⟨_, e⟩ | ⟨e, _⟩ | ⟨e, _⟩
    all_goals first | cases e; done | skip
    · exact Or.inl (nm _ _ e)
    · exact Or.inr (nm _ _ e)
  | bin x l r ihl ihr =>
    intro hl
    obtain ⟨h1, h2, h3, h4, h5⟩ := hl
    have := h.ops x h1
    rw [h2] at this
    refine ⟨Or.inl h1, ?_, ihl h3, ihr h4, fun hd => let ⟨v, e, _⟩ := h5 hd; ⟨v, e⟩⟩
    simp only [stdOps, List.mem_cons, Prod.mk.injEq, List.not_mem_nil, or_false] at this
    rcases this with ⟨e, _⟩ | ⟨e, _⟩ | ⟨e, _⟩ | ⟨e, _⟩ | ⟨e, _⟩ | ⟨e, _⟩ | ⟨_, e⟩ | ⟨_, e⟩
    · exact Or.inl (nm _ _ e)
    · exact Or.inr (Or.inl (nm _ _ e))
    · exact Or.inr (Or.inr (Or.inl (nm _ _ e)))
    · exact Or.inr (Or.inr (Or.inr (Or.inl (nm _ _ e))))
    · exact Or.inr (Or.inr (Or.inr (Or.inr (Or.inl (nm _ _ e)))))
    · exact Or.inr (Or.inr (Or.inr (Or.inr (Or.inr (nm _ _ e)))))
    · cases e
    · cases e

/-- **C51** (partial): in Leibniz notation the LaTeX of a term determines it up to the bracketing of products, for all terms in which no power is taken of a
product whose text is enclosed in brackets by chance. -/
theorem C51_leibniz_partial (ctx : Ctx) (h : Readable ctx) (e e' : Expr) (hl : Legal ctx e) (hl' : Legal ctx e') (hp : PowersOk e) (hp' : PowersOk e')
    (he : e.tex true = e'.tex true) : Same e e' := by
  obtain ⟨m, hm, hu⟩ : ∃ m : Entry, m.name = "*" ∧ ∀ x ∈ ctx.OPS, x.name = "*" → x = m := by
    by_cases hx : ∃ x ∈ ctx.OPS, x.name = "*"
    · obtain ⟨x, hx, hn⟩ := hx
      exact ⟨x, hn, fun y hy hn' => h.opNames y hy x hx (by rw [hn, hn'])⟩
    · exact ⟨⟨"*", 2, 0⟩, rfl, fun x hx' hn => absurd ⟨x, hx', hn⟩ hx⟩
  have i := legal_in h m e hl
  have i' := legal_in h m e' hl'
  have hS : ∀ x, (x ∈ ctx.OPS ∨ x = m) → x.name = "*" → x = m := fun x hx hn => hx.elim (fun hx => hu x hx hn) id
  refine .trans (same_right _ _ m hm hS e i) (.trans ?_ (.symm (same_right _ _ m hm hS e' i')))
  have hR : toT (eunf m (efacs m e)) = toT (eunf m (efacs m e')) := by
    rw [toT_eunf m hm _ (efacs_ne m e), toT_eunf m hm _ (efacs_ne m e'), toT_efacs _ _ m hm e i, toT_efacs _ _ m hm e' i']
    exact text_unique _ _ (toT_ok _ _ h.words e i hp) (toT_ok _ _ h.words e' i' hp') (by rw [toT_tex _ _ e i, toT_tex _ _ e' i', he])
  have := toT_inj _ _ (fun x y hx hy => h.varNames x y hx hy) (fun x y hx hy hn => ?_) _ _
    (eunf_in _ _ m hm (Or.inr rfl) _ (efacs_ne m e) (efacs_in _ _ m hm (Or.inr rfl) e i))
    (eunf_in _ _ m hm (Or.inr rfl) _ (efacs_ne m e') (efacs_in _ _ m hm (Or.inr rfl) e' i')) hR
  · rw [this]; exact .refl _
  · rcases hx with hx | rfl
    · rcases hy with hy | rfl
      · exact h.opNames x hx y hy hn
      · exact hu x hx (by rw [hn, hm])
    · rcases hy with hy | rfl
      · exact (hu y hy (by rw [← hn, hm])).symm
      · rfl

theorem tex_noD (V S : Entry → Prop) : ∀ e, In V S e → NoDerivative e → e.tex false = e.tex true := by
  intro e
  induction e with
  | leaf x => intro _ _; rfl
  | un x c ih =>
    intro h hd
    have := ih h.2.2 hd
    rcases h.2.1 with hn | hn <;> simp [Expr.tex, hn, combine, this]
  | bin x l r ihl ihr =>
    intro h hd
    obtain ⟨_, hn, hl, hr, _⟩ := h
    have i1 := ihl hl hd.2.1
    have i2 := ihr hr hd.2.2
    rcases hn with hn | hn | hn | hn | hn | hn <;> first | (simp [Expr.tex, hn, combine, i1, i2]; done) | (have := hd.1; rw [hn] at this; cases this)

/-- **C51** (partial), subscript notation: the same for terms without derivative operators. -/
theorem C51_subscript_partial (ctx : Ctx) (h : Readable ctx) (e e' : Expr) (hl : Legal ctx e) (hl' : Legal ctx e') (hp : PowersOk e) (hp' : PowersOk e')
    (hd : NoDerivative e) (hd' : NoDerivative e') (he : e.tex false = e'.tex false) : Same e e' := by
  apply C51_leibniz_partial ctx h e e' hl hl' hp hp'
  rw [← tex_noD _ _ e (legal_in h ⟨"*", 2, 0⟩ e hl) hd, ← tex_noD _ _ e' (legal_in h ⟨"*", 2, 0⟩ e' hl') hd', he]

/-- **C51** (partial), values: the same term up to the bracketing of products has the same value on all data when multiplication is associative. -/
theorem C51_value_partial {V : Type} (s : Sem V) (ha : ∀ (m : Entry) (a b c : V), m.name = "*" → s.bin m (s.bin m a b) c = s.bin m a (s.bin m b c))
    (e e' : Expr) (h : Same e e') : e.value s = e'.value s := by
  induction h with
  | refl => rfl
  | symm _ ih => exact ih.symm
  | trans _ _ ih1 ih2 => exact ih1.trans ih2
  | un x _ ih => simp only [Expr.value, ih]
  | bin x _ _ hr ih1 ih2 =>
    simp only [Expr.value, ih1, ih2]
    by_cases hd : isD x.name = true
    · rw [hr hd]
    · simp [hd]
  | assoc m a b c hm =>
    simp only [Expr.value]
    have h1 : isD m.name = false := by rw [hm]; decide
    have h2 : ¬ (m.name = "/") := by rw [hm]; decide
    cases a.value s with
    | none => rfl
    | some va =>
      cases b.value s with
      | none => simp
      | some vb =>
        cases c.value s with
        | none => simp [h1, h2]
        | some vc => simp [h1, h2, ha m va vb vc hm]

/-! ## The hypotheses can be met -/

theorem leafOk_of {w : Name} (h1 : w.isEmpty = false) (h2 : w.all neutral = true) (h3 : w.contains '^' = false) (h4 : bal 0 w = true)
    (h5 : w.head? ≠ some '\\' ∨ (w[1]?).isSome = true ∧ w[1]? ≠ some 'f' ∧ w[1]? ≠ some 'p') : LeafOk w := by
  refine ⟨⟨by simpa using h1, by simpa using h2⟩, ?_, h4, fun s => ⟨?_, ?_, ?_⟩⟩
  · intro hm
    rw [List.contains_iff_mem.2 hm] at h3
    cases h3
  all_goals
    rintro rfl
    simp at h5

/-- The shipped tables for two fields on two space axes are readable, and the terms `(u * u) * ∂²v/∂x²` and `u * (u * ∂²v/∂x²)` meet all hypotheses. -/
theorem exCtx_readable : Readable exCtx := by
  have all : ∀ x, (x ∈ exCtx.VARS ∨ x ∈ exCtx.den) → x ∈ exCtx.VARS := by
    have : ∀ x ∈ exCtx.den, x ∈ exCtx.VARS := by decide
    exact fun x h => h.elim id (this x)
  refine ⟨by decide, by decide, ?_, ?_⟩
  · intro x y hx hy
    have : ∀ x ∈ exCtx.VARS, ∀ y ∈ exCtx.VARS, renderLeaf x.name.toList = renderLeaf y.name.toList → x = y := by decide +kernel
    exact this x (all x hx) y (all y hy)
  · intro x hx
    have : ∀ x ∈ exCtx.VARS, (renderLeaf x.name.toList).isEmpty = false ∧ (renderLeaf x.name.toList).all neutral = true ∧
        (renderLeaf x.name.toList).contains '^' = false ∧ bal 0 (renderLeaf x.name.toList) = true ∧ (renderLeaf x.name.toList).head? ≠ some '\\' := by
      decide +kernel
    obtain ⟨a, b, c, d, e⟩ := this x (all x hx)
    exact leafOk_of a b c d (Or.inl e)

example :
    let v : Expr := .leaf ⟨"v", 0, 0⟩
    let d := Expr.bin opD2 (.un opSq v) vX
    let a := Expr.bin opMul (.bin opMul vU vU) d
    let b := Expr.bin opMul vU (.bin opMul vU d)
    PowersOk a ∧ PowersOk b ∧ a ≠ b ∧ a.tex true = b.tex true ∧ a.tex true = "u \\cdot u \\cdot \\frac{\\partial^{2} v^{2}}{\\partial x^{2}}".toList := by
  refine ⟨?_, ?_, by decide, by decide +kernel, by decide +kernel⟩
  · exact ⟨⟨trivial, trivial⟩, ⟨trivial, by decide⟩, trivial⟩
  · exact ⟨trivial, trivial, ⟨trivial, by decide⟩, trivial⟩

end Verif.Claims
