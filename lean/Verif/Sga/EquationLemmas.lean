import Verif.Sga.Equation
import Verif.Sga.EquationSpec
/-!
# Lemmas about rendered terms (helpers, no claims)
-/
namespace Verif.Sga

def headOk : Name → Bool
  | x :: _ => x != '+' && x != '-'
  | [] => false

/-- Balanced, and outside parentheses a blank is always followed by something that is not a sign. -/
def clean : Nat → Name → Bool
  | d, [] => d == 0
  | d, c :: r =>
    if c = '(' then clean (d + 1) r
    else if c = ')' then d != 0 && clean (d - 1) r
    else if c = ' ' ∧ d = 0 then headOk r && clean d r
    else clean d r

theorem headOk_append {a b : Name} (h : headOk a = true) : headOk (a ++ b) = true := by
  cases a <;> simp_all [headOk]

theorem clean_append : ∀ (a b : Name) (d k : Nat), clean d a = true → clean k b = true → clean (d + k) (a ++ b) = true := by
  intro a
  induction a with
  | nil => intro b d k h1 h2; simp [clean] at h1; subst h1; simpa using h2
  | cons c r ih =>
    intro b d k h1 h2
    rw [List.cons_append]
    unfold clean at h1 ⊢
    split at h1
    · rename_i hc
      rw [if_pos hc]
      have := ih b (d + 1) k h1 h2
      rwa [show d + k + 1 = d + 1 + k by omega]
    · rename_i hc
      rw [if_neg hc]
      split at h1
      · rename_i hc2
        rw [if_pos hc2]
        simp only [Bool.and_eq_true, bne_iff_ne, ne_eq] at h1 ⊢
        refine ⟨by omega, ?_⟩
        have := ih b (d - 1) k h1.2 h2
        rwa [show d + k - 1 = d - 1 + k by omega]
      · rename_i hc2
        rw [if_neg hc2]
        split at h1
        · rename_i hc3
          simp only [Bool.and_eq_true] at h1
          split
          · simp only [Bool.and_eq_true]
            exact ⟨headOk_append h1.1, ih b d k h1.2 h2⟩
          · exact ih b d k h1.2 h2
        · rename_i hc3
          have : ¬ (c = ' ' ∧ d + k = 0) := by
            intro ⟨e1, e2⟩; exact hc3 ⟨e1, by omega⟩
          rw [if_neg this]
          exact ih b d k h1 h2

/-- A rendered term. -/
def CleanE (s : Name) : Prop := clean 0 s = true ∧ headOk s = true

theorem clean0 {a b : Name} (h1 : clean 0 a = true) (h2 : clean 0 b = true) : clean 0 (a ++ b) = true := by
  simpa using clean_append a b 0 0 h1 h2

theorem clean1 {a b : Name} (h1 : clean 0 a = true) (h2 : clean 1 b = true) : clean 1 (a ++ b) = true := by
  simpa using clean_append a b 0 1 h1 h2

theorem cleanE_append {a b : Name} (h1 : CleanE a) (h2 : clean 0 b = true) : CleanE (a ++ b) :=
  ⟨clean0 h1.1 h2, headOk_append h1.2⟩

/-- Characters that play no role in reading a term. -/
def neutral (c : Char) : Bool := c != ' ' && c != '(' && c != ')' && c != '+' && c != '-'

theorem clean_neutral : ∀ s : Name, (∀ c ∈ s, neutral c = true) → clean 0 s = true := by
  intro s
  induction s with
  | nil => intro _; rfl
  | cons c r ih =>
    intro h
    have hc := h c (by simp)
    simp only [neutral, Bool.and_eq_true, bne_iff_ne, ne_eq] at hc
    unfold clean
    rw [if_neg (by simp [hc]), if_neg (by simp [hc]), if_neg (by simp [hc])]
    exact ih fun x hx => h x (by simp [hx])

theorem headOk_neutral {s : Name} (h0 : s ≠ []) (h : ∀ c ∈ s, neutral c = true) : headOk s = true := by
  cases s with
  | nil => simp at h0
  | cons c r =>
    have hc := h c (by simp)
    simp only [neutral, Bool.and_eq_true, bne_iff_ne, ne_eq] at hc
    simp [headOk, hc]

theorem clean_paren {a : Name} (h : clean 0 a = true) : clean 0 ('(' :: a ++ [')']) = true := by
  have := clean1 h (b := [')']) rfl
  simpa [clean] using this

theorem ensureGroup_ok {a : Name} (h : CleanE a) : CleanE (ensureGroup a) := by
  unfold ensureGroup
  split
  · exact h
  · split
    · exact ⟨clean_paren h.1, rfl⟩
    · split
      · exact ⟨clean_paren h.1, rfl⟩
      · exact h

theorem rfindSub_eq : ∀ (s a b : Name), rfindSub s = some (a, b) → s = a ++ '_' :: '{' :: b := by
  intro s
  induction s with
  | nil => intro a b h; simp [rfindSub] at h
  | cons c r ih =>
    intro a b h
    unfold rfindSub at h
    cases hr : rfindSub r with
    | some p =>
      obtain ⟨x, y⟩ := p
      rw [hr] at h
      simp at h
      obtain ⟨rfl, rfl⟩ := h
      rw [ih _ _ hr]; rfl
    | none =>
      rw [hr] at h
      simp only at h
      split at h
      · rename_i hc
        obtain ⟨h1, h2⟩ := hc
        simp at h
        obtain ⟨rfl, rfl⟩ := h
        cases r with
        | nil => simp at h2
        | cons d r => simp at h1 h2; subst h1; subst h2; rfl
      · simp at h

theorem closing_eq : ∀ (s : Name) (d : Nat) (e : Name), closing d s = some e → s = e ++ ['}'] := by
  intro s
  induction s with
  | nil => intro d e h; simp [closing] at h
  | cons c r ih =>
    intro d e h
    unfold closing at h
    split at h
    · cases hr : closing (d + 1) r with
      | none => rw [hr] at h; simp at h
      | some x => rw [hr] at h; simp at h; subst h; rw [ih _ _ hr]; rfl
    · split at h
      · rename_i hc
        split at h
        · split at h
          · rename_i h0
            simp at h h0 hc; subst h; subst h0; subst hc; rfl
          · simp at h
        · cases hr : closing (d - 1) r with
          | none => rw [hr] at h; simp at h
          | some x => rw [hr] at h; simp at h; subst h; rw [ih _ _ hr]; rfl
      · cases hr : closing d r with
        | none => rw [hr] at h; simp at h
        | some x => rw [hr] at h; simp at h; subst h; rw [ih _ _ hr]; rfl

/-- Merging inserts the new subscript before the final brace. -/
theorem mergeSub_eq {s sub m : Name} (h : mergeSub s sub = some m) : ∃ a, s = a ++ ['}'] ∧ m = a ++ sub ++ ['}'] ∧ a ≠ [] := by
  unfold mergeSub at h
  cases hr : rfindSub s with
  | none => rw [hr] at h; simp at h
  | some p =>
    obtain ⟨x, y⟩ := p
    rw [hr] at h
    simp only at h
    cases hc : closing 1 y with
    | none => rw [hc] at h; simp at h
    | some e =>
      rw [hc] at h
      simp only [Option.some.injEq] at h
      have h1 := rfindSub_eq _ _ _ hr
      have h2 := closing_eq _ _ _ hc
      refine ⟨x ++ '_' :: '{' :: e, ?_, ?_, by simp⟩
      · rw [h1, h2]; simp
      · rw [← h]; simp

theorem clean_insert : ∀ (a sub : Name) (d : Nat), clean d (a ++ ['}']) = true → CleanE sub →
    clean d (a ++ sub ++ ['}']) = true := by
  intro a
  induction a with
  | nil =>
    intro sub d h hs
    simp [clean] at h
    subst h
    exact clean0 hs.1 (b := ['}']) rfl
  | cons c r ih =>
    intro sub d h hs
    simp only [List.cons_append] at h ⊢
    unfold clean at h ⊢
    split
    · rename_i hc; rw [if_pos hc] at h; exact ih _ _ h hs
    · rename_i hc; rw [if_neg hc] at h
      split
      · rename_i hc2; rw [if_pos hc2] at h
        simp only [Bool.and_eq_true] at h ⊢
        exact ⟨h.1, ih _ _ h.2 hs⟩
      · rename_i hc2; rw [if_neg hc2] at h
        split
        · rename_i hc3; rw [if_pos hc3] at h
          simp only [Bool.and_eq_true] at h ⊢
          refine ⟨?_, ih _ _ h.2 hs⟩
          cases r with
          | nil => simpa using headOk_append hs.2
          | cons x r => exact headOk_append (a := x :: r ++ sub) (headOk_append (by simpa [headOk] using h.1))
        · rename_i hc3; rw [if_neg hc3] at h; exact ih _ _ h hs

theorem mergeSub_ok {s sub m : Name} (h : mergeSub s sub = some m) (hs : CleanE s) (hb : CleanE sub) : CleanE m := by
  obtain ⟨a, h1, h2, h3⟩ := mergeSub_eq h
  subst h1; subst h2
  refine ⟨clean_insert a sub 0 hs.1 hb, ?_⟩
  cases a with
  | nil => simp at h3
  | cons x r => simpa [headOk] using hs.2

/-- The operators of the tables (context.py:446-470): name and number of operands. -/
def stdOps : List (Name × Nat) :=
  [("+".toList, 2), ("-".toList, 2), ("*".toList, 2), ("/".toList, 2), ("d".toList, 2), ("d^2".toList, 2),
    ("^2".toList, 1), ("^3".toList, 1)]

theorem clean_space {b : Name} (hb : CleanE b) : clean 0 (' ' :: b) = true := by
  unfold clean
  simp [hb.1, hb.2]

theorem cleanE_combine1 (lz : Bool) {name a : Name} (h : (name, 1) ∈ stdOps) (ha : CleanE a) :
    CleanE (combine lz name [a]) := by
  simp [stdOps] at h
  rcases h with rfl | rfl
  · exact cleanE_append (ensureGroup_ok ha) (by decide)
  · exact cleanE_append (ensureGroup_ok ha) (by decide)

theorem cleanE_combine2 (lz : Bool) {name a b : Name} (h : (name, 2) ∈ stdOps) (ha : CleanE a) (hb : CleanE b) :
    CleanE (combine lz name [a, b]) := by
  have two : CleanE (b ++ b) := cleanE_append hb hb.1
  simp [stdOps] at h
  rcases h with rfl | rfl | rfl | rfl | rfl | rfl
  · show CleanE ("(".toList ++ a ++ " + ".toList ++ b ++ ")".toList)
    refine ⟨?_, rfl⟩
    have h1 : clean 1 (b ++ [')']) = true := clean1 hb.1 rfl
    have h2 : clean 1 (a ++ (' ' :: '+' :: ' ' :: (b ++ [')']))) = true := clean1 ha.1 (by simpa [clean] using h1)
    simpa [clean] using h2
  · show CleanE ("(".toList ++ a ++ " - ".toList ++ b ++ ")".toList)
    refine ⟨?_, rfl⟩
    have h1 : clean 1 (b ++ [')']) = true := clean1 hb.1 rfl
    have h2 : clean 1 (a ++ (' ' :: '-' :: ' ' :: (b ++ [')']))) = true := clean1 ha.1 (by simpa [clean] using h1)
    simpa [clean] using h2
  · show CleanE (a ++ " \\cdot ".toList ++ b)
    rw [List.append_assoc]
    refine cleanE_append ha ?_
    have := clean_space hb
    simpa [clean, headOk] using this
  · show CleanE ("\\frac{".toList ++ a ++ "}{".toList ++ b ++ "}".toList)
    exact cleanE_append (cleanE_append (cleanE_append (cleanE_append ⟨by decide, by decide⟩ ha.1) (by decide)) hb.1) (by decide)
  · show CleanE (if lz then "\\frac{\\partial ".toList ++ a ++ "}{\\partial ".toList ++ b ++ "}".toList
      else (mergeSub a b).getD (a ++ "_{".toList ++ b ++ "}".toList))
    split
    · have e : "\\frac{\\partial ".toList ++ a ++ "}{\\partial ".toList ++ b ++ "}".toList =
          "\\frac{\\partial".toList ++ (' ' :: a) ++ "}{\\partial".toList ++ (' ' :: b) ++ "}".toList := by simp
      rw [e]
      exact cleanE_append (cleanE_append (cleanE_append (cleanE_append ⟨by decide, by decide⟩ (clean_space ha)) (by decide))
        (clean_space hb)) (by decide)
    · cases hm : mergeSub a b with
      | some m => exact mergeSub_ok hm ha hb
      | none => exact cleanE_append (cleanE_append (cleanE_append ha (by decide)) hb.1) (by decide)
  · show CleanE (if lz then "\\frac{\\partial^{2} ".toList ++ a ++ "}{\\partial ".toList ++ b ++ "^{2}}".toList
      else (mergeSub a (b ++ b)).getD (a ++ "_{".toList ++ b ++ b ++ "}".toList))
    split
    · have e : "\\frac{\\partial^{2} ".toList ++ a ++ "}{\\partial ".toList ++ b ++ "^{2}}".toList =
          "\\frac{\\partial^{2}".toList ++ (' ' :: a) ++ "}{\\partial".toList ++ (' ' :: b) ++ "^{2}}".toList := by simp
      rw [e]
      exact cleanE_append (cleanE_append (cleanE_append (cleanE_append ⟨by decide, by decide⟩ (clean_space ha)) (by decide))
        (clean_space hb)) (by decide)
    · cases hm : mergeSub a (b ++ b) with
      | some m => exact mergeSub_ok hm ha two
      | none => exact cleanE_append (cleanE_append (cleanE_append (cleanE_append ha (by decide)) hb.1) hb.1) (by decide)

/-! ## Leaves -/

theorem lookup_mem {α β : Type} [BEq α] : ∀ (l : List (α × β)) (a : α) (b : β), l.lookup a = some b → ∃ x, (x, b) ∈ l := by
  intro l
  induction l with
  | nil => intro a b h; simp at h
  | cons p l ih =>
    intro a b h
    obtain ⟨x, y⟩ := p
    rw [List.lookup_cons] at h
    split at h
    · simp at h; subst h; exact ⟨x, by simp⟩
    · obtain ⟨z, hz⟩ := ih a b h
      exact ⟨z, by simp [hz]⟩

/-- Names without blanks, parentheses and signs. -/
def NeutralName (n : Name) : Prop := n ≠ [] ∧ ∀ c ∈ n, neutral c = true

theorem renderLeaf_neutral {n : Name} (h : NeutralName n) : NeutralName (renderLeaf n) := by
  unfold renderLeaf
  cases hl : leafMap.lookup n with
  | none => exact h
  | some m =>
    obtain ⟨x, hx⟩ := lookup_mem _ _ _ hl
    have : ∀ p ∈ leafMap, p.2.isEmpty = false ∧ p.2.all neutral = true := by decide
    have := this _ hx
    simp at this
    exact ⟨by simpa using this.1, by simpa using this.2⟩

theorem NeutralName.cleanE {n : Name} (h : NeutralName n) : CleanE n := ⟨clean_neutral _ h.2, headOk_neutral h.1 h.2⟩

/-! ## Rendering a tree is rendering its expression -/

/-- The rendering of an expression, by structural recursion. -/
def Expr.tex (lz : Bool) : Expr → Name
  | .leaf e => renderLeaf e.name.toList
  | .un e c => combine lz e.name.toList [c.tex lz]
  | .bin e l r => combine lz e.name.toList [l.tex lz, r.tex lz]

theorem renderAt_leaf {lz : Bool} {ls : Levels} {l : List Node} {i : Nat} {n : Node} (hn : l[i]? = some n) (ha : n.arity = 0) :
    renderAt lz (l :: ls) i = some (renderLeaf n.name.toList) := by
  unfold renderAt; rw [hn]; simp only [ha]

theorem renderAt_decode (lz : Bool) (ctx : Ctx) (hc : ctx.Ok) : ∀ (ls : Levels) (l : List Node), Chain ctx (l :: ls) →
    ∀ i n e, l[i]? = some n → decode (l :: ls) i = some e → renderAt lz (l :: ls) i = some (e.tex lz) := by
  intro ls
  induction ls with
  | nil =>
    intro l h i n e hn he
    have ha := h.2 n (List.mem_of_getElem? hn)
    rw [decode_leaf_sym hn ha] at he
    simp at he; subst he
    rw [renderAt_leaf hn ha]; rfl
  | cons l2 ls ih =>
    intro l h i n e hn he
    by_cases ha : n.arity = 0
    · rw [decode_leaf_sym hn ha] at he
      simp at he; subst he
      rw [renderAt_leaf hn ha]; rfl
    · obtain ⟨h1, h2, h3⟩ := h
      obtain ⟨ho, hst⟩ := h1.op i n hn (by omega)
      obtain ⟨c0, g0, _, _⟩ := h2.child i n 0 hn (by omega)
      obtain ⟨e0, d0, _⟩ := decode_ok ctx hc ls l2 h3 _ _ g0
      have s0 := ih l2 h3 _ c0 e0 g0 d0
      rw [Nat.add_zero] at d0 s0
      rcases hc.ops _ ho with h1a | h2a
      · have e1 : n.arity = 1 := h1a
        have : decode (l :: l2 :: ls) i = some (.un n.sym e0) := by
          unfold decode; rw [hn]; simp only [e1, hst, d0]; rfl
        rw [this] at he; simp at he; subst he
        unfold renderAt; rw [hn]
        have hr : List.range 1 = [0] := rfl
        simp [hst, e1, hr, s0, Expr.tex, Node.name]
      · have e2 : n.arity = 2 := h2a
        obtain ⟨c1, g1, _, _⟩ := h2.child i n 1 hn (by omega)
        obtain ⟨e1, d1, _⟩ := decode_ok ctx hc ls l2 h3 _ _ g1
        have s1 := ih l2 h3 _ c1 e1 g1 d1
        have : decode (l :: l2 :: ls) i = some (.bin n.sym e0 e1) := by
          unfold decode; rw [hn]; simp only [e2, hst, d0, d1]
        rw [this] at he; simp at he; subst he
        unfold renderAt; rw [hn]
        have hr : List.range 2 = [0, 1] := rfl
        simp [hst, e2, hr, s0, s1, Expr.tex, Node.name]

/-- Tables whose operators are the standard ones and whose variable names are neutral. -/
structure Ctx.TexOk (ctx : Ctx) : Prop where
  ops : ∀ e ∈ ctx.OPS, (e.name.toList, e.arity) ∈ stdOps
  vars : ∀ e, e ∈ ctx.VARS ∨ e ∈ ctx.den → NeutralName e.name.toList

theorem tex_clean (lz : Bool) {ctx : Ctx} (h : ctx.TexOk) : ∀ e, Legal ctx e → CleanE (e.tex lz) := by
  intro e
  induction e with
  | leaf e => intro hl; exact (renderLeaf_neutral (h.vars e hl)).cleanE
  | un e c ih =>
    intro hl
    obtain ⟨h1, h2, h3⟩ := hl
    have := h.ops e h1
    rw [h2] at this
    exact cleanE_combine1 lz this (ih h3)
  | bin e l r ihl ihr =>
    intro hl
    obtain ⟨h1, h2, h3, h4, _⟩ := hl
    have := h.ops e h1
    rw [h2] at this
    exact cleanE_combine2 lz this (ihl h3) (ihr h4)

/-! ## Reading -/

theorem readFrom_step (d : Nat) (sgn : Bool) (acc : Name) (c : Char) (r : Name)
    (h : ¬ (d = 0 ∧ c = ' ' ∧ headOk r = false)) :
    readFrom d sgn acc (c :: r) = readFrom (if c = '(' then d + 1 else if c = ')' then d - 1 else d) sgn (c :: acc) r := by
  rw [readFrom.eq_def]
  split
  · rename_i he; simp at he
  · rename_i h1 h2 h3
    exfalso; apply h
    simp at h3
    obtain ⟨e1, e2⟩ := h3
    subst e1; subst e2
    simp [headOk]
  · rename_i h1 h2 h3
    exfalso; apply h
    simp at h3
    obtain ⟨e1, e2⟩ := h3
    subst e1; subst e2
    simp [headOk]
  · rename_i he
    simp at he
    obtain ⟨rfl, rfl⟩ := he
    rfl

theorem readFrom_clean : ∀ (b rest : Name) (d : Nat) (sgn : Bool) (acc : Name), clean d b = true →
    readFrom d sgn acc (b ++ rest) = readFrom 0 sgn (b.reverse ++ acc) rest := by
  intro b
  induction b with
  | nil => intro rest d sgn acc h; simp [clean] at h; subst h; simp
  | cons c r ih =>
    intro rest d sgn acc h
    unfold clean at h
    rw [List.cons_append]
    rw [readFrom_step]
    · by_cases h1 : c = '('
      · rw [if_pos h1] at h ⊢
        rw [ih _ _ _ _ h]; simp
      · rw [if_neg h1] at h ⊢
        by_cases h2 : c = ')'
        · rw [if_pos h2] at h ⊢
          simp only [Bool.and_eq_true] at h
          rw [ih _ _ _ _ h.2]; simp
        · rw [if_neg h2] at h ⊢
          have : clean d r = true := by
            split at h
            · simp only [Bool.and_eq_true] at h; exact h.2
            · exact h
          rw [ih _ _ _ _ this]; simp
    · rintro ⟨rfl, rfl, h3⟩
      simp at h
      rw [headOk_append h.1] at h3
      simp at h3

/-- A list of clean bodies joined with signs is read back. -/
theorem readFrom_join : ∀ (ps : List (Bool × Name)) (sgn : Bool) (b : Name), clean 0 b = true → (∀ p ∈ ps, clean 0 p.2 = true) →
    readFrom 0 sgn [] (b ++ joinTerms ps) = (sgn, b) :: ps := by
  intro ps
  induction ps with
  | nil =>
    intro sgn b hb _
    rw [readFrom_clean _ _ _ _ _ hb]
    simp [joinTerms, readFrom]
  | cons p ps ih =>
    intro sgn b hb h
    obtain ⟨s, x⟩ := p
    rw [readFrom_clean _ _ _ _ _ hb]
    have hx := h (s, x) (by simp)
    have := ih s x hx fun q hq => h q (by simp [hq])
    cases s
    · simp only [joinTerms]
      show readFrom 0 sgn (b.reverse ++ []) (' ' :: '-' :: ' ' :: (x ++ joinTerms ps)) = _
      rw [readFrom, this]; simp
    · simp only [joinTerms]
      show readFrom 0 sgn (b.reverse ++ []) (' ' :: '+' :: ' ' :: (x ++ joinTerms ps)) = _
      rw [readFrom, this]; simp

end Verif.Sga
