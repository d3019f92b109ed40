import Verif.Sga.EquationLemmas
import Mathlib.Data.List.Induction
/-!
# Unique readability of the LaTeX of SGA terms (Leibniz notation)

`T` is the syntax the texts are made of; products are read as lists of factors.
-/
namespace Verif.Sga.Latex

/-- Terms as they are shown: `pow` has an exponent (false: 2, true: 3), `d` a flag for second derivatives and the axis. -/
inductive T where
  | leaf (w : Name)
  | sum (minus : Bool) (a b : T)
  | mul (a b : T)
  | frac (a b : T)
  | pow (k : Bool) (a : T)
  | d (two : Bool) (a : T) (w : Name)
deriving DecidableEq

def ex (k : Bool) : Name := if k then "^{3}".toList else "^{2}".toList

/-- The text of a term. -/
def T.tex : T → Name
  | .leaf w => w
  | .sum m a b => '(' :: (a.tex ++ ((if m then " - ".toList else " + ".toList) ++ (b.tex ++ [')'])))
  | .mul a b => a.tex ++ (" \\cdot ".toList ++ b.tex)
  | .frac a b => "\\frac{".toList ++ (a.tex ++ ("}{".toList ++ (b.tex ++ ['}'])))
  | .pow k a => ensureGroup a.tex ++ ex k
  | .d two a w => if two then "\\frac{".toList ++ ("\\partial^{2} ".toList ++ (a.tex ++ ("}{\\partial ".toList ++ (w ++ "^{2}}".toList))))
      else "\\frac{".toList ++ ("\\partial ".toList ++ (a.tex ++ ("}{\\partial ".toList ++ (w ++ "}".toList))))

def T.size : T → Nat
  | .leaf _ => 1
  | .sum _ a b => a.size + b.size + 1
  | .mul a b => a.size + b.size + 1
  | .frac a b => a.size + b.size + 1
  | .pow _ a => a.size + 1
  | .d _ a _ => a.size + 1

/-- Braces match. -/
def bal : Nat → Name → Bool
  | d, [] => d == 0
  | d, c :: r => if c = '{' then bal (d + 1) r else if c = '}' then d != 0 && bal (d - 1) r else bal d r

/-- Words for variables: no blanks, brackets, signs or powers, matching braces, no LaTeX command beginning with f or p. -/
structure LeafOk (w : Name) : Prop where
  neutral : NeutralName w
  pow : '^' ∉ w
  bal : bal 0 w = true
  cmd : ∀ s, w ≠ ['\\'] ∧ w ≠ '\\' :: 'f' :: s ∧ w ≠ '\\' :: 'p' :: s

def T.isSum : T → Bool
  | .sum _ _ _ => true
  | _ => false

def T.isMul : T → Bool
  | .mul _ _ => true
  | _ => false

/-- What is needed for the text to be unambiguous. -/
def T.Ok : T → Prop
  | .leaf w => LeafOk w
  | .sum _ a b => a.Ok ∧ b.Ok
  | .mul a b => a.Ok ∧ b.Ok
  | .frac a b => a.Ok ∧ b.Ok
  | .pow _ a => a.Ok ∧ (a.tex.head? = some '(' ∧ a.tex.getLast? = some ')' → a.isSum = true)
  | .d _ a w => a.Ok ∧ LeafOk w

/-- The product of a list of factors, bracketed to the right. -/
def unf : List T → T
  | [] => .leaf []
  | [f] => f
  | f :: g :: fs => .mul f (unf (g :: fs))

/-- The factors of a term, all products inside bracketed to the right. -/
def T.rfacs : T → List T
  | .leaf w => [.leaf w]
  | .sum m a b => [.sum m (unf a.rfacs) (unf b.rfacs)]
  | .mul a b => a.rfacs ++ b.rfacs
  | .frac a b => [.frac (unf a.rfacs) (unf b.rfacs)]
  | .pow k a => [.pow k (unf a.rfacs)]
  | .d two a w => [.d two (unf a.rfacs) w]

def T.right (t : T) : T := unf t.rfacs

/-- The factors of a term as they are. -/
def T.facs : T → List T
  | .mul a b => a.facs ++ b.facs
  | t => [t]

def join : List T → Name
  | [] => []
  | [f] => f.tex
  | f :: g :: fs => f.tex ++ (" \\cdot ".toList ++ join (g :: fs))

theorem join_append (a b : List T) (ha : a ≠ []) (hb : b ≠ []) : join (a ++ b) = join a ++ (" \\cdot ".toList ++ join b) := by
  induction a with
  | nil => exact absurd rfl ha
  | cons f a ih =>
    cases a with
    | nil =>
      cases b with
      | nil => exact absurd rfl hb
      | cons g b => rfl
    | cons g a =>
      show f.tex ++ (" \\cdot ".toList ++ join ((g :: a) ++ b)) = (f.tex ++ (" \\cdot ".toList ++ join (g :: a))) ++ _
      rw [ih (by simp)]
      simp only [List.append_assoc]

theorem facs_ne : ∀ t : T, t.facs ≠ [] := by
  intro t
  induction t with
  | mul a b iha ihb => simp [T.facs, iha]
  | _ => simp [T.facs]

theorem tex_join : ∀ t : T, t.tex = join t.facs := by
  intro t
  induction t with
  | mul a b iha ihb =>
    rw [T.facs, join_append _ _ (facs_ne a) (facs_ne b), ← iha, ← ihb]; rfl
  | _ => rfl

theorem rfacs_facs : ∀ t : T, t.rfacs = t.facs.flatMap T.rfacs := by
  intro t
  induction t with
  | mul a b iha ihb => rw [T.facs, List.flatMap_append, ← iha, ← ihb]; rfl
  | _ => simp [T.facs]

theorem facs_props : ∀ t : T, t.Ok → ∀ f ∈ t.facs, f.Ok ∧ f.isMul = false ∧ f.size ≤ t.size := by
  intro t
  induction t with
  | mul a b iha ihb =>
    intro h f hf
    simp only [T.facs, List.mem_append] at hf
    rcases hf with hf | hf
    · obtain ⟨p, q, r⟩ := iha h.1 f hf
      exact ⟨p, q, by simp only [T.size]; omega⟩
    · obtain ⟨p, q, r⟩ := ihb h.2 f hf
      exact ⟨p, q, by simp only [T.size]; omega⟩
  | _ =>
    intro h f hf
    simp only [T.facs, List.mem_singleton] at hf
    subst hf
    exact ⟨h, rfl, Nat.le_refl _⟩

/-! ## Ends -/

/-- After a variable. -/
def leafEnd : Name → Prop
  | [] => True
  | c :: _ => c = ' ' ∨ c = ')' ∨ c = '}' ∨ c = '^'

/-- After a factor. -/
def facEnd : Name → Prop
  | [] => True
  | c :: _ => c = ' ' ∨ c = ')' ∨ c = '}'

/-- After a term. -/
def termEnd : Name → Prop
  | [] => True
  | c :: r => c = ')' ∨ c = '}' ∨ (c = ' ' ∧ (r.head? = some '+' ∨ r.head? = some '-'))

theorem facEnd.leaf {r : Name} (h : facEnd r) : leafEnd r := by
  cases r with
  | nil => trivial
  | cons c r => rcases h with h | h | h <;> simp [leafEnd, h]

theorem termEnd.fac {r : Name} (h : termEnd r) : facEnd r := by
  cases r with
  | nil => trivial
  | cons c r => rcases h with h | h | h <;> simp [facEnd, h]

theorem bal_append : ∀ (w s : Name) (d : Nat), bal d w = true → bal d (w ++ s) = bal 0 s := by
  intro w
  induction w with
  | nil => intro s d h; simp only [bal, beq_iff_eq] at h; rw [h]; rfl
  | cons c w ih =>
    intro s d h
    simp only [List.cons_append, bal] at h ⊢
    by_cases h1 : c = '{'
    · rw [if_pos h1] at h ⊢; exact ih s _ h
    · rw [if_neg h1] at h ⊢
      by_cases h2 : c = '}'
      · rw [if_pos h2] at h ⊢
        simp only [Bool.and_eq_true] at h
        rw [ih s _ h.2, h.1, Bool.true_and]
      · rw [if_neg h2] at h ⊢; exact ih s _ h

theorem leaf_no_more {w s : Name} {c : Char} (h : LeafOk w) (h' : LeafOk (w ++ c :: s)) (hc : c = ' ' ∨ c = ')' ∨ c = '}' ∨ c = '^') : False := by
  have hm : c ∈ w ++ c :: s := by simp
  rcases hc with rfl | rfl | rfl | rfl
  · have := h'.neutral.2 _ hm; simp [Sga.neutral] at this
  · have := h'.neutral.2 _ hm; simp [Sga.neutral] at this
  · have := h'.bal
    rw [bal_append _ _ _ h.bal] at this
    simp [bal] at this
  · exact h'.pow hm

theorem leaf_unique {w w' r r' : Name} (h : LeafOk w) (h' : LeafOk w') (hr : leafEnd r) (hr' : leafEnd r') (he : w ++ r = w' ++ r') :
    w = w' ∧ r = r' := by
  rcases List.append_eq_append_iff.1 he with ⟨s, e1, e2⟩ | ⟨s, e1, e2⟩
  · cases s with
    | nil => simp at e1 e2; exact ⟨e1.symm, e2⟩
    | cons c s =>
      subst e1 e2
      exact (leaf_no_more h h' hr).elim
  · cases s with
    | nil => simp at e1 e2; exact ⟨e1, e2.symm⟩
    | cons c s =>
      subst e1 e2
      exact (leaf_no_more h' h hr').elim

/-! ## First letters -/

theorem leafOk_head {w : Name} (h : LeafOk w) : ∃ c s, w = c :: s ∧ c ≠ '(' ∧ c ≠ ' ' ∧ c ≠ ')' ∧ c ≠ '^' ∧ c ≠ '}' := by
  obtain ⟨⟨h0, h1⟩, h2, h3, _⟩ := h
  cases w with
  | nil => exact absurd rfl h0
  | cons c s =>
    have := h1 c (by simp)
    simp only [Sga.neutral, Bool.and_eq_true, bne_iff_ne, ne_eq] at this
    refine ⟨c, s, rfl, this.1.1.1.2, this.1.1.1.1, this.1.1.2, fun e => h2 (by simp [e]), ?_⟩
    intro e
    subst e
    simp [bal] at h3

/-- No variable begins with a command beginning with f or p, whatever follows. -/
theorem leafOk_cmd {w : Name} (h : LeafOk w) (r s : Name) (x : Char) (hx : x = 'f' ∨ x = 'p') : w ++ r ≠ '\\' :: x :: s := by
  intro e
  have hc := h.cmd
  cases w with
  | nil => exact h.neutral.1 rfl
  | cons c w =>
    simp only [List.cons_append, List.cons.injEq] at e
    obtain ⟨e1, e2⟩ := e
    subst e1
    cases w with
    | nil => exact (hc []).1 rfl
    | cons c2 w =>
      simp only [List.cons_append, List.cons.injEq] at e2
      rcases hx with rfl | rfl
      · exact (hc w).2.1 (by rw [e2.1])
      · exact (hc w).2.2 (by rw [e2.1])

theorem ensureGroup_cases (e : Name) : ensureGroup e = e ∨ ensureGroup e = '(' :: (e ++ [')']) := by
  unfold ensureGroup
  split
  · exact Or.inl rfl
  · split
    · exact Or.inr rfl
    · split
      · exact Or.inr rfl
      · exact Or.inl rfl

/-- No term begins with `\p`. -/
theorem tex_not_partial : ∀ (t : T), t.Ok → ∀ r s, t.tex ++ r ≠ '\\' :: 'p' :: s := by
  intro t
  induction t with
  | leaf w => intro h r s; exact leafOk_cmd h r s 'p' (Or.inr rfl)
  | sum m a b _ _ => intro _ r s e; simp [T.tex] at e
  | mul a b iha _ => intro h r s; rw [T.tex, List.append_assoc]; exact iha h.1 _ _
  | frac a b _ _ => intro _ r s e; simp [T.tex] at e
  | pow k a ih =>
    intro h r s
    rw [T.tex, List.append_assoc]
    rcases ensureGroup_cases a.tex with e | e
    · rw [e]; exact ih h.1 _ _
    · rw [e]; intro e'; simp at e'
  | d two a w _ => intro _ r s e; cases two <;> simp [T.tex] at e

/-! ## Factors are an atom with exponents -/

def texExps : List Bool → Name
  | [] => []
  | k :: ks => ex k ++ texExps ks

theorem texExps_append (a b : List Bool) : texExps (a ++ b) = texExps a ++ texExps b := by
  induction a with
  | nil => rfl
  | cons k a ih => simp [texExps, ih]

def pows (c : T) (ks : List Bool) : T := ks.foldl (fun a k => .pow k a) c

def atomTex (g : Bool) (c : T) : Name := if g then '(' :: (c.tex ++ [')']) else c.tex

/-- Shape of atoms: in brackets, or a variable, sum, fraction or derivative. -/
def AtomOk (g : Bool) (c : T) : Prop := g = true ∨ (∃ w, c = .leaf w) ∨ (∃ m a b, c = .sum m a b) ∨ (∃ a b, c = .frac a b) ∨ ∃ two a w, c = .d two a w

theorem head_getLast (a : Name) : ('(' :: (a ++ [')'])).getLast? = some ')' := by
  rw [show '(' :: (a ++ [')']) = ('(' :: a) ++ [')'] from rfl, List.getLast?_concat]

theorem ensureGroup_leaf {w : Name} (h : LeafOk w) : ensureGroup w = w := by
  obtain ⟨c, s, e, hc, _⟩ := leafOk_head h
  unfold ensureGroup
  rw [if_neg (by rw [e]; simp [hc])]
  have h2 : "\\frac".toList.isPrefixOf w = false := by
    cases hp : "\\frac".toList.isPrefixOf w with
    | false => rfl
    | true =>
      rw [List.isPrefixOf_iff_prefix] at hp
      obtain ⟨t, ht⟩ := hp
      exact absurd (show w ++ [] = '\\' :: 'f' :: ("rac".toList ++ t) by rw [← ht]; simp) (leafOk_cmd h _ _ _ (Or.inl rfl))
  rw [if_neg (by rw [h2]; exact Bool.false_ne_true), if_neg]
  simp only [List.any_eq_true, not_exists, not_and]
  intro x hx
  have := h.neutral.2 x hx
  simp only [Sga.neutral, Bool.and_eq_true, bne_iff_ne, ne_eq] at this
  simp [this.1.1.1.1, this.1.2, this.2]

theorem ensureGroup_sum (m : Bool) (a b : T) : ensureGroup (T.sum m a b).tex = (T.sum m a b).tex := by
  unfold ensureGroup
  rw [if_pos]
  refine ⟨rfl, ?_⟩
  rw [T.tex]
  have : '(' :: (a.tex ++ ((if m then " - ".toList else " + ".toList) ++ (b.tex ++ [')']))) =
    '(' :: ((a.tex ++ ((if m then " - ".toList else " + ".toList) ++ b.tex)) ++ [')']) := by simp only [List.append_assoc]
  rw [this, head_getLast]

theorem ensureGroup_frac (r : Name) : ensureGroup ("\\frac{".toList ++ r) = '(' :: (("\\frac{".toList ++ r) ++ [')']) := by
  unfold ensureGroup
  rw [if_neg (by simp), if_pos]
  · rfl
  · rw [List.isPrefixOf_iff_prefix]; exact ⟨'{' :: r, by simp⟩

theorem ensureGroup_mul {a b : T} (h : ¬ ((T.mul a b).tex.head? = some '(' ∧ (T.mul a b).tex.getLast? = some ')')) :
    ensureGroup (T.mul a b).tex = '(' :: ((T.mul a b).tex ++ [')']) := by
  unfold ensureGroup
  rw [if_neg h]
  split
  · rfl
  · rw [if_pos]
    · rfl
    · simp [T.tex]

/-- The powers of a factor. -/
theorem atom_exists : ∀ f : T, f.Ok → f.isMul = false → ∃ g c ks, f = pows c ks ∧ f.tex = atomTex g c ++ texExps ks ∧ AtomOk g c ∧ c.Ok ∧
    (g = true → c.size < f.size) ∧ c.size ≤ f.size := by
  intro f
  induction f with
  | leaf w => intro h _; exact ⟨false, .leaf w, [], rfl, by simp [atomTex, texExps, T.tex], Or.inr (Or.inl ⟨w, rfl⟩), h, (fun h => nomatch h), Nat.le_refl _⟩
  | sum m a b _ _ => intro h _; exact ⟨false, .sum m a b, [], rfl, by simp [atomTex, texExps], Or.inr (Or.inr (Or.inl ⟨_, _, _, rfl⟩)), h, (fun h => nomatch h), Nat.le_refl _⟩
  | mul a b _ _ => intro _ h; cases h
  | frac a b _ _ => intro h _; exact ⟨false, .frac a b, [], rfl, by simp [atomTex, texExps], Or.inr (Or.inr (Or.inr (Or.inl ⟨_, _, rfl⟩))), h, (fun h => nomatch h), Nat.le_refl _⟩
  | d two a w _ => intro h _; exact ⟨false, .d two a w, [], rfl, by simp [atomTex, texExps], Or.inr (Or.inr (Or.inr (Or.inr ⟨_, _, _, rfl⟩))), h, (fun h => nomatch h), Nat.le_refl _⟩
  | pow k a ih =>
    intro h _
    have grp : ensureGroup a.tex = '(' :: (a.tex ++ [')']) → ∃ g c ks, T.pow k a = pows c ks ∧ (T.pow k a).tex = atomTex g c ++ texExps ks ∧ AtomOk g c ∧ c.Ok ∧
        (g = true → c.size < (T.pow k a).size) ∧ c.size ≤ (T.pow k a).size := by
      intro e
      exact ⟨true, a, [k], rfl, by simp [T.tex, e, atomTex, texExps], Or.inl rfl, h.1, fun _ => Nat.lt_succ_self _, Nat.le_succ _⟩
    by_cases hm : a.isMul = true
    · cases a with
      | mul a b =>
        apply grp
        apply ensureGroup_mul
        intro hh
        have := h.2 hh
        cases this
      | _ => cases hm
    · have same : ensureGroup a.tex = a.tex → ∃ g c ks, T.pow k a = pows c ks ∧ (T.pow k a).tex = atomTex g c ++ texExps ks ∧ AtomOk g c ∧ c.Ok ∧
          (g = true → c.size < (T.pow k a).size) ∧ c.size ≤ (T.pow k a).size := by
        intro e
        obtain ⟨g, c, ks, e1, e2, e3, e4, e5, e6⟩ := ih h.1 (by simpa using hm)
        refine ⟨g, c, ks ++ [k], by rw [e1]; simp [pows], ?_, e3, e4, fun hg => Nat.lt_succ_of_lt (e5 hg), Nat.le_succ_of_le e6⟩
        rw [T.tex, e, e2, texExps_append]
        simp [texExps]
      rcases ensureGroup_cases a.tex with e | e
      · exact same e
      · exact grp e

theorem rfacs_pow (f : T) (k : Bool) : (T.pow k f).rfacs = [T.pow k f.right] := rfl

theorem pows_rfacs (ks : List Bool) : ∀ c : T, ks ≠ [] → (pows c ks).rfacs = [pows c.right ks] := by
  induction ks using List.reverseRecOn with
  | nil => intro c h; exact absurd rfl h
  | append_singleton ks k ih =>
    intro c _
    have e : ∀ x : T, pows x (ks ++ [k]) = .pow k (pows x ks) := by intro x; simp [pows]
    rw [e, e, rfacs_pow]
    cases ks with
    | nil => rfl
    | cons k0 ks =>
      rw [T.right, ih c (by simp)]
      rfl

theorem exps_unique : ∀ (ks ks' : List Bool) (r r' : Name), facEnd r → facEnd r' → texExps ks ++ r = texExps ks' ++ r' → ks = ks' ∧ r = r' := by
  intro ks
  induction ks with
  | nil =>
    intro ks' r r' hr hr' he
    cases ks' with
    | nil => exact ⟨rfl, by simpa [texExps] using he⟩
    | cons k ks' =>
      exfalso
      simp only [texExps, List.nil_append] at he
      subst he
      cases k <;> simp [ex, facEnd] at hr
  | cons k ks ih =>
    intro ks' r r' hr hr' he
    cases ks' with
    | nil =>
      exfalso
      simp only [texExps, List.nil_append] at he
      subst he
      cases k <;> simp [ex, facEnd] at hr'
    | cons k' ks' =>
      have hk : k = k' ∧ texExps ks ++ r = texExps ks' ++ r' := by
        cases k <;> cases k' <;> simpa [texExps, ex] using he
      obtain ⟨a, b⟩ := ih ks' r r' hr hr' hk.2
      exact ⟨by rw [hk.1, a], b⟩

theorem texExps_leafEnd (ks : List Bool) (r : Name) (h : facEnd r) : leafEnd (texExps ks ++ r) := by
  cases ks with
  | nil => exact h.leaf
  | cons k ks => cases k <;> simp [texExps, ex, leafEnd]

/-- What is known about smaller terms. -/
def Below (n : Nat) : Prop := ∀ t : T, t.size < n → t.Ok → ∀ (t' : T) (r r' : Name), t'.Ok → termEnd r → termEnd r' →
  t.tex ++ r = t'.tex ++ r' → t.rfacs = t'.rfacs ∧ r = r'

theorem frac_tail_unique {n : Nat} (ih : Below n) (c c' : T) (h : (∃ a b, c = .frac a b) ∨ ∃ two a w, c = .d two a w)
    (h' : (∃ a b, c' = .frac a b) ∨ ∃ two a w, c' = .d two a w) (ok : c.Ok) (ok' : c'.Ok) (hs : c.size ≤ n) (R R' : Name)
    (he : c.tex ++ R = c'.tex ++ R') : c.rfacs = c'.rfacs ∧ R = R' := by
  rcases h with ⟨a, b, rfl⟩ | ⟨two, a, w, rfl⟩
  · simp only [T.size] at hs
    rcases h' with ⟨a', b', rfl⟩ | ⟨two', a', w', rfl⟩
    · simp only [T.tex, List.append_assoc, List.append_cancel_left_eq] at he
      obtain ⟨e1, e2⟩ := ih a (by omega) ok.1 a' _ _ ok'.1 (by simp [termEnd]) (by simp [termEnd]) he
      simp only [List.append_cancel_left_eq] at e2
      obtain ⟨e3, e4⟩ := ih b (by omega) ok.2 b' _ _ ok'.2 (by simp [termEnd]) (by simp [termEnd]) e2
      refine ⟨by simp [T.rfacs, e1, e3], by simpa using e4⟩
    · exfalso
      cases two' <;> simp only [T.tex, List.append_assoc, List.append_cancel_left_eq, if_true, Bool.false_eq_true, if_false] at he <;>
        exact tex_not_partial a ok.1 _ _ (he.trans (by simp; rfl))
  · simp only [T.size] at hs
    rcases h' with ⟨a', b', rfl⟩ | ⟨two', a', w', rfl⟩
    · exfalso
      cases two <;> simp only [T.tex, List.append_assoc, List.append_cancel_left_eq, if_true, Bool.false_eq_true, if_false] at he <;>
        exact tex_not_partial a' ok'.1 _ _ (he.symm.trans (by simp; rfl))
    · cases two <;> cases two' <;> simp only [T.tex, List.append_assoc, List.append_cancel_left_eq, if_true, Bool.false_eq_true, if_false] at he
      · obtain ⟨e1, e2⟩ := ih a (by omega) ok.1 a' _ _ ok'.1 (by simp [termEnd]) (by simp [termEnd]) he
        simp only [List.append_cancel_left_eq] at e2
        obtain ⟨e3, e4⟩ := leaf_unique ok.2 ok'.2 (by simp [leafEnd]) (by simp [leafEnd]) e2
        exact ⟨by simp [T.rfacs, e1, e3], by simpa using e4⟩
      · simp at he
      · simp at he
      · obtain ⟨e1, e2⟩ := ih a (by omega) ok.1 a' _ _ ok'.1 (by simp [termEnd]) (by simp [termEnd]) he
        simp only [List.append_cancel_left_eq] at e2
        obtain ⟨e3, e4⟩ := leaf_unique ok.2 ok'.2 (by simp [leafEnd]) (by simp [leafEnd]) e2
        exact ⟨by simp [T.rfacs, e1, e3], by simpa using e4⟩

theorem frac_head (c : T) (h : (∃ a b, c = .frac a b) ∨ ∃ two a w, c = .d two a w) (R : Name) : ∃ s, c.tex ++ R = '\\' :: 'f' :: s := by
  rcases h with ⟨a, b, rfl⟩ | ⟨two, a, w, rfl⟩
  · exact ⟨_, by simp only [T.tex, List.append_assoc]; simp; rfl⟩
  · cases two <;> exact ⟨_, by simp [T.tex]; rfl⟩

/-- The texts in brackets: a group or a sum. -/
def Par (g : Bool) (c : T) : Prop := g = true ∨ ∃ m a b, c = .sum m a b

theorem par_head (g : Bool) (c : T) (h : Par g c) (R : Name) : ∃ s, atomTex g c ++ R = '(' :: s := by
  cases g with
  | true => exact ⟨_, rfl⟩
  | false =>
    rcases h with h | ⟨m, a, b, rfl⟩
    · cases h
    · exact ⟨_, rfl⟩

theorem par_unique {n : Nat} (ih : Below n) (g g' : Bool) (c c' : T) (h : Par g c) (h' : Par g' c') (ok : c.Ok) (ok' : c'.Ok) (hg : g = true → c.size < n)
    (hs : c.size ≤ n) (R R' : Name) (he : atomTex g c ++ R = atomTex g' c' ++ R') : c.rfacs = c'.rfacs ∧ R = R' := by
  cases g with
  | true =>
    cases g' with
    | true =>
      simp only [atomTex, if_true, List.cons_append, List.append_assoc, List.cons.injEq, true_and] at he
      obtain ⟨e1, e2⟩ := ih c (hg rfl) ok c' _ _ ok' (by simp [termEnd]) (by simp [termEnd]) he
      exact ⟨e1, by simpa using e2⟩
    | false =>
      exfalso
      rcases h' with h' | ⟨m, a, b, rfl⟩
      · cases h'
      · simp only [atomTex, if_true, Bool.false_eq_true, if_false, T.tex, List.cons_append, List.append_assoc, List.cons.injEq, true_and] at he
        obtain ⟨e1, e2⟩ := ih c (hg rfl) ok a _ _ ok'.1 (by simp [termEnd]) (by cases m <;> simp [termEnd]) he
        cases m <;> simp at e2
  | false =>
    rcases h with h | ⟨m, a, b, rfl⟩
    · cases h
    simp only [T.size] at hs
    cases g' with
    | true =>
      exfalso
      simp only [atomTex, if_true, Bool.false_eq_true, if_false, T.tex, List.cons_append, List.append_assoc, List.cons.injEq, true_and] at he
      obtain ⟨e1, e2⟩ := ih a (by omega) ok.1 c' _ _ ok' (by cases m <;> simp [termEnd]) (by simp [termEnd]) he
      cases m <;> simp at e2
    | false =>
      rcases h' with h' | ⟨m', a', b', rfl⟩
      · cases h'
      simp only [atomTex, Bool.false_eq_true, if_false, T.tex, List.cons_append, List.append_assoc, List.cons.injEq, true_and] at he
      obtain ⟨e1, e2⟩ := ih a (by omega) ok.1 a' _ _ ok'.1 (by cases m <;> simp [termEnd]) (by cases m' <;> simp [termEnd]) he
      have hm : m = m' ∧ b.tex ++ (')' :: R) = b'.tex ++ (')' :: R') := by
        cases m <;> cases m' <;> simpa using e2
      obtain ⟨e3, e4⟩ := ih b (by omega) ok.2 b' _ _ ok'.2 (by simp [termEnd]) (by simp [termEnd]) hm.2
      exact ⟨by simp [T.rfacs, e1, e3, hm.1], by simpa using e4⟩

theorem atom_cases {g : Bool} {c : T} (h : AtomOk g c) : Par g c ∨ (g = false ∧ ∃ w, c = .leaf w) ∨
    (g = false ∧ ((∃ a b, c = .frac a b) ∨ ∃ two a w, c = .d two a w)) := by
  cases g with
  | true => exact Or.inl (Or.inl rfl)
  | false =>
    rcases h with h | h | h | h | h
    · cases h
    · exact Or.inr (Or.inl ⟨rfl, h⟩)
    · exact Or.inl (Or.inr h)
    · exact Or.inr (Or.inr ⟨rfl, Or.inl h⟩)
    · exact Or.inr (Or.inr ⟨rfl, Or.inr h⟩)

theorem leaf_not_par {w s : Name} (h : LeafOk w) (R : Name) : w ++ R ≠ '(' :: s := by
  obtain ⟨c, t, rfl, hc, _⟩ := leafOk_head h
  intro e
  simp only [List.cons_append, List.cons.injEq] at e
  exact hc e.1

theorem atom_unique {n : Nat} (ih : Below n) (g g' : Bool) (c c' : T) (h : AtomOk g c) (h' : AtomOk g' c') (ok : c.Ok) (ok' : c'.Ok)
    (hg : g = true → c.size < n) (hs : c.size ≤ n) (R R' : Name) (hR : leafEnd R) (hR' : leafEnd R')
    (he : atomTex g c ++ R = atomTex g' c' ++ R') : c.rfacs = c'.rfacs ∧ R = R' := by
  rcases atom_cases h with hp | ⟨rfl, w, rfl⟩ | ⟨rfl, hf⟩
  · rcases atom_cases h' with hp' | ⟨rfl, w, rfl⟩ | ⟨rfl, hf⟩
    · exact par_unique ih g g' c c' hp hp' ok ok' hg hs R R' he
    · exfalso
      obtain ⟨s, es⟩ := par_head g c hp R
      exact leaf_not_par ok' R' (he.symm.trans es)
    · exfalso
      obtain ⟨s, es⟩ := par_head g c hp R
      obtain ⟨s', es'⟩ := frac_head c' hf R'
      have := es.symm.trans (he.trans es')
      simp at this
  · rcases atom_cases h' with hp' | ⟨rfl, w', rfl⟩ | ⟨rfl, hf⟩
    · exfalso
      obtain ⟨s, es⟩ := par_head g' c' hp' R'
      exact leaf_not_par ok R (he.trans es)
    · obtain ⟨e1, e2⟩ := leaf_unique ok ok' hR hR' he
      exact ⟨by rw [e1], e2⟩
    · exfalso
      obtain ⟨s', es'⟩ := frac_head c' hf R'
      exact leafOk_cmd ok R _ 'f' (Or.inl rfl) (he.trans es')
  · rcases atom_cases h' with hp' | ⟨rfl, w', rfl⟩ | ⟨rfl, hf'⟩
    · exfalso
      obtain ⟨s, es⟩ := par_head g' c' hp' R'
      obtain ⟨s', es'⟩ := frac_head c hf R
      have := es.symm.trans (he.symm.trans es')
      simp at this
    · exfalso
      obtain ⟨s', es'⟩ := frac_head c hf R
      exact leafOk_cmd ok' R' _ 'f' (Or.inl rfl) (he.symm.trans es')
    · exact frac_tail_unique ih c c' hf hf' ok ok' hs R R' he

theorem fac_unique {n : Nat} (ih : Below n) (f f' : T) (ok : f.Ok) (ok' : f'.Ok) (hm : f.isMul = false) (hm' : f'.isMul = false) (hs : f.size ≤ n)
    (r r' : Name) (hr : facEnd r) (hr' : facEnd r') (he : f.tex ++ r = f'.tex ++ r') : f.rfacs = f'.rfacs ∧ r = r' := by
  obtain ⟨g, c, ks, e1, e2, e3, e4, e5, e6⟩ := atom_exists f ok hm
  obtain ⟨g', c', ks', d1, d2, d3, d4, d5, d6⟩ := atom_exists f' ok' hm'
  rw [e2, d2, List.append_assoc, List.append_assoc] at he
  obtain ⟨a1, a2⟩ := atom_unique ih g g' c c' e3 d3 e4 d4 (fun hg => Nat.lt_of_lt_of_le (e5 hg) hs) (Nat.le_trans e6 hs) _ _
    (texExps_leafEnd ks r hr) (texExps_leafEnd ks' r' hr') he
  obtain ⟨b1, b2⟩ := exps_unique ks ks' r r' hr hr' a2
  refine ⟨?_, b2⟩
  rw [e1, d1, b1]
  by_cases hk : ks' = []
  · rw [hk]; exact a1
  · rw [pows_rfacs _ _ hk, pows_rfacs _ _ hk, T.right, T.right, a1]

theorem facs_unique {n : Nat} (ih : Below n) : ∀ (fs fs' : List T) (r r' : Name), fs ≠ [] → fs' ≠ [] → (∀ f ∈ fs, f.Ok ∧ f.isMul = false ∧ f.size ≤ n) →
    (∀ f ∈ fs', f.Ok ∧ f.isMul = false) → termEnd r → termEnd r' → join fs ++ r = join fs' ++ r' → fs.flatMap T.rfacs = fs'.flatMap T.rfacs ∧ r = r' := by
  intro fs
  induction fs with
  | nil => intro _ _ _ h; exact absurd rfl h
  | cons f fs ihf =>
    intro fs' r r' _ h2 h3 h4 hr hr' he
    cases fs' with
    | nil => exact absurd rfl h2
    | cons f' fs' =>
      have p := h3 f (by simp)
      have p' := h4 f' (by simp)
      cases fs with
      | nil =>
        cases fs' with
        | nil =>
          obtain ⟨a, b⟩ := fac_unique ih f f' p.1 p'.1 p.2.1 p'.2 p.2.2 r r' hr.fac hr'.fac he
          exact ⟨by simp [a], b⟩
        | cons g' fs' =>
          exfalso
          simp only [join, List.append_assoc] at he
          obtain ⟨a, b⟩ := fac_unique ih f f' p.1 p'.1 p.2.1 p'.2 p.2.2 _ _ hr.fac (by simp [facEnd]) he
          subst b
          simp [termEnd] at hr
      | cons g fs =>
        cases fs' with
        | nil =>
          exfalso
          simp only [join, List.append_assoc] at he
          obtain ⟨a, b⟩ := fac_unique ih f f' p.1 p'.1 p.2.1 p'.2 p.2.2 _ _ (by simp [facEnd]) hr'.fac he
          subst b
          simp [termEnd] at hr'
        | cons g' fs' =>
          simp only [join, List.append_assoc] at he
          obtain ⟨a, b⟩ := fac_unique ih f f' p.1 p'.1 p.2.1 p'.2 p.2.2 _ _ (by simp [facEnd]) (by simp [facEnd]) he
          simp only [List.append_cancel_left_eq] at b
          obtain ⟨c, d⟩ := ihf (g' :: fs') r r' (by simp) (by simp) (fun x hx => h3 x (by simp [hx])) (fun x hx => h4 x (by simp [hx])) hr hr' b
          exact ⟨by show f.rfacs ++ (g :: fs).flatMap T.rfacs = f'.rfacs ++ (g' :: fs').flatMap T.rfacs; rw [a, c], d⟩

theorem below : ∀ n, Below n := by
  intro n
  induction n with
  | zero => intro t h; exact absurd h (Nat.not_lt_zero _)
  | succ n ih =>
    intro t ht ok t' r r' ok' hr hr' he
    rw [tex_join t, tex_join t'] at he
    have p := facs_props t ok
    have p' := facs_props t' ok'
    obtain ⟨a, b⟩ := facs_unique ih t.facs t'.facs r r' (facs_ne t) (facs_ne t') (fun f hf => ⟨(p f hf).1, (p f hf).2.1, by have := (p f hf).2.2; omega⟩)
      (fun f hf => ⟨(p' f hf).1, (p' f hf).2.1⟩) hr hr' he
    exact ⟨by rw [rfacs_facs t, rfacs_facs t', a], b⟩

/-- Terms with the same text are the same up to the bracketing of products. -/
theorem text_unique (t t' : T) (ok : t.Ok) (ok' : t'.Ok) (he : t.tex = t'.tex) : t.right = t'.right := by
  have := below (t.size + 1) t (Nat.lt_succ_self _) ok t' [] [] ok' trivial trivial (by rw [he])
  rw [T.right, T.right, this.1]

end Verif.Sga.Latex
