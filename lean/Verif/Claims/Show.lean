import Mathlib.Algebra.Field.Defs
import Mathlib.Algebra.Field.Basic
import Mathlib.Tactic.Linarith
import Mathlib.Tactic.NormNum
import Mathlib.Tactic.Ring
import Verif.Discover.Show
/-!
# C74 – the displayed expression determines the terms and coefficients; C75 – LaTeX: operators and signed coefficients
-/
namespace Verif.Discover.Fit.Claims

/-! ## C74: the text of a term -/

/-- A name without the characters the display uses between names. -/
def PlainName (s : String) : Prop := ∀ c ∈ s.toList, c ≠ '(' ∧ c ≠ ')' ∧ c ≠ ',' ∧ c ≠ ' ' ∧ c ≠ '*' ∧ c ≠ '+'

mutual
/-- All names in the tree are plain. -/
def PlainTree : Node → Prop
  | .mk v cs => PlainName v ∧ PlainTrees cs
def PlainTrees : List Node → Prop
  | [] => True
  | c :: cs => PlainTree c ∧ PlainTrees cs
end

/-- Empty, or starting with a character that ends a term. -/
def Ends (r : List Char) : Prop := r = [] ∨ ∃ c s, r = c :: s ∧ (c = ',' ∨ c = ')')

theorem name_split {a b r s : List Char} (ha : ∀ c ∈ a, c ≠ '(' ∧ c ≠ ')' ∧ c ≠ ',')
    (hb : ∀ c ∈ b, c ≠ '(' ∧ c ≠ ')' ∧ c ≠ ',')
    (hr : r = [] ∨ ∃ c t, r = c :: t ∧ (c = '(' ∨ c = ',' ∨ c = ')'))
    (hs : s = [] ∨ ∃ c t, s = c :: t ∧ (c = '(' ∨ c = ',' ∨ c = ')')) (h : a ++ r = b ++ s) : a = b ∧ r = s := by
  induction a generalizing b with
  | nil =>
    cases b with
    | nil => exact ⟨rfl, h⟩
    | cons c b =>
      rcases hr with rfl | ⟨d, t, rfl, hd⟩
      · simp at h
      · simp only [List.nil_append, List.cons_append, List.cons.injEq] at h
        have := hb c (by simp)
        rw [← h.1] at this
        rcases hd with rfl | rfl | rfl <;> simp at this
  | cons x a ih =>
    cases b with
    | nil =>
      rcases hs with rfl | ⟨d, t, rfl, hd⟩
      · simp at h
      · simp only [List.nil_append, List.cons_append, List.cons.injEq] at h
        have := ha x (by simp)
        rw [h.1] at this
        rcases hd with rfl | rfl | rfl <;> simp at this
    | cons c b =>
      simp only [List.cons_append, List.cons.injEq] at h
      obtain ⟨h1, h2⟩ := ih (fun c hc => ha c (by simp [hc])) (fun c hc => hb c (by simp [hc])) h.2
      exact ⟨by rw [h.1, h1], h2⟩

theorem Ends.weak {r : List Char} (h : Ends r) : r = [] ∨ ∃ c t, r = c :: t ∧ (c = '(' ∨ c = ',' ∨ c = ')') := by
  rcases h with h | ⟨c, t, h, h2⟩
  · exact Or.inl h
  · exact Or.inr ⟨c, t, h, Or.inr h2⟩

theorem PlainName.weak {s : String} (h : PlainName s) : ∀ c ∈ s.toList, c ≠ '(' ∧ c ≠ ')' ∧ c ≠ ',' :=
  fun c hc => ⟨(h c hc).1, (h c hc).2.1, (h c hc).2.2.1⟩

mutual
theorem repr_unique : ∀ (a b : Node) (r s : List Char), PlainTree a → PlainTree b → Ends r → Ends s →
    a.repr ++ r = b.repr ++ s → a = b ∧ r = s
  | .mk v cs, .mk w ds, r, s, ha, hb, hr, hs, h => by
    rw [PlainTree] at ha hb
    match cs, ds, ha, hb, h with
    | [], [], ha, hb, h =>
      rw [Node.repr, Node.repr] at h
      obtain ⟨h1, h2⟩ := name_split ha.1.weak hb.1.weak hr.weak hs.weak h
      have : v = w := String.toList_inj.1 h1
      exact ⟨by rw [this], h2⟩
    | [], d :: ds, ha, hb, h =>
      rw [Node.repr, Node.repr, List.append_assoc] at h
      obtain ⟨h1, h2⟩ := name_split ha.1.weak hb.1.weak hr.weak (Or.inr ⟨_, _, rfl, Or.inl rfl⟩) h
      rcases hr with rfl | ⟨c, t, rfl, hc⟩
      · simp at h2
      · simp only [List.cons.injEq] at h2
        rcases hc with rfl | rfl <;> simp at h2
    | c :: cs, [], ha, hb, h =>
      rw [Node.repr, Node.repr, List.append_assoc] at h
      obtain ⟨h1, h2⟩ := name_split ha.1.weak hb.1.weak (Or.inr ⟨_, _, rfl, Or.inl rfl⟩) hs.weak h
      rcases hs with rfl | ⟨c, t, rfl, hc⟩
      · simp at h2
      · simp only [List.cons.injEq] at h2
        rcases hc with rfl | rfl <;> simp at h2
    | c :: cs, d :: ds, ha, hb, h =>
      rw [Node.repr, Node.repr, List.append_assoc, List.append_assoc] at h
      obtain ⟨h1, h2⟩ := name_split ha.1.weak hb.1.weak (Or.inr ⟨_, _, rfl, Or.inl rfl⟩) (Or.inr ⟨_, _, rfl, Or.inl rfl⟩) h
      obtain ⟨h3, h4⟩ := reprL_unique (c :: cs) (d :: ds) (by simp) (by simp) r s ha.2 hb.2 (by simpa using h2)
      have : v = w := String.toList_inj.1 h1
      exact ⟨by rw [this, h3], h4⟩
theorem reprL_unique : ∀ (a b : List Node), a ≠ [] → b ≠ [] → ∀ (r s : List Char), PlainTrees a → PlainTrees b →
    Node.reprL a ++ (')' :: r) = Node.reprL b ++ (')' :: s) → a = b ∧ r = s
  | [], _, ha0, _, _, _, _, _, _ => absurd rfl ha0
  | _ :: _, [], _, hb0, _, _, _, _, _ => absurd rfl hb0
  | c :: cs, d :: ds, _, _, r, s, ha, hb, h => by
    rw [PlainTrees] at ha hb
    match cs, ds, ha, hb, h with
    | [], [], ha, hb, h =>
      rw [Node.reprL, Node.reprL] at h
      obtain ⟨h1, h2⟩ := repr_unique c d _ _ ha.1 hb.1 (Or.inr ⟨_, _, rfl, Or.inr rfl⟩) (Or.inr ⟨_, _, rfl, Or.inr rfl⟩) h
      exact ⟨by rw [h1], by simpa using h2⟩
    | [], d' :: ds, ha, hb, h =>
      rw [Node.reprL, Node.reprL, List.append_assoc] at h
      obtain ⟨h1, h2⟩ := repr_unique c d _ _ ha.1 hb.1 (Or.inr ⟨_, _, rfl, Or.inr rfl⟩) (Or.inr ⟨_, _, rfl, Or.inl rfl⟩) h
      simp at h2
    | c' :: cs, [], ha, hb, h =>
      rw [Node.reprL, Node.reprL, List.append_assoc] at h
      obtain ⟨h1, h2⟩ := repr_unique c d _ _ ha.1 hb.1 (Or.inr ⟨_, _, rfl, Or.inl rfl⟩) (Or.inr ⟨_, _, rfl, Or.inr rfl⟩) h
      simp at h2
    | c' :: cs, d' :: ds, ha, hb, h =>
      rw [Node.reprL, Node.reprL, List.append_assoc, List.append_assoc] at h
      obtain ⟨h1, h2⟩ := repr_unique c d _ _ ha.1 hb.1 (Or.inr ⟨_, _, rfl, Or.inl rfl⟩) (Or.inr ⟨_, _, rfl, Or.inl rfl⟩) h
      simp only [List.cons.injEq, true_and] at h2
      obtain ⟨h3, h4⟩ := reprL_unique (c' :: cs) (d' :: ds) (by simp) (by simp) r s ha.2 hb.2 h2
      exact ⟨by rw [h1, h3], h4⟩
end

/-- **C74** (terms): two terms shown as the same text are the same expression. -/
theorem C74_term (a b : Node) (ha : PlainTree a) (hb : PlainTree b) (h : a.repr = b.repr) : a = b :=
  (repr_unique a b [] [] ha hb (Or.inl rfl) (Or.inl rfl) (by simpa using h)).1

/-! ### The text of the whole right-hand side -/

mutual
theorem repr_chars : ∀ a : Node, PlainTree a → ∀ c ∈ a.repr, c ≠ ' ' ∧ c ≠ '*' ∧ c ≠ '+'
  | .mk v cs, ha => by
    rw [PlainTree] at ha
    match cs, ha with
    | [], ha =>
      intro c hc
      rw [Node.repr] at hc
      exact (ha.1 c hc).2.2.2
    | d :: ds, ha =>
      intro c hc
      rw [Node.repr] at hc
      simp only [List.mem_append, List.mem_cons, List.not_mem_nil, or_false] at hc
      rcases hc with hc | rfl | hc | rfl
      · exact (ha.1 c hc).2.2.2
      · decide
      · exact reprL_chars (d :: ds) ha.2 c hc
      · decide
theorem reprL_chars : ∀ a : List Node, PlainTrees a → ∀ c ∈ Node.reprL a, c ≠ ' ' ∧ c ≠ '*' ∧ c ≠ '+'
  | [], _ => by intro c hc; rw [Node.reprL] at hc; simp at hc
  | d :: ds, ha => by
    rw [PlainTrees] at ha
    match ds, ha with
    | [], ha =>
      intro c hc
      rw [Node.reprL] at hc
      exact repr_chars d ha.1 c hc
    | d' :: ds, ha =>
      intro c hc
      rw [Node.reprL] at hc
      simp only [List.mem_append, List.mem_cons] at hc
      rcases hc with hc | rfl | hc
      · exact repr_chars d ha.1 c hc
      · decide
      · exact reprL_chars (d' :: ds) ha.2 c hc
end

theorem char_split {a b r s : List Char} {x : Char} (ha : x ∉ a) (hb : x ∉ b) (h : a ++ x :: r = b ++ x :: s) :
    a = b ∧ r = s := by
  induction a generalizing b with
  | nil =>
    cases b with
    | nil => simpa using h
    | cons c b => simp only [List.nil_append, List.cons_append, List.cons.injEq] at h; exact absurd (by simp [h.1]) hb
  | cons y a ih =>
    cases b with
    | nil => simp only [List.nil_append, List.cons_append, List.cons.injEq] at h; exact absurd (by simp [h.1]) ha
    | cons c b =>
      simp only [List.cons_append, List.cons.injEq] at h
      obtain ⟨h1, h2⟩ := ih (fun hh => ha (by simp [hh])) (fun hh => hb (by simp [hh])) h.2
      exact ⟨by rw [h.1, h1], h2⟩

/-- The pieces between the ` + ` (spec): a coefficient with its term, or the constant. -/
def pieces {K : Type} (fmt : K → List Char) : List K → List Node → List (List Char)
  | a :: ws, t :: ts => (fmt a ++ " * ".toList ++ t.repr) :: pieces fmt ws ts
  | [a], [] => [fmt a]
  | _, _ => []

theorem strExpression_pieces {K : Type} (fmt : K → List Char) (ws : List K) (ts : List Node)
    (hl : ws.length = ts.length ∨ ws.length = ts.length + 1) :
    strExpression fmt ws ts = List.intercalate " + ".toList (pieces fmt ws ts) := by
  have e1 : ∀ (ws : List K) (ts : List Node), ws.length = ts.length ∨ ws.length = ts.length + 1 →
      strBody fmt ws ts = ((pieces fmt ws ts).map (· ++ " + ".toList)).flatten := by
    intro ws
    induction ws with
    | nil => intro ts h; cases ts <;> simp_all [pieces, strBody]
    | cons a ws ih =>
      intro ts h
      cases ts with
      | nil =>
        have : ws = [] := List.length_eq_zero_iff.1 (by rcases h with h | h <;> simp at h ⊢; exact h)
        subst this
        simp [pieces, strBody]
      | cons t ts =>
        have ih' := ih ts (by simpa using h)
        have hlast : (if (a :: ws).length = (t :: ts).length + 1 then (a :: ws).getLast? else none) =
            (if ws.length = ts.length + 1 then ws.getLast? else none) := by
          by_cases hw : ws.length = ts.length + 1
          · rw [if_pos (by simpa using hw), if_pos hw]
            cases ws with
            | nil => simp at hw
            | cons x xs => simp [List.getLast?_cons_cons]
          · rw [if_neg (by simpa using hw), if_neg hw]
        unfold strBody at ih' ⊢
        simp only at ih' ⊢
        rw [hlast]
        simp only [List.zip_cons_cons, List.map_cons, List.flatten_cons, pieces, List.append_assoc]
        rw [← ih']
        simp [List.append_assoc]
  have e2 : ∀ ps : List (List Char), ps ≠ [] →
      (ps.map (· ++ " + ".toList)).flatten = List.intercalate " + ".toList ps ++ " + ".toList := by
    intro ps
    induction ps with
    | nil => intro h; exact absurd rfl h
    | cons p ps ih =>
      intro _
      cases ps with
      | nil => simp [List.intercalate]
      | cons q qs =>
        have := ih (by simp)
        rw [List.map_cons, List.flatten_cons, this]
        simp [List.intercalate, List.intersperse_cons_cons]
  unfold strExpression
  simp only
  rw [e1 ws ts hl]
  by_cases hp : pieces fmt ws ts = []
  · rw [hp]; simp [List.intercalate]
  · rw [e2 _ hp]
    simp

theorem pieces_inj {K : Type} (fmt : K → List Char) (hf : ∀ a, ∀ c ∈ fmt a, c ≠ ' ' ∧ c ≠ '*' ∧ c ≠ '+') :
    ∀ (ws : List K) (ts : List Node) (ws' : List K) (ts' : List Node), PlainTrees ts → PlainTrees ts' →
      (ws.length = ts.length ∨ ws.length = ts.length + 1) → (ws'.length = ts'.length ∨ ws'.length = ts'.length + 1) →
      pieces fmt ws ts = pieces fmt ws' ts' → ws.map fmt = ws'.map fmt ∧ ts = ts'
  | [], [], [], [], _, _, _, _, _ => ⟨rfl, rfl⟩
  | [], _ :: _, _, _, _, _, hl, _, _ => by simp at hl
  | _, _, [], _ :: _, _, _, _, hl, _ => by simp at hl
  | _ :: _ :: _, [], _, _, _, _, hl, _, _ => by simp at hl
  | _, _, _ :: _ :: _, [], _, _, _, hl, _ => by simp at hl
  | [], [], [_], [], _, _, _, _, h => by simp [pieces] at h
  | [_], [], [], [], _, _, _, _, h => by simp [pieces] at h
  | [], [], _ :: _, _ :: _, _, _, _, _, h => by simp [pieces] at h
  | _ :: _, _ :: _, [], [], _, _, _, _, h => by simp [pieces] at h
  | [a], [], [b], [], _, _, _, _, h => by
    simp only [pieces, List.cons.injEq, and_true] at h
    simp [h]
  | [a], [], b :: ws', t :: ts', _, _, _, _, h => by
    simp only [pieces, List.cons.injEq] at h
    have := hf a '*' (by rw [h.1]; simp)
    exact absurd rfl this.2.1
  | a :: ws, t :: ts, [b], [], _, _, _, _, h => by
    simp only [pieces, List.cons.injEq] at h
    have := hf b '*' (by rw [← h.1]; simp)
    exact absurd rfl this.2.1
  | a :: ws, t :: ts, b :: ws', t' :: ts', h1, h2, hl, hl', h => by
    rw [PlainTrees] at h1 h2
    simp only [pieces, List.cons.injEq] at h
    obtain ⟨ih1, ih2⟩ := pieces_inj fmt hf ws ts ws' ts' h1.2 h2.2 (by simp at hl; omega) (by simp at hl'; omega) h.2
    have e : fmt a ++ ' ' :: ('*' :: ' ' :: t.repr) = fmt b ++ ' ' :: ('*' :: ' ' :: t'.repr) := by
      simpa using h.1
    obtain ⟨e1, e2⟩ := char_split (fun hh => (hf a _ hh).1 rfl) (fun hh => (hf b _ hh).1 rfl) e
    simp only [List.cons.injEq, true_and] at e2
    exact ⟨by simp [e1, ih1], by rw [C74_term t t' h1.1 h2.1 e2, ih2]⟩

theorem intercalate_inj : ∀ (ps qs : List (List Char)), (∀ p ∈ ps, p ≠ [] ∧ '+' ∉ p) → (∀ p ∈ qs, p ≠ [] ∧ '+' ∉ p) →
    List.intercalate " + ".toList ps = List.intercalate " + ".toList qs → ps = qs := by
  intro ps
  induction ps with
  | nil =>
    intro qs _ hq h
    cases qs with
    | nil => rfl
    | cons q qs =>
      have hq0 := (hq q (by simp)).1
      cases qs with
      | nil => simp [List.intercalate] at h; exact absurd h.symm (by simpa using hq0.symm)
      | cons r rs => simp [List.intercalate, List.intersperse_cons_cons] at h
  | cons p ps ih =>
    intro qs hp hq h
    have nop := (hp p (by simp)).2
    cases qs with
    | nil =>
      have hp0 := (hp p (by simp)).1
      cases ps with
      | nil => simp [List.intercalate] at h; exact absurd h hp0
      | cons r rs => simp [List.intercalate, List.intersperse_cons_cons] at h
    | cons q qs =>
      have noq := (hq q (by simp)).2
      have split : ∀ (x : List Char) (y : List Char) (ys : List (List Char)),
          List.intercalate " + ".toList (x :: y :: ys) = (x ++ [' ']) ++ '+' :: (' ' :: List.intercalate " + ".toList (y :: ys)) := by
        intro x y ys
        simp [List.intercalate, List.intersperse_cons_cons]
      cases ps with
      | nil =>
        cases qs with
        | nil => simp [List.intercalate] at h; rw [h]
        | cons r rs =>
          rw [split] at h
          simp only [List.intercalate, List.intersperse_singleton, List.flatten_cons, List.flatten_nil, List.append_nil] at h
          exact absurd (by rw [h]; simp) nop
      | cons p' ps =>
        cases qs with
        | nil =>
          rw [split] at h
          simp only [List.intercalate, List.intersperse_singleton, List.flatten_cons, List.flatten_nil, List.append_nil] at h
          exact absurd (by rw [← h]; simp) noq
        | cons q' qs =>
          rw [split, split] at h
          obtain ⟨h1, h2⟩ := char_split (by simpa using nop) (by simpa using noq) h
          have h3 := ih (q' :: qs) (fun x hx => hp x (by simp [hx])) (fun x hx => hq x (by simp [hx])) (by simpa using h2)
          have h4 : p = q := by simpa using h1
          rw [h3, h4]

theorem pieces_clean {K : Type} (fmt : K → List Char) (hf : ∀ a, fmt a ≠ [] ∧ ∀ c ∈ fmt a, c ≠ ' ' ∧ c ≠ '*' ∧ c ≠ '+') :
    ∀ (ws : List K) (ts : List Node), PlainTrees ts → ∀ p ∈ pieces fmt ws ts, p ≠ [] ∧ '+' ∉ p
  | a :: ws, t :: ts, h, p, hp => by
    rw [PlainTrees] at h
    simp only [pieces, List.mem_cons] at hp
    rcases hp with rfl | hp
    · refine ⟨by simp, ?_⟩
      intro hm
      simp only [List.mem_append] at hm
      rcases hm with (hm | hm) | hm
      · exact ((hf a).2 _ hm).2.2 rfl
      · revert hm; decide
      · exact (repr_chars t h.1 _ hm).2.2 rfl
    · exact pieces_clean fmt hf ws ts h.2 p hp
  | [a], [], _, p, hp => by
    simp only [pieces, List.mem_singleton] at hp
    subst hp
    exact ⟨(hf a).1, fun hm => ((hf a).2 _ hm).2.2 rfl⟩
  | [], [], _, p, hp => by simp [pieces] at hp
  | [], _ :: _, _, p, hp => by simp [pieces] at hp
  | _ :: _ :: _, [], _, p, hp => by simp [pieces] at hp

/-- **C74**: if the printed coefficients contain no blank, `*` or `+` and the names are plain, two valid programs (one
coefficient per term, and possibly one more: the constant) shown as the same text have the same terms in the same
order, with the same printed coefficients at the same places.
Partial, of the whole claim: Full for valid programs; invalid programs all show their first term with coefficient 0 (counterexample). -/
theorem C74_expression_partial {K : Type} (fmt : K → List Char) (hf : ∀ a, fmt a ≠ [] ∧ ∀ c ∈ fmt a, c ≠ ' ' ∧ c ≠ '*' ∧ c ≠ '+')
    (ws ws' : List K) (ts ts' : List Node) (h1 : PlainTrees ts) (h2 : PlainTrees ts')
    (hl : ws.length = ts.length ∨ ws.length = ts.length + 1) (hl' : ws'.length = ts'.length ∨ ws'.length = ts'.length + 1)
    (h : strExpression fmt ws ts = strExpression fmt ws' ts') : ws.map fmt = ws'.map fmt ∧ ts = ts' := by
  rw [strExpression_pieces fmt ws ts hl, strExpression_pieces fmt ws' ts' hl'] at h
  exact pieces_inj fmt (fun a => (hf a).2) ws ts ws' ts' h1 h2 hl hl'
    (intercalate_inj _ _ (pieces_clean fmt hf ws ts h1) (pieces_clean fmt hf ws' ts' h2) h)

/-- **C74** does not hold for invalid programs: whatever their terms, only the first is shown, with coefficient 0. -/
theorem C74_invalid_counterexample :
    strExpression (fun _ : Nat => "0.0000".toList) [0] [.mk "u1" [], .mk "x1" [], .mk "x2" []] =
      strExpression (fun _ : Nat => "0.0000".toList) [0] [.mk "u1" []] := by decide +kernel

-- 0.5000 * u1 + -1.0000 * mul(u1,diff(u1,x1)) + 2.0000
example : strExpression (fun s : String => s.toList) ["0.5000", "-1.0000", "2.0000"]
    [.mk "u1" [], .mk "mul" [.mk "u1" [], .mk "diff" [.mk "u1" [], .mk "x1" []]]] =
    "0.5000 * u1 + -1.0000 * mul(u1,diff(u1,x1)) + 2.0000".toList := by decide +kernel
example : PlainTree (.mk "mul" [.mk "u1" [], .mk "diff" [.mk "u1" [], .mk "x1" []]]) := by
  simp only [PlainTree, PlainTrees, PlainName]
  decide

/-! ## C75: the operators SymPy is given mean what the program's operators mean -/

/-- SymPy's expressions as far as the display uses them (spec). -/
inductive Sy where
  | sym (s : String)
  | num (n : Int)
  | add (a b : Sy) | mul (a b : Sy) | pow (a : Sy) (n : Int)
  | deriv (f x : Sy) (order : Nat)        -- `Derivative(f, x, …, x)`
  | app (f : String) (args : List Sy)
  | recip1pexpneg (a : Sy) | expneg (a : Sy) | logabs (a : Sy)

/-- The texts SymPy reads as these expressions (spec). -/
def derivText (f x : String) (k : Nat) : String := "Derivative(" ++ f ++ String.join (List.replicate k (", " ++ x)) ++ ")"

mutual
def Sy.text : Sy → String
  | .sym s => s
  | .num n => toString n
  | .add a b => "Add(" ++ a.text ++ ", " ++ b.text ++ ")"
  | .mul a b => "Mul(" ++ a.text ++ ", " ++ b.text ++ ")"
  | .pow a n => "Pow(" ++ a.text ++ ", " ++ toString n ++ ")"
  | .deriv f x k => derivText f.text x.text k
  | .app f args => f ++ "(" ++ String.intercalate ", " (Sy.texts args) ++ ")"
  | .recip1pexpneg a => "1 / (1 + exp(-(" ++ a.text ++ ")))"
  | .expneg a => "exp(-(" ++ a.text ++ "))"
  | .logabs a => "log(Abs(" ++ a.text ++ "))"
def Sy.texts : List Sy → List String
  | [] => []
  | a :: as => a.text :: Sy.texts as
end

/-- A meaning for expressions: values in a field, variables, derivatives and named functions (spec).  `exp`, `log` and
`abs` are the named functions of these names. -/
structure Sem (D : Type) where
  var : String → D
  deriv : D → D → D
  fn : String → List D → D

mutual
def Sy.eval {D : Type} [Field D] (S : Sem D) : Sy → D
  | .sym s => S.var s
  | .num n => (n : D)
  | .add a b => a.eval S + b.eval S
  | .mul a b => a.eval S * b.eval S
  | .pow a n => a.eval S ^ n
  | .deriv f x k => (fun v => S.deriv v (x.eval S))^[k] (f.eval S)
  | .app f args => S.fn f (Sy.evals S args)
  | .recip1pexpneg a => 1 / (1 + S.fn "exp" [-(a.eval S)])
  | .expneg a => S.fn "exp" [-(a.eval S)]
  | .logabs a => S.fn "log" [S.fn "abs" [a.eval S]]
def Sy.evals {D : Type} [Field D] (S : Sem D) : List Sy → List D
  | [] => []
  | a :: as => a.eval S :: Sy.evals S as
end

/-- The one-operand functions that are written as they are named. -/
def plainFns : List String := ["sin", "cos", "tan", "exp", "log", "sqrt", "abs"]

/-- What an operator of the program computes (spec; functions.py:54-125, execute.py).  The `_t` operators are the torch
versions of the same functions. -/
def opMeaning {D : Type} [Field D] (S : Sem D) (v : String) (args : List D) : D :=
  let b := baseName v
  match args with
  | [x, y] =>
    if b = "add" then x + y
    else if b = "sub" then x - y
    else if b = "mul" then x * y
    else if b = "div" then x / y
    else if b = "diff" ∨ b = "Diff" ∨ b = "Diff_3" then S.deriv x y
    else if b = "diff2" ∨ b = "Diff2" ∨ b = "Diff2_3" then S.deriv (S.deriv x y) y
    else if b = "diff3" then S.deriv (S.deriv (S.deriv x y) y) y
    else if b = "diff4" then S.deriv (S.deriv (S.deriv (S.deriv x y) y) y) y
    else S.fn v [x, y]
  | [x] =>
    if b = "n2" then x * x
    else if b = "n3" then x * x * x
    else if b = "n4" then x * x * x * x
    else if b = "n5" then x * x * x * x * x
    else if b = "lap" ∨ b = "lap_3" then S.fn "laplacian" [x]
    else if b = "sigmoid" then 1 / (1 + S.fn "exp" [-x])
    else if b = "expneg" then S.fn "exp" [-x]
    else if b = "logabs" then S.fn "log" [S.fn "abs" [x]]
    else if plainFns.contains b then S.fn b [x]
    else S.fn v [x]
  | args => S.fn v args

mutual
def meaning {D : Type} [Field D] (S : Sem D) : Node → D
  | .mk v cs => match cs with
    | [] => S.var v
    | c :: cs => opMeaning S v (meanings S (c :: cs))
def meanings {D : Type} [Field D] (S : Sem D) : List Node → List D
  | [] => []
  | c :: cs => meaning S c :: meanings S cs
end

/-- Arities of the operators the display knows (functions.py:54-125). -/
def arityOk (v : String) (n : Nat) : Prop :=
  (baseName v ∈ ["add", "sub", "mul", "div", "diff", "diff2", "diff3", "diff4", "Diff", "Diff2", "Diff_3", "Diff2_3"] → n = 2) ∧
  (baseName v ∈ ["n2", "n3", "n4", "n5", "lap", "lap_3", "sigmoid", "expneg", "logabs"] ++ plainFns → n = 1)

mutual
/-- Every operator of the tree has its arity. -/
def ArityTree : Node → Prop
  | .mk v cs => (cs ≠ [] → arityOk v cs.length) ∧ ArityTrees cs
def ArityTrees : List Node → Prop
  | [] => True
  | c :: cs => ArityTree c ∧ ArityTrees cs
end

theorem texts_length (args : List Sy) : (Sy.texts args).length = args.length := by
  induction args with
  | nil => rw [Sy.texts]; rfl
  | cons a as ih => rw [Sy.texts]; simp [ih]

theorem op_ok (v : String) (args : List Sy) (hne : args ≠ []) (har : arityOk v args.length) :
    ∃ e : Sy, opText v (Sy.texts args) = some e.text ∧
      ∀ {D : Type} [Field D] (S : Sem D), e.eval S = opMeaning S v (Sy.evals S args) := by
  obtain ⟨h2, h1⟩ := har
  by_cases hb2 : baseName v ∈ ["add", "sub", "mul", "div", "diff", "diff2", "diff3", "diff4", "Diff", "Diff2", "Diff_3", "Diff2_3"]
  · obtain ⟨a, b, rfl⟩ : ∃ a b, args = [a, b] := by
      have := h2 hb2
      match args, this with
      | [a, b], _ => exact ⟨a, b, rfl⟩
    simp only [List.mem_cons, List.not_mem_nil, or_false] at hb2
    rcases hb2 with hb | hb | hb | hb | hb | hb | hb | hb | hb | hb | hb | hb
    · exact ⟨.add a b, by simp [opText, hb, Sy.texts, Sy.text], fun S => by simp [opMeaning, hb, Sy.evals, Sy.eval]⟩
    · refine ⟨.add a (.mul b (.num (-1))), ?_, fun S => ?_⟩
      · simp only [opText, hb, Sy.texts, Sy.text, String.append_assoc, show toString (-1 : Int) = "-1" from by decide]
        simp only [show ", Mul(" = ", " ++ "Mul(" from by decide, show ", -1))" = ", " ++ ("-1" ++ "))") from by decide,
          show "))" = ")" ++ ")" from by decide, String.append_assoc]
        simp
      · simp [opMeaning, hb, Sy.evals, Sy.eval, sub_eq_add_neg]
    · exact ⟨.mul a b, by simp [opText, hb, Sy.texts, Sy.text], fun S => by simp [opMeaning, hb, Sy.evals, Sy.eval]⟩
    · refine ⟨.mul a (.pow b (-1)), ?_, fun S => ?_⟩
      · simp only [opText, hb, Sy.texts, Sy.text, String.append_assoc, show toString (-1 : Int) = "-1" from by decide]
        simp only [show ", Pow(" = ", " ++ "Pow(" from by decide, show ", -1))" = ", " ++ ("-1" ++ "))") from by decide,
          show "))" = ")" ++ ")" from by decide, String.append_assoc]
        simp
      · simp [opMeaning, hb, Sy.evals, Sy.eval, div_eq_mul_inv]
    · exact ⟨.deriv a b 1, by simp [opText, hb, Sy.texts, Sy.text, derivText, String.append_assoc],
        fun S => by simp [opMeaning, hb, Sy.evals, Sy.eval]⟩
    · exact ⟨.deriv a b 2, by simp [opText, hb, Sy.texts, Sy.text, derivText, String.append_assoc],
        fun S => by simp [opMeaning, hb, Sy.evals, Sy.eval]⟩
    · exact ⟨.deriv a b 3, by simp [opText, hb, Sy.texts, Sy.text, derivText, String.append_assoc],
        fun S => by simp [opMeaning, hb, Sy.evals, Sy.eval]⟩
    · exact ⟨.deriv a b 4, by simp [opText, hb, Sy.texts, Sy.text, derivText, String.append_assoc],
        fun S => by simp [opMeaning, hb, Sy.evals, Sy.eval]⟩
    · exact ⟨.deriv a b 1, by simp [opText, hb, Sy.texts, Sy.text, derivText, String.append_assoc],
        fun S => by simp [opMeaning, hb, Sy.evals, Sy.eval]⟩
    · exact ⟨.deriv a b 2, by simp [opText, hb, Sy.texts, Sy.text, derivText, String.append_assoc],
        fun S => by simp [opMeaning, hb, Sy.evals, Sy.eval]⟩
    · exact ⟨.deriv a b 1, by simp [opText, hb, Sy.texts, Sy.text, derivText, String.append_assoc],
        fun S => by simp [opMeaning, hb, Sy.evals, Sy.eval]⟩
    · exact ⟨.deriv a b 2, by simp [opText, hb, Sy.texts, Sy.text, derivText, String.append_assoc],
        fun S => by simp [opMeaning, hb, Sy.evals, Sy.eval]⟩
  · by_cases hb1 : baseName v ∈ ["n2", "n3", "n4", "n5", "lap", "lap_3", "sigmoid", "expneg", "logabs"] ++ plainFns
    · obtain ⟨a, rfl⟩ : ∃ a, args = [a] := by
        have := h1 hb1
        match args, this with
        | [a], _ => exact ⟨a, rfl⟩
      simp only [plainFns, List.cons_append, List.nil_append, List.mem_cons, List.not_mem_nil, or_false] at hb1
      rcases hb1 with hb | hb | hb | hb | hb | hb | hb | hb | hb | hb | hb | hb | hb | hb | hb | hb
      · exact ⟨.pow a 2, by simp [opText, hb, Sy.texts, Sy.text, String.append_assoc, show Int.repr 2 = "2" from by decide],
          fun S => by simp [opMeaning, hb, Sy.evals, Sy.eval]; exact_mod_cast (by ring)⟩
      · exact ⟨.pow a 3, by simp [opText, hb, Sy.texts, Sy.text, String.append_assoc, show Int.repr 3 = "3" from by decide],
          fun S => by simp [opMeaning, hb, Sy.evals, Sy.eval]; exact_mod_cast (by ring)⟩
      · exact ⟨.pow a 4, by simp [opText, hb, Sy.texts, Sy.text, String.append_assoc, show Int.repr 4 = "4" from by decide],
          fun S => by simp [opMeaning, hb, Sy.evals, Sy.eval]; exact_mod_cast (by ring)⟩
      · exact ⟨.pow a 5, by simp [opText, hb, Sy.texts, Sy.text, String.append_assoc, show Int.repr 5 = "5" from by decide],
          fun S => by simp [opMeaning, hb, Sy.evals, Sy.eval]; exact_mod_cast (by ring)⟩
      · exact ⟨.app "laplacian" [a], by simp [opText, hb, Sy.texts, Sy.text, String.append_assoc],
          fun S => by simp [opMeaning, hb, Sy.evals, Sy.eval]⟩
      · exact ⟨.app "laplacian" [a], by simp [opText, hb, Sy.texts, Sy.text, String.append_assoc],
          fun S => by simp [opMeaning, hb, Sy.evals, Sy.eval]⟩
      · exact ⟨.recip1pexpneg a, by simp [opText, hb, Sy.texts, Sy.text, String.append_assoc],
          fun S => by simp [opMeaning, hb, Sy.evals, Sy.eval]⟩
      · exact ⟨.expneg a, by simp [opText, hb, Sy.texts, Sy.text, String.append_assoc],
          fun S => by simp [opMeaning, hb, Sy.evals, Sy.eval]⟩
      · exact ⟨.logabs a, by simp [opText, hb, Sy.texts, Sy.text, String.append_assoc],
          fun S => by simp [opMeaning, hb, Sy.evals, Sy.eval]⟩
      all_goals exact ⟨.app (baseName v) [a], by simp [opText, hb, Sy.texts, Sy.text, sympyFns, String.append_assoc],
          fun S => by simp [opMeaning, hb, Sy.evals, Sy.eval, plainFns]⟩
    · refine ⟨.app v args, ?_, fun S => ?_⟩
      · simp only [plainFns, List.cons_append, List.nil_append, List.mem_cons, List.not_mem_nil, or_false, not_or] at hb1 hb2
        simp [opText, hb1, hb2, sympyFns, Sy.text]
      · have hns : plainFns.contains (baseName v) = false := by
          simp only [plainFns, List.cons_append, List.nil_append, List.mem_cons, List.not_mem_nil, or_false, not_or] at hb1
          simp [plainFns, hb1]
        rw [Sy.eval]
        simp only [plainFns, List.cons_append, List.nil_append, List.mem_cons, List.not_mem_nil, or_false, not_or] at hb1 hb2
        match args with
        | [] => rfl
        | [a] => simp only [Sy.evals, opMeaning, hb1, hns, if_false, or_self, Bool.false_eq_true]
        | [a, b] => simp only [Sy.evals, opMeaning, hb2, if_false, or_self]
        | _ :: _ :: _ :: _ => simp only [Sy.evals, opMeaning]

mutual
/-- **C75** (operators): for every term whose operators have their arity, the text handed to SymPy is that of a SymPy
expression which – whatever the variables, derivatives and functions stand for – has the value of the term. -/
theorem C75_sympy : ∀ (n : Node), ArityTree n → ∃ e : Sy, n.sympyText = some e.text ∧
    ∀ {D : Type} [Field D] (S : Sem D), e.eval S = meaning S n
  | .mk v cs, h => by
    rw [ArityTree] at h
    match cs, h with
    | [], _ => exact ⟨.sym v, by rw [Node.sympyText, Sy.text], fun S => by rw [Sy.eval, meaning]⟩
    | c :: cs, h =>
      obtain ⟨es, h1, h2, h3⟩ := sympys_ok (c :: cs) h.2
      have hne : es ≠ [] := by rintro rfl; simp at h2
      obtain ⟨e, h4, h5⟩ := op_ok v es hne (by rw [h2]; exact h.1 (by simp))
      refine ⟨e, ?_, fun S => ?_⟩
      · rw [Node.sympyText, h1]; exact h4
      · rw [h5 S, h3 S, meaning]
theorem sympys_ok : ∀ (cs : List Node), ArityTrees cs → ∃ es : List Sy, Node.sympyTexts cs = some (Sy.texts es) ∧
    es.length = cs.length ∧ ∀ {D : Type} [Field D] (S : Sem D), Sy.evals S es = meanings S cs
  | [], _ => ⟨[], by rw [Node.sympyTexts, Sy.texts], rfl, fun S => by rw [Sy.evals, meanings]⟩
  | c :: cs, h => by
    rw [ArityTrees] at h
    obtain ⟨e, h1, h2⟩ := C75_sympy c h.1
    obtain ⟨es, h3, h4, h5⟩ := sympys_ok cs h.2
    refine ⟨e :: es, ?_, by simp [h4], fun S => ?_⟩
    · rw [Node.sympyTexts, h1, h3, Sy.texts]
    · rw [Sy.evals, meanings, h2 S, h5 S]
end

-- sub_t(u1, div(n2(u1), diff2(u1, x1)))
example : (Node.mk "sub_t" [.mk "u1" [], .mk "div" [.mk "n2" [.mk "u1" []], .mk "diff2" [.mk "u1" [], .mk "x1" []]]]).sympyText =
    some "Add(u1, Mul(Mul(Pow(u1, 2), Pow(Derivative(u1, x1, x1), -1)), -1))" := by decide +kernel
example : ArityTree (.mk "sub_t" [.mk "u1" [], .mk "div" [.mk "n2" [.mk "u1" []], .mk "diff2" [.mk "u1" [], .mk "x1" []]]]) := by
  simp only [ArityTree, ArityTrees, arityOk, List.length_cons, List.length_nil, ne_eq, reduceCtorEq, not_false_eq_true,
    forall_const, not_true_eq_false, false_implies]
  decide

/-! ## C75: signed coefficients in LaTeX (DLGA and DISCOVER) -/

/-- What a reader takes a displayed term without its sign to be: `v` times `base` (spec); `read` reads a decimal number. -/
def ReadsBody (read : String → ℚ) (base body : String) (v : ℚ) : Prop :=
  (base ≠ "1" ∧ body = base ∧ v = 1) ∨ (base ≠ "1" ∧ ∃ s, body = s ++ " " ++ base ∧ v = read s) ∨
    (base = "1" ∧ v = read body)

/-- … and with its sign: `- …`, `+ …`, or nothing in front of the first term. -/
inductive Reads (read : String → ℚ) (base : String) : Bool → String → ℚ → Prop
  | minus (first : Bool) (body : String) (v : ℚ) (h : ReadsBody read base body v) : Reads read base first ("- " ++ body) (-v)
  | plus (body : String) (v : ℚ) (h : ReadsBody read base body v) : Reads read base false ("+ " ++ body) v
  | first (body : String) (v : ℚ) (h : ReadsBody read base body v) : Reads read base true body v

/-- Contract of `f"{abs(c):.4f}"`: the printed number is within half a unit of the fourth decimal place of `|c|`. -/
def Abs4 (read : String → ℚ) (abs4 : ℚ → String) : Prop :=
  read "0.0000" = 0 ∧ ∀ c, |read (abs4 c) - (|c|)| ≤ 5 / 100000

/-- **C75** (refused): a two-operand operator that has only one operand cannot be written, and neither can an expression with a part that cannot be written. -/
theorem C75_refused (v : String) (cs : List Node) (h : cs ≠ []) :
    (∀ c, cs = [c] → baseName v ∈ ["add", "sub", "mul", "div", "diff", "diff2", "diff3", "diff4", "Diff", "Diff2", "Diff_3", "Diff2_3"] →
      (Node.mk v cs).sympyText = none) ∧
    ((∃ c ∈ cs, c.sympyText = none) → (Node.mk v cs).sympyText = none) := by
  have hts : ∀ l : List Node, (∃ c ∈ l, c.sympyText = none) → Node.sympyTexts l = none := by
    intro l
    induction l with
    | nil => rintro ⟨c, hc, -⟩; cases hc
    | cons a r ih =>
      rintro ⟨c, hc, he⟩
      rw [Node.sympyTexts]
      rcases List.mem_cons.1 hc with rfl | hc
      · rw [he]
      · rw [ih ⟨c, hc, he⟩]
        cases a.sympyText <;> rfl
  constructor
  · rintro c rfl hb
    rw [Node.sympyText]
    cases hc : c.sympyText with
    | none => rw [hts _ ⟨c, by simp, hc⟩]; rfl
    | some t =>
      have : Node.sympyTexts [c] = some [t] := by
        rw [Node.sympyTexts, hc, Node.sympyTexts]
      rw [this, Option.bind_some]
      simp only [List.mem_cons, List.not_mem_nil, or_false] at hb
      rcases hb with hb | hb | hb | hb | hb | hb | hb | hb | hb | hb | hb | hb <;> simp [opText, hb]
  · intro he
    cases cs with
    | nil => exact absurd rfl h
    | cons a r => rw [Node.sympyText, hts _ he]; rfl

/-- **C75** (coefficients): a displayed term reads as its base times a number within `5e-5` of the coefficient. -/
theorem C75_coefficient (read : String → ℚ) (abs4 : ℚ → String) (h4 : Abs4 read abs4) (c : ℚ) (base : String) (first : Bool) :
    ∃ v, Reads read base first (Dlga.formatTerm abs4 c base first) v ∧ |v - c| ≤ 5 / 100000 := by
  obtain ⟨h0, h4⟩ := h4
  -- the body reads as something close to |c|
  have hbody : ∃ v, ReadsBody read base (if (Dlga.closeOne c && base != "1") = true then base
      else if base = "1" then (if Dlga.closeZero c = true then "0.0000" else abs4 c)
      else (if Dlga.closeZero c = true then "0.0000" else abs4 c) ++ " " ++ base) v ∧ |v - (|c|)| ≤ 5 / 100000 := by
    have hnum : |read (if Dlga.closeZero c = true then "0.0000" else abs4 c) - (|c|)| ≤ 5 / 100000 := by
      by_cases hz : Dlga.closeZero c = true
      · rw [if_pos hz, h0]
        unfold Dlga.closeZero at hz
        have := of_decide_eq_true hz
        rw [zero_sub, abs_neg, abs_abs]
        linarith
      · rw [if_neg hz]; exact h4 c
    by_cases h1 : base = "1"
    · refine ⟨_, Or.inr (Or.inr ⟨h1, rfl⟩), ?_⟩
      simp only [h1, bne_self_eq_false, Bool.and_false, Bool.false_eq_true, if_false, if_true]
      exact hnum
    · by_cases ho : Dlga.closeOne c = true
      · refine ⟨1, Or.inl ⟨h1, by simp [ho, h1], rfl⟩, ?_⟩
        unfold Dlga.closeOne at ho
        have := of_decide_eq_true ho
        rw [abs_sub_comm]
        linarith
      · exact ⟨_, Or.inr (Or.inl ⟨h1, _, by simp [ho, h1], rfl⟩), hnum⟩
  obtain ⟨v, hv, hvc⟩ := hbody
  unfold Dlga.formatTerm
  simp only
  by_cases hm : (!Dlga.closeZero c && !decide (c > 0)) = true
  · -- shown negative, and c is not positive
    have hc : c ≤ 0 := by
      simp only [Bool.and_eq_true, Bool.not_eq_true', decide_eq_false_iff_not, not_lt] at hm
      exact hm.2
    have hval : |(-v) - c| ≤ 5 / 100000 := by
      rw [abs_of_nonpos hc] at hvc
      rw [← abs_neg]
      have : -(-v - c) = v - -c := by ring
      rw [this]; exact hvc
    cases first with
    | true => exact ⟨-v, by simp only [if_true, hm]; exact .minus true _ v hv, hval⟩
    | false => exact ⟨-v, by simp only [Bool.false_eq_true, if_false, hm, if_true]; exact .minus false _ v hv, hval⟩
  · by_cases hz : Dlga.closeZero c = true
    · have hc := hz
      unfold Dlga.closeZero at hc
      have hc := of_decide_eq_true hc
      -- then the number shown is 0.0000 and |c| ≤ 1e-8
      have hno : Dlga.closeOne c = false := by
        unfold Dlga.closeOne
        rw [decide_eq_false_iff_not]
        intro h
        have := neg_abs_le (|c| - 1)
        have := abs_nonneg c
        linarith
      have hshow : ReadsBody read base (if (Dlga.closeOne c && base != "1") = true then base
          else if base = "1" then (if Dlga.closeZero c = true then "0.0000" else abs4 c)
          else (if Dlga.closeZero c = true then "0.0000" else abs4 c) ++ " " ++ base) 0 := by
        simp only [hno, Bool.false_and, Bool.false_eq_true, if_false, hz, if_true]
        by_cases h1 : base = "1"
        · exact Or.inr (Or.inr ⟨h1, by simp [h1, h0]⟩)
        · exact Or.inr (Or.inl ⟨h1, "0.0000", by simp [h1], h0.symm⟩)
      have hval : |(0 : ℚ) - c| ≤ 5 / 100000 := by rw [zero_sub, abs_neg]; linarith
      cases first with
      | true => exact ⟨0, by simp only [if_true, hm, Bool.false_eq_true, if_false]; exact .first _ 0 hshow, hval⟩
      | false => exact ⟨0, by simp only [Bool.false_eq_true, if_false, hm]; exact .plus _ 0 hshow, hval⟩
    · have hc : 0 < c := by
        simp only [Bool.and_eq_true, Bool.not_eq_true', decide_eq_false_iff_not, not_lt, not_and, not_le] at hm
        exact hm (by simpa using hz)
      rw [abs_of_pos hc] at hvc
      cases first with
      | true => exact ⟨v, by simp only [if_true, hm, Bool.false_eq_true, if_false]; exact .first _ v hv, hvc⟩
      | false => exact ⟨v, by simp only [Bool.false_eq_true, if_false, hm]; exact .plus _ v hv, hvc⟩

/-- **C75** (sign): the minus is shown exactly for coefficients below `-1e-8`; one within `1e-8` of 0 is shown as `0.0000`. -/
theorem C75_sign (abs4 : ℚ → String) (c : ℚ) (base : String) :
    (∃ body, (c < -(1 / 100000000) → Dlga.formatTerm abs4 c base true = "- " ++ body ∧ Dlga.formatTerm abs4 c base false = "- " ++ body) ∧
      (¬ c < -(1 / 100000000) → Dlga.formatTerm abs4 c base true = body ∧ Dlga.formatTerm abs4 c base false = "+ " ++ body)) ∧
    (|c| ≤ 1 / 100000000 → Dlga.formatTerm abs4 c base true = if base = "1" then "0.0000" else "0.0000 " ++ base) := by
  have hz : Dlga.closeZero c = true ↔ |c| ≤ 1 / 100000000 := by simp [Dlga.closeZero]
  have hm : (!Dlga.closeZero c && !decide (c > 0)) = true ↔ c < -(1 / 100000000) := by
    rw [Bool.and_eq_true, Bool.not_eq_true', Bool.not_eq_true', decide_eq_false_iff_not, ← Bool.not_eq_true, hz, not_le, not_lt]
    constructor
    · rintro ⟨h1, h2⟩
      rw [abs_of_nonpos h2] at h1
      linarith
    · intro h
      have h2 : c ≤ 0 := by linarith
      exact ⟨by rw [abs_of_nonpos h2]; linarith, h2⟩
  refine ⟨⟨(if (Dlga.closeOne c && base != "1") = true then base
      else if base = "1" then (if Dlga.closeZero c = true then "0.0000" else abs4 c)
      else (if Dlga.closeZero c = true then "0.0000" else abs4 c) ++ " " ++ base), fun h => ?_, fun h => ?_⟩, fun h => ?_⟩
  · have := (hm.2 h)
    unfold Dlga.formatTerm
    simp only [this, if_true]
    exact ⟨by first | trivial | rfl, by first | trivial | (split <;> first | rfl | contradiction)⟩
  · have : (!Dlga.closeZero c && !decide (c > 0)) = false := by
      rw [← Bool.not_eq_true, hm]; exact h
    unfold Dlga.formatTerm
    simp only [this, if_true, if_false, Bool.false_eq_true]
    exact ⟨by first | trivial | rfl, by first | trivial | (split <;> first | rfl | contradiction)⟩
  · have h1 := hz.2 h
    have h2 : Dlga.closeOne c = false := by
      unfold Dlga.closeOne
      rw [decide_eq_false_iff_not, abs_of_nonpos (by linarith)]
      intro h'
      linarith
    unfold Dlga.formatTerm
    by_cases hb : base = "1" <;> simp [h1, h2, hb]

/-- **C75** (coefficient 1): a coefficient within `1e-5` of 1 or -1 is left out before a base, only its sign stays. -/
theorem C75_unit (abs4 : ℚ → String) (c : ℚ) (base : String) (hb : base ≠ "1") (h : |(|c| - 1)| ≤ 1 / 100000) :
    Dlga.formatTerm abs4 c base true = (if c < 0 then "- " ++ base else base) ∧
    Dlga.formatTerm abs4 c base false = (if c < 0 then "- " ++ base else "+ " ++ base) := by
  have h1 : Dlga.closeOne c = true := by
    unfold Dlga.closeOne
    rw [decide_eq_true_iff]
    linarith
  have h2 : Dlga.closeZero c = false := by
    unfold Dlga.closeZero
    rw [decide_eq_false_iff_not]
    intro hz
    have := neg_abs_le (|c| - 1)
    linarith
  have hne : c ≠ 0 := by
    rintro rfl
    norm_num at h
  by_cases hc : c < 0
  · have h3 : ¬ c > 0 := not_lt.2 hc.le
    simp [Dlga.formatTerm, h1, h2, hb, hc, h3]
  · have h3 : c > 0 := lt_of_le_of_ne (not_lt.1 hc) (Ne.symm hne)
    simp [Dlga.formatTerm, h1, h2, hb, hc, h3]

example : Dlga.formatTerm (fun _ => "?") (-1000001/1000000) "u" false = "- u" :=
  (C75_unit (fun _ => "?") (-1000001/1000000) "u" (by decide) (by norm_num [abs_of_neg])).2.trans (by norm_num; rfl)

/-- **C75** (DLGA): the LaTeX terms of a genome are, in order, its modules' texts with their coefficients. -/
theorem C75_dlga (read : String → ℚ) (abs4 : ℚ → String) (h4 : Abs4 read abs4) (g : Dlga.Genome) (cs : List ℚ)
    (hl : g.length ≤ cs.length) (first : Bool) :
    (Dlga.latexTerms abs4 g cs first).length = g.length ∧
      ∀ (k : Nat) m c t, g[k]? = some m → cs[k]? = some c → (Dlga.latexTerms abs4 g cs first)[k]? = some t →
        ∃ v, Reads read (Dlga.moduleText m) (first && k == 0) t v ∧ |v - c| ≤ 5 / 100000 := by
  induction g generalizing cs first with
  | nil => simp [Dlga.latexTerms]
  | cons m g ih =>
    cases cs with
    | nil => simp at hl
    | cons c cs =>
      obtain ⟨ih1, ih2⟩ := ih cs (by simpa using hl) false
      refine ⟨by simp [Dlga.latexTerms, ih1], ?_⟩
      intro k m' c' t h1 h2 h3
      cases k with
      | zero =>
        simp only [Dlga.latexTerms, List.getElem?_cons_zero, Option.some.injEq] at h1 h2 h3
        subst h1 h2 h3
        simpa using C75_coefficient read abs4 h4 c (Dlga.moduleText m) first
      | succ k =>
        simp only [Dlga.latexTerms, List.getElem?_cons_succ] at h1 h2 h3
        simpa using ih2 k m' c' t h1 h2 h3

/-- **C75** (DISCOVER): if there is one coefficient per term and SymPy handles every term, the LaTeX terms are, in order,
SymPy's text of the terms, each with its coefficient times SymPy's numeric factor.
Partial, of the whole claim: SymPy's parser and LaTeX printer are parameters; a program with a constant is shown as an error (counterexample). -/
theorem C75_discover_partial (read : String → ℚ) (abs4 : ℚ → String) (h4 : Abs4 read abs4) (termLatex : Node → Option (ℚ × String))
    (w : List ℚ) (terms : List Node) (hl : w.length = terms.length) (hs : ∀ t ∈ terms, (termLatex t).isSome) :
    ∃ out, programTerms abs4 termLatex w terms = some (.ok out) ∧ out.length = terms.length ∧
      ∀ (k : Nat) t a f base s, terms[k]? = some t → w[k]? = some a → termLatex t = some (f, base) → out[k]? = some s →
        ∃ v, Reads read base (k == 0) s v ∧ |v - a * f| ≤ 5 / 100000 := by
  have key : ∀ (w : List ℚ) (terms : List Node) (first : Bool), w.length = terms.length →
      (∀ t ∈ terms, (termLatex t).isSome) →
      ∃ out, programTerms.go abs4 termLatex w terms first = some out ∧ out.length = terms.length ∧
        ∀ (k : Nat) t a f base s, terms[k]? = some t → w[k]? = some a → termLatex t = some (f, base) → out[k]? = some s →
          ∃ v, Reads read base (first && k == 0) s v ∧ |v - a * f| ≤ 5 / 100000 := by
    intro w
    induction w with
    | nil =>
      intro terms first hl _
      cases terms with
      | nil => exact ⟨[], rfl, rfl, by simp⟩
      | cons _ _ => simp at hl
    | cons a w ih =>
      intro terms first hl hs
      cases terms with
      | nil => simp at hl
      | cons t ts =>
        obtain ⟨⟨f, base⟩, hfb⟩ := Option.isSome_iff_exists.1 (hs t (by simp))
        obtain ⟨out, h1, h2, h3⟩ := ih ts false (by simpa using hl) (fun t ht => hs t (by simp [ht]))
        refine ⟨Dlga.formatTerm abs4 (a * f) base first :: out, ?_, by simp [h2], ?_⟩
        · simp only [programTerms.go, hfb, h1, Option.map_some]
        · intro k t' a' f' base' s g1 g2 g3 g4
          cases k with
          | zero =>
            simp only [List.getElem?_cons_zero, Option.some.injEq] at g1 g2 g4
            subst g1 g2 g4
            rw [hfb, Option.some.injEq, Prod.mk.injEq] at g3
            obtain ⟨rfl, rfl⟩ := g3
            simpa using C75_coefficient read abs4 h4 (a * f) base first
          | succ k =>
            simp only [List.getElem?_cons_succ] at g1 g2 g4
            simpa using h3 k t' a' f' base' s g1 g2 g3 g4
  obtain ⟨out, h1, h2, h3⟩ := key w terms true hl hs
  refine ⟨out, ?_, h2, fun k t a f base s g1 g2 g3 g4 => by simpa using h3 k t a f base s g1 g2 g3 g4⟩
  unfold programTerms
  rw [if_neg (by simpa using hl), h1]
  rfl

/-- … but a program with a constant (one coefficient more than terms) is shown as an error. -/
theorem C75_constant_counterexample (abs4 : ℚ → String) (termLatex : Node → Option (ℚ × String)) (w : List ℚ)
    (terms : List Node) (h : w.length = terms.length + 1) : programTerms abs4 termLatex w terms = some (.error ()) := by
  unfold programTerms
  rw [if_pos (by omega)]

-- 0.5·(u_x) first, then -1·(u u_x), then 0
example : Dlga.formatTerm (fun _ => "0.5000") (1 / 2) "u_x" true = "0.5000 u_x" ∧
    Dlga.formatTerm (fun _ => "1.0000") (-1) "u u_x" false = "- u u_x" ∧
    Dlga.formatTerm (fun _ => "2.0000") (2) "1" false = "+ 2.0000" ∧
    Dlga.formatTerm (fun _ => "0.0000") 0 "u" false = "+ 0.0000 u" := by decide +kernel
end Verif.Discover.Fit.Claims
