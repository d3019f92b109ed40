import Verif.Discover.Fit
import Verif.Claims.Sampling
/-!
# C71 – which programs the regulations reject
-/
namespace Verif.Discover.Fit.Claims
open Verif.Discover.Claims (hasSub_iff)

/-- A token name without the characters Python's `repr` of a list uses. -/
def CleanName (n : String) : Prop := ∀ c ∈ n.toList, c ≠ ',' ∧ c ≠ ' ' ∧ c ≠ '[' ∧ c ≠ ']'

/-- Splitting an infix at a character that does not occur in the pattern. -/
theorem infix_split {p a b : List Char} {s : Char} (hs : s ∉ p) : p <:+: a ++ s :: b ↔ p <:+: a ∨ p <:+: b := by
  constructor
  · rintro ⟨x, y, h⟩
    have h' : x ++ (p ++ y) = a ++ s :: b := by rw [← h, List.append_assoc]
    rcases List.append_eq_append_iff.1 h' with ⟨c, hc1, hc2⟩ | ⟨c, hc1, hc2⟩
    · -- a = x ++ c, p ++ y = c ++ s :: b
      rcases List.append_eq_append_iff.1 hc2 with ⟨d, hd1, hd2⟩ | ⟨d, hd1, hd2⟩
      · left; exact ⟨x, d, by rw [hc1, hd1, List.append_assoc]⟩
      · cases d with
        | nil =>
          simp only [List.append_nil] at hd1
          left; exact ⟨x, [], by rw [hc1, hd1]; simp⟩
        | cons e d =>
          obtain ⟨rfl, -⟩ := List.cons.inj hd2
          exact absurd (by rw [hd1]; simp) hs
    · -- x = a ++ c, s :: b = c ++ (p ++ y)
      cases c with
      | nil =>
        simp only [List.nil_append] at hc2
        cases p with
        | nil => left; exact List.nil_infix
        | cons q p =>
          obtain ⟨rfl, -⟩ := List.cons.inj hc2
          exact absurd (by simp) hs
      | cons e c =>
        obtain ⟨-, h2⟩ := List.cons.inj hc2
        right; exact ⟨c, y, by rw [h2, List.append_assoc]; rfl⟩
  · rintro (⟨x, y, rfl⟩ | ⟨x, y, rfl⟩)
    · exact ⟨x, y ++ s :: b, by simp⟩
    · exact ⟨a ++ s :: x, y, by simp⟩

/-- A pattern without brackets, commas and blanks occurs in the list's text exactly if it occurs in one of the names. -/
theorem infix_repr {p : List Char} (hp : p ≠ []) (h1 : ',' ∉ p) (h2 : ' ' ∉ p) (h3 : '[' ∉ p) (h4 : ']' ∉ p)
    (names : List String) : p <:+: reprTokens names ↔ ∃ n ∈ names, p <:+: n.toList := by
  have hnil : ¬ p <:+: [] := by simpa using hp
  have key : ∀ names : List String, p <:+: List.intercalate ", ".toList (names.map String.toList) ++ "]".toList ↔
      ∃ n ∈ names, p <:+: n.toList := by
    intro names
    induction names with
    | nil =>
      have h5 := infix_split (a := []) (b := []) h4
      simp only [List.map_nil, List.intercalate, List.intersperse_nil, List.flatten_nil, List.not_mem_nil, false_and,
        exists_false, iff_false]
      intro h
      rcases h5.1 h with h | h <;> exact hnil h
    | cons n ns ih =>
      cases ns with
      | nil =>
        have := infix_split (a := n.toList) (b := []) h4
        simp only [List.map_cons, List.map_nil, List.intercalate, List.intersperse_singleton, List.flatten_cons, List.flatten_nil,
          List.append_nil, List.mem_cons, List.not_mem_nil, or_false, exists_eq_left]
        rw [show ("]".toList) = ']' :: [] from rfl, this]
        simp [hnil]
      | cons m ms =>
        have e : List.intercalate ", ".toList ((n :: m :: ms).map String.toList) ++ "]".toList =
            n.toList ++ ',' :: ([] ++ ' ' :: (List.intercalate ", ".toList ((m :: ms).map String.toList) ++ "]".toList)) := by
          simp [List.intercalate, List.intersperse_cons_cons]
        rw [e, infix_split h1, infix_split h2, ih]
        simp [hnil]
  unfold reprTokens
  rw [show '[' :: (List.intercalate ", ".toList (names.map String.toList) ++ "]".toList) =
    [] ++ '[' :: (List.intercalate ", ".toList (names.map String.toList) ++ "]".toList) from rfl, infix_split h3, key]
  simp [hnil]

/-- A name starts with `u`. -/
def StartsU (n : String) : Prop := ∃ r, n.toList = 'u' :: r

theorem comma_infix {a b : List Char} (h : ∀ c ∈ a, c ≠ ',') {q : List Char} :
    (',' :: q) <:+: a ++ b ↔ (',' :: q) <:+: b := by
  constructor
  · intro hi
    induction a with
    | nil => exact hi
    | cons c a ih =>
      rw [List.cons_append, List.infix_cons_iff] at hi
      rcases hi with hi | hi
      · obtain ⟨y, hy⟩ := hi
        simp only [List.cons_append, List.cons.injEq] at hy
        exact absurd hy.1.symm (h c (by simp))
      · exact ih (fun c hc => h c (by simp [hc])) hi
  · intro hi
    exact hi.trans (List.suffix_append a b).isInfix

/-- `', u'` occurs in the list's text exactly if a name after the first starts with `u`. -/
theorem comma_u_repr (names : List String) (hc : ∀ n ∈ names, CleanName n) :
    ", u".toList <:+: reprTokens names ↔ ∃ n ∈ names.tail, StartsU n := by
  have nocomma : ∀ n ∈ names, ∀ c ∈ n.toList, c ≠ ',' := fun n hn c hcn => (hc n hn c hcn).1
  have key : ∀ names : List String, (∀ n ∈ names, ∀ c ∈ n.toList, c ≠ ',') →
      (", u".toList <:+: List.intercalate ", ".toList (names.map String.toList) ++ "]".toList ↔
        ∃ n ∈ names.tail, StartsU n) := by
    intro names
    induction names with
    | nil =>
      intro _
      simp only [List.map_nil, List.tail_nil, List.not_mem_nil, false_and, exists_false, iff_false]
      decide
    | cons n ns ih =>
      intro hc
      cases ns with
      | nil =>
        have e : List.intercalate ", ".toList ([n].map String.toList) ++ "]".toList = n.toList ++ "]".toList := by
          simp [List.intercalate]
        rw [e, show ", u".toList = ',' :: [' ', 'u'] from rfl, comma_infix (hc n (by simp))]
        simp only [List.tail_cons, List.not_mem_nil, false_and, exists_false, iff_false]
        decide
      | cons m ms =>
        have e : List.intercalate ", ".toList ((n :: m :: ms).map String.toList) ++ "]".toList =
            n.toList ++ (',' :: ' ' :: (List.intercalate ", ".toList ((m :: ms).map String.toList) ++ "]".toList)) := by
          simp [List.intercalate, List.intersperse_cons_cons]
        have e2 : List.intercalate ", ".toList ((m :: ms).map String.toList) ++ "]".toList =
            m.toList ++ (List.drop m.toList.length (List.intercalate ", ".toList ((m :: ms).map String.toList) ++ "]".toList)) := by
          cases ms <;> simp [List.intercalate, List.intersperse_cons_cons]
        have ihm := ih (fun n' hn' => hc n' (by simp [hn']))
        rw [e, show ", u".toList = ',' :: [' ', 'u'] from rfl, comma_infix (hc n (by simp)), List.infix_cons_iff,
          List.infix_cons_iff]
        have p2 : ¬ [',', ' ', 'u'] <+: ' ' :: (List.intercalate ", ".toList ((m :: ms).map String.toList) ++ "]".toList) := by
          rintro ⟨y, hy⟩
          simp at hy
        have p1 : [',', ' ', 'u'] <+: ',' :: ' ' :: (List.intercalate ", ".toList ((m :: ms).map String.toList) ++ "]".toList) ↔
            StartsU m ∨ (m.toList = [] ∧ ['u'] <+: (List.intercalate ", ".toList ((m :: ms).map String.toList) ++ "]".toList)) := by
          rw [List.cons_prefix_cons, List.cons_prefix_cons]
          simp only [true_and]
          constructor
          · intro hpre
            by_cases hm : m.toList = []
            · exact Or.inr ⟨hm, hpre⟩
            · left
              rw [e2] at hpre
              obtain ⟨c, r, hcr⟩ := List.exists_cons_of_ne_nil hm
              rw [hcr, List.cons_append, List.cons_prefix_cons] at hpre
              exact ⟨r, by rw [hcr, ← hpre.1]⟩
          · rintro (⟨r, hr⟩ | ⟨_, hpre⟩)
            · rw [e2, hr]; exact ⟨_, rfl⟩
            · exact hpre
        have p3 : ¬ (m.toList = [] ∧ ['u'] <+: (List.intercalate ", ".toList ((m :: ms).map String.toList) ++ "]".toList)) := by
          rintro ⟨hm, y, hy⟩
          cases ms with
          | nil => simp [List.intercalate, hm] at hy
          | cons m' ms => simp [List.intercalate, List.intersperse_cons_cons, hm] at hy
        rw [p1]
        simp only [p3, p2, or_false, false_or, List.tail_cons, List.mem_cons, exists_eq_or_imp]
        rw [show [',', ' ', 'u'] = ", u".toList from rfl, ihm]
        simp
  unfold reprTokens
  rw [List.infix_cons_iff, key names nocomma]
  constructor
  · rintro (⟨y, hy⟩ | h)
    · simp at hy
    · exact h
  · exact Or.inr

/-- A derivative operator by name (spec). -/
def Deriv (n : String) : Prop := "diff".toList <:+: n.toList ∨ "Diff".toList <:+: n.toList

theorem termErrors_nil (m : Nat) (t : List String) (hc : ∀ n ∈ t, CleanName n) :
    termErrors m t = [] ↔
      (∃ n ∈ t, 'u' ∈ n.toList) ∧ t.length ≤ 2 ^ m ∧ ((∃ n ∈ t, Deriv n) → ∃ n ∈ t.tail, StartsU n) := by
  have hu : hasSub "u".toList (reprTokens t) = true ↔ ∃ n ∈ t, 'u' ∈ n.toList := by
    rw [hasSub_iff, infix_repr (by decide) (by decide) (by decide) (by decide) (by decide)]
    have : ∀ l : List Char, "u".toList <:+: l ↔ 'u' ∈ l := by
      intro l
      rw [show "u".toList = ['u'] from rfl]
      constructor
      · rintro ⟨a, b, rfl⟩; simp
      · intro h
        obtain ⟨a, b, rfl⟩ := List.append_of_mem h
        exact ⟨a, b, by simp⟩
    simp only [this]
  have hd : (hasSub "diff".toList (reprTokens t) || hasSub "Diff".toList (reprTokens t)) = true ↔ ∃ n ∈ t, Deriv n := by
    rw [Bool.or_eq_true, hasSub_iff, hasSub_iff, infix_repr (by decide) (by decide) (by decide) (by decide) (by decide),
      infix_repr (by decide) (by decide) (by decide) (by decide) (by decide)]
    constructor
    · rintro (⟨n, hn, h⟩ | ⟨n, hn, h⟩)
      · exact ⟨n, hn, Or.inl h⟩
      · exact ⟨n, hn, Or.inr h⟩
    · rintro ⟨n, hn, h | h⟩
      · exact Or.inl ⟨n, hn, h⟩
      · exact Or.inr ⟨n, hn, h⟩
  have hcu : hasSub ", u".toList (reprTokens t) = true ↔ ∃ n ∈ t.tail, StartsU n := by
    rw [hasSub_iff, comma_u_repr t hc]
  have hdep : depthOf t > m ↔ ¬ t.length ≤ 2 ^ m := by
    unfold depthOf
    rw [gt_iff_lt, Nat.lt_clog_iff_pow_lt (by decide)]
    omega
  unfold termErrors
  simp only [List.append_eq_nil_iff]
  rw [← hu, ← hd, ← hcu]
  generalize hasSub "u".toList (reprTokens t) = b1
  generalize (hasSub "diff".toList (reprTokens t) || hasSub "Diff".toList (reprTokens t)) = b2
  generalize hasSub ", u".toList (reprTokens t) = b3
  by_cases h2 : depthOf t > m
  · have h5 := hdep.1 h2
    cases b1 <;> cases b2 <;> cases b3 <;> simp [h2, h5]
  · have h5 : t.length ≤ 2 ^ m := by
      by_contra h; exact h2 (hdep.2 h)
    cases b1 <;> cases b2 <;> cases b3 <;> simp [h2, h5]

/-- **C71** (what is rejected): for token names without `,`, blank, `[`, `]`, a program without the spatial check passes
the regulations exactly if every term contains a name with the letter `u`, has at most `2^max_depth` tokens, and, if it
contains a derivative operator, has a token after the first whose name begins with `u`. -/
theorem C71_accepted_iff (c : Cfg) (hs : c.spatialError = false) (tr : List String) (terms : List (List String))
    (hc : ∀ t ∈ terms, ∀ n ∈ t, CleanName n) :
    (regulations c tr terms).2 = [] ↔ ∀ t ∈ terms,
      (∃ n ∈ t, 'u' ∈ n.toList) ∧ t.length ≤ 2 ^ c.maxDepth ∧ ((∃ n ∈ t, Deriv n) → ∃ n ∈ t.tail, StartsU n) := by
  simp only [regulations, hs, checkTerms, Bool.false_eq_true, if_false, List.nil_append]
  rw [List.flatMap_eq_nil_iff]
  constructor
  · intro h t ht
    exact (termErrors_nil _ t (hc t ht)).1 (h t ht)
  · intro h t ht
    exact (termErrors_nil _ t (hc t ht)).2 (h t ht)

/-- **C71** (meaning, for the library's own names): if only state variables have names beginning with `u` and the term
uses no operator whose name contains the letter, then every term of an accepted program contains a state variable, and
one with a derivative operator contains it as an argument. -/
theorem C71_state_partial (c : Cfg) (isState : String → Prop) (tr : List String) (terms : List (List String))
    (hc : ∀ t ∈ terms, ∀ n ∈ t, CleanName n) (hu : ∀ t ∈ terms, ∀ n ∈ t, StartsU n → isState n)
    (hacc : (regulations c tr terms).2 = []) (t : List String) (ht : t ∈ terms) :
    t.length ≤ 2 ^ c.maxDepth ∧ ((∃ n ∈ t, Deriv n) → ∃ n ∈ t.tail, isState n) ∧
      ((∀ n ∈ t, 'u' ∈ n.toList → StartsU n) → ∃ n ∈ t, isState n) := by
  have h0 : terms.flatMap (termErrors c.maxDepth) = [] := by
    simp only [regulations, checkTerms, List.append_eq_nil_iff] at hacc
    exact hacc.2
  obtain ⟨⟨n, hn, hnu⟩, h2, h3⟩ := (termErrors_nil c.maxDepth t (hc t ht)).1 (List.flatMap_eq_nil_iff.1 h0 t ht)
  refine ⟨h2, fun hd => ?_, fun hall => ⟨n, hn, hu t ht n hn (hall n hn hnu)⟩⟩
  obtain ⟨m, hm, hmu⟩ := h3 hd
  exact ⟨m, hm, hu t ht m (List.mem_of_mem_tail hm) hmu⟩

/-- **C71** fails for operators whose name contains `u`: the term `x1 · x1`, without any state variable, is accepted
because `mul` contains the letter. -/
theorem C71_mul_counterexample : (regulations {} ["mul", "x1", "x1"] [["mul", "x1", "x1"]]).2 = [] := by
  decide +kernel

/-- … and a derivative of the coordinate alone is accepted next to a state variable: `diff(x1, x1) · u1`. -/
theorem C71_diff_counterexample :
    (regulations {} ["mul", "diff", "x1", "x1", "u1"] [["mul", "diff", "x1", "x1", "u1"]]).2 = [] := by
  decide +kernel

-- accepted: u1·diff(u1,x1) ; rejected: diff(x1,x1), a lone coordinate, and a term of 9 tokens for max_depth 3
example : (regulations {} ["mul", "u1", "diff", "u1", "x1"] [["mul", "u1", "diff", "u1", "x1"]]).2 = [] ∧
    (regulations {} ["diff", "x1", "x1"] [["diff", "x1", "x1"]]).2 = ["no_u", "violate physical constraint"] ∧
    (regulations {} ["x1"] [["x1"]]).2 = ["violate physical constraint"] ∧
    (regulations { maxDepth := 3 } [] [["mul", "u1", "mul", "u1", "mul", "u1", "mul", "u1", "u1"]]).2 = ["depth_limit"] := by
  decide +kernel

/-! ## The spatial check -/

theorem countSub_split (p : List Char) (s : Char) (hp : p ≠ []) (hs : s ∉ p) (b : List Char) :
    ∀ a : List Char, countSub p (a ++ s :: b) = countSub p a + countSub p b := by
  have key : ∀ (n : Nat) (a : List Char), a.length ≤ n → countSub p (a ++ s :: b) = countSub p a + countSub p b := by
    intro n
    induction n with
    | zero =>
      intro a ha
      have : a = [] := List.length_eq_zero_iff.1 (by omega)
      subst this
      rw [List.nil_append]
      have : p.isPrefixOf (s :: b) = false := by
        cases p with
        | nil => exact absurd rfl hp
        | cons q p =>
          have : q ≠ s := fun e => hs (by simp [e])
          simp [List.isPrefixOf, this]
      have e : countSub p (s :: b) = countSub p b := by rw [countSub, if_neg (by simp [this])]
      rw [e]
      simp [countSub]
    | succ n ih =>
      intro a ha
      cases a with
      | nil => exact ih [] (by simp)
      | cons c a =>
        rw [List.cons_append, countSub, countSub]
        by_cases h : p <+: c :: a
        · have h' : p <+: c :: (a ++ s :: b) := h.trans ⟨s :: b, by simp⟩
          rw [if_pos (List.isPrefixOf_iff_prefix.2 h'), if_pos (List.isPrefixOf_iff_prefix.2 h)]
          have hl := h.length_le
          have hp0 : 0 < p.length := List.length_pos_iff.2 hp
          have e : (c :: (a ++ s :: b)).drop (max p.length 1) = (c :: a).drop (max p.length 1) ++ s :: b := by
            rw [← List.cons_append, List.drop_append_of_le_length]
            simp at hl ⊢; omega
          rw [e, ih]
          · omega
          · simp at ha ⊢; omega
        · have h' : ¬ p <+: c :: (a ++ s :: b) := by
            intro hh
            rw [← List.cons_append] at hh
            rcases Nat.lt_or_ge (c :: a).length p.length with hlt | hge
            · obtain ⟨y, hy⟩ := hh
              have := congrArg (fun l => l[(c :: a).length]?) hy
              rw [List.getElem?_append_left hlt, List.getElem?_append_right (by simp), Nat.sub_self] at this
              exact hs (List.mem_of_getElem? (by simpa using this))
            · exact h (List.prefix_of_prefix_length_le hh (List.prefix_append _ _) hge)
          rw [if_neg (by simpa [List.isPrefixOf_iff_prefix] using h'),
            if_neg (by simpa [List.isPrefixOf_iff_prefix] using h)]
          exact ih a (by simp at ha; omega)
  exact fun a => key a.length a (Nat.le_refl _)

theorem countSub_repr (p : List Char) (hp : p ≠ []) (h1 : ',' ∉ p) (h2 : ' ' ∉ p) (h3 : '[' ∉ p) (h4 : ']' ∉ p)
    (names : List String) : countSub p (reprTokens names) = (names.map fun n => countSub p n.toList).sum := by
  have hnil : countSub p [] = 0 := by simp [countSub]
  have key : ∀ names : List String, countSub p (List.intercalate ", ".toList (names.map String.toList) ++ "]".toList) =
      (names.map fun n => countSub p n.toList).sum := by
    intro names
    induction names with
    | nil =>
      have := countSub_split p ']' hp h4 [] []
      simpa [hnil, List.intercalate] using this
    | cons n ns ih =>
      cases ns with
      | nil =>
        have := countSub_split p ']' hp h4 [] n.toList
        simpa [hnil, List.intercalate] using this
      | cons m ms =>
        have e : List.intercalate ", ".toList ((n :: m :: ms).map String.toList) ++ "]".toList =
            n.toList ++ ',' :: ([] ++ ' ' :: (List.intercalate ", ".toList ((m :: ms).map String.toList) ++ "]".toList)) := by
          simp [List.intercalate, List.intersperse_cons_cons]
        rw [e, countSub_split p ',' hp h1, countSub_split p ' ' hp h2, ih, hnil]
        simp
  unfold reprTokens
  have := countSub_split p '[' hp h3 (List.intercalate ", ".toList (names.map String.toList) ++ "]".toList) []
  rw [List.nil_append] at this
  rw [this, key, hnil]
  simp

theorem digit_ne (i : Nat) (c : Char) (hc : c ∈ xName i) : c ≠ ',' ∧ c ≠ ' ' ∧ c ≠ '[' ∧ c ≠ ']' := by
  unfold xName at hc
  rcases List.mem_cons.1 hc with rfl | hc
  · decide
  · have : c.isDigit = true := by
      have h := Nat.isDigit_of_mem_toDigits (b := 10) (n := i) (c := c) (by decide) (by decide)
      apply h
      simpa [toString, Nat.repr] using hc
    refine ⟨?_, ?_, ?_, ?_⟩ <;> rintro rfl <;> simp at this

theorem countSub_absent (p : List Char) : ∀ l : List Char, ¬ p <:+: l → countSub p l = 0 := by
  intro l
  induction l with
  | nil => intro _; simp [countSub]
  | cons c l ih =>
    intro h
    rw [countSub, if_neg, ih fun hi => h (hi.trans (List.suffix_cons c l).isInfix)]
    intro hp
    exact h (List.isPrefixOf_iff_prefix.1 hp).isInfix

theorem countSub_name (p l : List Char) (hp : p ≠ []) (h : p <:+: l → l = p) : countSub p l = if l = p then 1 else 0 := by
  by_cases hl : l = p
  · subst hl
    cases l with
    | nil => exact absurd rfl hp
    | cons c l =>
      rw [countSub, if_pos (by simp), if_pos rfl]
      have : (c :: l).drop (max (c :: l).length 1) = [] := by simp
      rw [this]; simp [countSub]
  · rw [if_neg hl, countSub_absent p l fun hi => hl (h hi)]

/-- How often the coordinate `x_i` appears in a program (spec). -/
def uses (tr : List String) (i : Nat) : Nat := (tr.filter fun n => decide (n.toList = xName i)).length

theorem uses_count (tr : List String) (i : Nat)
    (hn : ∀ n ∈ tr, xName i <:+: n.toList → n.toList = xName i) :
    countSub (xName i) (reprTokens tr) = uses tr i := by
  rw [countSub_repr (xName i) (by simp [xName]) (fun h => (digit_ne i _ h).1 rfl) (fun h => (digit_ne i _ h).2.1 rfl)
    (fun h => (digit_ne i _ h).2.2.1 rfl) (fun h => (digit_ne i _ h).2.2.2 rfl)]
  unfold uses
  induction tr with
  | nil => rfl
  | cons n tr ih =>
    rw [List.map_cons, List.sum_cons, ih (fun n hn' => hn n (by simp [hn'])), countSub_name _ _ (by simp [xName]) (hn n (by simp)), List.filter_cons]
    by_cases h : n.toList = xName i <;> simp [h, Nat.add_comm]

/-- **C71** (spatial check): with the check on and all inputs spatial, a program is accepted exactly if it uses every
coordinate equally often and passes the other checks – if the texts `x1`, …, `x_dim` occur in no other token name. -/
theorem C71_spatial (c : Cfg) (hs : c.spatialError = true) (hx : c.xLastStr = false) (tr : List String)
    (terms : List (List String)) (hd : 1 ≤ c.xDim)
    (hn : ∀ n ∈ tr, ∀ i, 1 ≤ i → i ≤ c.xDim → xName i <:+: n.toList → n.toList = xName i) :
    (regulations c tr terms).2 = [] ↔
      (∀ i, 1 ≤ i → i ≤ c.xDim → uses tr i = uses tr 1) ∧
        (regulations { c with spatialError := false } tr terms).2 = [] := by
  have hcount : ∀ i, 1 ≤ i → i ≤ c.xDim → countSub (xName i) (reprTokens tr) = uses tr i := by
    intro i h1 h2
    rw [countSub_repr (xName i) (by simp [xName]) (fun h => (digit_ne i _ h).1 rfl) (fun h => (digit_ne i _ h).2.1 rfl)
      (fun h => (digit_ne i _ h).2.2.1 rfl) (fun h => (digit_ne i _ h).2.2.2 rfl)]
    unfold uses
    induction tr with
    | nil => rfl
    | cons n tr ih =>
      rw [List.map_cons, List.sum_cons, ih (fun n hn' => hn n (by simp [hn'])), countSub_name _ _ (by simp [xName]) (hn n (by simp) i h1 h2), List.filter_cons]
      by_cases h : n.toList = xName i <;> simp [h, Nat.add_comm]
  simp only [regulations, hs, spatialErrors, hx, List.append_eq_nil_iff, if_true, Bool.and_false, Bool.false_eq_true,
    if_false, List.flatMap_eq_nil_iff, List.nil_append, true_and]
  refine and_congr_left fun _ => ?_
  constructor
  · intro hacc i h1 hi
    by_cases hi1 : i = 1
    · rw [hi1]
    · have := hacc (i - 1) (by
        rw [List.mem_drop_iff_getElem]
        exact ⟨i - 2, by simp; omega, by simp; omega⟩)
      rw [show i - 1 + 1 = i by omega, hcount i h1 hi, hcount 1 (Nat.le_refl _) hd] at this
      by_contra hne
      simp [hne] at this
  · intro hall i hi
    obtain ⟨k, hk, hik⟩ := List.mem_drop_iff_getElem.1 hi
    simp only [List.getElem_range, List.length_range] at hik hk
    rw [hcount (i + 1) (by omega) (by omega), hcount 1 (Nat.le_refl _) hd, hall (i + 1) (by omega) (by omega)]
    simp

/-- **C71** (spatial check with a placeholder): if the last of the inputs is only a placeholder, the inputs before it are
`x1, …, x_{dim-1}`; a program is accepted exactly if it uses all but the last of those equally often, uses the last one at
all (when there are at least two), and passes the other checks. -/
theorem C71_spatial_placeholder (c : Cfg) (hs : c.spatialError = true) (hx : c.xLastStr = true) (tr : List String)
    (terms : List (List String)) (hd : 2 ≤ c.xDim)
    (hn : ∀ n ∈ tr, ∀ i, 1 ≤ i → i ≤ c.xDim → xName i <:+: n.toList → n.toList = xName i) :
    (regulations c tr terms).2 = [] ↔
      (∀ i, 1 ≤ i → i < c.xDim - 1 → uses tr i = uses tr 1) ∧ (3 ≤ c.xDim → uses tr (c.xDim - 1) ≠ 0) ∧
        (regulations { c with spatialError := false } tr terms).2 = [] := by
  have hcount : ∀ i, 1 ≤ i → i ≤ c.xDim → countSub (xName i) (reprTokens tr) = uses tr i :=
    fun i h1 h2 => uses_count tr i fun n hn' => hn n hn' i h1 h2
  have hpos : decide (c.xDim > 0) = true := by simp; omega
  simp only [regulations, hs, spatialErrors, hx, hpos, List.append_eq_nil_iff, if_true, Bool.and_true, Bool.false_eq_true,
    if_false, List.flatMap_eq_nil_iff, List.nil_append, decide_eq_true_eq]
  rw [← and_assoc]
  refine and_congr_left fun _ => ?_
  constructor
  · intro hacc
    refine ⟨fun i h1 hi => ?_, fun h3 h0 => ?_⟩
    · by_cases hi1 : i = 1
      · rw [hi1]
      · have := hacc (i - 1) (by
          rw [List.mem_drop_iff_getElem]
          exact ⟨i - 2, by simp; omega, by simp; omega⟩)
        rw [if_neg (by omega), show i - 1 + 1 = i by omega, hcount i h1 (by omega), hcount 1 (Nat.le_refl _) (by omega)] at this
        by_contra hne
        simp [hne] at this
    · have := hacc (c.xDim - 2) (by
        rw [List.mem_drop_iff_getElem]
        exact ⟨c.xDim - 3, by simp; omega, by simp; omega⟩)
      rw [if_pos (by omega), show c.xDim - 2 + 1 = c.xDim - 1 by omega, hcount _ (by omega) (by omega), if_pos h0] at this
      simp at this
  · rintro ⟨hall, hlast⟩ i hi
    obtain ⟨k, hk, hik⟩ := List.mem_drop_iff_getElem.1 hi
    simp only [List.getElem_range, List.length_range] at hik hk
    by_cases hil : i = c.xDim - 1 - 1
    · rw [if_pos hil, hcount (i + 1) (by omega) (by omega), if_neg]
      have := hlast (by omega)
      rwa [show i + 1 = c.xDim - 1 by omega]
    · rw [if_neg hil, hcount (i + 1) (by omega) (by omega), hcount 1 (Nat.le_refl _) (by omega),
        hall (i + 1) (by omega) (by omega)]
      simp

-- with inputs x1, x2 and a placeholder, x1 twice and x2 once is accepted, x2 never is not
example : (regulations { spatialError := true, xDim := 3, xLastStr := true } ["add", "diff2", "u1", "x1", "mul", "diff", "u1", "x1", "diff", "u1", "x2"]
      [["diff2", "u1", "x1"], ["mul", "diff", "u1", "x1", "diff", "u1", "x2"]]).2 = [] ∧
    (regulations { spatialError := true, xDim := 3, xLastStr := true } ["diff2", "u1", "x1"] [["diff2", "u1", "x1"]]).2 =
      ["spatial_error"] := by decide +kernel

-- diff2(u1, x1) + diff2(u1, x2) is accepted in two dimensions, diff2(u1, x1) alone is not
example : (regulations { spatialError := true, xDim := 2 } ["add", "diff2", "u1", "x1", "diff2", "u1", "x2"]
      [["diff2", "u1", "x1"], ["diff2", "u1", "x2"]]).2 = [] ∧
    (regulations { spatialError := true, xDim := 2 } ["diff2", "u1", "x1"] [["diff2", "u1", "x1"]]).2 =
      ["spatial_error"] := by decide +kernel

end Verif.Discover.Fit.Claims
