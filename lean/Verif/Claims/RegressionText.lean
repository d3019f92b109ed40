import Verif.Discover.RegressionText
import Mathlib.Data.List.Forall2
import Mathlib.Data.Rat.Floor
import Mathlib.Tactic.Linarith
import Mathlib.Tactic.FieldSimp
import Mathlib.Tactic.Ring
import Mathlib.Tactic.NormNum
import Mathlib.Tactic.Positivity
/-! C93: the named expression.  C94: the expression text can be read back. -/
namespace Verif.Discover.RegressionText.Claims
open Verif.Discover.RegressionText

/-! ### C93 -/

/-- `p` occurs in `s`. -/
def Occurs (p s : List Char) : Prop := p <:+: s

/-- The expression a user wants to see: every variable is shown by its own name. -/
def named (names : List (List Char)) (prog : List Sym) : List Char :=
  joinComma (prog.map fun
    | .var i => (names[i]?).getD (varName i)
    | s => s.text)

theorem replaceGo_skip (p r : List Char) (k : Nat) : ∀ s : List Char, replaceGo p r k s = replaceGo p r 0 (s.drop k) := by
  induction k with
  | zero => intro s; rfl
  | succ k ih =>
    intro s
    cases s with
    | nil => simp [replaceGo]
    | cons c cs => simp only [replaceGo, List.drop_succ_cons]; exact ih cs

theorem replaceGo_cons (p r : List Char) (hp : p ≠ []) (c : Char) (cs : List Char) :
    replace p r (c :: cs) = if p <+: c :: cs then r ++ replace p r ((c :: cs).drop p.length) else c :: replace p r cs := by
  unfold replace
  simp only [replaceGo]
  by_cases h : p <+: c :: cs
  · rw [if_pos h, if_pos (List.isPrefixOf_iff_prefix.2 h), replaceGo_skip]
    obtain ⟨n, hn⟩ : ∃ n, p.length = n + 1 := ⟨p.length - 1, by have := List.length_pos_iff.2 hp; omega⟩
    rw [hn]; rfl
  · rw [if_neg h, if_neg (by rwa [List.isPrefixOf_iff_prefix])]

theorem replace_absent (p r : List Char) (hp : p ≠ []) : ∀ s : List Char, ¬ Occurs p s → replace p r s = s := by
  intro s
  induction s with
  | nil => intro _; rfl
  | cons c cs ih =>
    intro h
    rw [replaceGo_cons p r hp, if_neg (fun h' => h h'.isInfix)]
    rw [ih (fun h' => h (h'.trans (List.suffix_cons c cs).isInfix))]

/-- A pattern without commas is replaced in every field separately. -/
theorem replace_comma (p r : List Char) (hp : p ≠ []) (hc : ',' ∉ p) (b : List Char) : ∀ (n : Nat) (a : List Char), a.length ≤ n →
    replace p r (a ++ ',' :: b) = replace p r a ++ ',' :: replace p r b := by
  intro n
  induction n with
  | zero =>
    intro a ha
    have : a = [] := List.eq_nil_of_length_eq_zero (by omega)
    subst this
    simp only [List.nil_append]
    rw [replaceGo_cons p r hp, if_neg]
    · rfl
    · rintro ⟨t, ht⟩
      cases p with
      | nil => exact hp rfl
      | cons x p => simp at ht; rw [ht.1] at hc; simp at hc
  | succ n ih =>
    intro a ha
    cases a with
    | nil => exact ih [] (by simp)
    | cons x a =>
      simp only [List.length_cons] at ha
      rw [List.cons_append, replaceGo_cons p r hp, replaceGo_cons p r hp]
      have hiff : p <+: x :: (a ++ ',' :: b) ↔ p <+: x :: a := by
        rw [← List.cons_append]
        constructor
        · intro h
          rcases List.prefix_or_prefix_of_prefix h (List.prefix_append (x :: a) (',' :: b)) with h' | h'
          · exact h'
          · obtain ⟨t, rfl⟩ := h'
            rw [List.prefix_append_right_inj] at h
            cases t with
            | nil => simp
            | cons y t =>
              obtain ⟨u, hu⟩ := h
              simp at hu
              rw [hu.1] at hc
              simp at hc
        · exact fun h => h.trans (List.prefix_append _ _)
      by_cases h : p <+: x :: a
      · rw [if_pos (hiff.2 h), if_pos h]
        have hl := h.length_le
        rw [← List.cons_append, List.drop_append_of_le_length hl, ih _ (by
          have := List.length_pos_iff.2 hp
          simp; omega)]
        simp
      · rw [if_neg (fun h' => h (hiff.1 h')), if_neg h, ih a (by omega)]
        rfl

theorem replace_join (p r : List Char) (hp : p ≠ []) (hc : ',' ∉ p) : ∀ l : List (List Char),
    replace p r (joinComma l) = joinComma (l.map (replace p r)) := by
  intro l
  induction l with
  | nil => rfl
  | cons a l ih =>
    cases l with
    | nil => rfl
    | cons b l =>
      simp only [joinComma, List.map_cons] at ih ⊢
      rw [replace_comma p r hp hc _ a.length a (Nat.le_refl _), ih]

theorem varName_ne (i : Nat) : varName i ≠ [] := by simp [varName]

theorem digit_mem {n : Nat} {c : Char} (h : c ∈ Nat.toDigits 10 n) : c.isDigit := Nat.isDigit_of_mem_toDigits (by decide) (by decide) h

theorem varName_comma (i : Nat) : ',' ∉ varName i := by
  unfold varName
  intro h
  rcases List.mem_cons.1 h with h | h
  · exact absurd h (by decide)
  · exact absurd (digit_mem h) (by decide)

theorem digits_inj {n m : Nat} (h : Nat.toDigits 10 n = Nat.toDigits 10 m) : n = m := by
  have := congrArg (fun l => Nat.ofDigitChars 10 l 0) h
  simpa using this

theorem varName_inj {i j : Nat} (h : varName i = varName j) : i = j := by
  unfold varName at h
  have := digits_inj (List.cons.inj h).2
  omega

/-- `x{i}` occurs in `x{k}` only if `i ≤ k`. -/
theorem occurs_var {i k : Nat} (h : Occurs (varName i) (varName k)) : i ≤ k := by
  obtain ⟨a, b, hab⟩ := h
  unfold varName at hab
  have ha : a = [] := by
    cases a with
    | nil => rfl
    | cons x a =>
      simp only [List.cons_append, List.cons.injEq, List.append_assoc] at hab
      have : 'x' ∈ Nat.toDigits 10 (k + 1) := by rw [← hab.2]; simp
      exact absurd (digit_mem this) (by decide)
  subst ha
  simp only [List.nil_append, List.cons_append, List.cons.injEq, true_and] at hab
  have := congrArg (fun l => Nat.ofDigitChars 10 l 0) hab
  simp only [Nat.ofDigitChars_append, Nat.ofDigitChars_ten_toDigits] at this
  rw [Nat.ofDigitChars_eq_ofDigitChars_zero] at this
  have h1 : 1 ≤ 10 ^ b.length := Nat.one_le_pow _ _ (by decide)
  nlinarith

theorem replace_self (p r : List Char) (hp : p ≠ []) : replace p r p = r := by
  cases p with
  | nil => exact absurd rfl hp
  | cons c cs =>
    rw [replaceGo_cons _ _ hp, if_pos (List.prefix_refl _)]
    simp [replace, replaceGo]

/-- Rendering acts on every field separately. -/
theorem renderNamed_join (names : List (List Char)) (l : List (List Char)) :
    renderNamed (joinComma l) names = joinComma (l.map fun s => renderNamed s names) := by
  unfold renderNamed
  generalize names.zipIdx.reverse = ps
  induction ps generalizing l with
  | nil => simp
  | cons q ps ih =>
    simp only [List.foldl_cons]
    rw [replace_join _ _ (varName_ne _) (varName_comma _), ih]
    simp [List.map_map, Function.comp_def]

theorem render_absent (ps : List (List Char × Nat)) (s : List Char) (h : ∀ q ∈ ps, ¬ Occurs (varName q.2) s) :
    ps.foldl (fun s p => replace (varName p.2) p.1 s) s = s := by
  induction ps with
  | nil => rfl
  | cons q ps ih =>
    simp only [List.foldl_cons]
    rw [replace_absent _ _ (varName_ne _) _ (h q (by simp))]
    exact ih (fun q hq => h q (by simp [hq]))

/-- A variable becomes its name, if the name does not contain the default name of an earlier variable. -/
theorem render_var (names : List (List Char)) (k : Nat) (hk : k < names.length)
    (h : ∀ i < k, ¬ Occurs (varName i) names[k]) : renderNamed (varName k) names = names[k] := by
  unfold renderNamed
  have hz : names.zipIdx = (names.zipIdx.take k) ++ (names[k], k) :: names.zipIdx.drop (k + 1) := by
    have h1 := List.take_append_drop k names.zipIdx
    rw [List.drop_eq_getElem_cons (by simpa using hk)] at h1
    refine h1.symm.trans ?_
    simp
  rw [hz, List.reverse_append, List.reverse_cons, List.foldl_append, List.foldl_append]
  rw [render_absent (names.zipIdx.drop (k + 1)).reverse]
  · simp only [List.foldl_cons, List.foldl_nil]
    rw [replace_self _ _ (varName_ne _)]
    apply render_absent
    intro q hq
    rw [List.mem_reverse, List.mem_take_iff_getElem] at hq
    obtain ⟨j, hj, rfl⟩ := hq
    simp only [List.getElem_zipIdx, Nat.zero_add]
    apply h; omega
  · intro q hq ho
    rw [List.mem_reverse, List.mem_drop_iff_getElem] at hq
    obtain ⟨j, hj, rfl⟩ := hq
    simp only [List.getElem_zipIdx, Nat.zero_add] at ho
    have := occurs_var ho
    omega

/-- **C93** The named expression shows exactly the expression with every variable by its own name (for any number of variables,
also ten and more), provided no name contains the default name `x1`, `x2`, … of an earlier variable, and no operator name or number
contains such a default name. -/
theorem C93_named_partial (names : List (List Char)) (prog : List Sym)
    (hv : ∀ i, Sym.var i ∈ prog → i < names.length)
    (hn : ∀ k (hk : k < names.length), ∀ i < k, ¬ Occurs (varName i) names[k])
    (ht : ∀ s ∈ prog, (∀ i, s ≠ .var i) → ∀ i, ¬ Occurs (varName i) s.text) :
    renderNamed (serialize prog) names = named names prog := by
  unfold serialize named
  rw [renderNamed_join, List.map_map]
  congr 1
  apply List.map_congr_left
  intro s hs
  have habs : (∀ i, s ≠ .var i) → renderNamed s.text names = s.text := by
    intro h
    exact render_absent _ _ (fun q _ => ht s hs h q.2)
  cases s with
  | var i =>
    have hi := hv i hs
    simp only [Function.comp, Sym.text]
    rw [render_var names i hi (hn i hi)]
    simp [hi]
  | tok n => exact habs (by simp)
  | const c => exact habs (by simp)

/-- The names of the operators the shipped configurations and the registry offer for regression (functions.py:98-125). -/
def operatorNames : List (List Char) :=
  (["add", "sub", "mul", "div", "sin", "cos", "tan", "exp", "log", "sqrt", "n2", "neg", "abs", "max", "min", "tanh", "inv",
    "logabs", "expneg", "n3", "n4", "n5", "sigmoid", "harmonic", "const"] : List String).map String.toList

/-- A text in which no `x` is followed by a digit contains no default variable name. -/
def noXDigit : List Char → Bool
  | 'x' :: c :: cs => !c.isDigit && noXDigit (c :: cs)
  | _ :: cs => noXDigit cs
  | [] => true

theorem noXDigit_spec (s : List Char) (h : noXDigit s = true) (i : Nat) : ¬ Occurs (varName i) s := by
  induction s with
  | nil => rintro ⟨a, b, hab⟩; simp [varName] at hab
  | cons c cs ih =>
    rintro ⟨a, b, hab⟩
    have htail : noXDigit cs = true := by
      unfold noXDigit at h
      split at h
      · next heq =>
        obtain ⟨rfl, rfl⟩ := List.cons.inj heq
        simp only [Bool.and_eq_true] at h; exact h.2
      · next heq =>
        obtain ⟨rfl, rfl⟩ := List.cons.inj heq
        exact h
      · next heq => cases heq
    cases a with
    | cons x a =>
      simp only [List.cons_append, List.cons.injEq] at hab
      exact ih htail ⟨a, b, hab.2⟩
    | nil =>
      unfold varName at hab
      simp only [List.nil_append, List.cons_append, List.cons.injEq] at hab
      obtain ⟨rfl, hab⟩ := hab
      have hpos := Nat.length_toDigits_pos (b := 10) (n := i + 1)
      cases hd : Nat.toDigits 10 (i + 1) with
      | nil => rw [hd] at hpos; simp at hpos
      | cons d ds =>
        have : d.isDigit := digit_mem (n := i + 1) (by rw [hd]; simp)
        rw [hd] at hab
        subst hab
        simp [noXDigit, this] at h

/-- The operator names are harmless. -/
theorem operators_ok : ∀ n ∈ operatorNames, ∀ i, ¬ Occurs (varName i) n := by
  intro n hn
  have : ∀ n ∈ operatorNames, noXDigit n = true := by decide
  exact fun i => noXDigit_spec n (this n hn) i

/-- **C93, counterexample** A feature called `flux1` next to one called `t`: the expression `x2` is shown as `flut`. -/
theorem C93_flux_counterexample :
    renderNamed (serialize [.var 1]) ["t".toList, "flux1".toList] = "flut".toList ∧
    named ["t".toList, "flux1".toList] [.var 1] = "flux1".toList := by decide

/-- **C93, counterexample** Two features whose names are the default names in the other order: both are shown as `x2`. -/
theorem C93_swapped_counterexample :
    renderNamed (serialize [.tok "add".toList, .var 0, .var 1]) ["x2".toList, "x1".toList] = "add,x2,x2".toList := by decide

example : renderNamed (serialize [.tok "mul".toList, .var 10, .var 0]) ((List.range 11).map fun i => 'c' :: Nat.toDigits 10 i) =
    "mul,c10,c0".toList := by decide +kernel

/-! ### C94 -/

/-- The part of a number's text after the point, before and after trailing zeros are removed, stands for the same number. -/
theorem dropWhile_zeros (s : List Char) : ∃ k, s = rstrip '0' s ++ List.replicate k '0' := by
  unfold rstrip
  have h := List.takeWhile_append_dropWhile (p := (· == '0')) (l := s.reverse)
  refine ⟨(s.reverse.takeWhile (· == '0')).length, ?_⟩
  have h2 : s = ((s.reverse.dropWhile (· == '0')).reverse) ++ (s.reverse.takeWhile (· == '0')).reverse := by
    rw [← List.reverse_append, h, List.reverse_reverse]
  have h3 : (s.reverse.takeWhile (· == '0')).reverse = List.replicate (s.reverse.takeWhile (· == '0')).length '0' := by
    rw [List.eq_replicate_iff]
    refine ⟨by simp, fun b hb => ?_⟩
    rw [List.mem_reverse] at hb
    have := List.all_takeWhile (p := (· == '0')) (l := s.reverse)
    have := List.all_eq_true.1 this b hb
    simpa using this
  rw [h3] at h2
  exact h2

theorem rstrip_append (c : Char) (a b : List Char) :
    rstrip c (a ++ b) = if rstrip c b = [] then rstrip c a else a ++ rstrip c b := by
  unfold rstrip
  rw [List.reverse_append, List.dropWhile_append]
  by_cases h : (b.reverse.dropWhile (· == c)) = []
  · rw [if_pos (by rw [h]; rfl), if_pos (by rw [h]; rfl)]
  · rw [if_neg (by simpa using h), if_neg (by simpa using h), List.reverse_append, List.reverse_reverse]

theorem rstrip_absent (c : Char) (s : List Char) (h : c ∉ s) : rstrip c s = s := by
  have h2 : ∀ l : List Char, c ∉ l → l.dropWhile (· == c) = l := by
    intro l hl
    cases l with
    | nil => rfl
    | cons x l =>
      have : (x == c) = false := by simp; rintro rfl; simp at hl
      simp [List.dropWhile, this]
  unfold rstrip
  rw [h2 _ (by simpa using h), List.reverse_reverse]

theorem digits_no {c : Char} (hc : c.isDigit = false) (n : Nat) : c ∉ Nat.toDigits 10 n := by
  intro h
  have := digit_mem h
  rw [hc] at this; cases this

theorem frac6_digit (m : Nat) : ∀ c ∈ frac6 m, c.isDigit := by
  intro c hc
  unfold frac6 at hc
  rcases List.mem_append.1 hc with h | h
  · rw [(List.mem_replicate.1 h).2]; decide
  · exact digit_mem h

theorem frac6_length {m : Nat} (h : m < 10 ^ 6) : (frac6 m).length = 6 := by
  unfold frac6
  have : (Nat.toDigits 10 m).length ≤ 6 := (Nat.length_toDigits_le_iff (by decide) (by decide)).2 h
  simp; omega

theorem frac6_value (m : Nat) : Nat.ofDigitChars 10 (frac6 m) 0 = m := by
  unfold frac6
  rw [Nat.ofDigitChars_append, Nat.ofDigitChars_replicate_zero, Nat.mul_zero, Nat.ofDigitChars_ten_toDigits]

/-- The shape of the text of a number. -/
theorem format_shape (c : ℚ) : ∃ g : List Char, g ≠ [] ∧ (∀ x ∈ g, x.isDigit) ∧
    formatConstant c = (if c < 0 then ['-'] else []) ++ Nat.toDigits 10 ((roundEven (|c| * 10 ^ 6)).toNat / 10 ^ 6) ++ '.' :: g ∧
    (Nat.ofDigitChars 10 g 0 : ℚ) / 10 ^ g.length = (((roundEven (|c| * 10 ^ 6)).toNat % 10 ^ 6 : ℕ) : ℚ) / 10 ^ 6 := by
  generalize hm : (roundEven (|c| * 10 ^ 6)).toNat = m
  have hlt : m % 10 ^ 6 < 10 ^ 6 := Nat.mod_lt _ (by decide)
  obtain ⟨k, hk⟩ := dropWhile_zeros (frac6 (m % 10 ^ 6))
  set g0 := rstrip '0' (frac6 (m % 10 ^ 6)) with hg0
  have hdig : ∀ x ∈ g0, x.isDigit := fun x hx => frac6_digit _ x (by rw [hk]; simp [hx])
  have hval : (m % 10 ^ 6 : ℕ) = Nat.ofDigitChars 10 g0 0 * 10 ^ k := by
    have := frac6_value (m % 10 ^ 6)
    rw [hk, Nat.ofDigitChars_append, Nat.ofDigitChars_replicate_zero] at this
    rw [← this, Nat.mul_comm]
  have hlen : g0.length + k = 6 := by
    have := frac6_length hlt
    rw [hk] at this
    simpa using this
  have hpd : ∀ (x : Char), x.isDigit = false → x ≠ '-' → x ∉ ((if c < 0 then ['-'] else []) ++ Nat.toDigits 10 (m / 10 ^ 6)) := by
    intro x hx hx'
    simp only [List.mem_append, not_or]
    refine ⟨?_, digits_no hx _⟩
    split <;> simp [hx']
  unfold formatConstant
  simp only [hm]
  generalize (if c < 0 then ['-'] else []) ++ Nat.toDigits 10 (m / 10 ^ 6) = pre at *
  have hdot : rstrip '0' (pre ++ '.' :: frac6 (m % 10 ^ 6)) = pre ++ '.' :: g0 := by
    have : rstrip '0' ('.' :: frac6 (m % 10 ^ 6)) = '.' :: g0 := by
      rw [show '.' :: frac6 (m % 10 ^ 6) = ['.'] ++ frac6 (m % 10 ^ 6) from rfl, rstrip_append]
      by_cases h : rstrip '0' (frac6 (m % 10 ^ 6)) = []
      · rw [if_pos h, hg0, h]; decide
      · rw [if_neg h]; rfl
    rw [rstrip_append, this, if_neg (by simp)]
  have hnp := hpd '.' (by decide) (by decide)
  rw [hdot]
  by_cases h : g0 = []
  · refine ⟨['0'], by simp, by decide, ?_, ?_⟩
    · have : rstrip '.' (pre ++ '.' :: g0) = pre := by
        rw [h, rstrip_append, if_pos (by decide), rstrip_absent _ _ hnp]
      rw [this, if_neg hnp]
      rfl
    · rw [hval, h]; simp [Nat.ofDigitChars]
  · refine ⟨g0, h, hdig, ?_, ?_⟩
    · have hnd : '.' ∉ g0 := fun hx => absurd (hdig _ hx) (by decide)
      have : rstrip '.' (pre ++ '.' :: g0) = pre ++ '.' :: g0 := by
        rw [show pre ++ '.' :: g0 = (pre ++ ['.']) ++ g0 by simp, rstrip_append, rstrip_absent _ _ hnd, if_neg h]
      rw [this, if_pos (by simp)]
    · rw [hval, ← hlen, pow_add]
      push_cast
      field_simp

theorem parseU_dec (n : Nat) (g : List Char) (hg : ∀ x ∈ g, x.isDigit) :
    parseU (Nat.toDigits 10 n ++ '.' :: g) = some ((n : ℚ) + (Nat.ofDigitChars 10 g 0 : ℚ) / 10 ^ g.length) := by
  have hd : ∀ x ∈ Nat.toDigits 10 n, Char.isDigit x = true := fun x hx => digit_mem hx
  have h1 : (Nat.toDigits 10 n ++ '.' :: g).takeWhile Char.isDigit = Nat.toDigits 10 n := by
    rw [List.takeWhile_append_of_pos hd]; simp [List.takeWhile, show Char.isDigit '.' = false from by decide]
  have h2 : (Nat.toDigits 10 n ++ '.' :: g).dropWhile Char.isDigit = '.' :: g := by
    rw [List.dropWhile_append_of_pos hd]; simp [List.dropWhile, show Char.isDigit '.' = false from by decide]
  have hne : Nat.toDigits 10 n ≠ [] := List.length_pos_iff.1 Nat.length_toDigits_pos
  unfold parseU
  simp only [h1, h2]
  rw [if_pos ⟨trivial, List.all_eq_true.2 hg, Or.inl hne⟩, Nat.ofDigitChars_ten_toDigits]

theorem parse_format_eq (c : ℚ) :
    parseDec (formatConstant c) = some ((if c < 0 then -1 else 1) * (((roundEven (|c| * 10 ^ 6)).toNat : ℚ) / 10 ^ 6)) := by
  obtain ⟨g, hg, hd, ht, hv⟩ := format_shape c
  rw [ht]
  generalize (roundEven (|c| * 10 ^ 6)).toNat = m at *
  have hm : (m : ℚ) / 10 ^ 6 = ((m / 10 ^ 6 : ℕ) : ℚ) + ((m % 10 ^ 6 : ℕ) : ℚ) / 10 ^ 6 := by
    have : (m : ℚ) = 10 ^ 6 * ((m / 10 ^ 6 : ℕ) : ℚ) + ((m % 10 ^ 6 : ℕ) : ℚ) := by
      exact_mod_cast (Nat.div_add_mod m (10 ^ 6)).symm
    rw [this]
    field_simp
  by_cases hc : c < 0
  · simp only [hc, if_true, List.cons_append, List.nil_append, parseDec]
    rw [parseU_dec _ _ hd, hv, hm]; simp
  · simp only [hc, if_false, List.nil_append]
    have : parseDec (Nat.toDigits 10 (m / 10 ^ 6) ++ '.' :: g) = parseU (Nat.toDigits 10 (m / 10 ^ 6) ++ '.' :: g) := by
      unfold parseDec
      split
      · next r heq =>
        exfalso
        have hne : Nat.toDigits 10 (m / 10 ^ 6) ≠ [] := List.length_pos_iff.1 Nat.length_toDigits_pos
        cases hx : Nat.toDigits 10 (m / 10 ^ 6) with
        | nil => exact hne hx
        | cons d ds =>
          rw [hx] at heq
          have := digits_no (c := '-') (by decide) (m / 10 ^ 6)
          rw [hx] at this
          simp at heq
          simp [heq.1] at this
      · rfl
    rw [this, parseU_dec _ _ hd, hv, hm]; simp

theorem roundEven_close (q : ℚ) : |(roundEven q : ℚ) - q| ≤ 1 / 2 := by
  have h1 : ((q.floor : ℤ) : ℚ) ≤ q := Int.floor_le q
  have h2 : q < ((q.floor : ℤ) : ℚ) + 1 := Int.lt_floor_add_one q
  unfold roundEven
  simp only
  rw [abs_le]
  split
  · constructor <;> linarith
  · split
    · push_cast; constructor <;> linarith
    · split
      · constructor <;> linarith
      · push_cast; constructor <;> linarith

theorem roundEven_int (z : ℤ) : roundEven (z : ℚ) = z := by
  have : ((z : ℚ)).floor = z := Rat.floor_intCast z
  unfold roundEven
  simp [this]

theorem roundEven_nonneg {q : ℚ} (h : 0 ≤ q) : 0 ≤ roundEven q := by
  have := abs_le.1 (roundEven_close q)
  have h2 : (-1 : ℚ) < roundEven q := by linarith [this.1]
  have h3 : (-1 : ℤ) < roundEven q := by exact_mod_cast h2
  omega

/-- The text of a constant is a number within half a millionth of the constant, and the constant itself if it has at most six
decimals. -/
theorem parse_format (c : ℚ) : ∃ q, parseDec (formatConstant c) = some q ∧ |q - c| ≤ 1 / 2 / 10 ^ 6 ∧
    ((∃ z : ℤ, c = z / 10 ^ 6) → q = c) := by
  refine ⟨_, parse_format_eq c, ?_, ?_⟩
  · have h0 : 0 ≤ roundEven (|c| * 10 ^ 6) := roundEven_nonneg (by positivity)
    have hcast : (((roundEven (|c| * 10 ^ 6)).toNat : ℕ) : ℚ) = (roundEven (|c| * 10 ^ 6) : ℚ) := by
      exact_mod_cast Int.toNat_of_nonneg h0
    rw [hcast]
    have hr := abs_le.1 (roundEven_close (|c| * 10 ^ 6))
    rw [abs_le]
    by_cases hc : c < 0
    · rw [abs_of_neg hc] at *
      simp only [hc, if_true]
      constructor <;> linarith [hr.1, hr.2]
    · rw [abs_of_nonneg (not_lt.1 hc)] at *
      simp only [hc, if_false]
      constructor <;> linarith [hr.1, hr.2]
  · rintro ⟨z, rfl⟩
    have h1 : |(z : ℚ) / 10 ^ 6| * 10 ^ 6 = ((|z| : ℤ) : ℚ) := by
      rw [abs_div, abs_of_pos (by positivity : (0 : ℚ) < 10 ^ 6)]
      field_simp
      push_cast; rfl
    rw [h1, roundEven_int]
    have hcast : (((|z|).toNat : ℕ) : ℚ) = ((|z| : ℤ) : ℚ) := by
      exact_mod_cast Int.toNat_of_nonneg (abs_nonneg z)
    rw [hcast]
    by_cases hz : z < 0
    · rw [if_pos (by have : (z : ℚ) < 0 := by exact_mod_cast hz
                     exact div_neg_of_neg_of_pos this (by positivity)), abs_of_neg hz]
      push_cast; ring
    · rw [if_neg (by have : (0 : ℚ) ≤ z := by exact_mod_cast not_lt.1 hz
                     have : (0 : ℚ) ≤ z / 10 ^ 6 := by positivity
                     linarith), abs_of_nonneg (not_lt.1 hz)]
      ring

/-- The element read back is the element written: the same variable or operator, and a constant within half a millionth (exactly the
same one if it has at most six decimals). -/
inductive Same : Sym → Sym → Prop where
  | var (i) : Same (.var i) (.var i)
  | tok (n) : Same (.tok n) (.tok n)
  | const (q c : ℚ) : |q - c| ≤ 1 / 2 / 10 ^ 6 → ((∃ z : ℤ, c = z / 10 ^ 6) → q = c) → Same (.const q) (.const c)

theorem splitComma_ne (s : List Char) : splitComma s ≠ [] := by
  cases s with
  | nil => simp [splitComma]
  | cons c cs =>
    unfold splitComma
    split
    · simp
    · split <;> simp

theorem split_field (a : List Char) (h : ',' ∉ a) : splitComma a = [a] := by
  induction a with
  | nil => rfl
  | cons c a ih =>
    simp only [List.mem_cons, not_or] at h
    simp only [splitComma, ih h.2]
    rw [if_neg (fun h' => h.1 h'.symm)]

theorem split_append (a b : List Char) (h : ',' ∉ a) : splitComma (a ++ ',' :: b) = a :: splitComma b := by
  induction a with
  | nil =>
    simp only [List.nil_append, splitComma]
    split
    · next h' => exact absurd h' (splitComma_ne b)
    · next h' => simp [h']
  | cons c a ih =>
    simp only [List.mem_cons, not_or] at h
    simp only [List.cons_append, splitComma, ih h.2]
    rw [if_neg (fun h' => h.1 h'.symm)]

theorem split_join (l : List (List Char)) (hl : l ≠ []) (h : ∀ a ∈ l, ',' ∉ a) : splitComma (joinComma l) = l := by
  induction l with
  | nil => exact absurd rfl hl
  | cons a l ih =>
    cases l with
    | nil => exact split_field a (h a (by simp))
    | cons b l =>
      rw [joinComma, split_append _ _ (h a (by simp)), ih (by simp) (fun x hx => h x (by simp [hx]))]

theorem format_comma (c : ℚ) : ',' ∉ formatConstant c := by
  obtain ⟨g, _, hd, ht, _⟩ := format_shape c
  rw [ht]
  simp only [List.mem_append, List.mem_cons, not_or]
  refine ⟨⟨?_, digits_no (by decide) _⟩, by decide, fun h => absurd (hd _ h) (by decide)⟩
  split <;> decide

theorem parse_var (i : Nat) : parseDec (varName i) = none := by
  simp [varName, parseDec, parseU, List.takeWhile, List.dropWhile, show Char.isDigit 'x' = false from by decide]

theorem readToken_same (n : Nat) (rest all : List (List Char)) (s : Sym)
    (hv : ∀ i, s = .var i → i < n)
    (ht : ∀ m, s = .tok m → m ∈ rest ∧ ∀ i, m ≠ varName i)
    (hnum : ∀ m ∈ rest, parseDec m = none)
    (hc : "const".toList ∉ all) :
    ∃ s', readToken ((List.range n).map varName ++ rest) all s.text = .ok s' ∧ Same s' s := by
  cases s with
  | var i =>
    have hi := hv i rfl
    refine ⟨.var i, ?_, .var i⟩
    unfold readToken Sym.text
    simp only
    rw [if_pos (by simp; left; exact ⟨i, hi, rfl⟩)]
    have : (List.range ((List.range n).map varName ++ rest).length).find? (fun j => varName j == varName i) = some i := by
      rw [List.find?_range_eq_some]
      refine ⟨by simp, by simp; omega, ?_⟩
      intro j hj
      simp only [Bool.not_eq_eq_eq_not, Bool.not_true, beq_eq_false_iff_ne]
      intro h
      have := varName_inj h
      omega
    rw [this]
  | tok m =>
    obtain ⟨hm, hm'⟩ := ht m rfl
    refine ⟨.tok m, ?_, .tok m⟩
    unfold readToken Sym.text
    simp only
    rw [if_pos (by simp [hm])]
    have : (List.range ((List.range n).map varName ++ rest).length).find? (fun j => varName j == m) = none := by
      rw [List.find?_eq_none]
      intro j _
      simp only [beq_iff_eq]
      exact fun h => hm' j h.symm
    rw [this]
  | const c =>
    obtain ⟨q, hq, h1, h2⟩ := parse_format c
    refine ⟨.const q, ?_, .const q c h1 h2⟩
    unfold readToken Sym.text
    simp only
    rw [if_neg, hq]
    · simp only; rw [if_neg hc]
    · intro h
      rcases List.mem_append.1 h with h | h
      · obtain ⟨i, _, hi⟩ := List.mem_map.1 h
        rw [← hi, parse_var] at hq; cases hq
      · rw [hnum _ h] at hq; cases hq

/-- **C94** The reported expression can be read back by `from_str_tokens` under the same library: it gives the same program, with
every constant within half a millionth of its value (and exactly its value if that has at most six decimals).  Assumed: a library
whose names are `x1`, …, `xn` followed by names without commas that are neither numbers nor default variable names; a program over
this library whose constants all have values. -/
theorem C94_roundtrip_partial (n : Nat) (rest : List (List Char)) (prog : List Sym)
    (hrest : ∀ m ∈ rest, ',' ∉ m ∧ parseDec m = none ∧ ∀ i, m ≠ varName i)
    (hne : prog ≠ [])
    (hv : ∀ i, Sym.var i ∈ prog → i < n)
    (ht : ∀ m, Sym.tok m ∈ prog → m ∈ rest ∧ m ≠ "const".toList) :
    ∃ prog', fromStr ((List.range n).map varName ++ rest) (serialize prog) = .ok prog' ∧ List.Forall₂ Same prog' prog := by
  unfold fromStr serialize
  have hcomma : ∀ a ∈ prog.map Sym.text, ',' ∉ a := by
    intro a ha
    obtain ⟨s, hs, rfl⟩ := List.mem_map.1 ha
    cases s with
    | var i => exact varName_comma i
    | tok m => exact (hrest m (ht m hs).1).1
    | const c => exact format_comma c
  simp only
  rw [split_join _ (by simpa using hne) hcomma]
  have hconst : "const".toList ∉ prog.map Sym.text := by
    intro h
    obtain ⟨s, hs, he⟩ := List.mem_map.1 h
    cases s with
    | var i => simp [Sym.text, varName] at he
    | tok m => exact (ht m hs).2 he
    | const c =>
      obtain ⟨q, hq, _⟩ := parse_format c
      simp only [Sym.text] at he
      rw [he] at hq
      revert hq
      simp [parseDec, parseU, List.takeWhile, List.dropWhile, show Char.isDigit 'c' = false from by decide]
  generalize hall : prog.map Sym.text = all at hconst ⊢
  have key : ∀ l : List Sym, (∀ s ∈ l, s ∈ prog) → ∃ l', readAll ((List.range n).map varName ++ rest) all (l.map Sym.text) = .ok l' ∧
      List.Forall₂ Same l' l := by
    intro l
    induction l with
    | nil => intro _; exact ⟨[], rfl, .nil⟩
    | cons s l ih =>
      intro hl
      obtain ⟨l', h1, h2⟩ := ih (fun x hx => hl x (by simp [hx]))
      obtain ⟨s', h3, h4⟩ := readToken_same n rest all s
        (fun i hi => hv i (hi ▸ hl s (by simp)))
        (fun m hm => by
          have := (ht m (hm ▸ hl s (by simp))).1
          exact ⟨this, (hrest m this).2.2⟩)
        (fun m hm => (hrest m hm).2.1) hconst
      refine ⟨s' :: l', ?_, .cons h4 h2⟩
      simp only [List.map_cons, readAll, h3, h1]
  obtain ⟨prog', h1, h2⟩ := key prog (fun _ h => h)
  rw [hall] at h1
  exact ⟨prog', h1, h2⟩

/-- **C94** A program whose constants have at most six decimals is read back exactly. -/
theorem C94_exact_partial (n : Nat) (rest : List (List Char)) (prog : List Sym)
    (hrest : ∀ m ∈ rest, ',' ∉ m ∧ parseDec m = none ∧ ∀ i, m ≠ varName i)
    (hne : prog ≠ [])
    (hv : ∀ i, Sym.var i ∈ prog → i < n)
    (ht : ∀ m, Sym.tok m ∈ prog → m ∈ rest ∧ m ≠ "const".toList)
    (hc : ∀ c, Sym.const c ∈ prog → ∃ z : ℤ, c = z / 10 ^ 6) :
    fromStr ((List.range n).map varName ++ rest) (serialize prog) = .ok prog := by
  obtain ⟨prog', h1, h2⟩ := C94_roundtrip_partial n rest prog hrest hne hv ht
  rw [h1]
  congr 1
  clear h1 hne hv ht hrest
  induction h2 with
  | nil => rfl
  | cons h _ ih =>
    rw [ih (fun c h => hc c (by simp [h]))]
    congr 1
    cases h with
    | var i => rfl
    | tok m => rfl
    | const q c _ h => rw [h (hc c (by simp))]

/-- The names of the shipped operators satisfy the assumptions on names. -/
theorem operators_readable : ∀ m ∈ operatorNames, ',' ∉ m ∧ parseDec m = none ∧ ∀ i, m ≠ varName i := by
  have h : ∀ m ∈ operatorNames, ',' ∉ m ∧ m.head? ≠ some 'x' ∧ parseDec m = none := by decide +kernel
  intro m hm
  obtain ⟨h1, h2, h3⟩ := h m hm
  refine ⟨h1, h3, ?_⟩
  rintro i rfl
  exact h2 rfl

/-- **C94** Constants never spoil the named expression (one hypothesis of C93). -/
theorem C94_constants_named (c : ℚ) (i : Nat) : ¬ Occurs (varName i) (formatConstant c) := by
  rintro ⟨a, b, hab⟩
  have hx : 'x' ∈ formatConstant c := by rw [← hab]; simp [varName]
  obtain ⟨g, _, hd, ht, _⟩ := format_shape c
  rw [ht] at hx
  simp only [List.mem_append, List.mem_cons] at hx
  rcases hx with (hx | hx) | hx | hx
  · revert hx; split <;> simp
  · exact digits_no (by decide) _ hx
  · exact absurd hx (by decide)
  · exact absurd (hd _ hx) (by decide)

/-- **C94, counterexample** A constant below half a millionth is written as zero: the program `1/10^7 · x1` is read back as `0 · x1`. -/
theorem C94_small_counterexample :
    serialize [.tok "mul".toList, .const (1 / 10 ^ 7), .var 0] = "mul,0.0,x1".toList ∧
    fromStr ["x1".toList, "mul".toList, "const".toList] "mul,0.0,x1".toList = .ok [.tok "mul".toList, .const 0, .var 0] := by
  decide +kernel

/-- **C94, counterexample** A program in which one constant has no value yet and another has cannot be read back. -/
theorem C94_mixed_counterexample :
    fromStr ["x1".toList, "mul".toList, "const".toList] (serialize [.tok "mul".toList, .const 2, .tok "const".toList]) =
      .error .assertion := by decide +kernel

/-- **C94, counterexample** If the library has a hard-coded constant `2.0`, an optimised constant with the value 2 is read back as the
hard-coded one: the program has one constant less to optimise. -/
theorem C94_hard_counterexample :
    fromStr ["x1".toList, "mul".toList, "2.0".toList, "const".toList] (serialize [.tok "mul".toList, .const 2, .var 0]) =
      .ok [.tok "mul".toList, .tok "2.0".toList, .var 0] := by decide +kernel

example : serialize [.tok "add".toList, .const (-3 / 2), .tok "mul".toList, .const 100, .var 11] = "add,-1.5,mul,100.0,x12".toList := by
  decide +kernel

example : ∃ prog', fromStr ((List.range 2).map varName ++ operatorNames)
    (serialize [.tok "add".toList, .const (1 / 3), .tok "mul".toList, .const 100, .var 1]) = .ok prog' ∧
    List.Forall₂ Same prog' [.tok "add".toList, .const (1 / 3), .tok "mul".toList, .const 100, .var 1] :=
  C94_roundtrip_partial 2 operatorNames _ operators_readable (by simp) (by simp) (by simp [operatorNames])

/-- **C93** For the shipped operators: the named expression is the expression with every variable by its own name, provided no name
contains the default name of an earlier variable. -/
theorem C93_named_shipped_partial (names : List (List Char)) (prog : List Sym)
    (hv : ∀ i, Sym.var i ∈ prog → i < names.length)
    (hn : ∀ k (hk : k < names.length), ∀ i < k, ¬ Occurs (varName i) names[k])
    (ht : ∀ m, Sym.tok m ∈ prog → m ∈ operatorNames) :
    renderNamed (serialize prog) names = named names prog := by
  refine C93_named_partial names prog hv hn ?_
  intro s hs hs' i
  cases s with
  | var j => exact absurd rfl (hs' j)
  | tok m => exact operators_ok m (ht m hs) i
  | const c => exact C94_constants_named c i

example : renderNamed (serialize [.tok "mul".toList, .const (5 / 2), .var 1]) ["x".toList, "max speed".toList] =
    named ["x".toList, "max speed".toList] [.tok "mul".toList, .const (5 / 2), .var 1] :=
  C93_named_shipped_partial _ _ (by simp) (by
    have h : ∀ n ∈ ["x".toList, "max speed".toList], noXDigit n = true := by decide
    intro k hk i _
    exact noXDigit_spec _ (h _ (List.getElem_mem hk)) i) (by simp [operatorNames])

end Verif.Discover.RegressionText.Claims
