import Verif.Discover.Expand
import Mathlib.Algebra.BigOperators.Group.List.Basic
import Mathlib.Algebra.Order.Field.Rat
import Mathlib.Algebra.DualNumber
import Mathlib.Algebra.MvPolynomial.CommRing
import Mathlib.Algebra.MvPolynomial.NoZeroDivisors
import Mathlib.RingTheory.MvPolynomial.Basic
import Mathlib.RingTheory.Localization.FractionRing
import Mathlib.Algebra.Module.LinearMap.Rat
import Mathlib.Tactic.Ring
import Mathlib.Tactic.Linarith
import Mathlib.Tactic.LinearCombination
/-!
# C163: expanded derivatives in displayed equations
-/
namespace Verif.Discover.Expand.Claims
open Verif.Discover.Expand

/-- What the expressions stand for: a field of functions with three partial derivatives, the coordinates and the state among them. -/
structure Space (K : Type) [Field K] [Algebra ℚ K] where
  dd : Fin 3 → Derivation ℚ K K
  u : K
  x : Fin 3 → K
  coord : ∀ i j, dd i (x j) = if i = j then 1 else 0

variable {K : Type} [Field K] [Algebra ℚ K]

/-- The value of an expression. -/
def value (S : Space K) : Ex → K
  | .u => S.u
  | .x i => S.x i
  | .num q => algebraMap ℚ K q
  | .add a b => value S a + value S b
  | .mul a b => value S a * value S b
  | .pow a n => value S a ^ n
  | .d i a => S.dd i (value S a)

theorem value_diff (S : Space K) (i : Fin 3) (e : Ex) : value S (diff i e) = S.dd i (value S e) := by
  induction e with
  | u => rfl
  | x j =>
    simp only [diff, value, S.coord]
    split <;> simp
  | num q => simp only [diff, value, Derivation.map_algebraMap, map_zero]
  | add a b ha hb => simp [diff, value, ha, hb]
  | mul a b ha hb =>
    simp only [diff, value, ha, hb, Derivation.leibniz, smul_eq_mul]
    ring
  | pow a n ha =>
    simp only [diff, value, ha, Derivation.leibniz_zpow, smul_eq_mul, zsmul_eq_mul]
    simp
  | d j a _ => rfl

/-- **C163** (value): expanding changes no value, whatever functions the state and the coordinates are. -/
theorem C163_value (S : Space K) (e : Ex) : value S (expandFirst e) = value S e := by
  cases e with
  | d i a =>
    simp only [expandFirst]
    split
    · exact value_diff S _ _
    · rfl
  | _ => rfl

/-- **C163** (what is left alone): everything but first derivatives of compound expressions. -/
theorem C163_unchanged (e : Ex) (h : ∀ i a, e = .d i a → a = .u ∨ ∃ j b, a = .d j b) : expandFirst e = e := by
  cases e with
  | d i a =>
    rcases h i a rfl with rfl | ⟨j, b, rfl⟩ <;> rfl
  | _ => rfl

/-- All derivatives in it are derivatives of the state (of any order). -/
def onlyPlain : Ex → Prop
  | .u => True
  | .x _ => True
  | .num _ => True
  | .add a b => onlyPlain a ∧ onlyPlain b
  | .mul a b => onlyPlain a ∧ onlyPlain b
  | .pow a _ => onlyPlain a
  | .d _ a => a = .u ∨ (∃ j b, a = .d j b) ∧ onlyPlain a

/-- **C163** (what is expanded): a first derivative of an expression without derivatives of compound expressions is expanded to one without. -/
theorem C163_expanded (i : Fin 3) (a : Ex) (h : onlyPlain a) : onlyPlain (expandFirst (.d i a)) := by
  have key : ∀ a, onlyPlain a → onlyPlain (diff i a) := by
    intro a
    induction a with
    | u => intro _; exact Or.inl rfl
    | x j => intro _; trivial
    | num q => intro _; trivial
    | add a b ha hb => intro h; exact ⟨ha h.1, hb h.2⟩
    | mul a b ha hb => intro h; exact ⟨⟨ha h.1, h.2⟩, h.1, hb h.2⟩
    | pow a n ha => intro h; exact ⟨trivial, h, ha h⟩
    | d j a _ => intro h; exact Or.inr ⟨⟨j, a, rfl⟩, h⟩
  cases a with
  | u => exact Or.inl rfl
  | d j a => exact Or.inr ⟨⟨j, a, rfl⟩, h⟩
  | x j => exact key _ h
  | num q => exact key _ h
  | add a b => exact key _ h
  | mul a b => exact key _ h
  | pow a n => exact key _ h

/-! ## What a reader takes the displayed equation to be -/

section Reading
variable {M : Type}

/-- The reader: signs separate the summands, what stands side by side is multiplied.  The state is the sum so far, the sign and the product of the summand being
read. -/
def readFrom (v : M → ℚ) : ℚ → ℚ → ℚ → List (Sign M) → ℚ
  | acc, s, cur, [] => acc + s * cur
  | acc, s, cur, .plus :: rest => readFrom v (acc + s * cur) 1 1 rest
  | acc, s, cur, .minus :: rest => readFrom v (acc + s * cur) (-1) 1 rest
  | acc, s, cur, .num q :: rest => readFrom v acc s (cur * q) rest
  | acc, s, cur, .prod m :: rest => readFrom v acc s (cur * v m) rest

/-- Reading starts with nothing before it; a leading sign belongs to the first summand. -/
def read (v : M → ℚ) : List (Sign M) → ℚ
  | [] => 0
  | .plus :: rest => readFrom v 0 1 1 rest
  | .minus :: rest => readFrom v 0 (-1) 1 rest
  | l => readFrom v 0 1 1 l

/-- The value of a sum of products, and of the fitted right-hand side: each coefficient times its term. -/
def sumValue (v : M → ℚ) (s : Sum M) : ℚ := (s.map fun p => p.1 * v p.2).sum
def fitted (v : M → ℚ) (ts : List (ℚ × Sum M)) : ℚ := (ts.map fun t => t.1 * sumValue v t.2).sum

theorem abs_sign (c : ℚ) : (if c < 0 then (-1 : ℚ) else 1) * |c| = c := by
  by_cases h : c < 0
  · rw [if_pos h, abs_of_neg h]; ring
  · rw [if_neg h, abs_of_nonneg (not_lt.1 h)]; ring

/-- Reading on through a summand `c` times a product. -/
theorem readFrom_summand (v : M → ℚ) (acc s cur c : ℚ) (m : M) (rest : List (Sign M)) :
    readFrom v acc s cur (formatTerm c [.prod m] false ++ rest) =
      readFrom v (acc + s * cur) (if c < 0 then -1 else 1) (|c| * v m) rest := by
  unfold formatTerm
  by_cases hc : c < 0
  · rw [if_pos hc, if_pos hc]
    by_cases h1 : |c| = 1
    · simp [h1, readFrom]
    · simp [h1, readFrom]
  · rw [if_neg hc, if_neg hc]
    by_cases h1 : |c| = 1
    · simp [h1, readFrom]
    · simp [h1, readFrom]

theorem read_first (v : M → ℚ) (c : ℚ) (m : M) (rest : List (Sign M)) :
    read v (formatTerm c [.prod m] true ++ rest) = readFrom v 0 (if c < 0 then -1 else 1) (|c| * v m) rest := by
  unfold formatTerm
  by_cases hc : c < 0
  · rw [if_pos hc, if_pos hc]
    by_cases h1 : |c| = 1
    · simp [h1, readFrom, read]
    · simp [h1, readFrom, read]
  · rw [if_neg hc, if_neg hc]
    by_cases h1 : |c| = 1
    · simp [h1, readFrom, read]
    · simp [h1, readFrom, read]

theorem readFrom_rhs (v : M → ℚ) (ts : List (ℚ × Sum M)) (h : ∀ t ∈ ts, ∃ q m, t.2 = [(q, m)]) (acc s cur : ℚ) :
    readFrom v acc s cur (rhs false ts) = acc + s * cur + fitted v ts := by
  induction ts generalizing acc s cur with
  | nil => simp [rhs, readFrom, fitted]
  | cons t ts ih =>
    obtain ⟨c, sm⟩ := t
    obtain ⟨q, m, rfl⟩ : ∃ q m, sm = [(q, m)] := h (c, sm) (by simp)
    simp only [rhs, coeffMul]
    rw [readFrom_summand, ih (fun t ht => h t (by simp [ht]))]
    have := abs_sign (c * q)
    simp only [fitted, List.map_cons, List.sum_cons, sumValue, List.map_nil, List.sum_nil, add_zero]
    linear_combination (v m) * this

/-- **C163** (reading – partial: every term is a product).  If SymPy's form of every term is one product with a number, the displayed right-hand side reads
as the fitted one.  Missing: terms whose expansion is a sum. -/
theorem C163_reads_partial (v : M → ℚ) (ts : List (ℚ × Sum M)) (h : ∀ t ∈ ts, ∃ q m, t.2 = [(q, m)]) :
    read v (rhs true ts) = fitted v ts := by
  cases ts with
  | nil => simp [rhs, read, fitted]
  | cons t ts =>
    obtain ⟨c, sm⟩ := t
    obtain ⟨q, m, rfl⟩ : ∃ q m, sm = [(q, m)] := h (c, sm) (by simp)
    simp only [rhs, coeffMul]
    rw [read_first, readFrom_rhs v ts (fun t ht => h t (by simp [ht]))]
    have := abs_sign (c * q)
    simp only [fitted, List.map_cons, List.sum_cons, sumValue, List.map_nil, List.sum_nil, add_zero]
    linear_combination (v m) * this

theorem readFrom_summands (v : M → ℚ) (s : Sum M) (acc sg cur : ℚ) :
    readFrom v acc sg cur (s.flatMap (fun p => printSummand false p.1 p.2)) = acc + sg * cur + sumValue v s := by
  induction s generalizing acc sg cur with
  | nil => simp [readFrom, sumValue]
  | cons p s ih =>
    have e : printSummand false p.1 p.2 = formatTerm p.1 [.prod p.2] false := rfl
    rw [List.flatMap_cons, e, readFrom_summand, ih]
    have := abs_sign p.1
    simp only [sumValue, List.map_cons, List.sum_cons]
    linear_combination (v p.2) * this

/-- **C163** (what a sum reads as): if the expansion of a term is a sum beginning with a positive summand, the displayed coefficient multiplies its first summand
only. -/
theorem C163_sum_display (v : M → ℚ) (c q : ℚ) (m : M) (p : ℚ × M) (s : Sum M) (hq : 0 ≤ q) :
    read v (rhs true [(c, (q, m) :: p :: s)]) = c * (q * v m) + sumValue v (p :: s) := by
  simp only [rhs, coeffMul, mul_one, printSum, List.append_nil]
  have e : printSummand true q m = (if |q| = 1 then [] else [.num |q|]) ++ [.prod m] := by
    unfold printSummand
    rw [if_neg (not_lt.2 hq), if_pos rfl]; rfl
  have hread : read v (formatTerm c (printSummand true q m ++ (p :: s).flatMap (fun p => printSummand false p.1 p.2)) true) =
      readFrom v 0 (if c < 0 then -1 else 1) (|c| * (|q| * v m)) ((p :: s).flatMap (fun p => printSummand false p.1 p.2)) := by
    rw [e]
    unfold formatTerm
    by_cases hc : c < 0
    · rw [if_pos hc, if_pos hc]
      by_cases h1 : |c| = 1 <;> by_cases h2 : |q| = 1 <;> simp [h1, h2, readFrom, read, mul_assoc]
    · rw [if_neg hc, if_neg hc]
      by_cases h1 : |c| = 1 <;> by_cases h2 : |q| = 1 <;> simp [h1, h2, readFrom, read, mul_assoc]
  rw [hread, readFrom_summands]
  have := abs_sign c
  rw [abs_of_nonneg hq]
  linear_combination (q * v m) * this

end Reading

/-- **C163**, counterexample: the term (u x)ₓ with coefficient 2 is expanded to u + x uₓ and displayed as `2 u + x u_x`, which reads as something else than the fitted
2 (u + x uₓ) as soon as x uₓ is not zero. -/
theorem C163_sum_counterexample (v : String → ℚ) (h : v "x u_x" ≠ 0) :
    expandFirst (.d 0 (.mul .u (.x 0))) = .add (.mul (.d 0 .u) (.x 0)) (.mul .u (.num 1)) ∧
    rhs true [(2, [(1, "u"), (1, "x u_x")])] = [.num |2|, .prod "u", .plus, .prod "x u_x"] ∧
    read v (rhs true [(2, [(1, "u"), (1, "x u_x")])]) ≠ fitted v [(2, [(1, "u"), (1, "x u_x")])] := by
  refine ⟨rfl, ?_, ?_⟩
  · norm_num [rhs, coeffMul, printSum, printSummand, formatTerm]
  · rw [C163_sum_display v 2 1 "u" (1, "x u_x") [] (by norm_num)]
    simp only [fitted, sumValue, List.map_cons, List.map_nil, List.sum_cons, List.sum_nil]
    intro hh
    apply h
    linarith

/-- A case of the partial statement: `-0.5 u u_x + u_xx` from the terms u uₓ and uₓₓ (and (u²)ₓ = 2 u uₓ with coefficient 3). -/
example (v : String → ℚ) : read v (rhs true [(-1/2, [(1, "u u_x")]), (1, [(1, "u_{xx}")]), (3, [(2, "u u_x")])]) =
    -1/2 * v "u u_x" + v "u_{xx}" + 6 * v "u u_x" := by
  rw [C163_reads_partial v _ (by
    intro t ht
    simp only [List.mem_cons, List.not_mem_nil, or_false] at ht
    rcases ht with rfl | rfl | rfl <;> exact ⟨_, _, rfl⟩)]
  simp only [fitted, sumValue, List.map_cons, List.map_nil, List.sum_cons, List.sum_nil]
  ring

/-! ## A concrete space of functions -/

/-- Rational functions of the three coordinates: an instance of `Space`. -/
abbrev Rf := FractionRing (MvPolynomial (Fin 3) ℚ)

noncomputable def shiftHom (i : Fin 3) : MvPolynomial (Fin 3) ℚ →+* TrivSqZeroExt Rf Rf :=
  MvPolynomial.eval₂Hom (algebraMap ℚ _) (fun j => TrivSqZeroExt.inl (algebraMap (MvPolynomial (Fin 3) ℚ) Rf (MvPolynomial.X j)) + TrivSqZeroExt.inr (if i = j then 1 else 0))

theorem fst_shiftHom (i : Fin 3) (p : MvPolynomial (Fin 3) ℚ) : (shiftHom i p).fst = algebraMap _ Rf p := by
  have : ((TrivSqZeroExt.fstHom ℚ Rf Rf : TrivSqZeroExt Rf Rf →ₐ[ℚ] Rf) : TrivSqZeroExt Rf Rf →+* Rf).comp (shiftHom i) = algebraMap _ Rf := by
    apply MvPolynomial.ringHom_ext
    · intro r
      exact RingHom.congr_fun (RingHom.ext_rat ((((TrivSqZeroExt.fstHom ℚ Rf Rf : TrivSqZeroExt Rf Rf →ₐ[ℚ] Rf) : TrivSqZeroExt Rf Rf →+* Rf).comp (shiftHom i)).comp MvPolynomial.C) ((algebraMap _ Rf).comp MvPolynomial.C)) r
    · intro j
      simp only [shiftHom, RingHom.comp_apply, MvPolynomial.coe_eval₂Hom, MvPolynomial.eval₂_X]
      by_cases h : i = j <;> simp [h]
  exact RingHom.congr_fun this p

noncomputable def shiftLift (i : Fin 3) : Rf →+* TrivSqZeroExt Rf Rf :=
  IsLocalization.lift (M := nonZeroDivisors (MvPolynomial (Fin 3) ℚ)) (g := shiftHom i) (fun y => by
    rw [TrivSqZeroExt.isUnit_iff_isUnit_fst, fst_shiftHom]
    exact IsLocalization.map_units Rf y)

theorem fst_shiftLift (i : Fin 3) (a : Rf) : (shiftLift i a).fst = a := by
  have : ((TrivSqZeroExt.fstHom ℚ Rf Rf : TrivSqZeroExt Rf Rf →ₐ[ℚ] Rf) : TrivSqZeroExt Rf Rf →+* Rf).comp (shiftLift i) = RingHom.id Rf := by
    apply IsLocalization.ringHom_ext (nonZeroDivisors (MvPolynomial (Fin 3) ℚ))
    ext p
    · simp
    · simp [shiftLift, fst_shiftHom]
  exact RingHom.congr_fun this a

noncomputable def partialD (i : Fin 3) : Derivation ℚ Rf Rf :=
  Derivation.mk' (AddMonoidHom.toRatLinearMap ⟨⟨fun a => (shiftLift i a).snd, by simp⟩, fun a b => by simp⟩) (fun a b => by
    show (shiftLift i (a * b)).snd = _
    rw [map_mul, TrivSqZeroExt.snd_mul, fst_shiftLift, fst_shiftLift, op_smul_eq_smul]
    rfl)

noncomputable def rational : Space Rf where
  dd := partialD
  u := algebraMap (MvPolynomial (Fin 3) ℚ) Rf (MvPolynomial.X 0 * MvPolynomial.X 1)
  x := fun j => algebraMap (MvPolynomial (Fin 3) ℚ) Rf (MvPolynomial.X j)
  coord := fun i j => by
    show (shiftLift i (algebraMap (MvPolynomial (Fin 3) ℚ) Rf (MvPolynomial.X j))).snd = _
    by_cases h : i = j <;> simp [shiftLift, shiftHom, h]

/-- **C163**, concrete case: rational functions of three coordinates, with `u = x y`; the derivative of `u` with respect to `x` is `y`. -/
theorem C163_concrete : rational.dd 0 rational.u = rational.x 1 ∧ rational.x 1 ≠ 0 := by
  refine ⟨?_, ?_⟩
  · show rational.dd 0 (algebraMap _ Rf (MvPolynomial.X 0 * MvPolynomial.X 1)) = _
    rw [map_mul, Derivation.leibniz]
    have h0 := rational.coord 0 0
    have h1 := rational.coord 0 1
    simp only [rational] at h0 h1 ⊢
    rw [h0, h1]
    simp
  · simp [rational, MvPolynomial.X_ne_zero]

end Verif.Discover.Expand.Claims
