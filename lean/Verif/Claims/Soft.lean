import Mathlib.Tactic.FieldSimp
import Mathlib.Tactic.Linarith
import Mathlib.Tactic.NormNum
import Mathlib.Tactic.Positivity
import Mathlib.Algebra.BigOperators.Group.Finset.Basic
import Verif.Discover.Soft
/-!
# C150: soft priors
-/
namespace Verif.Discover.Soft.Claims
open Verif.Discover.Soft

/-! ## Specification -/

/-- The probability that a token with property `q` is drawn. -/
noncomputable def chance (lib : List Tok) (p : List ℝ) (q : Tok → Bool) : ℝ := (List.zipWith (fun k x => if q k then x else 0) lib p).sum

/-- The number of different arities in the library. -/
def arities (lib : List Tok) : Nat := (lib.map Tok.arity).toFinset.card

theorem probs_map (lib : List Tok) (f g : Tok → ℝ) :
    probs (lib.map f) (lib.map g) = lib.map fun k => Real.exp (f k + g k) / (lib.map fun k => Real.exp (f k + g k)).sum := by
  unfold probs
  have : (List.zipWith (· + ·) (lib.map f) (lib.map g)).map Real.exp = lib.map fun k => Real.exp (f k + g k) := by
    rw [List.zipWith_map, List.zipWith_self, List.map_map]; rfl
  simp only [this, List.map_map]
  rfl

theorem count_filter (lib : List Tok) (a : Nat) : (lib.filter fun k => k.arity == a).length = (lib.map Tok.arity).count a := by
  rw [List.count, List.countP_map, List.countP_eq_length_filter]
  rfl

theorem exp_sub_log (c : ℝ) (n : Nat) (h : 0 < n) : Real.exp (c + -Real.log (n : ℝ)) = Real.exp c / n := by
  have : (0 : ℝ) < n := by exact_mod_cast h
  rw [Real.exp_add, Real.exp_neg, Real.exp_log this, div_eq_mul_inv]

theorem weight (lib : List Tok) (c : ℝ) (k : Tok) (hk : k ∈ lib) :
    Real.exp (c + -Real.log ((lib.filter fun k' => k'.arity == k.arity).length : ℝ)) = Real.exp c / ((lib.map Tok.arity).count k.arity : ℝ) := by
  rw [count_filter, exp_sub_log]
  exact List.count_pos_iff.2 (List.mem_map_of_mem hk)

theorem sum_weights (lib : List Tok) (c : ℝ) (q : Nat → Bool) :
    (lib.map fun k => if q k.arity then Real.exp c / ((lib.map Tok.arity).count k.arity : ℝ) else 0).sum =
      ((lib.map Tok.arity).toFinset.filter fun a => q a = true).card * Real.exp c := by
  have h1 : (lib.map fun k => if q k.arity then Real.exp c / ((lib.map Tok.arity).count k.arity : ℝ) else 0) =
      (lib.map Tok.arity).map fun a => if q a then Real.exp c / ((lib.map Tok.arity).count a : ℝ) else 0 := by rw [List.map_map]; rfl
  rw [h1, Finset.sum_list_map_count]
  have h2 : ∀ a ∈ (lib.map Tok.arity).toFinset, (lib.map Tok.arity).count a • (if q a then Real.exp c / ((lib.map Tok.arity).count a : ℝ) else 0) =
      if q a then Real.exp c else 0 := by
    intro a ha
    have : ((lib.map Tok.arity).count a : ℝ) ≠ 0 := by
      have := List.count_pos_iff.2 (List.mem_toFinset.1 ha)
      exact_mod_cast this.ne'
    by_cases hq : q a = true
    · simp only [hq, if_true, nsmul_eq_mul]; field_simp
    · simp [hq]
  rw [Finset.sum_congr rfl h2, ← Finset.sum_filter, Finset.sum_const, nsmul_eq_mul]

/-- **C150** (uniform arity): if the controller has no preference (equal logits), the prior makes every arity that occurs in the library equally likely, and
all tokens of one arity equally likely. -/
theorem C150_uniform (lib : List Tok) (c : ℝ) (a : Nat) (ha : ∃ k ∈ lib, k.arity = a) :
    chance lib (probs (lib.map fun _ => c) (uniformArity lib)) (fun k => k.arity == a) = 1 / (arities lib : ℝ) ∧
    probs (lib.map fun _ => c) (uniformArity lib) = lib.map fun k => 1 / ((arities lib : ℝ) * ((lib.map Tok.arity).count k.arity : ℝ)) := by
  have hne : lib ≠ [] := by rintro rfl; simp at ha
  have hk : (0 : ℝ) < arities lib := by
    unfold arities
    have : 0 < ((lib.map Tok.arity).toFinset).card := by
      rw [Finset.card_pos]
      obtain ⟨k, hk, _⟩ := ha
      exact ⟨k.arity, by rw [List.mem_toFinset]; exact List.mem_map_of_mem hk⟩
    exact_mod_cast this
  have hexp := Real.exp_pos c
  have htot : (lib.map fun k => Real.exp (c + -Real.log ((lib.filter fun k' => k'.arity == k.arity).length : ℝ))).sum = arities lib * Real.exp c := by
    have h1 := sum_weights lib c fun _ => true
    simp only [if_true, Finset.filter_true] at h1
    rw [← arities] at h1
    rw [← h1]
    congr 1
    exact List.map_congr_left fun k hk => weight lib c k hk
  have hp : probs (lib.map fun _ => c) (uniformArity lib) = lib.map fun k => 1 / ((arities lib : ℝ) * ((lib.map Tok.arity).count k.arity : ℝ)) := by
    unfold uniformArity
    rw [probs_map, htot]
    apply List.map_congr_left
    intro k hk'
    rw [weight lib c k hk']
    have : ((lib.map Tok.arity).count k.arity : ℝ) ≠ 0 := by
      have := List.count_pos_iff.2 (List.mem_map_of_mem (f := Tok.arity) hk')
      exact_mod_cast this.ne'
    field_simp
  refine ⟨?_, hp⟩
  rw [hp, chance, List.zipWith_map_right, List.zipWith_self]
  have h2 := sum_weights lib 0 fun b => b == a
  rw [Real.exp_zero, mul_one] at h2
  have hcard : ((lib.map Tok.arity).toFinset.filter fun b => (b == a) = true).card = 1 := by
    rw [Finset.card_eq_one]
    refine ⟨a, ?_⟩
    ext b
    simp only [Finset.mem_filter, List.mem_toFinset, List.mem_map, beq_iff_eq, Finset.mem_singleton]
    constructor
    · rintro ⟨_, h⟩; exact h
    · rintro rfl
      obtain ⟨k, hk, e⟩ := ha
      exact ⟨⟨k, hk, e⟩, rfl⟩
  rw [hcard, Nat.cast_one] at h2
  have h3 : (lib.map fun k => if (k.arity == a) = true then 1 / ((arities lib : ℝ) * ((lib.map Tok.arity).count k.arity : ℝ)) else 0) =
      (lib.map fun k => if (k.arity == a) = true then 1 / ((lib.map Tok.arity).count k.arity : ℝ) else 0).map fun x => (1 / (arities lib : ℝ)) * x := by
    rw [List.map_map]
    apply List.map_congr_left
    intro k _
    simp only [Function.comp_apply]
    by_cases h : (k.arity == a) = true
    · simp only [h, if_true]; rw [one_div_mul_one_div]
    · simp only [h, if_false, mul_zero]; simp
  rw [h3, List.sum_map_mul_left, List.map_id', h2, mul_one]

/-- The odds of token `i` against token `j`. -/
noncomputable def odds (p : List ℝ) (i j : Nat) : ℝ := p.getD i 0 / p.getD j 0

theorem odds_eq (lib : List Tok) (f g : Tok → ℝ) (i j : Nat) (ki kj : Tok) (hi : lib[i]? = some ki) (hj : lib[j]? = some kj) :
    odds (probs (lib.map f) (lib.map g)) i j = Real.exp (f ki + g ki) / Real.exp (f kj + g kj) := by
  have hs : (lib.map fun k => Real.exp (f k + g k)).sum ≠ 0 := by
    have : 0 < (lib.map fun k => Real.exp (f k + g k)).sum := by
      have hmem : ki ∈ lib := List.mem_of_getElem? hi
      have hall : ∀ x ∈ lib.map fun k => Real.exp (f k + g k), 0 < x := by
        intro x hx
        obtain ⟨k, _, rfl⟩ := List.mem_map.1 hx
        exact Real.exp_pos _
      exact List.sum_pos _ hall (by intro e; rw [List.map_eq_nil_iff] at e; rw [e] at hmem; simp at hmem)
    exact this.ne'
  rw [probs_map, odds]
  simp only [List.getD, List.getElem?_map, hi, hj, Option.map_some, Option.getD_some]
  field_simp

/-- **C150** (soft length, after `loc`): from position `loc` on, the odds of every operator against every variable are multiplied by
exp(-(t - loc)²/(2 scale)) – a factor of at most 1 for a positive scale – whatever the controller prefers; odds among operators and among variables are
unchanged.
Partial, of the whole claim: Before the target the soft length prior does not lower terminals (counterexample). -/
theorem C150_after_partial (lib : List Tok) (f : Tok → ℝ) (loc scale : ℝ) (t : Nat) (h0 : 0 < t) (ht : loc ≤ t) (i j : Nat) (ki kj : Tok) (hi : lib[i]? = some ki) (hj : lib[j]? = some kj) :
    (0 < ki.arity → kj.arity = 0 → odds (probs (lib.map f) (softLength lib loc scale t)) i j =
      odds (probs (lib.map f) (lib.map fun _ => 0)) i j * Real.exp (-((t : ℝ) - loc) ^ 2 / (2 * scale))) ∧
    ((0 < ki.arity ↔ 0 < kj.arity) → odds (probs (lib.map f) (softLength lib loc scale t)) i j = odds (probs (lib.map f) (lib.map fun _ => 0)) i j) ∧
    (0 < scale → Real.exp (-((t : ℝ) - loc) ^ 2 / (2 * scale)) ≤ 1) := by
  have hs : softLength lib loc scale t = lib.map fun k => if k.arity = 0 then 0 else -((t : ℝ) - loc) ^ 2 / (2 * scale) := by
    rw [softLength, if_neg h0.ne', if_neg (not_lt.2 ht)]
  refine ⟨fun ha hb => ?_, fun hab => ?_, fun hp => ?_⟩
  · rw [hs, odds_eq lib f _ i j ki kj hi hj, odds_eq lib f _ i j ki kj hi hj]
    simp only [hb, ha.ne', if_true, if_false, add_zero, Real.exp_add]
    field_simp
  · rw [hs, odds_eq lib f _ i j ki kj hi hj, odds_eq lib f _ i j ki kj hi hj]
    by_cases h : ki.arity = 0
    · have : kj.arity = 0 := by omega
      simp [h, this]
    · have : kj.arity ≠ 0 := by omega
      simp only [h, this, if_false, Real.exp_add, Real.exp_zero, mul_one]
      field_simp
  · rw [Real.exp_le_one_iff]
    apply div_nonpos_of_nonpos_of_nonneg
    · have := sq_nonneg ((t : ℝ) - loc); linarith
    · linarith

/-- Sums and differences. -/
def sumNames : List String := ["add", "add_t", "sub", "sub_t"]

/-- **C150 (violated).** Before `loc` – where the odds of variables should be lowered while one position is open – variables are not distinguished from
operators at all: nothing happens from position 3 on, and at positions 1 and 2 every token but sums and differences is lowered, by a fixed factor that depends
neither on `loc` nor on `scale`. -/
theorem C150_before_counterexample (lib : List Tok) (f : Tok → ℝ) (loc scale : ℝ) (t : Nat) (ht : (t : ℝ) < loc) (i j : Nat) (ki kj : Tok) (hi : lib[i]? = some ki)
    (hj : lib[j]? = some kj) :
    (3 ≤ t → softLength lib loc scale t = lib.map fun _ => 0) ∧
    (0 < t → t < 3 → ki.name ∉ sumNames → (kj.name ∉ sumNames → odds (probs (lib.map f) (softLength lib loc scale t)) i j = odds (probs (lib.map f) (lib.map fun _ => 0)) i j) ∧
      (kj.name ∈ sumNames → odds (probs (lib.map f) (softLength lib loc scale t)) i j =
        odds (probs (lib.map f) (lib.map fun _ => 0)) i j * Real.exp (-((t : ℝ) - 3) ^ 2 / 10))) := by
  constructor
  · intro h
    rw [softLength, if_neg (by omega), if_pos ht, if_neg (by omega)]
  · intro h0 h3 hki
    have hs : softLength lib loc scale t = lib.map fun k => if sumNames.contains k.name then 0 else -((t : ℝ) - 3) ^ 2 / 10 := by
      rw [softLength, if_neg (by omega), if_pos ht, if_pos h3]; rfl
    have hci : sumNames.contains ki.name = false := by simpa using hki
    constructor
    · intro hkj
      have hcj : sumNames.contains kj.name = false := by simpa using hkj
      rw [hs, odds_eq lib f _ i j ki kj hi hj, odds_eq lib f _ i j ki kj hi hj]
      simp only [hci, hcj, Bool.false_eq_true, if_false, Real.exp_add, Real.exp_zero, mul_one]
      field_simp
    · intro hkj
      have hcj : sumNames.contains kj.name = true := by simpa using hkj
      rw [hs, odds_eq lib f _ i j ki kj hi hj, odds_eq lib f _ i j ki kj hi hj]
      simp only [hci, hcj, Bool.false_eq_true, if_false, if_true, add_zero, Real.exp_add]
      field_simp

/-- A library with two operators and a variable. -/
def lib1 : List Tok := [⟨"add", 2⟩, ⟨"mul", 2⟩, ⟨"u1", 0⟩]

example : (∃ k ∈ lib1, k.arity = 2) ∧ lib1[1]? = some ⟨"mul", 2⟩ ∧ lib1[2]? = some ⟨"u1", 0⟩ ∧ arities lib1 = 2 := by decide

end Verif.Discover.Soft.Claims
