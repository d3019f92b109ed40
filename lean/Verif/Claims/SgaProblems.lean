import Mathlib.Algebra.Order.Field.Rat
import Mathlib.Algebra.Order.BigOperators.Group.List
import Mathlib.Tactic.Linarith
import Mathlib.Tactic.NormNum
import Mathlib.Tactic.Ring
import Mathlib.Tactic.Positivity
import Verif.Sga.Problems
/-!
# C143: SGA's built-in problems and its "data error"
-/
namespace Verif.Sga.Problems.Claims
open Verif.Sga.Problems

/-! ## Specification -/

/-- The equation of a built-in problem (Chafee–Infante: u_t = u_xx - u + u³; Burgers with viscosity 0.1; KdV). -/
def Solves : Builtin → Pt → Prop
  | .chafee, p => p.ut = p.uxx - p.u + p.u ^ 3
  | .burgers, p => p.ut = -(p.u * p.ux) + p.uxx / 10
  | .kdv, p => p.ut = -(p.u * p.ux) - p.uxxx / 400

/-- The names a problem is known by. -/
def names : Builtin → List String
  | .chafee => ["chafee-infante", "chafeeinfante"]
  | .burgers => ["burgers", "burgers2", "burgers-equation"]
  | .kdv => ["kdv", "kdv-equation", "kdv-equation-sine"]

theorem sqError_zero (rhs : Pt → ℚ) (pts : List Pt) : sqError rhs pts = 0 ↔ ∀ p ∈ pts, p.ut = rhs p := by
  induction pts with
  | nil => simp [sqError]
  | cons p pts ih =>
    have h0 : 0 ≤ sqError rhs pts := List.sum_nonneg (by
      intro x hx
      obtain ⟨q, _, rfl⟩ := List.mem_map.1 hx
      positivity)
    have hc : sqError rhs (p :: pts) = (p.ut - rhs p) ^ 2 + sqError rhs pts := by simp [sqError]
    rw [hc]
    constructor
    · intro h q hq
      have h1 : (p.ut - rhs p) ^ 2 = 0 := by nlinarith [sq_nonneg (p.ut - rhs p)]
      have h2 : sqError rhs pts = 0 := by nlinarith [sq_nonneg (p.ut - rhs p)]
      rcases List.mem_cons.1 hq with rfl | hq
      · have := pow_eq_zero_iff (two_ne_zero) |>.1 h1
        linarith
      · exact ih.1 h2 q hq
    · intro h
      rw [ih.2 fun q hq => h q (List.mem_cons_of_mem _ hq), h p (List.mem_cons_self ..)]
      simp

/-- **C143** (names): a name stands for a built-in problem exactly if – without blanks at its ends, in lower case, and with `-` for `_` and blanks –
it is one of the names listed. -/
theorem C143_names (s : Name) (b : Builtin) : builtin s = some b ↔ s ≠ [] ∧ ∃ n ∈ names b, slug s = n.toList := by
  by_cases hs : s = []
  · subst hs
    cases b <;> simp [builtin, normalize]
  · have hnu : '_' ∉ slug s := by
      intro h
      obtain ⟨c, _, hc⟩ := List.mem_map.1 h
      unfold dash at hc
      by_cases h1 : c.toLower = '_' ∨ c.toLower = ' '
      · rw [if_pos h1] at hc; exact absurd hc (by decide)
      · rw [if_neg h1] at hc; exact h1 (.inl hc)
    simp only [builtin, normalize, hs, if_false, ne_eq, not_false_iff, true_and]
    obtain ⟨t, ht⟩ : ∃ t, slug s = t := ⟨_, rfl⟩
    rw [ht] at hnu ⊢
    by_cases h : ∃ p ∈ aliasMap, p.1 = t
    · obtain ⟨p, hp, rfl⟩ := h
      simp only [aliasMap, List.mem_cons, List.not_mem_nil, or_false] at hp
      rcases hp with rfl | rfl | rfl | rfl | rfl | rfl | rfl
      · cases b <;> decide +kernel
      · cases b <;> decide +kernel
      · cases b <;> decide +kernel
      · cases b <;> decide +kernel
      · cases b <;> decide +kernel
      · exact absurd (by decide +kernel) hnu
      · cases b <;> decide +kernel
    · have hl : aliasMap.lookup t = none := List.lookup_eq_none_iff.2 fun p hp => by
        simp only [bne_iff_ne, ne_eq, beq_eq_false_iff_ne]
        exact fun e => h ⟨p, hp, e.symm⟩
      rw [hl, Option.getD_none]
      have hne : ∀ p ∈ aliasMap, p.1 ≠ t := fun p hp e => h ⟨p, hp, e⟩
      have h1 : ¬ t = "burgers2".toList := fun e => hne ("burgers2".toList, "burgers".toList) (by simp only [aliasMap, List.mem_cons, true_or, or_true]) e.symm
      have h2 : ¬ t = "burgers-equation".toList := fun e => hne ("burgers-equation".toList, "burgers".toList) (by simp only [aliasMap, List.mem_cons, true_or, or_true]) e.symm
      have h3 : ¬ t = "chafee-infante".toList := fun e => hne ("chafee-infante".toList, "chafee-infante".toList) (by simp only [aliasMap, List.mem_cons, true_or, or_true]) e.symm
      have h4 : ¬ t = "chafeeinfante".toList := fun e => hne ("chafeeinfante".toList, "chafee-infante".toList) (by simp only [aliasMap, List.mem_cons, true_or, or_true]) e.symm
      have h5 : ¬ t = "kdv-equation".toList := fun e => hne ("kdv-equation".toList, "kdv".toList) (by simp only [aliasMap, List.mem_cons, true_or, or_true]) e.symm
      have h7 : ¬ t = "kdv-equation-sine".toList := fun e => hne ("kdv-equation-sine".toList, "kdv".toList) (by simp only [aliasMap, List.mem_cons, true_or, or_true]) e.symm
      rw [if_neg h3]
      by_cases hb : t = "burgers".toList
      · subst hb; cases b <;> decide +kernel
      · rw [if_neg hb]
        by_cases hk : t = "kdv".toList
        · subst hk; cases b <;> decide +kernel
        · rw [if_neg hk]
          cases b
          · simp only [names, List.mem_cons, List.not_mem_nil, or_false, exists_eq_or_imp, exists_eq_left, reduceCtorEq, false_iff, not_or]
            exact ⟨h3, h4⟩
          · simp only [names, List.mem_cons, List.not_mem_nil, or_false, exists_eq_or_imp, exists_eq_left, reduceCtorEq, false_iff, not_or]
            exact ⟨hb, h1, h2⟩
          · simp only [names, List.mem_cons, List.not_mem_nil, or_false, exists_eq_or_imp, exists_eq_left, reduceCtorEq, false_iff, not_or]
            exact ⟨hk, h5, h7⟩

example : builtin " KdV_Equation ".toList = some .kdv ∧ builtin "Chafee Infante".toList = some .chafee ∧ builtin "burgers-reflib".toList = none := by
  decide +kernel

/-- **C143** (error): for Burgers and KdV, and for the error of the given data also for Chafee–Infante, the reported error is zero exactly if every point
satisfies the equation. -/
theorem C143_error_partial (b : Builtin) (used origin : List Pt) :
    ∃ e, dataErrors (some b) used origin = some e ∧ (e.2 = 0 ↔ ∀ p ∈ origin, Solves b p) ∧ (b ≠ .chafee → (e.1 = 0 ↔ ∀ p ∈ used, Solves b p)) := by
  refine ⟨_, rfl, ?_, fun hb => ?_⟩
  · rw [sqError_zero]
    cases b <;> refine forall_congr' fun p => forall_congr' fun _ => ?_
    · exact Iff.rfl
    · simp only [rightOrigin, Solves]; constructor <;> intro h <;> linarith
    · simp only [rightOrigin, Solves]; constructor <;> intro h <;> linarith
  · rw [sqError_zero]
    cases b
    · exact absurd rfl hb
    · refine forall_congr' fun p => forall_congr' fun _ => ?_
      simp only [right, Solves]; constructor <;> intro h <;> linarith
    · refine forall_congr' fun p => forall_congr' fun _ => ?_
      simp only [right, Solves]; constructor <;> intro h <;> linarith

/-- **C143 (violated).** For Chafee–Infante the template used for the "data error" has no diffusion term: exact data have the error 0 in one line and a
positive error in the other, namely whenever u_xx differs from -0.0008 u + 0.0004 u³ at some point; and data without diffusion have none. -/
theorem C143_error_counterexample (pts : List Pt) :
    ((∀ p ∈ pts, Solves .chafee p) → ∃ e, dataErrors (some .chafee) pts pts = some e ∧ e.2 = 0 ∧
      (e.1 = 0 ↔ ∀ p ∈ pts, p.uxx = -(p.u * 8 / 10000) + p.u ^ 3 * 4 / 10000)) ∧
    (dataErrors (some .chafee) [⟨1, 1, 0, 1, 0⟩] [⟨1, 1, 0, 1, 0⟩] = some (100080016 / 100000000, 0) ∧ Solves .chafee ⟨1, 1, 0, 1, 0⟩) := by
  refine ⟨fun h => ⟨_, rfl, ?_, ?_⟩, ?_, ?_⟩
  · rw [sqError_zero]; exact h
  · rw [sqError_zero]
    refine forall_congr' fun p => forall_congr' fun hp => ?_
    have := h p hp
    simp only [Solves] at this
    simp only [right]
    constructor <;> intro h <;> linarith
  · norm_num [dataErrors, sqError, right, rightOrigin]
  · norm_num [Solves]

/-- **C143** (data): the arrays handed over are used, never mixed with bundled ones; bundled arrays are used only if none is handed over and the name is
known; everything else is refused. -/
theorem C143_data {A : Type} (files : Builtin → A × A × A) (c : Config A) :
    (∀ b f k, problem files c = some (b, .grid f k) → c.fields = some f ∧ c.coords = some k ∧ b = none) ∧
    (∀ b u x t, problem files c = some (b, .xt u x t) → c.fields = none ∧ c.coords = none ∧ b = builtin c.name ∧
      (c.u = some u ∧ c.x = some x ∧ c.t = some t ∨ c.u = none ∧ c.x = none ∧ c.t = none ∧ ∃ k, b = some k ∧ files k = (u, x, t))) ∧
    (problem files c = none ↔ (c.fields.isSome ≠ c.coords.isSome) ∨
      c.fields = none ∧ c.coords = none ∧ (c.u = none ∨ c.x = none ∨ c.t = none) ∧ ((c.u.isSome ∨ c.x.isSome ∨ c.t.isSome) ∨ builtin c.name = none)) := by
  obtain ⟨n, u, x, t, f, k⟩ := c
  cases hb : builtin n <;> cases f <;> cases k <;> cases u <;> cases x <;> cases t <;> simp [problem, load, payload, hb] <;> grind

example : problem (A := Nat) (fun _ => (7, 8, 9)) ⟨"kdv".toList, some 1, some 2, some 3, none, none⟩ = some (some .kdv, .xt 1 2 3) := by
  have hb : builtin "kdv".toList = some .kdv := by decide +kernel
  simp only [problem, load, payload, hb]
  rfl

/-- **C143** (label): the problem's name is the argument, else the alias for SGA, else the legacy alias, else the dataset's name – the first that is not
empty; `custom_dataset` if there is none. -/
theorem C143_label (a b c d : Option Name) :
    (∀ s, s ≠ [] → a = some s → label a b c d = s) ∧
    (∀ s, s ≠ [] → (a = none ∨ a = some []) → b = some s → label a b c d = s) ∧
    (∀ s, s ≠ [] → (a = none ∨ a = some []) → (b = none ∨ b = some []) → c = some s → label a b c d = s) ∧
    (∀ s, s ≠ [] → (a = none ∨ a = some []) → (b = none ∨ b = some []) → (c = none ∨ c = some []) → d = some s → label a b c d = s) ∧
    ((a = none ∨ a = some []) → (b = none ∨ b = some []) → (c = none ∨ c = some []) → (d = none ∨ d = some []) → label a b c d = "custom_dataset".toList) := by
  refine ⟨?_, ?_, ?_, ?_, ?_⟩
  · rintro s hs rfl; simp [label, Option.filter, hs]
  · rintro s hs (rfl | rfl) rfl <;> simp [label, Option.filter, hs]
  · rintro s hs (rfl | rfl) (rfl | rfl) rfl <;> simp [label, Option.filter, hs]
  · rintro s hs (rfl | rfl) (rfl | rfl) (rfl | rfl) rfl <;> simp [label, Option.filter, hs]
  · generalize hq : "custom_dataset".toList = q
    rintro (rfl | rfl) (rfl | rfl) (rfl | rfl) (rfl | rfl) <;> simp only [label, hq] <;> rfl

/-- **C143 (violated).** The name alone decides on the equation the data are measured by: own data that satisfy u_t = -u u_x + ν u_xx exactly, named
"burgers", are reported as wrong unless ν = 0.1 or u_xx vanishes. -/
theorem C143_named_counterexample {A : Type} (files : Builtin → A × A × A) (u x t : A) (ν : ℚ) (pts : List Pt)
    (h : ∀ p ∈ pts, p.ut = -(p.u * p.ux) + ν * p.uxx) :
    problem files ⟨"burgers".toList, some u, some x, some t, none, none⟩ = some (some .burgers, .xt u x t) ∧
    ∃ e, dataErrors (some .burgers) pts pts = some e ∧ (e.1 = 0 ↔ ν = 1 / 10 ∨ ∀ p ∈ pts, p.uxx = 0) := by
  have hb : builtin "burgers".toList = some .burgers := by decide +kernel
  refine ⟨by simp only [problem, load, payload, hb]; rfl, _, rfl, ?_⟩
  rw [sqError_zero]
  constructor
  · intro h'
    by_cases hν : ν = 1 / 10
    · exact .inl hν
    · right
      intro p hp
      have h1 := h p hp
      have h2 := h' p hp
      simp only [right] at h2
      have : (ν - 1 / 10) * p.uxx = 0 := by linarith
      rcases mul_eq_zero.1 this with h3 | h3
      · exact absurd (by linarith) hν
      · exact h3
  · rintro (rfl | h') p hp
    · have h1 := h p hp
      simp only [right]; linarith
    · have h1 := h p hp
      have h2 := h' p hp
      simp only [right]; rw [h1, h2]; ring

end Verif.Sga.Problems.Claims
