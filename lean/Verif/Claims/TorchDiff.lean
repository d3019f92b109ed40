import Verif.Discover.TorchDiff
import Verif.Claims.Exec
import Mathlib.Analysis.Calculus.IteratedDeriv.Defs
import Mathlib.Analysis.Calculus.Deriv.Add
import Mathlib.Analysis.Calculus.Deriv.Mul
import Mathlib.Analysis.Calculus.Deriv.Pow
import Mathlib.Tactic.Ring
/-!
# C198: terms of the sparse mode have the value of the mathematical expression at every point

## Specification
-/
namespace Verif.Discover.TorchDiff.Claims
open Verif.Discover Verif.Discover.TorchDiff Tree
noncomputable section

inductive Bin where | add | sub | mul | div
inductive Un where | n2 | n3

/-- Expressions of the sparse mode: outputs of the network, stored parameters (by token number), operators, derivatives of order 1 to 4 along an axis, the Laplacian. -/
inductive E (d : Nat) where
  | u (c : Nat)
  | param (t : Nat)
  | bin (o : Bin) (a b : E d)
  | un (o : Un) (a : E d)
  | diff (order : Fin 4) (a : E d) (j : Fin d)
  | lap (a : E d)

variable {d n : Nat}

/-- `f` restricted to the line through `p` along axis `j`. -/
def line (f : (Fin d → ℝ) → ℝ) (p : Fin d → ℝ) (j : Fin d) : ℝ → ℝ := fun s => f (Function.update p j s)

open Classical in
/-- The mathematical value of an expression at position `p`, with the time and the parameters of point `k`. -/
def value (S : Setting d n) : E d → Fin n → (Fin d → ℝ) → ℝ
  | .u c, k, p => S.net c p (S.time k)
  | .param t, k, _ => S.param t k
  | .bin .add a b, k, p => value S a k p + value S b k p
  | .bin .sub a b, k, p => value S a k p - value S b k p
  | .bin .mul a b, k, p => value S a k p * value S b k p
  | .bin .div a b, k, p => value S a k p / (if |value S b k p| > 1 / 10 ^ 8 then value S b k p else 1 / 10 ^ 8)
  | .un .n2 a, k, p => if |value S a k p| < 10 ^ 6 then value S a k p ^ 2 else 0
  | .un .n3 a, k, p => if |value S a k p| < 10 ^ 6 then value S a k p ^ 3 else 0
  | .diff r a j, k, p => iteratedDeriv (r + 1) (line (value S a k) p j) (p j)
  | .lap a, k, p => ∑ j, iteratedDeriv 2 (line (value S a k) p j) (p j)

/-- The expression contains an output of the network. -/
def hasU : E d → Bool
  | .u _ => true
  | .param _ => false
  | .bin _ a b => hasU a || hasU b
  | .un _ a => hasU a
  | .diff _ a _ => hasU a
  | .lap a => hasU a

/-- Only outputs the network has; only expressions with an output of the network are differentiated. -/
def Ok (m : Nat) : E d → Prop
  | .u c => c < m
  | .param _ => True
  | .bin _ a b => Ok m a ∧ Ok m b
  | .un _ a => Ok m a
  | .diff _ a _ => Ok m a ∧ hasU a = true
  | .lap a => Ok m a ∧ hasU a = true

/-- Token numbers of the operators, axes and outputs. -/
structure Codes (d : Nat) where
  op : String → Nat
  x : Fin d → Nat
  u : Nat → Nat

def binName : Bin → String
  | .add => "add_t" | .sub => "sub_t" | .mul => "mul_t" | .div => "div_t"
def unName : Un → String
  | .n2 => "n2_t" | .n3 => "n3_t"
def diffName : Fin 4 → String
  | 0 => "diff_t" | 1 => "diff2_t" | 2 => "diff3_t" | 3 => "diff4_t"

/-- The expression as a tree of token numbers. -/
def tree (C : Codes d) : E d → Tree
  | .u c => node (C.u c) []
  | .param t => node t []
  | .bin o a b => node (C.op (binName o)) [tree C a, tree C b]
  | .un o a => node (C.op (unName o)) [tree C a]
  | .diff r a j => node (C.op (diffName r)) [tree C a, node (C.x j) []]
  | .lap a => node (C.op "lap_t") [tree C a]

/-- The library has operator `name` of the arity under its number. -/
def HasOp (lib : Lib) (C : Codes d) (name : String) (ar : Nat) : Prop := lib.tokens[C.op name]? = some { name := name, arity := ar }

/-- The tokens of the expression are in the library under their numbers. -/
def InLib (lib : Lib) (C : Codes d) : E d → Prop
  | .u c => ∃ tok, lib.tokens[C.u c]? = some tok ∧ tok.arity = 0 ∧ tok.inputVar = none ∧ tok.paramVar = none ∧ tok.stateVar = some c
  | .param t => ∃ tok, lib.tokens[t]? = some tok ∧ tok.arity = 0 ∧ tok.inputVar = none ∧ tok.paramVar.isSome
  | .bin o a b => InLib lib C a ∧ InLib lib C b ∧ HasOp lib C (binName o) 2
  | .un o a => InLib lib C a ∧ HasOp lib C (unName o) 1
  | .diff r a j => InLib lib C a ∧ HasOp lib C (diffName r) 2 ∧ ∃ tok, lib.tokens[C.x j]? = some tok ∧ tok.arity = 0 ∧ tok.inputVar = some j.val
  | .lap a => InLib lib C a ∧ HasOp lib C "lap_t" 1

/-! ## Lemmas -/

/-- A column whose row `k` is a function of the positions of point `k` alone. -/
def Pointwise (v : Inputs d n → Fin n → ℝ) (f : Fin n → (Fin d → ℝ) → ℝ) : Prop := ∀ X k, v X k = f k (fun j => X j k)

theorem update_row (X : Inputs d n) (j : Fin d) (k : Fin n) (s : ℝ) :
    (fun i => Function.update X j (Function.update (X j) k s) i k) = Function.update (fun i => X i k) j s := by
  funext i
  by_cases h : i = j
  · subst h; simp
  · simp [h]

theorem update_other (X : Inputs d n) (j : Fin d) (k i : Fin n) (h : i ≠ k) (s : ℝ) :
    (fun a => Function.update X j (Function.update (X j) k s) a i) = fun a => X a i := by
  funext a
  by_cases ha : a = j
  · subst ha; simp [h]
  · simp [ha]

/-- The gradient of the sum of a pointwise column is, in each row, the partial derivative at the point of this row. -/
theorem gradOnes_pointwise (j : Fin d) (v : Inputs d n → Fin n → ℝ) (f : Fin n → (Fin d → ℝ) → ℝ) (h : Pointwise v f) :
    Pointwise (gradOnes j v) (fun k p => deriv (line (f k) p j) (p j)) := by
  intro X k
  unfold gradOnes
  have e : (fun s => ∑ i, v (Function.update X j (Function.update (X j) k s)) i) =
      fun s => line (f k) (fun i => X i k) j s + ∑ i ∈ Finset.univ.erase k, f i (fun a => X a i) := by
    funext s
    rw [← Finset.add_sum_erase _ _ (Finset.mem_univ k), h, update_row]
    congr 1
    apply Finset.sum_congr rfl
    intro i hi
    rw [h, update_other X j k i (Finset.ne_of_mem_erase hi)]
  rw [e, deriv_add_const]

theorem line_line (f : (Fin d → ℝ) → ℝ) (p : Fin d → ℝ) (j : Fin d) (s : ℝ) : line f (Function.update p j s) j = line f p j := by
  funext r; simp [line]

theorem diffLoop_pointwise (j : Fin d) (f : Fin n → (Fin d → ℝ) → ℝ) : ∀ (m r : Nat) (v : Inputs d n → Fin n → ℝ),
    Pointwise v (fun k p => iteratedDeriv r (line (f k) p j) (p j)) → Pointwise (diffLoop j m v) (fun k p => iteratedDeriv (r + m) (line (f k) p j) (p j)) := by
  intro m
  induction m with
  | zero => intro r v h; exact h
  | succ m ih =>
    intro r v h
    unfold diffLoop
    have := ih (r + 1) (gradOnes j v) (by
      have hg := gradOnes_pointwise j v _ h
      intro X k
      rw [hg X k]
      beta_reduce
      rw [iteratedDeriv_succ]
      congr 1
      funext s
      simp only [line, Function.update_self]
      congr 1
      exact line_line (f k) _ j s)
    rw [show r + (m + 1) = r + 1 + m by omega]
    exact this

theorem torchDiff_pointwise (order : Nat) (ho : 0 < order) (v : Tensor d n) (j : Fin d) (f : Fin n → (Fin d → ℝ) → ℝ) (h : Pointwise v.fn f) (ha : v.attached = true) :
    ∃ w, torchDiff order v j = some w ∧ w.attached = true ∧ Pointwise w.fn (fun k p => iteratedDeriv order (line (f k) p j) (p j)) := by
  unfold torchDiff
  rw [if_pos ha]
  refine ⟨_, rfl, rfl, ?_⟩
  have := diffLoop_pointwise j f (order - 1) 1 (gradOnes j v.fn) (by
    intro X k
    rw [gradOnes_pointwise j v.fn f h X k]
    beta_reduce
    rw [iteratedDeriv_one])
  rw [show 1 + (order - 1) = order by omega] at this
  exact this

theorem lapLoop_pointwise (v : Tensor d n) (f : Fin n → (Fin d → ℝ) → ℝ) (h : Pointwise v.fn f) (ha : v.attached = true) : ∀ (js : List (Fin d)) (acc : Tensor d n)
    (g : Fin n → (Fin d → ℝ) → ℝ), acc.attached = true → Pointwise acc.fn g →
    ∃ w, lapLoop v acc js = some w ∧ w.attached = true ∧ Pointwise w.fn (fun k p => g k p + (js.map fun j => iteratedDeriv 2 (line (f k) p j) (p j)).sum) := by
  intro js
  induction js with
  | nil => intro acc g hacc hg; exact ⟨acc, rfl, hacc, fun X k => by simp [hg X k]⟩
  | cons j js ih =>
    intro acc g hacc hg
    obtain ⟨w, hw, hwa, hwp⟩ := torchDiff_pointwise 2 (by omega) v j f h ha
    obtain ⟨z, hz, hza, hzp⟩ := ih (addT acc w) (fun k p => g k p + iteratedDeriv 2 (line (f k) p j) (p j)) (by simp [addT, hacc])
      (fun X k => by simp only [addT]; rw [hg X k, hwp X k])
    refine ⟨z, by unfold lapLoop; rw [hw]; exact hz, hza, fun X k => ?_⟩
    rw [hzp X k]
    beta_reduce
    rw [List.map_cons, List.sum_cons, add_assoc]

theorem laplacianT_pointwise (hd : 0 < d) (v : Tensor d n) (f : Fin n → (Fin d → ℝ) → ℝ) (h : Pointwise v.fn f) (ha : v.attached = true) :
    ∃ w, laplacianT v = some w ∧ w.attached = true ∧ Pointwise w.fn (fun k p => ∑ j, iteratedDeriv 2 (line (f k) p j) (p j)) := by
  unfold laplacianT
  cases hl : List.finRange d with
  | nil => simp at hl; omega
  | cons j js =>
    obtain ⟨w, hw, hwa, hwp⟩ := torchDiff_pointwise 2 (by omega) v j f h ha
    obtain ⟨z, hz, hza, hzp⟩ := lapLoop_pointwise v f h ha js w _ hwa hwp
    refine ⟨z, by simp only; rw [hw]; exact hz, hza, fun X k => ?_⟩
    rw [hzp X k]
    beta_reduce
    rw [← List.sum_ofFn, List.ofFn_eq_map, hl, List.map_cons, List.sum_cons]

theorem evalT_op {V : Type} (lib : Lib) (en : ExecEnv V) (fl : Option Nat) (t : Nat) (cs : List Tree) (name : String) (ar : Nat)
    (ht : lib.tokens[t]? = some { name := name, arity := ar }) (vs : List V) (fl' : Option Nat) (v : V)
    (hl : evalL (torchApply lib en fun _ => false) fl cs = (.inr vs, fl'))
    (hv : (if isDiffName name then en.call t vs else if hasSub "lap".toList name.toList then en.callLap t vs else en.call t vs) = some v) :
    evalT (torchApply lib en fun _ => false) fl (node t cs) = (.val v, fl') := by
  unfold evalT
  rw [hl]
  simp only [torchApply, ht]
  by_cases h1 : isDiffName name
  · rw [if_pos h1] at hv ⊢
    rw [hv]; rfl
  · rw [if_neg h1] at hv ⊢
    by_cases h2 : hasSub "lap".toList name.toList
    · rw [if_pos h2] at hv ⊢
      rw [hv]; rfl
    · rw [if_neg h2] at hv ⊢
      rw [hv]; rfl

theorem evalL_one {V : Type} (ap : ApplyFn V) (fl fl' : Option Nat) (t : Tree) (v : V) (h : evalT ap fl t = (.val v, fl')) : evalL ap fl [t] = (.inr [v], fl') := by
  unfold evalL
  rw [h]
  simp only [evalL]

theorem evalL_two {V : Type} (ap : ApplyFn V) (fl fl' fl'' : Option Nat) (s t : Tree) (v w : V) (h : evalT ap fl s = (.val v, fl'))
    (h' : evalT ap fl' t = (.val w, fl'')) : evalL ap fl [s, t] = (.inr [v, w], fl'') := by
  unfold evalL
  rw [h]
  simp only
  rw [evalL_one ap fl' fl'' t w h']

theorem evalT_axis (S : Setting d n) {lib : Lib} (C : Codes d) (fl : Option Nat) (j : Fin d)
    (hx : ∃ tok, lib.tokens[C.x j]? = some tok ∧ tok.arity = 0 ∧ tok.inputVar = some j.val) :
    evalT (torchApply lib (env S lib) fun _ => false) fl (node (C.x j) []) = (.val (.axis j), some (j.val + 1)) := by
  obtain ⟨tok, h1, _, h3⟩ := hx
  unfold evalT
  simp only [evalL, torchApply, h1, h3]
  simp [env]

theorem evalT_tree (S : Setting d n) {lib : Lib} (C : Codes d) (hd : 0 < d) : ∀ (e : E d), Ok S.outputs e → InLib lib C e → ∀ fl,
    ∃ T fl', evalT (torchApply lib (env S lib) fun _ => false) fl (tree C e) = (.val (.tensor T), fl') ∧ T.attached = hasU e ∧ Pointwise T.fn (value S e) := by
  intro e
  induction e with
  | u c =>
    intro ho hp fl
    obtain ⟨tok, h1, _, h3, h4, h5⟩ := hp
    refine ⟨column S c, fl, ?_, rfl, fun X k => rfl⟩
    unfold tree evalT
    simp only [evalL, torchApply, h1, h3, h4, h5]
    simp only [env, if_pos (show c < S.outputs from ho)]
    rfl
  | param t =>
    intro _ hp fl
    obtain ⟨tok, h1, _, h3, h4⟩ := hp
    obtain ⟨i, hi⟩ := Option.isSome_iff_exists.1 h4
    refine ⟨⟨fun _ k => S.param t k, false⟩, fl, ?_, rfl, fun X k => rfl⟩
    unfold tree evalT
    simp only [evalL, torchApply, h1, h3, hi]
    rfl
  | bin o a b iha ihb =>
    intro ho hp fl
    obtain ⟨A, fl1, ha, haa, hap⟩ := iha ho.1 hp.1 fl
    obtain ⟨B, fl2, hb, hba, hbp⟩ := ihb ho.2 hp.2.1 fl1
    have hl := evalL_two _ fl fl1 fl2 _ _ _ _ ha hb
    cases o
    all_goals unfold tree binName
    · have ht : HasOp lib C "add_t" 2 := hp.2.2
      unfold HasOp at ht
      refine ⟨TorchDiff.bin (· + ·) A B, fl2, evalT_op lib _ fl _ _ "add_t" 2 ht _ fl2 _ hl ?_, by simp [TorchDiff.bin, hasU, haa, hba], fun X k => ?_⟩
      · rw [if_neg (by decide +kernel), if_neg (by decide +kernel)]; simp [env, ht, call]
      · simp only [TorchDiff.bin, value]; rw [hap X k, hbp X k]
    · have ht : HasOp lib C "sub_t" 2 := hp.2.2
      unfold HasOp at ht
      refine ⟨TorchDiff.bin (· - ·) A B, fl2, evalT_op lib _ fl _ _ "sub_t" 2 ht _ fl2 _ hl ?_, by simp [TorchDiff.bin, hasU, haa, hba], fun X k => ?_⟩
      · rw [if_neg (by decide +kernel), if_neg (by decide +kernel)]; simp [env, ht, call]
      · simp only [TorchDiff.bin, value]; rw [hap X k, hbp X k]
    · have ht : HasOp lib C "mul_t" 2 := hp.2.2
      unfold HasOp at ht
      refine ⟨TorchDiff.bin (· * ·) A B, fl2, evalT_op lib _ fl _ _ "mul_t" 2 ht _ fl2 _ hl ?_, by simp [TorchDiff.bin, hasU, haa, hba], fun X k => ?_⟩
      · rw [if_neg (by decide +kernel), if_neg (by decide +kernel)]; simp [env, ht, call]
      · simp only [TorchDiff.bin, value]; rw [hap X k, hbp X k]
    · have ht : HasOp lib C "div_t" 2 := hp.2.2
      unfold HasOp at ht
      refine ⟨TorchDiff.bin protectedDiv A B, fl2, evalT_op lib _ fl _ _ "div_t" 2 ht _ fl2 _ hl ?_, by simp [TorchDiff.bin, hasU, haa, hba], fun X k => ?_⟩
      · rw [if_neg (by decide +kernel), if_neg (by decide +kernel)]; simp [env, ht, call]
      · simp only [TorchDiff.bin, value, protectedDiv]; rw [hap X k, hbp X k]
  | un o a iha =>
    intro ho hp fl
    obtain ⟨A, fl1, ha, haa, hap⟩ := iha ho hp.1 fl
    have hl := evalL_one _ fl fl1 _ _ ha
    cases o
    all_goals unfold tree unName
    · have ht : HasOp lib C "n2_t" 1 := hp.2
      unfold HasOp at ht
      refine ⟨TorchDiff.un protectedN2 A, fl1, evalT_op lib _ fl _ _ "n2_t" 1 ht _ fl1 _ hl ?_, by simp [TorchDiff.un, hasU, haa], fun X k => ?_⟩
      · rw [if_neg (by decide +kernel), if_neg (by decide +kernel)]; simp [env, ht, call]
      · simp only [TorchDiff.un, value, protectedN2]; rw [hap X k]
    · have ht : HasOp lib C "n3_t" 1 := hp.2
      unfold HasOp at ht
      refine ⟨TorchDiff.un protectedN3 A, fl1, evalT_op lib _ fl _ _ "n3_t" 1 ht _ fl1 _ hl ?_, by simp [TorchDiff.un, hasU, haa], fun X k => ?_⟩
      · rw [if_neg (by decide +kernel), if_neg (by decide +kernel)]; simp [env, ht, call]
      · simp only [TorchDiff.un, value, protectedN3]; rw [hap X k]
  | diff r a j iha =>
    intro ho hp fl
    obtain ⟨A, fl1, ha, haa, hap⟩ := iha ho.1 hp.1 fl
    have hl := evalL_two _ fl fl1 _ _ _ _ _ ha (evalT_axis S C fl1 j hp.2.2)
    obtain ⟨w, hw, hwa, hwp⟩ := torchDiff_pointwise (r.val + 1) (by omega) A j (value S a) hap (haa.trans ho.2)
    refine ⟨w, some (j.val + 1), ?_, by rw [hwa]; exact ho.2.symm, hwp⟩
    unfold tree
    have hr : r = 0 ∨ r = 1 ∨ r = 2 ∨ r = 3 := by omega
    rcases hr with rfl | rfl | rfl | rfl
    · have ht : HasOp lib C "diff_t" 2 := hp.2.1
      unfold HasOp at ht
      refine evalT_op lib _ fl _ _ "diff_t" 2 ht _ _ _ hl ?_
      rw [if_pos (by decide +kernel)]
      simp only [env, diffName, ht, call]
      simp at hw ⊢
      exact hw
    · have ht : HasOp lib C "diff2_t" 2 := hp.2.1
      unfold HasOp at ht
      refine evalT_op lib _ fl _ _ "diff2_t" 2 ht _ _ _ hl ?_
      rw [if_pos (by decide +kernel)]
      simp only [env, diffName, ht, call]
      simp at hw ⊢
      exact hw
    · have ht : HasOp lib C "diff3_t" 2 := hp.2.1
      unfold HasOp at ht
      refine evalT_op lib _ fl _ _ "diff3_t" 2 ht _ _ _ hl ?_
      rw [if_pos (by decide +kernel)]
      simp only [env, diffName, ht, call]
      simp at hw ⊢
      exact hw
    · have ht : HasOp lib C "diff4_t" 2 := hp.2.1
      unfold HasOp at ht
      refine evalT_op lib _ fl _ _ "diff4_t" 2 ht _ _ _ hl ?_
      rw [if_pos (by decide +kernel)]
      simp only [env, diffName, ht, call]
      simp at hw ⊢
      exact hw
  | lap a iha =>
    intro ho hp fl
    obtain ⟨A, fl1, ha, haa, hap⟩ := iha ho.1 hp.1 fl
    have hl := evalL_one _ fl fl1 _ _ ha
    obtain ⟨w, hw, hwa, hwp⟩ := laplacianT_pointwise hd A (value S a) hap (haa.trans ho.2)
    have ht : HasOp lib C "lap_t" 1 := hp.2
    unfold HasOp at ht
    refine ⟨w, fl1, ?_, by rw [hwa]; exact ho.2.symm, hwp⟩
    unfold tree
    refine evalT_op lib _ fl _ _ "lap_t" 1 ht _ _ _ hl ?_
    rw [if_neg (by decide +kernel), if_pos (by decide +kernel)]
    simp only [env, hw]
    rfl

theorem arity_of {lib : Lib} {t : Nat} {tok : Token} (h : lib.tokens[t]? = some tok) : lib.arity t = tok.arity := by
  simp [Lib.arity, h]

theorem arity_op {lib : Lib} {C : Codes d} {name : String} {ar : Nat} (h : HasOp lib C name ar) : lib.arity (C.op name) = ar := arity_of h

theorem tree_wf {lib : Lib} (C : Codes d) : ∀ (e : E d), InLib lib C e → WF lib.arity (tree C e) := by
  intro e
  induction e with
  | u c =>
    rintro ⟨tok, h1, h2, _⟩
    simp [tree, WF, WFL, arity_of h1, h2]
  | param t =>
    rintro ⟨tok, h1, h2, _⟩
    simp [tree, WF, WFL, arity_of h1, h2]
  | bin o a b iha ihb =>
    intro hp
    simp [tree, WF, WFL, arity_op hp.2.2, iha hp.1, ihb hp.2.1]
  | un o a iha =>
    intro hp
    simp [tree, WF, WFL, arity_op hp.2, iha hp.1]
  | diff r a j iha =>
    intro hp
    obtain ⟨tok, h1, h2, _⟩ := hp.2.2
    simp [tree, WF, WFL, arity_of h1, h2, arity_op hp.2.1, iha hp.1]
  | lap a iha =>
    intro hp
    simp [tree, WF, WFL, arity_op hp.2, iha hp.1]

/-! ## The theorems -/

/-- **C198**: executing the tokens of an expression in the sparse mode gives, at every point, the mathematical value of the expression there: products, quotients and
powers of the network's outputs and the parameters, their derivatives of order 1 to 4 along any axis – also of compound expressions and nested – and Laplacians.
Partial, of the whole claim: Proved for all expressions over the network's outputs and the parameters in which only expressions with a network output are differentiated; expressions without one are refused (diff) or raise (lap). Automatic differentiation is the derivative of a real function; rounding and the switching points of the protected operators are not modelled. -/
theorem C198_value_partial (S : Setting d n) {lib : Lib} (C : Codes d) (hd : 0 < d) (e : E d) (ho : Ok S.outputs e) (hp : InLib lib C e) (rest : List Nat) :
    ∃ T : Tensor d n, execute lib.arity (torchApply lib (env S lib) fun _ => false) ((tree C e).preorder ++ rest) = .val (.tensor T) ∧
      ∀ (X : Inputs d n) (k : Fin n), T.fn X k = value S e k (fun j => X j k) := by
  obtain ⟨T, fl', h, _, hv⟩ := evalT_tree S C hd e ho hp none
  exact ⟨T, by rw [Verif.Discover.Claims.C03_execute_eval lib.arity _ _ (tree_wf C e hp), h], hv⟩

/-- **C198** (no mixing of points): the value at a point does not depend on the other points of the table, although the gradients are taken of the sum over all points. -/
theorem C198_local (S : Setting d n) {lib : Lib} (C : Codes d) (hd : 0 < d) (e : E d) (ho : Ok S.outputs e) (hp : InLib lib C e) (T : Tensor d n)
    (h : execute lib.arity (torchApply lib (env S lib) fun _ => false) (tree C e).preorder = .val (.tensor T)) (X Y : Inputs d n) (k : Fin n)
    (hXY : ∀ j, X j k = Y j k) : T.fn X k = T.fn Y k := by
  obtain ⟨T', h', hv⟩ := C198_value_partial S C hd e ho hp []
  rw [List.append_nil, h] at h'
  cases h'
  rw [hv X k, hv Y k]
  congr 1
  funext j
  exact hXY j

/-- **C198 (violated).** A derivative of an expression without any output of the network – a stored parameter, or a product of parameters – is not 0 or the derivative of the
parameter: with `diff` the program is invalid (the call returns None), with `lap` the exception is not caught and ends the search. -/
theorem C198_parameter_counterexample (S : Setting d n) {lib : Lib} (C : Codes d) (hd : 0 < d) (a : E d) (ho : Ok S.outputs a) (hu : hasU a = false) (rest : List Nat) :
    (∀ r j, InLib lib C (.diff r a j) → execute lib.arity (torchApply lib (env S lib) fun _ => false) ((tree C (.diff r a j)).preorder ++ rest) = .retNone) ∧
    (InLib lib C (.lap a) → execute lib.arity (torchApply lib (env S lib) fun _ => false) ((tree C (.lap a)).preorder ++ rest) = .raise) := by
  constructor
  · intro r j hp
    rw [Verif.Discover.Claims.C03_execute_eval lib.arity _ _ (tree_wf C _ hp)]
    obtain ⟨A, fl1, ha, haa, _⟩ := evalT_tree S C hd a ho hp.1 none
    have hl := evalL_two _ none fl1 _ _ _ _ _ ha (evalT_axis S C fl1 j hp.2.2)
    have ht := hp.2.1
    unfold HasOp at ht
    have hdn : isDiffName (diffName r) = true := by
      have hr : r = 0 ∨ r = 1 ∨ r = 2 ∨ r = 3 := by omega
      rcases hr with rfl | rfl | rfl | rfl <;> decide +kernel
    have hc : call (diffName r) [.tensor A, .axis j] = none := by
      simp [call, torchDiff, haa, hu]
    unfold tree evalT
    rw [hl]
    simp only [torchApply, ht, hdn, if_true]
    simp only [env, ht, Option.map_some, Option.getD_some, hc]
  · intro hp
    rw [Verif.Discover.Claims.C03_execute_eval lib.arity _ _ (tree_wf C _ hp)]
    obtain ⟨A, fl1, ha, haa, _⟩ := evalT_tree S C hd a ho hp.1 none
    have hl := evalL_one _ none fl1 _ _ ha
    have ht := hp.2
    unfold HasOp at ht
    have hn : laplacianT A = none := by
      unfold laplacianT
      split
      · rfl
      · simp [torchDiff, haa, hu]
    unfold tree evalT
    rw [hl]
    simp only [torchApply, ht]
    rw [if_neg (by decide +kernel), if_pos (by decide +kernel)]
    simp only [env, hn, Option.map_none]

/-! ## A concrete case: (u · u)_x with u = x² and two points -/

def exLib : Lib := ⟨[{ name := "mul_t", arity := 2 }, { name := "diff_t", arity := 2 }, { name := "x1", arity := 0, inputVar := some 0 },
  { name := "u1", arity := 0, stateVar := some 0 }, { name := "p1", arity := 0, paramVar := some 0 }, { name := "lap_t", arity := 1 }]⟩
def exCodes : Codes 1 := ⟨fun s => if s = "mul_t" then 0 else if s = "diff_t" then 1 else 5, fun _ => 2, fun _ => 3⟩
def exSetting : Setting 1 2 := ⟨1, fun _ p _ => p 0 ^ 2, fun _ => 0, fun _ _ => 7⟩
def exE : E 1 := .diff 0 (.bin .mul (.u 0) (.u 0)) 0

/-- The hypotheses of `C198_value_partial` are met, the tokens are mul and u under diff, and the value is 4x³. -/
theorem C198_concrete : Ok exSetting.outputs exE ∧ InLib exLib exCodes exE ∧ (tree exCodes exE).preorder = [1, 0, 3, 3, 2] ∧
    (∀ k p, value exSetting exE k p = 4 * p 0 ^ 3) ∧
    Ok exSetting.outputs (.param 4 : E 1) ∧ InLib exLib exCodes (.lap (.param 4)) ∧ InLib exLib exCodes (.diff 0 (.param 4) 0) := by
  have e1 : exCodes.op "mul_t" = 0 := by decide +kernel
  have e2 : exCodes.op "diff_t" = 1 := by decide +kernel
  have e3 : exCodes.op "lap_t" = 5 := by decide +kernel
  refine ⟨⟨⟨Nat.zero_lt_one, Nat.zero_lt_one⟩, rfl⟩, ⟨⟨⟨_, rfl, rfl, rfl, rfl, rfl⟩, ⟨_, rfl, rfl, rfl, rfl, rfl⟩, ?_⟩, ?_, ⟨_, rfl, rfl, rfl⟩⟩, ?_, ?_, trivial,
    ⟨⟨_, rfl, rfl, rfl, rfl⟩, ?_⟩, ⟨⟨_, rfl, rfl, rfl, rfl⟩, ?_, ⟨_, rfl, rfl, rfl⟩⟩⟩
  · unfold HasOp binName; rw [e1]; rfl
  · unfold HasOp diffName; rw [e2]; rfl
  · simp [exE, tree, binName, diffName, preorder, preorderL, exCodes]
  · intro k p
    simp only [exE, value, line, exSetting, Fin.isValue, Function.update_self]
    rw [show ((0 : Fin 4) : ℕ) + 1 = 1 from rfl, iteratedDeriv_one]
    have h : HasDerivAt (fun s : ℝ => s ^ 2 * s ^ 2) (4 * p 0 ^ 3) (p 0) := by
      have h4 := hasDerivAt_pow 4 (p 0)
      rw [show (fun s : ℝ => s ^ 2 * s ^ 2) = fun s => s ^ 4 by funext s; ring]
      exact h4
    exact h.deriv
  · unfold HasOp; rw [e3]; rfl
  · unfold HasOp diffName; rw [e2]; rfl

end
end Verif.Discover.TorchDiff.Claims
