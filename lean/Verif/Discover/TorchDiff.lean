import Verif.Discover.Exec
import Mathlib.Analysis.Calculus.Deriv.Basic
import Mathlib.Algebra.BigOperators.Fin
import Mathlib.Data.Fintype.BigOperators
/-!
# DISCOVER, sparse mode: the values of terms by automatic differentiation (`torch_diff`, `Laplacian_t` and the operators with suffix `_t`)

Numbers are reals.  A tensor is a column of `n` numbers that depends on the columns of positions `x[0]`, …, `x[d-1]` it was computed from; the gradient of the sum of a
column is the derivative of this dependence, at all orders (`create_graph=True`).  Simplifications: automatic differentiation is the derivative (at the switching points of
the protected operators it may differ); a tensor computed from the network can be differentiated as often as asked (smooth activations), one computed from stored parameters
alone never; positions occur as the second operand of derivatives only (other uses end the call here).
-/
namespace Verif.Discover.TorchDiff
open Verif.Discover
noncomputable section

/-- The columns of positions: `d` axes, `n` points. -/
abbrev Inputs (d n : Nat) := Fin d → Fin n → ℝ

/-- A column computed from the positions; `attached`: it was computed from the network, so that it can be differentiated. -/
structure Tensor (d n : Nat) where
  fn : Inputs d n → Fin n → ℝ
  attached : Bool

/-- What the stack of `python_execute_torch` holds: `x[j]` or a column. -/
inductive Val (d n : Nat) where
  | axis (j : Fin d)
  | tensor (t : Tensor d n)

variable {d n : Nat}

/-- utils_nn.py:210-212, 216-218 `torch.autograd.grad(outputs=v, inputs=x[j], grad_outputs=ones)`: entry `k` is the derivative of the sum of the outputs with respect to
entry `k` of `x[j]`. -/
def gradOnes (j : Fin d) (v : Inputs d n → Fin n → ℝ) : Inputs d n → Fin n → ℝ :=
  fun X k => deriv (fun s => ∑ i, v (Function.update X j (Function.update (X j) k s)) i) (X j k)

/-- utils_nn.py:215-220, the loop (`dim=None`). -/
def diffLoop (j : Fin d) : Nat → (Inputs d n → Fin n → ℝ) → Inputs d n → Fin n → ℝ
  | 0, g => g
  | k + 1, g => diffLoop j k (gradOnes j g)

/-- utils_nn.py:209-221 `torch_diff` with `dim=None` (`none`: RuntimeError, the tensor does not depend on the positions). -/
def torchDiff (order : Nat) (v : Tensor d n) (j : Fin d) : Option (Tensor d n) :=
  if v.attached then some ⟨diffLoop j (order - 1) (gradOnes j v.fn), true⟩ else none

/-- `a + b` of two columns. -/
def addT (a b : Tensor d n) : Tensor d n := ⟨fun X k => a.fn X k + b.fn X k, a.attached || b.attached⟩

/-- utils_nn.py:230-232, the loop over the axes after the first. -/
def lapLoop (v : Tensor d n) : Tensor d n → List (Fin d) → Option (Tensor d n)
  | acc, [] => some acc
  | acc, j :: js => (torchDiff 2 v j).bind fun w => lapLoop v (addT acc w) js

/-- utils_nn.py:223-233 `Laplacian_t` (`none`: IndexError without axes, RuntimeError). -/
def laplacianT (v : Tensor d n) : Option (Tensor d n) :=
  match List.finRange d with
  | [] => none
  | j :: js => (torchDiff 2 v j).bind fun w => lapLoop v w js

/-- A column from two columns, entry by entry. -/
def bin (f : ℝ → ℝ → ℝ) (a b : Tensor d n) : Tensor d n := ⟨fun X k => f (a.fn X k) (b.fn X k), a.attached || b.attached⟩

/-- A column from a column, entry by entry. -/
def un (f : ℝ → ℝ) (a : Tensor d n) : Tensor d n := ⟨fun X k => f (a.fn X k), a.attached⟩

open Classical in
/-- functions.py:43-45 `protected_div_torch` -/
def protectedDiv (a b : ℝ) : ℝ := a / (if |b| > 1 / 10 ^ 8 then b else 1 / 10 ^ 8)

open Classical in
/-- functions.py:46-48 `protected_n2_torch` -/
def protectedN2 (a : ℝ) : ℝ := if |a| < 10 ^ 6 then a ^ 2 else 0

open Classical in
/-- functions.py:49-51 `protected_n3_torch` -/
def protectedN3 (a : ℝ) : ℝ := if |a| < 10 ^ 6 then a ^ 3 else 0

/-- functions.py:65-78: the operators on their evaluated operands (`none`: an exception). -/
def call (name : String) (vs : List (Val d n)) : Option (Val d n) :=
  match vs with
  | [.tensor a, .axis j] =>
    if name = "diff_t" then (torchDiff 1 a j).map .tensor
    else if name = "diff2_t" then (torchDiff 2 a j).map .tensor
    else if name = "diff3_t" then (torchDiff 3 a j).map .tensor
    else if name = "diff4_t" then (torchDiff 4 a j).map .tensor
    else none
  | [.tensor a, .tensor b] =>
    if name = "add_t" then some (.tensor (bin (· + ·) a b))
    else if name = "sub_t" then some (.tensor (bin (· - ·) a b))
    else if name = "mul_t" then some (.tensor (bin (· * ·) a b))
    else if name = "div_t" then some (.tensor (bin protectedDiv a b))
    else none
  | [.tensor a] =>
    if name = "n2_t" then some (.tensor (un protectedN2 a))
    else if name = "n3_t" then some (.tensor (un protectedN3 a))
    else none
  | _ => none

/-- The data a program is executed with: the network (output, position, time), the times and the parameters at the points. -/
structure Setting (d n : Nat) where
  outputs : Nat
  net : Nat → (Fin d → ℝ) → ℝ → ℝ
  time : Fin n → ℝ
  param : Nat → Fin n → ℝ

/-- pde_pinn.py:272-297 `u = [net_u(cat(x, t))]` and execute.py:62-74: column `c` of the network at the points (row `k` of the network's input is row `k` of the positions and
of the times). -/
def column (S : Setting d n) (c : Nat) : Tensor d n := ⟨fun X k => S.net c (fun j => X j k) (S.time k), true⟩

/-- execute.py:51-105: variables and operators for the token numbers of the library. -/
def env (S : Setting d n) (lib : Lib) : ExecEnv (Val d n) where
  x := fun i => if h : i < d then some (.axis ⟨i, h⟩) else none
  u := fun c => if c < S.outputs then some (.tensor (column S c)) else none
  param := fun t => .tensor ⟨fun _ k => S.param t k, false⟩
  call := fun t vs => call (((lib.tokens[t]?).map Token.name).getD "") vs
  callDiff := fun t vs _ => call (((lib.tokens[t]?).map Token.name).getD "") vs
  callLap := fun _ vs => match vs with
    | [.tensor a] => (laplacianT a).map .tensor
    | _ => none

end
end Verif.Discover.TorchDiff
