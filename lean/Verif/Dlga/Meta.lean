import Verif.Dlga.Fit
import Verif.Sga.Autograd
/-!
# Model of `generate_meta_data` (kd/model/kd_dlga.py:27-70, kd/model/dlga.py:190-228)

Exact real arithmetic.  The network maps one row to one number (it has no layer that mixes rows).  `torch.autograd.grad(outputs=c.sum(), inputs=X)[0]`
is the matrix of partial derivatives of the sum with respect to every entry of `X`; where autograd raises because `c` does not depend
on `X`, the code puts zeros (which the derivative is).
-/
namespace Verif.Dlga.Meta
open Verif.Sga.Autograd

noncomputable section

/-- A column computed from the whole input matrix (rows are points). -/
abbrev Column := List (List ℝ) → List ℝ

/-- `torch.autograd.grad(outputs=c.sum(), inputs=X)[0][r, i]` -/
def gradAt (c : Column) (X : List (List ℝ)) (r i : Nat) : ℝ :=
  deriv (fun s => (c (X.modify r fun row => row.set i s)).sum) ((X.getD r []).getD i 0)

/-- `torch.autograd.grad(outputs=c.sum(), inputs=X)[0][:, i].reshape(-1, 1)` -/
def gradCol (c : Column) (i : Nat) : Column := fun X => (List.range X.length).map fun r => gradAt c X r i

/-- `torch.zeros_like(u)` -/
def zeros : Column := fun X => X.map fun _ => 0

/-- kd_dlga.py:35 `u = self.Net(X_tensor)` -/
def uCol (net : List ℝ → ℝ) : Column := fun X => X.map net

/-- kd_dlga.py:37 -/
def uxCol (net : List ℝ → ℝ) (d : Nat) : Column := if 0 < d then gradCol (uCol net) 0 else zeros

/-- kd_dlga.py:38 -/
def utCol (net : List ℝ → ℝ) (d : Nat) : Column := if 1 < d then gradCol (uCol net) 1 else zeros

/-- kd_dlga.py:39-49 (without a first column there is nothing to differentiate: the exception gives zeros) -/
def uxxCol (net : List ℝ → ℝ) (d : Nat) : Column := if 0 < d then gradCol (uxCol net d) 0 else zeros

def uxxxCol (net : List ℝ → ℝ) (d : Nat) : Column := if 0 < d then gradCol (uxxCol net d) 0 else zeros

/-- kd_dlga.py:50-54 -/
def uttCol (net : List ℝ → ℝ) (d : Nat) : Column := if 1 < d then gradCol (utCol net d) 1 else zeros

/-- kd_dlga.py:55 `available_ops` (and 64 `metadata`, the same entries); `d` is the number of columns of `X`. -/
def available (net : List ℝ → ℝ) (d : Nat) (X : List (List ℝ)) (o : String) : Option (List ℝ) :=
  if o = "u" then some (uCol net X)
  else if o = "u_x" then some (uxCol net d X)
  else if o = "u_t" then some (utCol net d X)
  else if o = "u_xx" then some (uxxCol net d X)
  else if o = "u_xxx" then some (uxxxCol net d X)
  else if o = "u_tt" then some (uttCol net d X)
  else none

/-- dlga.py:201-215 the base class: `Theta` (with one column in `X`, `u_grad[:, 1]` raises). -/
def baseTheta (net : List ℝ → ℝ) (d : Nat) (X : List (List ℝ)) : Option (List (List ℝ)) :=
  if 1 < d then some [uCol net X, gradCol (uCol net) 0 X, gradCol (gradCol (uCol net) 0) 0 X,
    gradCol (gradCol (gradCol (uCol net) 0) 0) 0 X, gradCol (uCol net) 1 X, gradCol (gradCol (uCol net) 1) 1 X]
  else none

end

end Verif.Dlga.Meta
