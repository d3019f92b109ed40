import Verif.Dataset.Base
import Verif.Discover.Fit
import Mathlib.Data.Rat.Floor
import Mathlib.Algebra.Order.Floor.Ring
/-!
# Trimming the terms of noisy data

kd/model/discover/task/pde/utils_noise.py:31-44 `cut_bound` and its use in stridge.py:505-511.  Indices are exact: `percent` is a rational, the floats
`percent * dim` are not rounded.
-/
namespace Verif.Discover.Trim
open Verif.Data Verif.Discover.Fit

/-- An end of a Python slice of an axis with `d` entries. -/
def clipEnd (d : Nat) (i : Int) : Nat := if i < 0 then ((d : Int) + i).toNat else min i.toNat d

/-- utils_noise.py:34-35: `low_bound`, `up_bound` of one axis, as ends of the slice. -/
def low (p : ℚ) (d : Nat) : Nat := clipEnd d ⌊p * d⌋
def up (p : ℚ) (d : Nat) : Nat := clipEnd d ⌈(1 - p) * d⌉

/-- utils_noise.py:31-44 `cut_bound`: only arrays with two, three or four axes are cut. -/
def cutBound {V : Type} (p : ℚ) (a : Arr V) : Arr V :=
  if a.shape.length = 2 ∨ a.shape.length = 3 ∨ a.shape.length = 4 then
    ⟨a.shape.map fun d => up p d - low p d, fun i => a.get (List.zipWith (· + ·) i (a.shape.map (low p)))⟩
  else a

/-- What executing a term gives (stridge.py:488-507): an invalid evaluation, `None`, a NumPy array or a tensor (its entries in order). -/
inductive Out (K : Type) where
  | invalid (err : String)
  | none
  | array (a : Arr K)
  | tensor (xs : List K)

/-- stridge.py:490-511: the column of one term at noise level `noise` and cut ratio `p`. -/
def column {K : Type} (noise p : ℚ) : Out K → TermVal K
  | .invalid e => .invalid e
  | .none => .none
  | .array a => .col (if 0 < noise then cutBound p a else a).ravel
  | .tensor xs => .col xs

/-- program.py:286-294, stridge.py:430-456 and pde.py:95-97, 119: fitting a program against the left-hand side `ut`, which is not trimmed
(`ut.reshape(-1, 1)`); `exec` executes a term. -/
def fit {K : Type} [Zero K] [One K] [Add K] [Mul K] (small large : K → Bool) (lstsq : List (List K) → List K → Option (List K)) (c : Cfg) (noise p : ℚ)
    (exec : List String → Out K) (traversal : List String) (terms : List (List String)) (ut : Arr K) : Option (Except String (Fitted K)) :=
  calculate small large lstsq c (fun t => column noise p (exec t)) traversal terms ut.ravel

end Verif.Discover.Trim
