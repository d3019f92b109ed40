import Mathlib.Algebra.Field.Basic
import Verif.Dataset.Base
/-!
# The derivative operators of DISCOVER (kd/model/discover/task/pde/utils_fd.py)

Exact arithmetic in a field.  An array is its shape and its entries; an operator works line by line along one axis.
`none`: the call raises (which `python_execute` turns into `None`).
-/
namespace Verif.Discover.FD
open Verif.Data

variable {K : Type} [Field K]

/-- utils_fd.py:44, 70, 142, 148, 174, 181, 226, 264 `dxt[2] - dxt[1]` (IndexError for fewer than three points). -/
def spacing (x : List K) : Option K :=
  match x[2]?, x[1]? with
  | some a, some b => some (a - b)
  | _, _ => none

/-- Entry `i` of the first derivative of the `n` values `f` with one-sided ends (utils_fd.py:12-15, 47-50, 228-245). -/
def d1 (h : K) (n : Nat) (f : Nat → K) (i : Nat) : K :=
  if i = 0 then (-3 / 2 * f 0 + 2 * f 1 - f 2 / 2) / h
  else if i = n - 1 then (3 / 2 * f (n - 1) - 2 * f (n - 2) + f (n - 3) / 2) / h
  else (f (i + 1) - f (i - 1)) / (2 * h)

/-- Entry `i` of the second derivative with one-sided ends (utils_fd.py:24-27, 73-76, 267-286). -/
def d2 (h : K) (n : Nat) (f : Nat → K) (i : Nat) : K :=
  if i = 0 then (2 * f 0 - 5 * f 1 + 4 * f 2 - f 3) / h ^ 2
  else if i = n - 1 then (2 * f (n - 1) - 5 * f (n - 2) + 4 * f (n - 3) - f (n - 4)) / h ^ 2
  else (f (i + 1) - 2 * f i + f (i - 1)) / h ^ 2

/-- Entry `i` of the first derivative with periodic ends (utils_fd.py:143-146, 149-152). -/
def d1p (h : K) (n : Nat) (f : Nat → K) (i : Nat) : K :=
  if i = 0 then (f 1 - f (n - 1)) / 2 / h
  else if i = n - 1 then (f 0 - f (n - 2)) / 2 / h
  else (f (i + 1) - f (i - 1)) / 2 / h

/-- Entry `i` of the second derivative with periodic ends (utils_fd.py:175-177, 182-184). -/
def d2p (h : K) (n : Nat) (f : Nat → K) (i : Nat) : K :=
  if i = 0 then (f 1 + f (n - 1) - 2 * f 0) / h ^ 2
  else if i = n - 1 then (f 0 + f (n - 2) - 2 * f (n - 1)) / h ^ 2
  else (f (i + 1) - 2 * f i + f (i - 1)) / h ^ 2

/-- An operation on the lines along axis `k`. -/
def alongAxis (op : Nat → (Nat → K) → Nat → K) (k : Nat) (u : Arr K) : Arr K :=
  ⟨u.shape, fun idx => op ((u.shape[k]?).getD 0) (fun j => u.get (idx.set k j)) ((idx[k]?).getD 0)⟩

/-- utils_fd.py:33-59 `Diff` (one space dimension: `u` has the shape (points, times); `dim` is not used). -/
def diff (u : Arr K) (x : List K) : Option (Arr K) :=
  match u.shape, spacing x with
  | [n, _], some h => if n < 3 then none else some (alongAxis (d1 h) 0 u)
  | _, _ => none

/-- utils_fd.py:62-81 `Diff2`. -/
def diff2 (u : Arr K) (x : List K) : Option (Arr K) :=
  match u.shape, spacing x with
  | [n, _], some h => if n < 4 then none else some (alongAxis (d2 h) 0 u)
  | _, _ => none

/-- utils_fd.py:84-105 `Diff3`. -/
def diff3 (u : Arr K) (x : List K) : Option (Arr K) := (diff2 u x).bind fun v => diff v x

/-- utils_fd.py:108-125 `Diff4`. -/
def diff4 (u : Arr K) (x : List K) : Option (Arr K) := (diff2 u x).bind fun v => diff2 v x

/-- utils_fd.py:133-134, 167-168, 218-219, 258-259: an operand of the shape `(len(x), 1)` of the coordinate itself is divided by it.
(Division by a coordinate that is 0 gives nan in the code and 0 in the model.) -/
def quotient (u : Arr K) (x : List K) : Arr K :=
  ⟨u.shape, fun idx => u.get idx / (x[(idx[0]?).getD 0]?).getD 0⟩

/-- utils_fd.py:129-158 `Diff_2` (two space dimensions: `u` has the shape (times, points, points); `name` is the axis). -/
def diffTwo (u : Arr K) (x : List K) (name : Nat) : Option (Arr K) :=
  if u.shape = [x.length, 1] then some (quotient u x)
  else match u.shape, spacing x with
  | [_, n, m], some h =>
    if name = 1 then (if n < 2 then none else some (alongAxis (d1p h) 1 u))
    else if name = 2 then (if m < 2 then none else some (alongAxis (d1p h) 2 u))
    else none
  | _, _ => none

/-- utils_fd.py:161-193 `Diff2_2`. -/
def diff2Two (u : Arr K) (x : List K) (name : Nat) : Option (Arr K) :=
  if u.shape = [x.length, 1] then some (quotient u x)
  else match u.shape, spacing x with
  | [_, n, m], some h =>
    if name = 1 then (if n < 2 then none else some (alongAxis (d2p h) 1 u))
    else if name = 2 then (if m < 2 then none else some (alongAxis (d2p h) 2 u))
    else none
  | _, _ => none

/-- utils_fd.py:212-249 `Diff_3` (three space dimensions). -/
def diffThree (u : Arr K) (x : List K) (name : Nat) : Option (Arr K) :=
  if u.shape = [x.length, 1] then some (quotient u x)
  else match u.shape, spacing x with
  | [_, n, m, p], some h =>
    if name = 1 then (if n < 3 then none else some (alongAxis (d1 h) 1 u))
    else if name = 2 then (if m < 3 then none else some (alongAxis (d1 h) 2 u))
    else if name = 3 then (if p < 3 then none else some (alongAxis (d1 h) 3 u))
    else none
  | _, _ => none

/-- utils_fd.py:252-289 `Diff2_3`. -/
def diff2Three (u : Arr K) (x : List K) (name : Nat) : Option (Arr K) :=
  if u.shape = [x.length, 1] then some (quotient u x)
  else match u.shape, spacing x with
  | [_, n, m, p], some h =>
    if name = 1 then (if n < 4 then none else some (alongAxis (d2 h) 1 u))
    else if name = 2 then (if m < 4 then none else some (alongAxis (d2 h) 2 u))
    else if name = 3 then (if p < 4 then none else some (alongAxis (d2 h) 3 u))
    else none
  | _, _ => none

/-- `a + b` of arrays of the same shape. -/
def addArr (a b : Arr K) : Arr K := ⟨a.shape, fun i => a.get i + b.get i⟩

/-- utils_fd.py:203-209 `Laplace_3` for a field (`x1, x2, x3 = x`). -/
def laplaceThree (u : Arr K) (x : List (List K)) : Option (Arr K) :=
  match x with
  | [x1, x2, x3] =>
    match diff2Three u x1 1, diff2Three u x2 2, diff2Three u x3 3 with
    | some a, some b, some c => some (addArr (addArr a b) c)
    | _, _, _ => none
  | _ => none

end Verif.Discover.FD
