import Mathlib.Algebra.Field.Rat
import Mathlib.Algebra.Order.Ring.Rat
import Mathlib.Data.Rat.Floor
/-!
# kd.utils: finite differences and the attribute dictionary (kd/utils/{utils_fd,solver,attrdict}.py)

Numbers are rationals (no rounding); `none` is an exception.
-/
namespace Verif.Utils

/-! ## `FiniteDiff` -/

/-- utils_fd.py:52-56: entry `i` of order 1. -/
def first1 (u : Nat → ℚ) (n : Nat) (dx : ℚ) (i : Nat) : ℚ :=
  if i = 0 then (-3 * u 0 + 4 * u 1 - u 2) / (2 * dx)
  else if i = n - 1 then (3 * u (n - 1) - 4 * u (n - 2) + u (n - 3)) / (2 * dx)
  else (u (i + 1) - u (i - 1)) / (2 * dx)

/-- utils_fd.py:57-61: entry `i` of order 2. -/
def second1 (u : Nat → ℚ) (n : Nat) (dx : ℚ) (i : Nat) : ℚ :=
  if i = 0 then (2 * u 0 - 5 * u 1 + 4 * u 2 - u 3) / dx ^ 2
  else if i = n - 1 then (2 * u (n - 1) - 5 * u (n - 2) + 4 * u (n - 3) - u (n - 4)) / dx ^ 2
  else (u (i + 1) - 2 * u i + u (i - 1)) / dx ^ 2

/-- utils_fd.py:62-66: entry `i` of order 3; zero at the two points of each end. -/
def third1 (u : Nat → ℚ) (n : Nat) (dx : ℚ) (i : Nat) : ℚ :=
  if i < 2 ∨ n ≤ i + 2 then 0 else (-u (i + 2) + 2 * u (i + 1) - 2 * u (i - 1) + u (i - 2)) / (2 * dx ^ 3)

/-- utils_fd.py:67-71: entry `i` of order 4; zero at the two points of each end. -/
def fourth1 (u : Nat → ℚ) (n : Nat) (dx : ℚ) (i : Nat) : ℚ :=
  if i < 2 ∨ n ≤ i + 2 then 0 else (u (i + 2) - 4 * u (i + 1) + 6 * u i - 4 * u (i - 1) + u (i - 2)) / dx ^ 4

/-- utils_fd.py:16-73 `FiniteDiff` of a vector; an order that is not supported leaves the zeros; too few points for the ends raise
IndexError. -/
def finiteDiff (u : List ℚ) (dx : ℚ) (order : Int) : Option (List ℚ) :=
  let f := fun i => u.getD i 0
  let n := u.length
  if order = 1 then (if n < 3 then none else some ((List.range n).map (first1 f n dx)))
  else if order = 2 then (if n < 4 then none else some ((List.range n).map (second1 f n dx)))
  else if order = 3 then some ((List.range n).map (third1 f n dx))
  else if order = 4 then some ((List.range n).map (fourth1 f n dx))
  else some (List.replicate n 0)

/-! ## `FiniteDifferenceOperator` -/

/-- A two-dimensional array: rows, columns, entries, and whether the entries are integers. -/
structure Arr where
  n : Nat
  m : Nat
  int : Bool
  get : Nat → Nat → ℚ

/-- Storing a number into an integer array cuts it towards zero. -/
def store (int : Bool) (q : ℚ) : ℚ := if int then (if 0 ≤ q then (⌊q⌋ : ℚ) else (⌈q⌉ : ℚ)) else q

/-- solver.py:17-23 `_finite_diff_1st`: what is written to row `i`, column `j`. -/
def row1 (u : Arr) (dx : ℚ) (i j : Nat) : ℚ :=
  store u.int (if i = 0 then (-3 / 2 * u.get 0 j + 2 * u.get 1 j - 1 / 2 * u.get 2 j) / dx
    else if i = u.n - 1 then (3 / 2 * u.get (u.n - 1) j - 2 * u.get (u.n - 2) j + 1 / 2 * u.get (u.n - 3) j) / dx
    else (u.get (i + 1) j - u.get (i - 1) j) / (2 * dx))

/-- solver.py:25-31 `_finite_diff_2nd`. -/
def row2 (u : Arr) (dx : ℚ) (i j : Nat) : ℚ :=
  store u.int (if i = 0 then (2 * u.get 0 j - 5 * u.get 1 j + 4 * u.get 2 j - u.get 3 j) / dx ^ 2
    else if i = u.n - 1 then (2 * u.get (u.n - 1) j - 5 * u.get (u.n - 2) j + 4 * u.get (u.n - 3) j - u.get (u.n - 4) j) / dx ^ 2
    else (u.get (i + 1) j - 2 * u.get i j + u.get (i - 1) j) / dx ^ 2)

/-- The operator object: its data, the arrays it has handed out or works on (numbered), and the number of `self.ux`. -/
structure Operator where
  u : Arr
  dx : ℚ
  arrays : List Arr
  ux : Nat

/-- solver.py:4-15 `__init__`: `ux` is a new array of the kind of `u`. -/
def Operator.new (u : Arr) (dx : ℚ) : Operator := ⟨u, dx, [{ u with get := fun _ _ => 0 }], 0⟩

/-- Writing into the array `self.ux`. -/
def Operator.write (o : Operator) (g : Nat → Nat → ℚ) : Operator := { o with arrays := o.arrays.set o.ux { o.u with get := g } }

/-- `self.ux = temp.ux`: a new array. -/
def Operator.rebind (o : Operator) (g : Nat → Nat → ℚ) : Operator := { o with arrays := o.arrays ++ [{ o.u with get := g }], ux := o.arrays.length }

/-- solver.py:33-68 `_finite_diff_3rd`, `_finite_diff_4th`, `compute`: the operator afterwards; the result is the array with the number `ux`.  Too few rows raise IndexError, other
orders ValueError (`none`; what was written before an IndexError is left out). -/
def Operator.compute (o : Operator) (order : Int) : Option Operator :=
  if order = 1 then (if o.u.n < 3 then none else some (o.write (row1 o.u o.dx)))
  else if order = 2 then (if o.u.n < 4 then none else some (o.write (row2 o.u o.dx)))
  else if order = 3 then (if o.u.n < 4 then none else
    some ((o.write (row2 o.u o.dx)).rebind (row1 { o.u with get := row2 o.u o.dx } o.dx)))
  else if order = 4 then (if o.u.n < 4 then none else
    some ((o.write (row2 o.u o.dx)).rebind (row2 { o.u with get := row2 o.u o.dx } o.dx)))
  else none

/-- The array handed out last. -/
def Operator.result (o : Operator) : Option Arr := o.arrays[o.ux]?

/-- solver.py:69-79 `diff` -/
def diff (u : Arr) (dx : ℚ) (order : Int) : Option Arr := ((Operator.new u dx).compute order).bind Operator.result

/-! ## `Attrdict` -/

/-- What an attribute read gives: a value of the dictionary, or what every dictionary has under that name (methods, `_internal_dict`). -/
inductive Got (V : Type) where
  | val (v : V)
  | builtin
deriving DecidableEq

/-- The operations on the dictionary; `true` for the key notation, `false` for the attribute notation. -/
inductive AOp (V : Type) where
  | set (key : Bool) (k : String) (v : V)
  | del (key : Bool) (k : String)

/-- `self[k] = v` -/
def put {V : Type} (d : List (String × V)) (k : String) (v : V) : List (String × V) :=
  if (d.lookup k).isSome then d.map fun e => if e.1 = k then (k, v) else e else d ++ [(k, v)]

/-- attrdict.py:40-56 `__setattr__`, `__delattr__` and the operations of `dict`; `none`: KeyError or AttributeError, the dictionary stays. -/
def apply {V : Type} (d : List (String × V)) : AOp V → Option (List (String × V))
  | .set _ k v => some (put d k v)
  | .del _ k => if (d.lookup k).isSome then some (d.filter fun e => e.1 != k) else none

/-- attrdict.py:28-38 `__getattr__`, which Python asks only for names that are not found otherwise (`builtin`). -/
def getAttr {V : Type} (builtin : String → Bool) (d : List (String × V)) (k : String) : Option (Got V) :=
  if builtin k then some .builtin else (d.lookup k).map .val

/-- A history of operations; failing ones are caught. -/
def runOps {V : Type} (d : List (String × V)) (ops : List (AOp V)) : List (String × V) := ops.foldl (fun d o => (apply d o).getD d) d

end Verif.Utils
