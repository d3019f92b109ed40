import Verif.Discover.Fit
import Mathlib.Algebra.Field.Basic
/-!
# DISCOVER, sparse mode: the weak form (`WeakEvaluate`, `weak_form_cal`, `wf_calculate`)

Not modelled: the derivative of the network by automatic differentiation (`ut` below is the derivative of the network with respect to time), the copies between devices,
floating-point rounding.  `leggauss` is a parameter (`Rule`).
-/
namespace Verif.Discover.Weak
open Verif.Discover.Fit

/-- weak_form.py:23 `leggauss(n)`: nodes and weights. -/
structure Rule (K : Type) where
  nodes : List K
  weights : List K

/-- weak_form.py:21-31 `WeakEvaluate.__init__`: the rule and the width of the windows. -/
structure Evaluate (K : Type) where
  rule : Rule K
  L : K

section
variable {K : Type} [Field K]

/-- `np.linspace(lo, hi, num)` -/
def linspace (lo hi : K) : Nat → List K
  | 0 => []
  | 1 => [lo]
  | n + 2 => (List.range (n + 2)).map fun (i : Nat) => lo + (i : K) * ((hi - lo) / ((n + 1 : Nat) : K))

/-- The points of `np.meshgrid(xs, ts)`, flattened: positions run fastest. -/
def mesh (xs ts : List K) : List (K × K) := ts.flatMap fun t => xs.map fun x => (x, t)

/-- weak_form.py:34-66 `reconstruct_input`: the points of the integrals (`xw`, `tw`), the right ends (`x1`, `t1`) and the left ends (`x2`, `t2`) of the windows. -/
def reconstruct (e : Evaluate K) (xLow tLow xUp tUp : K) (xNum tNum : Nat) : List (K × K) × List (K × K) × List (K × K) :=
  let x := linspace xLow xUp xNum
  let t := linspace tLow tUp tNum
  (mesh (x.flatMap fun a => e.rule.nodes.map fun s => a + 1 / 2 * e.L * s) t,
   mesh (x.map fun a => a + 1 / 2 * e.L) t, mesh (x.map fun a => a - 1 / 2 * e.L) t)

/-- `f_value.reshape(-1, n)` (`none`: ValueError). -/
def reshapeRows (n : Nat) (l : List K) : Option (List (List K)) :=
  if n = 0 ∨ l.length % n ≠ 0 then none else some ((List.range (l.length / n)).map fun i => (l.drop (i * n)).take n)

/-- `np.dot` of a row with the weights. -/
def rowDot (r w : List K) : K := (List.zipWith (· * ·) r w).sum

/-- weak_form.py:68-74 `glq_cal` (`none`: ValueError, from the reshape or from `np.dot`). -/
def glq (e : Evaluate K) (f : List K) : Option (List K) :=
  if e.rule.weights.length ≠ e.rule.nodes.length then none
  else (reshapeRows e.rule.nodes.length f).map fun rows => rows.map fun r => 1 / 2 * e.L * rowDot r e.rule.weights

/-- What `weak_form_cal` stores: the points and values of the two fields and the left-hand side. -/
structure Data (K V : Type) where
  x : List (List (K × K))
  u : List (List V)
  ut : List K
  deriving DecidableEq

/-- pde_pinn.py:248-270 `weak_form_cal`; `net`: the value of the network, `dt`: its derivative with respect to time. -/
def weakFormCal {V : Type} (e : Evaluate K) (xLow tLow xUp tUp : K) (xNum tNum : Nat) (net : K → K → V) (dt : K → K → K) : Option (Data K V) :=
  let p := reconstruct e xLow tLow xUp tUp xNum tNum
  (glq e (p.1.map fun q => dt q.1 q.2)).map fun ut =>
    ⟨[p.2.1, p.2.2], [p.2.1.map fun q => net q.1 q.2, p.2.2.map fun q => net q.1 q.2], ut⟩

/-- What an execution of a program gives. -/
inductive Outcome (K : Type) where
  | fitted (f : Fitted K)
  | invalid (error : String)
  | indexError
  | raises

/-- The result of `calculate`/`wf_calculate` as an outcome. -/
def ofResult : Option (Except String (Fitted K)) → Outcome K
  | none => .raises
  | some (.error e) => .invalid e
  | some (.ok f) => .fitted f

/-- program.py:342-349, 378-390 `execute` with an array as left-hand side; `runs`: how a term evaluates on each of the stored fields `u[0]`, `u[1]`, …;
stridge.py:431-434: the second field is looked up after the terms are evaluated on the first. -/
def execute (small large : K → Bool) (lstsq : List (List K) → List K → Option (List K)) (c : Cfg) (wf : Bool) (runs : List (List String → TermVal K))
    (traversal : List String) (terms : List (List String)) (ut : List K) : Outcome K :=
  match runs with
  | [] => .indexError
  | r1 :: rest =>
    if wf then
      match evaluateTerms c r1 traversal terms with
      | .error e => .invalid e
      | .ok _ => match rest with
        | [] => .indexError
        | r2 :: _ => ofResult (wfCalculate small large lstsq c r1 r2 traversal terms ut)
    else ofResult (calculate small large lstsq c r1 traversal terms ut)

/-- pde_pinn.py:107-113, 151, 229-247: the flag `wf_flag` and the fields the task has after `generate_meta_data` (AD, multi_AD or FD): the call of
`weak_form_cal` is commented out, so that the task has the one field of the network with or without `weak_params`. -/
def task {P : Type} (weakParams : Option P) (run : List String → TermVal K) : Bool × List (List String → TermVal K) := (weakParams.isSome, [run])

end
end Verif.Discover.Weak
