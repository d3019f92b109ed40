import Verif.Discover.Violation
/-!
# The generic whole-sequence check of a constraint (kd/model/discover/dso/prior.py:313-358)

`Constraint.is_violated`, which `test_is_violated` runs for every constraint: the mask is computed for every position with the mask value 1.  One action row.
The mask value of the object stays 1 afterwards.
-/
namespace Verif.Discover

/-- prior.py:283-311 `make_constraint` with the mask value `m` of the object (`none`: `-inf`, as `Prior.__init__` leaves it, 221-224). -/
def makeWith (m : Logit) (mask : Bool) (tokens : List Nat) (t : Nat) : Logit := if mask && tokens.contains t then m else some 0

/-- prior.py:388-435 with the mask value `m`. -/
def Relational.callWith (m : Logit) (lib : Lib) (c : Relational) (actions : List Nat) (parent : Int) (sibling : Nat) (t : Nat) : Logit :=
  let adjE := c.effectors.map lib.parentAdjust
  match c.rel with
  | .descendant => makeWith m (ancestors lib.arity c.effectors actions) c.targets t
  | .child => makeWith m (adjE.contains parent) c.targets t
  | .sibling => Logit.add (makeWith m (c.effectors.contains sibling) c.targets t) (makeWith m (c.targets.contains sibling) c.effectors t)
  | .uchild =>
    let adjU := (c.effectors.filter fun e => lib.unaryTokens.contains e).map lib.parentAdjust
    makeWith m (adjU.contains parent || (c.targets.contains sibling && adjE.contains parent)) c.targets t
  | .lchild => makeWith m (adjE.contains parent && (sibling == lib.L)) c.targets t
  | .rchild => makeWith m (adjE.contains parent && decide (sibling < lib.L)) c.targets t

/-- prior.py:855-894 with the mask value `m`. -/
def lengthWith (m : Logit) (lib : Lib) (min max : Option Nat) (k : Nat) (dangling : Int) (t : Nat) : Logit :=
  let a : Logit := match max with
    | none => some 0
    | some mx =>
      if k + 1 ≥ mx / 2 then
        Logit.add (makeWith m (decide (dangling ≥ (mx : Int) - k - 1)) lib.binaryTokens t) (makeWith m (decide (dangling = (mx : Int) - k)) lib.unaryTokens t)
      else some 0
  let b : Logit := match min with
    | none => some 0
    | some mn => if k + 1 < mn then makeWith m (decide (dangling = 1)) lib.terminalTokens t else some 0
  Logit.add a b

/-- The hard constraints that call `make_constraint` of their own object. -/
inductive Hard where
  | relational (c : Relational)
  | length (min max : Option Nat)
  | repeat (tokens : List Nat) (max : Nat)
  | noInputs

/-- The constraint as a prior of the joint prior. -/
def Hard.prior : Hard → Prior
  | .relational c => .relational c
  | .length mn mx => .length mn mx
  | .repeat toks mx => .repeat toks mx
  | .noInputs => .noInputs

/-- `prior.__call__(actions, parent, sibling, dangling)[t]` with the mask value `m` of the object. -/
def Hard.callWith (m : Logit) (lib : Lib) (p : Hard) (actions : List Nat) (parent : Int) (sibling : Nat) (dangling : Int) (t : Nat) : Logit :=
  match p with
  | .relational c => c.callWith m lib actions parent sibling t
  | .length mn mx => lengthWith m lib mn mx actions.length dangling t
  | .repeat toks mx => makeWith m (decide ((actions.filter fun a => toks.contains a).length ≥ mx)) toks t
  | .noInputs =>
    makeWith m (decide (dangling = 1) && decide ((actions.filter fun a => lib.stateTokens.contains a).length = 0)) lib.nonStateTokens t

/-- prior.py:339-349: the loop over the positions from `t`; `dangling` already counts the positions before. -/
def genericLoop (lib : Lib) (p : Hard) (actions : List Nat) (parent : List Int) (sibling : List Nat) : Nat → Int → List Nat → Bool
  | _, _, [] => false
  | t, dangling, a :: as =>
    let d := dangling + ((lib.arity a : Int) - 1)
    if p.callWith (some 1) lib (actions.take t) (parent.getD t 0) (sibling.getD t 0) d a ≠ some 0 then true
    else genericLoop lib p actions parent sibling (t + 1) d as

/-- prior.py:313-351 `Constraint.is_violated` on an object with the mask value `m`: the answer and the mask value afterwards (337). -/
def genericCheck (lib : Lib) (p : Hard) (_m : Logit) (actions : List Nat) (parent : List Int) (sibling : List Nat) : Bool × Logit :=
  (genericLoop lib p actions parent sibling 0 1 actions, some 1)

end Verif.Discover
