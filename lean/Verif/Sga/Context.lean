import Verif.Sga.Naming
import Verif.Sga.GenMut
/-!
# Model of the symbol tables of kd/model/sga/sgapde/context.py
-/
namespace Verif.Sga

/-- What the tables are built from: names of the fields, of the coordinate axes (dict keys, so without duplicates), the
axis order, the left-hand-side axis, the target field, the optional primary axis and the parameter fields. -/
structure Prob where
  fields : List String
  coords : List String
  axes : List String
  lhs : String
  target : String
  primary : Option String
  params : List String
  /-- keys already put into `grad_fields` by the autograd path (context.py:873-930); empty for finite differences -/
  pre : List String
  simple : Bool

/-- `build_derivative_key(field, axis, order=1)` on strings (naming.py:43-49), for names that are already validated. -/
def dkey (f a : String) : String := f ++ "_" ++ a

/-- context.py:251-298 `_validate_registry_names` succeeds. -/
def Prob.namesOk (p : Prob) : Bool :=
  p.axes.all (fun a => validAxis [] a.toList) &&
  p.coords.all (fun a => validAxis [] a.toList) &&
  p.fields.all (fun f => validName [] f.toList) &&
  p.fields.all (fun f => !p.coords.contains f) &&
  p.fields.all (fun f => p.fields.all fun g => p.axes.all fun a => f != dkey g a) &&
  !(decide (p.lhs.length = 1) && p.fields.contains p.target && p.fields.contains (p.target ++ p.lhs)) &&
  !p.fields.contains "ux"

/-- context.py:320-332: the part of `_validate_structured_grid` about names succeeds (shapes: see the grid model). -/
def Prob.gridOk (p : Prob) : Bool :=
  decide p.axes.Nodup && p.axes.all p.coords.contains && p.coords.all p.axes.contains

/-- context.py:79-83: the target field exists. -/
def Prob.targetOk (p : Prob) : Bool := p.fields.contains p.target

/-- context.py:300-318 `_resolve_primary_spatial_axis`. -/
def Prob.primaryAxis (p : Prob) : Option String :=
  let sp := p.axes.filter (· != p.lhs)
  match sp with
  | [] => none
  | s :: _ =>
    match p.primary with
    | some o => if p.axes.contains o && o != p.lhs then some o else none
    | none => some (if sp.contains "x" then "x" else s)

/-- context.py:440-470: the operator tables (payload identifiers are arbitrary but fixed). -/
def opAdd : Entry := ⟨"+", 2, 1⟩
def opSub : Entry := ⟨"-", 2, 2⟩
def opMul : Entry := ⟨"*", 2, 3⟩
def opDiv : Entry := ⟨"/", 2, 4⟩
def opD : Entry := ⟨"d", 2, 5⟩
def opD2 : Entry := ⟨"d^2", 2, 6⟩
def opSq : Entry := ⟨"^2", 1, 7⟩
def opCu : Entry := ⟨"^3", 1, 8⟩

/-- Payload identifiers: which array a name stands for (target of `_build_vars`). -/
structure Pays where
  field : String → Nat
  coord : String → Nat
  param : String → Nat
  zero : Nat
  grad : String → Nat

/-- Inserting keys into a dict, skipping those present (context.py:560-561). -/
def insertKeys (acc : List String) (ks : List String) : List String :=
  ks.foldl (fun acc k => if acc.contains k then acc else acc ++ [k]) acc

/-- context.py:548-572 `_compute_grad_fields`: the keys, in insertion order (a key already present is skipped). -/
def Prob.gradKeys (p : Prob) : List String :=
  insertKeys p.pre (p.fields.flatMap fun f => (p.axes.filter (· != p.lhs)).map fun a => dkey f a)

/-- context.py:972-998 `_build_vars`. -/
def Prob.vars (p : Prob) (w : Pays) (grad : Bool) : List Entry :=
  p.fields.map (fun f => ⟨f, 0, w.field f⟩) ++
  (p.axes.filter (· != p.lhs)).map (fun a => ⟨a, 0, w.coord a⟩) ++
  p.params.map (fun q => ⟨q, 0, w.param q⟩) ++
  [⟨"0", 0, w.zero⟩] ++
  (if grad then p.gradKeys.map fun k => ⟨k, 0, w.grad k⟩ else [])

/-- context.py:473-483: the denominators. -/
def Prob.denTable (p : Prob) (w : Pays) : List Entry := (p.axes.filter (· != p.lhs)).map fun a => ⟨a, 0, w.coord a⟩

/-- The tables (context.py:446-483, 965). -/
def Prob.tables (p : Prob) (w : Pays) : Ctx where
  ROOT := [opMul, opD, opD2, opDiv, opSq, opCu]
  OPS := [opAdd, opSub, opMul, opDiv, opD, opD2, opSq, opCu]
  OP1 := [opSq, opCu]
  OP2 := [opAdd, opSub, opMul, opDiv, opD, opD2]
  VARS := p.vars w true
  den := p.denTable w
  simple := p.simple

/-- The tables after `ProblemContext.__init__` (context.py:22-49, 440-487, 494-515, 960-970), `none` if a name check
raises: registry names, grid names, target field, primary axis, lhs axis in the grid (context.py:509-512), lhs axis
among the denominators, lhs derivatives among the gradients, lhs axis among the variables.  Metadata generation and
edge deletion do not change any name. -/
def Prob.build (p : Prob) (w : Pays) : Option Ctx :=
  if p.namesOk && p.gridOk && p.targetOk && p.primaryAxis.isSome &&
      !(p.denTable w).isEmpty && !((p.denTable w).any fun e => e.name == p.lhs) && p.axes.contains p.lhs &&
      p.fields.all (fun f => !p.gradKeys.contains (dkey f p.lhs)) &&
      !((p.vars w true).any fun e => e.name == p.lhs) then
    some (p.tables w)
  else none

end Verif.Sga
