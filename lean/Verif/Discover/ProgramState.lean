import Verif.Discover.Spec
import Mathlib.Analysis.SpecialFunctions.Pow.Real
/-!
# Copies of programs, several objects, SymPy trees (kd/model/discover/program.py)
-/
namespace Verif.Discover.ProgramState

/-! ### Copying and pickling (program.py:295-346) -/

/-- The attributes of a `Program` that copying touches.  `R`: rewards, `W`: coefficients, `M`: what `evaluate` returns, `V`: constants (a
placeholder without value is `none`). -/
structure Prog (R W M V : Type) where
  tokens : List Nat
  consts : List (Option V)
  /-- the cached `r_ridge` -/
  reward : Option R
  /-- the coefficients `w` set with it -/
  w : Option W
  /-- the cached `evaluate` -/
  metrics : Option M
  invalid : Bool
  /-- `error_node` and `error_type` (`none`: the attribute is None) -/
  error : Option (String × String)
  onCount : Nat
  offCount : Nat
  originallyOn : Bool

/-- program.py:242-265 `_init` (the parts modelled); `nConst` is the number of placeholder constants among the tokens. -/
def fresh {R W M V : Type} (nConst : List Nat → Nat) (tokens : List Nat) (on : Bool) : Prog R W M V :=
  ⟨tokens, List.replicate (nConst tokens) none, none, none, none, false, none, if on then 1 else 0, if on then 0 else 1, on⟩

/-- program.py:295-317: the dictionary.  There is no attribute `r` (the reward is called `r_ridge`), so `have_r` is False. -/
structure State (M V : Type) where
  tokens : List Nat
  metrics : Option M
  consts : List V
  onCount : Bool
  offCount : Bool
  originallyOn : Bool
  invalid : Bool
  error : String × String

/-- program.py:299, 306: the constants, if the program has been evaluated. -/
def constState {R W M V : Type} (p : Prog R W M V) : Option (List V) := if p.metrics.isSome then p.consts.mapM id else some []

/-- program.py:311-312: the error texts of an invalid program. -/
def errorState {R W M V : Type} (p : Prog R W M V) : Option (String × String) := if p.invalid then p.error else some ("", "")

/-- program.py:295-317 `__getstate__`; `none`: an exception (a constant without value, or an invalid program without error text). -/
def getState {R W M V : Type} (p : Prog R W M V) : Option (State M V) := do
  let consts ← constState p
  let error ← errorState p
  some ⟨p.tokens, p.metrics, consts, p.onCount != 0, p.offCount != 0, p.originallyOn, p.invalid, error⟩

/-- `bool` stored as a count. -/
def boolCount (b : Bool) : Nat := if b then 1 else 0

/-- program.py:319-340 `__setstate__`. -/
def setState {R W M V : Type} (nConst : List Nat → Nat) (s : State M V) : Prog R W M V :=
  let p : Prog R W M V := fresh nConst s.tokens s.originallyOn
  if s.metrics.isSome then
    { p with metrics := s.metrics, consts := s.consts.map some, invalid := s.invalid, error := some s.error,
             onCount := boolCount s.onCount, offCount := boolCount s.offCount }
  else p

/-- `copy.copy`, `copy.deepcopy` (aggregator.py:81, 182) and pickling: the state of one object given to a new one. -/
def copyProg {R W M V : Type} (nConst : List Nat → Nat) (p : Prog R W M V) : Option (Prog R W M V) :=
  (getState p).map (setState nConst)

/-! ### Several objects (program.py:266-283) -/

/-- program.py:266-283: `sum` is `dangling - 1`, `danglings` the values not met yet, `cur` the tokens since the last cut. -/
def splitLoop (ar : Nat → Nat) : List Nat → Int → List Int → List Nat → List (List Nat)
  | [], _, _, _ => []
  | x :: xs, sum, danglings, cur =>
    if sum + ((ar x : Int) - 1) ∈ danglings then
      (cur ++ [x]) :: splitLoop ar xs (sum + ((ar x : Int) - 1)) (danglings.filter (· ≠ sum + ((ar x : Int) - 1))) []
    else splitLoop ar xs (sum + ((ar x : Int) - 1)) danglings (cur ++ [x])

/-- program.py:266-283: `traversals` of a program with `n` objects. -/
def splitObjects (ar : Nat → Nat) (n : Nat) (traversal : List Nat) : List (List Nat) :=
  splitLoop ar traversal 0 ((List.range n).map (fun (k : Nat) => -((k : Int) + 1))) []

/-! ### SymPy trees (program.py:735-772, stridge.py:70-96, 164-179) -/

/-- stridge.py:74-96 `Node`. -/
inductive SNode where
  | node (val : String) (children : List SNode)

/-- stridge.py:70, 169-171: the names SymPy capitalises. -/
def capitalised (n : String) : String :=
  if n = "add" then "Add" else if n = "mul" then "Mul" else if n = "pow" then "Pow" else n

/-- stridge.py:164-179 `build_tree`, given the tree of the traversal labelled with `repr` of its tokens (that the tree is the right one is C02). -/
def build : SNode → SNode
  | .node v cs => .node (capitalised v) (cs.attach.map fun ⟨c, _⟩ => build c)

def leaf (s : String) : SNode := .node s []

/-- program.py:738-766: the change at one node.  (`children[1]` of a node with one child would raise; binary operators have two.) -/
def convertTop (val : String) (cs : List SNode) : SNode :=
  match val, cs with
  | "div", [a, b] => .node "Mul" [a, .node "Pow" [b, leaf "-1"]]
  | "sub", [a, b] => .node "Add" [a, .node "Mul" [b, leaf "-1"]]
  | "inv", [a] => .node "Pow" [a, leaf "-1"]
  | "neg", [a] => .node "Mul" [a, leaf "-1"]
  | "n2", [a] => .node "Pow" [a, leaf "2"]
  | "n3", [a] => .node "Pow" [a, leaf "3"]
  | "n4", [a] => .node "Pow" [a, leaf "4"]
  | v, cs => .node v cs

/-- program.py:735-772 `convert_to_sympy`.  The code changes a node first and its children afterwards; the nodes it inserts (`Pow`, `Mul`, numbers) are
not changed by that, so the children may as well be converted first. -/
def convert : SNode → SNode
  | .node v cs => convertTop v (cs.attach.map fun ⟨c, _⟩ => convert c)

/-- stridge.py:88-94 `Node.__repr__`. -/
def SNode.text : SNode → String
  | .node v [] => v
  | .node v (c :: cs) => v ++ "(" ++ String.intercalate "," ((c :: cs).attach.map fun ⟨d, _⟩ => SNode.text d) ++ ")"

end Verif.Discover.ProgramState
