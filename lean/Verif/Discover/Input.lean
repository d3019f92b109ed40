import Verif.Discover.Episode
/-!
# Network inputs (kd/model/discover/state_manager.py, controller.py:206-240)
-/
namespace Verif.Discover

/-- `torch.nn.functional.one_hot(v, num_classes=n)`, one entry: raises (`none`) unless `0 ≤ v < n`. -/
def oneHot (n : Int) (v : Int) : Option (List Int) :=
  if 0 ≤ v ∧ v < n then some ((List.range n.toNat).map fun (i : Nat) => if (i : Int) = v then 1 else 0) else none

namespace Lib
/-- library.py:218-220. -/
def nActionInputs (lib : Lib) : Int := lib.L + 1
def nParentInputs (lib : Lib) : Int := (lib.L : Int) + 1 - lib.terminalTokens.length
def nSiblingInputs (lib : Lib) : Int := lib.L + 1
end Lib

/-- `torch.cat(observations, dim=-1)`, one row; an empty list of tensors cannot occur (the constructor asserts that
at least one feature is observed). -/
def catRows : List (Option (List Int)) → Option (List Int)
  | [] => some []
  | none :: _ => none
  | some x :: xs => (catRows xs).map (x ++ ·)

/-- state_manager.py:156-190 `HierarchicalStateManager.get_tensor_input`, one row, `embedding=False`.  `isNumpy`:
the observation is a numpy array, as it is for the initial observation (controller.py:214, 238, 382); then
`dangling.unsqueeze` (line 186) raises AttributeError.  Observations are float32 there; they are integers. -/
def encodeInput (lib : Lib) (f : ObsFlags) (isNumpy : Bool) (o : Obs) : Option (List Int) :=
  catRows <|
    (if f.action then [oneHot lib.nActionInputs o.action] else []) ++
    (if f.parent then [oneHot lib.nParentInputs o.parent] else []) ++
    (if f.sibling then [oneHot lib.nSiblingInputs o.sibling] else []) ++
    (if f.dangling then [if isNumpy then none else some [o.dangling]] else [])

/-- state_manager.py:134-190 with the option `embedding`: the embedding tables are `nn.Parameter`s (139-154), which are called like functions
(165-180): TypeError for every observed category. -/
def encodeManager (lib : Lib) (embedding : Bool) (f : ObsFlags) (isNumpy : Bool) (o : Obs) : Option (List Int) :=
  if embedding then
    catRows <|
      (if f.action then [none] else []) ++ (if f.parent then [none] else []) ++ (if f.sibling then [none] else []) ++
      (if f.dangling then [if isNumpy then none else some [o.dangling]] else [])
  else encodeInput lib f isNumpy o

end Verif.Discover
