/-!
# The public data containers of kd.viz (kd/viz/_contracts.py, exported by kd/viz/__init__.py)

The containers of the residual, parity and field figures are in `Viz/Data`; here are the others: the histories, the terms, the time
slices (with NaN), and the forms in which spatial coordinates are accepted.  An array is its shape with its entries in C order.
-/
namespace Verif.Viz.Containers

/-- A float as numpy compares it. -/
inductive Num where
  | nan | ninf | fin (q : Rat) | pinf
deriving DecidableEq, Repr

/-- `<` of two floats (false as soon as one is NaN). -/
def Num.lt : Num → Num → Bool
  | .nan, _ => false
  | _, .nan => false
  | .ninf, .ninf => false
  | .ninf, _ => true
  | _, .ninf => false
  | .pinf, _ => false
  | .fin _, .pinf => true
  | .fin a, .fin b => decide (a < b)

/-- `np.asarray(...)`: shape and entries in C order. -/
structure Arr where
  shape : List Nat
  vals : List Num
deriving DecidableEq, Repr

/-- ValueError, TypeError -/
inductive Exn where
  | value | type
deriving DecidableEq, Repr

/-- _contracts.py:61-68 `OptimizationHistoryData` -/
structure History where
  steps : Arr
  objective : Arr
  complexity : Option Arr
  population : Option Arr
  modules : Option Arr
deriving DecidableEq, Repr

/-- _contracts.py:76-80, 82-86, 88-92, 377-381, 383-387: the check of an optional array. -/
def checkOpt (steps : Arr) : Option Arr → Except Exn (Option Arr)
  | none => .ok none
  | some a => if a.shape ≠ steps.shape then .error .value else .ok (some a)

/-- _contracts.py:70-92 `OptimizationHistoryData.__post_init__` -/
def mkHistory (steps objective : Arr) (complexity population modules : Option Arr) : Except Exn History :=
  if steps.shape ≠ objective.shape then .error .value
  else match checkOpt steps complexity with
    | .error e => .error e
    | .ok c => match checkOpt steps population with
      | .error e => .error e
      | .ok p => match checkOpt steps modules with
        | .error e => .error e
        | .ok m => .ok ⟨steps, objective, c, p, m⟩

/-- _contracts.py:362-368 `RewardEvolutionData` -/
structure Reward where
  steps : Arr
  best : Arr
  max : Option Arr
  mean : Option Arr
deriving DecidableEq, Repr

/-- _contracts.py:370-387 `RewardEvolutionData.__post_init__` -/
def mkReward (steps best : Arr) (max mean : Option Arr) : Except Exn Reward :=
  if steps.shape ≠ best.shape then .error .value
  else match checkOpt steps max with
    | .error e => .error e
    | .ok a => match checkOpt steps mean with
      | .error e => .error e
      | .ok b => .ok ⟨steps, best, a, b⟩

/-- _contracts.py:298-306 `TermContribution`: the values are flattened. -/
structure Term where
  label : String
  values : List Num
  coefficient : Num
deriving DecidableEq, Repr

/-- _contracts.py:305-306 `TermContribution.__post_init__` -/
def mkTerm (label : String) (values : Arr) (coefficient : Num) : Term := ⟨label, values.vals, coefficient⟩

/-- _contracts.py:309-314 `TermRelationshipData` -/
structure Terms where
  lhs : List Num
  label : String
  terms : List Term
deriving DecidableEq, Repr

/-- _contracts.py:321-323: the loop over the terms. -/
def checkTerms (n : Nat) : List Term → Except Exn Unit
  | [] => .ok ()
  | t :: ts => if t.values.length ≠ n then .error .value else checkTerms n ts

/-- _contracts.py:316-323 `TermRelationshipData.__post_init__` -/
def mkTerms (lhs : Arr) (label : String) (terms : List Term) : Except Exn Terms :=
  if terms.isEmpty then .error .value
  else match checkTerms lhs.vals.length terms with
    | .error e => .error e
    | .ok () => .ok ⟨lhs.vals, label, terms⟩

/-- An entry of a list of coordinates: an array, a list or tuple of numbers, a number.  (Nested lists and arrays without axes are
not modelled.) -/
inductive Item where
  | arr (a : Arr)
  | seq (l : List Num)
  | num (q : Num)
deriving DecidableEq, Repr

/-- What is passed as `spatial_coords`: an array, a list or tuple, a number. -/
inductive Coords where
  | arr (a : Arr)
  | list (l : List Item)
  | num (q : Num)
deriving DecidableEq, Repr

/-- `np.asarray` of an entry. -/
def Item.asarray : Item → Arr
  | .arr a => a
  | .seq l => ⟨[l.length], l⟩
  | .num q => ⟨[], [q]⟩

/-- `np.asarray` of a list that begins with a number: numpy refuses a list that goes on with a sequence. -/
def flat : List Item → Except Exn (List Num)
  | [] => .ok []
  | .num q :: l => match flat l with
    | .error e => .error e
    | .ok r => .ok (q :: r)
  | _ :: _ => .error .value

/-- _contracts.py:95-107 `_normalize_spatial_coords` -/
def normalize : Coords → Except Exn (List Arr)
  | .arr a => .ok [a]
  | .list [] => .ok [⟨[0], []⟩]
  | .list (.num q :: l) => match flat (.num q :: l) with
    | .error e => .error e
    | .ok r => .ok [⟨[r.length], r⟩]
  | .list l => .ok (l.map Item.asarray)
  | .num q => .ok [⟨[], [q]⟩]

/-- `a.min()`: NaN as soon as an entry is NaN. -/
def minL : Num → List Num → Num
  | m, [] => m
  | m, v :: l => minL (if m = .nan then .nan else if v = .nan then .nan else if v.lt m then v else m) l

/-- `a.max()` -/
def maxL : Num → List Num → Num
  | m, [] => m
  | m, v :: l => maxL (if m = .nan then .nan else if v = .nan then .nan else if m.lt v then v else m) l

/-- _contracts.py:242-249 `TimeSliceComparisonData` -/
structure Slices where
  coords : List Arr
  t : Arr
  truth : Arr
  predicted : Arr
  times : Arr
deriving DecidableEq, Repr

/-- _contracts.py:263-266: `spatial_coords`, or else `x_coords`. -/
def chosen (spatial x : Option Coords) : Option Coords :=
  match spatial with
  | some c => some c
  | none => x

/-- _contracts.py:251-287 `TimeSliceComparisonData.__init__` -/
def mkSlices (spatial x : Option Coords) (t truth predicted times : Arr) : Except Exn Slices :=
  match chosen spatial x with
  | none => .error .type
  | some c => match normalize c with
    | .error e => .error e
    | .ok axes =>
      if truth.shape ≠ predicted.shape then .error .value
      else if truth.shape ≠ axes.map (fun a => a.vals.length) ++ [t.vals.length] then .error .value
      else match t.vals with
        | [] => .error .value
        | t0 :: ts =>
          if times.vals.any (fun s => s.lt (minL t0 ts)) || times.vals.any (fun s => (maxL t0 ts).lt s) then .error .value
          else .ok ⟨axes, t, truth, predicted, times⟩

end Verif.Viz.Containers
