/-!
# Model of kd/dataset/_base.py: construction of a dataset and its queries

`C` is the type of coordinates, `V` the type of field values.  Python dicts are association lists in insertion order
(keys distinct); exceptions are values of `Err`.  Not modelled: the description object, plotting, reading files (the
contents of a file are an argument), the 'spline' sampling method, objects that are not arrays.
-/
namespace Verif.Data

/-- A numpy array: its shape and its value at every index inside the shape (values outside are meaningless). -/
structure Arr (V : Type) where
  shape : List Nat
  get : List Nat → V

/-- The kind of exception; `unmodelled`: a case outside the model. -/
inductive Err where
  | value | index | type | unmodelled
deriving DecidableEq, Repr

/-- The arguments of `PDEDataset.__init__` (_base.py:282-299) that are used.  Coordinates are given after
`np.asarray(..).flatten()`, the only form in which they are used.  `pdeData` holds `.get("x")`, `.get("t")`, `.get("usol")`. -/
structure Args (C V : Type) where
  pdeData : Option (Option (List C) × Option (List C) × Option (Arr V)) := none
  x : Option (List C) := none
  t : Option (List C) := none
  usol : Option (Arr V) := none
  fields : Option (List (String × Arr V)) := none
  coords : Option (List (String × List C)) := none
  axisOrder : Option (List String) := none
  target : String := "u"
  lhs : String := "t"
  params : Option (List (String × Arr V)) := none

/-- The attributes of a dataset (_base.py:340-372, 477-487). -/
structure DS (C V : Type) where
  x : Option (List C)
  t : Option (List C)
  usol : Arr V
  fields : Option (List (String × Arr V))
  coords : Option (List (String × List C))
  axisOrder : Option (List String)
  target : Option String
  lhs : Option String
  params : List (String × Arr V)

/-- _base.py:374-395 `_init_legacy_mode`.  `re` is `np.real` of one entry; a coordinate missing in `pde_data` becomes the
one-element array `[nan]`, a missing solution the 0-dimensional array of `None` (which the shape check rejects). -/
def initLegacy {C V : Type} (re : V → V) (nan : C) (a : Args C V) : Except Err (DS C V) :=
  let (x, t, u) : List C × List C × Option (Arr V) := match a.pdeData with
    | some (x, t, u) => (x.getD [nan], t.getD [nan], u)
    | none => (a.x.getD [nan], a.t.getD [nan], a.usol)
  match u with
  | none => .error .value
  | some u =>
    if u.shape ≠ [x.length, t.length] then .error .value
    else .ok ⟨some x, some t, ⟨u.shape, fun i => re (u.get i)⟩, none, none, none, none, none, []⟩

/-- _base.py:397-487 `_init_nd_mode`.  `len(axis_order) != len(set(axis_order))` is "has a duplicate"; the two sets of names
are compared by mutual inclusion; more than one shape is "some field's shape differs from the first field's". -/
def initNd {C V : Type} (a : Args C V) : Except Err (DS C V) :=
  match a.fields, a.coords with
  | some fs, some cs =>
    match a.axisOrder with
    | none => .error .value
    | some ax =>
      match fs with
      | [] => .error .value
      | f0 :: fr =>
        if ax = [] then .error .value
        else if ¬ ax.Nodup then .error .value
        else if !(ax.all (fun n => n ∈ cs.map (·.1)) && (cs.map (·.1)).all (fun n => n ∈ ax)) then .error .value
        else match (f0 :: fr).lookup a.target with
        | none => .error .value
        | some u =>
          if a.lhs ∉ ax then .error .value
          else
            let expected := ax.map fun n => ((cs.lookup n).getD []).length
            if fr.any (fun f => f.2.shape ≠ f0.2.shape) then .error .value
            else if f0.2.shape ≠ expected then .error .value
            else .ok ⟨cs.lookup "x", cs.lookup "t", u, some (f0 :: fr), some cs, some ax, some a.target, some a.lhs, []⟩
  | _, _ => .error .value

/-- All the indices inside a shape (row-major). -/
def indices : List Nat → List (List Nat)
  | [] => [[]]
  | n :: s => (List.range n).flatMap fun i => (indices s).map (i :: ·)

/-- _base.py:353-368: the parameter fields are stored one by one; a wrong shape or a non-finite entry raises. -/
def addParams {C V : Type} (fin : V → Bool) (d : DS C V) : List (String × Arr V) → Except Err (DS C V)
  | [] => .ok d
  | (n, p) :: r =>
    if p.shape ≠ d.usol.shape then .error .value
    else if !((indices p.shape).all fun i => fin (p.get i)) then .error .value
    else addParams fin { d with params := d.params ++ [(n, p)] } r

/-- _base.py:282-372 `PDEDataset.__init__`. -/
def construct {C V : Type} (re : V → V) (fin : V → Bool) (nan : C) (a : Args C V) : Except Err (DS C V) :=
  let base :=
    if a.fields.isSome || a.coords.isSome then initNd a
    else if a.pdeData.isSome || (a.x.isSome && a.t.isSome && a.usol.isSome) then initLegacy re nan a
    else .error .value
  match base with
  | .error e => .error e
  | .ok d => addParams fin d (a.params.getD [])

/-! ## Queries -/

/-- `a[i0, …, ik]` with natural indices: the remaining array, or IndexError. -/
def Arr.index {V : Type} (a : Arr V) (idx : List Nat) : Except Err (Arr V) :=
  if idx.length ≤ a.shape.length ∧ (idx.zip a.shape).all (fun p => p.1 < p.2) then
    .ok ⟨a.shape.drop idx.length, fun r => a.get (idx ++ r)⟩
  else .error .index

/-- _base.py:489-499 `get_datapoint` (`len(None)` raises TypeError). -/
def getDatapoint {C V : Type} (d : DS C V) (xi ti : Int) : Except Err (C × C × Arr V) :=
  match d.x, d.t with
  | some x, some t =>
    if ¬ (0 ≤ xi ∧ xi < x.length) ∨ ¬ (0 ≤ ti ∧ ti < t.length) then .error .index
    else
      match x[xi.toNat]?, t[ti.toNat]?, d.usol.index [xi.toNat, ti.toNat] with
      | some a, some b, .ok v => .ok (a, b, v)
      | _, _, .error e => .error e
      | _, _, _ => .error .index
  | _, _ => .error .type

/-- `np.searchsorted(l, v)` (side 'left') on a sorted list: the number of entries below `v`.  On a list that is not sorted
numpy's answer is unspecified and this is not a model of it. -/
def searchsorted (l : List Rat) (v : Rat) : Nat := l.countP (fun c => decide (c < v))

/-- `l[a:b]` with natural bounds. -/
def slice {α : Type} (l : List α) (a b : Nat) : List α := (l.take b).drop a

/-- Index shift of a slice in the first two dimensions. -/
def shift2 {V : Type} (get : List Nat → V) (a0 a1 : Nat) : List Nat → V
  | i0 :: i1 :: r => get ((a0 + i0) :: (a1 + i1) :: r)
  | i => get i

/-- `u[a0:b0, a1:b1]`; fewer than two dimensions: IndexError. -/
def Arr.slice2 {V : Type} (u : Arr V) (a0 b0 a1 b1 : Nat) : Except Err (Arr V) :=
  match u.shape with
  | n0 :: n1 :: s => .ok ⟨(min b0 n0 - a0) :: (min b1 n1 - a1) :: s, shift2 u.get a0 a1⟩
  | _ => .error .index

/-- _base.py:606-619 `get_range`. -/
def getRange {V : Type} (d : DS Rat V) (xr tr : Rat × Rat) : Except Err (List Rat × List Rat × Arr V) :=
  match d.x, d.t with
  | some x, some t =>
    let x0 := searchsorted x xr.1
    let x1 := searchsorted x xr.2
    let t0 := searchsorted t tr.1
    let t1 := searchsorted t tr.2
    match d.usol.slice2 x0 x1 t0 t1 with
    | .ok u => .ok (slice x x0 x1, slice t t0 t1, u)
    | .error e => .error e
  | _, _ => .error .type

/-- The `n_samples` argument. -/
inductive Count where
  | int (z : Int)
  | float (q : Rat)

/-- _base.py:519-521: a float strictly between 0 and 1 is a ratio (exact arithmetic: the float product is rounded). -/
def Count.resolve (total : Nat) : Count → Count
  | .float q => if 0 < q ∧ q < 1 then .int (((total : Rat) * q).floor) else .float q
  | c => c

/-- `n_samples > total_points` -/
def Count.gt (total : Nat) : Count → Bool
  | .int z => decide (z > total)
  | .float q => decide (q > (total : Rat))

/-- `int(np.sqrt(n))`: the largest `g` with `g * g ≤ n` (ValueError for a negative number: `int(nan)`). -/
def isqrt (n : Nat) : Nat := ((List.range (n + 1)).filter fun g => decide (g * g ≤ n)).getLastD 0

/-- The grid size of the uniform method. -/
def Count.grid : Count → Except Err Nat
  | .int z => if z < 0 then .error .value else .ok (isqrt z.toNat)
  | .float q => if q < 0 then .error .value else .ok (isqrt q.floor.toNat)

/-- Fancy indexing `l[idx]`. -/
def takeIdx {α : Type} (l : List α) (idx : List Nat) : Except Err (List α) :=
  match idx with
  | [] => .ok []
  | i :: r => match l[i]?, takeIdx l r with
    | some a, .ok as => .ok (a :: as)
    | none, _ => .error .index
    | _, .error e => .error e

/-- `u[idx0, idx1]` (two index lists of equal length) on a 2-D array. -/
def takeIdx2 {V : Type} (u : Arr V) (n0 n1 : Nat) : List (Nat × Nat) → Except Err (List V)
  | [] => .ok []
  | (i, j) :: r =>
    if i < n0 ∧ j < n1 then
      match takeIdx2 u n0 n1 r with
      | .ok vs => .ok (u.get [i, j] :: vs)
      | .error e => .error e
    else .error .index

/-- The common tail of the two grid methods: coordinates and values at the positions. -/
def gather {C V : Type} (x t : List C) (u : Arr V) (n0 n1 : Nat) (pos : List (Nat × Nat)) : Except Err (List (C × C) × List V) :=
  match takeIdx x (pos.map (·.1)), takeIdx t (pos.map (·.2)), takeIdx2 u n0 n1 pos with
  | .ok xs, .ok ts, .ok vs => .ok (xs.zip ts, vs)
  | .error e, _, _ => .error e
  | _, .error e, _ => .error e
  | _, _, .error e => .error e

/-- _base.py:507-556 `sample`.  `draw` is the outcome of `np.random.choice(total, n, replace=False)`, `linX`, `linT` the two
integer `np.linspace` results; `np.meshgrid(x_indices, t_indices)` flattened runs through the x indices for each t index.
A float size makes `choice` raise TypeError; a negative one ValueError. -/
def sample {C V : Type} (d : DS C V) (n : Count) (method : String) (draw linX linT : List Nat) :
    Except Err (List (C × C) × List V) :=
  match d.x, d.t with
  | some x, some t =>
    let total := x.length * t.length
    let n := n.resolve total
    if n.gt total then .error .value
    else if method = "random" then
      match n with
      | .float _ => .error .type
      | .int z =>
        if z < 0 then .error .value
        else match d.usol.shape with
        | [n0, n1] => gather x t d.usol n0 n1 (draw.map fun k => (k / n1, k % n1))
        | _ => .error .value
    else if method = "uniform" then
      match n.grid with
      | .error e => .error e
      | .ok _ => match d.usol.shape with
        | [n0, n1] => gather x t d.usol n0 n1 (linT.flatMap fun j => linX.map fun i => (i, j))
        | _ => .error .unmodelled
    else if method = "spline" then .error .unmodelled
    else .error .value
  | _, _ => .error .type

/-- _base.py:558-566 `mesh` (`ij`: indexing 'ij', otherwise 'xy'). -/
def mesh {C V : Type} (d : DS C V) (ij : Bool) : Except Err (List (C × C)) :=
  match d.x, d.t with
  | some x, some t =>
    .ok (if ij then x.flatMap fun a => t.map fun b => (a, b) else t.flatMap fun b => x.map fun a => (a, b))
  | _, _ => .error .type

/-- `usol.ravel()` -/
def Arr.ravel {V : Type} (u : Arr V) : List V := (indices u.shape).map u.get

/-- `a.min()` / `a.max()` (ValueError on an empty array). -/
def minimum : List Rat → Except Err Rat
  | [] => .error .value
  | a :: r => .ok (r.foldl min a)
def maximum : List Rat → Except Err Rat
  | [] => .error .value
  | a :: r => .ok (r.foldl max a)

/-- One axis of `get_boundaries`. -/
def bounds (c : List Rat) : Except Err (Rat × Rat) :=
  match minimum c, maximum c with
  | .ok a, .ok b => .ok (a, b)
  | .error e, _ => .error e
  | _, .error e => .error e

/-- _base.py:573-586 `get_boundaries`. -/
def getBoundaries {V : Type} (d : DS Rat V) : Except Err (List (String × Rat × Rat)) :=
  let named : Except Err (List (String × List Rat)) := match d.coords with
    | some cs => .ok cs
    | none => match d.x, d.t with
      | some x, some t => .ok [("x", x), ("t", t)]
      | _, _ => .error .type
  match named with
  | .error e => .error e
  | .ok cs => cs.mapM fun p => match bounds p.2 with
    | .ok b => Except.ok (p.1, b)
    | .error e => .error e

/-- _base.py:568-571 `mesh_bounds`: the column-wise minimum and maximum of the mesh. -/
def meshBounds {V : Type} (d : DS Rat V) (ij : Bool) : Except Err ((Rat × Rat) × (Rat × Rat)) :=
  match mesh d ij with
  | .error e => .error e
  | .ok m => match bounds (m.map (·.1)), bounds (m.map (·.2)) with
    | .ok a, .ok b => .ok ((a.1, b.1), (a.2, b.2))
    | .error e, _ => .error e
    | _, .error e => .error e

/-- `np.gradient` along one axis with unit spacing: entry `i` of `n`, `f` the values along the axis. -/
def gradAt (n : Nat) (f : Nat → Rat) (i : Nat) : Rat :=
  if i = 0 then f 1 - f 0 else if i + 1 = n then f (n - 1) - f (n - 2) else (f (i + 1) - f (i - 1)) / 2

/-- _base.py:592-604 `get_derivative` (2-D solutions; `np.gradient` needs two points along the axis). -/
def getDerivative {C : Type} (d : DS C Rat) (axis : String) : Except Err (Arr Rat) :=
  match d.usol.shape with
  | [n0, n1] =>
    if axis = "x" then
      if n0 < 2 then .error .value
      else .ok ⟨[n0, n1], fun i => match i with
        | [i, j] => gradAt n0 (fun k => d.usol.get [k, j]) i
        | _ => 0⟩
    else if axis = "t" then
      if n1 < 2 then .error .value
      else .ok ⟨[n0, n1], fun i => match i with
        | [i, j] => gradAt n1 (fun k => d.usol.get [i, k]) j
        | _ => 0⟩
    else .error .value
  | _ => .error .unmodelled

/-- `u.T` of a 2-D array. -/
def Arr.transpose2 {V : Type} (u : Arr V) : Arr V :=
  ⟨u.shape.reverse, fun i => u.get i.reverse⟩

/-- _base.py:701-771 `load_pde_dataset`, the part after reading the file into a dict: every exception makes it return `None`
(missing keys included). `vars` gives the flattened coordinate arrays, `arrs` the solution arrays of the file. -/
def loadPde {C V : Type} (re : V → V) (fin : V → Bool) (nan : C) (vars : List (String × List C)) (arrs : List (String × Arr V))
    (xKey tKey uKey : String) : Option (DS C V) :=
  match vars.lookup xKey, vars.lookup tKey, arrs.lookup uKey with
  | some x, some t, some u =>
    let u := if u.shape = [t.length, x.length] then u.transpose2 else u
    match construct re fin nan { x := some x, t := some t, usol := some u } with
    | .ok d => some d
    | .error _ => none
  | _, _, _ => none

end Verif.Data
