import Mathlib.Algebra.Order.Ring.Rat
import Mathlib.Algebra.Order.Ring.Abs
import Mathlib.Algebra.Field.Rat
import Mathlib.Data.List.Sort
import Verif.Dataset.Base
import Verif.Discover.Diff
/-!
# The DISCOVER adapters (kd/model/discover/adapter.py) and kd/data.py `SparseData`

Numbers are rationals (floating-point rounding is not modelled); `fin` tells which entries are finite.  Random draws, the Latin hypercube
and the noise are arguments.  Not modelled: the lookup of `sym_true` (a parameter of the result that nothing else reads), `isinstance` checks.
-/
namespace Verif.Discover.Adapter
open Verif.Data

/-! ## Arrays -/

/-- `np.transpose(u, perm)`: entry `idx` of the result is the entry of `u` whose index at axis `perm[k]` is `idx[k]`. -/
def transpose {V : Type} (u : Arr V) (perm : List Nat) : Arr V :=
  ⟨perm.map fun a => (u.shape[a]?).getD 0,
   fun idx => u.get ((List.range u.shape.length).map fun a => (idx[perm.idxOf a]?).getD 0)⟩

/-- `np.allclose(dt, dt[0])` (`rtol = 1e-5`, `atol = 1e-8`). -/
def close (a b : ℚ) : Bool := decide (|a - b| ≤ 1 / 100000000 + 1 / 100000 * |b|)

/-- `np.diff`. -/
def diffs (c : List ℚ) : List ℚ := List.zipWith (fun a b => b - a) c c.tail

/-- `np.all(np.isfinite(u))`. -/
def allFinite (fin : ℚ → Bool) (u : Arr ℚ) : Bool := (indices u.shape).all fun i => fin (u.get i)

/-- The parameter-field entries of the result (None when the data set has no parameter fields). -/
abbrev Params := List (String × Arr ℚ)

/-! ## `DiscoverRegularAdapter` -/

/-- The dictionary built by the regular adapter (without `sym_true`). -/
structure Regular where
  u : Arr ℚ
  ut : Arr ℚ
  X : List (List ℚ)
  nInput : Nat
  params : Params

/-- adapter.py:81-93, 198-217: checks of the time coordinates; the step. -/
def timeStep (enforce : Bool) (t : List ℚ) : Except Err ℚ :=
  if t.length < 3 then .error .value
  else match diffs t with
    | [] => .error .value
    | d :: ds =>
      if enforce && !((d :: ds).all fun a => close a d) then .error .value
      else if d = 0 then .error .value
      else .ok d

/-- adapter.py:64-130 `_prepare_legacy`. -/
def regularLegacy (fin : ℚ → Bool) (enforce : Bool) (nInput : Option Nat) (d : DS ℚ ℚ) : Except Err Regular :=
  match d.x, d.t with
  | some x, some t =>
    if d.usol.shape ≠ [x.length, t.length] then .error .value
    else if !allFinite fin d.usol then .error .value
    else match timeStep enforce t with
    | .error e => .error e
    | .ok dt =>
      let ut := FD.alongAxis (FD.d1 dt) 1 d.usol
      if nInput.any (· != 1) then .error .value
      else .ok ⟨d.usol, ut, [x], 1, d.params⟩
  | _, _ => .error .type

/-- adapter.py:180-196: the checks of one space axis; `size` is its length in the permuted array. -/
def spatialOk (size : Nat) (c : List ℚ) : Bool := !decide (size < 4) && (diffs c).all fun a => !close a 0

/-- adapter.py:136-267 `_prepare_nd`.  `coords_1d[a]` of a missing name raises KeyError (not possible for a constructed data set). -/
def regularNd (fin : ℚ → Bool) (enforce : Bool) (nInput : Option Nat) (d : DS ℚ ℚ) (fs : List (String × Arr ℚ))
    (cs : List (String × List ℚ)) : Except Err Regular :=
  let ax := d.axisOrder.getD []
  let target := d.target.getD "u"
  let lhs := d.lhs.getD "t"
  match fs.lookup target with
  | none => .error .index
  | some uRaw =>
    if !allFinite fin uRaw then .error .value
    else if lhs ∉ ax then .error .value
    else
      let spatial := ax.filter (· != lhs)
      if spatial.length < 2 ∨ spatial.length > 3 then .error .value
      else
        let perm := (lhs :: spatial).map fun a => ax.idxOf a
        let u := transpose uRaw perm
        if !((spatial.zipIdx).all fun p => spatialOk ((u.shape[p.2 + 1]?).getD 0) ((cs.lookup p.1).getD [])) then .error .value
        else match timeStep enforce ((cs.lookup lhs).getD []) with
        | .error e => .error e
        | .ok dt =>
          let ut := FD.alongAxis (FD.d1 dt) 0 u
          if nInput.any (· != spatial.length) then .error .value
          else .ok ⟨u, ut, spatial.map fun a => (cs.lookup a).getD [], spatial.length,
            d.params.map fun p => (p.1, transpose p.2 perm)⟩

/-- adapter.py:46-58 `_prepare`. -/
def regular (fin : ℚ → Bool) (enforce : Bool) (nInput : Option Nat) (d : DS ℚ ℚ) : Except Err Regular :=
  match d.fields, d.coords with
  | some fs, some cs => regularNd fin enforce nInput d fs cs
  | none, none => regularLegacy fin enforce nInput d
  | _, _ => .error .value

/-! ## kd/data.py `SparseData` -/

/-- A measured point: coordinates (space first, time last) and value. -/
abbrev Sample := List ℚ × ℚ

/-- `a[idx]` for rows, reading only rows that exist (the code raises IndexError otherwise). -/
def rows {α : Type} (l : List α) (idx : List Nat) : List α := idx.filterMap fun i => l[i]?

/-- The dictionary of `SparseData.process_data` (data.py:207-257) with the additions of the adapter.  The pairs `X_u_train`/`u_train`,
`X_u_val`/`u_val` and `X_star`/`u_star` are always indexed together and are kept as lists of pairs. -/
structure Sparse where
  train : List Sample
  val : List Sample
  colloc : List (List ℚ)
  lb : List ℚ
  ub : List ℚ
  measured : List (List ℚ)
  star : List Sample
  shape : List Nat
  params : Params

/-- data.py:232-234 `int(Num_d * 0.8)`, the size of the training part. -/
def trainSize (n : Nat) : Nat := 4 * n / 5

/-- data.py:238: `np.setdiff1d(np.arange(n), train)`. -/
def valIdx (n : Nat) (train : List Nat) : List Nat := (List.range n).filter fun i => !train.contains i

/-- data.py:243-245: a row of the unit hypercube moved into the box. -/
def scaleRow (lb ub row : List ℚ) : List ℚ :=
  List.zipWith (· + ·) lb (List.zipWith (· * ·) (List.zipWith (· - ·) ub lb) row)

/-- data.py:226-245 `process_data`: `choice` is `np.random.choice(n, k, replace=False)`, `unit` the Latin hypercube.
Training part, validation part, collocation points (the training points at the end). -/
def processData (samples : List Sample) (choice : Nat → Nat → List Nat) (unit : List (List ℚ)) (lb ub : List ℚ) :
    List Sample × List Sample × List (List ℚ) :=
  let train := choice samples.length (trainSize samples.length)
  let tr := rows samples train
  (tr, rows samples (valIdx samples.length train), unit.map (scaleRow lb ub) ++ tr.map Prod.fst)

/-! ## `DiscoverSparseAdapter` -/

/-- The options (adapter.py:294-304); `ratio` is `sample_ratio`. -/
structure SparseCfg where
  sample : Option Int := none
  ratio : ℚ := 1 / 10
  dataRatio : Option ℚ := none
  spline : Bool := false
  cut : Option ℚ := none

/-- adapter.py:488-499, 565-574: the number of samples. -/
def nSamples (c : SparseCfg) (total : Nat) : Except Err Int :=
  match c.sample with
  | some n => if n > total then .error .value else .ok n
  | none =>
    if ¬ (0 < c.ratio ∧ c.ratio ≤ 1) then .error .value
    else
      let n := max 1 ((total : ℚ) * c.ratio).floor
      if n > total then .error .value else .ok n

/-- `np.unravel_index(k, sizes)` (C order). -/
def unravel : List Nat → Nat → List Nat
  | [], _ => []
  | _ :: s, k => (k / s.prod) :: unravel s (k % s.prod)

/-- The coordinates at an index. -/
def coordsAt (cs : List (List ℚ)) (idx : List Nat) : List ℚ := List.zipWith (fun c i => (c[i]?).getD 0) cs idx

/-- Adding the noise (none: `noise_level` is 0); `noise vs` is the outcome of `rng.normal(scale=noise_level * np.std(vs), size=...)`. -/
def addNoise (noise : Option (List ℚ → List ℚ)) (vs : List ℚ) : List ℚ :=
  match noise with
  | none => vs
  | some e => List.zipWith (· + ·) vs (e vs)

/-- `np.repeat(c, k)`. -/
def repeatEach {α : Type} (c : List α) (k : Nat) : List α := c.flatMap fun a => List.replicate k a
/-- `np.tile(c, k)`. -/
def tile {α : Type} (c : List α) (k : Nat) : List α := (List.replicate k c).flatten

/-- adapter.py:530-539: the columns of `X_star` from the last axis to the first; `stride` is the number of points of the later axes. -/
def starColumns (total : Nat) : List (List ℚ) → Nat → List (List ℚ)
  | [], _ => []
  | c :: before, stride =>
    tile (repeatEach c stride) (total / (c.length * stride)) :: starColumns total before (stride * c.length)

/-- The rows of a matrix given by its columns. -/
def rowsOf (n : Nat) (cols : List (List ℚ)) : List (List ℚ) := (List.range n).map fun r => cols.map fun c => (c[r]?).getD 0

/-- `c.min()`, `c.max()` for the coordinates (an empty axis raises). -/
def boundsOf : List (List ℚ) → Except Err (List ℚ × List ℚ)
  | [] => .ok ([], [])
  | c :: cs => match bounds c, boundsOf cs with
    | .ok (a, b), .ok (as, bs) => .ok (a :: as, b :: bs)
    | .error e, _ => .error e
    | _, .error e => .error e

/-- The random outcomes of one call; `f n k` is the outcome of `choice(n, k, replace=False)`. -/
structure Draws where
  sample : Nat → Nat → List Nat       -- the measured positions (`rng.choice`)
  noise : Option (List ℚ → List ℚ)
  train : Nat → Nat → List Nat        -- the training part of `process_data`
  unit : Nat → List (List ℚ)          -- the Latin hypercube (of the given dimension)
  subTrain : Nat → Nat → List Nat     -- `data_ratio`: the kept training points
  subVal : Nat → Nat → List Nat       -- `data_ratio`: the kept validation points

/-- adapter.py:429-557 `_prepare_nd`. -/
def sparseNd (fin : ℚ → Bool) (c : SparseCfg) (w : Draws) (d : DS ℚ ℚ) (fs : List (String × Arr ℚ))
    (cs : List (String × List ℚ)) : Except Err Sparse :=
  let ax := d.axisOrder.getD []
  let target := d.target.getD "u"
  let lhs := d.lhs.getD "t"
  if c.spline || c.cut.isSome || c.dataRatio.isSome then .error .unmodelled  -- NotImplementedError
  else match fs.lookup target with
  | none => .error .index
  | some uRaw =>
    if !allFinite fin uRaw then .error .value
    else if lhs ∉ ax then .error .value
    else
      let order := ax.filter (· != lhs) ++ [lhs]
      let all := order.map fun a => (cs.lookup a).getD []
      let sizes := all.map List.length
      let perm := order.map fun a => ax.idxOf a
      let u := transpose uRaw perm
      match nSamples c sizes.prod with
      | .error e => .error e
      | .ok n =>
        if n < 0 then .error .value else
        let idx := (w.sample sizes.prod n.toNat).map (unravel sizes)
        let xt := idx.map (coordsAt all)
        let vs := addNoise w.noise (idx.map u.get)
        match boundsOf all with
        | .error e => .error e
        | .ok (lb, ub) =>
          let r := processData (xt.zip vs) w.train (w.unit order.length) lb ub
          let star := rowsOf sizes.prod (starColumns sizes.prod all.reverse 1).reverse
          .ok { train := r.1, val := r.2.1, colloc := r.2.2, lb := lb, ub := ub, measured := xt,
                star := star.zip u.ravel, shape := u.shape,
                params := d.params.map fun p => (p.1, transpose p.2 perm) }

/-- adapter.py:611-617 `trim`: the kept index range of an axis of `n` points. -/
def trimRange (q : ℚ) (n : Nat) : Nat × Nat :=
  let lo := ((n : ℚ) * q).floor.toNat
  if n - lo - lo < 2 then (0, n) else (lo, n - lo)

/-- adapter.py:603-628 `_apply_cut_quantile`: the index ranges kept on both axes. -/
def cutRanges (cut : Option ℚ) (nx nt : Nat) : Except Err ((Nat × Nat) × (Nat × Nat)) :=
  match cut with
  | none => .ok ((0, nx), (0, nt))
  | some q => if ¬ (0 ≤ q ∧ q < 1 / 2) then .error .value else .ok (trimRange q nx, trimRange q nt)

/-- adapter.py:580-601 `_spline_sample_points`: the number of space points (the divisions truncate; `sample / total_time` of a
negative number counts as at most 0). -/
def splineCount (c : SparseCfg) (nx nt : Nat) : Except Err Nat :=
  let ratio := c.dataRatio.getD c.ratio
  if ¬ (0 < ratio ∧ ratio ≤ 1) then .error .value
  else .ok (min nx (max 1 (match c.sample with
    | some n => n.toNat / nt
    | none => ((nx : ℚ) * ratio).floor.toNat)))

/-- The grid positions measured (adapter.py:559-578 resp. 580-601); `choice` is `rng.choice`. -/
def positions (c : SparseCfg) (choice : Nat → Nat → List Nat) (nx nt : Nat) : Except Err (List (Nat × Nat)) :=
  if c.spline then
    match splineCount c nx nt with
    | .error e => .error e
    | .ok k => .ok (((choice nx k).insertionSort (· ≤ ·)).flatMap fun i => (List.range nt).map fun j => (i, j))
  else
    match nSamples c (nx * nt) with
    | .error e => .error e
    | .ok n => if n < 0 then .error .value else .ok ((choice (nx * nt) n.toNat).map fun k => (k / nt, k % nt))

/-- adapter.py:386-402: the part of the rows kept by `data_ratio`. -/
def subset {α : Type} (ratio : ℚ) (l : List α) (choice : Nat → Nat → List Nat) : List α :=
  let k := max 1 ((l.length : ℚ) * ratio).floor.toNat
  if k < l.length then rows l (choice l.length k) else l

/-- adapter.py:329-423 `_prepare_legacy`. -/
def sparseLegacy (c : SparseCfg) (w : Draws) (d : DS ℚ ℚ) : Except Err Sparse :=
  match d.x, d.t with
  | some x0, some t0 =>
    if d.usol.shape ≠ [x0.length, t0.length] then .error .value
    else match cutRanges c.cut x0.length t0.length with
    | .error e => .error e
    | .ok (rx, rt) =>
      let x := slice x0 rx.1 rx.2
      let t := slice t0 rt.1 rt.2
      let u : Arr ℚ := ⟨[x.length, t.length], shift2 d.usol.get rx.1 rt.1⟩
      match positions c w.sample x.length t.length with
      | .error e => .error e
      | .ok pos =>
        let xt := pos.map fun p => [(x[p.1]?).getD 0, (t[p.2]?).getD 0]
        let vs := addNoise w.noise (pos.map fun p => u.get [p.1, p.2])
        match boundsOf [if c.cut.isSome then x else x0, if c.cut.isSome then t else t0] with
        | .error e => .error e
        | .ok (lb, ub) =>
          let r := processData (xt.zip vs) w.train (w.unit 2) lb ub
          let star := (x.flatMap fun a => t.map fun b => [a, b]).zip u.ravel
          match c.dataRatio with
          | none => .ok { train := r.1, val := r.2.1, colloc := r.2.2, lb := lb, ub := ub, measured := xt, star := star,
                          shape := u.shape, params := d.params }
          | some q =>
            if ¬ (0 < q ∧ q ≤ 1) then .error .value
            else
              let tr := subset q r.1 w.subTrain
              .ok { train := tr, val := subset q r.2.1 w.subVal, colloc := (w.unit 2).map (scaleRow lb ub) ++ tr.map Prod.fst,
                    lb := lb, ub := ub, measured := xt, star := star, shape := u.shape, params := d.params }
  | _, _ => .error .type

/-- adapter.py:315-327 `_prepare`. -/
def sparse (fin : ℚ → Bool) (c : SparseCfg) (w : Draws) (d : DS ℚ ℚ) : Except Err Sparse :=
  match d.fields, d.coords with
  | some fs, some cs => sparseNd fin c w d fs cs
  | none, none => sparseLegacy c w d
  | _, _ => .error .value

end Verif.Discover.Adapter
