import Verif.Viz.Data
import Mathlib.Data.Rat.Floor
import Mathlib.Algebra.Order.Floor.Semiring
/-!
# The figure functions of kd/viz/dlga_viz.py

They take a fitted DLGA model or plain arrays.  A figure is the data handed to matplotlib; arrays of `metadata` are flattened columns, entries rational.
-/
namespace Verif.Viz.DlgaOld
open Verif.Viz.Data

/-- dlga_viz.py:550, 649 `metadata[operator_names[gene]]`: IndexError for a gene without operator, KeyError without a field. -/
def geneCol (m : DlgaModel) (g : Nat) : Except Exn (List Rat) :=
  match m.ops[g]? with
  | none => .error .index
  | some o => match m.fields.lookup o with
    | none => .error .key
    | some c => .ok c

/-- The list comprehension of dlga_viz.py:550, 649 (the first failing gene raises). -/
def geneCols (m : DlgaModel) : List Nat → Except Exn (List (List Rat))
  | [] => .ok []
  | g :: r => match geneCol m g with
    | .error e => .error e
    | .ok c => match geneCols m r with
      | .error e => .error e
      | .ok cs => .ok (c :: cs)

/-- `np.prod([...], axis=0)`: a ragged list raises ValueError; without arrays the number 1 (as a column of one entry). -/
def prodOf (cs : List (List Rat)) : Except Exn (List Rat) :=
  match cs with
  | [] => .ok [1]
  | c :: r => if r.all fun d => d.length == c.length then .ok (prodCol (c :: r)) else .error .value

/-- dlga_viz.py:549-556, 648-651: values and coefficient (`coefficients[i, 0]`) of the term number `i`. -/
def termOf (m : DlgaModel) (i : Nat) (module : List Nat) : Except Exn (List Rat × Rat) :=
  match geneCols m module with
  | .error e => .error e
  | .ok cs => match prodOf cs with
    | .error e => .error e
    | .ok v => match m.coef[i]? with
      | none => .error .index
      | some c => .ok (v, c)

/-- dlga_viz.py:646-651, the loop over the modules from number `i` on. -/
def rhsLoop (m : DlgaModel) (n : Nat) : Nat → List Rat → List (List Nat) → Except Exn (List Rat)
  | _, acc, [] => .ok acc
  | i, acc, md :: r => match termOf m i md with
    | .error e => .error e
    | .ok (v, c) => match addCol n acc v c with
      | .error e => .error e
      | .ok acc' => rhsLoop m n (i + 1) acc' r

/-- The points (right-hand side, left-hand side) of the parity figure and the ends of the line. -/
structure ParityFig where
  points : List (Rat × Rat)
  lo : Rat
  hi : Rat
  deriving DecidableEq

/-- dlga_viz.py:605-673 `plot_pde_parity` (`none`: the warning, no figure); `min()` of no values raises ValueError. -/
def plotParity (m : DlgaModel) : Except Exn (Option ParityFig) :=
  if m.genome = [] then .ok none
  else match m.fields.lookup m.lhs with
    | none => .ok none
    | some l => match rhsLoop m l.length 0 (List.replicate l.length 0) m.genome with
      | .error e => .error e
      | .ok p => match l ++ p with
        | [] => .error .value
        | a :: r => .ok (some ⟨p.zip l, r.foldl min a, r.foldl max a⟩)

/-- dlga_viz.py:543-556, the loop over the modules from number `i` on: modules with a gene beyond the operators are skipped with a warning. -/
def termsLoop (m : DlgaModel) : Nat → List (List Nat) → Except Exn (List (List Nat × List Rat × Rat))
  | _, [] => .ok []
  | i, md :: r =>
    if md.any fun g => decide (m.ops.length ≤ g) then termsLoop m (i + 1) r
    else match termOf m i md with
      | .error e => .error e
      | .ok (v, c) => match termsLoop m (i + 1) r with
        | .error e => .error e
        | .ok ts => .ok ((md, v, c) :: ts)

/-- Python's `l[:k]`. -/
def pySlice {α : Type} (l : List α) (k : Int) : List α := l.take (if k < 0 then (l.length : Int) + k else k).toNat

/-- The panels of the relation figure: term, values across, coefficient; the values up; rows and columns of the grid of panels. -/
structure RelFig where
  panels : List (List Nat × List Rat × Rat)
  up : List Rat
  rows : Nat
  cols : Nat
  deriving DecidableEq

/-- dlga_viz.py:514-602 `plot_derivative_relationships` (`none`: a warning, no figure); a scatter of columns of different lengths raises ValueError. -/
def plotRelations (m : DlgaModel) (top : Int) : Except Exn (Option RelFig) :=
  if m.genome = [] then .ok none
  else match m.fields.lookup m.lhs with
    | none => .ok none
    | some l => match termsLoop m 0 m.genome with
      | .error e => .error e
      | .ok ts =>
        let sel := pySlice (sortTerms ts) top
        if sel = [] then .ok none
        else if sel.any fun c => c.2.1.length != l.length then .error .value
        else .ok (some ⟨sel, l, (sel.length + min sel.length 3 - 1) / min sel.length 3, min sel.length 3⟩)

/-- dlga_viz.py:397 `np.abs(np.diff(fitness_history))` -/
def changes : List Rat → List Rat
  | a :: b :: r => absR (b - a) :: changes (b :: r)
  | _ => []

/-- `np.cumsum`, from the sum `s` on. -/
def cumsum (s : Rat) : List Rat → List Rat
  | [] => []
  | a :: r => (s + a) :: cumsum (s + a) r

/-- `np.searchsorted(c, v)`: the number of leading entries below `v` (for a non-decreasing `c`). -/
def searchsorted (c : List Rat) (v : Rat) : Nat := (c.takeWhile fun x => decide (x < v)).length

/-- The fitness panel of the optimisation figure: the curve and the highlighted part of it. -/
structure OptFig where
  curve : List (Nat × Rat)
  major : List (Nat × Rat)
  gens : Nat

/-- dlga_viz.py:353-456 `plot_optimization_analysis`, the fitness panel.  `none`: it raises – with an empty history `min([])` (389), with one generation the
name `show_gens` is unbound in the log line 446 (the file has been written then).  The population panel is not modelled. -/
def plotOptimization (fit : List Rat) : Option OptFig :=
  match changes fit with
  | [] => none
  | c :: r =>
    let cum := cumsum 0 (c :: r)
    let k := min (searchsorted cum (8 / 10 * (cum.getLast?).getD 0) + 5) (fit.length - 1)
    some ⟨(List.range fit.length).zip fit, ((List.range fit.length).zip fit).take (k + 1), k⟩

/-- dlga_viz.py:477 `int(t_slice * (len(t) - 1))`: rounding towards zero. -/
def sliceIdx (n : Nat) (s : Rat) : Int :=
  if 0 ≤ s * ((n : Rat) - 1) then ⌊s * ((n : Rat) - 1)⌋ else -⌊-(s * ((n : Rat) - 1))⌋

/-- `t[i]` -/
def timeAt (t : List Rat) (i : Int) : Except Exn (Nat × Rat) :=
  let k := if i < 0 then i + (t.length : Int) else i
  if k < 0 then .error .index
  else match t[k.toNat]? with
    | none => .error .index
    | some v => .ok (k.toNat, v)

/-- dlga_viz.py:475-497: the panels, each the column of the data drawn and the time written above. -/
def slicePanels (t : List Rat) : List Rat → Except Exn (List (Nat × Rat))
  | [] => .ok []
  | s :: r => match timeAt t (sliceIdx t.length s) with
    | .error e => .error e
    | .ok p => match slicePanels t r with
      | .error e => .error e
      | .ok ps => .ok (p :: ps)

/-- dlga_viz.py:459-505 `plot_time_slices` for data with a column per time; `plt.subplots(1, 0)` raises ValueError. -/
def plotTimeSlices (t slices : List Rat) : Except Exn (List (Nat × Rat)) :=
  if slices = [] then .error .value else slicePanels t slices

end Verif.Viz.DlgaOld
