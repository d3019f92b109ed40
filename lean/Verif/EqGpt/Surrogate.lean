import Mathlib.Algebra.Order.Ring.Rat
import Mathlib.Algebra.Field.Rat
import Mathlib.Data.Rat.Floor
/-!
# EqGPT: constructor, cases, surrogate networks, fine-tuning batches (kd/model/kd_eqgpt.py)

Numbers are rationals, a NaN is `none`.  The surrogate network, Adam and the files of weights are parameters.
-/
namespace Verif.EqGpt.Surrogate

/-- A float: `none` is NaN. -/
abbrev Fl := Option ℚ

/-- ValueError, TypeError, RuntimeError, FileNotFoundError. -/
inductive Exn where
  | value | type | runtime | file
deriving DecidableEq, Repr

/-! ## Constructor -/

/-- A Python argument. -/
inductive Arg where
  | int (n : Int)
  | bool (b : Bool)
  | float (q : ℚ)
  | str (s : String)
deriving DecidableEq

/-- `isinstance(a, int)` (a bool is an int) and the number compared with 1. -/
def Arg.asInt : Arg → Option Int
  | .int n => some n
  | .bool b => some (if b then 1 else 0)
  | _ => none

/-- kd_eqgpt.py:93-109: the check of a count. -/
def checkCount (a : Arg) : Except Exn Unit :=
  match a.asInt with
  | none => .error .type
  | some n => if n < 1 then .error .value else .ok ()

/-- kd_eqgpt.py:114: `seed < 0`. -/
def checkSeed : Arg → Except Exn Unit
  | .int n => if n < 0 then .error .value else .ok ()
  | .bool _ => .ok ()
  | .float q => if q < 0 then .error .value else .ok ()
  | .str _ => .error .type

/-- The arguments of the constructor. -/
structure Params where
  pretrained : String
  epochs : Arg
  samples : Arg
  filter : String
  seed : Arg
  retrain : Bool
  surrogateEpochs : Int

/-- kd_eqgpt.py:77-122 `__init__`; the attributes are the arguments. -/
def create (p : Params) : Except Exn Params :=
  if p.pretrained ≠ "wave_breaking" then .error .value
  else match checkCount p.epochs with
    | .error e => .error e
    | .ok _ => match checkCount p.samples with
      | .error e => .error e
      | .ok _ =>
        if p.filter ≠ "N" ∧ p.filter ≠ "all" then .error .value
        else match checkSeed p.seed with
          | .error e => .error e
          | .ok _ => .ok p

/-! ## The cases -/

/-- Insertion by name. -/
def insertBy {D : Type} (e : String × D) : List (String × D) → List (String × D)
  | [] => [e]
  | f :: r => if e.1 ≤ f.1 then e :: f :: r else f :: insertBy e r

/-- `sorted(data_dict.keys())` with the data. -/
def sorted {D : Type} (d : List (String × D)) : List (String × D) := d.foldr insertBy []

/-- kd_eqgpt.py:277: whether a case is left out by the filter. -/
def passes (filter : String) (name : String) : Bool := !(filter == "N" && !(name.toList.contains 'N'))

/-- The value of digits. -/
def value (ds : List Char) : Nat := ds.foldl (fun a c => 10 * a + (c.toNat - 48)) 0

/-- `\d+` at the front (ASCII digits): value and rest. -/
def digits (s : List Char) : Option (Nat × List Char) :=
  match s.takeWhile Char.isDigit with
  | [] => none
  | ds => some (value ds, s.dropWhile Char.isDigit)

/-- `G(\d+)Tp(\d+)A(\d+)` at the front. -/
def matchAt (s : List Char) : Option (Nat × Nat × Nat) :=
  match s with
  | 'G' :: s1 => match digits s1 with
    | some (g, 'T' :: 'p' :: s2) => match digits s2 with
      | some (tp, 'A' :: s3) => match digits s3 with
        | some (a, _) => some (g, tp, a)
        | none => none
      | _ => none
    | _ => none
  | _ => none

/-- kd_eqgpt.py:421-425 `re.search`: the leftmost match. -/
def parse : List Char → Option (Nat × Nat × Nat)
  | [] => none
  | c :: s => match matchAt (c :: s) with
    | some r => some r
    | none => parse s

/-! ## Training a surrogate -/

/-- kd_eqgpt.py:341-351: the rows for training and for validation, of a shuffled list of indices. -/
def splitRows (perm : List Nat) : List Nat × List Nat :=
  let nt := (95 * perm.length) / 100
  let nv := (5 * perm.length) / 100
  (perm.take nt, (perm.drop nt).take nv)

/-- kd_eqgpt.py:337-339: the input (time, position) and the output of a measurement (time, position, elevation). -/
def trainRow (r : ℚ × ℚ × ℚ) : (ℚ × ℚ) × ℚ := ((r.1, r.2.1 - 8), r.2.2 * 100)

/-- The loop variables: weights (with the optimiser), saved files by epoch, validation errors. -/
structure Loop (W : Type) where
  w : W
  files : List (Nat × W)
  errs : List Fl

/-- kd_eqgpt.py:357-371: one step; `i` counts from 0. -/
def stepOnce {W : Type} (step : W → W) (val : W → Fl) (s : Loop W) (i : Nat) : Loop W :=
  let w := step s.w
  if (i + 1) % 500 = 0 then ⟨w, s.files ++ [(i + 1, w)], s.errs ++ [val w]⟩ else ⟨w, s.files, s.errs⟩

/-- `a < b`, false with a NaN. -/
def lt : Fl → Fl → Bool
  | some a, some b => decide (a < b)
  | _, _ => false

/-- `l.index(min(l))`: Python's `min` keeps the first element unless a later one is smaller. -/
def minIdx (l : List Fl) : Nat := (List.range l.length).foldl (fun b k => if lt ((l[k]?).getD none) ((l[b]?).getD none) then k else b) 0

/-- kd_eqgpt.py:314-387 `_train_single_surrogate`: the saved files and the contents of `best_epoch.npy`. -/
def trainOne {W : Type} (step : W → W) (val : W → Fl) (w0 : W) (epochs : Nat) : List (Nat × W) × Nat :=
  let s := (List.range epochs).foldl (stepOnce step val) ⟨w0, [], []⟩
  if s.errs = [] then (s.files ++ [(epochs, s.w)], epochs) else (s.files, (minIdx s.errs + 1) * 500)

/-- kd_eqgpt.py:413-417: the network that is used: the file of the best epoch (`none`: no such file). -/
def loadBest {W : Type} (r : List (Nat × W) × Nat) : Option W := (r.1.find? fun f => f.1 == r.2).map Prod.snd

/-! ## The grid -/

/-- `np.linspace(a, b, 50)` -/
def linspace50 (a b : ℚ) : List ℚ := (List.range 50).map fun (i : Nat) => a + (i : ℚ) * ((b - a) / 49)

/-- kd_eqgpt.py:430-434: the positions. -/
def positions : List ℚ := linspace50 (818 / 100) (934 / 100) ++ linspace50 (977 / 100) (1093 / 100) ++ linspace50 (1141 / 100) (1257 / 100)

/-- kd_eqgpt.py:435-437: the times up to the last measured time `last` (`np.arange`). -/
def times (last : ℚ) : List ℚ := (List.range ⌈(last - 1 / 10 - 15 / 100) / (5 / 100)⌉.toNat).map fun (i : Nat) => 15 / 100 + (i : ℚ) * (5 / 100)

/-- The coordinates in which the grid is given to the network (kd_eqgpt.py:438-439), `tp` the period, `lam` the wave length. -/
def searchCoord (tp lam : ℚ) (p : ℚ × ℚ) : ℚ × ℚ := (p.1 / tp, (p.2 - 817 / 100) / lam)

/-- The physical points of the grid, times outside, positions inside (kd_eqgpt.py:443-444, `indexing='ij'`). -/
def grid (last : ℚ) : List (ℚ × ℚ) := (times last).flatMap fun t => positions.map fun x => (t, x)

/-- A surrogate ready for the search: case, network, inputs, number of positions and times. -/
structure Built (W : Type) where
  name : String
  net : W
  inputs : List (ℚ × ℚ)
  nx : Nat
  nt : Nat

/-- kd_eqgpt.py:389-450 `_build_single_surrogate`; `lam` gives the wave length of a period, `lastTime` the last measured time. -/
def build {W : Type} (lam : ℚ → ℚ) (name : String) (lastTime : ℚ) (net : Option W) : Except Exn (Built W) :=
  match net with
  | none => .error .file
  | some w => match parse name.toList with
    | none => .error .value
    | some (_, tpInt, _) =>
      let tp := (tpInt : ℚ) / 10
      .ok ⟨name, w, (grid lastTime).map (searchCoord tp (lam tp)), positions.length, (times lastTime).length⟩

/-- kd_eqgpt.py:276-301: the loop over the cases; `shipped` are the networks that come with the package, `retrained` the freshly trained
ones (used if `retrain`). -/
def loadLoop {D W : Type} (lam : ℚ → ℚ) (filter : String) (retrain : Bool) (lastTime : D → ℚ) (shipped : String → Option W) (retrained : String → D → Option W) :
    List (String × D) → Except Exn (List (Built W))
  | [] => .ok []
  | (name, d) :: r =>
    if !passes filter name then loadLoop lam filter retrain lastTime shipped retrained r
    else if !retrain && (shipped name).isNone then loadLoop lam filter retrain lastTime shipped retrained r
    else match build lam name (lastTime d) (if retrain then retrained name d else shipped name) with
      | .error e => .error e
      | .ok b => match loadLoop lam filter retrain lastTime shipped retrained r with
        | .error e => .error e
        | .ok bs => .ok (b :: bs)

/-- kd_eqgpt.py:249-312 `_load_surrogates` -/
def loadAll {D W : Type} (lam : ℚ → ℚ) (filter : String) (retrain : Bool) (lastTime : D → ℚ) (shipped : String → Option W) (retrained : String → D → Option W)
    (data : List (String × D)) : Except Exn (List (Built W)) :=
  match loadLoop lam filter retrain lastTime shipped retrained (sorted data) with
  | .error e => .error e
  | .ok [] => .error .runtime
  | .ok bs => .ok bs

/-! ## Fine-tuning batches -/

/-- continue_train_GPT_all.py:60-69 `MyDataSet.__getitem__`: input and output of a sentence. -/
def item (s : List Nat) : List Nat × List Nat := (s.dropLast, s.tail)

/-- continue_train_GPT_all.py:82-83: padded with `<pad>` (0). -/
def pad (n : Nat) (l : List Nat) : List Nat := l ++ List.replicate (n - l.length) 0

/-- The longest length. -/
def longest (l : List (List Nat)) : Nat := (l.map List.length).foldl max 0

/-- continue_train_GPT_all.py:74-86 `padding_batch` -/
def batch (ss : List (List Nat)) : List (List Nat) × List (List Nat) :=
  let items := ss.map item
  let ni := longest (items.map Prod.fst)
  let no := longest (items.map Prod.snd)
  (items.map fun d => pad ni d.1, items.map fun d => pad no d.2)

/-- Position `i` of a row (input, output): the input up to there and the target, unless the target is the padding. -/
def target (p : List Nat × List Nat) (i : Nat) : Option (List Nat × Nat) :=
  if (p.2[i]?).getD 0 = 0 then none else some (p.1.take (i + 1), (p.2[i]?).getD 0)

/-- The targets that count in the loss (`CrossEntropyLoss(ignore_index=0)`): row, position, the input up to there, and the target. -/
def counted (b : List (List Nat) × List (List Nat)) : List (List Nat × Nat) :=
  (b.1.zip b.2).flatMap fun p => (List.range p.2.length).filterMap (target p)

end Verif.EqGpt.Surrogate
