/-!
# Building the constraints from the configuration (kd/model/discover/dso/prior.py:18-170, controller.py:169-190, kd/model/kd_discover.py)

The single constraints are parameters here (their effect: `Discover/Prior`, `Discover/Soft`).  `A`: keyword arguments of a constraint, `P`: a built
constraint, `L`: a library.
-/
namespace Verif.Discover.PriorBuild

/-- The arguments of one constraint in the configuration; `on = none`: the key is absent. -/
structure Args (A : Type) where
  on : Option Bool
  rest : A
deriving DecidableEq, Repr

/-- The section "prior" of the configuration, in its order (prior.py:44-56: a single dictionary counts as a list of one). -/
structure Config (A : Type) where
  count : Option Bool
  entries : List (String × List (Args A))
deriving DecidableEq, Repr

/-- What constructing and validating a constraint gives (prior.py:62-67). -/
inductive Made (P : Type) where
  | ok (p : P)
  /-- `validate` has a message, or `TokenNotFoundError` -/
  | skipped
  /-- any other exception -/
  | raises

/-- `single_prior_args.pop('on', False)` (prior.py:61): what is left in the configuration. -/
def popOn {A : Type} (a : Args A) : Args A := { a with on := none }

/-- prior.py:58-81, for the list of one type: the list as it is left, and the constraints (`none`: an exception). -/
def buildArgs {A P : Type} (mk : A → Made P) : List (Args A) → List (Args A) × Option (List P)
  | [] => ([], some [])
  | a :: as =>
    match a.on with
    | some true =>
      match mk a.rest with
      | .ok p => (popOn a :: (buildArgs mk as).1, (buildArgs mk as).2.map (p :: ·))
      | .skipped => (popOn a :: (buildArgs mk as).1, (buildArgs mk as).2)
      | .raises => (popOn a :: as, none)
    | _ => (popOn a :: (buildArgs mk as).1, (buildArgs mk as).2)

/-- prior.py:48-81; `cls` is `prior_dict` (`none`: an unknown name, whose import raises). -/
def buildAll {A P : Type} (cls : String → Option (A → Made P)) :
    List (String × List (Args A)) → List (String × List (Args A)) × Option (List P)
  | [] => ([], some [])
  | (name, as) :: es =>
    match cls name with
    | none => ((name, as) :: es, none)
    | some mk =>
      match (buildArgs mk as).2 with
      | none => ((name, (buildArgs mk as).1) :: es, none)
      | some ps => ((name, (buildArgs mk as).1) :: (buildAll cls es).1, (buildAll cls es).2.map (ps ++ ·))

/-- `JointPrior`: the constraints and whether they are counted. -/
structure Joint (P : Type) where
  priors : List P
  doCount : Bool
deriving DecidableEq, Repr

/-- prior.py:18-90 `make_prior`, with the configuration as it is left. -/
def makePrior {A P : Type} (cls : String → Option (A → Made P)) (c : Config A) : Config A × Option (Joint P) :=
  (⟨none, (buildAll cls c.entries).1⟩, (buildAll cls c.entries).2.map (⟨·, c.count.getD false⟩))

/-! ## The estimators -/

/-- What an estimator keeps: its configuration, the joint prior of its controller, and the joint priors its searches have run with. -/
structure Est (A P : Type) where
  cfg : Config A
  prior : Option (Joint P)
  searches : List (Joint P)

/-- A new estimator. -/
def Est.new {A P : Type} (c : Config A) : Est A P := ⟨c, none, []⟩

/-- kd_discover.py:107-129 `setup` (through `make_prior`, 298-305) for a library; after an exception the old controller stays. -/
def Est.setup {A P : Type} (cls : String → Option (A → Made P)) (e : Est A P) : Est A P :=
  { e with cfg := (makePrior cls e.cfg).1, prior := ((makePrior cls e.cfg).2).orElse (fun _ => e.prior) }

/-- A search with the present controller (nothing happens without one: AttributeError). -/
def Est.search {A P : Type} (e : Est A P) : Est A P := { e with searches := e.searches ++ e.prior.toList }

/-- The calls of a user; the library depends on the data. -/
inductive Op (L : Type) where
  | importDataset (lib : L)
  | train (lib : L)

/-- `KD_Discover`: `import_dataset` sets up (kd_discover.py:154-191), `train` only searches (262-272). -/
def Est.regular {A P L : Type} (cls : L → String → Option (A → Made P)) (e : Est A P) : Op L → Est A P
  | .importDataset lib => e.setup (cls lib)
  | .train _ => e.search

/-- `KD_Discover_SPR`: `import_dataset` sets up (kd_discover.py:503-563), and `train` (704-718; also called by `fit`, 732-747) sets up again and then
searches (the searches of one run use the same controller: `reset_up(reset_controller=False)`, 652, 686). -/
def Est.sparse {A P L : Type} (cls : L → String → Option (A → Made P)) (e : Est A P) : Op L → Est A P
  | .importDataset lib => e.setup (cls lib)
  | .train lib => (e.setup (cls lib)).search

/-! ## The greatest length -/

/-- controller.py:171-190: the first length constraint decides (`lengthOf p = some m`: `p` is one, with maximum `m`); `none`: AssertionError. -/
def maxLength {P : Type} (lengthOf : P → Option (Option Nat)) (dflt : Option Nat) (nObjects : Nat) (priors : List P) : Option Nat :=
  (match (priors.filterMap lengthOf).head? with
    | some (some m) => some m
    | _ => dflt).map (· * nObjects)

/-! ## Counting -/

/-- prior.py:112-118: the name of a class with its running number. -/
def names (classOf : List String) : List String :=
  (List.range classOf.length).map fun (i : Nat) => (classOf[i]?).getD "" ++ "-" ++ toString ((classOf.take i).count ((classOf[i]?).getD ""))

/-- prior.py:122: positions of the hard constraints. -/
def constraintIndices (isConstraint : List Bool) : List Nat :=
  (List.range isConstraint.length).filter fun (i : Nat) => (isConstraint[i]?).getD false

/-- prior.py:157-158: `constraint_counts[i] += n` for the positions `i`; `none`: IndexError. -/
def addCounts (n : Nat → Nat) : List Nat → List Nat → Option (List Nat)
  | [], counts => some counts
  | i :: is, counts => if i < counts.length then addCounts n is (counts.set i ((counts[i]?).getD 0 + n i)) else none

/-- One call of the joint prior, as far as counting is concerned: for the rows that are not finished (`rows` of them), after `time` tokens, prior `i` forbids
`forbids i` entries. -/
structure Call where
  rows : Nat
  time : Nat
  forbids : Nat → Nat

/-- prior.py:123-125. -/
structure Counter where
  counts : List Nat
  totalTokens : Nat

/-- prior.py:153-159. -/
def Counter.call (isConstraint : List Bool) (s : Counter) (c : Call) : Option Counter :=
  (addCounts c.forbids (constraintIndices isConstraint) s.counts).map fun k => ⟨k, s.totalTokens + c.rows * c.time⟩

/-- prior.py:122-125: a new counter. -/
def Counter.new (isConstraint : List Bool) : Counter := ⟨List.replicate (constraintIndices isConstraint).length 0, 0⟩

/-- Several calls. -/
def Counter.calls (isConstraint : List Bool) : Counter → List Call → Option Counter
  | s, [] => some s
  | s, c :: cs => (s.call isConstraint c).bind fun s' => s'.calls isConstraint cs

/-- prior.py:164-170: the lines of the report, the name with its count (the percentage is `count / total_tokens`; `none`: without a call ZeroDivisionError,
with calls that counted no token numpy's NaN). -/
def report (classOf : List String) (isConstraint : List Bool) (s : Counter) : Option (List (String × Nat)) :=
  if s.totalTokens = 0 then none
  else some ((List.zip (constraintIndices isConstraint) s.counts).map fun p => (((names classOf)[p.1]?).getD "", p.2))

end Verif.Discover.PriorBuild
