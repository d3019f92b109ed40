/-! The estimator classes `KD_Discover` and `KD_Discover_SPR` as state machines.

Models `/repo/kd/model/kd_discover.py`: which task configuration is in force after importing data, what is
shared between estimators through the class `Program`, the rounds of `callIterPINN`, and the order in which
random numbers are drawn and seeds are set. -/
namespace Verif.Discover.Facade

/-! ## Choosing the function set -/

/-- `_DIFF_TOKENS_BY_DIM` (kd_discover.py:361-365). -/
def diffTokens : Int → Option (List String)
  | 1 => some ["diff", "diff2", "diff3"]
  | 2 => some ["Diff", "Diff2", "lap"]
  | 3 => some ["Diff_3", "Diff2_3", "lap_3"]
  | _ => none

/-- `_DIFF_TOKENS_TORCH_BY_DIM` (kd_discover.py:369-373). -/
def diffTokensTorch : Int → Option (List String)
  | 1 => some ["diff_t", "diff2_t", "diff3_t"]
  | 2 => some ["lap_t"]
  | 3 => some ["lap_t"]
  | _ => none

/-- `_ALL_DIFF_TOKENS` (kd_discover.py:375-380). -/
def allDiffTokens : List String :=
  ["diff", "diff2", "diff3", "diff4", "Diff", "Diff2", "lap", "Diff_3", "Diff2_3", "lap_3",
   "diff_t", "diff2_t", "diff3_t", "diff4_t", "lap_t"]

/-- `list(dict.fromkeys(l))`: first occurrences, in order. -/
def fromKeys : List String → List String → List String
  | _, [] => []
  | seen, t :: ts => if t ∈ seen then fromKeys seen ts else t :: fromKeys (t :: seen) ts

/-- `t.endswith("_t")` (kd_discover.py:423). -/
def isTorchName (t : String) : Bool := decide (['_', 't'] <:+ t.toList)

/-- `_auto_select_function_set` (kd_discover.py:399-436) for the snapshot `base` of the configured set and
the data's `n_input_dim`. -/
def autoSelect (base : List String) (nDim : Int) : List String :=
  if nDim ≤ 1 then base
  else
    let tokenMap := if base.any isTorchName then diffTokensTorch else diffTokens
    match tokenMap nDim with
    | none => base
    | some newDiff => fromKeys [] (newDiff ++ base.filter (fun t => t ∉ allDiffTokens))

/-! ## Importing data -/

/-- The entries of `data_class.get_data()` that reach the configuration. -/
structure Data where
  /-- `data.get("n_input_dim")` -/
  nInputDim : Option Int
  /-- `data.get("n_param_var")` -/
  nParamVar : Option Nat
  paramNames : Option (List String)
  /-- stands for the numbers themselves -/
  payload : Nat
  deriving DecidableEq

inductive Kind where
  | regular
  /-- `KD_Discover_SPR` -/
  | spr
  deriving DecidableEq

/-- What a constructed estimator never changes: the operators the user gave, and the values read from the
merged configuration (kd_discover.py:94-105, 289-291, 498-501). -/
structure Base where
  kind : Kind
  operator : List String
  functionSet : List String
  inputDim : Int
  generationType : String
  nInputVar : Int
  seed : String

/-- The part of `config_task`/`config_pinn` that importing data writes to. -/
structure Cfg where
  functionSet : List String
  dataset : Option String
  inputDim : Int
  generationType : String
  nInputVar : Int
  nParamVar : Nat
  /-- `none`: the key is absent -/
  paramNames : Option (Option (List String))
  deriving DecidableEq

structure Est where
  base : Base
  cfg : Cfg
  /-- `self.dataset` -/
  name : Option String
  /-- `self.data_class` -/
  data : Option Data
  outPath : Option String

/-- A freshly constructed estimator (kd_discover.py:74-105, 476-501). `dataset` still has the configured
placeholder. -/
def Est.fresh (b : Base) (outPath : Option String) : Est :=
  { base := b, name := none, data := none, outPath,
    cfg := { functionSet := b.functionSet, dataset := some "dataset_name", inputDim := b.inputDim,
             generationType := b.generationType, nInputVar := b.nInputVar, nParamVar := 0, paramNames := none } }

/-- `os.path.join(a, b)` on POSIX. -/
def joinPath (a b : String) : String :=
  if ['/'] <+: b.toList then b
  else if a = "" ∨ ['/'] <:+ a.toList then a ++ b
  else a ++ "/" ++ b

/-- `f"discover_{name}_{seed}.csv"` joined to the current path (kd_discover.py:184-188, 556-560). -/
def Est.extendPath (e : Est) (name : String) : Est :=
  { e with outPath := e.outPath.map fun p => joinPath p ("discover_" ++ name ++ "_" ++ e.base.seed ++ ".csv") }

/-- `_inject_nd_config` (kd_discover.py:565-590). -/
def injectNd (b : Base) (c : Cfg) (d : Data) : Cfg :=
  let c := { c with inputDim := b.inputDim, generationType := b.generationType, nInputVar := b.nInputVar,
                    nParamVar := 0, paramNames := none }
  let n := d.nInputDim.getD 1
  let c := if n > 1 then { c with inputDim := n + 1, generationType := "multi_AD", nInputVar := n } else c
  let k := d.nParamVar.getD 0
  if k > 0 then { c with nParamVar := k, paramNames := some d.paramNames } else c

/-- `set_task` up to the call that builds the task (kd_discover.py:382-397); what happens afterwards does
not touch the configuration. -/
def Est.setTask (e : Est) : Est :=
  { e with cfg := { e.cfg with
      dataset := e.name
      functionSet := if e.base.operator ≠ [] then e.base.operator
        else match e.data with
          | none => e.base.functionSet
          | some d => autoSelect e.base.functionSet (d.nInputDim.getD 1) } }

/-- One call on the estimator.  `data = none` in `imp` means that the adapter refuses the data set (it
raises before anything is changed).  Whether the rest of the set-up raises does not matter for the
configuration: everything modelled here has been written by then. -/
inductive Op where
  /-- `import_dataset(dataset, dataset_name=…)` with the resolved name -/
  | imp (name : String) (data : Option Data)
  /-- `KD_Discover_SPR.fit(x, y, domains)` -/
  | fitRaw (data : Data) (newPath : Option String)
  /-- `train(…)`; for SPR it sets up again and then writes `out_path` (to whatever) -/
  | train (newPath : Option String)

/-- `import_dataset` (kd_discover.py:154-191, 503-563), `fit` (732-747), `train` (704-718, 262-272). -/
def Est.step (e : Est) : Op → Est
  | .imp _ none => e
  | .imp name (some d) =>
    match e.base.kind with
    | .regular => ({ e with data := some d, name := some name }.extendPath name).setTask
    | .spr =>
      let e := { e with data := some d }
      let e := { e with cfg := injectNd e.base e.cfg d }
      ({ e with name := some name }.extendPath name).setTask
  | .fitRaw d newPath =>
    match e.base.kind with
    | .regular => e                       -- `KD_Discover.fit` always raises (kd_discover.py:209-223)
    | .spr => { ({ e with data := some d }.setTask) with outPath := newPath }
  | .train newPath =>
    match e.base.kind with
    | .regular => e
    | .spr => { e.setTask with outPath := newPath }

def Est.run (e : Est) (ops : List Op) : Est := ops.foldl Est.step e

/-! ## What estimators share -/

inductive Exec where
  | numpy
  | torch
  deriving DecidableEq

/-- The class attributes of `Program` (program.py:218-231) that every estimator reads and writes. -/
structure Shared where
  /-- `Program.task`: the data it was loaded with -/
  task : Option Nat
  /-- `Program.execute_function` -/
  exec : Exec

/-- Calls of several estimators in one process, in order. -/
inductive Call where
  /-- `e.import_dataset(d)` of a `KD_Discover` -/
  | importRegular (e d : Nat)
  /-- `e.train()` of a `KD_Discover` -/
  | trainRegular (e : Nat)
  /-- `e.import_dataset(d)` of a `KD_Discover_SPR` -/
  | importSpr (e d : Nat)
  /-- `e.train()` of a `KD_Discover_SPR` -/
  | trainSpr (e : Nat)
  /-- `e.fit(X, y)` of a `KD_Discover_Regression` -/
  | fitRegression (e d : Nat)
  /-- `e.predict(X)` of a `KD_Discover_Regression` -/
  | predict (e : Nat)

/-- What a call does with data. -/
inductive Effect where
  | nothing
  /-- programs are searched and scored on this data -/
  | trainedOn (d : Option Nat)
  /-- the stored program is evaluated by this executor -/
  | evaluatedBy (x : Exec)
  deriving DecidableEq

/-- The process: the shared attributes and each estimator's own `data_class`. -/
structure Process where
  shared : Shared
  own : Nat → Option Nat

def Process.start : Process := ⟨⟨none, .numpy⟩, fun _ => none⟩

/-- `set_task` (task.py:233-244, program.py:555-560, 600-608) called from `setup` (kd_discover.py:107-129). -/
def Process.setup (p : Process) (e : Nat) (x : Exec) : Process :=
  { p with shared := ⟨p.own e, x⟩ }

def Process.give (p : Process) (e d : Nat) : Process :=
  { p with own := fun e' => if e' = e then some d else p.own e' }

/-- One call: `import_dataset` (kd_discover.py:154-191, 503-563), `train` of `KD_Discover` (262-272: no
set-up), `train` of `KD_Discover_SPR` (704-718: sets up again), `fit` and `predict` of
`KD_Discover_Regression` (kd_discover_regression.py:82-107, 115-132). -/
def Process.call (p : Process) : Call → Process × Effect
  | .importRegular e d => ((p.give e d).setup e .numpy, .nothing)
  | .trainRegular _ => (p, .trainedOn p.shared.task)
  | .importSpr e d => ((p.give e d).setup e .torch, .nothing)
  | .trainSpr e => let p := p.setup e .torch; (p, .trainedOn p.shared.task)
  | .fitRegression e d => let p := (p.give e d).setup e .numpy; (p, .trainedOn p.shared.task)
  | .predict _ => (p, .evaluatedBy p.shared.exec)

def Process.calls (p : Process) (cs : List Call) : Process := cs.foldl (fun p c => (p.call c).1) p

/-! ## The rounds of `callIterPINN` -/

/-- `callIterPINN` (kd_discover.py:637-689).  `found i` is the best program of the `i`-th search and
`reward i p` the reward of `p` on the data of round `i` (the cache is cleared and the data regenerated
between rounds).  Returns the programs handed to the network in rounds `0 … n-1`.  `better a b` is the
comparison `a > b` of line 666. -/
def carried {P R : Type} (better : R → R → Bool) (reward : Nat → P → R) (found : Nat → P) : Nat → P
  | 0 => found 0
  | i + 1 =>
    let last := carried better reward found i
    if better (reward (i + 1) last) (reward (i + 1) (found (i + 1))) then last else found (i + 1)

/-- What `callIterPINN` returns: the result of one more search (line 689). -/
def finalResult {P : Type} (found : Nat → P) (n : Nat) : P := found n

/-! ## Random numbers -/

/-- The randomised parts of a run.  `S` is the state of the global generators (numpy, random, torch). -/
structure Machine (S W D C R : Type) where
  /-- `set_seeds` (kd_discover.py:438-447) -/
  seeded : Nat → S
  /-- initial weights of the controller (controller.py:30-31, 37-51) -/
  initWeights : S → W × S
  /-- train/validation split and Latin hypercube of the sparse data, drawn from the global generator (data.py:229-247) -/
  colloc : S → D → C × S
  /-- initial weights of the PINN -/
  initPinn : S → W × S
  /-- the search from the set-up state -/
  search : W → S → D → R
  searchSpr : W → W → S → D → C → R

variable {S W D C R : Type}

/-- `KD_Discover.fit_dataset`: `setup` makes the controller first and sets the seeds last
(kd_discover.py:107-129, 225-248). -/
def Machine.fitRegular (m : Machine S W D C R) (ambient : S) (seed : Nat) (d : D) : R :=
  let (w, _) := m.initWeights ambient
  m.search w (m.seeded seed) d

/-- `KD_Discover_SPR.fit_dataset`: the adapter draws the collocation points, `setup` runs (controller, seeds,
PINN), and `train` runs `setup` again (kd_discover.py:503-563, 608-612, 704-718). -/
def Machine.fitSpr (m : Machine S W D C R) (ambient : S) (seed : Nat) (d : D) : R :=
  let (c, s) := m.colloc ambient d
  let (_, _) := m.initWeights s
  let (_, s) := m.initPinn (m.seeded seed)
  let (w, _) := m.initWeights s
  let (v, s) := m.initPinn (m.seeded seed)
  m.searchSpr w v s d c

end Verif.Discover.Facade
