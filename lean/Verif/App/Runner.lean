import Verif.Discover.RegressionText
/-!
# The batch runner, GPU jobs and the web form (kd/runner.py, kd/job.py, app.py)

Every effect (reading a file, training, writing, printing) is a parameter that may return, raise an `Exception`, or be the point at
which the process is killed.
-/
namespace Verif.App

/-- What happens at one effect. -/
inductive Step (α : Type) where
  | ret (a : α)
  /-- an `Exception` -/
  | exc
  /-- the process is killed (or a `BaseException` such as `KeyboardInterrupt` arrives) -/
  | kill

/-! ## Loading the data set -/

/-- The entries of the configuration that `load_dataset` and `main` read (`none`: absent or `null`). -/
structure Config where
  model : Option String
  datasetName : Option String
  datasetFile : Option String
  deriving DecidableEq

/-- Python truth of an optional string. -/
def truthy : Option String → Bool
  | some s => s ≠ ""
  | none => false

/-- What was loaded. -/
inductive Source where
  | file (path : String)
  | named (name : String)
  deriving DecidableEq

/-- runner.py:38-79 `load_dataset`: where the data come from (`none`: neither given, ValueError). -/
def source (exists_ : String → Bool) (c : Config) : Option Source :=
  let fromName := if truthy c.datasetName then c.datasetName.map .named else none
  match c.datasetFile with
  | some f => if f ≠ "" ∧ exists_ f then some (.file f) else fromName
  | none => fromName

/-- runner.py:202 `dataset_info`: the label of the data set in the result; `none` is JSON `null`. `hasFileKey`: the configuration
has an entry `dataset_file`, possibly `null`. -/
def label (hasFileKey : Bool) (c : Config) : Option String :=
  if truthy c.datasetName then c.datasetName
  else if hasFileKey then c.datasetFile else some "unknown"

/-! ## Writing the result -/

inductive Status where
  | success
  | error
  deriving DecidableEq

/-- The content of `result.json` (elapsed time and parameters left out). -/
structure Result where
  model : String
  dataset : Option String
  equation : String
  status : Status
  deriving DecidableEq

/-- A result file: a complete JSON text, or one cut off while it was being written (not valid JSON). -/
inductive File where
  | whole (r : Result)
  | torn
  deriving DecidableEq

/-- The effects of one call of `save_output`. -/
structure SaveEnv where
  mkdir : Step Unit
  open_ : Step Unit
  /-- `json.dump` and closing the file -/
  dump : Step Unit
  print : Step Unit

/-- runner.py:131-148 `save_output`: the result file afterwards, and how the call ended. -/
def saveOutput (env : SaveEnv) (old : Option File) (r : Result) : Option File × Step Unit :=
  match env.mkdir with
  | .kill => (old, .kill)
  | .exc => (old, .exc)
  | .ret _ =>
    match env.open_ with
    | .kill => (old, .kill)
    | .exc => (old, .exc)
    | .ret _ =>                       -- the old content is gone
      match env.dump with
      | .kill => (some .torn, .kill)
      | .exc => (some .torn, .exc)
      | .ret _ => (some (.whole r), env.print)

/-- The effects of one run of `main`, in order. -/
structure Env where
  /-- the lines printed before training starts (204-207) -/
  printHead : Step Unit
  exists_ : String → Bool
  load : Source → Step Nat
  /-- training the model with this name on the data: the equation -/
  fit : String → Nat → Step String
  save : SaveEnv
  viz : Step Unit
  printDone : Step Unit
  printError : Step Unit
  saveError : SaveEnv

/-- How the process ended. -/
inductive Exit where
  | zero
  /-- `sys.exit(1)` or an uncaught exception -/
  | one
  | killed
  deriving DecidableEq

/-- runner.py:123-126 `RUNNERS`. -/
def runners : List String := ["dlga", "dscv_spr"]

/-- runner.py:220-225, the `except` block. -/
def onError (env : Env) (model : String) (lab : Option String) (file : Option File) : Option File × Exit :=
  match env.printError with
  | .kill => (file, .killed)
  | .exc => (file, .one)
  | .ret _ =>
    match saveOutput env.saveError file ⟨model, lab, "(error)", .error⟩ with
    | (file, .kill) => (file, .killed)
    | (file, _) => (file, .one)

/-- runner.py:211-212: loading and training. -/
def train (env : Env) (model : String) (c : Config) : Step String :=
  match source env.exists_ c with
  | none => .exc
  | some s => match env.load s with
    | .kill => .kill
    | .exc => .exc
    | .ret d => env.fit model d

/-- runner.py:183-225 `main` after the configuration has been read. `file` is the `result.json` already in the output directory.
`save_viz` (151-178) catches every `Exception`. -/
def main (env : Env) (hasFileKey : Bool) (c : Config) (file : Option File) : Option File × Exit :=
  if truthy c.model = false then (file, .one)
  else
    let model := c.model.getD ""
    if model ∉ runners then (file, .one)
    else
      match env.printHead with
      | .kill => (file, .killed)
      | .exc => (file, .one)
      | .ret _ =>
        let lab := label hasFileKey c
        match train env model c with
        | .kill => (file, .killed)
        | .exc => onError env model lab file
        | .ret e =>
          match saveOutput env.save file ⟨model, lab, e, .success⟩ with
          | (file, .kill) => (file, .killed)
          | (file, .exc) => onError env model lab file
          | (file, .ret _) =>
            match env.viz with
            | .kill => (file, .killed)
            | _ => match env.printDone with
              | .kill => (file, .killed)
              | .exc => onError env model lab file
              | .ret _ => (file, .zero)

/-! ## Jobs -/

/-- job.py:57-126 `submit_gpu_job`: the configuration uploaded with the job (the uploaded data file is not mentioned in it). -/
def submitConfig (model : String) (datasetName : Option String) (_datasetFile : Option String) : Config :=
  { model := some model, datasetName := if truthy datasetName then datasetName else none, datasetFile := none }

/-- The effects of `submit_gpu_job` after the temporary file has been made. -/
structure SubmitEnv where
  write : Step Unit
  /-- the project id found on the server; `none`: no project -/
  project : Step (Option Nat)
  submit : Step Nat

/-- job.py:85-126: whether the temporary configuration file is left behind, and how the call ended. `pid` is the project id given by
the caller or the environment (0: none). -/
def submitJob (env : SubmitEnv) (pid : Nat) : Bool × Step Nat :=
  let body : Step Nat :=
    match env.write with
    | .kill => .kill
    | .exc => .exc
    | .ret _ =>
      if pid ≠ 0 then env.submit
      else match env.project with
        | .kill => .kill
        | .exc => .exc
        | .ret none => .exc
        | .ret (some _) => env.submit
  match body with
  | .kill => (true, .kill)          -- (an interrupt would still run `finally`)
  | r => (false, r)

/-- job.py:28-33 `JOB_STATUS_MAP`. -/
def statusMap : List (Int × String) :=
  [(0, "Pending"), (1, "Running"), (2, "Packaging"), (3, "Submitted"), (4, "Running"), (5, "Running"), (6, "Running"),
   (7, "Running"), (8, "Running"), (9, "DownloadOutput"), (10, "Finished"), (11, "Finished"), (12, "Failed"), (13, "Error")]

structure JobStatus where
  text : String
  finished : Bool
  failed : Bool
  deriving DecidableEq

/-- job.py:129-147 `check_job` for the status code of the server. -/
def checkJob (code : Int) : JobStatus :=
  { text := (statusMap.lookup code).getD ("Unknown(" ++ toString code ++ ")"),
    finished := code = 10 ∨ code = 11, failed := code = 12 ∨ code = 13 }

/-- job.py:150-172 `download_result` for the file found after downloading; `json.load` of a torn file raises. -/
def downloadResult : Option File → Option (Status × String)
  | none => some (.error, "(result.json not found)")
  | some .torn => none
  | some (.whole r) => some (r.status, r.equation)

/-! ## The web form -/

/-- What the status check of the form shows. -/
inductive Shown where
  | nothing
  | submitted (job : Nat)
  | submitError
  | localRun
  | noJob
  | checkFailed
  | failed
  | running
  | equation (text : String)
  | downloadFailed
  deriving DecidableEq

/-- What a user does with the form, with the answers of the server. -/
inductive Click where
  /-- training on the GPU platform; `none`: submission failed -/
  | submit (job : Option Nat)
  /-- training in the process -/
  | runLocal
  /-- checking; the status code of the asked job (`none`: the request failed) and what its output directory holds (`none`: the
  download failed) -/
  | check (code : Nat → Option Int) (output : Nat → Option (Option File))

/-- app.py:205-243 `run_training`, 336-375 `_submit_gpu_training`, 378-440 `check_gpu_status`: the job the form remembers
(`job_state`) and what it shows.  A job id is positive. -/
def click (job : Option Nat) : Click → Option Nat × Shown
  | .submit (some id) => (some id, .submitted id)
  | .submit none => (none, .submitError)
  | .runLocal => (none, .localRun)
  | .check code output =>
    match job with
    | none => (none, .noJob)
    | some id =>
      match code id with
      | none => (some id, .checkFailed)
      | some c =>
        let s := checkJob c
        if s.failed then (none, .failed)
        else if ¬ s.finished then (some id, .running)
        else match (output id).bind downloadResult with
          | none => (none, .downloadFailed)
          | some (_, eq) => (none, .equation eq)

/-- A session of the form: what is shown after every click. -/
def session : Option Nat → List Click → List Shown
  | _, [] => []
  | job, c :: cs => (click job c).2 :: session (click job c).1 cs

def sessionState (job : Option Nat) (cs : List Click) : Option Nat := cs.foldl (fun j c => (click j c).1) job

/-! ## Settings -/

/-- `s.strip()`; `ws` says which characters are white space. -/
def strip (ws : Char → Bool) (s : List Char) : List Char := ((s.dropWhile ws).reverse.dropWhile ws).reverse

/-- runner.py:31-35 and app.py:138-140 `_parse_ops` for a string. -/
def parseOps (ws : Char → Bool) (s : List Char) : List (List Char) :=
  ((Verif.Discover.RegressionText.splitComma s).map (strip ws)).filter (· ≠ [])

/-- Values of form fields and of JSON: `int(v)`, `float(v)` (`none`: raises), and Python truth. -/
structure Values where
  V : Type
  F : Type
  toInt : V → Option Int
  toFloat : V → Option F
  truth : V → Bool
  /-- `json.loads(json.dumps(·))` of an int, of a float -/
  ofInt : Int → V
  ofFloat : F → V
  int_ofInt : ∀ i, toInt (ofInt i) = some i
  float_ofFloat : ∀ f, toFloat (ofFloat f) = some f
  truth_ofInt : ∀ i, truth (ofInt i) = decide (i ≠ 0)

/-- The fields of the form that concern the two GPU models. -/
structure Form (𝒱 : Values) where
  dlgaOps : List Char
  dlgaEpi : 𝒱.V
  dlgaMaxIter : 𝒱.V
  dlgaSample : Option 𝒱.V
  binary : List Char
  unary : List Char
  batch : 𝒱.V
  seed : 𝒱.V
  sprEpochs : 𝒱.V
  sprRatio : 𝒱.V

/-- How a model is constructed and fitted. -/
inductive Call (𝒱 : Values) where
  | dlga (ops : List (List Char)) (epi : 𝒱.F) (inputDim : Int) (maxIter : Int) (sample : Option Int)
  | spr (binary unary : List (List Char)) (batch seed : Int) (epochs : Int) (ratio : 𝒱.F)

inductive GpuModel where
  | dlga
  | spr
  deriving DecidableEq

variable {𝒱 : Values}

/-- `int(s) if s else None`; the outer `none` is an exception. -/
def optInt (𝒱 : Values) (s : Option 𝒱.V) : Option (Option Int) :=
  match s with
  | none => some none
  | some v => if 𝒱.truth v then (𝒱.toInt v).map some else some none

/-- app.py:246-333 `_run_local` for the two GPU models. -/
def localCall (ws : Char → Bool) (m : GpuModel) (f : Form 𝒱) : Option (Call 𝒱) :=
  match m with
  | .dlga => do
    let epi ← 𝒱.toFloat f.dlgaEpi
    let maxIter ← 𝒱.toInt f.dlgaMaxIter
    let sample ← optInt 𝒱 f.dlgaSample
    some (.dlga (parseOps ws f.dlgaOps) epi 2 maxIter sample)
  | .spr => do
    let batch ← 𝒱.toInt f.batch
    let seed ← 𝒱.toInt f.seed
    let epochs ← 𝒱.toInt f.sprEpochs
    let ratio ← 𝒱.toFloat f.sprRatio
    some (.spr (parseOps ws f.binary) (parseOps ws f.unary) batch seed epochs ratio)

/-- The parameters in the job's configuration file. -/
inductive Params (𝒱 : Values) where
  | dlga (ops : List Char) (epi maxIter : 𝒱.V) (sample : Option 𝒱.V)
  | spr (binary unary : List Char) (batch seed epochs ratio : 𝒱.V)

/-- app.py:343-361, the parameters `_submit_gpu_training` sends. -/
def gpuParams (m : GpuModel) (f : Form 𝒱) : Option (Params 𝒱) :=
  match m with
  | .dlga => do
    let epi ← 𝒱.toFloat f.dlgaEpi
    let maxIter ← 𝒱.toInt f.dlgaMaxIter
    let sample ← optInt 𝒱 f.dlgaSample
    some (.dlga f.dlgaOps (𝒱.ofFloat epi) (𝒱.ofInt maxIter) (sample.map 𝒱.ofInt))
  | .spr => do
    let batch ← 𝒱.toInt f.batch
    let seed ← 𝒱.toInt f.seed
    let epochs ← 𝒱.toInt f.sprEpochs
    let ratio ← 𝒱.toFloat f.sprRatio
    some (.spr f.binary f.unary (𝒱.ofInt batch) (𝒱.ofInt seed) (𝒱.ofInt epochs) (𝒱.ofFloat ratio))

/-- runner.py:84-98 `run_dlga`, 101-121 `run_dscv_spr` (all parameters are present in a job of the form; `input_dim` is not and has
the default 2). -/
def runnerCall (ws : Char → Bool) (p : Params 𝒱) : Option (Call 𝒱) :=
  match p with
  | .dlga ops epi maxIter sample => do
    let epi ← 𝒱.toFloat epi
    let maxIter ← 𝒱.toInt maxIter
    let sample ← optInt 𝒱 sample
    some (.dlga (parseOps ws ops) epi 2 maxIter sample)
  | .spr b u batch seed epochs ratio => do
    let batch ← 𝒱.toInt batch
    let seed ← 𝒱.toInt seed
    let epochs ← 𝒱.toInt epochs
    let ratio ← 𝒱.toFloat ratio
    some (.spr (parseOps ws b) (parseOps ws u) batch seed epochs ratio)

end Verif.App
