/-!
# The web form: offers, local training and figures (app.py:48-196, 246-333, 446-480; kd/viz/_style.py:33-47)

Gradio itself, fitting and drawing are parameters.  What is modelled: which models are offered for a dataset, which modules the form imports, what it
shows after training, and the directory for figures that the form sets.
-/
namespace Verif.App.Form

/-- An entry of the registry of datasets (kd/dataset/_registry.py:42-200): the models it is marked for and whether it is pending. -/
structure Entry where
  models : List (String × Bool)
  pending : Bool
deriving DecidableEq, Repr

/-- kd/dataset/_registry.py:42-200: the registry as shipped (models and status). -/
def shipped : List (String × Entry) :=
  let e := fun (a b c d : Bool) => [("sga", a), ("discover", b), ("discover_spr", c), ("dlga", d)]
  [("chafee-infante", ⟨e true true false true, false⟩), ("burgers", ⟨e true true true true, false⟩),
   ("burgers-reflib", ⟨e true true true true, false⟩), ("kdv", ⟨e true true false true, false⟩),
   ("PDE_divide", ⟨e false true false false, false⟩), ("PDE_compound", ⟨e false true false false, false⟩),
   ("fisher", ⟨e false true false false, false⟩), ("fisher_linear", ⟨e false true false false, false⟩),
   ("advection_diffusion", ⟨e false false false false, true⟩)]

/-- app.py:52-58 `MODEL_KEYS` -/
def modelKeys : List (String × String) :=
  [("KD_SGA", "sga"), ("KD_DLGA", "dlga"), ("KD_DSCV", "dscv"), ("KD_DSCV_SPR", "dscv_spr"), ("KD_EqGPT", "eqgpt")]

/-- app.py:60-63: the datasets offered (before sorting). -/
def active (reg : List (String × Entry)) : List String := (reg.filter fun p => !p.2.pending).map Prod.fst

/-- app.py:89-102 `get_compatible_models` -/
def compatible (reg : List (String × Entry)) (name : String) : List String :=
  if name = "" then []
  else
    let models := ((reg.lookup name).map Entry.models).getD []
    let result := (modelKeys.filter fun p => (models.lookup p.2).getD false).map Prod.fst
    if "KD_EqGPT" ∈ result then result else result ++ ["KD_EqGPT"]

/-- app.py:105-109 `on_dataset_change`: the choices and the model chosen. -/
def onDataset (reg : List (String × Entry)) (name : String) : List String × Option String := (compatible reg name, (compatible reg name).head?)

/-- What the form needs from the models; `M` are fitted models, `F` figures. -/
structure Env (M F : Type) where
  /-- the modules under kd/model -/
  modules : List String
  /-- `load_pde` works -/
  loads : String → Bool
  /-- constructing and fitting: the model and the equation it reports; `none`: an exception -/
  fit : String → String → Option (M × Option String)
  /-- `equation_latex` of an SGA model; `none`: an exception -/
  latex : M → Option String
  /-- `eq_latex` of a DLGA model; `none` or empty: missing -/
  eqLatex : M → Option String
  /-- `list_capabilities` -/
  capabilities : M → List String
  isSpr : M → Bool
  /-- `_render_equation_fig` -/
  figure : M → String → Option F

/-- The modules of kd/model in the repository. -/
def shippedModules : List String := ["discover", "dlga", "eqgpt", "kd_discover", "kd_discover_regression", "kd_dlga", "kd_eqgpt", "kd_pysr", "kd_sga", "sga"]

/-- The module a model of the form is imported from (app.py:259, 274, 284, 296, 307); `none`: unknown model. -/
def moduleOf : String → Option String
  | "KD_EqGPT" => some "kd_eqgpt"
  | "KD_SGA" => some "kd_sga"
  | "KD_DLGA" => some "kd_dlga"
  | "KD_DSCV" => some "kd_dscv"
  | "KD_DSCV_SPR" => some "kd_dscv"
  | _ => none

/-- app.py:143-155 `_get_equation_text`; `none`: an exception. -/
def equationText {M F : Type} (env : Env M F) (name : String) (m : M) (result : Option String) : Option String :=
  if name = "KD_SGA" then env.latex m
  else if name = "KD_DLGA" then some (((env.eqLatex m).filter (· != "")).getD "(equation renderer unavailable)")
  else if name = "KD_EqGPT" then some (result.getD "(no equation found)")
  else some (result.getD "(no expression found)")

/-- app.py:158-168 `_get_model_capabilities` before sorting; `none`: ModuleNotFoundError. -/
def plotTypes {M F : Type} (env : Env M F) (m : M) : Option (List String) :=
  if "kd_dscv" ∈ env.modules then
    some (if env.isSpr m then env.capabilities m else (env.capabilities m).filter fun c => !("spr_".isPrefixOf c))
  else none

/-- What the form shows after training. -/
inductive Shown (M F : Type) where
  | selectFirst
  | unknownModel
  | trainingError
  | result (equation : String) (figure : Option F) (model : M) (plots : List String)

/-- app.py:317-322: equation, figure and plot types of a fitted model; `none`: an exception. -/
def present {M F : Type} (env : Env M F) (name : String) (m : M) (r : Option String) : Option (Shown M F) :=
  (equationText env name m r).bind fun eq =>
    (if name = "KD_EqGPT" then some [] else plotTypes env m).map fun caps => .result eq (env.figure m eq) m caps

/-- app.py:246-333 `_run_local`: an exception anywhere is a training error. -/
def runLocal {M F : Type} (env : Env M F) (dataset name : String) : Shown M F :=
  if name ≠ "KD_EqGPT" ∧ env.loads dataset = false then .trainingError
  else match moduleOf name with
    | none => .unknownModel
    | some mod =>
      if mod ∈ env.modules then
        match env.fit dataset name with
        | none => .trainingError
        | some (m, r) => (present env name m r).getD .trainingError
      else .trainingError

/-- app.py:206-243 `run_training` away from the job service -/
def runTraining {M F : Type} (env : Env M F) (dataset name : String) : Shown M F :=
  if dataset = "" ∨ name = "" then .selectFirst else runLocal env dataset name

/-! ## Figures -/

/-- kd/viz/_style.py:42-43: `configure(save_dir=…)` keeps the old directory for None. -/
def configureDir (old : Option String) : Option String → Option String
  | none => old
  | some d => some d

/-- What `render` returns, or its exception; `F` are figures, files are readable images. -/
inductive Rendered (F : Type) where
  | raised (msg : String)
  | done (figure : Option F) (warnings : List String) (files : List F)

/-- app.py:459-477: figure and message -/
def vizAnswer {F : Type} (kind : String) : Rendered F → Option F × String
  | .raised e => (none, "Visualization error: " ++ e)
  | .done _ (w :: ws) _ => (none, "\n".intercalate (w :: ws))
  | .done (some f) [] _ => (some f, "'" ++ kind ++ "' generated.")
  | .done none [] (f :: _) => (some f, "'" ++ kind ++ "' generated.")
  | .done none [] [] => (none, "No output for '" ++ kind ++ "'.")

/-- app.py:446-480 `run_viz`: the directory for figures afterwards and the answer.  `tmp` is the temporary directory (removed at the end); `draw` may
use the configured directory. -/
def runViz {M F : Type} (tmp : String) (draw : Option String → M → Rendered F) (dir : Option String) (kind : String) : Option M → Option String × (Option F × String)
  | none => (dir, (none, "Please train a model first."))
  | some m =>
    let inside := configureDir dir (some tmp)
    (configureDir inside none, vizAnswer kind (draw inside m))

end Verif.App.Form
