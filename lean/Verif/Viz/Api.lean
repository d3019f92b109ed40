import Verif.Viz.Registry
/-!
# Model of kd/viz/api.py (the plot helpers), kd/viz/adapters.py (default registration), the tables of the four adapters and kd/viz/_helpers.py

Values of options are the elements of a type `V` (`none`: Python's None).  Classes are the shipped model classes, others, and classes derived from these.
Not modelled here: style and backend of `render` (C58), the drawing itself.
-/
namespace Verif.Viz.Api
open Verif.Viz

/-- A dictionary of keyword arguments. -/
abbrev Kw (V : Type) := List (String × Option V)

/-- How a named parameter of a helper reaches the payload. -/
inductive Put (V : Type) where
  | required (k : String)
  | optional (k : String)
  | default (k : String) (v : V)

def Put.key {V : Type} : Put V → String
  | .required k => k
  | .optional k => k
  | .default k _ => k

/-- A helper: its intent and its named parameters other than `model` and `show_info`, in the order in which they are put into the payload. -/
structure Helper (V : Type) where
  name : String
  kind : String
  puts : List (Put V)

/-- api.py:10-129: the ten helpers (`four` is the integer 4, default of `top_n_terms`). -/
def helpers {V : Type} (four : V) : List (Helper V) :=
  [⟨"plot_training_curve", "training_curve", []⟩,
   ⟨"plot_validation_curve", "validation_curve", []⟩,
   ⟨"plot_search_evolution", "search_evolution", []⟩,
   ⟨"plot_optimization", "optimization", []⟩,
   ⟨"plot_time_slices", "time_slices", [.optional "spatial_coords", .optional "x_coords", .required "t_coords", .required "true_field", .required "predicted_field",
     .optional "slice_times"]⟩,
   ⟨"render_equation", "equation", []⟩,
   ⟨"plot_residuals", "residual", [.required "actual", .required "predicted", .optional "coordinates"]⟩,
   ⟨"plot_field_comparison", "field_comparison", [.optional "spatial_coords", .optional "x_coords", .required "t_coords", .required "true_field",
     .required "predicted_field", .optional "residual_field"]⟩,
   ⟨"plot_derivative_relationships", "derivative_relationships", [.default "top_n_terms" four]⟩,
   ⟨"plot_parity", "parity", [.optional "title"]⟩]

/-- One assignment `payload[k] = …` of a helper; `none`: the argument is missing (TypeError). -/
def put {V : Type} (kw d : Kw V) : Put V → Option (Kw V)
  | .required k => (dget kw k).map fun v => dput d k v
  | .optional k => match dget kw k with
    | some (some v) => some (dput d k (some v))
    | _ => some d
  | .default k v => some (dput d k ((dget kw k).getD (some v)))

/-- The assignments in order. -/
def putAll {V : Type} (kw : Kw V) : Kw V → List (Put V) → Option (Kw V)
  | d, [] => some d
  | d, p :: ps => (put kw d p).bind fun d' => putAll kw d' ps

/-- The options of the request (api.py:10-129) for a call `helper(model, **kw)`: `**options` takes the keyword arguments the signature does not name; `none`: TypeError
(a required argument is missing, or `model` is given twice). -/
def payload {V : Type} (h : Helper V) (kw : Kw V) : Option (Kw V) :=
  if (dget kw "model").isSome then none
  else putAll kw (kw.filter fun p => p.1 ∉ "show_info" :: h.puts.map Put.key) h.puts

/-! ### Results and the printed line -/

/-- core.py:30-36 `VizResult`: warnings, saved files and whether there is a figure. -/
structure Result where
  warnings : List String
  paths : List String
  figure : Bool
deriving DecidableEq, Repr

/-- `sep.join(l)` -/
def join (sep : String) : List String → String
  | [] => ""
  | [a] => a
  | a :: b :: l => a ++ sep ++ join sep (b :: l)

/-- api.py:140-150 `_emit_info` -/
def line (kind : String) (r : Result) : String :=
  if r.warnings ≠ [] then "[kd.viz." ++ kind ++ "] warning: " ++ join "; " r.warnings
  else if r.paths ≠ [] then "[kd.viz." ++ kind ++ "] saved: " ++ join ", " r.paths
  else if r.figure then "[kd.viz." ++ kind ++ "] figure ready"
  else "[kd.viz." ++ kind ++ "] produced no output"

/-! ### The shipped adapters -/

/-- The four adapters. -/
inductive Ad where
  | dlga | discover | sga | pysr
deriving DecidableEq, Repr

/-- _adapters/dlga.py:27-38, discover.py:30-40, sga.py:23-29, pysr.py:26-30 `capabilities` -/
def Ad.caps : Ad → List String
  | .dlga => ["training_curve", "validation_curve", "search_evolution", "equation", "residual", "optimization", "field_comparison", "time_slices",
      "derivative_relationships", "parity"]
  | .discover => ["search_evolution", "density", "tree", "equation", "residual", "field_comparison", "parity", "spr_residual", "spr_field_comparison"]
  | .sga => ["equation", "field_comparison", "time_slices", "parity", "residual"]
  | .pysr => ["equation", "parity", "residual"]

/-- The class names of the adapters. -/
def Ad.cls : Ad → String
  | .dlga => "DLGAVizAdapter"
  | .discover => "DiscoverVizAdapter"
  | .sga => "SGAVizAdapter"
  | .pysr => "PySRVizAdapter"

/-- The files a handler saves to (dlga.py:73, 81, 89, 102, 125, 171, 210, 225, 280, 313; discover.py:106, 164, 206, 225, 284, 444, 526, 570, 614, 687, 787; sga.py:76-77,
131, 286, 368, 506, 634; pysr.py:104, 159, 204); `none`: there is no handler for the intent (dlga.py:47-58, discover.py:43-53, sga.py:35-41, pysr.py:41-45). -/
def Ad.files : Ad → String → Option (List String)
  | .dlga, "training_curve" => some ["training_loss.png"]
  | .dlga, "validation_curve" => some ["validation_loss.png"]
  | .dlga, "search_evolution" => some ["evolution_analysis.png"]
  | .dlga, "optimization" => some ["optimization_analysis.png"]
  | .dlga, "field_comparison" => some ["field_comparison.png"]
  | .dlga, "time_slices" => some ["time_slices_comparison.png"]
  | .dlga, "equation" => some ["equation.png"]
  | .dlga, "residual" => some ["residual_analysis.png"]
  | .dlga, "derivative_relationships" => some ["derivative_relationships.png"]
  | .dlga, "parity" => some ["pde_parity_plot.png"]
  | .discover, "search_evolution" => some ["reward_evolution.png"]
  | .discover, "density" => some ["reward_density.png"]
  | .discover, "tree" => some ["expression_tree.png"]
  | .discover, "equation" => some ["equation.png"]
  | .discover, "residual" => some ["residual_analysis.png"]
  | .discover, "field_comparison" => some ["field_comparison.png"]
  | .discover, "parity" => some ["parity_plot.png"]
  | .discover, "spr_residual" => some ["spr_residual_analysis.png"]
  | .discover, "spr_field_comparison" => some ["spr_field_comparison.png"]
  | .sga, "equation" => some ["equation.png", "equation_structure.png"]
  | .sga, "field_comparison" => some ["field_comparison.png"]
  | .sga, "time_slices" => some ["time_slices_comparison.png"]
  | .sga, "parity" => some ["parity_plot.png"]
  | .sga, "residual" => some ["residual_analysis.png"]
  | .pysr, "equation" => some ["equation.png"]
  | .pysr, "parity" => some ["parity.png"]
  | .pysr, "residual" => some ["residual.png"]
  | _, _ => none

/-- dlga.py:40, sga.py:31, pysr.py:32, discover.py:804: the directory of an adapter. -/
def Ad.subdir : Ad → String
  | .dlga => "dlga"
  | .discover => "discover"
  | .sga => "sga"
  | .pysr => "pysr"

/-- A path: its segments. -/
abbrev Path := List String

/-- _helpers.py:9-15 `resolve_output_path` and core.py:48-49 `save_path` -/
def savePath (saveDir : Option Path) (cwd : Path) (rel : Path) : Path := saveDir.getD cwd ++ rel

/-- dlga.py:331-341, discover.py:799-808, sga.py:50-56, pysr.py:57-75 `_resolve_output`: `outputDir` is the option of the call, `saveDir` the configured directory. -/
def resolveOutput (a : Ad) (outputDir saveDir : Option Path) (cwd : Path) (file : String) : Path :=
  match outputDir with
  | some base => (base ++ [a.subdir]) ++ [file]
  | none => savePath saveDir cwd [a.subdir, file]

/-! ### Default registration -/

/-- Model classes: those of kd/model, others, and classes derived from them (`name` is `__name__`). -/
inductive Cls where
  | dlga | discover | spr | regression | sga | pysr | eqgpt
  | other (name : String)
  | derived (base : Cls) (name : String)
deriving DecidableEq, Repr

def Cls.name : Cls → String
  | .dlga => "KD_DLGA"
  | .discover => "KD_Discover"
  | .spr => "KD_Discover_SPR"
  | .regression => "KD_Discover_Regression"
  | .sga => "KD_SGA"
  | .pysr => "KD_PySR"
  | .eqgpt => "KD_EqGPT"
  | .other n => n
  | .derived _ n => n

/-- `issubclass(c, d)` (kd_discover.py:469, kd_discover_regression.py:27: the two other classes of DISCOVER derive from the first). -/
def Cls.sub : Cls → Cls → Bool
  | .spr, d => d == .spr || d == .discover
  | .regression, d => d == .regression || d == .discover
  | .derived b n, d => d == .derived b n || b.sub d
  | c, d => d == c

/-- adapters.py:15-43 `register_default_adapters` and 46-52 `_resolve_pysr` (`imports c`: the import of the class succeeds). -/
def registerDefaults (imports : Cls → Bool) (s : Reg Cls Ad) : Reg Cls Ad :=
  let s := if imports .dlga then register s .dlga .dlga else s
  let s := if imports .discover then register s .discover .discover else s
  let s := if imports .sga then register s .sga .sga else s
  registerLazy s "KD_PySR" (if imports .pysr then .found .pysr .pysr else .nothing)

/-- The adapter found for a class after the default registration and plots of the classes `before` (in this order). -/
def session (imports : Cls → Bool) (before : List Cls) : Reg Cls Ad :=
  before.foldl (fun s c => (getAdapter Cls.name Cls.sub s c).2) (registerDefaults imports ⟨[], []⟩)

/-- core.py:66-97 `render` (without style and backend) and api.py:132-137 `_dispatch`: result and printed lines.  `handler a kind options` is what the handler of the adapter
returns (`none`: it raises). -/
def dispatch {V : Type} (handler : Ad → String → Kw V → Option Result) (s : Reg Cls Ad) (c : Cls) (kind : String) (showInfo : Bool) (options : Kw V) :
    Option (Result × List String) :=
  match (getAdapter Cls.name Cls.sub s c).1 with
  | .error _ => none
  | .ok none => emit ⟨["No visualization adapter registered for " ++ c.name ++ "."], [], false⟩
  | .ok (some a) =>
    if kind ∈ a.caps then (handler a kind options).bind emit
    else emit ⟨["Adapter " ++ a.cls ++ " does not support intent '" ++ kind ++ "'."], [], false⟩
where
  emit (r : Result) : Option (Result × List String) := some (r, if showInfo then [line kind r] else [])

end Verif.Viz.Api
