/-! Configuration handling of the DISCOVER estimators.

Models `/repo/kd/model/discover/utils.py` (`safe_merge_dicts`), `/repo/kd/model/discover/config/__init__.py`
(`get_base_config`, `load_config`) and `KD_Discover.set_config` of `/repo/kd/model/kd_discover.py`.

JSON values are numbers, strings, booleans and lists (all `atom`, compared by their text), `null` and
objects.  A Python dict is a list of entries in insertion order; `WF` says that keys are not repeated. -/
namespace Verif.Api

inductive J where
  | null
  | atom (text : String)
  | dict (entries : List (String × J))

/-- The exceptions these functions raise. -/
inductive CfgErr where
  /-- `collections.Mapping` (removed in Python 3.10), or `.items()`/`.get()` on something that is no dict -/
  | attribute
  /-- item assignment on something that is no dict -/
  | typeError
  | fileNotFound
  | keyError
  deriving DecidableEq

/-- `d.get(key)` on entries (plain Python dict lookup; used by utils.py:274). -/
def lookup (k : String) : List (String × J) → Option J
  | [] => none
  | (k', v) :: es => if k' = k then some v else lookup k es

/-- `d[key] = value` on entries: an existing key keeps its place (plain Python dict; utils.py:274, 276). -/
def assign (k : String) (v : J) : List (String × J) → List (String × J)
  | [] => [(k, v)]
  | (k', v') :: es => if k' = k then (k, v) :: es else (k', v') :: assign k v es

/-- `base_dict[key] = value`. -/
def setItem (base : J) (k : String) (v : J) : Except CfgErr J :=
  match base with
  | .dict es => .ok (.dict (assign k v es))
  | _ => .error .typeError

/-- `base_dict.get(key, {})` (utils.py:274). -/
def getItem (base : J) (k : String) : Except CfgErr J :=
  match base with
  | .dict es => .ok ((lookup k es).getD (.dict []))
  | _ => .error .attribute

mutual
/-- `safe_merge_dicts` (utils.py:252-277).  `hasMapping` says whether the running Python still has
`collections.Mapping` (3.9: yes; 3.10 and later: no), which line 273 reads for every entry of the update.
`copy.deepcopy` is the identity because the model's values are immutable. -/
def merge (hasMapping : Bool) (base : J) : J → Except CfgErr J
  | .null => match base with
    | .null => .ok .null
    | b => .ok b
  | .atom a => match base with
    | .null => .ok (.atom a)
    | _ => .error .attribute
  | .dict us => match base with
    | .null => .ok (.dict us)
    | b => mergeEntries hasMapping b us

/-- The loop `for key, value in update_dict.items()` (utils.py:272-276). -/
def mergeEntries (hasMapping : Bool) (base : J) : List (String × J) → Except CfgErr J
  | [] => .ok base
  | (k, .dict vs) :: us =>
    if hasMapping then
      match getItem base k with
      | .error e => .error e
      | .ok old =>
        match merge hasMapping old (.dict vs) with
        | .error e => .error e
        | .ok sub =>
          match setItem base k sub with
          | .error e => .error e
          | .ok base' => mergeEntries hasMapping base' us
    else .error .attribute
  | (k, v) :: us =>
    if hasMapping then
      match setItem base k v with
      | .error e => .error e
      | .ok base' => mergeEntries hasMapping base' us
    else .error .attribute
end

/-- The configuration directory: the JSON files next to `config/__init__.py`. -/
abbrev Dir := String → Option J

/-- `get_base_config` (config/__init__.py:8-29); `task` is `user_config["task"]["task_type"]`. -/
def getBaseConfig (hasMapping : Bool) (dir : Dir) (task : Option String) (languagePrior : Bool) :
    Except CfgErr J :=
  match dir "config_common.json" with
  | none => .error .fileNotFound
  | some base =>
    let file := if task = some "regression" ∨ task = some "PDE" ∨ task = none
      then "config_regression.json" else "config_common.json"
    match dir file with
    | none => .error .fileNotFound
    | some tc =>
      let tc' : Except CfgErr J := if languagePrior then
          match dir "config_language.json" with
          | none => .error .fileNotFound
          | some lc => merge hasMapping tc lc
        else .ok tc
      match tc' with
      | .error e => .error e
      | .ok tc => merge hasMapping base tc

/-- `load_config` for a path whose file holds `user` (config/__init__.py:32-59).  The task type and the
language switch read from `user` are passed in (a missing key falls back as in lines 45-53). -/
def loadConfig (hasMapping : Bool) (dir : Dir) (user : J) (task : Option String) (languagePrior : Bool) :
    Except CfgErr J :=
  match getBaseConfig hasMapping dir task languagePrior with
  | .error e => .error e
  | .ok base => merge hasMapping base user

/-- The argument of `KD_Discover(config_out=…)`. -/
inductive ConfigArg where
  | none
  | given (d : J)
  /-- a path to a file holding `d`, with the two entries `load_config` looks at -/
  | path (d : J) (task : Option String) (languagePrior : Bool)

/-- `KD_Discover.set_config` (kd_discover.py:274-288): the merged configuration.  `baseCfg` is the content
of the estimator's own `config_pde.json`/`config_pde_pinn.json`. -/
def setConfig (hasMapping : Bool) (dir : Dir) (baseCfg : J) : ConfigArg → Except CfgErr J
  | .none => merge hasMapping baseCfg (.dict [])
  | .given d => merge hasMapping baseCfg d
  | .path d task lang =>
    match loadConfig hasMapping dir d task lang with
    | .error e => .error e
    | .ok cfg => merge hasMapping baseCfg cfg

/-- The files that ship with the package (`ls kd/model/discover/config`): there is no `config_common.json`
and no `config_language.json`. -/
def shippedFiles : List String := ["config_pde.json", "config_pde_pinn.json", "config_regression.json"]

end Verif.Api
