import Verif.Dataset.Base
/-!
# Model of kd/dataset/__init__.py, _registry.py and the file readers around them

The contents of the data directory are an argument: for every file name the arrays stored in it (`none`: no such file).  All
numbers are exact rationals (a complex solution in a `.mat` file is outside the model).  Python dicts are association lists.
The object a caller gets back may share dictionaries with the registry; that is modelled by `Shared`.
-/
namespace Verif.Data.Load
open Verif.Data

/-- What a data file holds: one array (`np.load`) or a dict of arrays (`scipy.io.loadmat`). -/
inductive Content where
  | npy (a : Arr Rat)
  | mat (vars : List (String × Arr Rat))

/-- The data directory. -/
abbrev Dir := String → Option Content

/-- The exceptions: those of the dataset constructor and of numpy, `FileNotFoundError`, `KeyError`. -/
inductive Exn where
  | value | type | notFound | key | index | other
deriving DecidableEq, Repr

/-- An exception of the constructor. -/
def Exn.of : Err → Exn
  | .value => .value
  | .index => .index
  | .type => .type
  | .unmodelled => .other

/-- `{'x': (lo, hi), 't': (lo, hi)}` -/
abbrev Domain := List (String × Rat × Rat)

/-- One entry of `PDE_REGISTRY` (_registry.py:42-196): the keys read by the loaders.  `files` is the triple (u, x, t). -/
structure Info where
  files : Option (String × String × String) := none
  file : String := ""
  keys : List (String × String) := []
  shape : Option (Nat × Nat) := none
  domain : Option Domain := none
  aliases : Option (List (String × String)) := none
  symTrue : Option String := none
deriving DecidableEq

/-- _registry.py:42-196 -/
abbrev Registry := List (String × Info)

/-- The registry as shipped (_registry.py:42-196; the entries `models`, `status`, `notes` are read by nobody here). -/
def shipped : Registry :=
  [("chafee-infante", { files := some ("chafee_infante_CI.npy", "chafee_infante_x.npy", "chafee_infante_t.npy")
                        symTrue := some "add,add,u1,n3,u1,diff2,u1,x1" }),
   ("burgers", { file := "burgers2.mat", keys := [("x_key", "x"), ("t_key", "t"), ("u_key", "usol")]
                 symTrue := some "add,mul,u1,diff,u1,x1,diff2,u1,x1"
                 aliases := some [("legacy", "Burgers2"), ("sga_problem", "burgers")] }),
   ("burgers-reflib", { file := "burgers_reflib.mat", keys := [("x_key", "x"), ("t_key", "t"), ("u_key", "usol")]
                        symTrue := some "add,mul,u1,diff,u1,x1,diff2,u1,x1"
                        aliases := some [("legacy", "BurgersReflib"), ("sga_problem", "burgers")] }),
   ("kdv", { file := "KdV_equation.mat", keys := [("x_key", "x"), ("t_key", "tt"), ("u_key", "uu")]
             symTrue := some "add,mul,u1,diff,u1,x1,diff3,u1,x1"
             aliases := some [("legacy", "Kdv"), ("sga_problem", "kdv")] }),
   ("PDE_divide", { file := "PDE_divide.npy", shape := some (100, 251)
                    symTrue := some "add,div,diff,u1,x1,x1,diff2,u1,x1"
                    domain := some [("x", 1, 2), ("t", 0, 1)] }),
   ("PDE_compound", { file := "PDE_compound.npy", shape := some (100, 251)
                      symTrue := some "add,mul,u1,diff2,u1,x1,mul,diff,u1,x1,diff,u1,x1"
                      domain := some [("x", 1, 2), ("t", 0, 1/2)] }),
   ("fisher", { file := "fisher_nonlin_groundtruth.mat", keys := [("x_key", "x"), ("t_key", "t"), ("u_key", "U")]
                symTrue := some "add,mul,u1,diff2,u1,x1,add,n2,diff,u1,x1,add,u1,n2,u1"
                domain := some [("x", -1, 1), ("t", 0, 1)] }),
   ("fisher_linear", { file := "fisher_groundtruth.mat", keys := [("x_key", "x"), ("t_key", "t"), ("u_key", "U")]
                       symTrue := some "add,diff2,u1,x1,add,u1,n2,u1"
                       domain := some [("x", -1, 1), ("t", 0, 1)] }),
   ("advection_diffusion", { file := "Advection_diffusion.mat", keys := [("x_key", "x"), ("t_key", "t"), ("u_key", "u")] })]

/-- _registry.py:202-208 `get_dataset_info`: an unknown name is a ValueError. -/
def getInfo (reg : Registry) (name : String) : Except Exn Info :=
  match reg.lookup name with
  | some i => .ok i
  | none => .error .value

/-- _registry.py:210-211 `list_available_datasets` -/
def available (reg : Registry) : List String := reg.map (·.1)

/-- _registry.py:213-215 `get_dataset_sym_true` -/
def symTrue (reg : Registry) (name : String) : Except Exn (Option String) :=
  match getInfo reg name with
  | .ok i => .ok i.symTrue
  | .error e => .error e

/-- A keyword argument: a string, a number, or a domain. -/
inductive Kw where
  | str (s : String)
  | num (q : Rat)
  | dom (d : Option Domain)
deriving DecidableEq

/-- A dictionary attribute of a returned dataset: the registry's own object, or one that belongs to the dataset. -/
inductive Shared (α : Type) where
  | registry (v : α)
  | own (v : α)

/-- Its present contents. -/
def Shared.val {α : Type} : Shared α → α
  | .registry v => v
  | .own v => v

/-- A dataset as returned by `load_pde`: the numerical attributes, and the names. -/
structure Loaded where
  ds : DS Rat Rat
  equationName : String
  domain : Option (Shared Domain)
  epi : Rat
  registryName : String
  aliases : Shared (List (String × String))
  legacyName : String

/-- `np.linspace(lo, hi, n)` in exact arithmetic. -/
def linspace (lo hi : Rat) (n : Nat) : List Rat :=
  if n = 1 then [lo] else (List.range n).map fun i : Nat => lo + (i : Rat) * ((hi - lo) / ((n : Rat) - 1))

/-- The position of an index in row-major order. -/
def flatIdx : List Nat → List Nat → Nat
  | _ :: s, i :: r => i * s.prod + flatIdx s r
  | _, _ => 0

/-- `a.reshape(s)`: row-major; ValueError if the number of entries differs. -/
def reshape (a : Arr Rat) (s : List Nat) : Except Exn (Arr Rat) :=
  if a.shape.prod = s.prod then .ok ⟨s, fun i => (a.ravel[flatIdx s i]?).getD 0⟩ else .error .value

/-- `np.load` of a file of the data directory (a `.mat` file is not a numpy file: ValueError). -/
def loadNpy (dir : Dir) (f : String) : Except Exn (Arr Rat) :=
  match dir f with
  | none => .error .notFound
  | some (.npy a) => .ok a
  | some (.mat _) => .error .value

/-- _base.py:96-120 `load_mat_file`: the variables of the file without MATLAB's own (`__header__` …). -/
def loadMat (dir : Dir) (f : String) : Except Exn (List (String × Arr Rat)) :=
  match dir f with
  | none => .error .notFound
  | some (.mat vars) => .ok (vars.filter fun v => !("__".toList.isPrefixOf v.1.toList))
  | some (.npy _) => .error .value

/-- `PDEDataset(x=x, t=t, usol=u, ...)` -/
def mkDataset (x t : List Rat) (u : Arr Rat) : Except Exn (DS Rat Rat) :=
  match construct id (fun _ => true) 0 { x := some x, t := some t, usol := some u } with
  | .ok d => .ok d
  | .error e => .error (.of e)

/-- `if u.shape == (len(t), len(x)): u = u.T` (__init__.py:52-53, _base.py:747-748, runner.py:54-55) -/
def orient (x t : List Rat) (u : Arr Rat) : Arr Rat :=
  if u.shape = [t.length, x.length] then u.transpose2 else u

/-- What the loaders read and build, before the registry's names are attached: the arrays and the constructor's arguments. -/
structure Raw where
  ds : DS Rat Rat
  domain : Option (Shared Domain)
  epi : Rat

/-- `kwargs.get('epi', 1e-3)` (a value that is not a number is stored as it is: outside the model, read as the default). -/
def epiOf (kw : List (String × Kw)) : Rat :=
  match kw.lookup "epi" with
  | some (.num q) => q
  | _ => 1 / 1000

/-- __init__.py:46-62: several `.npy` files. -/
def loadFiles (dir : Dir) (info : Info) (fu fx ft : String) (kw : List (String × Kw)) : Except Exn Raw :=
  match loadNpy dir fu with
  | .error e => .error e
  | .ok u =>
    match loadNpy dir fx with
    | .error e => .error e
    | .ok x =>
      match loadNpy dir ft with
      | .error e => .error e
      | .ok t =>
        match mkDataset x.ravel t.ravel (orient x.ravel t.ravel u) with
        | .error e => .error e
        | .ok d => .ok ⟨d, info.domain.map .registry, epiOf kw⟩

/-- __init__.py:68-76: bring the array to the registered shape. -/
def toShape (a : Arr Rat) : Option (Nat × Nat) → Except Exn (Arr Rat)
  | none => .ok a
  | some (nx, nt) =>
    if a.shape = [nt, nx] then .ok a.transpose2
    else if a.shape ≠ [nx, nt] then reshape a [nx, nt]
    else .ok a

/-- __init__.py:78: the registered domain, or the unit square (`or`: also for an empty dict). -/
def domainOf (info : Info) : Shared Domain :=
  match info.domain with
  | some (d :: ds) => .registry (d :: ds)
  | _ => .own [("x", 0, 1), ("t", 0, 1)]

/-- `domain.get(axis, (0.0, 1.0))` -/
def boundsOf (d : Domain) (axis : String) : Rat × Rat := (d.lookup axis).getD (0, 1)

/-- __init__.py:63-95: one `.npy` file (`nx, nt = shape`: ValueError unless the array is two-dimensional). -/
def loadSingle (dir : Dir) (info : Info) (kw : List (String × Kw)) : Except Exn Raw :=
  match loadNpy dir info.file with
  | .error e => .error e
  | .ok a =>
    match toShape a info.shape with
    | .error e => .error e
    | .ok u =>
      match u.shape with
      | [nx, nt] =>
        let dom := domainOf info
        let bx := boundsOf dom.val "x"
        let bt := boundsOf dom.val "t"
        match mkDataset (linspace bx.1 bx.2 nx) (linspace bt.1 bt.2 nt) u with
        | .error e => .error e
        | .ok d => .ok ⟨d, some dom, epiOf kw⟩
      | _ => .error .value

/-- The keyword arguments `load_pde` passes on to `load_pde_dataset` besides the three it sets itself (__init__.py:95-100). -/
def passed (info : Info) (kw : List (String × Kw)) : List (String × Kw) :=
  info.keys.map (fun k => (k.1, .str k.2)) ++ kw

/-- The keyword parameters of `load_pde_dataset` left after `filename`, `equation_name` and `domain` (_base.py:701-710). -/
def params : List String := ["x_key", "t_key", "u_key", "epi", "data_dir_module"]

/-- A string argument or its default. -/
def strOf (kw : List (String × Kw)) (k dflt : String) : String :=
  match kw.lookup k with
  | some (.str s) => s
  | _ => dflt

/-- _base.py:733-771 `load_pde_dataset`: every exception inside gives `None`.  `data_dir_module` other than the default is outside
the model (`dirs` gives the directory for a module name). -/
def readMat (dirs : String → Dir) (file : String) (kw : List (String × Kw)) : Option (DS Rat Rat) :=
  match loadMat (dirs (strOf kw "data_dir_module" "kd.dataset.data")) file with
  | .error _ => none
  | .ok vars =>
    match vars.lookup (strOf kw "x_key" "x"), vars.lookup (strOf kw "t_key" "t"), vars.lookup (strOf kw "u_key" "usol") with
    | some x, some t, some u =>
      match mkDataset x.ravel t.ravel (orient x.ravel t.ravel u) with
      | .ok d => some d
      | .error _ => none
    | _, _, _ => none

/-- __init__.py:94-101: one `.mat` file.  A keyword given twice or unknown is a TypeError of the call itself. -/
def loadMatEntry (dirs : String → Dir) (info : Info) (kw : List (String × Kw)) : Except Exn (Option Raw) :=
  let all := passed info kw
  if ¬ (all.map (·.1)).Nodup ∨ ¬ (∀ k ∈ all.map (·.1), k ∈ params) then .error .type
  else match readMat dirs info.file all with
  | none => .ok none
  | some d => .ok (some ⟨d, info.domain.map .registry, epiOf all⟩)

/-- __init__.py:16-29 `_tag_dataset` -/
def tag (reg : Registry) (name : String) (r : Raw) : Loaded :=
  let al := ((reg.lookup name).bind (·.aliases)).getD []
  ⟨r.ds, name, r.domain, r.epi, name, if al = [] then .own [] else .registry al, (al.lookup "legacy").getD name⟩

/-- `info.get('file', '').endswith('.npy')` -/
def isNpy (f : String) : Bool := ".npy".toList.isSuffixOf f.toList

/-- __init__.py:31-101 `load_pde`.  An entry without `files` and without `file` is a KeyError. -/
def loadPde (reg : Registry) (dirs : String → Dir) (name : String) (kw : List (String × Kw)) : Except Exn (Option Loaded) :=
  match getInfo reg name with
  | .error e => .error e
  | .ok info =>
    match info.files with
    | some (fu, fx, ft) => match loadFiles (dirs "kd.dataset.data") info fu fx ft kw with
      | .error e => .error e
      | .ok r => .ok (some (tag reg name r))
    | none =>
      if isNpy info.file then
        match loadSingle (dirs "kd.dataset.data") info kw with
        | .error e => .error e
        | .ok r => .ok (some (tag reg name r))
      else if info.file = "" then .error .key
      else match loadMatEntry dirs info kw with
        | .error e => .error e
        | .ok none => .ok none
        | .ok (some r) => .ok (some (tag reg name r))

/-! ## What a caller does to a returned dataset -/

/-- `d[k] = v` -/
def setKey {α : Type} (d : List (String × α)) (k : String) (v : α) : List (String × α) :=
  if (d.lookup k).isSome then d.map (fun p => if p.1 = k then (k, v) else p) else d ++ [(k, v)]

/-- The registry after the user assigns `dataset.aliases[k] = v`: the registry's entry changes when the dictionary is its own. -/
def setAlias (reg : Registry) (l : Loaded) (k v : String) : Registry :=
  match l.aliases with
  | .own _ => reg
  | .registry _ => reg.map fun e =>
      if e.1 = l.registryName then
        (e.1, { e.2 with aliases := e.2.aliases.map fun a => setKey a k v })
      else e

/-- The registry after the user assigns `dataset.domain[axis] = (lo, hi)`. -/
def setDomain (reg : Registry) (l : Loaded) (axis : String) (b : Rat × Rat) : Registry :=
  match l.domain with
  | some (.registry _) => reg.map fun e =>
      if e.1 = l.registryName then
        (e.1, { e.2 with domain := e.2.domain.map fun d => setKey d axis b })
      else e
  | _ => reg

/-! ## The deprecated loaders -/

/-- _base.py:644-668 `load_burgers_equation`: the file's own variables `x`, `t`, `usol`, unturned. -/
def loadBurgers (dir : Dir) : Except Exn (DS Rat Rat) :=
  match loadMat dir "burgers2.mat" with
  | .error e => .error e
  | .ok vars =>
    match construct id (fun _ => true) 0
        { pdeData := some ((vars.lookup "x").map Arr.ravel, (vars.lookup "t").map Arr.ravel, vars.lookup "usol") } with
    | .ok d => .ok d
    | .error e => .error (.of e)

/-- _base.py:670-698 `load_kdv_equation` -/
def loadKdv (dir : Dir) : Except Exn (DS Rat Rat) :=
  match loadMat dir "KdV_equation.mat" with
  | .error e => .error e
  | .ok vars =>
    match vars.lookup "x", vars.lookup "tt", vars.lookup "uu" with
    | some x, some t, some u => mkDataset x.ravel t.ravel u
    | _, _, _ => .error .key

/-! ## Uploaded files (runner.py) -/

/-- The `file_config` entry of a runner configuration. -/
structure FileConfig where
  xKey : Option String := none
  tKey : Option String := none
  uKey : Option String := none
  shape : Option (List Nat) := none
  domain : Option Domain := none

/-- runner.py:45-72: an uploaded file; `ext` is the lower-cased extension. -/
def loadUpload (file : Content) (ext : String) (c : FileConfig) : Except Exn (DS Rat Rat) :=
  if ext = ".mat" then
    match loadMat (fun _ => some file) "" with
    | .error e => .error e
    | .ok vars =>
      match vars.lookup (c.xKey.getD "x"), vars.lookup (c.tKey.getD "t"), vars.lookup (c.uKey.getD "usol") with
      | some x, some t, some u => mkDataset x.ravel t.ravel (orient x.ravel t.ravel u)
      | _, _, _ => .error .key
  else if ext = ".npy" then
    match loadNpy (fun _ => some file) "" with
    | .error e => .error e
    | .ok a =>
      match c.shape with
      | some [nx, nt] =>
        let bx := boundsOf (c.domain.getD []) "x"
        let bt := boundsOf (c.domain.getD []) "t"
        match reshape a [nx, nt] with
        | .error e => .error e
        | .ok u => mkDataset (linspace bx.1 bx.2 nx) (linspace bt.1 bt.2 nt) u
      | _ => .error .value
  else .error .value

/-! ## Tabular data -/

/-- One entry of `_REGRESSION_REGISTRY` (__init__.py:103-122). -/
structure TableInfo where
  file : String
  xCols : List Nat
  yCol : Nat
  varNames : List String
  target : String
deriving DecidableEq

/-- __init__.py:103-122 -/
def tables : List (String × TableInfo) :=
  [("tlc_cc_t1", ⟨"tlc_cc_Rf_t1.npy", [0, 1], 2, ["R_F", "r"], "mean(V_S)"⟩),
   ("tlc_cc_t2", ⟨"tlc_cc_Rf_t2.npy", [0, 1], 2, ["R_F", "r"], "mean(V_E)"⟩)]

/-- __init__.py:125-153 `load_regression`: `(X, y, var_names, target_name)`; a column outside the table is an IndexError. -/
def loadRegression (reg : List (String × TableInfo)) (dir : Dir) (name : String) :
    Except Exn (List (List Rat) × List Rat × List String × String) :=
  match reg.lookup name with
  | none => .error .value
  | some info =>
    match loadNpy dir info.file with
    | .error e => .error e
    | .ok a =>
      match a.shape with
      | [n, m] =>
        if (∀ c ∈ info.xCols, c < m) ∧ info.yCol < m then
          .ok ((List.range n).map fun i => info.xCols.map fun c => a.get [i, c],
            (List.range n).map fun i => a.get [i, info.yCol], info.varNames, info.target)
        else .error .index
      | _ => .error .index

end Verif.Data.Load
