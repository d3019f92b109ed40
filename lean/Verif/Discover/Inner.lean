import Mathlib.Algebra.Field.Rat
/-!
# DISCOVER: the data sets known by name (kd/data.py:20-22, 105-180; kd/model/kd_discover.py:136-152 `import_inner_data`)

Paths are lists of components; the working directory is a parameter.  Arrays read from files are parameters; the finite difference is a parameter
(its values are C136, C137).
-/
namespace Verif.Discover.Inner

abbrev Path := List String

/-- A file's content as far as it is used: solution (rows are places), places and times; from one file or three. -/
structure Content where
  u : List (List ℚ)
  x : List ℚ
  t : List ℚ

/-- kd/data.py:20-22 `data_list` -/
def dataList : List String := ["chafee-infante", "Burgers", "Kdv"]

/-- kd/data.py:138-157: the files of a data set, relative to the working directory, and the true equation; `none`: NotImplementedError. -/
def sourceFiles : String → Option (List Path × String)
  | "chafee-infante" => some ([["kd", "data_file", "chafee_infante_CI.npy"], ["kd", "data_file", "chafee_infante_x.npy"],
      ["kd", "data_file", "chafee_infante_t.npy"]], "add,add,u1,n3,u1,diff2,u1,x1")
  | "Burgers" => some ([["kd", "data_file", "burgers.mat"]], "add,mul,u1,diff,u1,x1,diff2,u1,x1")
  | "Kdv" => some ([["discover", "task", "pde", "data_new", "Kdv.mat"]], "add,mul,u1,diff,u1,x1,diff3,u1,x1")
  | _ => none

/-- The relevant files of the repository, relative to its root. -/
def repoFiles : List Path :=
  [["kd", "data_file", "chafee_infante_CI.npy"], ["kd", "data_file", "chafee_infante_x.npy"], ["kd", "data_file", "chafee_infante_t.npy"],
   ["kd", "data_file", "burgers.mat"], ["kd", "data_file", "burgers2.mat"], ["kd", "model", "discover", "task", "pde", "data_new", "Kdv.mat"]]

/-- What `get_data` returns (kd/data.py:170-176). -/
structure Data where
  u : List (List ℚ)
  ut : List (List ℚ)
  X : List (List ℚ)
  nInputDim : Nat
  symTrue : String
deriving DecidableEq, Repr

/-- `RegularData`: the list of places is kept between loads (kd/data.py:116, 162). -/
structure Handler where
  source : String
  X : List (List ℚ) := []
  data : Option Data := none

/-- kd/data.py:105-120 `RegularData(name)`; `none`: AssertionError. -/
def Handler.new (name : String) : Option Handler := if name ∈ dataList then some { source := name } else none

/-- The first time step `t[1]-t[0]`; `none`: IndexError. -/
def step : List ℚ → Option ℚ
  | a :: b :: _ => some (b - a)
  | _ => none

/-- kd/data.py:159-176: time derivatives and the result. -/
def Handler.fill (h : Handler) (fd : List ℚ → ℚ → List ℚ) (c : Content) (sym : String) : Option Handler :=
  (step c.t).map fun dt =>
    { h with X := h.X ++ [c.x], data := some ⟨c.u, c.u.map fun row => fd row dt, h.X ++ [c.x], 1, sym⟩ }

/-- kd/data.py:127-180 `load_data` in the directory `cwd`: `exist` are the files of the machine, `read` their content; `none`: an exception. -/
def Handler.load (exist : Path → Bool) (read : String → Content) (fd : List ℚ → ℚ → List ℚ) (cwd : Path) (h : Handler) : Option Handler :=
  match sourceFiles h.source with
  | none => none
  | some (files, sym) => if files.all fun f => exist (cwd ++ f) then h.fill fd (read h.source) sym else none

/-- kd_discover.py:136-152 up to `setup`: the data the estimator has afterwards; other types than regular leave it as it was. -/
def importInner (exist : Path → Bool) (read : String → Content) (fd : List ℚ → ℚ → List ℚ) (cwd : Path) (old : Option Handler) (name type : String) :
    Option (Option Handler) :=
  if type = "regular" then ((Handler.new name).bind (Handler.load exist read fd cwd)).map some else some old

end Verif.Discover.Inner
