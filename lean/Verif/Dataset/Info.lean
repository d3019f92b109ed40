/-!
# kd/dataset/_info.py (`DatasetInfo`) and the file and class parts of kd/dataset/_base.py (`PDEDataLoader`, `MetaBase`, `MetaData`)

Strings used as keys are `String`; texts are lists of characters.  Lists are objects: a value holds the address of its list in a heap, so that
sharing is visible.  Values other than texts, `None` and lists are opaque and immutable.
-/
namespace Verif.Dataset.Info

abbrev Text := List Char

/-- A Python value. -/
inductive Val where
  | str (s : Text)
  | none
  | list (a : Nat)
  | other (n : Nat)
deriving DecidableEq, Repr

/-- What a value shows when it is looked at. -/
inductive Plain where
  | str (s : Text)
  | none
  | list (l : List Text)
  | other (n : Nat)
deriving DecidableEq, Repr

/-- The lists that exist. -/
abbrev Heap := List (List Text)

/-- `str.strip()` (ASCII) -/
def strip (s : Text) : Text := ((s.dropWhile Char.isWhitespace).reverse.dropWhile Char.isWhitespace).reverse

/-- `s.split(',')` -/
def splitComma : Text → List Text
  | [] => [[]]
  | c :: s => if c = ',' then [] :: splitComma s else
    match splitComma s with
    | [] => [[c]]
    | w :: ws => (c :: w) :: ws

/-- _info.py:25-31: the fields, in order. -/
def fields : List String := ["description", "citation", "homepage", "license", "author", "keywords", "version"]

/-- An instance: its `__dict__`. -/
abbrev Obj := List (String × Val)

/-- `setattr` -/
def setAttr (o : Obj) (k : String) (v : Val) : Obj :=
  if (o.lookup k).isSome then o.map fun p => if p.1 = k then (k, v) else p else o ++ [(k, v)]

/-- _info.py:34-39 `__post_init__` for the value of `keywords`, with the heap. -/
def fixKeywords (h : Heap) : Val → Heap × Val
  | .str s => (h ++ [(splitComma s).map strip], .list h.length)
  | .none => (h ++ [[]], .list h.length)
  | v => (h, v)

/-- The constructor: defaults are the empty text and, for `keywords`, a new list; `none`: TypeError (unknown keyword). -/
def construct (h : Heap) (kw : List (String × Val)) : Option (Heap × Obj) :=
  if kw.all fun p => fields.contains p.1 then
    let r := match kw.lookup "keywords" with
      | some v => fixKeywords h v
      | none => (h ++ [[]], .list h.length)
    some (r.1, fields.map fun k => (k, if k = "keywords" then r.2 else (kw.lookup k).getD (.str [])))
  else none

/-- _info.py:40-59 `from_dict` -/
def fromDict (h : Heap) (d : List (String × Val)) : Option (Heap × Obj) := construct h (d.filter fun p => fields.contains p.1)

/-- `copy.deepcopy` of a value -/
def deep (h : Heap) : Val → Heap × Val
  | .list a => (h ++ [h.getD a []], .list h.length)
  | v => (h, v)

/-- `copy.deepcopy` of the values one after the other -/
def deepAll (h : Heap) : List (String × Val) → Heap × List (String × Val)
  | [] => (h, [])
  | p :: ps =>
    let r := deep h p.2
    let q := deepAll r.1 ps
    (q.1, (p.1, r.2) :: q.2)

/-- _info.py:92-103 `copy`; `none`: TypeError. -/
def copy (h : Heap) (o : Obj) : Option (Heap × Obj) :=
  let r := deepAll h o
  construct r.1 r.2

/-- _info.py:105-118 `update`: the instance afterwards, and whether AttributeError was raised.  `cls` are the names the class itself has. -/
def update (cls : List String) (o : Obj) : List (String × Val) → Obj × Bool
  | [] => (o, false)
  | p :: ps => if (o.lookup p.1).isSome || cls.contains p.1 then update cls (setAttr o p.1 p.2) ps else (o, true)

/-- What a value shows. -/
def view (h : Heap) : Val → Plain
  | .str s => .str s
  | .none => .none
  | .list a => .list (h.getD a [])
  | .other n => .other n

/-- _info.py:120-127 `to_dict` (`asdict` copies the lists); `none`: the attribute was replaced, so the call raises TypeError. -/
def toDict (h : Heap) (o : Obj) : Option (List (String × Plain)) :=
  if (o.lookup "to_dict").isSome then none else some (fields.map fun k => (k, view h ((o.lookup k).getD .none)))

/-- _info.py:138-152 `==` of two instances; `none`: TypeError. -/
def eqv (h : Heap) (a b : Obj) : Option Bool :=
  match toDict h a, toDict h b with
  | some x, some y => some (x == y)
  | _, _ => none

/-! ## Files -/

/-- What a file contains: rows of numbers as texts (csv), or something else the readers return as it is. -/
inductive File where
  | csv (rows : List (List Text))
  | data (n : Nat)
deriving DecidableEq, Repr

/-- Outcome of loading. -/
inductive Loaded where
  | table (rows : List (List Nat))
  | data (n : Nat)
  | notFound
  | valueError
  | indexError
deriving DecidableEq, Repr

/-- `np.array(rows, dtype=float32)`: all cells numbers (`num` parses one, float32 rounding is left out) and all rows equally long. -/
def toTable (num : Text → Option Nat) (rows : List (List Text)) : Option (List (List Nat)) :=
  match rows.mapM fun r => r.mapM num with
  | none => none
  | some t => if t.all fun r => r.length == (t.headD []).length then some t else none

/-- _base.py:50-93 `load_csv_data` -/
def loadCsv (num : Text → Option Nat) (hasHeader : Bool) (rows : List (List Text)) : Loaded :=
  if hasHeader && rows.isEmpty then .indexError
  else match toTable num (if hasHeader then rows.drop 1 else rows) with
    | some t => .table t
    | none => .valueError

/-- A directory: the files by name and extension. -/
abbrev Dir := String → String → Option File

/-- _base.py:202-213 `_find_file`: the extension found. -/
def findFile (dir : Dir) (name : String) : Option String := [".csv", ".mat", ".npy", ".npz"].find? fun e => (dir name e).isSome

/-- _base.py:192-200: the reader for an extension. -/
def readFile (num : Text → Option Nat) (ext : String) (f : File) : Loaded :=
  if ext = ".csv" then
    match f with
    | .csv rows => loadCsv num true rows
    | .data _ => .valueError
  else if ext = ".mat" ∨ ext = ".npy" ∨ ext = ".npz" then
    match f with
    | .data n => .data n
    | .csv _ => .valueError
  else .valueError

/-- _base.py:171-200 `PDEDataLoader.load_data`: `file` (name and extension) is looked for outside the directory too (`disk`); a reader given a
file of the wrong kind raises (here ValueError); the empty text is false. -/
def loadData (num : Text → Option Nat) (disk dir : Dir) (name : Option String) (file : Option (String × String)) : Loaded :=
  match file with
  | some (n, e) => match disk n e with
    | some f => readFile num e f
    | none => .notFound
  | none => match name.filter (· != "") with
    | some n => match findFile dir n with
      | some e => match dir n e with
        | some f => readFile num e f
        | none => .notFound
      | none => .notFound
    | none => .valueError

/-! ## Sampling by interpolation -/

/-- _base.py:543-551: `PDEDataset.sample` with method 'spline' after the grid was chosen: the sampled points (x, t) and the sampled values.  The
interpolant `S x t` is a parameter; `spline(t_new, x_new)` has one row for every x, `np.meshgrid(x_new, t_new)` one row for every t. -/
def splineSample {A V : Type} (S : A → A → V) (xs ts : List A) : List (A × A) × List V :=
  (ts.flatMap fun t => xs.map fun x => (x, t), xs.flatMap fun x => ts.map fun t => S x t)

/-! ## Classes -/

/-- A class: the names in its own `__dict__`, its bases. -/
inductive Cls where
  | mk (own : List String) (bases : List Cls)

/-- The names in the class's own `__dict__`. -/
def Cls.own : Cls → List String
  | .mk o _ => o

/-- _base.py:225-243 `MetaBase.__new__`: whether the class is created (otherwise TypeError). -/
def newClass (own : List String) (bases : List Cls) : Option Cls :=
  if own.contains "get_data" && ["x", "t", "usol"].all (fun a => own.contains a || bases.any fun b => b.own.contains a) then some (.mk own bases)
  else none

/-- _base.py:245-273 `MetaData` -/
def metaData : Cls := .mk ["x", "t", "usol", "__init__", "__getitem__", "get_data"] []

end Verif.Dataset.Info
