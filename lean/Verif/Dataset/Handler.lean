/-!
# Tables: `BaseDataHandler` (kd/data.py:24-88)

A table (`pandas.DataFrame`) is an object of the machine: a list of rows, a cell is a value or missing.  `inplace=True` changes the
object.  Index labels and column types are left out, and so are the printed messages.
-/
namespace Verif.Dataset.Handler

variable {α : Type} [DecidableEq α]

abbrev Row (α : Type) := List (Option α)

/-- The tables of the machine; a table is known by its number. -/
abbrev Heap (α : Type) := List (List (Row α))

/-- What a handler is made from: a path, a table, anything else (`None` too). -/
inductive Src where
  | path (p : String)
  | frame (i : Nat)
  | other
deriving DecidableEq, Repr

/-- kd/data.py:33-40: the attributes. -/
structure Handler where
  source : Src
  data : Option Nat
deriving DecidableEq, Repr

/-- kd/data.py:33-40 `__init__` -/
def mk (source : Src) : Handler := ⟨source, none⟩

/-- kd/data.py:42-62 `load_data`; `read`: what `pd.read_csv` makes of a path (`none`: it raises, which is caught and printed); the
result `none` is the ValueError. -/
def load (read : String → Option (List (Row α))) (h : Heap α) (s : Handler) : Option (Heap α × Handler) :=
  match s.source with
  | .path p => match read p with
    | none => some (h, s)
    | some t => some (h ++ [t], { s with data := some h.length })
  | .frame i => some (h ++ [(h[i]?).getD []], { s with data := some h.length })
  | .other => none

/-- `DataFrame.dropna`: rows with a missing cell go. -/
def dropna (t : List (Row α)) : List (Row α) := t.filter fun r => r.all Option.isSome

/-- `DataFrame.drop_duplicates`: the first of equal rows stays. -/
def dropDuplicates : List (Row α) → List (Row α) → List (Row α)
  | _, [] => []
  | seen, r :: t => if r ∈ seen then dropDuplicates seen t else r :: dropDuplicates (r :: seen) t

/-- kd/data.py:64-71 `clean_data`: both in place. -/
def clean (h : Heap α) (s : Handler) : Heap α :=
  match s.data with
  | none => h
  | some i => h.set i (dropDuplicates [] (dropna ((h[i]?).getD [])))

/-- kd/data.py:81-87 `get_data`: the table itself. -/
def get (h : Heap α) (s : Handler) : Option (List (Row α)) := s.data.map fun i => (h[i]?).getD []

/-- A method called on a handler. -/
inductive Op where
  | load | clean
deriving DecidableEq, Repr

/-- A history of calls of kd/data.py:42-71 (a ValueError changes nothing). -/
def run (read : String → Option (List (Row α))) : Heap α × Handler → List Op → Heap α × Handler
  | st, [] => st
  | st, .load :: ops => run read ((load read st.1 st.2).getD st) ops
  | st, .clean :: ops => run read (clean st.1 st.2, st.2) ops

end Verif.Dataset.Handler
