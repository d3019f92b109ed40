/-!
# Loggers (kd/utils/logging.py)

A logger name is the list of its dotted parts, the innermost first: `kd.viz.core` is `["core", "viz", "kd"]`, the root logger is `[]`.
Python's `logging` is modelled as far as it decides where a message goes: levels, handlers, the way up to the root.  The text of a line
and the rotation of a file are not modelled.
-/
namespace Verif.Utils.Logging

abbrev Name := List String

/-- Where a line goes: a console handler, a file, or Python's last resort (a logger without any handler). -/
inductive Sink where
  | console
  | file (path : String)
  | lastResort
deriving DecidableEq, Repr

/-- A logger of Python's registry. -/
structure Logger where
  level : Nat
  handlers : List Sink
deriving DecidableEq, Repr

/-- Python's registry: every name has a logger. -/
abbrev Reg := Name → Logger

/-- The registry of a fresh process: the root has level WARNING, the others NOTSET. -/
def fresh : Reg := fun n => if n = [] then ⟨30, []⟩ else ⟨0, []⟩

/-- The level names `Logger.setLevel` knows. -/
def levelOf (s : String) : Option Nat :=
  if s = "CRITICAL" ∨ s = "FATAL" then some 50
  else if s = "ERROR" then some 40
  else if s = "WARNING" ∨ s = "WARN" then some 30
  else if s = "INFO" then some 20
  else if s = "DEBUG" then some 10
  else if s = "NOTSET" then some 0
  else none

/-- A call of `setup_logger`; `os`: the operating system makes the directory and opens the file. -/
structure Call where
  name : Name
  file : Option String
  level : String
  os : Bool
deriving DecidableEq, Repr

inductive Outcome where
  | ok | valueError | fileNotFound | osError
deriving DecidableEq, Repr

/-- A new value for one logger. -/
def put (r : Reg) (n : Name) (l : Logger) : Reg := fun m => if m = n then l else r m

/-- `os.path.dirname(p) == ''`: no slash in the path. -/
def noDir (p : String) : Bool := !p.toList.contains '/'

/-- kd/utils/logging.py:5-39 `setup_logger` (line 20 the level, 25-28 the console handler, 31-38 the file: `os.makedirs('')` raises
FileNotFoundError; an empty `log_file` counts as none). -/
def setup (r : Reg) (c : Call) : Reg × Outcome :=
  match levelOf c.level.toUpper with
  | none => (r, .valueError)
  | some v =>
    let r1 := put r c.name ⟨v, (r c.name).handlers ++ [.console]⟩
    match c.file with
    | none => (r1, .ok)
    | some p =>
      if p = "" then (r1, .ok)
      else if noDir p then (r1, .fileNotFound)
      else if c.os then (put r1 c.name ⟨v, (r1 c.name).handlers ++ [.file p]⟩, .ok)
      else (r1, .osError)

/-- A history of calls of kd/utils/logging.py:5-39 in one process. -/
def run (r : Reg) (cs : List Call) : Reg := cs.foldl (fun r c => (setup r c).1) r

/-- `Logger.getEffectiveLevel`: the first level other than NOTSET on the way to the root. -/
def effective (r : Reg) : Name → Nat
  | [] => (r []).level
  | x :: p => if (r (x :: p)).level ≠ 0 then (r (x :: p)).level else effective r p

/-- `Logger.callHandlers`: the handlers of the logger and of all above it. -/
def handlers (r : Reg) : Name → List Sink
  | [] => (r []).handlers
  | x :: p => (r (x :: p)).handlers ++ handlers r p

/-- Where a message of the given level goes. -/
def emit (r : Reg) (n : Name) (level : Nat) : List Sink :=
  if level < effective r n then []
  else match handlers r n with
    | [] => if level < 30 then [] else [.lastResort]
    | l => l

end Verif.Utils.Logging
