import Verif.Viz.Api
/-!
# The figures of a job (kd/runner.py:151-178 `save_viz`)

Not modelled: the drawing itself, and the import of matplotlib (if it fails, nothing is drawn).
-/
namespace Verif.App.RunnerViz
open Verif.Viz Verif.Viz.Api

/-- How a handler of an adapter ends: the files it wrote (by name), whether its result has a figure, and whether it raised. -/
structure Drawn where
  saved : List String
  figure : Bool
  raised : Bool

/-- _style.py:42-43 `configure(save_dir=…)`: None keeps the old directory. -/
def configure (old : Option Path) : Option Path → Option Path
  | none => old
  | some d => some d

/-- runner.py:162 -/
def kinds : List String := ["equation", "search_evolution", "training_curve"]

/-- core.py:66-97 `render` of an adapter and runner.py:166-172: the files written for one figure. -/
def drawWith (handler : Ad → String → Drawn) (out cwd : Path) (dir : Option Path) (kind : String) (a : Ad) : List Path :=
  if kind ∈ a.caps then
    (handler a kind).saved.map (resolveOutput a none dir cwd) ++
      (if (handler a kind).raised then [] else if (handler a kind).figure then [out ++ [kind ++ ".png"]] else [])
  else []

/-- runner.py:165-174: one figure; exceptions are swallowed.  The registry may change (lazy adapters). -/
def saveFigure (handler : Ad → String → Drawn) (out cwd : Path) (dir : Option Path) (c : Cls) (s : Reg Cls Ad) (kind : String) : Reg Cls Ad × List Path :=
  match getAdapter Cls.name Cls.sub s c with
  | (.ok (some a), s') => (s', drawWith handler out cwd dir kind a)
  | (_, s') => (s', [])

/-- runner.py:162-174: the loop; `caps` are the capabilities found before it. -/
def saveFigures (handler : Ad → String → Drawn) (out cwd : Path) (dir : Option Path) (c : Cls) (caps : List String) : Reg Cls Ad → List String → List Path
  | _, [] => []
  | s, k :: ks =>
    if k ∉ caps ∧ k ≠ "equation" then saveFigures handler out cwd dir c caps s ks
    else (saveFigure handler out cwd dir c s k).2 ++ saveFigures handler out cwd dir c caps (saveFigure handler out cwd dir c s k).1 ks

/-- runner.py:151-178 `save_viz`: the files written and the configured directory afterwards (`cwd` is the current directory). -/
def saveViz (handler : Ad → String → Drawn) (out cwd : Path) (dir : Option Path) (c : Cls) (s : Reg Cls Ad) : List Path × Option Path :=
  let dir := configure dir (some out)
  match getAdapter Cls.name Cls.sub s c with
  | (.error _, _) => ([], dir)
  | (.ok none, s') => (saveFigures handler out cwd dir c [] s' kinds, configure dir none)
  | (.ok (some a), s') => (saveFigures handler out cwd dir c a.caps s' kinds, configure dir none)

end Verif.App.RunnerViz
