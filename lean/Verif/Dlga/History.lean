import Verif.Dlga.Fit
import Verif.Dlga.Model
import Mathlib.Data.List.Dedup
/-!
# The histories of a DLGA estimator and the figures drawn from them

`DLGA.__init__` (dlga.py:104-109) creates the histories; `train_NN` (dlga.py:179-180) and `select` (kd_dlga.py:205-222) append to them, `fit` (kd_dlga.py:225-260) never
empties them.  The figures are drawn from the histories alone (viz/_adapters/dlga.py:68-118 and 431-463, viz/dlga_viz.py:46-95 and 287-350).

Simplifications: the weights `W` include the state of the optimiser; a raising `train_NN` or `generate_meta_data` is not modelled; losses and fitness values are not NaN.
`complexity_history` is never written; `metadata` is the business of C116 and C178.
-/
namespace Verif.Dlga.Hist
open Verif.Dlga

variable {W V E F : Type} [LinearOrder E] [LinearOrder F]

/-- An entry of `evolution_history` (kd_dlga.py:216-222). -/
structure Entry (F : Type) where
  generation : Nat
  fitness : F
  complexity : Nat
  populationSize : Nat
  uniqueModules : Nat
deriving DecidableEq, Repr

/-- The estimator: its network and its histories. -/
structure Est (W E F : Type) where
  net : W
  trainLoss : List E
  valLoss : List E
  fitness : List F
  evo : List (Entry F)
deriving Repr

/-- dlga.py:68-109 `__init__`. -/
def new (net : W) : Est W E F := ⟨net, [], [], [], []⟩

/-- What a call of `fit` is given: the losses and the optimiser step its data define, the way genomes are scored with a trained network, the random numbers. -/
structure Job (W V E F : Type) where
  trainErr : W → E
  valErr : W → E
  /-- dlga.py:144: a new optimiser -/
  optimiser : W → W
  step : W → W
  ev : W → Genome → Eval V F
  rnd : Stream

/-- The settings of the estimator. -/
structure Cfg where
  lib : Nat
  maxLen : Nat
  popSize : Nat
  gens : Nat
  maxIter : Nat
  /-- 500 in the code (dlga.py:170) -/
  every : Nat

/-- dlga.py:158-180: the two loss histories over the loop with `n` iterations left. -/
def lossLoop (trainErr valErr : W → E) (step : W → W) : Nat → W → List E × List E → List E × List E
  | 0, _, h => h
  | n + 1, w, h => lossLoop trainErr valErr step n (step w) (h.1 ++ [trainErr w], h.2 ++ [valErr w])

/-- kd_dlga.py:213-215: the number of different modules of the population. -/
def uniqueModules (p : Pop) : Nat := ((p.values.flatMap id).map sorted).dedup.length

/-- kd_dlga.py:205-222: what `select` appends to the histories. -/
def record (popSize : Nat) (h : List F × List (Entry F)) (r : Result V F) : List F × List (Entry F) :=
  match bestFitness r with
  | none => h
  | some f =>
    if r.pop.chrom = [] then h
    else
      let fs := h.1 ++ [f]
      (fs, h.2 ++ [⟨fs.length, f, ((r.pop.at? 0).getD []).length, popSize, uniqueModules r.pop⟩])

/-- kd_dlga.py:138-156: the generations that come to their end before the search ends or raises, oldest first. -/
def completed (ev : Genome → Eval V F) (lib maxLen popSize gens : Nat) : Nat → Pop → Stream → List (Result V F)
  | 0, _, _ => []
  | k + 1, p, s =>
    match generation ev lib maxLen popSize gens p s with
    | .error _ => []
    | .ok (r, s') => r :: completed ev lib maxLen popSize gens k r.pop s'

/-- kd_dlga.py:124-135: the first population. -/
def firstPop (lib maxLen popSize : Nat) : Gen Pop := do
  let p0 ← initial lib maxLen popSize { heap := [], chrom := [] }
  deleteDuplicates popSize p0

/-- kd_dlga.py:123-170 `evolution`: the generations that come to their end. -/
def results (ev : Genome → Eval V F) (c : Cfg) (s : Stream) : List (Result V F) :=
  match firstPop c.lib c.maxLen c.popSize s with
  | .error _ => []
  | .ok (p, s') => completed ev c.lib c.maxLen c.popSize c.gens c.gens p s'

/-- kd_dlga.py:232, 235-260: the equation and its evaluation, if `evolution` returns one (exceptions are caught by `fit`). -/
def reported (ev : Genome → Eval V F) (c : Cfg) (s : Stream) : Option (Genome × Eval V F) :=
  match evolution ev c.lib c.maxLen c.popSize c.gens s with
  | .ok ((out, _), _) => out
  | .error _ => none

/-- The network the search uses: dlga.py:158-188 (training) and 204-206 (the best checkpoint is loaded). -/
def trained (c : Cfg) (x : Job W V E F) (net : W) : W :=
  let w0 := x.optimiser net
  let r := trainNN x.valErr x.step c.every c.maxIter w0
  (loadNet r.1 r.2).getD w0

/-- kd_dlga.py:225-260 `fit`: the estimator afterwards and the equation reported. -/
def fit (c : Cfg) (st : Est W E F) (x : Job W V E F) : Est W E F × Option (Genome × Eval V F) :=
  let loss := lossLoop x.trainErr x.valErr x.step c.maxIter (x.optimiser st.net) (st.trainLoss, st.valLoss)
  let net := trained c x st.net
  let h := (results (x.ev net) c x.rnd).foldl (record c.popSize) (st.fitness, st.evo)
  (⟨net, loss.1, loss.2, h.1, h.2⟩, reported (x.ev net) c x.rnd)

/-! ### The figures -/

/-- The points a curve is drawn through: (0, y₀), (1, y₁), … -/
def points {α : Type} (ys : List α) : List (Nat × α) := (List.range ys.length).zip ys

/-- _adapters/dlga.py:69-83 with dlga_viz.py:46-95: the loss figures; `none`: a warning that there is no history. -/
def lossFigure (ys : List E) : Option (List (Nat × E)) := if ys = [] then none else some (points ys)

/-- _adapters/dlga.py:85-95 with dlga_viz.py:287-350: the two curves of the evolution figure and the number of generations reported. -/
def evolutionFigure (st : Est W E F) : Option (List (Nat × F) × List (Nat × Nat) × Nat) :=
  if st.evo = [] then none
  else some (points (st.evo.map Entry.fitness), points (st.evo.map Entry.complexity), st.evo.length)

/-- The summary reported with the optimisation figure. -/
structure Summary (F : Type) where
  initial : F
  final : F
  best : F
deriving DecidableEq, Repr

/-- _adapters/dlga.py:97-118, 431-463: the curve of the optimisation figure and its summary. -/
def optimizationFigure (st : Est W E F) : Option (List (Nat × F) × Summary F) :=
  let ys := st.evo.map Entry.fitness
  match ys.head?, ys.getLast?, ys.min? with
  | some a, some b, some m => some (points ys, ⟨a, b, m⟩)
  | _, _, _ => none

end Verif.Dlga.Hist
