import Mathlib.Order.Defs.LinearOrder
import Mathlib.Data.List.Sort
/-!
# Model of kd/model/kd_dlga.py (`KD_DLGA`) and kd/model/dlga.py (`DLGA`): the genetic search

Randomness is an arbitrary stream of numbers: `random.randint(a, b)` and `np.random.randint(a, b)` use the next number
modulo the size of the range, `random.uniform(0, 1) > p` is decided by the parity of the next number.  Every outcome of the
program is the outcome of some stream; outcomes that a probability of 0 or 1 makes impossible are included as well.

A genome is a Python list that may be *shared*: `select` puts the same list object several times into the population
when fitness values tie, and crossover and mutation change genomes in place.  So the population is a list of references into a
heap of genomes.  The module lists inside a genome are never shared between two genome objects (crossover copies them, `sorted`
makes new lists), so they are values.

Not modelled: the neural network (`Theta` is a given matrix), the SVD inside `get_fitness` (a genome has a given evaluation), NaN
fitness values, log files, the failure of file operations on `best_save.pkl` and other processes that write it.
-/
namespace Verif.Dlga

abbrev Module := List Nat
abbrev Genome := List Module

inductive Err where
  | index | value | attribute
deriving DecidableEq, Repr

abbrev Stream := Nat → Nat

/-- A computation that draws random numbers and may raise. -/
def Gen (α : Type) := Stream → Except Err (α × Stream)

namespace Gen
def pure {α : Type} (a : α) : Gen α := fun s => .ok (a, s)
def bind {α β : Type} (m : Gen α) (f : α → Gen β) : Gen β := fun s =>
  match m s with
  | .error e => .error e
  | .ok (a, s') => f a s'
def throw {α : Type} (e : Err) : Gen α := fun _ => .error e
/-- The next random number. -/
def next : Gen Nat := fun s => .ok (s 0, fun n => s (n + 1))
end Gen

instance : Monad Gen where
  pure := Gen.pure
  bind := Gen.bind

/-- `random.randint(0, n - 1)` / `np.random.randint(0, n)`: ValueError for an empty range. -/
def randBelow (n : Nat) : Gen Nat :=
  if n = 0 then Gen.throw .value else do return (← Gen.next) % n

/-- The outcome of a comparison with `random.uniform(0, 1)`. -/
def coin : Gen Bool := do return (← Gen.next) % 2 = 1

/-! ### Random modules and genomes -/

/-- kd_dlga.py:72-79 `random_module`: the loop with `n` iterations left. -/
def moduleLoop (lib : Nat) : Nat → Module → Gen Module
  | 0, acc => pure acc
  | n + 1, acc =>
    if lib = 0 then pure acc else do
      let a ← randBelow lib
      if ← coin then pure (acc ++ [a]) else moduleLoop lib n (acc ++ [a])

/-- kd_dlga.py:72-79 `random_module`.  (dlga.py:231-244 is the case `lib = 4`.) -/
def randomModule (lib maxLen : Nat) : Gen Module := moduleLoop lib maxLen []

/-- `sorted(module)`. -/
def sorted (m : Module) : Module := m.insertionSort (· ≤ ·)

/-- kd_dlga.py:101-107 `random_genome`: the loop with `n` iterations left. -/
def genomeLoop (lib maxLen : Nat) : Nat → Genome → Gen Genome
  | 0, acc => pure acc
  | n + 1, acc => do
    let m ← randomModule lib maxLen
    let acc' := if m = [] then acc else acc ++ [sorted m]
    if ← coin then pure acc' else genomeLoop lib maxLen n acc'

/-- kd_dlga.py:101-107 `random_genome`.  (dlga.py:246-259 is the case `lib = 4`.) -/
def randomGenome (lib maxLen : Nat) : Gen Genome := genomeLoop lib maxLen maxLen []

/-! ### The population -/

/-- `self.Chrom` as references into a heap of genome objects. -/
structure Pop where
  heap : List Genome
  chrom : List Nat
deriving DecidableEq, Repr

/-- `Chrom[i]` as a value (`none`: IndexError). -/
def Pop.at? (p : Pop) (i : Nat) : Option Genome := p.chrom[i]?.bind (fun r => p.heap[r]?)

/-- In-place change of the object `Chrom[i]`. -/
def Pop.modify (p : Pop) (i : Nat) (g : Genome) : Pop :=
  match p.chrom[i]? with
  | none => p
  | some r => { p with heap := p.heap.set r g }

/-- `Chrom[i] = g` for a new list `g`. -/
def Pop.assign (p : Pop) (i : Nat) (g : Genome) : Pop :=
  { heap := p.heap ++ [g], chrom := p.chrom.set i p.heap.length }

/-- `Chrom.append(g)` for a new list `g`. -/
def Pop.append (p : Pop) (g : Genome) : Pop := { heap := p.heap ++ [g], chrom := p.chrom ++ [p.heap.length] }

/-- The genomes of the population, as values. -/
def Pop.values (p : Pop) : List Genome := p.chrom.filterMap (fun r => p.heap[r]?)

/-! ### Crossover, mutation, duplicates -/

/-- dlga.py:330-338: crossover of `Chrom1[i]` and `Chrom2[i]`, the genomes at `2i` and `2i + 1`. -/
def crossPair (p : Pop) (i : Nat) : Gen Pop :=
  match p.at? (2 * i) with
  | none => Gen.throw .index
  | some g1 => do
    let n1 ← randBelow g1.length
    match p.at? (2 * i + 1) with
    | none => Gen.throw .index
    | some g2 =>
      let n2 ← randBelow g2.length
      let father := (g1[n1]?).getD []
      let mother := (g2[n2]?).getD []
      let p' := p.modify (2 * i) (g1.set n1 mother)
      -- `Chrom2[i]` is read again: it may be the same object
      pure (p'.modify (2 * i + 1) (((p'.at? (2 * i + 1)).getD []).set n2 father))

/-- The iterations `i, i + 1, …` of a loop that changes the population. -/
def loopFrom (f : Pop → Nat → Gen Pop) : Nat → Nat → Pop → Gen Pop
  | 0, _, p => pure p
  | n + 1, i, p => do loopFrom f n (i + 1) (← f p i)

/-- dlga.py:321-341 `cross_over`: note `size_pop = self.n_generations`. -/
def crossOver (nGenerations : Nat) (p : Pop) : Gen Pop := loopFrom crossPair (nGenerations / 2) 0 p

/-- kd_dlga.py:84-86: maybe add a random module. -/
def mutAdd (lib maxLen : Nat) (g : Genome) : Gen Genome := do
  if ← coin then
    let m ← randomModule lib maxLen
    pure (if m ≠ [] ∧ m ∉ g then g ++ [m] else g)
  else pure g

/-- kd_dlga.py:87-88: maybe delete a module. -/
def mutDelete (g : Genome) : Gen Genome := do
  if ← coin then
    if g.length > 1 then
      let i ← randBelow g.length
      pure (g.eraseIdx i)
    else pure g
  else pure g

/-- kd_dlga.py:89-97: maybe change one gene (the `except ValueError` never fires: both ranges are non-empty). -/
def mutGene (lib : Nat) (g : Genome) : Gen Genome := do
  if ← coin then
    if lib > 0 ∧ g ≠ [] then
      let n1 ← randBelow g.length
      let m := (g[n1]?).getD []
      if m ≠ [] then
        let n2 ← randBelow m.length
        let a ← randBelow lib
        pure (g.set n1 (m.set n2 a))
      else pure g
    else pure g
  else pure g

/-- kd_dlga.py:83-97: the mutation of `Chrom[i]`, in place. -/
def mutateOne (lib maxLen : Nat) (p : Pop) (i : Nat) : Gen Pop :=
  match p.at? i with
  | none => Gen.throw .index
  | some g => do
    let g1 ← mutAdd lib maxLen g
    let g2 ← mutDelete g1
    let g3 ← mutGene lib g2
    pure (p.modify i g3)

/-- kd_dlga.py:81-99 `mutation`. -/
def mutation (lib maxLen popSize : Nat) (p : Pop) : Gen Pop := loopFrom (mutateOne lib maxLen) popSize 0 p

/-- dlga.py:443-446: the modules of a genome, sorted, without repetitions. -/
def dedupLoop : Genome → Genome → Genome
  | [], acc => acc
  | m :: r, acc => dedupLoop r (if sorted m ∉ acc then acc ++ [sorted m] else acc)

def dedup (g : Genome) : Genome := dedupLoop g []

/-- dlga.py:442-447: one iteration of `delete_duplicates`. -/
def dedupOne (p : Pop) (i : Nat) : Gen Pop :=
  match p.at? i with
  | none => Gen.throw .index
  | some g => pure (p.assign i (dedup g))

/-- dlga.py:435-449 `delete_duplicates`. -/
def deleteDuplicates (popSize : Nat) (p : Pop) : Gen Pop := loopFrom dedupOne popSize 0 p

/-! ### Selection -/

/-- What `translate_DNA` and `get_fitness` give for a genome: coefficients, fitness and name of the left-hand side
(kd_dlga.py:178-182: `[]`, `inf`, `""` for an empty genome). -/
structure Eval (V F : Type) where
  coef : V
  mse : F
  lhs : String

variable {V F : Type} [LinearOrder F]

/-- What `select` leaves in `self.Chrom`, `self.Fitness`, `self.coef`, `self.name`, and the genomes it scored (kd_dlga.py:177-187), in order. -/
structure Result (V F : Type) where
  pop : Pop
  kept : List (Eval V F)
  scored : List Genome

/-- kd_dlga.py:177-187: the evaluations of the first `n` genomes. -/
def evalAll (ev : Genome → Eval V F) (p : Pop) : Nat → Nat → Gen (List (Eval V F))
  | 0, _ => pure []
  | n + 1, i =>
    match p.at? i with
    | none => Gen.throw .index
    | some g => do
      let r ← evalAll ev p n (i + 1)
      pure (ev g :: r)

/-- `heapq.nsmallest(k, xs)` (documented as `sorted(xs)[:k]`). -/
def nsmallest (k : Nat) (xs : List F) : List F := (xs.insertionSort (· ≤ ·)).take k

/-- kd_dlga.py:197-199: fill up with `n` new random genomes. -/
def fill (lib maxLen : Nat) : Nat → Pop → Gen Pop
  | 0, p => pure p
  | n + 1, p => do
    let g ← randomGenome lib maxLen
    fill lib maxLen n (p.append g)

/-- kd_dlga.py:188-196: the references of the kept genomes and their evaluations. -/
def keep (p : Pop) (evs : List (Eval V F)) (num : Nat) : List (Nat × Eval V F) :=
  (nsmallest num (evs.map Eval.mse)).filterMap (fun f =>
    let i := (evs.map Eval.mse).idxOf f
    match p.chrom[i]?, evs[i]? with
    | some r, some e => some (r, e)
    | _, _ => none)

/-- kd_dlga.py:172-203 `select` (the histories are the business of the caller). -/
def select (ev : Genome → Eval V F) (lib maxLen popSize : Nat) (p : Pop) : Gen (Result V F) := do
  let evs ← evalAll ev p popSize 0
  let num := min (popSize / 2) evs.length
  let kept := keep p evs num
  let p' ← fill lib maxLen (popSize - kept.length) { p with chrom := kept.map Prod.fst }
  pure { pop := p', kept := kept.map Prod.snd, scored := (List.range popSize).filterMap p.at? }

/-- dlga.py:371-412 `DLGA.select`: the base class fills up with `int(size_pop / 2)` genomes. -/
def selectBase (ev : Genome → Eval V F) (lib maxLen popSize : Nat) (p : Pop) : Gen (Result V F) := do
  let evs ← evalAll ev p popSize 0
  let kept := keep p evs (popSize / 2)
  let p' ← fill lib maxLen (popSize / 2) { p with chrom := kept.map Prod.fst }
  pure { pop := p', kept := kept.map Prod.snd, scored := (List.range popSize).filterMap p.at? }

/-! ### Evolution -/

/-- kd_dlga.py:124-134: the initial population of `n` random genomes. -/
def initial (lib maxLen : Nat) : Nat → Pop → Gen Pop := fill lib maxLen

/-- kd_dlga.py:148-155: put the saved best genome back (`best` is a value: it went through pickle). -/
def restoreElite (best : Genome) (p : Pop) : Pop :=
  if best = [] then p else if p.chrom = [] then p.append best else p.assign 0 best

/-- kd_dlga.py:138-156: one generation. -/
def generation (ev : Genome → Eval V F) (lib maxLen popSize nGenerations : Nat) (p : Pop) : Gen (Result V F) := do
  let best := (p.at? 0).getD []
  let p1 ← crossOver nGenerations p
  let p2 ← mutation lib maxLen popSize p1
  let p3 ← deleteDuplicates popSize p2
  select ev lib maxLen popSize (restoreElite best p3)

/-- `min(self.Fitness)` (kd_dlga.py:209). -/
def bestFitness (r : Result V F) : Option F := (r.kept.map Eval.mse).min?

/-- kd_dlga.py:138-156 with 205-209: `n` generations; the results of the generations, most recent first. -/
def generations (ev : Genome → Eval V F) (lib maxLen popSize nGenerations : Nat) : Nat → Pop → Gen (List (Result V F) × Pop)
  | 0, p => pure ([], p)
  | n + 1, p => do
    let (rs, p') ← generations ev lib maxLen popSize nGenerations n p
    let r ← generation ev lib maxLen popSize nGenerations p'
    pure (r :: rs, r.pop)

/-- kd_dlga.py:123-170 `evolution`: the returned genome and evaluation, the results of all generations, most recent first.
(`self.coef[0]` is missing when no generation was run.  The verbose branch reads the same elements as the return.) -/
def evolution (ev : Genome → Eval V F) (lib maxLen popSize nGenerations : Nat) :
    Gen (Option (Genome × Eval V F) × List (Result V F)) := do
  let p0 ← initial lib maxLen popSize { heap := [], chrom := [] }
  let p1 ← deleteDuplicates popSize p0
  let (rs, p) ← generations ev lib maxLen popSize nGenerations nGenerations p1
  match p.at? 0 with
  | none => pure (none, rs)
  | some g =>
    match rs with
    | [] => Gen.throw .attribute
    | r :: _ =>
      match r.kept with
      | [] => Gen.throw .index
      | e :: _ => pure (some (g, e), rs)

end Verif.Dlga
