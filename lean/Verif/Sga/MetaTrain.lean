import Mathlib.Algebra.Order.Field.Rat
import Mathlib.Algebra.Order.Floor.Semiring
import Mathlib.Data.Rat.Floor
/-!
# SGA: training of the surrogate network (kd/model/sga/sgapde/metann.py:91-184 `train_metanet`)

Random generators are explicit: `S` are the states of torch's generators (one for the CPU, one per CUDA device), `N` the state of numpy's global
generator.  Weights together with the state of Adam are an abstract type `W`; an epoch is an arbitrary function of the weights and the training
pairs.  `total * train_ratio` is exact (floating point in the code).
-/
namespace Verif.Sga.MetaTrain

/-- The generators of the process. -/
structure World (S N : Type) where
  cpu : S
  cuda : List S
  numpy : N

/-- What training is made of: the seeded generator, initialisation of the network (drawing from the CPU generator; `.to(device)` draws nothing),
the shuffle of a private numpy generator and one epoch. -/
structure Parts (S W X Y : Type) where
  seeded : Nat → S
  init : S → W × S
  shuffled : Nat → Nat → List Nat
  epoch : List (X × Y) → W → W

/-- `torch.manual_seed`: seeds the CPU and every CUDA device -/
def manualSeed {S N W X Y : Type} (p : Parts S W X Y) (seed : Nat) (w : World S N) : World S N :=
  { w with cpu := p.seeded seed, cuda := w.cuda.map fun _ => p.seeded seed }

/-- metann.py:146-163, 172-189: everything between seeding and the end, with the error of a bad ratio after the network was made. -/
def body {S N W X Y : Type} (p : Parts S W X Y) (rows : List (X × Y)) (ratio : ℚ) (epochs seed : Nat) (w : World S N) : World S N × Option W :=
  let w₁ := manualSeed p seed w
  let made := p.init w₁.cpu
  let w₂ := { w₁ with cpu := made.2 }
  if ratio ≤ 0 ∨ ratio > 1 then (w₂, none)
  else
    let split := ⌊(rows.length : ℚ) * ratio⌋₊
    let chosen := ((p.shuffled seed rows.length).take split).filterMap fun i => rows[i]?
    (w₂, some ((p.epoch chosen)^[epochs] made.1))

/-- metann.py:118-169, 171-190 `train_metanet`: `rows` is `none` when `prepare_training_data` raises (before anything is seeded); `fork` says
whether torch has `fork_rng`.  Both ways save the states, run the body and put the states back, also after an exception (`finally`, `with`). -/
def trainMetanet {S N W X Y : Type} (p : Parts S W X Y) (fork : Bool) (rows : Option (List (X × Y))) (ratio : ℚ) (epochs seed : Nat)
    (w : World S N) : World S N × Option W :=
  match rows with
  | none => (w, none)
  | some rows =>
    let after := body p rows ratio epochs seed w
    match fork with
    | true => ({ after.1 with cpu := w.cpu, cuda := w.cuda }, after.2)
    | false => ({ after.1 with cuda := w.cuda, cpu := w.cpu }, after.2)

end Verif.Sga.MetaTrain
