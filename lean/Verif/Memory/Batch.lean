import Verif.Memory.Queue
/-!
# Batches (kd/model/discover/dso/memory.py, searcher.py)

From the columns of a sampled batch to the memory and back to a batch the controller is trained on.
-/
namespace Verif.Memory

/-- One sample: what `get_samples` returns for an integer index (memory.py:52-76).  `A`, `O`, `P`: a row of the actions, observations and
priors.  Rewards are integers in the unit of float64 (as in `Entry`). -/
structure Row (A O P : Type) where
  actions : A
  obs : O
  priors : P
  length : Nat
  reward : Int
  onPolicy : Bool
deriving DecidableEq

/-- memory.py:9-10 `Batch`. -/
structure Columns (A O P : Type) where
  actions : List A
  obs : List O
  priors : List P
  lengths : List Nat
  rewards : List Int
  onPolicy : List Bool
deriving DecidableEq

/-- memory.py:52-76 `get_samples` for one index; `none`: IndexError. -/
def getSample {A O P : Type} (b : Columns A O P) (i : Nat) : Option (Row A O P) := do
  let a ← b.actions[i]?
  let o ← b.obs[i]?
  let p ← b.priors[i]?
  let l ← b.lengths[i]?
  let r ← b.rewards[i]?
  let c ← b.onPolicy[i]?
  some ⟨a, o, p, l, r, c⟩

/-- memory.py:408-426 `_make_batch`; `none`: `np.stack` of no arrays raises ValueError.  (All rows of a column have one shape: `max_length`
never changes.) -/
def makeBatch {A O P : Type} (rows : List (Row A O P)) : Option (Columns A O P) :=
  if rows.isEmpty then none
  else some ⟨rows.map (·.actions), rows.map (·.obs), rows.map (·.priors), rows.map (·.length), rows.map (·.reward),
    rows.map (·.onPolicy)⟩

/-- A program memory with the data of its entries: `data` of an entry is the position in `store` (the objects created so far). -/
structure Mem (A O P : Type) where
  q : Q := {}
  store : List (Row A O P) := []

/-- memory.py:13-49 `make_queue`: kind of queue, capacity, `remove_same`; `eps` is the tolerance 1e-5. -/
structure Kind where
  priority : Bool
  cap : Option Nat
  removeSame : Bool
  eps : Int

/-- memory.py:344-362: the push that is called; `none`: an exception (`UniqueQueue` has no `push_rm_same`). -/
def Kind.push (k : Kind) (q : Q) (e : Entry) : Option Q :=
  if k.removeSame then (if k.priority then pqPushRmSame k.eps k.cap q e else none)
  else if k.priority then pqPush k.cap q e else uqPush k.cap q e

/-- memory.py:344-362 `push_sample`; `id` is `program.str`. -/
def pushSample {A O P : Type} (k : Kind) (m : Mem A O P) (row : Row A O P) (id : Nat) : Option (Mem A O P) :=
  (k.push m.q ⟨row.reward, id, row.length, m.store.length⟩).map fun q => ⟨q, m.store ++ [row]⟩

/-- memory.py:364-369 `push_batch` from position `i` on. -/
def pushFrom {A O P : Type} (k : Kind) (b : Columns A O P) : Nat → List Nat → Mem A O P → Option (Mem A O P)
  | _, [], m => some m
  | i, id :: ids, m => do
    let row ← getSample b i
    let m' ← pushSample k m row id
    pushFrom k b (i + 1) ids m'

/-- memory.py:364-369 `push_batch`. -/
def pushBatch {A O P : Type} (k : Kind) (m : Mem A O P) (b : Columns A O P) (programs : List Nat) : Option (Mem A O P) :=
  pushFrom k b 0 programs m

/-- `np.argmax` from position `i`: the first largest so far is `best` at `j`. -/
def argmaxFrom (i j : Nat) (best : Int) : List Int → Nat
  | [] => j
  | x :: xs => if best < x then argmaxFrom (i + 1) i x xs else argmaxFrom (i + 1) j best xs

/-- `np.argmax`; `none`: ValueError on an empty array. -/
def argmax : List Int → Option Nat
  | [] => none
  | x :: xs => some (argmaxFrom 1 0 x xs)

/-- memory.py:371-377 `push_best`. -/
def pushBest {A O P : Type} (k : Kind) (m : Mem A O P) (b : Columns A O P) (programs : List Nat) : Option (Mem A O P) := do
  let i ← argmax b.rewards
  let row ← getSample b i
  let id ← programs[i]?
  pushSample k m row id

/-- The data of an entry. -/
def Mem.row {A O P : Type} (m : Mem A O P) (e : Entry) : Option (Row A O P) := m.store[e.data]?

/-- memory.py:428-433 `to_batch`. -/
def toBatch {A O P : Type} (m : Mem A O P) : Option (Columns A O P) := do
  let rows ← m.q.heap.mapM m.row
  makeBatch rows

/-- memory.py:135-147, 400-406 `sample_batch`: `draws` are the positions drawn by `rng.choice`; `none`: AssertionError (empty memory) or
ValueError. -/
def sampleBatch {A O P : Type} (m : Mem A O P) (draws : List Nat) : Option (Columns A O P) :=
  if m.q.heap.isEmpty then none
  else do
    let es ← draws.mapM fun (i : Nat) => m.q.heap[i]?
    let rows ← es.mapM m.row
    makeBatch rows

/-- memory.py:444-448 `get_rewards` and 450-454 `get_lengths`. -/
def getRewards {A O P : Type} (m : Mem A O P) : Option (List Int) := m.q.heap.mapM fun e => (m.row e).map (·.reward)
def getLengths {A O P : Type} (m : Mem A O P) : Option (List Nat) := m.q.heap.mapM fun e => (m.row e).map (·.length)

/-! ### Selection of the training rows (searcher.py:22-97) -/

/-- Boolean indexing of an array and `itertools.compress`. -/
def compress {α : Type} : List α → List Bool → List α
  | x :: xs, b :: bs => if b then x :: compress xs bs else compress xs bs
  | _, _ => []

/-- The columns `quantile_select` works on: actions, observations, priors, programs and rewards of the sampled batch.  `G` is the type of programs. -/
structure Sampled (A O P G : Type) where
  actions : List A
  obs : List O
  priors : List P
  programs : List G
  rewards : List Int
  onPolicy : List Bool
  invalid : List Bool

/-- searcher.py:93-95 `np.clip`. -/
def clipTo (M x : Int) : Int := min (max x (-M)) M

/-- searcher.py:55-97: keep the rows with a reward of at least the quantile, then the valid ones; clip the rewards.  Every column is indexed
on its own. -/
def Sampled.select {A O P G : Type} (s : Sampled A O P G) (q M : Int) : Sampled A O P G :=
  let keep := s.rewards.map fun r => decide (q ≤ r)
  let invalid := compress s.invalid keep
  let valid := invalid.map fun b => !b
  ⟨compress (compress s.actions keep) valid, compress (compress s.obs keep) valid, compress (compress s.priors keep) valid,
    compress (compress s.programs keep) valid, (compress (compress s.rewards keep) valid).map (clipTo M), compress (compress s.onPolicy keep) valid,
    compress invalid valid⟩

/-- searcher.py:169-184: the rows of the aggregator are appended. -/
def Sampled.append {A O P G : Type} (s agg : Sampled A O P G) : Sampled A O P G :=
  ⟨s.actions ++ agg.actions, s.obs ++ agg.obs, s.priors ++ agg.priors, s.programs ++ agg.programs, s.rewards ++ agg.rewards,
    s.onPolicy ++ agg.programs.map (fun _ => false), s.invalid ++ agg.invalid⟩

/-- searcher.py:197-207: the batch; `len` is `len(p.traversal)` of a program. -/
def Sampled.batch {A O P G : Type} (s : Sampled A O P G) (len : G → Nat) (maxLength : Nat) : Columns A O P :=
  ⟨s.actions, s.obs, s.priors, s.programs.map (fun p => min (len p) maxLength), s.rewards, s.onPolicy⟩

end Verif.Memory
