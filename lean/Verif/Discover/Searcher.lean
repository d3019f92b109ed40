import Verif.Memory.Queue
/-!
# Best-so-far bookkeeping of the search loop (kd/model/discover/searcher.py)

Rewards are integers: every finite float64 is an integer multiple of 2^-1074, and the code modelled here only compares
rewards, so integers in that unit are exact.  `none` is NaN.  Infinite rewards are not modelled.  The training of the
controller (between the update of the memory and the update of the best program) does not touch the state modelled.
-/
namespace Verif.Discover.Searcher
open Verif.Memory

/-- A program of a batch: its reward `p.r_ridge` (`none`: NaN), `p.invalid` and its identity `p.str`. -/
structure Sample where
  reward : Option Int
  invalid : Bool
  id : Nat
deriving DecidableEq

/-- One iteration's environment: the sampled programs and what the genetic aggregator returns if it is asked
(`[]` also stands for "no aggregator"). -/
structure Batch where
  samples : List Sample
  agg : List (Int × Nat)

/-- searcher.py:114-127 `set_up`: `r_best` (`none` = -inf), `prev_r_best`, `best_p` (reward and identity), `pq`. -/
structure St where
  rBest : Option Int := none
  prev : Option Int := none
  bestP : Option (Int × Nat) := none
  pq : Q := {}
deriving DecidableEq

/-- What numpy leaves open: the position of `np.quantile(r, 1 - eps, method="higher")` in the sorted rewards, and
which of several largest rewards `np.argsort(r)[::-1][0]` finds. -/
structure Env where
  qpos : Nat → Nat
  pick : List Int → Nat
  /-- `pqt_k` -/
  cap : Option Nat
  /-- the clip bound 1e6 -/
  bound : Int

/-- What is assumed of numpy: the quantile is an element of the array, the pick is a largest element. -/
structure Env.Ok (v : Env) : Prop where
  qpos_lt : ∀ n, 0 < n → v.qpos n < n
  pick_max : ∀ l : List Int, l ≠ [] → ∃ m, l[v.pick l]? = some m ∧ ∀ x ∈ l, x ≤ m

/-- searcher.py:27 `r[np.isnan(r)] = 0.` -/
def r0 (s : Sample) : Int := s.reward.getD 0

/-- `np.clip(r, -1e6, 1e6)` (searcher.py:93-95). -/
def clip (M x : Int) : Int := min (max x (-M)) M

/-- Insertion into a sorted list. -/
def insertI (x : Int) : List Int → List Int
  | [] => [x]
  | y :: ys => if x ≤ y then x :: y :: ys else y :: insertI x ys

/-- The rewards in increasing order (what `np.quantile` indexes into). -/
def sortI : List Int → List Int
  | [] => []
  | x :: xs => insertI x (sortI xs)

/-- searcher.py:53: the quantile of the rewards of the batch. -/
def quantile (v : Env) (b : List Sample) : Int :=
  (sortI (b.map r0)).getD (v.qpos b.length) 0

/-- searcher.py:55-84: the kept valid samples. -/
def train (v : Env) (b : List Sample) : List Sample :=
  (b.filter fun s => decide (r0 s ≥ quantile v b)).filter fun s => !s.invalid

/-- searcher.py:45-48: `r_full_valid` before clipping. -/
def fullValid (b : List Sample) : List Int :=
  (b.filter fun s => !s.invalid && decide (r0 s > 0)).map r0

/-- `np.max` (`none`: ValueError on an empty array). -/
def npMax : List Int → Option Int
  | [] => none
  | x :: xs => some (xs.foldl max x)

/-- `max(r_max, self.r_best)` with `-inf`. -/
def maxBest (x : Int) : Option Int → Int
  | none => x
  | some y => max x y

/-- `np.argmax` over the finite rewards: the first largest one (searcher.py:158-159). -/
def firstBest : List Sample → Option (Int × Nat)
  | [] => none
  | s :: ss =>
    match s.reward, firstBest ss with
    | none, r => r
    | some x, none => some (x, s.id)
    | some x, some (y, i) => if y > x then some (y, i) else some (x, s.id)

/-- searcher.py:154-163: nothing to train on. -/
def stepEmpty (b : Batch) (s : St) : St :=
  match firstBest b.samples with
  | none => s
  | some (x, i) =>
    if s.bestP = none ∨ (match s.rBest with | none => true | some y => decide (x > y)) = true then
      { s with bestP := some (x, i), rBest := some x }
    else s

/-- searcher.py:166,169-184: `r_max` after asking the aggregator. -/
def rMaxAll (agg : List (Int × Nat)) (rMax1 : Int) (ps : List (Int × Nat)) : Option Int :=
  if agg = [] then some rMax1 else npMax (ps.map (·.1))

/-- searcher.py:164-232: the normal case.  `none`: an exception is raised. -/
def stepNormal (v : Env) (b : Batch) (s : St) : Option St := do
  let tr := train v b.samples
  let rMax1 ← npMax ((fullValid b.samples).map (clip v.bound))
  let rBest1 := maxBest rMax1 s.rBest
  -- programs with their rewards, agent first, then aggregator (searcher.py:169-185)
  let ps : List (Int × Nat) := tr.map (fun x => (clip v.bound (r0 x), x.id)) ++ b.agg
  let rMax ← rMaxAll b.agg rMax1 ps
  let rBest := if b.agg = [] then rBest1 else maxBest rMax (some rBest1)
  let cur ← ps[v.pick (ps.map (·.1))]?
  let pq ← pqPushes v.cap s.pq (ps.map fun p => ⟨p.1, p.2, 0, 0⟩)
  let better := match s.prev with | none => true | some y => decide (rMax > y)
  some ⟨some rBest, some rBest, if better then some cur else s.bestP, pq⟩

/-- searcher.py:138-250 `search_one_step`. -/
def step (v : Env) (s : St) (b : Batch) : Option St :=
  if train v b.samples = [] then some (stepEmpty b s) else stepNormal v b s

/-- searcher.py:262-264: the iterations of a search. -/
def run (v : Env) (s : St) (bs : List Batch) : Option St := bs.foldlM (step v) s

end Verif.Discover.Searcher
