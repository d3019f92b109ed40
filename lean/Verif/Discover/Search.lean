import Verif.Discover.Prior
import Verif.Discover.Finish
import Verif.Discover.Cache
import Verif.Discover.Searcher
/-!
# The whole search loop of DISCOVER (kd/model/discover/searcher.py:138-300 with program.py:112-168)

The parts modelled on their own are put together: rows of token indices come from the sampler, each is completed and looked up in the program cache, its
reward is computed once per program, and the batch updates the best program and the memory.  No aggregator (`make_gp_aggregator` returns None,
kd_discover.py:327-345) and a deterministic task (the cache is used).  Training of the network only changes what is drawn next, which is arbitrary here.
-/
namespace Verif.Discover.Search
open Verif.Discover Verif.Discover.Searcher

/-- A row of `actions` and what `np.random.choice` would return when the row has to be completed. -/
structure Draw where
  tokens : List Nat
  filler : Nat → Nat

/-- `p.r_ridge` and `p.invalid` of a program: a function of its tokens (deterministic task). -/
structure Score where
  reward : Option Int
  invalid : Bool

/-- program.py:112-168 `from_tokens(a)` for a row of an int64 array. -/
def fromRow (lib : Lib) (c : Cache) (d : Draw) : Option (Cache × Nat) :=
  (finishTokens lib.arity 1 d.filler d.tokens).map fun t => fromTokens c ⟨8, t, true, false⟩

/-- searcher.py:145 `[from_tokens(a) for a in actions]` -/
def fromRows (lib : Lib) : Cache → List Draw → Option (Cache × List Nat)
  | c, [] => some (c, [])
  | c, d :: ds => do
    let s ← fromRow lib c d
    let t ← fromRows lib s.1 ds
    return (t.1, s.2 :: t.2)

/-- searcher.py:150: reward and validity of the program object `o`. -/
def sampleOf (score : List Nat → Score) (c : Cache) (o : Nat) : Sample :=
  let s := score ((c.objs[o]?.map (·.tokens)).getD [])
  ⟨s.reward, s.invalid, o⟩

/-- searcher.py:138-250 `search_one_step`; `none`: an exception. -/
def oneStep (v : Env) (lib : Lib) (score : List Nat → Score) (s : Cache × St) (ds : List Draw) : Option (Cache × St) := do
  let p ← fromRows lib s.1 ds
  let t ← Searcher.step v s.2 ⟨p.2.map (sampleOf score p.1), []⟩
  return (p.1, t)

/-- searcher.py:252-264 `search`: the iterations. -/
def search (v : Env) (lib : Lib) (score : List Nat → Score) (s : Cache × St) (dss : List (List Draw)) : Option (Cache × St) :=
  dss.foldlM (oneStep v lib score) s

end Verif.Discover.Search
