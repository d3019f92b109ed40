import Verif.Discover.Search
import Verif.Discover.Stability
/-!
# A whole run of DISCOVER in the sparse mode (kd/model/kd_discover.py:631-718 with searcher.py:252-327 and pinn.py:233-353)

The models of the network (`Pinn`), of the search loop (`Search`) and of the selection by stability (`Stability`) are put together: pretraining, then rounds
of data generation, search and training of the network with the equation, then one more search.  One dependent variable (`results` has one element).  What
the controller draws is arbitrary, as are the values of the stability tests; the network, its derivatives and the regression are arguments.
-/
namespace Verif.Discover.SprRun
open Verif.Discover Verif.Discover.Search Verif.Discover.Searcher Verif.Discover.Pinn

/-- What a run is set up with.  `score data l`: reward and validity of the expression `l` on the search data; `fitted`: its coefficients; `vals l w c`: at
the points `c`, the time derivative of the network with weights `w` and the values of the terms of `l`; `nmse`: the error in `evaluate`; `len`: `len_traversal`. -/
structure Setting (W O : Type) where
  v : Searcher.Env
  lib : Lib
  m : Machine W O
  field : W → Field
  score : Meta → List Nat → Score
  fitted : Meta → List Nat → List ℚ
  vals : List Nat → W → Cols → List (ℚ × List ℚ)
  nmse : Meta → List Nat → Fl
  len : List Nat → Nat
  /-- `generation_type` is `multi_AD` -/
  multi : Bool
  cut : ℚ
  coef : ℚ
  localSample : Bool
  epochs : Nat
  iters : Nat
  load : Option W
  limit : Nat
  duration : Nat
  /-- `stability_selection` -/
  sel : Nat
  resamples : Nat

/-- What is random in one search: the rows drawn in its iterations and the outcome of the stability test of an expression. -/
structure Draws where
  rows : List (List Draw)
  test : List Nat → Option (List Fl × List Fl)

variable {W O : Type}

/-- program.py:563-568 `reset_task`, pde_pinn.py:210-246: the data of the search from the present network. -/
def searchData (S : Setting W O) (n : State W O) : Option Meta :=
  if S.multi then generateMulti S.cut (S.field n.w) n.data.f else generateOne S.cut (S.field n.w) n.data.f

/-- The tokens of a program object. -/
def tokensOf (c : Cache) (o : Nat) : List Nat := (c.objs[o]?.map (·.tokens)).getD []

/-- searcher.py:154-163, 226-230: `self.best_p` after the iterations, with its reward, when the searcher still had the program `kept` before.  Simplification
(theorem `kept_search`): the iterations are run from a fresh state; the old program stays exactly if no iteration had anything to train on (`prev` is None)
and nothing drawn has a larger reward. -/
def bestOf (kept : Option (Int × List Nat)) (c : Cache) (s : St) : Option (Int × List Nat) :=
  match kept, s.bestP with
  | k, none => k
  | none, some b => some (b.1, tokensOf c b.2)
  | some k, some b => if s.prev = none ∧ b.1 ≤ k.1 then some k else some (b.1, tokensOf c b.2)

/-- What a search leaves behind for the next one: with a non-empty memory the next search begins afresh (searcher.py:258-260). -/
def keptAfter (s : St) (b : Int × List Nat) : Option (Int × List Nat) := if s.pq.heap = [] then some b else none

/-- searcher.py:275-299 -/
def chosen (S : Setting W O) (data : Meta) (d : Draws) (c : Cache) (s : St) (b : Int × List Nat) : Option (List Nat) :=
  Stability.select S.len (S.nmse data) d.test S.sel S.resamples ((Verif.Memory.pqInOrder s.pq).map fun e => tokensOf c e.id) b.2

/-- searcher.py:252-327 `search(keep_history=False)` after the cache was cleared: the program reported and what stays in the searcher.
`none`: an exception (303: no program). -/
def oneSearch (S : Setting W O) (data : Meta) (kept : Option (Int × List Nat)) (d : Draws) : Option (List Nat × Option (Int × List Nat)) := do
  let r ← search S.v S.lib (S.score data) ({}, {}) d.rows
  let b ← bestOf kept r.1 r.2
  let p ← chosen S data d r.1 r.2 b
  return (p, keptAfter r.2 b)

/-- `a > b` for floats: false with NaN. -/
def greater : Option Int → Option Int → Bool
  | some a, some b => decide (a > b)
  | _, _ => false

/-- kd_discover.py:661-670: the equation of the round. -/
def pickBest (S : Setting W O) (data : Meta) (carried : Option (List Nat)) (found : List Nat) : List Nat :=
  match carried with
  | none => found
  | some l => if greater (S.score data l).reward (S.score data found).reward then l else found

/-- program.py:610-622 with pde_pinn.py:149-159: the coefficients kept in the program, `[0]` for an invalid one. -/
def coefs (S : Setting W O) (data : Meta) (l : List Nat) : List ℚ := if (S.score data l).invalid then [0] else S.fitted data l

/-- loss.py:11-34 at the collocation points and at the observed points (pinn.py:311-323); an IndexError is not told from NaN. -/
def equation (S : Setting W O) (data : Meta) (l : List Nat) (d : Data) : Equation W :=
  ⟨fun w => (pinnLoss (S.vals l w d.f) (coefs S data l)).getD none, fun w => (pinnLoss (S.vals l w d.xt) (coefs S data l)).getD none⟩

/-- One round: the network before it, the data of its search, the program found, the equation the network is trained with. -/
structure Round (W O : Type) where
  net : State W O
  data : Meta
  found : List Nat
  used : List Nat

structure RunSt (W O : Type) where
  net : State W O
  kept : Option (Int × List Nat)
  log : List (Round W O)

/-- `last_best_p` (kd_discover.py:661-663, 681-682): the equation of the round before. -/
def carriedOf (st : RunSt W O) : Option (List Nat) := st.log.getLast?.map (·.used)

/-- kd_discover.py:650-682: round `i`. -/
def round (S : Setting W O) (draws : Nat → Draws) (st : RunSt W O) (i : Nat) : Option (RunSt W O) := do
  let data ← searchData S st.net
  let r ← oneSearch S data st.kept (draws i)
  let used := pickBest S data (carriedOf st) r.1
  let t := trainPinn S.m (fun d => [equation S data used d]) (i + 1) S.coef S.localSample (i + 1 == S.iters) S.epochs st.net
  if t.2 then some ⟨t.1, r.2, st.log ++ [⟨st.net, data, r.1, used⟩]⟩ else none

/-- What a run leaves: the reported expression, the data of the last search, the rounds and the network. -/
structure Outcome (W O : Type) where
  result : List Nat
  data : Meta
  log : List (Round W O)
  net : State W O

/-- kd_discover.py:637-689 `callIterPINN` (from `train`, 704-718, with a new searcher and network). -/
def run (S : Setting W O) (draws : Nat → Draws) (n : State W O) : Option (Outcome W O) := do
  let st ← (List.range S.iters).foldlM (round S draws) ⟨(pretrain S.m S.load S.limit S.duration n).1, none, []⟩
  let data ← searchData S st.net
  let r ← oneSearch S data st.kept (draws S.iters)
  return ⟨r.1, data, st.log, st.net⟩

end Verif.Discover.SprRun
