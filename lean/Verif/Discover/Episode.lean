import Verif.Discover.Violation
/-!
# Recording an episode (controller.py:233-308, task.py:123-158) and replaying one (aggregator.py:45-78)
One batch row, `n_objects = 1`.
-/
namespace Verif.Discover

/-- The loop state of controller.py `loop_fn`: `actions_ta`, `obs_ta`, `priors_ta`, the current `obs` and
`prior`; `seen` is a ghost: the observations from which the network input of each step was computed
(`get_tensor_input(obs)` is called when the observation is created, lines 238 and 283). -/
structure Episode where
  actions : List Nat
  obsTa : List Obs
  priorsTa : List (Nat → Logit)
  obs : Obs
  prior : Nat → Logit
  seen : List Obs

/-- controller.py:235-260 (time 0). -/
def Episode.start (lib : Lib) (ps : List Prior) : Episode :=
  ⟨[], [], [], initialObs lib, jointInitial lib ps, [initialObs lib]⟩

/-- controller.py:261-306 (time > 0) with drawn action `tok`.  `obs.numpy()` shares memory with the tensor `obs`
and task.py:142 `dangling += …` updates the view `obs[:, 3]` in place, so the `obs` appended to `obs_ta` (line
284) afterwards already carries the updated dangling count. -/
def Episode.step (lib : Lib) (ps : List Prior) (e : Episode) (tok : Nat) : Episode :=
  let actions := e.actions ++ [tok]
  let mutated : Obs := { e.obs with dangling := e.obs.dangling + ((lib.arity tok : Int) - 1) }
  let next := nextObs lib actions e.obs
  ⟨actions, e.obsTa ++ [mutated], e.priorsTa ++ [e.prior], next, nextPrior lib ps actions e.obs,
    e.seen ++ [next]⟩

/-- A whole episode (controller.py:376-401 `sample_episodes`) in which the actions `xs` are drawn. -/
def Episode.run (lib : Lib) (ps : List Prior) (xs : List Nat) : Episode :=
  xs.foldl (Episode.step lib ps) (Episode.start lib ps)

/-- `observe_*` flags of `HierarchicalStateManager` (state_manager.py:97-124). -/
structure ObsFlags where
  action : Bool
  parent : Bool
  sibling : Bool
  dangling : Bool

/-- aggregator.py:45-77 `get_agent_programs`: the observations reconstructed for one token list `index`
(`obs_action` shifted by one behind `L`, the parent/sibling rows, `1 + cumsum(arities - 1)`). -/
def replayObs (lib : Lib) (index : List Nat) : List Obs :=
  (List.range index.length).map fun t =>
    { action := if t = 0 then lib.L else (index[t - 1]?).getD 0
      parent := ((parentRow lib index)[t]?).getD 0
      sibling := ((siblingRow lib index)[t]?).getD 0
      dangling := 1 + ((cumsum lib.arity 0 index)[t]?).getD 0 }

/-- prior.py:183-215 `JointPrior.at_once`, one row, entry (t, tok).  `none` at the outer level: `ind_priors[0]`
raises IndexError without priors.  dangling before step `t` is `1 + Σ_{s<t} (arity - 1)`. -/
def priorAtOnce (lib : Lib) (ps : List Prior) (actions : List Nat) (parent : List Int) (sibling : List Nat)
    (t : Nat) (tok : Nat) : Option Logit :=
  match ps with
  | [] => none
  | _ :: _ =>
    if t = 0 then some (Logit.add (jointInitial lib ps tok) (some 0))
    else
      let dangling : Int := (actions.take t).foldl (fun d a => d + ((lib.arity a : Int) - 1)) 1
      some (ps.foldl (fun acc p => Logit.add acc (p.call lib (actions.take t) ((parent[t]?).getD 0)
        ((sibling[t]?).getD 0) dangling tok)) (some 0))

/-- controller.py:386-393, the sampling loop: `state` is assigned once before the loop (line 387) and every call
is `self.cell(next_input, state)`; the new state is returned by `loop_fn` as `next_state` and dropped.  `cell` is
the recurrent network of one step (`StructureAwareLSTM.forward`, lines 54-68). -/
def samplingLogits {I S O : Type} (cell : I → S → O × S) (s0 : S) (inputs : List I) : List O :=
  inputs.map fun x => (cell x s0).1

/-- controller.py:330-332 `make_neglogp_and_entropy`: `self.cell(inputs)` over the whole sequence, which threads
the recurrent state from the zero state. -/
def trainingLogits {I S O : Type} (cell : I → S → O × S) (s0 : S) : List I → List O
  | [] => []
  | x :: xs => (cell x s0).1 :: trainingLogits cell (cell x s0).2 xs

/-- controller.py:286-288, 383-393: the number of iterations of the `while not all(finished)` loop: after the
iteration that makes `time = k` the row is finished iff it was before or `k ≥ max_length`. -/
def loopIterations (maxLength : Nat) (fuel : Nat) (time : Nat) (finished : Bool) : Nat :=
  match fuel with
  | 0 => 0
  | fuel + 1 =>
    if finished then 0
    else 1 + loopIterations maxLength fuel (time + 1) (finished || decide (time + 1 ≥ maxLength))

/-! ## Lemmas -/

theorem Episode.run_snoc (lib : Lib) (ps : List Prior) (xs : List Nat) (x : Nat) :
    Episode.run lib ps (xs ++ [x]) = Episode.step lib ps (Episode.run lib ps xs) x := by
  simp [Episode.run]

theorem Episode.run_actions (lib : Lib) (ps : List Prior) (xs : List Nat) :
    (Episode.run lib ps xs).actions = xs := by
  induction xs using snoc_induction with
  | nil => rfl
  | snoc xs x ih => simp [Episode.run_snoc, Episode.step, ih]

theorem foldl_dang (ar : Nat → Nat) (xs : List Nat) : ∀ d : Int,
    xs.foldl (fun d a => d + ((ar a : Int) - 1)) d = dang ar d xs := by
  induction xs with
  | nil => intro d; rfl
  | cons x xs ih => intro d; simp [dang, ih]

/-- The observation after drawing `xs`. -/
def obsAfter (lib : Lib) (xs : List Nat) : Obs :=
  match xs with
  | [] => initialObs lib
  | _ :: _ => ⟨xs.getLast?.getD lib.emptyAction, (psOf lib xs).1, (psOf lib xs).2, dang lib.arity 1 xs⟩

theorem Episode.run_obs (lib : Lib) (ps : List Prior) (xs : List Nat) :
    (Episode.run lib ps xs).obs = obsAfter lib xs ∧
    (Episode.run lib ps xs).obs.dangling = dang lib.arity 1 xs := by
  induction xs using snoc_induction with
  | nil => exact ⟨rfl, rfl⟩
  | snoc xs x ih =>
    have hd : (Episode.run lib ps (xs ++ [x])).obs = nextObs lib (xs ++ [x]) (Episode.run lib ps xs).obs := by
      simp [Episode.run_snoc, Episode.step, Episode.run_actions]
    rw [hd]
    have : (nextObs lib (xs ++ [x]) (Episode.run lib ps xs).obs).dangling = dang lib.arity 1 (xs ++ [x]) := by
      simp [nextObs, ih.2, dang_append, dang]
    refine ⟨?_, this⟩
    cases hx : xs ++ [x] with
    | nil => simp at hx
    | cons y ys =>
      rw [hx] at this
      simp only [obsAfter, nextObs] at this ⊢
      rw [this]
      rfl

/-- What the lists of a run contain. -/
theorem Episode.run_lists (lib : Lib) (ps : List Prior) (xs : List Nat) :
    (Episode.run lib ps xs).seen = (List.range (xs.length + 1)).map (fun t => obsAfter lib (xs.take t)) ∧
    (Episode.run lib ps xs).obsTa = (List.range xs.length).map (fun t =>
      { obsAfter lib (xs.take t) with dangling := dang lib.arity 1 (xs.take (t + 1)) }) := by
  induction xs using snoc_induction with
  | nil => exact ⟨rfl, rfl⟩
  | snoc xs x ih =>
    have htk : (xs ++ [x]).take (xs.length + 1) = xs ++ [x] := List.take_of_length_le (by simp)
    constructor
    · have h1 : (Episode.run lib ps (xs ++ [x])).seen = (Episode.run lib ps xs).seen ++
          [(Episode.run lib ps (xs ++ [x])).obs] := by
        simp [Episode.run_snoc, Episode.step]
      rw [h1, ih.1, (Episode.run_obs lib ps (xs ++ [x])).1]
      conv => rhs; rw [List.length_append, List.length_singleton, List.range_succ, List.map_append]
      congr 1
      · apply List.map_congr_left
        intro t ht
        rw [List.take_append_of_le_length (by simp at ht; omega)]
      · simp [htk]
    · have h1 : (Episode.run lib ps (xs ++ [x])).obsTa = (Episode.run lib ps xs).obsTa ++
          [{ (Episode.run lib ps xs).obs with
              dangling := (Episode.run lib ps xs).obs.dangling + ((lib.arity x : Int) - 1) }] := by
        simp [Episode.run_snoc, Episode.step]
      rw [h1, ih.2, (Episode.run_obs lib ps xs).2, (Episode.run_obs lib ps xs).1]
      conv => rhs; rw [List.length_append, List.length_singleton, List.range_succ, List.map_append]
      congr 1
      · apply List.map_congr_left
        intro t ht
        simp only [List.mem_range] at ht
        rw [List.take_append_of_le_length (by omega), List.take_append_of_le_length (by omega)]
      · simp [htk, dang_append, dang]

end Verif.Discover
