import Verif.Discover.Episode
import Verif.Claims.Sampling
/-!
# C13, C41, C42 – what is recorded for training
-/
namespace Verif.Discover.Claims
open Tree

/-- **C13** (partial – action, parent and sibling; the dangling count is wrong, see below).  For every episode and
every step `t`, the recorded observation is the observation from which the network input of that step was
computed, except that its dangling count is the one *after* the step's token. -/
theorem C13_recorded_partial (lib : Lib) (ps : List Prior) (xs : List Nat) (t : Nat) (tok : Nat)
    (ht : xs[t]? = some tok) :
    ∃ seen, (Episode.run lib ps xs).seen[t]? = some seen ∧
      (Episode.run lib ps xs).obsTa[t]? =
        some { seen with dangling := seen.dangling + ((lib.arity tok : Int) - 1) } ∧
      (Episode.run lib ps xs).actions[t]? = some tok := by
  have hlt := (List.getElem?_eq_some_iff.1 ht).1
  obtain ⟨h1, h2⟩ := Episode.run_lists lib ps xs
  refine ⟨obsAfter lib (xs.take t), ?_, ?_, by rw [Episode.run_actions]; exact ht⟩
  · rw [h1]; simp [List.getElem?_range (show t < xs.length + 1 by omega)]
  · rw [h2]; simp only [List.getElem?_map, List.getElem?_range hlt, Option.map_some]
    have htake : xs.take (t + 1) = xs.take t ++ [tok] := by
      rw [List.take_add_one, ht]; rfl
    have hd : (obsAfter lib (xs.take t)).dangling = dang lib.arity 1 (xs.take t) := by
      rw [← (Episode.run_obs lib ps (xs.take t)).1]; exact (Episode.run_obs lib ps (xs.take t)).2
    rw [htake, dang_append, hd]
    rfl

/-- **C13 fails** for the dangling count: drawing `add` from the initial observation (1 open slot) records 2. -/
theorem C13_dangling_counterexample :
    (Episode.run exLib [] [0]).obsTa.map Obs.dangling = [2] ∧
    ((Episode.run exLib [] [0]).seen.take 1).map Obs.dangling = [1] := by decide

/-- The priors recorded are the priors each token was drawn under, and the recorded actions, observation and
prior follow exactly the sampling relation used in C06–C11. -/
theorem C13_priors (lib : Lib) (ps : List Prior) (xs : List Nat) {obs : Obs} {prior : Nat → Logit}
    (h : Sampled lib ps xs obs prior) :
    (Episode.run lib ps xs).obs = obs ∧ (Episode.run lib ps xs).prior = prior ∧
    (Episode.run lib ps xs).priorsTa =
      (List.range xs.length).map fun t => (Episode.run lib ps (xs.take t)).prior := by
  induction h with
  | start => exact ⟨rfl, rfl, rfl⟩
  | @step xs obs prior h tok hL hp ih =>
    obtain ⟨h1, h2, h3⟩ := ih
    refine ⟨?_, ?_, ?_⟩
    · rw [Episode.run_snoc]; simp [Episode.step, Episode.run_actions, h1]
    · rw [Episode.run_snoc]; simp [Episode.step, Episode.run_actions, h1]
    · have h4 : (Episode.run lib ps (xs ++ [tok])).priorsTa = (Episode.run lib ps xs).priorsTa ++
          [(Episode.run lib ps xs).prior] := by rw [Episode.run_snoc]; simp [Episode.step]
      rw [h4, h3]
      conv => rhs; rw [List.length_append, List.length_singleton, List.range_succ, List.map_append]
      congr 1
      · apply List.map_congr_left
        intro t ht
        rw [List.take_append_of_le_length (by simp at ht; omega)]
      · simp

/-- The rows of `jit_parents_siblings_at_once` at step `t ≥ 1` are `parents_siblings` of the first `t` tokens. -/
theorem rows_getElem (lib : Lib) (xs : List Nat) (t : Nat) (h0 : 0 < t) (ht : t < xs.length) :
    (parentRow lib xs)[t]? = some (psOf lib (xs.take t)).1 ∧
    (siblingRow lib xs)[t]? = some (psOf lib (xs.take t)).2 := by
  have key : (parentsSiblingsAtOnce lib.arity lib.parentAdjust (atOnceEmptyParent lib) lib.L xs)[t]? =
      some (psOf lib (xs.take t)) := by
    simp only [parentsSiblingsAtOnce, List.getElem?_map, List.getElem?_range ht, Option.map_some, if_neg (Nat.ne_of_gt h0)]
    unfold psOf parentsSiblings
    rw [atOnceEmptyParent_eq]
    cases (xs.take t).reverse with
    | nil => rfl
    | cons x rest =>
      simp only [Lib.emptySibling]
      split
      · rfl
      · split <;> rfl
  unfold parentRow siblingRow
  rw [List.getElem?_map, List.getElem?_map, key]
  exact ⟨rfl, rfl⟩

/-- **C41.** The prior computed in retrospect for a whole token list is, at every step and for every token, the
prior that was in force when the token of that step was drawn.  (At least one prior, else the code raises.) -/
theorem C41_prior_at_once (lib : Lib) (ps : List Prior) (hps : ps ≠ []) (xs p q : List Nat) (hpq : xs = p ++ q)
    (hq : q ≠ []) {obs : Obs} {prior : Nat → Logit} (h : Sampled lib ps p obs prior) (tok : Nat) :
    priorAtOnce lib ps xs (parentRow lib xs) (siblingRow lib xs) p.length tok = some (prior tok) := by
  have hlen : p.length < xs.length := by
    rw [hpq, List.length_append]; have := List.length_pos_iff.2 hq; omega
  have htake : xs.take p.length = p := by rw [hpq]; simp
  unfold priorAtOnce
  cases ps with
  | nil => exact absurd rfl hps
  | cons p0 ps =>
    simp only
    by_cases h0 : p = []
    · subst h0
      rw [h.start_inv rfl]
      simp only [List.length_nil, if_true]
      cases jointInitial lib (p0 :: ps) tok with
      | none => rfl
      | some v => simp [Logit.add, Rat.add_zero]
    · have hpos := List.length_pos_iff.2 h0
      obtain ⟨hr1, hr2⟩ := rows_getElem lib xs p.length hpos hlen
      rw [if_neg (by omega), hr1, hr2, htake, foldl_dang]
      cases h with
      | start => exact absurd rfl h0
      | step h' tk hL hp =>
        have hd := (Sampled.step h' tk hL hp).obs_dangling
        simp only [nextPrior, jointCall]
        rw [hd]
        rfl

/-- **C42.** For every token list, the observations reconstructed by the genetic aggregator are exactly the ones
the controller records when the same tokens are drawn. -/
theorem C42_replay (lib : Lib) (ps : List Prior) (xs : List Nat) :
    replayObs lib xs = (Episode.run lib ps xs).obsTa := by
  rw [(Episode.run_lists lib ps xs).2]
  unfold replayObs
  apply List.map_congr_left
  intro t ht
  have ht : t < xs.length := by simpa using ht
  have hcs : (cumsum lib.arity 0 xs)[t]? = some (dang lib.arity 0 (xs.take (t + 1))) := by
    have hlt : t < (cumsum lib.arity 0 xs).length := by rw [cumsum_length]; exact ht
    rw [List.getElem?_eq_getElem hlt, cumsum_getElem]
  have hdang : 1 + dang lib.arity 0 (xs.take (t + 1)) = dang lib.arity 1 (xs.take (t + 1)) := by
    rw [dang_eq lib.arity 1]; omega
  by_cases h0 : t = 0
  · subst h0
    cases xs with
    | nil => simp at ht
    | cons x xs =>
      simp only [hcs, Option.getD_some, hdang]
      have h1 : (parentRow lib (x :: xs))[0]? = some lib.emptyParent := by
        simp [parentRow, parentsSiblingsAtOnce, List.range_succ_eq_map, atOnceEmptyParent_eq]
      have h2 : (siblingRow lib (x :: xs))[0]? = some lib.L := by
        simp [siblingRow, parentsSiblingsAtOnce, List.range_succ_eq_map]
      rw [h1, h2]
      rfl
  · obtain ⟨h1, h2⟩ := rows_getElem lib xs t (by omega) ht
    rw [h1, h2, hcs]
    simp only [Option.getD_some, hdang, if_neg h0]
    have hne : xs.take t ≠ [] := by
      intro h; have := congrArg List.length h; rw [List.length_take, List.length_nil] at this; omega
    have hlast : (xs.take t).getLast?.getD lib.emptyAction = xs[t - 1]?.getD 0 := by
      rw [List.getLast?_eq_getElem?]
      have : (xs.take t).length = t := by simp; omega
      rw [this, List.getElem?_take_of_lt (by omega), List.getElem?_eq_getElem (by omega)]
      rfl
    cases hx : xs.take t with
    | nil => exact absurd hx hne
    | cons y ys =>
      rw [hx] at hlast
      simp only [obsAfter]
      rw [hlast]

/-- **C43** (partial).  The network outputs used while sampling and those recomputed for training agree for every
episode and every input – provided the network's output does not depend on its recurrent state. -/
theorem C43_policy_outputs_partial {I S O : Type} (cell : I → S → O × S) (s0 : S)
    (hstate : ∀ x s s', (cell x s).1 = (cell x s').1) (inputs : List I) :
    samplingLogits cell s0 inputs = trainingLogits cell s0 inputs := by
  have : ∀ s, samplingLogits cell s0 inputs = trainingLogits cell s inputs := by
    induction inputs with
    | nil => intro s; rfl
    | cons x xs ih =>
      intro s
      simp only [samplingLogits, List.map_cons, trainingLogits, List.cons.injEq]
      exact ⟨hstate _ _ _, ih _⟩
  exact this s0

/-- **C43**, the first step always agrees. -/
theorem C43_first_step {I S O : Type} (cell : I → S → O × S) (s0 : S) (x : I) (xs : List I) :
    (samplingLogits cell s0 (x :: xs)).head? = (trainingLogits cell s0 (x :: xs)).head? := rfl

/-- **C43 fails** for a recurrent network: the sampling loop never passes the state on.  With the simplest
recurrent cell (output = state, state = state + 1) two steps are sampled with outputs 0, 0 and trained with 0, 1. -/
theorem C43_recurrent_counterexample :
    let cell : Unit → Nat → Nat × Nat := fun _ s => (s, s + 1)
    samplingLogits cell 0 [(), ()] = [0, 0] ∧ trainingLogits cell 0 [(), ()] = [0, 1] := by decide

/-- **C08**, support: every episode draws exactly `max_length` tokens (one, if `max_length = 0`), so the
hypothesis `xs.length = max_length` of `C08_max_length` is what the sampling loop produces. -/
theorem C08_episode_length (maxLength fuel : Nat) (h : maxLength < fuel) (h0 : 0 < maxLength) :
    loopIterations maxLength fuel 0 false = maxLength := by
  have : ∀ n fuel time, time + n = maxLength → 0 < n → n < fuel →
      loopIterations maxLength fuel time false = n := by
    intro n
    induction n with
    | zero => intro _ _ _ h; omega
    | succ n ih =>
      intro fuel time ht _ hf
      cases fuel with
      | zero => omega
      | succ fuel =>
        simp only [loopIterations, Bool.false_eq_true, if_false, Bool.false_or]
        by_cases hn : n = 0
        · subst hn
          have : decide (time + 1 ≥ maxLength) = true := by simp; omega
          rw [this]
          cases fuel <;> simp [loopIterations]
        · have : decide (time + 1 ≥ maxLength) = false := by simp; omega
          rw [this, ih fuel (time + 1) (by omega) (by omega) (by omega)]
          omega
  exact this maxLength fuel 0 (by omega) h0 h

/-! ## Non-vacuity -/


/-- Recording `add(sin(u1), u1)` under all the constraints of `exPriors`. -/
example : (Episode.run exLib exPriors [0, 2, 4, 4]).obsTa =
    [⟨7, 5, 7, 2⟩, ⟨0, 0, 7, 2⟩, ⟨2, 2, 7, 1⟩, ⟨4, 0, 2, 0⟩] := by decide
example : replayObs exLib [0, 2, 4, 4] = [⟨7, 5, 7, 2⟩, ⟨0, 0, 7, 2⟩, ⟨2, 2, 7, 1⟩, ⟨4, 0, 2, 0⟩] := by decide
example : ∃ obs prior, Sampled exLib exPriors [0, 2] obs prior := sampled_of_canDraw (by decide)
/-- In retrospect `sin` below `sin` is masked, `u1` is not. -/
example : priorAtOnce exLib exPriors [0, 2, 4, 4] (parentRow exLib [0, 2, 4, 4]) (siblingRow exLib [0, 2, 4, 4]) 2 2 =
      some none ∧
    (priorAtOnce exLib exPriors [0, 2, 4, 4] (parentRow exLib [0, 2, 4, 4]) (siblingRow exLib [0, 2, 4, 4]) 2 4).isSome
      = true := by decide

end Verif.Discover.Claims
