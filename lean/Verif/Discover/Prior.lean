import Verif.Discover.Library
/-!
# Priors / constraints (kd/model/discover/dso/prior.py), one batch row, `n_objects = 1`
-/
namespace Verif.Discover

/-- A logit adjustment: `none` is `-inf`, `some r` a finite value.  (float32 rounding is not modelled; the
theorems only use whether an adjustment is `-inf`.) -/
abbrev Logit := Option Rat

/-- `a + b` for logits: `-inf` absorbs. -/
def Logit.add : Logit → Logit → Logit
  | some a, some b => some (a + b)
  | _, _ => none

/-- prior.py:283-311 `Constraint.make_constraint` for one row: `-inf` at `tokens` if `mask`. -/
def makeConstraint (mask : Bool) (tokens : List Nat) (t : Nat) : Logit :=
  if mask && tokens.contains t then none else some 0

/-- `relationship` strings of `RelationalConstraint` (prior.py:361-380). -/
inductive Rel where
  | descendant | child | sibling | uchild | lchild | rchild
deriving DecidableEq, Repr

/-- prior.py:361-386 `RelationalConstraint` (targets/effectors already `actionize`d). -/
structure Relational where
  targets : List Nat
  effectors : List Nat
  rel : Rel
deriving DecidableEq

/-- prior.py:388-435 `RelationalConstraint.__call__`. -/
def Relational.call (lib : Lib) (c : Relational) (actions : List Nat) (parent : Int) (sibling : Nat)
    (t : Nat) : Logit :=
  let adjE := c.effectors.map lib.parentAdjust
  match c.rel with
  | .descendant => makeConstraint (ancestors lib.arity c.effectors actions) c.targets t
  | .child => makeConstraint (adjE.contains parent) c.targets t
  | .sibling =>
    Logit.add (makeConstraint (c.effectors.contains sibling) c.targets t)
      (makeConstraint (c.targets.contains sibling) c.effectors t)
  | .uchild =>
    let adjU := (c.effectors.filter fun e => lib.unaryTokens.contains e).map lib.parentAdjust
    makeConstraint (adjU.contains parent || (c.targets.contains sibling && adjE.contains parent)) c.targets t
  | .lchild => makeConstraint (adjE.contains parent && (sibling == lib.L)) c.targets t
  | .rchild => makeConstraint (adjE.contains parent && decide (sibling < lib.L)) c.targets t

/-- The prior classes.  `soft` stands for `UniformArityPrior` and `SoftLengthPrior` (prior.py:916-1014): any
prior with finite values. -/
inductive Prior where
  | relational (c : Relational)
  | length (min max : Option Nat)
  | repeat (tokens : List Nat) (max : Nat)
  | noInputs
  | inverse (cs : List Relational)
  | soft (initial : Nat → Rat) (call : List Nat → Int → Nat → Int → Nat → Rat)

/-- prior.py:855-894 `LengthConstraint.__call__` (`n_objects = 1` branch, lines 878-893).
`k = actions.length`, so the code's `i` is `k - 1`, `i + 2 = k + 1`, `i + 1 = k`. -/
def lengthCall (lib : Lib) (min max : Option Nat) (k : Nat) (dangling : Int) (t : Nat) : Logit :=
  let a : Logit := match max with
    | none => some 0
    | some m =>
      if k + 1 ≥ m / 2 then
        let remaining : Int := (m : Int) - k
        Logit.add (makeConstraint (decide (dangling ≥ remaining - 1)) lib.binaryTokens t)
          (makeConstraint (decide (dangling = remaining)) lib.unaryTokens t)
      else some 0
  let b : Logit := match min with
    | none => some 0
    | some m => if k + 1 < m then makeConstraint (decide (dangling = 1)) lib.terminalTokens t else some 0
  Logit.add a b

/-- `prior.__call__(actions, parent, sibling, dangling)[t]`. -/
def Prior.call (lib : Lib) (p : Prior) (actions : List Nat) (parent : Int) (sibling : Nat) (dangling : Int)
    (t : Nat) : Logit :=
  match p with
  | .relational c => c.call lib actions parent sibling t
  | .length mn mx => lengthCall lib mn mx actions.length dangling t
  | .repeat toks mx =>                                            -- prior.py:790-805
    makeConstraint (decide ((actions.filter fun a => toks.contains a).length ≥ mx)) toks t
  | .noInputs =>                                                  -- prior.py:543-551
    makeConstraint (decide (dangling = 1) &&
      decide ((actions.filter fun a => lib.stateTokens.contains a).length = 0)) lib.nonStateTokens t
  | .inverse cs =>                                                -- prior.py:586-588 (a sum)
    cs.foldl (fun acc c => Logit.add acc (c.call lib actions parent sibling t)) (some 0)
  | .soft _ f => some (f actions parent sibling dangling t)

/-- `prior.initial_prior()[t]`: zero (prior.py:247-258) except for `LengthConstraint` (849-853) and the soft
priors. -/
def Prior.initial (lib : Lib) (p : Prior) (t : Nat) : Logit :=
  match p with
  | .length _ _ => if lib.terminalTokens.contains t then none else some 0
  | .soft f _ => some (f t)
  | _ => some 0

/-- prior.py:135-139 `JointPrior.initial_prior`. -/
def jointInitial (lib : Lib) (ps : List Prior) (t : Nat) : Logit :=
  ps.foldl (fun acc p => Logit.add acc (p.initial lib t)) (some 0)

/-- prior.py:141-162 `JointPrior.__call__` (without the counting report). -/
def jointCall (lib : Lib) (ps : List Prior) (actions : List Nat) (parent : Int) (sibling : Nat)
    (dangling : Int) (t : Nat) : Logit :=
  ps.foldl (fun acc p => Logit.add acc (p.call lib actions parent sibling dangling t)) (some 0)

/-- prior.py:567-578 `InverseUnaryConstraint.__init__`. -/
def inverseConstraint (lib : Lib) : Prior :=
  .inverse (lib.inverseTokens.map fun (tgt, eff) => ⟨[tgt], [eff], .child⟩)

/-- prior.py:494-511 `TrigConstraint`. -/
def trigConstraint (lib : Lib) : Relational := ⟨lib.trigTokens, lib.trigTokens, .descendant⟩

/-- prior.py:664-698 `DiffConstraint_right`. -/
def diffRightConstraint (lib : Lib) : Relational :=
  ⟨lib.unaryTokens ++ lib.binaryTokens ++ lib.terminalTokens.filter (fun t => !lib.inputTokens.contains t),
    lib.diffTokens, .rchild⟩

/-- `library.names.index(name)` for every name of `names` that occurs in the library (first token of that name). -/
def Lib.firstOf (lib : Lib) (names : List String) : List Nat :=
  names.filterMap fun n => (lib.indices (fun t => t.name == n)).head?

/-- prior.py:621-639 `DiffConstraint_left`.  (`library.const_token` is the first token named "const"; tokens
are given to `actionize` by index or name and mapped to the first equal token – distinct tokens assumed.) -/
def diffLeftConstraint (lib : Lib) : Relational :=
  ⟨lib.firstOf ["const"] ++ lib.inputTokens,
    lib.diffTokens, .lchild⟩

/-- prior.py:641-662 `DiffConstraint_left_strict`. -/
def diffLeftStrictConstraint (lib : Lib) : Relational :=
  ⟨lib.indices (fun t => !(isDiffName t.name || lib.tokens.any fun s => s.stateVar.isSome && s.name == t.name)),
    lib.diffTokens, .lchild⟩

/-- prior.py:704-724 `DiffConstraint_des` (`extra` not given). -/
def diffDesConstraint (lib : Lib) : Relational :=
  ⟨lib.firstOf ["add", "add_t", "sub", "sub_t"] ++ lib.firstOf ["const"], lib.diffTokens, .descendant⟩

/-- prior.py:726-743 `DiffConstraint_des2`. -/
def diffDes2Constraint (lib : Lib) : Relational :=
  ⟨lib.firstOf ["n2", "n3", "n4", "mul", "div", "exp", "log", "sin", "cos"] ++ lib.firstOf ["const"],
    lib.diffTokens, .descendant⟩

/-- prior.py:745-759 `LaplaceConstraint` with `extras = []` (targets and effectors are names; distinct names
assumed, so that a name stands for one token). -/
def laplaceConstraint (lib : Lib) : Relational :=
  ⟨lib.indices (fun t => t.stateVar.isNone), lib.indices (fun t => hasSub "lap".toList t.name.toList), .uchild⟩

/-! ## One sampling step -/

/-- task.py:120: the observation (action, parent, sibling, dangling). -/
structure Obs where
  action : Nat
  parent : Int
  sibling : Nat
  dangling : Int
deriving DecidableEq, Repr

/-- task.py:159-173 `reset_task`. -/
def initialObs (lib : Lib) : Obs := ⟨lib.emptyAction, lib.emptyParent, lib.emptySibling, 1⟩

/-- task.py:125-157 `HierarchicalTask.get_next_obs` (`n_objects = 1`): the new observation.  `actions` is
never empty when it is called; the `getD` default is not reachable. -/
def nextObs (lib : Lib) (actions : List Nat) (obs : Obs) : Obs :=
  let ps := (parentsSiblings lib.arity lib.parentAdjust lib.emptyParent lib.emptySibling actions).getD
    (lib.emptyParent, lib.emptySibling)
  let action := actions.getLast?.getD lib.emptyAction
  ⟨action, ps.1, ps.2, obs.dangling + ((lib.arity action : Int) - 1)⟩

/-- task.py:144: the prior for choosing the token after `actions`. -/
def nextPrior (lib : Lib) (ps : List Prior) (actions : List Nat) (obs : Obs) (t : Nat) : Logit :=
  let o := nextObs lib actions obs
  jointCall lib ps actions o.parent o.sibling o.dangling t

/-- controller.py:211-277 `loop_fn`: all action lists that can be produced, with the observation and prior in
force for the next choice.  A token is drawn from softmax(logits + prior): a token whose prior is `-inf` has
probability zero, any other token may be drawn (the network's logits are arbitrary). -/
inductive Sampled (lib : Lib) (ps : List Prior) : List Nat → Obs → (Nat → Logit) → Prop
  | start : Sampled lib ps [] (initialObs lib) (jointInitial lib ps)
  | step {xs : List Nat} {obs : Obs} {prior : Nat → Logit} (h : Sampled lib ps xs obs prior)
      (tok : Nat) (hL : tok < lib.L) (hp : prior tok ≠ none) :
      Sampled lib ps (xs ++ [tok]) (nextObs lib (xs ++ [tok]) obs)
        (nextPrior lib ps (xs ++ [tok]) obs)

/-! ## Lemmas -/

theorem Logit.add_eq_none {a b : Logit} : Logit.add a b = none ↔ a = none ∨ b = none := by
  cases a <;> cases b <;> simp [Logit.add]

theorem foldl_add_eq_none {α : Type} (f : α → Logit) (l : List α) :
    ∀ acc : Logit, l.foldl (fun acc p => Logit.add acc (f p)) acc = none ↔ acc = none ∨ ∃ p ∈ l, f p = none := by
  induction l with
  | nil => intro acc; simp
  | cons x xs ih =>
    intro acc
    rw [List.foldl_cons, ih, Logit.add_eq_none]
    simp only [List.mem_cons, exists_eq_or_imp]
    grind

theorem jointInitial_none {lib : Lib} {ps : List Prior} {t : Nat} :
    jointInitial lib ps t = none ↔ ∃ p ∈ ps, p.initial lib t = none := by
  simp [jointInitial, foldl_add_eq_none]

theorem jointCall_none {lib : Lib} {ps : List Prior} {actions parent sibling dangling t} :
    jointCall lib ps actions parent sibling dangling t = none ↔
      ∃ p ∈ ps, p.call lib actions parent sibling dangling t = none := by
  simp [jointCall, foldl_add_eq_none]

theorem makeConstraint_none {m : Bool} {toks : List Nat} {t : Nat} :
    makeConstraint m toks t = none ↔ m = true ∧ t ∈ toks := by
  simp [makeConstraint]

/-- The parent/sibling pair the priors are called with after `actions`. -/
def psOf (lib : Lib) (actions : List Nat) : Int × Nat :=
  (parentsSiblings lib.arity lib.parentAdjust lib.emptyParent lib.emptySibling actions).getD
    (lib.emptyParent, lib.emptySibling)

theorem Sampled.obs_dangling {lib ps xs obs prior} (h : Sampled lib ps xs obs prior) :
    obs.dangling = dang lib.arity 1 xs := by
  induction h with
  | start => rfl
  | step h tok hL hp ih =>
    simp [nextObs, dang_append, dang, ih]

theorem Sampled.prior_none {lib ps xs obs prior} (h : Sampled lib ps xs obs prior) (hne : xs ≠ []) (t : Nat) :
    prior t = none ↔ ∃ p ∈ ps, p.call lib xs (psOf lib xs).1 (psOf lib xs).2 (dang lib.arity 1 xs) t = none := by
  cases h with
  | start => exact absurd rfl hne
  | step h tok hL hp =>
    have hd := (Sampled.step h tok hL hp).obs_dangling
    simp only [nextPrior, jointCall_none]
    rw [hd]
    rfl

theorem Sampled.start_inv {lib ps xs obs prior} (h : Sampled lib ps xs obs prior) (hx : xs = []) :
    prior = jointInitial lib ps := by
  cases h with
  | start => rfl
  | step h tok _ _ => simp at hx

/-- Every token of a sampled list was allowed by every prior when it was drawn. -/
theorem Sampled.allowed {lib ps xs obs prior} (h : Sampled lib ps xs obs prior) :
    ∀ i tok, xs[i]? = some tok → tok < lib.L ∧
      (i = 0 → ∀ p ∈ ps, p.initial lib tok ≠ none) ∧
      (0 < i → ∀ p ∈ ps, p.call lib (xs.take i) (psOf lib (xs.take i)).1 (psOf lib (xs.take i)).2
        (dang lib.arity 1 (xs.take i)) tok ≠ none) := by
  induction h with
  | start => intro i tok h; simp at h
  | @step xs obs prior h tok hL hp ih =>
    intro i t hi
    by_cases hlt : i < xs.length
    · rw [List.getElem?_append_left hlt] at hi
      rw [List.take_append_of_le_length (by omega)]
      exact ih i t hi
    · have hlen : i < (xs ++ [tok]).length := by
        exact (List.getElem?_eq_some_iff.1 hi).1
      have hie : i = xs.length := by simp at hlen; omega
      subst hie
      simp at hi; subst hi
      refine ⟨hL, ?_, ?_⟩
      · intro h0
        have : xs = [] := List.length_eq_zero_iff.1 h0
        subst this
        rw [h.start_inv rfl] at hp
        intro p hp' hnone
        exact hp (jointInitial_none.2 ⟨p, hp', hnone⟩)
      · intro h0 p hp' hnone
        rw [List.take_left] at hnone
        exact hp ((h.prior_none (List.length_pos_iff.1 h0) _).2 ⟨p, hp', hnone⟩)

/-- Executable check that a token list can be drawn (used only to exhibit concrete runs). -/
def canDraw (lib : Lib) (ps : List Prior) : List Nat → List Nat → Obs → (Nat → Logit) → Bool
  | _, [], _, _ => true
  | done, x :: xs, obs, prior =>
    decide (x < lib.L) && (prior x).isSome &&
      canDraw lib ps (done ++ [x]) xs (nextObs lib (done ++ [x]) obs) (nextPrior lib ps (done ++ [x]) obs)

theorem canDraw_sound {lib ps} : ∀ (xs done : List Nat) (obs prior), Sampled lib ps done obs prior →
    canDraw lib ps done xs obs prior = true → ∃ obs' prior', Sampled lib ps (done ++ xs) obs' prior' := by
  intro xs
  induction xs with
  | nil => intro done obs prior h _; exact ⟨obs, prior, by simpa using h⟩
  | cons x xs ih =>
    intro done obs prior h hc
    simp only [canDraw, Bool.and_eq_true, decide_eq_true_eq] at hc
    obtain ⟨⟨hL, hp⟩, hc⟩ := hc
    have hp' : prior x ≠ none := by intro e; rw [e] at hp; simp at hp
    obtain ⟨o, p, hs⟩ := ih _ _ _ (Sampled.step h x hL hp') hc
    exact ⟨o, p, by simpa using hs⟩

theorem sampled_of_canDraw {lib ps xs} (h : canDraw lib ps [] xs (initialObs lib) (jointInitial lib ps) = true) :
    ∃ obs prior, Sampled lib ps xs obs prior := by
  simpa using canDraw_sound xs [] _ _ Sampled.start h

end Verif.Discover
