import Verif.Discover.Policy
import Mathlib.Analysis.SpecialFunctions.Log.Deriv
import Mathlib.Analysis.Calculus.Deriv.Basic
import Mathlib.Algebra.BigOperators.Field
import Mathlib.Algebra.Order.BigOperators.Group.Finset
import Mathlib.Tactic.Ring
import Mathlib.Tactic.Linarith
/-!
# C164: the training loss is made of the sampler's probabilities
-/
namespace Verif.Discover.Policy.Claims
open Verif.Discover.Policy Finset

variable {n : Nat}

/-- A token is allowed at a step if its prior is not −∞. -/
def Allowed (s : Step n) (j : Fin n) : Prop := s.prior j ≠ none

theorem weight_nonneg (s : Step n) (j : Fin n) : 0 ≤ s.weight j := by
  unfold Step.weight
  split
  · exact le_refl _
  · exact (Real.exp_pos _).le

theorem weight_pos_iff (s : Step n) (j : Fin n) : 0 < s.weight j ↔ Allowed s j := by
  unfold Step.weight Step.logit Allowed
  cases s.prior j with
  | none => simp
  | some q => simp [Real.exp_pos]

theorem total_pos_iff (s : Step n) : 0 < s.total ↔ ∃ j, Allowed s j := by
  constructor
  · intro h
    by_contra hn
    push Not at hn
    have : s.total = 0 := sum_eq_zero (fun j _ => by
      rcases (weight_nonneg s j).lt_or_eq with h' | h'
      · exact absurd ((weight_pos_iff s j).1 h') (hn j)
      · exact h'.symm)
    linarith
  · rintro ⟨j, hj⟩
    have h1 := (weight_pos_iff s j).2 hj
    have h2 : s.weight j ≤ s.total := single_le_sum (f := s.weight) (fun i _ => weight_nonneg s i) (mem_univ j)
    linarith

/-- **C164** (the sampler's distribution): at a step with an allowed token the probabilities are non-negative, add up to one, are positive exactly for the allowed
tokens, and are to each other as the exponentials of output plus prior. -/
theorem C164_distribution (s : Step n) (h : ∃ j, Allowed s j) :
    (∀ j, 0 ≤ s.prob j) ∧ ∑ j, s.prob j = 1 ∧ (∀ j, 0 < s.prob j ↔ Allowed s j) ∧
      ∀ i j a b, s.prior i = some a → s.prior j = some b → s.prob i * Real.exp (s.out j + b) = s.prob j * Real.exp (s.out i + a) := by
  have ht := (total_pos_iff s).2 h
  refine ⟨fun j => div_nonneg (weight_nonneg s j) ht.le, ?_, ?_, ?_⟩
  · unfold Step.prob
    rw [← sum_div]
    exact div_self ht.ne'
  · intro j
    unfold Step.prob
    rw [div_pos_iff_of_pos_right ht]
    exact weight_pos_iff s j
  · intro i j a b hi hj
    simp only [Step.prob, Step.weight, Step.logit, hi, hj, Option.map_some]
    ring

theorem logprob_eq (s : Step n) (h : ∃ j, Allowed s j) (j : Fin n) (hj : Allowed s j) : s.logprob j = some (Real.log (s.prob j)) := by
  have ht := (total_pos_iff s).2 h
  unfold Step.logprob Step.prob
  have hw := (weight_pos_iff s j).2 hj
  rw [Real.log_div hw.ne' ht.ne']
  unfold Step.weight Step.logit
  unfold Allowed at hj
  cases hp : s.prior j with
  | none => exact absurd hp hj
  | some q => simp

theorem logprob_none (s : Step n) (j : Fin n) (hj : ¬ Allowed s j) : s.logprob j = none := by
  unfold Allowed at hj
  push Not at hj
  simp [Step.logprob, Step.logit, hj]

/-- The loss of one step is −log of the probability with which the sampler draws the token; it is not finite exactly for a forbidden token. -/
theorem step_neglogp (s : Step n) : s.neglogp = open Classical in if Allowed s s.action then some (-Real.log (s.prob s.action)) else none := by
  classical
  unfold Step.neglogp Step.guard
  by_cases ha : Allowed s s.action
  · have hex : ∃ j, Allowed s j := ⟨_, ha⟩
    have ht := (total_pos_iff s).2 hex
    rw [if_neg ht.ne', if_pos ha]
    unfold safeCrossEntropy
    rw [if_pos]
    · congr 1
      rw [sum_eq_single s.action]
      · simp [oneHot, logprob_eq s hex _ ha]
      · intro j _ hj
        simp [oneHot, hj]
      · intro h; exact absurd (mem_univ _) h
    · intro j hj
      have : j = s.action := by
        by_contra hne
        exact hj (by simp [oneHot, hne])
      rw [this, logprob_eq s hex _ ha]; rfl
  · rw [if_neg ha]
    by_cases h0 : s.total = 0
    · rw [if_pos h0]
    · rw [if_neg h0]
      unfold safeCrossEntropy
      rw [if_neg]
      intro hall
      have := hall s.action (by simp [oneHot])
      rw [logprob_none s _ ha] at this
      exact absurd this (by simp)

theorem mapIdx_mask_sum (w : Nat → ℝ) (f : Nat → ℝ) (xs : List ℝ) (len : Nat) (off : Nat) :
    (xs.mapIdx (fun t x => x * (w (t + off) * if t + off < len then 1 else 0))).sum =
      ((xs.take (len - off)).mapIdx (fun t x => x * w (t + off))).sum := by
  induction xs generalizing off with
  | nil => simp
  | cons x xs ih =>
    rw [List.mapIdx_cons, List.sum_cons]
    have e : ∀ t, t + 1 + off = t + (off + 1) := fun t => by omega
    simp only [e]
    rw [ih (off + 1)]
    by_cases h : off < len
    · obtain ⟨k, hk⟩ : ∃ k, len - off = k + 1 := ⟨len - off - 1, by omega⟩
      rw [hk, List.take_succ_cons, List.mapIdx_cons, List.sum_cons]
      simp only [e, Nat.zero_add, if_pos h, mul_one]
      rw [show len - (off + 1) = k by omega]
    · have h1 : len - off = 0 := by omega
      have h2 : len - (off + 1) = 0 := by omega
      rw [h1, h2]
      simp [h]

theorem mapIdx_map {α β γ : Type} (f : α → β) (g : Nat → β → γ) (l : List α) : (l.map f).mapIdx g = l.mapIdx (fun t a => g t (f a)) := by
  apply List.ext_getElem?
  intro i
  simp only [List.getElem?_mapIdx, List.getElem?_map, Option.map_map]
  rfl

theorem mapIdx_snd {α : Type} (l : List α) : l.mapIdx (fun _ a => a) = l := by
  apply List.ext_getElem?
  intro i
  simp [List.getElem?_mapIdx]

theorem maskedSum_some (len : Nat) (w : Nat → ℝ) (xs : List ℝ) :
    maskedSum len w (xs.map some) = some ((xs.take len).mapIdx (fun t x => x * w t)).sum := by
  unfold maskedSum
  rw [if_pos (by simp)]
  congr 1
  have := mapIdx_mask_sum w (fun _ => 0) xs len 0
  simp only [Nat.add_zero, Nat.sub_zero] at this
  rw [← this, mapIdx_map]
  simp

/-- The probability with which the sampler draws the first `len` tokens of the sequence. -/
noncomputable def seqProb (x : Sample n) : ℝ := ((x.steps.take x.length).map (fun s => s.prob s.action)).prod

/-- **C164** (likelihood – partial: all recorded tokens are allowed, also those after the end of the expression).  The loss of a sequence is −log of the probability with
which the sampler draws its expression; whatever comes after the end of the expression does not matter.
Missing: forbidden tokens after the end. -/
theorem C164_likelihood_partial (x : Sample n) (h : ∀ s ∈ x.steps, Allowed s s.action) :
    x.neglogp = some (-Real.log (seqProb x)) ∧ 0 < seqProb x ∧ seqProb x ≤ 1 := by
  classical
  have e : x.steps.map Step.neglogp = (x.steps.map (fun s => -Real.log (s.prob s.action))).map some := by
    rw [List.map_map]
    apply List.map_congr_left
    intro s hs
    rw [step_neglogp, if_pos (h s hs)]; rfl
  have hpos : ∀ s ∈ x.steps, 0 < s.prob s.action := fun s hs => ((C164_distribution s ⟨_, h s hs⟩).2.2.1 _).2 (h s hs)
  have key : ∀ l : List (Step n), (∀ s ∈ l, 0 < s.prob s.action) →
      ((l.map (fun s => -Real.log (s.prob s.action))).sum = -Real.log ((l.map (fun s => s.prob s.action)).prod) ∧
        0 < (l.map (fun s => s.prob s.action)).prod) := by
    intro l
    induction l with
    | nil => intro _; simp
    | cons s l ih =>
      intro hl
      obtain ⟨i1, i2⟩ := ih (fun s hs => hl s (by simp [hs]))
      have hs := hl s (by simp)
      refine ⟨?_, ?_⟩
      · simp only [List.map_cons, List.sum_cons, List.prod_cons, i1]
        rw [Real.log_mul hs.ne' i2.ne']; ring
      · simp only [List.map_cons, List.prod_cons]; exact mul_pos hs i2
  have hle : ∀ l : List (Step n), (∀ s ∈ l, Allowed s s.action) → (l.map (fun s => s.prob s.action)).prod ≤ 1 := by
    intro l
    induction l with
    | nil => intro _; simp
    | cons s l ih =>
      intro hl
      have i := ih (fun s hs => hl s (by simp [hs]))
      obtain ⟨d1, d2, d3, _⟩ := C164_distribution s ⟨_, hl s (by simp)⟩
      have h1 : s.prob s.action ≤ 1 := by
        rw [← d2]; exact single_le_sum (f := s.prob) (fun i _ => d1 i) (mem_univ _)
      have h0 : 0 ≤ (l.map (fun s => s.prob s.action)).prod := by
        apply List.prod_nonneg
        intro a ha
        obtain ⟨t, ht, rfl⟩ := List.mem_map.1 ha
        exact (C164_distribution t ⟨_, hl t (by simp [ht])⟩).1 _
      simp only [List.map_cons, List.prod_cons]
      exact mul_le_one₀ h1 h0 i
  refine ⟨?_, (key _ (fun s hs => hpos s (List.mem_of_mem_take hs))).2, hle _ (fun s hs => h s (List.mem_of_mem_take hs))⟩
  unfold Sample.neglogp
  rw [e, maskedSum_some]
  congr 1
  rw [← List.map_take, seqProb, ← (key _ (fun s hs => hpos s (List.mem_of_mem_take hs))).1]
  congr 1
  simp [mapIdx_snd]

/-- **C164** (when the loss is not finite): exactly if some recorded token – before or after the end of the expression – was forbidden. -/
theorem C164_finite_iff (x : Sample n) : x.neglogp = none ↔ ∃ s ∈ x.steps, ¬ Allowed s s.action := by
  classical
  constructor
  · intro h
    by_contra hn
    push Not at hn
    rw [(C164_likelihood_partial x hn).1] at h
    exact absurd h (by simp)
  · rintro ⟨s, hs, ha⟩
    unfold Sample.neglogp maskedSum
    rw [if_neg]
    intro hall
    rw [List.all_eq_true] at hall
    have := hall _ (List.mem_map.2 ⟨s, hs, rfl⟩)
    rw [step_neglogp, if_neg ha] at this
    exact absurd this (by simp)

/-- Two tokens; the second step forbids the token recorded there. -/
def pad : Sample 2 := ⟨[⟨fun _ => 0, fun _ => some 0, 0⟩, ⟨fun _ => 0, fun j => if j = 0 then none else some 0, 0⟩], 1, 1⟩

/-- **C164**, counterexample: a forbidden token recorded *after* the end of the expression (padding) makes the loss of the sequence non-finite, although the expression
itself has probability 1/2. -/
theorem C164_padding_counterexample : pad.neglogp = none ∧ seqProb pad = 1 / 2 := by
  refine ⟨?_, ?_⟩
  · rw [C164_finite_iff]
    exact ⟨⟨fun _ => 0, fun j => if j = 0 then none else some 0, 0⟩, by simp [pad], by simp [Allowed]⟩
  · simp only [seqProb, pad, List.take_succ_cons, List.take_zero, List.map_cons, List.map_nil, List.prod_cons, List.prod_nil, mul_one]
    simp [Step.prob, Step.total, Step.weight, Step.logit]

/-! ## Entropy -/

/-- **C164** (entropy of a step): with an allowed token it is finite, Shannon's entropy of the sampler's distribution (tokens of probability zero count as zero),
and between zero and the logarithm of the number of allowed tokens. -/
theorem C164_entropy (s : Step n) (h : ∃ j, Allowed s j) :
    s.entropy = some (-∑ j, s.prob j * Real.log (s.prob j)) ∧ 0 ≤ -∑ j, s.prob j * Real.log (s.prob j) ∧
    -∑ j, s.prob j * Real.log (s.prob j) ≤ Real.log (open Classical in (univ.filter (Allowed s)).card) := by
  classical
  obtain ⟨d1, d2, d3, _⟩ := C164_distribution s h
  have ht := (total_pos_iff s).2 h
  have hle1 : ∀ j, s.prob j ≤ 1 := fun j => by
    rw [← d2]; exact single_le_sum (f := s.prob) (fun i _ => d1 i) (mem_univ _)
  have hzero : ∀ j, ¬ Allowed s j → s.prob j = 0 := by
    intro j hj
    rcases (d1 j).lt_or_eq with h' | h'
    · exact absurd ((d3 j).1 h') hj
    · exact h'.symm
  refine ⟨?_, ?_, ?_⟩
  · unfold Step.entropy Step.guard
    rw [if_neg ht.ne']
    unfold safeCrossEntropy
    rw [if_pos]
    · congr 2
      apply sum_congr rfl
      intro j _
      by_cases hj : s.prob j = 0
      · simp [hj]
      · have ha : Allowed s j := by
          by_contra hn; exact hj (hzero j hn)
        rw [if_neg hj, logprob_eq s h j ha]; rfl
    · intro j hj
      have ha : Allowed s j := by
        by_contra hn; exact hj (hzero j hn)
      rw [logprob_eq s h j ha]; rfl
  · rw [neg_nonneg]
    apply sum_nonpos
    intro j _
    exact mul_nonpos_of_nonneg_of_nonpos (d1 j) (Real.log_nonpos (d1 j) (hle1 j))
  · -- Gibbs' inequality against the uniform distribution on the allowed tokens
    obtain ⟨N, hN⟩ : ∃ N : ℝ, N = ((univ.filter (Allowed s)).card : ℝ) := ⟨_, rfl⟩
    obtain ⟨j0, hj0⟩ := h
    have hNpos : 0 < N := by
      rw [hN]; exact_mod_cast card_pos.2 ⟨j0, by simp [hj0]⟩
    have hsumA : ∑ j ∈ univ.filter (Allowed s), s.prob j = 1 := by
      rw [← d2]
      apply sum_subset (filter_subset _ _)
      intro j _ hj
      exact hzero j (by simpa using hj)
    have hsumB : ∑ j ∈ univ.filter (Allowed s), s.prob j * Real.log (s.prob j) = ∑ j, s.prob j * Real.log (s.prob j) := by
      apply sum_subset (filter_subset _ _)
      intro j _ hj
      rw [hzero j (by simpa using hj)]; simp
    have hterm : ∀ j ∈ univ.filter (Allowed s), -(s.prob j * Real.log (s.prob j)) - s.prob j * Real.log N ≤ 1 / N - s.prob j := by
      intro j hj
      have hp := (d3 j).2 (by simpa using hj)
      have hl := Real.log_le_sub_one_of_pos (x := 1 / (N * s.prob j)) (by positivity)
      rw [one_div, Real.log_inv, Real.log_mul hNpos.ne' hp.ne'] at hl
      have := mul_le_mul_of_nonneg_left hl hp.le
      have e : s.prob j * ((N * s.prob j)⁻¹ - 1) = 1 / N - s.prob j := by field_simp
      rw [e] at this
      linarith
    have hs := sum_le_sum hterm
    rw [sum_sub_distrib, sum_sub_distrib, sum_neg_distrib, ← sum_mul, hsumA, hsumB, sum_const, nsmul_eq_mul, ← hN] at hs
    rw [← hN]
    have : N * (1 / N) = 1 := by field_simp
    linarith

/-- **C164** (entropy of a sequence): the decayed sum of the entropies of the steps of the expression, if every step (also after its end) has an allowed token. -/
theorem C164_sequence_entropy (gamma : ℝ) (x : Sample n) (h : ∀ s ∈ x.steps, ∃ j, Allowed s j) :
    x.entropy gamma = some ((x.steps.take x.length).mapIdx (fun t s => (-∑ j, s.prob j * Real.log (s.prob j)) * gamma ^ t)).sum := by
  have e : x.steps.map Step.entropy = (x.steps.map (fun s => -∑ j, s.prob j * Real.log (s.prob j))).map some := by
    rw [List.map_map]
    apply List.map_congr_left
    intro s hs
    rw [(C164_entropy s (h s hs)).1]; rfl
  unfold Sample.entropy
  rw [e, maskedSum_some, ← List.map_take, mapIdx_map]

/-! ## The gradient of the loss -/

/-- The step with output `j` of the network replaced by `t`. -/
def setOut (s : Step n) (j : Fin n) (t : ℝ) : Step n := { s with out := fun i => if i = j then t else s.out i }

theorem weight_setOut (s : Step n) (j i : Fin n) (t : ℝ) :
    (setOut s j t).weight i = if i = j then Real.exp (t - s.out j) * s.weight j else s.weight i := by
  unfold Step.weight Step.logit setOut
  by_cases h : i = j
  · subst h
    simp only [if_true]
    cases s.prior i with
    | none => simp
    | some q =>
      simp only [Option.map_some]
      rw [← Real.exp_add]; congr 1; ring
  · simp [h]

/-- **C164** (gradient): the derivative of the loss of an allowed token with respect to one output of the network is that output's probability, minus one for the
token itself.  Training on a sequence therefore raises the output of the token taken and lowers the outputs of the other allowed tokens; forbidden tokens get no
gradient. -/
theorem C164_gradient (s : Step n) (j : Fin n) (h : Allowed s s.action) :
    HasDerivAt (fun t => -Real.log ((setOut s j t).prob s.action)) (s.prob j - if j = s.action then 1 else 0) (s.out j) := by
  have hself : setOut s j (s.out j) = s := by
    have : (fun i => if i = j then s.out j else s.out i) = s.out := by
      funext i; by_cases h : i = j <;> simp [h]
    show { s with out := fun i => if i = j then s.out j else s.out i } = s
    rw [this]
  have hall : ∀ t, Allowed (setOut s j t) s.action := fun _ => h
  have htot : ∀ t, 0 < (setOut s j t).total := fun t => (total_pos_iff _).2 ⟨_, hall t⟩
  have hw : ∀ t, 0 < (setOut s j t).weight s.action := fun t => (weight_pos_iff _ _).2 (hall t)
  have dexp : HasDerivAt (fun t => Real.exp (t - s.out j) * s.weight j) (s.weight j) (s.out j) := by
    have := (((hasDerivAt_id (s.out j)).sub_const (s.out j)).exp).mul_const (s.weight j)
    simpa using this
  have dwt : ∀ i, HasDerivAt (fun t => (setOut s j t).weight i) (if i = j then s.weight j else 0) (s.out j) := by
    intro i
    by_cases hi : i = j
    · simp only [weight_setOut, hi, if_true]; exact dexp
    · simp only [weight_setOut, hi, if_false]; exact hasDerivAt_const _ _
  have dtot : HasDerivAt (fun t => (setOut s j t).total) (s.weight j) (s.out j) := by
    have := HasDerivAt.fun_sum (u := (univ : Finset (Fin n))) (fun i _ => dwt i)
    simpa [Step.total] using this
  have e : (fun t => -Real.log ((setOut s j t).prob s.action)) =
      fun t => Real.log ((setOut s j t).total) - Real.log ((setOut s j t).weight s.action) := by
    funext t
    unfold Step.prob
    rw [Real.log_div (hw t).ne' (htot t).ne']; ring
  rw [e]
  have d1 := dtot.log (htot _).ne'
  have d2 := (dwt s.action).log (hw _).ne'
  have d := d1.sub d2
  simp only [hself] at d
  have hwa : s.weight s.action ≠ 0 := ((weight_pos_iff s _).2 h).ne'
  have e2 : s.weight j / s.total - (if s.action = j then s.weight j else 0) / s.weight s.action = s.prob j - if j = s.action then 1 else 0 := by
    unfold Step.prob
    by_cases hj : s.action = j
    · subst hj; simp [hwa]
    · rw [if_neg hj, if_neg (fun h => hj h.symm)]; simp
  rw [e2] at d
  exact d

/-! ## The whole loss -/

/-- The average of a list of numbers. -/
noncomputable def avg (xs : List ℝ) : ℝ := xs.sum / xs.length

theorem mean_some (xs : List ℝ) (h : xs ≠ []) : mean (xs.map some) = some (avg xs) := by
  unfold mean avg
  have : xs.isEmpty = false := by cases xs <;> simp_all
  rw [if_pos (by simp [this])]
  simp [List.map_map, Function.comp_def]

theorem neglogp_list (l : List (Sample n)) (h : ∀ x ∈ l, ∀ s ∈ x.steps, Allowed s s.action) :
    l.map Sample.neglogp = (l.map fun x => -Real.log (seqProb x)).map some := by
  rw [List.map_map]
  apply List.map_congr_left
  intro x hx
  rw [(C164_likelihood_partial x (h x hx)).1]; rfl

/-- The entropy bonus of a sequence. -/
noncomputable def seqEntropy (gamma : ℝ) (x : Sample n) : ℝ :=
  ((x.steps.take x.length).mapIdx (fun t s => (-∑ j, s.prob j * Real.log (s.prob j)) * gamma ^ t)).sum

/-- **C164** (the whole loss): with every recorded token allowed, the loss is the entropy bonus (always), plus the rewards above the baseline times the negative log
probabilities – unless training is by the queue alone –, plus, with a queue, the negative log likelihood of the queue's sequences. -/
theorem C164_loss (P : Params) (b : ℝ) (batch queue : List (Sample n)) (hb : batch ≠ []) (hq : queue ≠ [])
    (h : ∀ x ∈ batch ++ queue, ∀ s ∈ x.steps, Allowed s s.action) :
    loss P b batch queue = some (-P.entropyWeight * avg (batch.map (seqEntropy P.gamma))
      + (if P.pqt = true ∧ P.pqtUsePg = false then 0 else avg (batch.map fun x => (x.reward - b) * -Real.log (seqProb x)))
      + (if P.pqt = true then P.pqtWeight * avg (queue.map fun x => -Real.log (seqProb x)) else 0)) := by
  have hB : ∀ x ∈ batch, ∀ s ∈ x.steps, Allowed s s.action := fun x hx => h x (by simp [hx])
  have hQ : ∀ x ∈ queue, ∀ s ∈ x.steps, Allowed s s.action := fun x hx => h x (by simp [hx])
  have e1 : entropyLoss P batch = some (-P.entropyWeight * avg (batch.map (seqEntropy P.gamma))) := by
    unfold entropyLoss
    have : batch.map (Sample.entropy P.gamma) = (batch.map (seqEntropy P.gamma)).map some := by
      rw [List.map_map]
      apply List.map_congr_left
      intro x hx
      rw [C164_sequence_entropy P.gamma x (fun s hs => ⟨_, hB x hx s hs⟩)]; rfl
    rw [this, mean_some _ (by simpa using hb)]; rfl
  have e2 : pgLoss b batch = some (avg (batch.map fun x => (x.reward - b) * -Real.log (seqProb x))) := by
    unfold pgLoss
    have : (batch.map fun x => x.neglogp.map (fun l => (x.reward - b) * l)) =
        (batch.map fun x => (x.reward - b) * -Real.log (seqProb x)).map some := by
      rw [List.map_map]
      apply List.map_congr_left
      intro x hx
      rw [(C164_likelihood_partial x (hB x hx)).1]; rfl
    rw [this, mean_some _ (by simpa using hb)]
  have e3 : pqtLoss P queue = some (P.pqtWeight * avg (queue.map fun x => -Real.log (seqProb x))) := by
    unfold pqtLoss
    rw [neglogp_list queue hQ, mean_some _ (by simpa using hq)]; rfl
  unfold loss pqtPart pgPart
  rw [e1, e2, e3]
  cases hp : P.pqt <;> cases hu : P.pqtUsePg <;> simp [addLoss]

/-- **C164**, concrete case of the hypotheses: two sequences with allowed tokens. -/
def fine : Sample 2 := ⟨[⟨fun _ => 0, fun _ => some 0, 0⟩, ⟨fun _ => 0, fun j => if j = 0 then none else some 0, 1⟩], 2, 1⟩

theorem C164_concrete : (∀ s ∈ fine.steps, Allowed s s.action) ∧ seqProb fine = 1 / 2 := by
  refine ⟨?_, ?_⟩
  · intro s hs
    simp only [fine, List.mem_cons, List.not_mem_nil, or_false] at hs
    rcases hs with rfl | rfl <;> simp [Allowed]
  · simp only [seqProb, fine, List.take_succ_cons, List.take_zero, List.map_cons, List.map_nil, List.prod_cons, List.prod_nil, mul_one]
    simp [Step.prob, Step.total, Step.weight, Step.logit]

end Verif.Discover.Policy.Claims
