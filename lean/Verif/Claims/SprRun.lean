import Verif.Discover.SprRun
import Verif.Claims.Search
import Verif.Claims.Stability
import Verif.Claims.Memory
import Verif.Claims.PinnData
/-!
# C182: a whole run of DISCOVER in the sparse mode
-/
namespace Verif.Discover.SprRun.Claims
open Verif.Discover Verif.Discover.Search Verif.Discover.Search.Claims Verif.Discover.Searcher Verif.Discover.Searcher.Claims Verif.Discover.Pinn
  Verif.Discover.Pinn.Claims Verif.Discover.SprRun Verif.Discover.Claims Tree

/-! ## A search that begins with an old best program -/

/-- How the searcher's states compare when one of them began with the program `o0` of reward `y`. -/
def Sim (y : Int) (o0 : Nat) (s s' : St) : Prop :=
  (s.prev ≠ none ∧ s' = s) ∨
  (s.prev = none ∧ s'.prev = none ∧ s.pq = s'.pq ∧
    ((s.rBest = none ∧ s.bestP = none ∧ s'.rBest = some y ∧ s'.bestP = some (y, o0)) ∨
     (∃ x o, x ≤ 0 ∧ x ≤ y ∧ s.rBest = some x ∧ s.bestP = some (x, o) ∧ s'.rBest = some y ∧ s'.bestP = some (y, o0)) ∨
     (∃ x o, x ≤ 0 ∧ y < x ∧ s.rBest = some x ∧ s.bestP = some (x, o) ∧ s'.rBest = some x ∧ s'.bestP = some (x, o))))

theorem stepEmpty_prev (b : Batch) (s : St) : (stepEmpty b s).prev = s.prev ∧ (stepEmpty b s).pq = s.pq := by
  unfold stepEmpty
  split
  · exact ⟨rfl, rfl⟩
  · refine ⟨?_, ?_⟩ <;> (split <;> (try split) <;> rfl)

theorem sim_empty (v : Env) (hv : v.Ok) {y : Int} {o0 : Nat} {b : Batch} (hb : GoodBatch v.bound b) (ht : train v b.samples = [])
    {s s' : St} (h : Sim y o0 s s') : Sim y o0 (stepEmpty b s) (stepEmpty b s') := by
  have hnp := empty_nonpos v hv hb ht
  rcases h with ⟨h1, rfl⟩ | ⟨h1, h2, h3, h⟩
  · exact Or.inl ⟨by rw [(stepEmpty_prev b s').1]; exact h1, rfl⟩
  · refine Or.inr ⟨by rw [(stepEmpty_prev b s).1]; exact h1, by rw [(stepEmpty_prev b s').1]; exact h2,
      by rw [(stepEmpty_prev b s).2, (stepEmpty_prev b s').2]; exact h3, ?_⟩
    cases hf : firstBest b.samples with
    | none => simp only [stepEmpty, hf]; exact h
    | some q =>
      obtain ⟨x, o⟩ := q
      have hx : x ≤ 0 := hnp _ ((firstBest_spec b.samples).2 x o hf).1
      rcases h with ⟨h4, h5, h6, h7⟩ | ⟨x', o', g1, g2, h4, h5, h6, h7⟩ | ⟨x', o', g1, g2, h4, h5, h6, h7⟩
      · by_cases hxy : x > y
        · simp [stepEmpty, hf, h4, h5, h6, h7, hxy, hx]
        · simp [stepEmpty, hf, h4, h5, h6, h7, hxy, hx]; omega
      · by_cases hxy : x > y
        · have : x > x' := by omega
          simp [stepEmpty, hf, h4, h5, h6, h7, hxy, hx, this]
        · by_cases hx' : x > x'
          · simp [stepEmpty, hf, h4, h5, h6, h7, hxy, hx, hx']; omega
          · simp [stepEmpty, hf, h4, h5, h6, h7, hxy, hx, hx', g1, g2]
      · by_cases hx' : x > x'
        · simp [stepEmpty, hf, h4, h5, h6, h7, hx, hx']; omega
        · simp [stepEmpty, hf, h4, h5, h6, h7, hx', g1, g2]

theorem fullValid_pos (v : Env) {b : Batch} (hb : GoodBatch v.bound b) {m : Int} (h : npMax ((fullValid b.samples).map (clip v.bound)) = some m) : 0 < m := by
  obtain ⟨h1, _⟩ := npMax_spec h
  obtain ⟨x, hx, rfl⟩ := List.mem_map.1 h1
  obtain ⟨q, hq, rfl⟩ := List.mem_map.1 hx
  obtain ⟨hq1, hq2⟩ := List.mem_filter.1 hq
  simp only [Bool.and_eq_true, decide_eq_true_eq] at hq2
  cases hr : q.reward with
  | none => have := hq2.2; simp [r0, hr] at this
  | some z =>
    have h0 := r0_some hr
    rw [h0] at hq2 ⊢
    rw [clip_id (hb.bnd q hq1 z hr)]
    exact hq2.2

theorem sim_normal (v : Env) {y : Int} {o0 : Nat} (hy : y ≤ 0) {b : Batch} (hb : GoodBatch v.bound b) (ha : b.agg = [])
    {s s' : St} (h : Sim y o0 s s') :
    (stepNormal v b s = none ∧ stepNormal v b s' = none) ∨ ∃ t t', stepNormal v b s = some t ∧ stepNormal v b s' = some t' ∧ Sim y o0 t t' := by
  rcases h with ⟨h1, rfl⟩ | ⟨h1, h2, h3, h⟩
  · cases hn : stepNormal v b s' with
    | none => exact Or.inl ⟨rfl, rfl⟩
    | some t =>
      refine Or.inr ⟨t, t, rfl, rfl, Or.inl ⟨?_, rfl⟩⟩
      simp only [stepNormal, Option.bind_eq_bind, Option.bind_eq_some_iff, Option.some.injEq] at hn
      obtain ⟨_, _, _, _, _, _, _, _, rfl⟩ := hn
      simp
  · have key : stepNormal v b s = stepNormal v b s' := by
      simp only [stepNormal, ha, rMaxAll, if_true, h1, h2, h3]
      cases hm : npMax ((fullValid b.samples).map (clip v.bound)) with
      | none => rfl
      | some m =>
        have hp := fullValid_pos v hb hm
        have e1 : maxBest m s.rBest = m := by
          rcases h with ⟨h4, _⟩ | ⟨x, _, g1, _, h4, _⟩ | ⟨x, _, g1, _, h4, _⟩ <;> rw [h4] <;> simp only [maxBest] <;> omega
        have e2 : maxBest m s'.rBest = m := by
          rcases h with ⟨_, _, h4, _⟩ | ⟨x, _, _, _, _, _, h4, _⟩ | ⟨x, _, g1, _, _, _, h4, _⟩ <;> rw [h4] <;> simp only [maxBest] <;> omega
        simp only [Option.bind_eq_bind, Option.bind_some, e1, e2]
    cases hn : stepNormal v b s with
    | none => rw [hn] at key; exact Or.inl ⟨rfl, key.symm⟩
    | some t =>
      rw [hn] at key
      refine Or.inr ⟨t, t, rfl, key.symm, Or.inl ⟨?_, rfl⟩⟩
      simp only [stepNormal, Option.bind_eq_bind, Option.bind_eq_some_iff, Option.some.injEq] at hn
      obtain ⟨_, _, _, _, _, _, _, _, rfl⟩ := hn
      simp

theorem sim_run (v : Env) (hv : v.Ok) {y : Int} {o0 : Nat} (hy : y ≤ 0) : ∀ (bs : List Batch), (∀ b ∈ bs, GoodBatch v.bound b ∧ b.agg = []) →
    ∀ s s' : St, Sim y o0 s s' →
    (Searcher.run v s bs = none ∧ Searcher.run v s' bs = none) ∨
      ∃ t t', Searcher.run v s bs = some t ∧ Searcher.run v s' bs = some t' ∧ Sim y o0 t t' := by
  intro bs
  induction bs with
  | nil => intro _ s s' h; exact Or.inr ⟨s, s', rfl, rfl, h⟩
  | cons b bs ih =>
    intro hg s s' h
    have hstep : (step v s b = none ∧ step v s' b = none) ∨ ∃ t t', step v s b = some t ∧ step v s' b = some t' ∧ Sim y o0 t t' := by
      unfold step
      by_cases ht : train v b.samples = []
      · rw [if_pos ht, if_pos ht]
        exact Or.inr ⟨_, _, rfl, rfl, sim_empty v hv (hg b List.mem_cons_self).1 ht h⟩
      · rw [if_neg ht, if_neg ht]
        exact sim_normal v hy (hg b List.mem_cons_self).1 (hg b List.mem_cons_self).2 h
    unfold Searcher.run at ih ⊢
    rw [List.foldlM_cons, List.foldlM_cons]
    rcases hstep with ⟨e1, e2⟩ | ⟨t, t', e1, e2, e3⟩
    · rw [e1, e2]; exact Or.inl ⟨rfl, rfl⟩
    · rw [e1, e2]
      exact ih (fun b hb => hg b (List.mem_cons_of_mem _ hb)) t t' e3

/-- The justification of `bestOf`: a searcher that begins with an old program `o0` of reward `y` (at most 0, and an empty memory) raises, fills its memory
and changes its best program exactly as a fresh one, except that the old program stays if no iteration had anything to train on and nothing better than it
was drawn. -/
theorem kept_search (v : Env) (hv : v.Ok) (y : Int) (hy : y ≤ 0) (o0 : Nat) (bs : List Batch) (hg : ∀ b ∈ bs, GoodBatch v.bound b ∧ b.agg = []) :
    (Searcher.run v ⟨some y, none, some (y, o0), {}⟩ bs = none ↔ Searcher.run v {} bs = none) ∧
    ∀ s, Searcher.run v {} bs = some s → ∃ s', Searcher.run v ⟨some y, none, some (y, o0), {}⟩ bs = some s' ∧ s'.pq = s.pq ∧
      s'.bestP = (match s.bestP with
        | none => some (y, o0)
        | some b => if s.prev = none ∧ b.1 ≤ y then some (y, o0) else some b) := by
  have h0 : Sim y o0 {} ⟨some y, none, some (y, o0), {}⟩ := Or.inr ⟨rfl, rfl, rfl, Or.inl ⟨rfl, rfl, rfl, rfl⟩⟩
  rcases sim_run v hv hy bs hg _ _ h0 with ⟨e1, e2⟩ | ⟨t, t', e1, e2, e3⟩
  · rw [e1, e2]; exact ⟨Iff.rfl, fun s hs => nomatch hs⟩
  · rw [e1, e2]
    refine ⟨by simp, fun s hs => ?_⟩
    cases hs
    refine ⟨t', rfl, ?_⟩
    rcases e3 with ⟨h1, rfl⟩ | ⟨h1, h2, h3, h⟩
    · refine ⟨rfl, ?_⟩
      cases hb : t'.bestP with
      | none =>
        exfalso
        obtain ⟨new, hi⟩ := run_inv v hv bs {} t' [] [] [] (fun b hb => (hg b hb).1) (inv_init v) e1
        cases hp : t'.prev with
        | none => exact h1 hp
        | some z =>
          obtain ⟨i, hi2, _⟩ := (hi.some' z (hi.prevS z hp).1).2
          rw [hb] at hi2
          nomatch hi2
      | some b => simp [h1]
    · refine ⟨h3.symm, ?_⟩
      rcases h with ⟨_, h5, _, h7⟩ | ⟨x, o, g1, g2, _, h5, _, h7⟩ | ⟨x, o, g1, g2, _, h5, _, h7⟩
      · rw [h5, h7]
      · rw [h5, h7]; simp [h1, g2]
      · rw [h5, h7]; simp [g2]

/-! ## The memory of a search -/

/-- What is pushed into the memory in the iterations `bs`. -/
def pushed (v : Env) (bs : List Batch) : List Verif.Memory.Entry :=
  bs.flatMap fun b => (train v b.samples).map fun q => ⟨clip v.bound (r0 q), q.id, 0, 0⟩

theorem run_pushed (v : Env) : ∀ (bs : List Batch), (∀ b ∈ bs, b.agg = []) → ∀ s s' : St, Searcher.run v s bs = some s' →
    Verif.Memory.pqPushes v.cap s.pq (pushed v bs) = some s'.pq := by
  intro bs
  induction bs with
  | nil => intro _ s s' h; simp [Searcher.run] at h; subst h; rfl
  | cons b bs ih =>
    intro ha s s' h
    simp only [Searcher.run, List.foldlM_cons, Option.bind_eq_bind, Option.bind_eq_some_iff] at h
    obtain ⟨m, hm, h⟩ := h
    have h2 := ih (fun b hb => ha b (List.mem_cons_of_mem _ hb)) m s' h
    have hab := ha b List.mem_cons_self
    have h1 : Verif.Memory.pqPushes v.cap s.pq ((train v b.samples).map fun q => ⟨clip v.bound (r0 q), q.id, 0, 0⟩) = some m.pq := by
      unfold step at hm
      by_cases ht : train v b.samples = []
      · rw [if_pos ht] at hm
        cases hm
        rw [ht, (stepEmpty_prev b s).2]
        rfl
      · rw [if_neg ht] at hm
        simp only [stepNormal, hab, Option.bind_eq_bind, Option.bind_eq_some_iff, Option.some.injEq, List.append_nil, List.map_map] at hm
        obtain ⟨_, _, _, _, _, _, pq, hpq, rfl⟩ := hm
        exact hpq
    have e : pushed v (b :: bs) = ((train v b.samples).map fun q => ⟨clip v.bound (r0 q), q.id, 0, 0⟩) ++ pushed v bs := by
      simp [pushed, List.flatMap_cons]
    rw [e]
    unfold Verif.Memory.pqPushes at h1 h2 ⊢
    rw [List.foldlM_append, h1]
    exact h2

/-- The programs in the memory of a search are valid programs drawn in it; the memory is empty exactly if no iteration had anything to train on. -/
theorem memory_of_search {v : Env} (hv : v.Ok) (hcap : v.cap ≠ some 0) {lib : Lib} {ps : List Prior} {L : Nat} (hS : Setup lib ps L)
    {score : List Nat → Score} (hs : ScoreOk L v.bound score) {dss : List (List Draw)} (hd : ∀ ds ∈ dss, ds ≠ [] ∧ ∀ d ∈ ds, Row lib ps L d)
    {c : Cache} {s : St} (h : search v lib score ({}, {}) dss = some (c, s)) :
    (∀ e ∈ s.pq.heap, ∃ t : Tree, Drawn lib dss t ∧ (∀ p ∈ ps, Obeys lib t p) ∧ tokensOf c e.id = t.preorder ∧ (score t.preorder).invalid = false) ∧
    (s.pq.heap = [] ↔ s.prev = none) ∧ (s.prev = none → ∀ m, s.rBest = some m → m ≤ 0) := by
  obtain ⟨ts, bs, e1, rfl, e3, e4, e5, e6, e7, e8⟩ := run_of_search hS hs hd h
  have htok : ∀ b ∈ bs, ∀ q ∈ b.samples, ∃ t : Tree, Drawn lib dss t ∧ tokensOf (requests {} (ts.map req)).1 q.id = t.preorder ∧
      q.reward = (score t.preorder).reward ∧ q.invalid = (score t.preorder).invalid := by
    intro b hb q hq
    obtain ⟨j, l, hl, hst⟩ := e7 b hb q hq
    obtain ⟨t, ht, rfl⟩ := (e5 l).1 hl
    obtain ⟨o', h1, h2⟩ := object_tokens lib.arity ts e4 j _ hst.tok
    rw [hst.obj] at h1
    cases h1
    exact ⟨t, ht, by rw [tokensOf, h2]; rfl, hst.reward, hst.invalid⟩
  have hpush : ∀ e ∈ pushed v bs, ∃ b ∈ bs, ∃ q ∈ b.samples, q.invalid = false ∧ e = ⟨clip v.bound (r0 q), q.id, 0, 0⟩ := by
    intro e he
    obtain ⟨b, hb, he⟩ := List.mem_flatMap.1 he
    obtain ⟨q, hq, rfl⟩ := List.mem_map.1 he
    have hq' : q ∈ (b.samples.filter fun s => decide (r0 s ≥ quantile v b.samples)).filter fun s => !s.invalid := hq
    obtain ⟨hq1, hq2⟩ := List.mem_filter.1 hq'
    exact ⟨b, hb, q, (List.mem_filter.1 hq1).1, by simpa using hq2, rfl⟩
  have hsame : ∀ a ∈ pushed v bs, ∀ b ∈ pushed v bs, a.id = b.id → a.score = b.score := by
    intro x hx y hy hxy
    obtain ⟨b, hb, q, hq, _, rfl⟩ := hpush x hx
    obtain ⟨b', hb', q', hq', _, rfl⟩ := hpush y hy
    obtain ⟨t, _, a1, a2, _⟩ := htok b hb q hq
    obtain ⟨t', _, a3, a4, _⟩ := htok b' hb' q' hq'
    have hxy' : q.id = q'.id := hxy
    rw [hxy', a3] at a1
    simp only [r0]
    rw [a2, a4, a1]
  have hrp := run_pushed v bs (fun b hb => (e3 b hb).2) {} s e1
  obtain ⟨s0, k1, k2, _⟩ := Verif.Memory.Claims.C14_keeps_best_partial v.cap (pushed v bs) hsame
  have hs0 : s0 = s.pq := by
    have : Verif.Memory.pqPushes v.cap {} (pushed v bs) = some s.pq := hrp
    rw [k1] at this
    exact Option.some.inj this
  subst hs0
  obtain ⟨new, hi⟩ := run_inv v hv bs {} s [] [] [] (fun b hb => (e3 b hb).1) (inv_init v) e1
  simp only [List.nil_append] at hi
  refine ⟨?_, ?_, fun hp => (hi.prevN hp).2⟩
  · intro e he
    obtain ⟨b, hb, q, hq, hinv, rfl⟩ := hpush e (k2.wasPushed e he)
    obtain ⟨t, h1, h2, h3, h4⟩ := htok b hb q hq
    exact ⟨t, h1, e6 t h1, h2, by rw [← h4]; exact hinv⟩
  · constructor
    · intro hn
      cases hp : s.prev with
      | none => rfl
      | some y =>
        exfalso
        obtain ⟨_, _, e, he, _⟩ := hi.prevS y hp
        have hoff : ∀ a ∈ new, ∀ b ∈ new, a.id = b.id → a.score = b.score := by
          have hof : ∀ x ∈ new, ∃ b ∈ bs, ∃ q ∈ b.samples, x.score = r0 q ∧ x.id = q.id := by
            intro x hx
            obtain ⟨b, hb, hp⟩ := List.mem_flatMap.1 (hi.offd x hx)
            unfold offeredBy at hp
            rw [(e3 b hb).2, List.append_nil] at hp
            obtain ⟨q, hq, hq2⟩ := List.mem_map.1 hp
            exact ⟨b, hb, q, hq, (congrArg Prod.fst hq2).symm, (congrArg Prod.snd hq2).symm⟩
          intro x hx y hy hxy
          obtain ⟨b, hb, q, hq, f1, f2⟩ := hof x hx
          obtain ⟨b', hb', q', hq', f3, f4⟩ := hof y hy
          obtain ⟨t, _, a1, a2, _⟩ := htok b hb q hq
          obtain ⟨t', _, a3, a4, _⟩ := htok b' hb' q' hq'
          rw [f2, f4] at hxy
          rw [hxy, a3] at a1
          rw [f1, f3]
          simp only [r0]
          rw [a2, a4, a1]
        obtain ⟨_, ⟨m, _, hm, _⟩, _⟩ := Verif.Memory.Claims.C14_reading_partial v.cap hcap new (List.ne_nil_of_mem he) hoff s.pq hi.pq
        rw [hn] at hm
        nomatch hm
    · intro hp
      have := (hi.prevN hp).1
      have hq := hi.pq
      rw [this] at hq
      have : ({} : Verif.Memory.Q) = s.pq := Option.some.inj hq
      rw [← this]

theorem select_cases {P : Type} {len : P → Nat} {nmse : P → Fl} {test : P → Option (List Fl × List Fl)} {sel n : Nat} {queue : List P} {best p : P}
    (h : Stability.select len nmse test sel n queue best = some p) :
    (sel = 0 ∧ p = best) ∨ (queue = [] ∧ p = best) ∨ (0 < sel ∧ p ∈ queue) := by
  by_cases hs : sel = 0
  · subst hs
    exact Or.inl ⟨rfl, by simpa [Stability.select] using h.symm⟩
  · right
    by_cases hq : queue = []
    · subst hq
      rw [(Verif.Discover.Stability.Claims.C127_reported len nmse test sel n [] best).2.1] at h
      exact Or.inl ⟨rfl, (Option.some.inj h).symm⟩
    · right
      refine ⟨by omega, ?_⟩
      obtain ⟨res, h1, h2, _, _, h5⟩ := Verif.Claims.C63_sound Stability.sameErr len queue (queue.map nmse)
      have hin : ∀ e ∈ res, e.tok ∈ queue := fun e he => (List.of_mem_zip (h2 e he)).1
      unfold Stability.select at h
      rw [if_neg hs, h1] at h
      cases res with
      | nil => exact absurd rfl (h5 (by simp) hq)
      | cons c cs =>
        simp only at h
        split at h
        · nomatch h
        · obtain ⟨e, he, rfl⟩ := Option.map_eq_some_iff.1 h
          exact hin e (List.mem_of_getElem? he)

/-! ## Specification -/

/-- What a run needs of its set-up: the constraints are enforced, numpy behaves, the memory has room, rewards are as the tasks give them, and every
search draws rows the sampler can produce. -/
structure Proper {W O : Type} (S : Setting W O) (ps : List Prior) (L : Nat) (draws : Nat → Draws) : Prop where
  env : S.v.Ok
  room : S.v.cap ≠ some 0
  setup : Setup S.lib ps L
  score : ∀ data, ScoreOk L S.v.bound (S.score data)
  rows : ∀ i ≤ S.iters, ∀ ds ∈ (draws i).rows, ds ≠ [] ∧ ∀ d ∈ ds, Row S.lib ps L d

/-- Search `i` drew an expression with a positive reward on `data`. -/
def Success {W O : Type} (S : Setting W O) (draws : Nat → Draws) (data : Meta) (i : Nat) : Prop :=
  ∃ t : Tree, Drawn S.lib (draws i).rows t ∧ ∃ r, (S.score data t.preorder).reward = some r ∧ 0 < r

/-- `p` is a complete expression drawn in search `j` that obeys all constraints. -/
def From {W O : Type} (S : Setting W O) (ps : List Prior) (draws : Nat → Draws) (j : Nat) (p : List Nat) : Prop :=
  ∃ t : Tree, Drawn S.lib (draws j).rows t ∧ (∀ q ∈ ps, Obeys S.lib t q) ∧ p = t.preorder

/-- What search `i` reports on `data`: an expression it drew, valid if it drew anything with a positive reward, and then – without selection by stability –
one with the largest reward; if it drew nothing with a positive reward, possibly the program of an earlier search. -/
structure Reports {W O : Type} (S : Setting W O) (ps : List Prior) (draws : Nat → Draws) (data : Meta) (i : Nat) (p : List Nat) : Prop where
  source : ∃ j ≤ i, From S ps draws j p
  own : Success S draws data i → From S ps draws i p ∧ (S.score data p).invalid = false
  best : Success S draws data i → S.sel = 0 → ∃ m, (S.score data p).reward = some m ∧
    ∀ t : Tree, Drawn S.lib (draws i).rows t → ∀ r, (S.score data t.preorder).reward = some r → r ≤ m

/-- Whatever the searcher still holds before search `i` has a reward of at most 0 and was drawn before. -/
def KeptOk {W O : Type} (S : Setting W O) (ps : List Prior) (draws : Nat → Draws) (i : Nat) (kept : Option (Int × List Nat)) : Prop :=
  ∀ y l, kept = some (y, l) → y ≤ 0 ∧ ∃ j < i, From S ps draws j l

theorem oneSearch_spec {W O : Type} (S : Setting W O) (ps : List Prior) (L : Nat) (draws : Nat → Draws) (hP : Proper S ps L draws) (data : Meta) (i : Nat)
    (hi : i ≤ S.iters) (kept : Option (Int × List Nat)) (hk : KeptOk S ps draws i kept) (p : List Nat) (k' : Option (Int × List Nat))
    (h : oneSearch S data kept (draws i) = some (p, k')) : Reports S ps draws data i p ∧ KeptOk S ps draws (i + 1) k' := by
  simp only [oneSearch, Option.bind_eq_bind, Option.bind_eq_some_iff, Option.pure_def, Option.some.injEq, Prod.mk.injEq] at h
  obtain ⟨⟨c, s⟩, h1, b, h2, p', h3, rfl, rfl⟩ := h
  obtain ⟨m1, m2, m3⟩ := memory_of_search hP.env hP.room hP.setup (hP.score data) (hP.rows i hi) h1
  have hrep := C174_reported S.v hP.env S.lib ps L hP.setup (S.score data) (hP.score data) (draws i).rows (hP.rows i hi) c s h1
  have hno := C174_nothing S.v hP.env S.lib ps L hP.setup (S.score data) (hP.score data) (draws i).rows (hP.rows i hi) c s h1
  simp only at h2 h3
  -- the searcher's best program is the largest one
  have hbest : ∀ x o, s.bestP = some (x, o) → ∃ t : Tree, Drawn S.lib (draws i).rows t ∧ (∀ q ∈ ps, Obeys S.lib t q) ∧ tokensOf c o = t.preorder ∧
      s.rBest = some x ∧ (S.score data t.preorder).reward = some x ∧
      ∀ t' : Tree, Drawn S.lib (draws i).rows t' → ∀ r, (S.score data t'.preorder).reward = some r → r ≤ x := by
    intro x o hb
    cases hr : s.rBest with
    | none =>
      exfalso
      obtain ⟨ts, bs, e1, _, e3, _⟩ := run_of_search hP.setup (hP.score data) (hP.rows i hi) h1
      have := ((C17_best_is_max S.v hP.env bs (fun b hb => (e3 b hb).1) s e1).2.1).2 hr
      rw [hb] at this
      nomatch this
    | some m =>
      obtain ⟨o', t, a1, a2, a3, a4, a5, a6⟩ := hrep m hr
      rw [hb] at a1
      cases a1
      exact ⟨t, a3, a4, by rw [tokensOf, a2]; rfl, rfl, a5, a6⟩
  -- with a success the memory is not empty and the best program is that of this search
  have hsucc : Success S draws data i → s.pq.heap ≠ [] ∧ ∃ x o, s.bestP = some (x, o) ∧ b = (x, tokensOf c o) ∧ 0 < x := by
    rintro ⟨t, ht, r, hr, hr0⟩
    cases hb : s.bestP with
    | none =>
      have := hno.1 hb t ht
      rw [hr] at this
      nomatch this
    | some q =>
      obtain ⟨x, o⟩ := q
      obtain ⟨_, _, _, _, g4, _, g6⟩ := hbest x o hb
      have hx : 0 < x := lt_of_lt_of_le hr0 (g6 t ht r hr)
      have hp : s.prev ≠ none := fun hp => by have := m3 hp x g4; omega
      refine ⟨fun hn => hp (m2.1 hn), x, o, rfl, ?_, hx⟩
      cases kept with
      | none => simpa [bestOf, hb] using h2.symm
      | some k => simpa [bestOf, hb, hp] using h2.symm
  -- where b comes from
  have hsrc : (From S ps draws i b.2) ∨ kept = some b := by
    cases hb : s.bestP with
    | none =>
      right
      cases kept with
      | none => simp [bestOf, hb] at h2
      | some k => simpa [bestOf, hb] using h2
    | some q =>
      obtain ⟨x, o⟩ := q
      obtain ⟨t, g1, g2, g3, _⟩ := hbest x o hb
      cases kept with
      | none =>
        have : b = (x, tokensOf c o) := by simpa [bestOf, hb] using h2.symm
        left; rw [this]; exact ⟨t, g1, g2, g3⟩
      | some k =>
        simp only [bestOf, hb] at h2
        split at h2
        · exact Or.inr h2
        · have : b = (x, tokensOf c o) := (Option.some.inj h2).symm
          left; rw [this]; exact ⟨t, g1, g2, g3⟩
  have hqueue : ∀ l ∈ (Verif.Memory.pqInOrder s.pq).map (fun e => tokensOf c e.id), From S ps draws i l ∧ (S.score data l).invalid = false := by
    intro l hl
    obtain ⟨e, he, rfl⟩ := List.mem_map.1 hl
    have he' : e ∈ s.pq.heap := by
      unfold Verif.Memory.pqInOrder at he
      exact (List.mergeSort_perm _ _).mem_iff.1 he
    obtain ⟨t, a1, a2, a3, a4⟩ := m1 e he'
    exact ⟨⟨t, a1, a2, a3⟩, by show (S.score data (tokensOf c e.id)).invalid = false; rw [a3]; exact a4⟩
  have hsel := select_cases h3
  have hqn : (Verif.Memory.pqInOrder s.pq).map (fun e => tokensOf c e.id) = [] → s.pq.heap = [] := by
    intro hn
    have := List.map_eq_nil_iff.1 hn
    unfold Verif.Memory.pqInOrder at this
    have hp := List.mergeSort_perm s.pq.heap fun a b => decide (b.score ≤ a.score)
    rw [this] at hp
    exact hp.symm.eq_nil
  refine ⟨⟨?_, ?_, ?_⟩, ?_⟩
  · have hb : ∃ j ≤ i, From S ps draws j b.2 := by
      rcases hsrc with h | h
      · exact ⟨i, Nat.le_refl _, h⟩
      · obtain ⟨_, j, hj, hf⟩ := hk b.1 b.2 h
        exact ⟨j, by omega, hf⟩
    rcases hsel with ⟨_, rfl⟩ | ⟨_, rfl⟩ | ⟨_, hm⟩
    · exact hb
    · exact hb
    · exact ⟨i, Nat.le_refl _, (hqueue _ hm).1⟩
  · intro hs
    obtain ⟨s1, x, o, s2, s3, s4⟩ := hsucc hs
    rcases hsel with ⟨_, rfl⟩ | ⟨hq, _⟩ | ⟨_, hm⟩
    · obtain ⟨t, g1, g2, g3, _, g5, _⟩ := hbest x o s2
      rw [s3]
      refine ⟨⟨t, g1, g2, g3⟩, ?_⟩
      simp only
      rw [g3]
      cases hinv : (S.score data t.preorder).invalid with
      | false => rfl
      | true =>
        obtain ⟨z, z1, z2⟩ := (hP.score data).inv _ hinv
        rw [g5] at z1
        cases z1
        omega
    · exact absurd (hqn hq) s1
    · exact hqueue _ hm
  · intro hs hz
    obtain ⟨s1, x, o, s2, s3, s4⟩ := hsucc hs
    rcases hsel with ⟨_, rfl⟩ | ⟨hq, _⟩ | ⟨hpos, _⟩
    · obtain ⟨t, g1, g2, g3, _, g5, g6⟩ := hbest x o s2
      rw [s3]
      exact ⟨x, by simp only; rw [g3]; exact g5, g6⟩
    · exact absurd (hqn hq) s1
    · omega
  · intro y l hl
    unfold keptAfter at hl
    split at hl
    · rename_i hn
      have hb : b = (y, l) := Option.some.inj hl
      have hp : s.prev = none := m2.1 hn
      constructor
      · cases hbp : s.bestP with
        | none =>
          rcases hsrc with h | h
          · cases kept with
            | none => simp [bestOf, hbp] at h2
            | some k =>
              have : k = b := by simpa [bestOf, hbp] using h2
              rw [hb] at this
              exact (hk y l (by rw [this])).1
          · rw [hb] at h
            exact (hk y l h).1
        | some q =>
          obtain ⟨x, o⟩ := q
          obtain ⟨_, _, _, _, g4, _⟩ := hbest x o hbp
          have hx := m3 hp x g4
          cases kept with
          | none =>
            have : b = (x, tokensOf c o) := by simpa [bestOf, hbp] using h2.symm
            rw [hb] at this
            cases this
            exact hx
          | some k =>
            simp only [bestOf, hbp] at h2
            split at h2
            · rw [hb] at h2
              exact (hk y l h2).1
            · have : b = (x, tokensOf c o) := (Option.some.inj h2).symm
              rw [hb] at this
              cases this
              exact hx
      · rcases hsrc with h | h
        · rw [hb] at h
          exact ⟨i, by omega, h⟩
        · rw [hb] at h
          obtain ⟨_, j, hj, hf⟩ := hk y l h
          exact ⟨j, by omega, hf⟩
    · nomatch hl

/-! ## The rounds -/

/-- The networks of a run: before each round, and at the end. -/
def netsOf {W O : Type} (log : List (Round W O)) (last : State W O) : List (State W O) := log.map (·.net) ++ [last]

/-- What holds of the first `k` rounds. -/
structure RunInv {W O : Type} (S : Setting W O) (ps : List Prior) (draws : Nat → Draws) (n0 : State W O) (k : Nat) (st : RunSt W O) : Prop where
  len : st.log.length = k
  kept : KeptOk S ps draws k st.kept
  first : (netsOf st.log st.net)[0]? = some n0
  data : ∀ (i : Nat) r, st.log[i]? = some r → searchData S r.net = some r.data
  found : ∀ (i : Nat) r, st.log[i]? = some r → Reports S ps draws r.data i r.found
  used0 : ∀ r, st.log[0]? = some r → r.used = r.found
  used : ∀ (i : Nat) r q, st.log[i + 1]? = some r → st.log[i]? = some q → r.used = pickBest S r.data (some q.used) r.found
  train : ∀ (i : Nat) r, st.log[i]? = some r → ∃ n', (netsOf st.log st.net)[i + 1]? = some n' ∧
    trainPinn S.m (fun d => [equation S r.data r.used d]) (i + 1) S.coef S.localSample (i + 1 == S.iters) S.epochs r.net = (n', true)

theorem round_inv {W O : Type} (S : Setting W O) (ps : List Prior) (L : Nat) (draws : Nat → Draws) (hP : Proper S ps L draws) (n0 : State W O) (k : Nat)
    (hk : k < S.iters) (st st' : RunSt W O) (hi : RunInv S ps draws n0 k st) (h : round S draws st k = some st') : RunInv S ps draws n0 (k + 1) st' := by
  simp only [round, Option.bind_eq_bind, Option.bind_eq_some_iff] at h
  obtain ⟨data, h1, ⟨f, k'⟩, h2, h⟩ := h
  obtain ⟨g1, g2⟩ := oneSearch_spec S ps L draws hP data k (by omega) st.kept hi.kept f k' h2
  split at h
  · rename_i ht
    cases h
    simp only at ht
    have hlen := hi.len
    have old : ∀ (i : Nat) (x : Round W O) r, (st.log ++ [x])[i]? = some r → (i < k ∧ st.log[i]? = some r) ∨ (i = k ∧ r = x) := by
      intro i x r hr
      by_cases hik : i < k
      · rw [List.getElem?_append_left (by omega)] at hr
        exact Or.inl ⟨hik, hr⟩
      · rw [List.getElem?_append_right (by omega)] at hr
        obtain ⟨q1, q2⟩ := List.getElem?_eq_some_iff.1 hr
        simp only [List.length_singleton] at q1
        have : i = k := by omega
        refine Or.inr ⟨this, ?_⟩
        subst this
        rw [← q2]
        simp [hlen]
    have hnets : ∀ (x : Round W O) (n' : State W O), x.net = st.net → netsOf (st.log ++ [x]) n' = netsOf st.log st.net ++ [n'] := by
      intro x n' hx
      simp [netsOf, hx]
    refine ⟨by simp [hlen], g2, ?_, ?_, ?_, ?_, ?_, ?_⟩
    · rw [hnets _ _ rfl, List.getElem?_append_left (by simp [netsOf])]
      exact hi.first
    · intro i r hr
      rcases old i _ r hr with ⟨_, hr⟩ | ⟨_, rfl⟩
      · exact hi.data i r hr
      · exact h1
    · intro i r hr
      rcases old i _ r hr with ⟨_, hr⟩ | ⟨rfl, rfl⟩
      · exact hi.found i r hr
      · exact g1
    · intro r hr
      rcases old 0 _ r hr with ⟨_, hr⟩ | ⟨h0, rfl⟩
      · exact hi.used0 r hr
      · have : st.log = [] := List.length_eq_zero_iff.1 (by omega)
        simp [carriedOf, this, pickBest]
    · intro i r q hr hq
      rcases old (i + 1) _ r hr with ⟨hik, hr⟩ | ⟨hik, rfl⟩
      · rw [List.getElem?_append_left (by omega)] at hq
        exact hi.used i r q hr hq
      · rw [List.getElem?_append_left (by omega)] at hq
        have hl : st.log.getLast? = some q := by
          rw [List.getLast?_eq_getElem?, hlen, ← hik]
          simpa using hq
        simp [carriedOf, hl]
    · intro i r hr
      rw [hnets _ _ rfl]
      rcases old i _ r hr with ⟨hik, hr⟩ | ⟨rfl, rfl⟩
      · obtain ⟨n', q1, q2⟩ := hi.train i r hr
        refine ⟨n', ?_, q2⟩
        rw [List.getElem?_append_left (List.getElem?_eq_some_iff.1 q1).1]
        exact q1
      · refine ⟨(trainPinn S.m (fun d => [equation S data (pickBest S data (carriedOf st) f) d]) (i + 1) S.coef S.localSample (i + 1 == S.iters) S.epochs
            st.net).1, ?_, Prod.ext rfl ht⟩
        rw [List.getElem?_append_right (by simp [netsOf, hlen])]
        simp [netsOf, hlen]
  · nomatch h

theorem rounds_inv {W O : Type} (S : Setting W O) (ps : List Prior) (L : Nat) (draws : Nat → Draws) (hP : Proper S ps L draws) (n0 : State W O) :
    ∀ k ≤ S.iters, ∀ st, (List.range k).foldlM (round S draws) ⟨n0, none, []⟩ = some st → RunInv S ps draws n0 k st := by
  intro k
  induction k with
  | zero =>
    intro _ st h
    simp at h
    subst h
    exact ⟨rfl, by intro y l h; simp at h, rfl, by simp, by simp, by simp, by simp, by simp⟩
  | succ k ih =>
    intro hk st h
    rw [List.range_succ, List.foldlM_append] at h
    simp only [Option.bind_eq_bind, Option.bind_eq_some_iff, List.foldlM_cons, List.foldlM_nil, Option.pure_def] at h
    obtain ⟨a, h1, b, h2, h3⟩ := h
    cases h3
    exact round_inv S ps L draws hP n0 k (by omega) a st (ih (by omega) a h1) h2

theorem pick_cases {W O : Type} (S : Setting W O) (data : Meta) (l f : List Nat) :
    (pickBest S data (some l) f = f ∨ pickBest S data (some l) f = l) ∧
    ((∃ a b, (S.score data l).reward = some a ∧ (S.score data f).reward = some b ∧ b < a) → pickBest S data (some l) f = l) ∧
    ((¬ ∃ a b, (S.score data l).reward = some a ∧ (S.score data f).reward = some b ∧ b < a) → pickBest S data (some l) f = f) ∧
    ∀ a, (S.score data (pickBest S data (some l) f)).reward = some a →
      (∀ b, (S.score data f).reward = some b → b ≤ a) ∧ ∀ b, (S.score data l).reward = some b → b ≤ a := by
  simp only [pickBest]
  by_cases hg : greater (S.score data l).reward (S.score data f).reward = true
  · rw [if_pos hg]
    refine ⟨Or.inr rfl, fun _ => rfl, fun hn => absurd ?_ hn, fun a ha => ⟨fun b hb => ?_, fun b hb => ?_⟩⟩
    · rcases ha : (S.score data l).reward with _ | a <;> rcases hb : (S.score data f).reward with _ | b <;> rw [ha, hb] at hg <;>
        simp [greater] at hg
      exact ⟨a, b, rfl, rfl, hg⟩
    · rw [ha, hb] at hg
      simp only [greater, decide_eq_true_eq] at hg
      omega
    · rw [ha] at hb; cases hb; omega
  · rw [if_neg hg]
    refine ⟨Or.inl rfl, fun hn => ?_, fun _ => rfl, fun a ha => ⟨fun b hb => ?_, fun b hb => ?_⟩⟩
    · obtain ⟨a, b, ha, hb, hlt⟩ := hn
      rw [ha, hb] at hg
      simp [greater] at hg
      omega
    · rw [ha] at hb; cases hb; omega
    · rw [ha, hb] at hg
      simp only [greater, decide_eq_true_eq] at hg
      omega

/-- The run in terms of the invariant. -/
theorem run_spec {W O : Type} (S : Setting W O) (ps : List Prior) (L : Nat) (draws : Nat → Draws) (hP : Proper S ps L draws) (n : State W O)
    (out : Outcome W O) (h : run S draws n = some out) :
    ∃ kept, RunInv S ps draws (pretrain S.m S.load S.limit S.duration n).1 S.iters ⟨out.net, kept, out.log⟩ ∧ searchData S out.net = some out.data ∧
      Reports S ps draws out.data S.iters out.result := by
  simp only [run, Option.bind_eq_bind, Option.bind_eq_some_iff, Option.pure_def, Option.some.injEq] at h
  obtain ⟨st, h1, data, h2, ⟨f, k'⟩, h3, rfl⟩ := h
  have hi := rounds_inv S ps L draws hP _ S.iters (Nat.le_refl _) st h1
  exact ⟨st.kept, hi, h2, (oneSearch_spec S ps L draws hP data S.iters (Nat.le_refl _) st.kept hi.kept f k' h3).1⟩

/-- **C182** (equations).  A run that returns made as many rounds as configured.  In every round the equation the network is trained with is a complete
expression drawn in this or an earlier search that obeys all constraints; it is the one found in the round unless the one of the round before has a
strictly larger reward on the round's data, and then that one (a NaN never wins).  The result is what the last search reports: an expression that search drew, valid, if it drew anything with a positive
reward, and then without selection by stability one with the largest reward of all it drew.
Partial, of the whole claim: Exact characterisation proved; the wish that the network is trained towards the expression found is false for an invalid expression (C182_invalid_counterexample), and the last search is not compared with the equation carried (C87, C182_concrete). One dependent variable; draws, stability tests, derivatives and regression are arguments. -/
theorem C182_equations_partial {W O : Type} (S : Setting W O) (ps : List Prior) (L : Nat) (draws : Nat → Draws) (hP : Proper S ps L draws) (n : State W O)
    (out : Outcome W O) (h : run S draws n = some out) :
    out.log.length = S.iters ∧
    (∀ (i : Nat) r, out.log[i]? = some r → Reports S ps draws r.data i r.found ∧ (∃ j ≤ i, From S ps draws j r.used) ∧
      (i = 0 → r.used = r.found) ∧
      ∀ q, 0 < i → out.log[i - 1]? = some q → (r.used = r.found ∨ r.used = q.used) ∧
        ((∃ a b, (S.score r.data q.used).reward = some a ∧ (S.score r.data r.found).reward = some b ∧ b < a) → r.used = q.used) ∧
        ((¬ ∃ a b, (S.score r.data q.used).reward = some a ∧ (S.score r.data r.found).reward = some b ∧ b < a) → r.used = r.found) ∧
        ∀ a, (S.score r.data r.used).reward = some a →
          (∀ b, (S.score r.data r.found).reward = some b → b ≤ a) ∧ ∀ b, (S.score r.data q.used).reward = some b → b ≤ a) ∧
    Reports S ps draws out.data S.iters out.result := by
  obtain ⟨kept, hi, h1, h2⟩ := run_spec S ps L draws hP n out h
  have hused : ∀ (i : Nat) r q, out.log[i + 1]? = some r → out.log[i]? = some q → r.used = pickBest S r.data (some q.used) r.found := hi.used
  have hfrom : ∀ (i : Nat) r, out.log[i]? = some r → ∃ j ≤ i, From S ps draws j r.used := by
    intro i
    induction i with
    | zero =>
      intro r hr
      rw [hi.used0 r hr]
      exact (hi.found 0 r hr).source
    | succ i ih =>
      intro r hr
      obtain ⟨q, hq⟩ : ∃ q, out.log[i]? = some q := by
        have := (List.getElem?_eq_some_iff.1 hr).1
        exact ⟨_, List.getElem?_eq_getElem (by omega)⟩
      rw [hused i r q hr hq]
      rcases (pick_cases S r.data q.used r.found).1 with e | e <;> rw [e]
      · exact (hi.found (i + 1) r hr).source
      · obtain ⟨j, hj, hf⟩ := ih q hq
        exact ⟨j, by omega, hf⟩
  refine ⟨hi.len, fun i r hr => ⟨hi.found i r hr, hfrom i r hr, ?_, ?_⟩, h2⟩
  · rintro rfl
    exact hi.used0 r hr
  · intro q h0 hq
    obtain ⟨i, rfl⟩ : ∃ j, i = j + 1 := ⟨i - 1, by omega⟩
    have hq' : out.log[i]? = some q := by simpa using hq
    rw [hused i r q hr hq']
    exact pick_cases S r.data q.used r.found

/-! ## The network -/

theorem after_succ {W O : Type} (step : W → O → W × O) (w : W) (o : O) (k : Nat) :
    after step (step w o).1 (step w o).2 k = after step w o (k + 1) := by
  induction k with
  | zero => rfl
  | succ k ih =>
    show step (after step (step w o).1 (step w o).2 k).1 (after step (step w o).1 (step w o).2 k).2 = _
    rw [ih]
    rfl

theorem record_w {W O : Type} (loss : Fl) (i : Nat) (s : Pinn.Run W O) : (record loss i s).w = s.w ∧ (record loss i s).o = s.o := by
  unfold record
  split
  · exact ⟨rfl, rfl⟩
  · refine ⟨?_, ?_⟩ <;> (split <;> rfl)

theorem trainLoop_after {W O : Type} (loss : W → Fl) (step : W → O → W × O) (last : Bool) : ∀ (n i : Nat) (s : Pinn.Run W O),
    ∃ k ≤ n, (trainLoop loss step last n i s).1.w = (after step s.w s.o k).1 ∧ (last = false → k = n) := by
  intro n
  induction n with
  | zero => intro i s; exact ⟨0, Nat.le_refl _, rfl, fun _ => rfl⟩
  | succ n ih =>
    intro i s
    cases last with
    | false =>
      obtain ⟨k, k1, k2, k3⟩ := ih (i + 1) { s with w := (step s.w s.o).1, o := (step s.w s.o).2 }
      refine ⟨k + 1, by omega, ?_, fun _ => by rw [k3 rfl]⟩
      rw [trainLoop]
      simp only [Bool.false_eq_true, if_false]
      rw [k2]
      exact congrArg Prod.fst (after_succ step s.w s.o k)
    | true =>
      rw [trainLoop]
      simp only [if_true]
      have hr := record_w (loss s.w) i { s with w := (step s.w s.o).1, o := (step s.w s.o).2 }
      split
      · exact ⟨1, by omega, hr.1, fun h => nomatch h⟩
      · split
        · exact ⟨1, by omega, hr.1, fun h => nomatch h⟩
        · obtain ⟨k, k1, k2, _⟩ := ih (i + 1) (record (loss s.w) i { s with w := (step s.w s.o).1, o := (step s.w s.o).2 })
          refine ⟨k + 1, by omega, ?_, fun h => nomatch h⟩
          rw [k2, hr.1, hr.2]
          exact congrArg Prod.fst (after_succ step s.w s.o k)

/-- A training that ends: some updates on the loss, the file of the round, and the observations unchanged. -/
theorem trained {W O : Type} (m : Machine W O) (es : Data → List (Equation W)) (count : Nat) (coef : ℚ) (local_ last : Bool) (epochs : Nat) (s n' : State W O)
    (h : trainPinn m es count coef local_ last epochs s = (n', true)) :
    n'.data = s.data ∧ n'.final count = some n'.w ∧
    ∃ k ≤ epochs, n'.w = (after (m.adam (lossOf m es coef local_ s.data)) s.w s.o k).1 ∧ (last = false → k = epochs) := by
  unfold trainPinn at h
  split at h
  · nomatch h
  · obtain ⟨k, k1, k2, k3⟩ := trainLoop_after (lossOf m es coef local_ s.data) (m.adam (lossOf m es coef local_ s.data)) last epochs 0
      ⟨s.w, s.o, 100000000, none, s.best count⟩
    unfold finish at h
    split at h
    · have := congrArg Prod.snd h
      nomatch this
    · have h' := congrArg Prod.fst h
      simp only at h'
      subst h'
      exact ⟨rfl, by simp, k, k1, k2, k3⟩

open Classical in
theorem searchData_points {W O : Type} (S : Setting W O) (n : State W O) (data : Meta) (h : searchData S n = some data) :
    data.pts.rows = n.data.f.rows.filter (fun r => decide (Kept S.cut n.data.f r)) ∧ data.u = data.pts.rows.map (S.field n.w).value ∧
      data.ut = data.pts.rows.map (S.field n.w).dt := by
  obtain ⟨m, h1, h2, h3, h4, h5⟩ := C125_points_partial S.cut (S.field n.w) n.data.f
  unfold searchData at h
  split at h
  · rw [h1] at h
    cases h
    exact ⟨h2, h3, h4⟩
  · have hx : n.data.f.x.length = 1 := by
      unfold generateOne at h
      split at h
      · assumption
      · nomatch h
    rw [h5 hx] at h
    cases h
    exact ⟨h2, h3, h4⟩

open Classical in
/-- **C182** (network).  Through the whole run the network is trained on every observation (training and validation), each with its value; every search works
on the collocation points inside the quantiles of all coordinates with the value and the time derivative of the network as it is at that moment; the first
round starts from the pretrained network, every round makes at most `pinn_epoch` updates (all of them except in the last) on the loss of its own equation,
the next round or the result starts from there, and that network is in the file with the number of the round. -/
theorem C182_network {W O : Type} (S : Setting W O) (ps : List Prior) (L : Nat) (draws : Nat → Draws) (hP : Proper S ps L draws) (n : State W O)
    (out : Outcome W O) (h : run S draws n = some out) (w : Nat) (hw : 0 < w) (s : Adapter.Sparse) (hd : n.data = importData w s)
    (t1 : Table w (s.train.map Prod.fst)) (t2 : Table w (s.val.map Prod.fst)) (t3 : Table w s.colloc) :
    let nets := out.log.map (·.net) ++ [out.net]
    let points := s.colloc.filter fun r => decide (Kept S.cut (split w s.colloc) r)
    nets[0]? = some (pretrain S.m S.load S.limit S.duration n).1 ∧
    (∀ x ∈ nets, x.data.xt.rows.zip x.data.u = s.train ++ s.val) ∧
    (∀ r ∈ out.log, r.data.pts.rows = points ∧ r.data.u = points.map (S.field r.net.w).value ∧ r.data.ut = points.map (S.field r.net.w).dt) ∧
    (out.data.pts.rows = points ∧ out.data.u = points.map (S.field out.net.w).value ∧ out.data.ut = points.map (S.field out.net.w).dt) ∧
    ∀ (i : Nat) r, out.log[i]? = some r → ∃ n' k, nets[i + 1]? = some n' ∧ k ≤ S.epochs ∧ (i + 1 < S.iters → k = S.epochs) ∧
      n'.w = (after (S.m.adam (lossOf S.m (fun d => [equation S r.data r.used d]) S.coef S.localSample r.net.data)) r.net.w r.net.o k).1 ∧
      n'.final (i + 1) = some n'.w := by
  intro nets points
  obtain ⟨kept, hi, h1, h2⟩ := run_spec S ps L draws hP n out h
  have hf : ∀ d : Data, d = merge (importData w s) → d.xt.rows.zip d.u = s.train ++ s.val ∧ d.f = split w s.colloc := by
    intro d hd
    subst hd
    have := C121_merged S.m S.load S.limit S.duration w hw s n hd t1 t2
    refine ⟨?_, rfl⟩
    have e : (pretrain S.m S.load S.limit S.duration n).1.data = merge (importData w s) := by
      rw [← hd]; unfold pretrain; split <;> rfl
    rw [e] at this
    exact this
  have hdata : ∀ (i : Nat) x, nets[i]? = some x → x.data = merge (importData w s) := by
    intro i
    induction i with
    | zero =>
      intro x hx
      have e : nets[0]? = some (pretrain S.m S.load S.limit S.duration n).1 := hi.first
      rw [e] at hx
      cases hx
      rw [← hd]; unfold pretrain; split <;> rfl
    | succ i ih =>
      intro x hx
      have hlt := (List.getElem?_eq_some_iff.1 hx).1
      have hl : nets.length = out.log.length + 1 := by simp [nets]
      have hil : i < out.log.length := by omega
      obtain ⟨n', q1, q2⟩ := hi.train i _ (List.getElem?_eq_getElem hil)
      have q1' : nets[i + 1]? = some n' := q1
      rw [hx] at q1'
      cases q1'
      rw [(trained _ _ _ _ _ _ _ _ _ q2).1]
      apply ih
      show (out.log.map (·.net) ++ [out.net])[i]? = _
      rw [List.getElem?_append_left (by simpa using hil), List.getElem?_map, List.getElem?_eq_getElem hil]
      rfl
  have hmem : ∀ x ∈ nets, x.data = merge (importData w s) := by
    intro x hx
    obtain ⟨i, hi'⟩ := List.getElem?_of_mem hx
    exact hdata i x hi'
  have hpts : ∀ (x : State W O) (data : Meta), x ∈ nets → searchData S x = some data →
      data.pts.rows = points ∧ data.u = points.map (S.field x.w).value ∧ data.ut = points.map (S.field x.w).dt := by
    intro x data hx hs
    obtain ⟨p1, p2, p3⟩ := searchData_points S x data hs
    have e := (hf x.data (hmem x hx)).2
    rw [e, split_rows w hw s.colloc t3] at p1
    rw [p1] at p2 p3
    exact ⟨p1, p2, p3⟩
  refine ⟨hi.first, fun x hx => (hf x.data (hmem x hx)).1, ?_, hpts out.net out.data (by simp [nets]) h1, ?_⟩
  · intro r hr
    obtain ⟨i, hir⟩ := List.getElem?_of_mem hr
    exact hpts r.net r.data (List.mem_append_left _ (List.mem_map_of_mem hr)) (hi.data i r hir)
  · intro i r hr
    obtain ⟨n', q1, q2⟩ := hi.train i r hr
    obtain ⟨_, a2, k, a3, a4, a5⟩ := trained _ _ _ _ _ _ _ _ _ q2
    refine ⟨n', k, q1, a3, fun hlt => a5 ?_, a4, a2⟩
    simp only [beq_eq_false_iff_ne, ne_eq]
    omega

/-- The mean square at the points of time derivative minus the combination of the terms with the coefficients. -/
def meanSquare (points : List (ℚ × List ℚ)) (coefs : List ℚ) : ℚ :=
  (points.map fun p => (p.1 - (List.zipWith (· * ·) p.2 coefs).sum) ^ 2).sum / points.length

theorem pinnLoss_eq (points : List (ℚ × List ℚ)) (coefs : List ℚ) (hne : points ≠ []) (hl : ∀ p ∈ points, coefs.length ≤ p.2.length) :
    pinnLoss points coefs = some (some (meanSquare points coefs)) := by
  have hm : ∀ l : List (ℚ × List ℚ), (∀ p ∈ l, coefs.length ≤ p.2.length) →
      l.mapM (fun p => residual p.1 p.2 coefs) = some (l.map fun p => p.1 - (List.zipWith (· * ·) p.2 coefs).sum) := by
    intro l
    induction l with
    | nil => intro _; rfl
    | cons p l ih =>
      intro h
      have hp := h p List.mem_cons_self
      rw [List.mapM_cons, ih fun q hq => h q (List.mem_cons_of_mem _ hq)]
      unfold residual
      rw [if_pos hp, foldl_sum]
      simp
  unfold pinnLoss
  rw [hm points hl]
  simp only
  rw [if_neg (by simpa using hne)]
  simp only [meanSquare, List.map_map, List.length_map]
  rfl

/-- **C182** (the loss of a round): the error at all observations plus `coef_pde` times the mean square residual of the round's equation at the collocation
points – and at the observed points with `local_sample` – with the coefficients fitted on the round's data. -/
theorem C182_loss {W O : Type} (S : Setting W O) (data : Meta) (l : List Nat) (d : Data) (w : W) (a : ℚ)
    (ha : S.m.mse ((d.xt.rows.map (scale d.lb d.ub)).zip d.u) w = some a) (hv : (S.score data l).invalid = false)
    (hf : S.vals l w d.f ≠ [] ∧ ∀ p ∈ S.vals l w d.f, (S.fitted data l).length ≤ p.2.length)
    (hx : S.vals l w d.xt ≠ [] ∧ ∀ p ∈ S.vals l w d.xt, (S.fitted data l).length ≤ p.2.length) :
    lossOf S.m (fun d => [equation S data l d]) S.coef S.localSample d w =
      some (a + S.coef * (meanSquare (S.vals l w d.f) (S.fitted data l) +
        if S.localSample then meanSquare (S.vals l w d.xt) (S.fitted data l) else 0)) := by
  have hc : coefs S data l = S.fitted data l := by simp [coefs, hv]
  have e1 : (equation S data l d).res w = some (meanSquare (S.vals l w d.f) (S.fitted data l)) := by
    simp only [equation, hc]
    rw [pinnLoss_eq _ _ hf.1 hf.2]
    rfl
  have e2 : (equation S data l d).loc w = some (meanSquare (S.vals l w d.xt) (S.fitted data l)) := by
    simp only [equation, hc]
    rw [pinnLoss_eq _ _ hx.1 hx.2]
    rfl
  obtain ⟨c1, c2⟩ := C123_loss_partial S.m (fun d => [equation S data l d]) S.coef d (equation S data l d) rfl w a _ _ ha (Or.inl e1) e2
  cases hls : S.localSample with
  | true => rw [c1]; rfl
  | false => rw [c2]; simp

/-- **C182 (violated).** If a round finds only invalid expressions, the network is trained with the equation `u_t = 0`: the loss is the error at the
observations plus `coef_pde` times the mean square of the time derivative, whatever the expression (with at least one term) is. -/
theorem C182_invalid_counterexample {W O : Type} (S : Setting W O) (data : Meta) (l : List Nat) (d : Data) (w : W) (a : ℚ)
    (ha : S.m.mse ((d.xt.rows.map (scale d.lb d.ub)).zip d.u) w = some a) (hv : (S.score data l).invalid = true) (hls : S.localSample = false)
    (hf : S.vals l w d.f ≠ [] ∧ ∀ p ∈ S.vals l w d.f, p.2 ≠ []) (hx : S.vals l w d.xt ≠ [] ∧ ∀ p ∈ S.vals l w d.xt, p.2 ≠ []) :
    lossOf S.m (fun d => [equation S data l d]) S.coef S.localSample d w =
      some (a + S.coef * (((S.vals l w d.f).map fun p => p.1 ^ 2).sum / (S.vals l w d.f).length)) := by
  have hc : coefs S data l = [0] := by simp [coefs, hv]
  have hlen : ∀ p : ℚ × List ℚ, p.2 ≠ [] → ([0] : List ℚ).length ≤ p.2.length := fun p hp => List.length_pos_iff.2 hp
  have hms : ∀ ps : List (ℚ × List ℚ), (∀ p ∈ ps, p.2 ≠ []) → meanSquare ps [0] = (ps.map fun p => p.1 ^ 2).sum / ps.length := by
    intro ps hps
    unfold meanSquare
    congr 2
    apply List.map_congr_left
    intro p hp
    obtain ⟨x, xs, hx⟩ := List.exists_cons_of_ne_nil (hps p hp)
    rw [hx]
    simp
  have e1 : (equation S data l d).res w = some (meanSquare (S.vals l w d.f) [0]) := by
    simp only [equation, hc]
    rw [pinnLoss_eq _ _ hf.1 fun p hp => hlen p (hf.2 p hp)]
    rfl
  have e2 : (equation S data l d).loc w = some (meanSquare (S.vals l w d.xt) [0]) := by
    simp only [equation, hc]
    rw [pinnLoss_eq _ _ hx.1 fun p hp => hlen p (hx.2 p hp)]
    rfl
  obtain ⟨_, c2⟩ := C123_loss_partial S.m (fun d => [equation S data l d]) S.coef d (equation S data l d) rfl w a _ _ ha (Or.inl e1) e2
  rw [hls, c2, hms _ hf.2]

/-! ## A run

Library, constraints and rows of C174.  The weights are a number that grows by one in every update, the network's value is that number; two rounds with three
updates each.  With weights 0 short expressions are rewarded, with other weights long ones. -/

def exReward (data : Meta) (t : List Nat) : Score :=
  if 2 ∈ t then ⟨some 0, true⟩ else if data.u = [some 0] then ⟨some (10 - min t.length 10), false⟩ else ⟨some (min t.length 10), false⟩

def exSetting : Setting Nat Nat where
  v := exEnv
  lib := exLib
  m := ⟨fun _ w => some (100 - w), fun _ w o => (w + 1, o)⟩
  field := fun w => ⟨fun _ => some w, fun _ => some 0⟩
  score := exReward
  fitted := fun _ _ => [1]
  vals := fun _ _ _ => []
  nmse := fun _ _ => none
  len := List.length
  multi := false
  cut := 0
  coef := 1
  localSample := false
  epochs := 3
  iters := 2
  load := some 0
  limit := 0
  duration := 0
  sel := 0
  resamples := 0

/-- The first search draws only an invalid expression, the second the rows of C174, the third a short expression. -/
def exDraws : Nat → Draws
  | 0 => ⟨[[⟨[0, 1, 4, 3, 2, 4, 4, 4], fun _ => 3⟩]], fun _ => none⟩
  | 1 => ⟨exRows, fun _ => none⟩
  | _ => ⟨[[⟨[1, 4, 3, 4, 4, 4, 4, 4], fun _ => 3⟩]], fun _ => none⟩

def exSparse : Adapter.Sparse := ⟨[([0, 0], 1), ([1, 0], 2)], [([2, 1], 3)], [[0, 0], [1, 1], [2, 0]], [0, 0], [2, 1], [[0, 0], [1, 0], [2, 1]], [([0, 0], 1), ([1, 0], 2), ([2, 1], 3)], [3, 2], []⟩

def exNet : State Nat Nat := ⟨7, 0, 0, importData 2 exSparse, none, fun _ => none, fun _ => none⟩

/-- Round 0 finds the invalid expression, round 1 the sum (reward 5), and the last search the derivative (reward 3 on the same kind of data, less than the sum's 5). -/
theorem C182_concrete : (run exSetting exDraws exNet).map (fun o => (o.result, o.log.map fun r => (r.found, r.used), o.net.w, o.log.map fun r => r.net.w)) =
    some ([1, 4, 3], [([0, 1, 4, 3, 2, 4], [0, 1, 4, 3, 2, 4]), ([0, 4, 1, 4, 3], [0, 4, 1, 4, 3])], 6, [0, 3]) := by decide +kernel

theorem exRows_ok : ∀ i ≤ exSetting.iters, ∀ ds ∈ (exDraws i).rows, ds ≠ [] ∧ ∀ d ∈ ds, Row exLib exPs 8 d := by
  have hrow : ∀ tok fil, (∃ obs prior, Sampled exLib exPs tok obs prior) → tok.length = 8 → Row exLib exPs 8 ⟨tok, fil⟩ := fun tok fil h1 h2 => ⟨h1, h2⟩
  intro i hi ds hds
  have hi : i = 0 ∨ i = 1 ∨ i = 2 := by
    have : i ≤ 2 := hi
    omega
  rcases hi with rfl | rfl | rfl
  · simp only [exDraws, List.mem_cons, List.not_mem_nil, or_false] at hds
    subst hds
    refine ⟨by simp, fun d hd => ?_⟩
    simp only [List.mem_cons, List.not_mem_nil, or_false] at hd
    subst hd
    exact hrow _ _ (sampled_of_canDraw (by decide)) rfl
  · simp only [exDraws, exRows, List.mem_cons, List.not_mem_nil, or_false] at hds
    rcases hds with rfl | rfl <;> refine ⟨by simp, fun d hd => ?_⟩ <;>
      (simp only [List.mem_cons, List.not_mem_nil, or_false] at hd; rcases hd with rfl | rfl <;> exact hrow _ _ (sampled_of_canDraw (by decide)) rfl)
  · simp only [exDraws, List.mem_cons, List.not_mem_nil, or_false] at hds
    subst hds
    refine ⟨by simp, fun d hd => ?_⟩
    simp only [List.mem_cons, List.not_mem_nil, or_false] at hd
    subst hd
    exact hrow _ _ (sampled_of_canDraw (by decide)) rfl

theorem exPs_setup : Setup exLib exPs 8 := by
  refine ⟨exLib_arity, by decide, by decide, ⟨3, by simp [exPs]⟩, ?_⟩
  intro p hp
  simp only [exPs, List.mem_cons, List.not_mem_nil, or_false] at hp
  rcases hp with rfl | rfl | rfl | rfl | rfl
  · exact ⟨⟨3, rfl⟩, by intro m hm; cases hm; rfl⟩
  · exact ⟨by unfold Relational.InLib; decide, by intro h; nomatch h⟩
  · exact (by decide : 1 ≤ 2)
  · trivial
  · intro c hc
    simp only [List.mem_map] at hc
    obtain ⟨p, hp, rfl⟩ := hc
    refine ⟨?_, by intro h; nomatch h⟩
    revert p
    unfold Relational.InLib
    decide

/-- The run meets the hypotheses of `C182_equations_partial` and `C182_network`. -/
theorem C182_hypotheses : Proper exSetting exPs 8 exDraws ∧ (∃ out, run exSetting exDraws exNet = some out) ∧ exNet.data = importData 2 exSparse ∧
    Table 2 (exSparse.train.map Prod.fst) ∧ Table 2 (exSparse.val.map Prod.fst) ∧ Table 2 exSparse.colloc := by
  refine ⟨⟨exEnv_ok, by decide, exPs_setup, ?_, exRows_ok⟩, ?_, rfl, by unfold Table; decide, by unfold Table; decide, by unfold Table; decide⟩
  · intro data
    show ScoreOk 8 1000 (exReward data)
    constructor
    · intro t h
      unfold exReward at h ⊢
      split at h
      · rename_i hm; rw [if_pos hm]; exact ⟨0, rfl, by decide⟩
      · split at h <;> nomatch h
    · intro t _ x h
      unfold exReward at h
      split at h
      · cases h; omega
      · split at h <;> (cases h; omega)
  · have h := C182_concrete
    cases hr : run exSetting exDraws exNet with
    | none => rw [hr] at h; nomatch h
    | some out => exact ⟨out, rfl⟩

end Verif.Discover.SprRun.Claims
