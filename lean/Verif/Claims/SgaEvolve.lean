import Verif.Sga.Evolve
import Verif.Claims.SgaEval
/-!
# C22: the evolution of the SGA population
-/
namespace Verif.Claims
open Verif.Sga

/-- `np.argsort`: a permutation of the positions that puts the values in order. -/
structure ArgsortOk {S : Type} (o : ScoreOrd S) (argsort : List S → List Nat) : Prop where
  perm : ∀ l, (argsort l).Perm (List.range l.length)
  sorted : ∀ (l : List S) (q : List S), gather l (argsort l) = some q → q.Pairwise fun a b => o.le a b = true

/-- What is assumed of a run: a well-formed context whose denominators are axes, a usable depth limit, float order,
a correct `argsort`. -/
structure EnvOk {V S : Type} (env : Env V S) : Prop where
  ctx : env.ctx.Ok
  xden : env.ctx.XDen
  den : ∀ a, env.ctx.isDen a = true → a = env.sem.lhs ∨ a ∈ env.sem.axes
  depth : 2 ≤ env.depth
  ord : env.ord.Ok
  sort : ArgsortOk env.ord env.argsort

/-- An individual and a score that belong together: evaluating the individual gives exactly this score (and deletes
nothing), its width counter is its number of terms, its terms are terms of the search. -/
structure Belongs {V S : Type} (env : Env V S) (p : Ind) (s : S) : Prop where
  score : evaluate env p = .ok (p, s)
  width : p.W = p.elements.length
  terms : ∀ t ∈ p.elements, Reach env.ctx env.depth t

/-- A population of `n` individuals, each next to its own score. -/
structure PopOk {V S : Type} (env : Env V S) (n : Nat) (st : Pop S) : Prop where
  eqs : st.eqs.length = n
  mses : st.mses.length = n
  each : ∀ (i : Nat) (p : Ind) (s : S), st.eqs[i]? = some p → st.mses[i]? = some s → Belongs env p s

/-- An individual fit to be evaluated. -/
structure IndOk {V S : Type} (env : Env V S) (p : Ind) : Prop where
  width : p.W = p.elements.length
  terms : ∀ t ∈ p.elements, Reach env.ctx env.depth t

theorem strip_fresh {V : Type} (t : Levels) : strip (fresh t : List (List (CNode V))) = t := by
  induction t with
  | nil => rfl
  | cons l t ih =>
    have : (l.map fun n => ((n, none) : CNode V)).map (·.1) = l := by
      induction l with
      | nil => rfl
      | cons n l ih => simpa using ih
    simp only [strip, fresh, List.map_cons] at ih ⊢
    rw [this]; congr 1

theorem map_strip_fresh {V : Type} (ts : List Levels) :
    (ts.map (fresh : Levels → List (List (CNode V)))).map strip = ts := by
  induction ts with
  | nil => rfl
  | cons t ts ih => simp only [List.map_cons, ih, strip_fresh]

theorem evaluate_eq {V S : Type} {env : Env V S} (he : EnvOk env) {p : Ind} (hp : IndOk env p) :
    evaluate env p = .ok (⟨(p.elements.filter fun t => (termCol env.sem t).isSome).length,
        p.elements.filter fun t => (termCol env.sem t).isSome⟩,
      scoreOf env (p.elements.filterMap (termCol env.sem))) := by
  unfold evaluate
  rw [hp.width, C21_aligned env.sem env.ctx he.ctx he.xden env.depth he.depth he.den p.elements hp.terms]
  simp only [map_strip_fresh]
  congr 3
  induction p.elements with
  | nil => rfl
  | cons t ts ih => cases h : termCol env.sem t <;> simp [h, ih]

theorem evaluate_belongs {V S : Type} {env : Env V S} (he : EnvOk env) {p : Ind} (hp : IndOk env p) :
    ∃ p' s, evaluate env p = .ok (p', s) ∧ Belongs env p' s := by
  refine ⟨_, _, evaluate_eq he hp, ?_⟩
  have hok : IndOk env ⟨(p.elements.filter fun t => (termCol env.sem t).isSome).length,
      p.elements.filter fun t => (termCol env.sem t).isSome⟩ :=
    ⟨rfl, fun t ht => hp.terms t (List.mem_filter.1 ht).1⟩
  refine ⟨?_, hok.width, hok.terms⟩
  rw [evaluate_eq he hok]
  congr 3
  · simp
  · simp
  · induction p.elements with
    | nil => rfl
    | cons t ts ih => cases h : termCol env.sem t <;> simp [h, ih]

theorem Belongs.ok {V S : Type} {env : Env V S} {p : Ind} {s : S} (h : Belongs env p s) : IndOk env p := ⟨h.width, h.terms⟩

/-- A score that is a number and not infinite belongs to an individual with at least one term. -/
theorem Belongs.nonempty {V S : Type} {env : Env V S} (he : EnvOk env) {p : Ind} {s : S} (h : Belongs env p s)
    (hs : env.ord.isInf s = false) : p.elements ≠ [] := by
  intro h0
  have hw := h.score
  rw [evaluate_eq he h.ok] at hw
  simp only [h0, List.filterMap_nil] at hw
  injection hw with hw
  have : s = env.ord.inf := by
    have := congrArg Prod.snd hw
    simpa [scoreOf] using this.symm
  rw [this] at hs
  have := (he.ord.isInf env.ord.inf).2 ⟨he.ord.inf_num, by rcases he.ord.total env.ord.inf env.ord.inf with h | h <;> exact h⟩
  rw [this] at hs; simp at hs

/-! ## Gathering -/

theorem gather_get {α : Type} {l : List α} : ∀ {idx : List Nat} {q : List α}, gather l idx = some q →
    q.length = idx.length ∧ ∀ (i j : Nat), idx[i]? = some j → q[i]? = l[j]? := by
  intro idx
  induction idx with
  | nil => intro q h; simp [gather] at h; subst h; exact ⟨rfl, by simp⟩
  | cons k idx ih =>
    intro q h
    simp only [gather, List.mapM_cons] at h
    cases hk : l[k]? with
    | none => simp [hk] at h
    | some x =>
      cases hr : gather l idx with
      | none => simp only [gather] at hr; simp [hk, hr] at h
      | some r =>
        have hr' := hr
        simp only [gather] at hr'
        simp [hk, hr'] at h
        subst h
        obtain ⟨h1, h2⟩ := ih hr
        refine ⟨by simp [h1], ?_⟩
        intro i j hij
        cases i with
        | zero => simp at hij; subst hij; simp [hk]
        | succ i => simp at hij ⊢; exact h2 i j hij

theorem gather_some {α : Type} {l : List α} : ∀ {idx : List Nat}, (∀ i ∈ idx, i < l.length) →
    ∃ q, gather l idx = some q := by
  intro idx
  induction idx with
  | nil => intro _; exact ⟨[], rfl⟩
  | cons k idx ih =>
    intro h
    obtain ⟨q, hq⟩ := ih (fun i hi => h i (by simp [hi]))
    simp only [gather] at hq
    have hk := h k (by simp)
    refine ⟨l[k] :: q, ?_⟩
    simp [gather, hq, List.getElem?_eq_getElem hk]

theorem gather_append {α : Type} {l : List α} : ∀ {a b : List Nat} {q : List α}, gather l (a ++ b) = some q →
    ∃ qa qb, gather l a = some qa ∧ gather l b = some qb ∧ q = qa ++ qb := by
  intro a
  induction a with
  | nil => intro b q h; exact ⟨[], q, rfl, h, rfl⟩
  | cons k a ih =>
    intro b q h
    simp only [gather, List.cons_append, List.mapM_cons] at h
    cases hk : l[k]? with
    | none => simp [hk] at h
    | some x =>
      cases hr : gather l (a ++ b) with
      | none => simp only [gather] at hr; simp [hk, hr] at h
      | some r =>
        obtain ⟨qa, qb, h1, h2, h3⟩ := ih hr
        simp only [gather] at hr h1
        simp [hk, hr] at h
        subst h
        exact ⟨x :: qa, qb, by simp [gather, hk, h1], h2, by simp [h3]⟩

theorem gather_perm {α : Type} {l : List α} : ∀ {a b : List Nat}, a.Perm b → ∀ {q r : List α}, gather l a = some q →
    gather l b = some r → q.Perm r := by
  intro a b hp
  induction hp with
  | nil => intro q r h1 h2; rw [h1] at h2; simp at h2; subst h2; exact .refl _
  | cons k _ ih =>
    intro q r h1 h2
    simp only [gather, List.mapM_cons] at h1 h2
    rename_i a b _
    cases hk : l[k]? with
    | none => simp [hk] at h1
    | some x =>
      cases ha : gather l a with
      | none => simp only [gather] at ha; simp [hk, ha] at h1
      | some qa =>
        cases hb : gather l b with
        | none => simp only [gather] at hb; simp [hk, hb] at h2
        | some qb =>
          have hh := ih ha hb
          simp only [gather] at ha hb
          simp [hk, ha] at h1
          simp [hk, hb] at h2
          subst h1; subst h2
          exact hh.cons x
  | swap i j c =>
    intro q r h1 h2
    simp only [gather, List.mapM_cons] at h1 h2
    cases hi : l[i]? with
    | none => simp [hi] at h2
    | some x =>
      cases hj : l[j]? with
      | none => simp [hj] at h1
      | some y =>
        cases hc : gather l c with
        | none => simp only [gather] at hc; simp [hi, hj, hc] at h1
        | some qc =>
          simp only [gather] at hc
          simp [hi, hj, hc] at h1 h2
          subst h1; subst h2
          exact .swap x y qc
  | @trans a b c h1 _ ih1 ih2 =>
    intro q r ha hc
    cases hb : gather l b with
    | none =>
      exfalso
      obtain ⟨g1, g2⟩ := gather_get ha
      have : ∀ i ∈ b, i < l.length := by
        intro i hi
        have hia := h1.mem_iff.2 hi
        obtain ⟨n, hn⟩ := List.getElem?_of_mem hia
        have h3 := g2 n i hn
        have hlt : n < q.length := by rw [g1]; exact (List.getElem?_eq_some_iff.1 hn).1
        rw [List.getElem?_eq_getElem hlt] at h3
        exact (List.getElem?_eq_some_iff.1 h3.symm).1
      obtain ⟨q', hq'⟩ := gather_some this
      rw [hb] at hq'; simp at hq'
    | some qb => exact (ih1 ha hb).trans (ih2 hb hc)

theorem gather_range {α : Type} (l : List α) : gather l (List.range l.length) = some l := by
  obtain ⟨q, hq⟩ := gather_some (l := l) (idx := List.range l.length) (by simp)
  obtain ⟨h1, h2⟩ := gather_get hq
  rw [hq]
  congr 1
  apply List.ext_getElem?
  intro i
  by_cases hi : i < l.length
  · exact h2 i i (by simp [hi])
  · rw [List.getElem?_eq_none (by simp at h1; omega), List.getElem?_eq_none (by omega)]

/-! ## Sorting and truncating -/

theorem keepBest_ok {V S : Type} {env : Env V S} (he : EnvOk env) {n k : Nat} {st : Pop S} (h : PopOk env n st)
    (hk : k ≤ n) : ∃ st', keepBest env k st = .ok st' ∧ PopOk env k st' ∧ st'.lib = st.lib ∧
      ∃ rest, st.mses.Perm (st'.mses ++ rest) ∧ (st'.mses ++ rest).Pairwise fun a b => env.ord.le a b = true := by
  have hperm := he.sort.perm st.mses
  have hlt : ∀ i ∈ env.argsort st.mses, i < st.mses.length := by
    intro i hi
    have := hperm.mem_iff.1 hi
    simpa using this
  obtain ⟨q, hq⟩ := gather_some hlt
  have hs := he.sort.sorted _ _ hq
  have hql : q.Perm st.mses := gather_perm hperm hq (gather_range st.mses)
  have hsplit := hq
  rw [← List.take_append_drop k (env.argsort st.mses)] at hsplit
  obtain ⟨qa, qb, g1, g2, g3⟩ := gather_append hsplit
  obtain ⟨e, ge⟩ := gather_some (l := st.eqs) (idx := (env.argsort st.mses).take k) (by
    intro i hi
    have := hlt i (List.mem_of_mem_take hi)
    rw [h.mses] at this; rw [h.eqs]; exact this)
  have hlen : ((env.argsort st.mses).take k).length = k := by
    rw [List.length_take, hperm.length_eq, List.length_range, h.mses]; omega
  refine ⟨⟨e, qa, st.lib⟩, ?_, ?_, rfl, qb, ?_, ?_⟩
  · simp only [keepBest, ge, g1]
  · obtain ⟨a1, a2⟩ := gather_get ge
    obtain ⟨b1, b2⟩ := gather_get g1
    refine ⟨by simp [a1, hlen], by simp [b1, hlen], ?_⟩
    intro i p s hp hs
    have hi : i < ((env.argsort st.mses).take k).length := by rw [← a1]; exact (List.getElem?_eq_some_iff.1 hp).1
    have hj := List.getElem?_eq_getElem hi
    rw [a2 _ _ hj] at hp
    rw [b2 _ _ hj] at hs
    exact h.each _ p s hp hs
  · rw [← g3]; exact hql.symm
  · rw [← g3]; exact hs

/-! ## Offering an individual -/

theorem offer_ok {V S : Type} {env : Env V S} (he : EnvOk env) {n : Nat} {st : Pop S} (h : PopOk env n st) {p : Ind}
    (hp : IndOk env p) : ∃ st' m, offer env st p = .ok st' ∧ PopOk env m st' ∧ n ≤ m ∧ st.mses <+: st'.mses := by
  unfold offer
  split
  · exact ⟨st, n, rfl, h, Nat.le_refl _, List.prefix_refl _⟩
  · obtain ⟨p', s, h1, h2⟩ := evaluate_belongs he hp
    rw [h1]
    refine ⟨_, n + 1, rfl, ⟨by simp [h.eqs], by simp [h.mses], ?_⟩, by omega, ⟨[s], rfl⟩⟩
    intro i q r hq hr
    by_cases hi : i < n
    · rw [List.getElem?_append_left (by rw [h.eqs]; exact hi)] at hq
      rw [List.getElem?_append_left (by rw [h.mses]; exact hi)] at hr
      exact h.each i q r hq hr
    · rw [List.getElem?_append_right (by rw [h.eqs]; omega), h.eqs] at hq
      rw [List.getElem?_append_right (by rw [h.mses]; omega), h.mses] at hr
      have : i - n = 0 := by
        have := (List.getElem?_eq_some_iff.1 hq).1
        simp at this; omega
      rw [this] at hq hr
      simp at hq hr
      subst hq; subst hr
      exact h2

/-! ## Crossover -/

theorem crossPair_ok {V S : Type} {env : Env V S} {a b : Ind} (ha : IndOk env a) (hb : IndOk env b) (d : Nat × Nat)
    {na nb : Ind} (h : crossPair a b d = .ok (na, nb)) : IndOk env na ∧ IndOk env nb := by
  unfold crossPair at h
  split at h
  · rename_i x y hx hy
    injection h with h
    injection h with h1 h2
    subst h1; subst h2
    have hx := List.mem_of_getElem? hx
    have hy := List.mem_of_getElem? hy
    refine ⟨⟨by simp [ha.width], ?_⟩, ⟨by simp [hb.width], ?_⟩⟩
    · intro t ht
      rcases List.mem_or_eq_of_mem_set ht with h | rfl
      · exact ha.terms t h
      · exact hb.terms _ hy
    · intro t ht
      rcases List.mem_or_eq_of_mem_set ht with h | rfl
      · exact hb.terms t h
      · exact ha.terms _ hx
  · simp at h

theorem crossPair_raise {a b : Ind} (ha : a.elements ≠ []) (hb : b.elements ≠ []) (d : Nat × Nat) :
    ∃ r, crossPair a b d = .ok r := by
  have h1 : 0 < a.elements.length := List.length_pos_iff.2 ha
  have h2 : 0 < b.elements.length := List.length_pos_iff.2 hb
  unfold crossPair
  rw [List.getElem?_eq_getElem (Nat.mod_lt d.1 h1), List.getElem?_eq_getElem (Nat.mod_lt d.2 h2)]
  exact ⟨_, rfl⟩

theorem crossLoop_ok {V S : Type} {env : Env V S} (he : EnvOk env) (ix : Nat → Nat × Nat) : ∀ (ps : List (Ind × Ind))
    (k n : Nat) (st : Pop S), PopOk env n st → (∀ ab ∈ ps, IndOk env ab.1 ∧ IndOk env ab.2) →
    (∀ st', crossLoop env ix k ps st = .ok st' → ∃ m, PopOk env m st' ∧ n ≤ m ∧ st.mses <+: st'.mses) ∧
    ((∀ ab ∈ ps, ab.1.elements ≠ [] ∧ ab.2.elements ≠ []) → ∃ st', crossLoop env ix k ps st = .ok st') := by
  intro ps
  induction ps with
  | nil =>
    intro k n st h _
    refine ⟨?_, fun _ => ⟨st, rfl⟩⟩
    intro st' h'
    simp [crossLoop] at h'; subst h'
    exact ⟨n, h, Nat.le_refl _, List.prefix_refl _⟩
  | cons ab ps ih =>
    intro k n st h hp
    obtain ⟨ha, hb⟩ := hp ab (by simp)
    have hp' : ∀ x ∈ ps, IndOk env x.1 ∧ IndOk env x.2 := fun x hx => hp x (by simp [hx])
    have step : ∀ r, crossPair ab.1 ab.2 (ix k) = .ok r → ∃ m st2, PopOk env m st2 ∧ n ≤ m ∧ st.mses <+: st2.mses ∧
        crossLoop env ix k (ab :: ps) st = crossLoop env ix (k + 1) ps st2 := by
      intro r hr
      obtain ⟨na, nb⟩ := r
      obtain ⟨ia, ib⟩ := crossPair_ok ha hb _ hr
      obtain ⟨st1, m1, o1, p1, l1, q1⟩ := offer_ok he h ia
      obtain ⟨st2, m2, o2, p2, l2, q2⟩ := offer_ok he p1 ib
      exact ⟨m2, st2, p2, by omega, q1.trans q2, by simp only [crossLoop, hr, o1, o2]⟩
    constructor
    · intro st' hst
      cases hr : crossPair ab.1 ab.2 (ix k) with
      | error f => simp only [crossLoop, hr] at hst; simp at hst
      | ok r =>
        obtain ⟨m, st2, g1, g2, g3, g4⟩ := step r hr
        rw [g4] at hst
        obtain ⟨m', a1, a2, a3⟩ := (ih (k + 1) m st2 g1 hp').1 st' hst
        exact ⟨m', a1, by omega, g3.trans a3⟩
    · intro hne
      obtain ⟨r, hr⟩ := crossPair_raise (hne ab (by simp)).1 (hne ab (by simp)).2 (ix k)
      obtain ⟨m, st2, g1, g2, g3, g4⟩ := step r hr
      rw [g4]
      exact (ih (k + 1) m st2 g1 hp').2 (fun x hx => hne x (by simp [hx]))

theorem pop_indOk {V S : Type} {env : Env V S} {n : Nat} {st : Pop S} (h : PopOk env n st) : ∀ p ∈ st.eqs, IndOk env p := by
  intro p hp
  obtain ⟨i, hi⟩ := List.getElem?_of_mem hp
  have hlt : i < st.mses.length := by rw [h.mses, ← h.eqs]; exact (List.getElem?_eq_some_iff.1 hi).1
  exact (h.each i p _ hi (List.getElem?_eq_getElem hlt)).ok

theorem pop_nonempty {V S : Type} {env : Env V S} (he : EnvOk env) {n : Nat} {st : Pop S} (h : PopOk env n st)
    (hi : ∀ m ∈ st.mses, env.ord.isInf m = false) : ∀ p ∈ st.eqs, p.elements ≠ [] := by
  intro p hp
  obtain ⟨i, hpi⟩ := List.getElem?_of_mem hp
  have hlt : i < st.mses.length := by rw [h.mses, ← h.eqs]; exact (List.getElem?_eq_some_iff.1 hpi).1
  have hm := List.getElem?_eq_getElem hlt
  exact (h.each i p _ hpi hm).nonempty he (hi _ (List.mem_of_getElem? hm))

/-- The scores after a round against those before: nothing that was there is lost without something as good. -/
def NotWorse {S : Type} (o : ScoreOrd S) (before after : List S) : Prop :=
  ∀ m ∈ before, ∃ m' ∈ after, o.le m' m = true

theorem sorted_notWorse {S : Type} {o : ScoreOrd S} (ho : o.Ok) {l kept rest : List S} (hp : l.Perm (kept ++ rest))
    (hs : (kept ++ rest).Pairwise fun a b => o.le a b = true) (hk : kept ≠ []) : NotWorse o l kept := by
  intro m hm
  have hm := hp.mem_iff.1 hm
  match kept, hk with
  | a :: kept, _ =>
    refine ⟨a, by simp, ?_⟩
    simp only [List.cons_append, List.mem_cons] at hm
    rcases hm with rfl | hm
    · rcases ho.total m m with h | h <;> exact h
    · exact (List.pairwise_cons.1 hs).1 m hm

theorem NotWorse.trans {S : Type} {o : ScoreOrd S} (ho : o.Ok) {a b c : List S} (h1 : NotWorse o a b)
    (h2 : NotWorse o b c) : NotWorse o a c := by
  intro m hm
  obtain ⟨m', hm', hle⟩ := h1 m hm
  obtain ⟨m'', hm'', hle'⟩ := h2 m' hm'
  exact ⟨m'', hm'', ho.trans _ _ _ hle' hle⟩

theorem NotWorse.of_subset {S : Type} {o : ScoreOrd S} (ho : o.Ok) {a b : List S} (h : ∀ m ∈ a, m ∈ b) : NotWorse o a b :=
  fun m hm => ⟨m, h m hm, by rcases ho.total m m with h | h <;> exact h⟩

/-- The best `num` of a list that contains at least `num` scores outside an upward closed class are all outside it. -/
theorem take_sorted {S : Type} {o : ScoreOrd S} (bad : S → Bool)
    (hup : ∀ a b, o.le a b = true → bad a = true → bad b = true) : ∀ (kept rest : List S),
    (kept ++ rest).Pairwise (fun a b => o.le a b = true) →
    kept.length ≤ (kept ++ rest).countP (fun a => !bad a) → ∀ a ∈ kept, bad a = false := by
  intro kept
  induction kept with
  | nil => intro rest _ _ a ha; simp at ha
  | cons x kept ih =>
    intro rest hs hc a ha
    rw [List.cons_append, List.pairwise_cons] at hs
    by_cases hx : bad x = true
    · exfalso
      have : (x :: (kept ++ rest)).countP (fun a => !bad a) = 0 := by
        rw [List.countP_eq_zero]
        intro b hb
        simp only [List.mem_cons] at hb
        rcases hb with rfl | hb
        · simp [hx]
        · simp [hup _ _ (hs.1 b hb) hx]
      rw [List.cons_append, this] at hc
      simp at hc
    · have hx : bad x = false := by simpa using hx
      rw [List.cons_append, List.countP_cons_of_pos (by simp [hx])] at hc
      simp only [List.mem_cons] at ha
      rcases ha with rfl | ha
      · exact hx
      · exact ih rest hs.2 (by simpa using hc) a ha

/-- Scores of a healthy population: numbers, none infinite. -/
def Finite {S : Type} (o : ScoreOrd S) (ms : List S) : Prop := ∀ m ∈ ms, o.nan m = false ∧ o.isInf m = false

def badScore {S : Type} (o : ScoreOrd S) (m : S) : Bool := o.nan m || o.isInf m

theorem finite_iff {S : Type} {o : ScoreOrd S} {ms : List S} : Finite o ms ↔ ∀ m ∈ ms, badScore o m = false := by
  simp [Finite, badScore]

theorem bad_up {S : Type} {o : ScoreOrd S} (ho : o.Ok) :
    ∀ a b, o.le a b = true → badScore o a = true → badScore o b = true := by
  intro a b hab ha
  unfold badScore at ha ⊢
  rw [Bool.or_eq_true] at ha ⊢
  rcases ha with ha | ha
  · exact Or.inl (ho.nan_top a b ha hab)
  · by_cases hb : o.nan b = true
    · exact Or.inl hb
    · right
      rw [ho.isInf]
      exact ⟨by simpa using hb, ho.trans _ _ _ ((ho.isInf a).1 ha).2 hab⟩

theorem kept_finite {S : Type} {o : ScoreOrd S} (ho : o.Ok) {l kept rest old : List S} (hp : l.Perm (kept ++ rest))
    (hs : (kept ++ rest).Pairwise fun a b => o.le a b = true) (hold : old <+: l) (hf : Finite o old)
    (hl : kept.length ≤ old.length) : Finite o kept := by
  rw [finite_iff] at hf ⊢
  apply take_sorted (badScore o) (bad_up ho) kept rest hs
  rw [← hp.countP_eq]
  have h1 : old.countP (fun a => !badScore o a) = old.length := by
    rw [List.countP_eq_length]
    intro a ha; simp [hf a ha]
  have h2 := hold.sublist.countP_le (p := fun a => !badScore o a)
  omega

/-! ## Mutation -/

theorem mutElems_ok {V S : Type} {env : Env V S} (he : EnvOk env) (dr : Nat → Nat → Nat → MutDraw)
    (hd : ∀ i l k, (dr i l k).From env.ctx) : ∀ (ts : List Levels) (i w : Nat), w = ts.length →
    (∀ t ∈ ts, Reach env.ctx env.depth t) →
    mutElems env.ctx dr i w ts ≠ .error .raised ∧
    ∀ ts', mutElems env.ctx dr i w ts = .ok ts' → ts'.length = ts.length ∧ ∀ t ∈ ts', Reach env.ctx env.depth t := by
  intro ts
  induction ts with
  | nil =>
    intro i w hw _
    subst hw
    refine ⟨by simp [mutElems], ?_⟩
    intro ts' h
    simp [mutElems] at h; subst h
    exact ⟨rfl, by simp⟩
  | cons t ts ih =>
    intro i w hw hr
    obtain ⟨w, rfl⟩ : ∃ w', w = w' + 1 := ⟨ts.length, by simpa using hw⟩
    obtain ⟨i1, i2⟩ := ih (i + 1) w (by simpa using hw) (fun t' ht => hr t' (by simp [ht]))
    obtain ⟨a1, a2⟩ := C20_keeps_shape_partial env.ctx he.ctx he.xden env.depth he.depth (hr t (by simp)) (dr i) (hd i)
    simp only [mutElems]
    cases hm : mutTree env.ctx (dr i) t with
    | error f =>
      rw [hm] at a1
      exact ⟨by simpa using a1, by simp⟩
    | ok t' =>
      simp only
      cases hm2 : mutElems env.ctx dr (i + 1) w ts with
      | error f => rw [hm2] at i1; exact ⟨i1, by simp⟩
      | ok ts' =>
        obtain ⟨b1, b2⟩ := i2 ts' hm2
        refine ⟨by simp, ?_⟩
        intro r hr'
        injection hr' with hr'; subst hr'
        refine ⟨by simp [b1], ?_⟩
        intro x hx
        simp only [List.mem_cons] at hx
        rcases hx with rfl | hx
        · exact .step t _ (dr i) (hr t (by simp)) (hd i) hm
        · exact b2 x hx

theorem vary_ok {V S : Type} {env : Env V S} (he : EnvOk env) {d : ChangeDraw} (hd : d.From env.ctx) {p : Ind}
    (hp : IndOk env p) : (p.elements ≠ [] → vary env p d ≠ .error .raised) ∧
      ∀ p', vary env p d = .ok p' → IndOk env p' := by
  obtain ⟨a1, a2⟩ := mutElems_ok he d.muts hd.muts p.elements 0 p.W hp.width hp.terms
  unfold vary
  cases hm : mutElems env.ctx d.muts 0 p.W p.elements with
  | error f => rw [hm] at a1; exact ⟨fun _ => by simpa using a1, by simp⟩
  | ok ts =>
    obtain ⟨b1, b2⟩ := a2 ts hm
    simp only
    by_cases hrep : d.rep = true
    · rw [if_pos hrep]
      by_cases hc : p.W ≠ 0 ∧ d.ix % p.W < ts.length
      · rw [if_pos hc]
        refine ⟨by simp, ?_⟩
        intro p' h
        injection h with h; subst h
        refine ⟨by simp [b1, hp.width], ?_⟩
        intro t ht
        rcases List.mem_or_eq_of_mem_set ht with h | rfl
        · exact b2 t h
        · exact .gen _ _ hd.root hd.gen
      · rw [if_neg hc]
        refine ⟨?_, by simp⟩
        intro hne
        exfalso
        apply hc
        have h1 : 0 < p.elements.length := List.length_pos_iff.2 hne
        rw [b1, hp.width]
        exact ⟨by omega, Nat.mod_lt _ h1⟩
    · rw [if_neg hrep]
      refine ⟨by simp, ?_⟩
      intro p' h
      injection h with h; subst h
      exact ⟨by simp [b1, hp.width], b2⟩

theorem changeLoop_ok {V S : Type} {env : Env V S} (he : EnvOk env) (copy : List Ind) (hcopy : ∀ p ∈ copy, IndOk env p)
    (ds : Nat → ChangeDraw) (hd : ∀ i, (ds i).From env.ctx) : ∀ (c i n : Nat) (st : Pop S), PopOk env n st →
    (∀ st', changeLoop env copy ds i c st = .ok st' → ∃ m, PopOk env m st' ∧ n ≤ m ∧ st.mses <+: st'.mses) ∧
    ((∀ p ∈ copy, p.elements ≠ []) → i + c ≤ copy.length → changeLoop env copy ds i c st ≠ .error .raised) := by
  intro c
  induction c with
  | zero =>
    intro i n st h
    refine ⟨?_, by simp [changeLoop]⟩
    intro st' h'
    simp [changeLoop] at h'; subst h'
    exact ⟨n, h, Nat.le_refl _, List.prefix_refl _⟩
  | succ c ih =>
    intro i n st h
    simp only [changeLoop]
    cases hp : copy[i]? with
    | none =>
      refine ⟨by simp, ?_⟩
      intro _ hlen
      exfalso
      have := List.getElem?_eq_none_iff.1 hp
      omega
    | some p =>
      have hpm := List.mem_of_getElem? hp
      obtain ⟨v1, v2⟩ := vary_ok he (hd i) (hcopy p hpm)
      simp only
      cases hv : vary env p (ds i) with
      | error f =>
        rw [hv] at v1
        exact ⟨by simp, fun hne _ => by simpa using v1 (hne p hpm)⟩
      | ok p' =>
        obtain ⟨st1, m1, o1, q1, l1, r1⟩ := offer_ok he h (v2 p' hv)
        simp only [o1]
        obtain ⟨j1, j2⟩ := ih (i + 1) m1 st1 q1
        constructor
        · intro st' hst
          obtain ⟨m, a1, a2, a3⟩ := j1 st' hst
          exact ⟨m, a1, by omega, r1.trans a3⟩
        · intro hne hlen
          exact j2 hne (by omega)

/-! ## The claims -/

theorem crossOver_spec {V S : Type} {env : Env V S} (he : EnvOk env) (num numIx : Nat) (hn : 0 < num) (d : CrossDraw)
    {st : Pop S} (h : PopOk env num st) :
    (∀ st', crossOver env num numIx d st = .ok st' → PopOk env num st' ∧ NotWorse env.ord st.mses st'.mses ∧
      (Finite env.ord st.mses → Finite env.ord st'.mses)) ∧
    (Finite env.ord st.mses → (∀ i ∈ d.shuf, i < min numIx num) → ∃ st', crossOver env num numIx d st = .ok st') := by
  obtain ⟨st1, k1, p1, _, rest1, r1, r2⟩ := keepBest_ok he h (Nat.le_refl num)
  rw [← h.mses] at k1
  have hnn : st1.mses ≠ [] := by intro h0; have := p1.mses; rw [h0] at this; simp at this; omega
  have hnw1 := sorted_notWorse he.ord r1 r2 hnn
  have hfin1 : Finite env.ord st.mses → Finite env.ord st1.mses := by
    intro hf
    exact fun m hm => hf m (r1.mem_iff.2 (List.mem_append_left _ hm))
  have hps : ∀ reo, gather (st1.eqs.take numIx) d.shuf = some reo →
      ∀ ab ∈ (st1.eqs.take numIx).zip reo, ab.1 ∈ st1.eqs ∧ ab.2 ∈ st1.eqs := by
    intro reo hreo ab hab
    have hm := List.of_mem_zip hab
    refine ⟨List.mem_of_mem_take hm.1, ?_⟩
    obtain ⟨g1, g2⟩ := gather_get hreo
    obtain ⟨i, hi⟩ := List.getElem?_of_mem hm.2
    have hlt : i < d.shuf.length := by rw [← g1]; exact (List.getElem?_eq_some_iff.1 hi).1
    rw [g2 _ _ (List.getElem?_eq_getElem hlt)] at hi
    exact List.mem_of_mem_take (List.mem_of_getElem? hi)
  have hind : ∀ reo, gather (st1.eqs.take numIx) d.shuf = some reo →
      ∀ ab ∈ (st1.eqs.take numIx).zip reo, IndOk env ab.1 ∧ IndOk env ab.2 := by
    intro reo hreo ab hab
    obtain ⟨a1, a2⟩ := hps reo hreo ab hab
    exact ⟨pop_indOk p1 _ a1, pop_indOk p1 _ a2⟩
  constructor
  · intro st' hst
    simp only [crossOver, k1] at hst
    cases hg : gather (st1.eqs.take numIx) d.shuf with
    | none => rw [hg] at hst; simp at hst
    | some reo =>
      rw [hg] at hst
      simp only at hst
      cases hl : crossLoop env d.ix 0 ((st1.eqs.take numIx).zip reo) st1 with
      | error f => rw [hl] at hst; simp at hst
      | ok st2 =>
        rw [hl] at hst
        simp only at hst
        obtain ⟨m, p2, l2, q2⟩ := (crossLoop_ok he d.ix _ 0 num st1 p1 (hind reo hg)).1 st2 hl
        obtain ⟨st3, k3, p3, _, rest3, s1, s2⟩ := keepBest_ok he p2 l2
        rw [k3] at hst
        injection hst with hst; subst hst
        have hnn3 : st3.mses ≠ [] := by intro h0; have := p3.mses; rw [h0] at this; simp at this; omega
        refine ⟨p3, ?_, ?_⟩
        · refine hnw1.trans he.ord ((NotWorse.of_subset he.ord (fun m hm => ?_)).trans he.ord (sorted_notWorse he.ord s1 s2 hnn3))
          exact q2.subset hm
        · intro hf
          exact kept_finite he.ord s1 s2 q2 (hfin1 hf) (by rw [p3.mses, p1.mses]; exact Nat.le_refl _)
  · intro hf hsh
    obtain ⟨reo, hg⟩ := gather_some (l := st1.eqs.take numIx) (idx := d.shuf) (by
      intro i hi
      have := hsh i hi
      rw [List.length_take, p1.eqs]; exact this)
    have hne := pop_nonempty he p1 (fun m hm => (hfin1 hf m hm).2)
    obtain ⟨st2, hl⟩ := (crossLoop_ok he d.ix _ 0 num st1 p1 (hind reo hg)).2 (by
      intro ab hab
      obtain ⟨a1, a2⟩ := hps reo hg ab hab
      exact ⟨hne _ a1, hne _ a2⟩)
    obtain ⟨m, p2, l2, q2⟩ := (crossLoop_ok he d.ix _ 0 num st1 p1 (hind reo hg)).1 st2 hl
    obtain ⟨st3, k3, _⟩ := keepBest_ok he p2 l2
    exact ⟨st3, by simp only [crossOver, k1, hg, hl, k3]⟩

theorem change_spec {V S : Type} {env : Env V S} (he : EnvOk env) (num : Nat) (hn : 0 < num) (ds : Nat → ChangeDraw)
    (hd : ∀ i, (ds i).From env.ctx) {st : Pop S} (h : PopOk env num st) :
    (∀ st', change env num ds st = .ok st' → PopOk env num st' ∧ NotWorse env.ord st.mses st'.mses ∧
      (Finite env.ord st.mses → Finite env.ord st'.mses)) ∧
    (Finite env.ord st.mses → change env num ds st ≠ .error .raised) := by
  obtain ⟨st1, k1, p1, _, rest1, r1, r2⟩ := keepBest_ok he h (Nat.le_refl num)
  rw [← h.mses] at k1
  have hnn : st1.mses ≠ [] := by intro h0; have := p1.mses; rw [h0] at this; simp at this; omega
  have hnw1 := sorted_notWorse he.ord r1 r2 hnn
  have hfin1 : Finite env.ord st.mses → Finite env.ord st1.mses := by
    intro hf
    exact fun m hm => hf m (r1.mem_iff.2 (List.mem_append_left _ hm))
  obtain ⟨c1, c2⟩ := changeLoop_ok he st1.eqs (pop_indOk p1) ds hd (num - 1) 1 num st1 p1
  simp only [change, k1]
  cases hl : changeLoop env st1.eqs ds 1 (num - 1) st1 with
  | error f =>
    refine ⟨by simp, ?_⟩
    intro hf
    rw [hl] at c2
    exact c2 (pop_nonempty he p1 (fun m hm => (hfin1 hf m hm).2)) (by rw [p1.eqs]; omega)
  | ok st2 =>
    obtain ⟨m, p2, l2, q2⟩ := c1 st2 hl
    obtain ⟨st3, k3, p3, _, rest3, s1, s2⟩ := keepBest_ok he p2 l2
    simp only [k3]
    have hnn3 : st3.mses ≠ [] := by intro h0; have := p3.mses; rw [h0] at this; simp at this; omega
    refine ⟨?_, by simp⟩
    intro st' hst
    injection hst with hst; subst hst
    refine ⟨p3, ?_, ?_⟩
    · refine hnw1.trans he.ord ((NotWorse.of_subset he.ord (fun m hm => ?_)).trans he.ord (sorted_notWorse he.ord s1 s2 hnn3))
      exact q2.subset hm
    · intro hf
      exact kept_finite he.ord s1 s2 q2 (hfin1 hf) (by rw [p3.mses, p1.mses]; exact Nat.le_refl _)

/-- Random outcomes of a generation: a shuffle of the copies, draws from the tables. -/
structure RoundFrom {V S : Type} (env : Env V S) (num numIx : Nat) (g : GenRound) : Prop where
  shuf : g.cross.shuf.Perm (List.range (min numIx num))
  change : ∀ i, (g.change i).From env.ctx

/-- **C22**: over any number of generations, with any random outcomes, the population keeps its configured size, every
stored score is the score of the individual stored next to it (evaluating that individual again gives exactly it), and
for every score the population ever had it still has one that is at least as good. -/
theorem C22_elitist {V S : Type} {env : Env V S} (he : EnvOk env) (num numIx : Nat) (hn : 0 < num) :
    ∀ (gs : List GenRound) (st st' : Pop S), (∀ g ∈ gs, RoundFrom env num numIx g) → PopOk env num st →
      runGens env num numIx gs st = .ok st' → PopOk env num st' ∧ NotWorse env.ord st.mses st'.mses := by
  intro gs
  induction gs with
  | nil =>
    intro st st' _ h hr
    simp [runGens] at hr; subst hr
    exact ⟨h, NotWorse.of_subset he.ord (fun _ h => h)⟩
  | cons g gs ih =>
    intro st st' hg h hr
    have hg1 := hg g (by simp)
    simp only [runGens] at hr
    cases hc : crossOver env num numIx g.cross st with
    | error f => rw [hc] at hr; simp at hr
    | ok st1 =>
      rw [hc] at hr
      simp only at hr
      obtain ⟨p1, n1, _⟩ := (crossOver_spec he num numIx hn g.cross h).1 st1 hc
      cases hch : change env num g.change st1 with
      | error f => rw [hch] at hr; simp at hr
      | ok st2 =>
        rw [hch] at hr
        simp only at hr
        obtain ⟨p2, n2, _⟩ := (change_spec he num hn g.change hg1.change p1).1 st2 hch
        obtain ⟨p3, n3⟩ := ih st2 st' (fun g' hg' => hg g' (by simp [hg'])) p2 hr
        exact ⟨p3, n1.trans he.ord (n2.trans he.ord n3)⟩

/-- **C22**, robustness: starting from scores that are numbers and not infinite (as the constructor ensures when no
score is NaN), no generation raises an exception and all scores stay numbers below infinity. -/
theorem C22_never_raises {V S : Type} {env : Env V S} (he : EnvOk env) (num numIx : Nat) (hn : 0 < num) :
    ∀ (gs : List GenRound) (st : Pop S), (∀ g ∈ gs, RoundFrom env num numIx g) → PopOk env num st →
      Finite env.ord st.mses → runGens env num numIx gs st ≠ .error .raised ∧
      ∀ st', runGens env num numIx gs st = .ok st' → Finite env.ord st'.mses := by
  intro gs
  induction gs with
  | nil =>
    intro st _ h hf
    refine ⟨by simp [runGens], ?_⟩
    intro st' hr
    simp [runGens] at hr; subst hr
    exact hf
  | cons g gs ih =>
    intro st hg h hf
    have hg1 := hg g (by simp)
    simp only [runGens]
    obtain ⟨st1, hc⟩ := (crossOver_spec he num numIx hn g.cross h).2 hf (by
      intro i hi
      have := hg1.shuf.mem_iff.1 hi
      simpa using this)
    obtain ⟨p1, _, f1⟩ := (crossOver_spec he num numIx hn g.cross h).1 st1 hc
    simp only [hc]
    obtain ⟨c1, c2⟩ := change_spec he num hn g.change hg1.change p1
    cases hch : change env num g.change st1 with
    | error f =>
      have := c2 (f1 hf)
      rw [hch] at this
      exact ⟨this, by simp⟩
    | ok st2 =>
      obtain ⟨p2, _, f2⟩ := c1 st2 hch
      exact ih st2 (fun g' hg' => hg g' (by simp [hg'])) p2 (f2 (f1 hf))

theorem newInd_ok {V S : Type} {env : Env V S} {d : NewDraw} (hd : ∀ rd ∈ d, rd.1 ∈ env.ctx.ROOT ∧ ∀ l k, (rd.2 l k).From env.ctx) :
    IndOk env (newInd env d) := by
  refine ⟨by simp [newInd], ?_⟩
  intro t ht
  simp only [newInd, List.mem_map] at ht
  obtain ⟨rd, hrd, rfl⟩ := ht
  exact .gen _ _ (hd rd hrd).1 (hd rd hrd).2

theorem initOne_ok {V S : Type} {env : Env V S} (he : EnvOk env) : ∀ (ds : List NewDraw),
    (∀ d ∈ ds, ∀ rd ∈ d, rd.1 ∈ env.ctx.ROOT ∧ ∀ l k, (rd.2 l k).From env.ctx) →
    initOne env ds ≠ .error .raised ∧
    ∀ p s, initOne env ds = .ok (p, s) → Belongs env p s ∧ env.ord.isInf s = false := by
  intro ds
  induction ds with
  | nil => intro _; simp [initOne]
  | cons d ds ih =>
    intro hd
    obtain ⟨p', s', h1, h2⟩ := evaluate_belongs he (newInd_ok (hd d (by simp)))
    simp only [initOne, h1]
    split
    · exact ih (fun d' hd' => hd d' (by simp [hd']))
    · rename_i hc
      refine ⟨by simp, ?_⟩
      intro p s h
      injection h with h; injection h with ha hb
      subst ha; subst hb
      simp at hc
      exact ⟨h2, hc.2⟩

/-- **C22**, start: the constructor never raises (it may go on drawing), and what it builds is a population of the
configured size, every score next to its individual, sorted, no score infinite. -/
theorem C22_start {V S : Type} {env : Env V S} (he : EnvOk env) (ds : List (List NewDraw))
    (hd : ∀ c ∈ ds, ∀ d ∈ c, ∀ rd ∈ d, rd.1 ∈ env.ctx.ROOT ∧ ∀ l k, (rd.2 l k).From env.ctx) :
    initPop env ds ≠ .error .raised ∧
    ∀ st, initPop env ds = .ok st → PopOk env ds.length st ∧ (∀ m ∈ st.mses, env.ord.isInf m = false) ∧
      st.mses.Pairwise fun a b => env.ord.le a b = true := by
  have main : initAll env ds ≠ .error .raised ∧ ∀ st, initAll env ds = .ok st →
      PopOk env ds.length st ∧ ∀ m ∈ st.mses, env.ord.isInf m = false := by
    induction ds with
    | nil =>
      refine ⟨by simp [initAll], ?_⟩
      intro st h
      simp [initAll] at h; subst h
      exact ⟨⟨rfl, rfl, by simp⟩, by simp⟩
    | cons c ds ih =>
      obtain ⟨a1, a2⟩ := initOne_ok he c (hd c (by simp))
      obtain ⟨b1, b2⟩ := ih (fun c' hc' => hd c' (by simp [hc']))
      simp only [initAll]
      cases ho : initOne env c with
      | error f => rw [ho] at a1; exact ⟨by simpa using a1, by simp⟩
      | ok ps =>
        obtain ⟨p, s⟩ := ps
        obtain ⟨g1, g2⟩ := a2 p s ho
        simp only
        cases hi : initAll env ds with
        | error f => rw [hi] at b1; exact ⟨b1, by simp⟩
        | ok st =>
          obtain ⟨q1, q2⟩ := b2 st hi
          refine ⟨by simp, ?_⟩
          intro st' h
          injection h with h; subst h
          refine ⟨⟨by simp [q1.eqs], by simp [q1.mses], ?_⟩, ?_⟩
          · intro i p' s' hp hs
            cases i with
            | zero => simp at hp hs; subst hp; subst hs; exact g1
            | succ i => simp at hp hs; exact q1.each i p' s' hp hs
          · intro m hm
            simp only [List.mem_cons] at hm
            rcases hm with rfl | hm
            · exact g2
            · exact q2 m hm
  obtain ⟨m1, m2⟩ := main
  simp only [initPop]
  cases hi : initAll env ds with
  | error f => rw [hi] at m1; exact ⟨m1, by simp⟩
  | ok st =>
    obtain ⟨q1, q2⟩ := m2 st hi
    obtain ⟨st', k1, k2, _, rest, k3, k4⟩ := keepBest_ok he q1 (Nat.le_refl _)
    simp only [k1]
    refine ⟨by simp, ?_⟩
    intro st'' h
    injection h with h; subst h
    exact ⟨k2, fun m hm => q2 m (k3.mem_iff.2 (List.mem_append_left _ hm)), (List.pairwise_append.1 k4).1⟩

theorem argminFrom_spec {S : Type} {o : ScoreOrd S} (ho : o.Ok) (all : List S) : ∀ (ms : List S) (best : Nat) (b : S) (i : Nat),
    (∀ m ∈ all, o.nan m = false) → all[best]? = some b → all.drop i = ms → (∀ m ∈ all.take i, o.le b m = true) →
    ∃ s, all[argminFrom o best b i ms]? = some s ∧ ∀ m ∈ all, o.le s m = true := by
  intro ms
  induction ms with
  | nil =>
    intro best b i _ hb hd ht
    refine ⟨b, hb, ?_⟩
    have : all.take i = all := by
      have := List.take_append_drop i all
      rw [hd, List.append_nil] at this
      exact this
    rwa [this] at ht
  | cons m ms ih =>
    intro best b i hn hb hd ht
    have hi : all[i]? = some m := by
      have := congrArg List.head? hd
      simpa using this
    have hd' : all.drop (i + 1) = ms := by
      rw [← List.drop_drop, hd]; rfl
    have ht' : all.take (i + 1) = all.take i ++ [m] := by
      rw [List.take_add_one, hi]; rfl
    have nb := hn b (List.mem_of_getElem? hb)
    have nm := hn m (List.mem_of_getElem? hi)
    simp only [argminFrom, nb, nm]
    by_cases hle : o.le b m = true
    · simp only [hle]
      apply ih best b (i + 1) hn hb hd'
      rw [ht']
      intro x hx
      simp only [List.mem_append, List.mem_cons, List.not_mem_nil, or_false] at hx
      rcases hx with hx | rfl
      · exact ht x hx
      · exact hle
    · have hle' : o.le b m = false := by simpa using hle
      simp only [hle']
      apply ih i m (i + 1) hn hi hd'
      rw [ht']
      have hmb : o.le m b = true := by
        rcases ho.total m b with h | h
        · exact h
        · exact absurd h hle
      intro x hx
      simp only [List.mem_append, List.mem_cons, List.not_mem_nil, or_false] at hx
      rcases hx with hx | rfl
      · exact ho.trans _ _ _ hmb (ht x hx)
      · rcases ho.total x x with h | h <;> exact h

/-- **C22**, result: the reported best individual is one of the population, reported with its own score, and no score
of the population is better (no score being NaN). -/
theorem C22_best {V S : Type} {env : Env V S} (he : EnvOk env) (num : Nat) (hn : 0 < num) {st : Pop S}
    (h : PopOk env num st) (hf : Finite env.ord st.mses) :
    ∃ p s, theBest env.ord st = some (p, s) ∧ p ∈ st.eqs ∧ Belongs env p s ∧ ∀ m ∈ st.mses, env.ord.le s m = true := by
  obtain ⟨eqs, mses, lib⟩ := st
  cases mses with
  | nil => have := h.mses; simp at this; omega
  | cons m ms =>
    obtain ⟨s, h1, h2⟩ := argminFrom_spec he.ord (m :: ms) ms 0 m 1 (fun x hx => (hf x hx).1) rfl rfl (by
      intro x hx
      simp at hx; subst hx
      rcases he.ord.total x x with h | h <;> exact h)
    have hlt : argminFrom env.ord 0 m 1 ms < eqs.length := by
      have := (List.getElem?_eq_some_iff.1 h1).1
      have e1 := h.mses; have e2 := h.eqs
      simp only at e1 e2
      rw [e2, ← e1]; exact this
    have hp := List.getElem?_eq_getElem hlt
    refine ⟨_, s, ?_, List.mem_of_getElem? hp, h.each _ _ s hp h1, h2⟩
    simp only [theBest, hp, h1]

/-! ## A concrete run -/

/-- Scores for the example: integers, `none` is infinity. -/
def exOrd : ScoreOrd (Option Int) where
  le a b := match a, b with
    | _, none => true
    | none, some _ => false
    | some x, some y => decide (x ≤ y)
  nan _ := false
  inf := none
  isInf a := a.isNone
  tooGood a := match a with
    | some x => decide (x < -100)
    | none => false

theorem exOrd_ok : exOrd.Ok := by
  refine ⟨?_, ?_, ?_, ?_, ?_, ?_, ?_⟩
  · intro a b
    cases a <;> cases b <;> simp [exOrd]
    omega
  · intro a b c
    cases a <;> cases b <;> cases c <;> simp [exOrd]
    omega
  · intro a b h; simp [exOrd] at h
  · intro a b h; simp [exOrd] at h
  · intro a _; simp [exOrd]
  · intro a; cases a <;> simp [exOrd]
  · rfl

/-- Insertion of a position by its value. -/
def insertIx {S : Type} (le : S → S → Bool) (l : List S) (i : Nat) : List Nat → List Nat
  | [] => [i]
  | j :: js =>
    match l[i]?, l[j]? with
    | some a, some b => if le a b then i :: j :: js else j :: insertIx le l i js
    | _, _ => i :: j :: js

def argsortI {S : Type} (le : S → S → Bool) (l : List S) : List Nat := (List.range l.length).foldr (insertIx le l) []

theorem insertIx_perm {S : Type} (le : S → S → Bool) (l : List S) (i : Nat) : ∀ js, (insertIx le l i js).Perm (i :: js) := by
  intro js
  induction js with
  | nil => exact .refl _
  | cons j js ih =>
    unfold insertIx
    split
    · split
      · exact .refl _
      · exact (ih.cons j).trans (.swap i j js)
    · exact .refl _

theorem insertIx_sorted {S : Type} {o : ScoreOrd S} (ho : o.Ok) (l : List S) (i : Nat) : ∀ js,
    (∀ j ∈ i :: js, j < l.length) →
    js.Pairwise (fun a b => ∀ x y, l[a]? = some x → l[b]? = some y → o.le x y = true) →
    (insertIx o.le l i js).Pairwise (fun a b => ∀ x y, l[a]? = some x → l[b]? = some y → o.le x y = true) := by
  intro js
  induction js with
  | nil => intro _ _; simp [insertIx]
  | cons j js ih =>
    intro hlt hs
    have hi := List.getElem?_eq_getElem (hlt i (by simp))
    have hj := List.getElem?_eq_getElem (hlt j (by simp))
    generalize l[i]'(hlt i (by simp)) = a at hi
    generalize l[j]'(hlt j (by simp)) = b at hj
    have hp := List.pairwise_cons.1 hs
    simp only [insertIx, hi, hj]
    by_cases hab : o.le a b = true
    · rw [if_pos hab, List.pairwise_cons]
      refine ⟨?_, hs⟩
      intro k hk x y hx hy
      rw [hi] at hx; simp at hx; subst hx
      simp only [List.mem_cons] at hk
      rcases hk with rfl | hk
      · rw [hj] at hy; simp at hy; subst hy; exact hab
      · exact ho.trans _ _ _ hab (hp.1 k hk b y hj hy)
    · rw [if_neg hab, List.pairwise_cons]
      have hba : o.le b a = true := by
        rcases ho.total b a with h | h
        · exact h
        · exact absurd h hab
      refine ⟨?_, ih (fun k hk => hlt k ?_) hp.2⟩
      · intro k hk x y hx hy
        rw [hj] at hx; simp at hx; subst hx
        have := (insertIx_perm o.le l i js).mem_iff.1 hk
        simp only [List.mem_cons] at this
        rcases this with rfl | hk
        · rw [hi] at hy; simp at hy; subst hy; exact hba
        · exact hp.1 k hk _ y hj hy
      · simp only [List.mem_cons] at hk ⊢
        rcases hk with rfl | hk
        · exact Or.inl rfl
        · exact Or.inr (Or.inr hk)

theorem argsortI_ok {S : Type} {o : ScoreOrd S} (ho : o.Ok) : ArgsortOk o (argsortI o.le) := by
  have main : ∀ (l : List S) (idx : List Nat), (∀ i ∈ idx, i < l.length) →
      (idx.foldr (insertIx o.le l) []).Perm idx ∧ (idx.foldr (insertIx o.le l) []).Pairwise
        (fun a b => ∀ x y, l[a]? = some x → l[b]? = some y → o.le x y = true) := by
    intro l idx
    induction idx with
    | nil => intro _; exact ⟨.refl _, .nil⟩
    | cons i idx ih =>
      intro h
      obtain ⟨h1, h2⟩ := ih (fun j hj => h j (by simp [hj]))
      have hp := (insertIx_perm o.le l i (idx.foldr (insertIx o.le l) [])).trans (h1.cons i)
      refine ⟨hp, insertIx_sorted ho l i _ ?_ h2⟩
      intro j hj
      exact h j ((h1.cons i).mem_iff.1 hj)
  refine ⟨fun l => (main l _ (by simp)).1, ?_⟩
  intro l q hq
  obtain ⟨g1, g2⟩ := gather_get hq
  have hs := (main l (List.range l.length) (by simp)).2
  rw [List.pairwise_iff_getElem] at hs ⊢
  intro i j hi hj hij
  have hi' : i < (argsortI o.le l).length := by omega
  have hj' : j < (argsortI o.le l).length := by omega
  have ei := g2 i _ (List.getElem?_eq_getElem hi')
  have ej := g2 j _ (List.getElem?_eq_getElem hj')
  rw [List.getElem?_eq_getElem hi] at ei
  rw [List.getElem?_eq_getElem hj] at ej
  exact hs i j hi' hj' hij _ _ ei.symm ej.symm

def exEnvS : Env Int (Option Int) where
  sem := exSem
  ctx := exCtx
  depth := 4
  ord := exOrd
  finite _ := true
  train cols := some cols.sum
  argsort := argsortI exOrd.le

theorem exEnvS_ok : EnvOk exEnvS := by
  have hb : exProb.build exPays = some exCtx := by simp [exCtx]
  exact ⟨built_tables_ok hb, built_tables_xden hb (by decide), built_den_axes hb exSem rfl, by decide, exOrd_ok,
    argsortI_ok exOrd_ok⟩

/-- Two individuals, the second of which has a rejected term, one generation with crossover, mutation and replacement. -/
def exInit : List (List NewDraw) := [[[(opMul, exDraw)]], [[(opDiv, exDraw2), (opD, exDraw2)]]]
def exRound : GenRound where
  cross := ⟨[1, 0], fun _ => (0, 0)⟩
  change _ := ⟨fun _ => exMut, true, 0, opSq, fun _ _ => ⟨true, ⟨"x", 0, 1⟩, ⟨"u", 0, 0⟩, opD⟩⟩

example : (∀ c ∈ exInit, ∀ d ∈ c, ∀ rd ∈ d, rd.1 ∈ exEnvS.ctx.ROOT ∧ ∀ l k, (rd.2 l k).From exEnvS.ctx) ∧
    RoundFrom exEnvS 2 2 exRound ∧
    (match initPop exEnvS exInit with
      | .ok st => (st.eqs.map visualize, st.mses)
      | .error _ => ([], [])) = (["(v d x)", "(u * ((u d^2 y) d y))"], [some 100, some 1209]) ∧
    (match initPop exEnvS exInit with
      | .ok st => (match runGens exEnvS 2 2 [exRound] st with
        | .ok st => (st.eqs.map visualize, st.mses)
        | .error _ => ([], []))
      | .error _ => ([], [])) = (["( ^2 u)", "(v d x)"], [some 9, some 100]) := by
  have hf : ∀ d k, (exDraw d k).From exCtx := by
    intro d k
    refine ⟨by simp only [exDraw]; decide, by simp only [exDraw]; decide, ?_⟩
    simp only [exDraw]
    split <;> decide
  have hf2 : ∀ d k, (exDraw2 d k).From exCtx := by
    intro d k
    refine ⟨by simp only [exDraw2]; decide, by simp only [exDraw2]; decide, by simp only [exDraw2]; decide⟩
  refine ⟨?_, ⟨by decide, ?_⟩, by decide, by decide⟩
  · intro c hc d hd rd hrd
    simp [exInit] at hc
    rcases hc with rfl | rfl
    · simp at hd; subst hd; simp at hrd; subst hrd
      exact ⟨by decide, hf⟩
    · simp at hd; subst hd; simp at hrd
      rcases hrd with rfl | rfl
      · exact ⟨by decide, hf2⟩
      · exact ⟨by decide, hf2⟩
  · intro i
    refine ⟨?_, by simp only [exRound]; decide, ?_⟩
    · intro i l k
      refine ⟨?_, ?_, ?_⟩ <;> (simp only [exRound, exMut]; decide)
    · intro l k
      refine ⟨?_, ?_, ?_⟩ <;> (simp only [exRound]; decide)

end Verif.Claims
