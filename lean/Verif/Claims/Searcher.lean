import Verif.Discover.Searcher
import Verif.Claims.Memory
/-!
# C17 – the best reward never gets worse
-/
namespace Verif.Discover.Searcher.Claims
open Verif.Memory Verif.Discover.Searcher

/-! ## Specification vocabulary -/

/-- The (reward, identity) pairs of a batch that are numbers. -/
def finitePairs (ss : List Sample) : List (Int × Nat) :=
  ss.filterMap fun s => s.reward.map fun x => (x, s.id)

/-- The rewards an iteration gets to see: those of the batch, and – if there is anything to train on, i.e. if the
aggregator is asked – those of the aggregator's programs. -/
def seenBy (v : Env) (b : Batch) : List (Int × Nat) :=
  finitePairs b.samples ++ if train v b.samples = [] then [] else b.agg

/-- A batch as the shipped PDE tasks produce it: non-empty, invalid programs have a reward that is not positive
(task/pde/pde.py:163-166,304-310: 0), and rewards lie within the clip bound (they are at most 1). -/
structure GoodBatch (M : Int) (b : Batch) : Prop where
  ne : b.samples ≠ []
  inv : ∀ s ∈ b.samples, s.invalid = true → ∃ x, s.reward = some x ∧ x ≤ 0
  bnd : ∀ s ∈ b.samples, ∀ x, s.reward = some x → -M ≤ x ∧ x ≤ M

/-- What an iteration could offer to the memory: every program with its reward, NaN counting as 0. -/
def offeredBy (b : Batch) : List (Int × Nat) := b.samples.map (fun s => (r0 s, s.id)) ++ b.agg

/-! ## Helper lemmas -/

theorem npMax_spec {l : List Int} {m : Int} (h : npMax l = some m) : m ∈ l ∧ ∀ x ∈ l, x ≤ m := by
  cases l with
  | nil => simp [npMax] at h
  | cons a l =>
    simp only [npMax, Option.some.injEq] at h
    have key : ∀ (l : List Int) (a : Int), (l.foldl max a = a ∨ l.foldl max a ∈ l) ∧ a ≤ l.foldl max a ∧
        ∀ x ∈ l, x ≤ l.foldl max a := by
      intro l
      induction l with
      | nil => intro a; simp
      | cons b l ih =>
        intro a
        obtain ⟨h1, h2, h3⟩ := ih (max a b)
        simp only [List.foldl_cons]
        refine ⟨?_, by omega, ?_⟩
        · rcases h1 with h1 | h1
          · rcases Int.le_total a b with hab | hab
            · right; rw [h1]; simp [Int.max_eq_right hab]
            · left; rw [h1]; exact Int.max_eq_left hab
          · right; simp [h1]
        · intro x hx
          rcases List.mem_cons.1 hx with rfl | hx
          · omega
          · exact h3 x hx
    obtain ⟨h1, h2, h3⟩ := key l a
    subst h
    refine ⟨?_, ?_⟩
    · rcases h1 with h1 | h1
      · rw [h1]; simp
      · simp [h1]
    · intro x hx
      rcases List.mem_cons.1 hx with rfl | hx
      · exact h2
      · exact h3 x hx

theorem npMax_ne_none {l : List Int} (h : l ≠ []) : ∃ m, npMax l = some m := by
  cases l with
  | nil => exact absurd rfl h
  | cons a l => exact ⟨_, rfl⟩

theorem firstBest_spec : ∀ ss : List Sample,
    (firstBest ss = none → finitePairs ss = []) ∧
    ∀ m i, firstBest ss = some (m, i) → (m, i) ∈ finitePairs ss ∧ ∀ q ∈ finitePairs ss, q.1 ≤ m := by
  intro ss
  induction ss with
  | nil => simp [firstBest, finitePairs]
  | cons s ss ih =>
    obtain ⟨ih1, ih2⟩ := ih
    have hfp : finitePairs (s :: ss) = (match s.reward with | none => [] | some x => [(x, s.id)]) ++ finitePairs ss := by
      unfold finitePairs
      cases h : s.reward <;> simp [h]
    rw [hfp]
    cases hr : s.reward with
    | none => simp only [firstBest, hr, List.nil_append]; exact ⟨ih1, ih2⟩
    | some x =>
      cases hf : firstBest ss with
      | none =>
        simp only [firstBest, hr, hf, ih1 hf]
        refine ⟨by simp, ?_⟩
        intro m i h
        simp at h
        obtain ⟨rfl, rfl⟩ := h
        simp
      | some yi =>
        obtain ⟨y, j⟩ := yi
        obtain ⟨h1, h2⟩ := ih2 y j hf
        simp only [firstBest, hr, hf]
        refine ⟨by split <;> simp, ?_⟩
        intro m i h
        split at h
        · simp at h
          obtain ⟨rfl, rfl⟩ := h
          refine ⟨by simp [h1], ?_⟩
          intro q hq
          simp only [List.cons_append, List.nil_append, List.mem_cons] at hq
          rcases hq with rfl | hq
          · simp; omega
          · exact h2 q hq
        · simp at h
          obtain ⟨rfl, rfl⟩ := h
          refine ⟨by simp, ?_⟩
          intro q hq
          simp only [List.cons_append, List.nil_append, List.mem_cons] at hq
          rcases hq with rfl | hq
          · simp
          · have := h2 q hq; omega

theorem exists_max (ss : List Sample) (h : ss ≠ []) : ∃ s ∈ ss, ∀ t ∈ ss, r0 t ≤ r0 s := by
  obtain ⟨m, hm⟩ := npMax_ne_none (l := ss.map r0) (by simpa using h)
  obtain ⟨h1, h2⟩ := npMax_spec hm
  obtain ⟨s, hs, rfl⟩ := List.mem_map.1 h1
  exact ⟨s, hs, fun t ht => h2 _ (List.mem_map_of_mem ht)⟩

theorem insertI_perm (x : Int) : ∀ l, (insertI x l).Perm (x :: l) := by
  intro l
  induction l with
  | nil => exact List.Perm.refl _
  | cons y l ih =>
    unfold insertI
    split
    · exact List.Perm.refl _
    · exact (List.Perm.cons y ih).trans (List.Perm.swap x y l)

theorem sortI_perm : ∀ l, (sortI l).Perm l := by
  intro l
  induction l with
  | nil => exact List.Perm.refl _
  | cons x l ih => exact (insertI_perm x _).trans (List.Perm.cons x ih)

theorem quantile_mem (v : Env) (hv : v.Ok) (ss : List Sample) (h : ss ≠ []) : ∃ s ∈ ss, quantile v ss = r0 s := by
  have hl : 0 < ss.length := List.length_pos_iff.2 h
  have hq := hv.qpos_lt _ hl
  unfold quantile
  have hp := sortI_perm (ss.map r0)
  have hlen : (sortI (ss.map r0)).length = ss.length := by rw [hp.length_eq]; simp
  rw [List.getD_eq_getElem?_getD, List.getElem?_eq_getElem (by omega)]
  simp only [Option.getD_some]
  have := List.getElem_mem (l := sortI (ss.map r0)) (n := v.qpos ss.length) (by omega)
  rw [hp.mem_iff] at this
  obtain ⟨s, hs, he⟩ := List.mem_map.1 this
  exact ⟨s, hs, he.symm⟩

theorem mem_train {v : Env} {ss : List Sample} {s : Sample} :
    s ∈ train v ss ↔ s ∈ ss ∧ quantile v ss ≤ r0 s ∧ s.invalid = false := by
  simp [train]; intro _; exact And.comm

/-- A largest reward is always kept by the quantile filter. -/
theorem max_kept (v : Env) (hv : v.Ok) {ss : List Sample} {s : Sample} (hs : s ∈ ss) (hmax : ∀ t ∈ ss, r0 t ≤ r0 s)
    (hi : s.invalid = false) : s ∈ train v ss := by
  obtain ⟨t, ht, he⟩ := quantile_mem v hv ss (List.ne_nil_of_mem hs)
  exact mem_train.2 ⟨hs, by rw [he]; exact hmax t ht, hi⟩

theorem r0_some {s : Sample} {x : Int} (h : s.reward = some x) : r0 s = x := by simp [r0, h]

theorem clip_id {M x : Int} (h : -M ≤ x ∧ x ≤ M) : clip M x = x := by unfold clip; omega

theorem mem_finitePairs {ss : List Sample} {q : Int × Nat} :
    q ∈ finitePairs ss ↔ ∃ s ∈ ss, s.reward = some q.1 ∧ s.id = q.2 := by
  unfold finitePairs
  rw [List.mem_filterMap]
  constructor
  · rintro ⟨s, hs, h⟩
    cases hr : s.reward with
    | none => simp [hr] at h
    | some x => simp [hr] at h; exact ⟨s, hs, by rw [hr, ← h], by rw [← h]⟩
  · rintro ⟨s, hs, h1, h2⟩
    exact ⟨s, hs, by simp [h1, h2]⟩

theorem empty_nonpos (v : Env) (hv : v.Ok) {M : Int} {b : Batch} (hb : GoodBatch M b) (h : train v b.samples = []) :
    ∀ q ∈ finitePairs b.samples, q.1 ≤ 0 := by
  obtain ⟨s, hs, hmax⟩ := exists_max b.samples hb.ne
  have hi : s.invalid = true := by
    cases hi : s.invalid
    · have := max_kept v hv hs hmax hi
      rw [h] at this; simp at this
    · rfl
  obtain ⟨x, hx, hx0⟩ := hb.inv s hs hi
  have h0 := r0_some hx
  intro q hq
  obtain ⟨t, ht, h1, h2⟩ := mem_finitePairs.1 hq
  have := hmax t ht
  rw [r0_some h1, h0] at this
  omega

/-- State invariant: `seen` all (reward, identity) pairs so far, `pushes` all items offered to the memory. -/
structure SInv (v : Env) (s : St) (seen off : List (Int × Nat)) (pushes : List Entry) : Prop where
  none' : s.rBest = none → seen = [] ∧ s.bestP = none ∧ s.prev = none
  some' : ∀ m, s.rBest = some m → (∀ q ∈ seen, q.1 ≤ m) ∧ ∃ i, s.bestP = some (m, i) ∧ (m, i) ∈ seen
  prevS : ∀ y, s.prev = some y → s.rBest = some y ∧ 0 < y ∧ ∃ e ∈ pushes, e.score = y
  prevN : s.prev = none → pushes = [] ∧ ∀ m, s.rBest = some m → m ≤ 0
  pq : pqPushes v.cap {} pushes = some s.pq
  sub : ∀ e ∈ pushes, e.score ≤ 0 ∨ (e.score, e.id) ∈ seen
  offd : ∀ e ∈ pushes, (e.score, e.id) ∈ off

theorem stepEmpty_inv (v : Env) (hv : v.Ok) {M : Int} {b : Batch} (hb : GoodBatch M b) (h : train v b.samples = [])
    {s : St} {seen off : List (Int × Nat)} {pushes : List Entry} (hi : SInv v s seen off pushes) :
    SInv v (stepEmpty b s) (seen ++ finitePairs b.samples) (off ++ offeredBy b) pushes := by
  obtain ⟨f1, f2⟩ := firstBest_spec b.samples
  have hn := empty_nonpos v hv hb h
  unfold stepEmpty
  cases hf : firstBest b.samples with
  | none =>
    rw [f1 hf]
    refine ⟨by simpa using hi.none', by simpa using hi.some', hi.prevS, hi.prevN, hi.pq, by simpa using hi.sub, ?_⟩
    intro e he; simp [hi.offd e he]
  | some xi =>
    obtain ⟨x, i⟩ := xi
    obtain ⟨g1, g2⟩ := f2 x i hf
    have hx0 := hn _ g1
    simp only at hx0
    simp only
    cases hr : s.rBest with
    | none =>
      obtain ⟨e1, e2, e3⟩ := hi.none' hr
      simp only [e2, true_or, if_true]
      constructor
      · simp
      · intro m hm
        simp at hm; subst hm
        rw [e1]
        simp only [List.nil_append]
        exact ⟨g2, i, rfl, g1⟩
      · intro y hy; simp only [e3] at hy; cases hy
      · intro _
        refine ⟨(hi.prevN e3).1, ?_⟩
        intro m hm; simp at hm; omega
      · exact hi.pq
      · intro e he
        left
        rcases hi.sub e he with h | h
        · exact h
        · rw [e1] at h; simp at h
      · intro e he; simp [hi.offd e he]
    | some y =>
      obtain ⟨a1, j, a2, a3⟩ := hi.some' y hr
      simp only [a2]
      by_cases hxy : x > y
      · simp only [reduceCtorEq, false_or, hxy, decide_true, if_true]
        constructor
        · simp
        · intro m hm
          simp at hm; subst hm
          refine ⟨?_, i, rfl, by simp [g1]⟩
          intro q hq
          rcases List.mem_append.1 hq with hq | hq
          · have := a1 q hq; omega
          · exact g2 q hq
        · intro z hz
          have := hi.prevS z hz
          rw [hr] at this
          simp at this; omega
        · intro hp
          refine ⟨(hi.prevN hp).1, ?_⟩
          intro m hm; simp at hm; omega
        · exact hi.pq
        · intro e he; exact (hi.sub e he).imp id fun h => by simp [h]
        · intro e he; simp [hi.offd e he]
      · simp only [reduceCtorEq, false_or, hxy, decide_false, Bool.false_eq_true, if_false]
        constructor
        · intro h; rw [hr] at h; cases h
        · intro m hm
          rw [hr] at hm; simp at hm; subst hm
          refine ⟨?_, j, a2, by simp [a3]⟩
          intro q hq
          rcases List.mem_append.1 hq with hq | hq
          · exact a1 q hq
          · have := g2 q hq; omega
        · exact hi.prevS
        · exact hi.prevN
        · exact hi.pq
        · intro e he; exact (hi.sub e he).imp id fun h => by simp [h]
        · intro e he; simp [hi.offd e he]

theorem stepNormal_inv (v : Env) (hv : v.Ok) {b : Batch} (hb : GoodBatch v.bound b) (_h : train v b.samples ≠ [])
    {s s' : St} {seen off : List (Int × Nat)} {pushes : List Entry} (hi : SInv v s seen off pushes)
    (hs : stepNormal v b s = some s') :
    ∃ new : List Entry, SInv v s' (seen ++ finitePairs b.samples ++ b.agg) (off ++ offeredBy b) (pushes ++ new) ∧ s'.prev.isSome := by
  unfold stepNormal at hs
  simp only [Option.bind_eq_bind, Option.bind_eq_some_iff] at hs
  obtain ⟨rMax1, h1, rMax, h2, cur, h3, pq, h4, h5⟩ := hs
  simp only [Option.some.injEq] at h5
  -- the programs and their rewards
  generalize hps : (train v b.samples).map (fun x => (clip v.bound (r0 x), x.id)) ++ b.agg = ps at *
  obtain ⟨m1, m2⟩ := npMax_spec h1
  -- the best sample
  obtain ⟨c, hc, hce⟩ := List.mem_map.1 m1
  obtain ⟨best, hbest, rfl⟩ := List.mem_map.1 hc
  have hbest' : best ∈ b.samples ∧ best.invalid = false ∧ r0 best > 0 := by
    simpa [and_assoc] using hbest
  obtain ⟨hbm, hbi, hbpos⟩ := hbest'
  have hclip : ∀ t ∈ b.samples, clip v.bound (r0 t) = r0 t := by
    intro t ht
    cases hr : t.reward with
    | none =>
      have h0 : r0 t = 0 := by simp [r0, hr]
      rw [h0]
      cases hrb : best.reward with
      | none => simp [r0, hrb] at hbpos
      | some z =>
        have := hb.bnd best hbm z hrb
        apply clip_id
        have := r0_some hrb
        omega
    | some x => rw [r0_some hr]; exact clip_id (hb.bnd t ht x hr)
  rw [hclip best hbm] at hce
  have hmaxAll : ∀ t ∈ b.samples, r0 t ≤ rMax1 := by
    intro t ht
    by_cases htp : r0 t > 0
    · cases hti : t.invalid with
      | true => obtain ⟨x, hx, hx0⟩ := hb.inv t ht hti; have := r0_some hx; omega
      | false =>
        have : r0 t ∈ (fullValid b.samples).map (clip v.bound) := by
          rw [← hclip t ht]
          exact List.mem_map_of_mem (List.mem_map_of_mem (by simp [ht, hti, htp]))
        exact m2 _ this
    · omega
  have hbtrain : best ∈ train v b.samples := max_kept v hv hbm (by rw [hce]; exact hmaxAll) hbi
  have hbps : (rMax1, best.id) ∈ ps := by
    rw [← hps, List.mem_append]
    left
    exact List.mem_map.2 ⟨best, hbtrain, by rw [hclip best hbm, hce]⟩
  have hrMax : rMax ∈ ps.map (·.1) ∧ ∀ x ∈ ps.map (·.1), x ≤ rMax := by
    unfold rMaxAll at h2
    split at h2
    · rename_i hagg
      simp at h2; subst h2
      refine ⟨List.mem_map.2 ⟨_, hbps, rfl⟩, ?_⟩
      intro x hx
      obtain ⟨q, hq, rfl⟩ := List.mem_map.1 hx
      rw [← hps, hagg, List.append_nil] at hq
      obtain ⟨t, ht, rfl⟩ := List.mem_map.1 hq
      have htm := (mem_train.1 ht).1
      simp only
      rw [hclip t htm]; exact hmaxAll t htm
    · exact npMax_spec h2
  have hge : rMax1 ≤ rMax := hrMax.2 _ (List.mem_map.2 ⟨_, hbps, rfl⟩)
  -- everything new is at most rMax
  have hnewle : ∀ q ∈ finitePairs b.samples ++ b.agg, q.1 ≤ rMax := by
    intro q hq
    rcases List.mem_append.1 hq with hq | hq
    · obtain ⟨t, ht, e1, e2⟩ := mem_finitePairs.1 hq
      have := hmaxAll t ht
      rw [r0_some e1] at this; omega
    · apply hrMax.2
      exact List.mem_map.2 ⟨q, by rw [← hps]; simp [hq], rfl⟩
  have hrpos : 0 < rMax := by omega
  -- programs with number rewards are seen
  have hpsseen : ∀ q ∈ ps, 0 < q.1 → q ∈ finitePairs b.samples ++ b.agg := by
    intro q hq hpos
    rw [← hps] at hq
    rcases List.mem_append.1 hq with hq | hq
    · obtain ⟨t, ht, rfl⟩ := List.mem_map.1 hq
      have htm := (mem_train.1 ht).1
      rw [List.mem_append]; left
      rw [mem_finitePairs]
      refine ⟨t, htm, ?_, rfl⟩
      simp only [hclip t htm] at hpos ⊢
      cases hr : t.reward with
      | none => simp [r0, hr] at hpos
      | some x => rw [r0_some hr]
    · simp [hq]
  -- the picked program attains rMax
  have hcur : cur.1 = rMax ∧ cur ∈ ps := by
    have hne : ps.map (·.1) ≠ [] := List.ne_nil_of_mem hrMax.1
    obtain ⟨m, hm1, hm2⟩ := hv.pick_max _ hne
    rw [List.getElem?_map, h3] at hm1
    simp at hm1
    have hcm := List.mem_of_getElem? h3
    have a1 := hm2 _ hrMax.1
    have a2 := hrMax.2 cur.1 (List.mem_map.2 ⟨cur, hcm, rfl⟩)
    exact ⟨by omega, hcm⟩
  have hcurseen := hpsseen cur hcur.2 (by rw [hcur.1]; exact hrpos)
  have hrb : (if b.agg = [] then maxBest rMax1 s.rBest else maxBest rMax (some (maxBest rMax1 s.rBest))) =
      maxBest rMax s.rBest := by
    split
    · rename_i hagg
      unfold rMaxAll at h2
      rw [if_pos hagg] at h2
      simp at h2; rw [h2]
    · cases s.rBest <;> simp only [maxBest] <;> omega
  rw [hrb] at h5
  -- the new items of the memory
  refine ⟨ps.map fun p => ⟨p.1, p.2, 0, 0⟩, ?_, by rw [← h5]; simp⟩
  have hsub : ∀ e ∈ pushes ++ ps.map (fun p => (⟨p.1, p.2, 0, 0⟩ : Entry)),
      e.score ≤ 0 ∨ (e.score, e.id) ∈ seen ++ finitePairs b.samples ++ b.agg := by
    intro e he
    rcases List.mem_append.1 he with he | he
    · exact (hi.sub e he).imp id fun h => by simp [h]
    · obtain ⟨q, hq, rfl⟩ := List.mem_map.1 he
      simp only
      rcases Int.lt_or_le 0 q.1 with hp | hp
      · right
        have := hpsseen q hq hp
        simp only [List.append_assoc, List.mem_append] at this ⊢
        exact Or.inr this
      · exact Or.inl hp
  have hoff : ∀ e ∈ pushes ++ ps.map (fun p => (⟨p.1, p.2, 0, 0⟩ : Entry)), (e.score, e.id) ∈ off ++ offeredBy b := by
    intro e he
    rcases List.mem_append.1 he with he | he
    · simp [hi.offd e he]
    · obtain ⟨q, hq, rfl⟩ := List.mem_map.1 he
      rw [← hps] at hq
      apply List.mem_append.2; right
      unfold offeredBy
      rcases List.mem_append.1 hq with hq | hq
      · obtain ⟨t, ht, rfl⟩ := List.mem_map.1 hq
        have htm := (mem_train.1 ht).1
        simp only [hclip t htm]
        exact List.mem_append.2 (Or.inl (List.mem_map.2 ⟨t, htm, rfl⟩))
      · exact List.mem_append.2 (Or.inr hq)
  have hmem : ∃ e ∈ pushes ++ ps.map (fun p => (⟨p.1, p.2, 0, 0⟩ : Entry)), e.score = rMax :=
    ⟨⟨cur.1, cur.2, 0, 0⟩, List.mem_append.2 (Or.inr (List.mem_map.2 ⟨cur, hcur.2, rfl⟩)), hcur.1⟩
  have hpq : pqPushes v.cap {} (pushes ++ ps.map fun p => ⟨p.1, p.2, 0, 0⟩) = some pq := by
    unfold pqPushes
    rw [List.foldlM_append]
    have := hi.pq
    unfold pqPushes at this
    rw [this]
    exact h4
  have hcurE : cur = (rMax, cur.2) := by rw [← hcur.1]
  have hcs : (rMax, cur.2) ∈ seen ++ finitePairs b.samples ++ b.agg := by
    rw [← hcurE, List.append_assoc]
    exact List.mem_append.2 (Or.inr hcurseen)
  cases hp : s.prev with
  | none =>
    rw [hp] at h5
    simp only [if_true] at h5
    have hold := (hi.prevN hp).2
    have hmb : maxBest rMax s.rBest = rMax := by
      cases hr : s.rBest with
      | none => rfl
      | some y => have := hold y hr; simp only [maxBest]; omega
    rw [hmb] at h5
    subst h5
    constructor
    · simp
    · intro m hm
      simp at hm; subst hm
      refine ⟨?_, cur.2, by simp only; rw [← hcurE], hcs⟩
      intro q hq
      rw [List.append_assoc] at hq
      rcases List.mem_append.1 hq with hq | hq
      · cases hr : s.rBest with
        | none => rw [(hi.none' hr).1] at hq; simp at hq
        | some y =>
          have := (hi.some' y hr).1 q hq
          have := hold y hr
          omega
      · exact hnewle q hq
    · intro y hy
      simp at hy; subst hy
      exact ⟨rfl, hrpos, hmem⟩
    · simp
    · exact hpq
    · exact hsub
    · exact hoff
  | some y =>
    obtain ⟨a1, a2, e, a3, a4⟩ := hi.prevS y hp
    obtain ⟨b1, i, b2, b3⟩ := hi.some' y a1
    rw [hp, a1] at h5
    simp only [maxBest] at h5
    by_cases hgt : rMax > y
    · have hmb : max rMax y = rMax := by omega
      simp only [hmb, hgt, decide_true, if_true] at h5
      subst h5
      constructor
      · simp
      · intro m hm
        simp at hm; subst hm
        refine ⟨?_, cur.2, by simp only; rw [← hcurE], hcs⟩
        intro q hq
        rw [List.append_assoc] at hq
        rcases List.mem_append.1 hq with hq | hq
        · have := b1 q hq; omega
        · exact hnewle q hq
      · intro z hz
        simp at hz; subst hz
        exact ⟨rfl, hrpos, hmem⟩
      · simp
      · exact hpq
      · exact hsub
      · exact hoff
    · have hmb : max rMax y = y := by omega
      simp only [hmb, hgt, decide_false, Bool.false_eq_true, if_false] at h5
      subst h5
      constructor
      · simp
      · intro m hm
        simp at hm; subst hm
        refine ⟨?_, i, b2, by simp [b3]⟩
        intro q hq
        rw [List.append_assoc] at hq
        rcases List.mem_append.1 hq with hq | hq
        · exact b1 q hq
        · have := hnewle q hq; omega
      · intro z hz
        simp at hz; subst hz
        exact ⟨rfl, a2, e, by simp [a3], a4⟩
      · simp
      · exact hpq
      · exact hsub
      · exact hoff

theorem step_inv (v : Env) (hv : v.Ok) {b : Batch} (hb : GoodBatch v.bound b)
    {s s' : St} {seen off : List (Int × Nat)} {pushes : List Entry} (hi : SInv v s seen off pushes)
    (hs : step v s b = some s') : ∃ new, SInv v s' (seen ++ seenBy v b) (off ++ offeredBy b) (pushes ++ new) := by
  unfold step at hs
  unfold seenBy
  by_cases h : train v b.samples = []
  · rw [if_pos h] at hs
    simp at hs; subst hs
    exact ⟨[], by simpa [h] using stepEmpty_inv v hv hb h hi⟩
  · rw [if_neg h] at hs
    obtain ⟨new, h1, _⟩ := stepNormal_inv v hv hb h hi hs
    exact ⟨new, by simpa [h] using h1⟩

theorem run_inv (v : Env) (hv : v.Ok) : ∀ (bs : List Batch) (s s' : St) (seen off : List (Int × Nat)) (pushes : List Entry),
    (∀ b ∈ bs, GoodBatch v.bound b) → SInv v s seen off pushes → run v s bs = some s' →
    ∃ new, SInv v s' (seen ++ bs.flatMap (seenBy v)) (off ++ bs.flatMap offeredBy) (pushes ++ new) := by
  intro bs
  induction bs with
  | nil =>
    intro s s' seen off pushes _ hi h
    simp [run] at h; subst h
    exact ⟨[], by simpa using hi⟩
  | cons b bs ih =>
    intro s s' seen off pushes hg hi h
    simp only [run, List.foldlM_cons, Option.bind_eq_bind, Option.bind_eq_some_iff] at h
    obtain ⟨s1, h1, h2⟩ := h
    obtain ⟨n1, i1⟩ := step_inv v hv (hg b (by simp)) hi h1
    obtain ⟨n2, i2⟩ := ih s1 s' _ _ _ (fun x hx => hg x (by simp [hx])) i1 h2
    exact ⟨n1 ++ n2, by simpa [List.append_assoc] using i2⟩

theorem inv_init (v : Env) : SInv v {} [] [] [] :=
  ⟨by simp, by simp, by simp, by simp, rfl, by simp, by simp⟩

/-! ## The claims -/

/-- **C17.** After every sequence of iterations (none of which raised): the reported best reward is the largest of all
number rewards seen so far – `-inf` exactly when there was none – and the reported best program is one of the programs
seen and attains it. -/
theorem C17_best_is_max (v : Env) (hv : v.Ok) (bs : List Batch) (hg : ∀ b ∈ bs, GoodBatch v.bound b) (s : St)
    (h : run v {} bs = some s) :
    (s.rBest = none ↔ bs.flatMap (seenBy v) = []) ∧ (s.bestP = none ↔ s.rBest = none) ∧
    ∀ m, s.rBest = some m →
      (∀ q ∈ bs.flatMap (seenBy v), q.1 ≤ m) ∧ ∃ i, s.bestP = some (m, i) ∧ (m, i) ∈ bs.flatMap (seenBy v) := by
  obtain ⟨new, hi⟩ := run_inv v hv bs {} s [] [] [] hg (inv_init v) h
  simp only [List.nil_append] at hi
  refine ⟨⟨fun hn => (hi.none' hn).1, ?_⟩, ⟨?_, fun hn => (hi.none' hn).2.1⟩, hi.some'⟩
  · intro he
    cases hr : s.rBest with
    | none => rfl
    | some m => obtain ⟨_, i, _, h3⟩ := hi.some' m hr; rw [he] at h3; simp at h3
  · intro hb
    cases hr : s.rBest with
    | none => rfl
    | some m => obtain ⟨_, i, h2, h3⟩ := hi.some' m hr; rw [hb] at h2; cases h2

/-- **C17 (monotone).** Continuing a search never lowers the reported best reward. -/
theorem C17_monotone (v : Env) (hv : v.Ok) (bs cs : List Batch) (hg : ∀ b ∈ bs ++ cs, GoodBatch v.bound b) (s s' : St)
    (h : run v {} bs = some s) (h' : run v {} (bs ++ cs) = some s') (m : Int) (hm : s.rBest = some m) :
    ∃ m', s'.rBest = some m' ∧ m ≤ m' := by
  obtain ⟨a1, a2, a3⟩ := C17_best_is_max v hv bs (fun b hb => hg b (by simp [hb])) s h
  obtain ⟨b1, b2, b3⟩ := C17_best_is_max v hv (bs ++ cs) hg s' h'
  obtain ⟨_, i, _, hmem⟩ := a3 m hm
  have hmem' : (m, i) ∈ (bs ++ cs).flatMap (seenBy v) := by
    rw [List.flatMap_append]; exact List.mem_append.2 (Or.inl hmem)
  cases hr : s'.rBest with
  | none => rw [b1.1 hr] at hmem'; simp at hmem'
  | some m' => exact ⟨m', rfl, (b3 m' hr).1 _ hmem'⟩

/-- **C17 (`best_expression`).** The expression read from the priority memory has the reported best reward, once an
iteration had something to train on – if a program always gets the same reward and the memory has room for a program. -/
theorem C17_best_expression (v : Env) (hv : v.Ok) (hcap : v.cap ≠ some 0) (bs : List Batch)
    (hg : ∀ b ∈ bs, GoodBatch v.bound b) (s : St) (h : run v {} bs = some s) (hp : s.prev ≠ none)
    (hsame : ∀ p ∈ bs.flatMap offeredBy, ∀ q ∈ bs.flatMap offeredBy, p.2 = q.2 → p.1 = q.1) :
    ∃ e, pqMax s.pq = some e ∧ s.rBest = some e.score ∧ (e.score, e.id) ∈ bs.flatMap (seenBy v) := by
  obtain ⟨new, hi⟩ := run_inv v hv bs {} s [] [] [] hg (inv_init v) h
  simp only [List.nil_append] at hi
  cases hp' : s.prev with
  | none => exact absurd hp' hp
  | some y =>
    obtain ⟨a1, a2, e0, a3, a4⟩ := hi.prevS y hp'
    have hs : ∀ a ∈ new, ∀ b ∈ new, a.id = b.id → a.score = b.score := fun a ha b hb hab =>
      hsame _ (hi.offd a ha) _ (hi.offd b hb) hab
    obtain ⟨_, ⟨m, c1, c2, c3, c4⟩, _⟩ :=
      Verif.Memory.Claims.C14_reading_partial v.cap hcap new (List.ne_nil_of_mem a3) hs s.pq hi.pq
    have d1 := c4 e0 a3
    have d2 : (m.score, m.id) ∈ bs.flatMap (seenBy v) := by
      rcases hi.sub m c3 with h | h
      · omega
      · exact h
    have d3 := (hi.some' y a1).1 _ d2
    simp only at d3
    refine ⟨m, c1, ?_, d2⟩
    rw [a1]; congr 1; omega

theorem pqPushes_ok (cap : Option Nat) (es : List Entry) : ∃ s, pqPushes cap {} es = some s := by
  obtain ⟨s, hs, _⟩ := Verif.Memory.Claims.C14_bookkeeping 0 cap (es.map .push)
  refine ⟨s, ?_⟩
  rw [← hs]
  unfold pqPushes pqRun
  rw [List.foldlM_map]
  rfl

/-- **C17 (when an iteration fails).** In every reachable state an iteration raises exactly when some valid program
passes the quantile filter but no valid program of the batch has a positive reward (then `np.max` of an empty array
is taken, searcher.py:166). -/
theorem C17_raises_iff (v : Env) (hv : v.Ok) (bs : List Batch) (hg : ∀ b ∈ bs, GoodBatch v.bound b) (s : St)
    (h : run v {} bs = some s) (b : Batch) :
    step v s b = none ↔ train v b.samples ≠ [] ∧ ∀ t ∈ b.samples, t.invalid = false → r0 t ≤ 0 := by
  obtain ⟨new, hi⟩ := run_inv v hv bs {} s [] [] [] hg (inv_init v) h
  simp only [List.nil_append] at hi
  have hfv : fullValid b.samples = [] ↔ ∀ t ∈ b.samples, t.invalid = false → r0 t ≤ 0 := by
    simp only [fullValid, List.map_eq_nil_iff, List.filter_eq_nil_iff]
    constructor
    · intro h t ht hti
      have := h t ht
      simp [hti] at this; exact this
    · intro h t ht hc
      simp at hc
      have := h t ht hc.1
      omega
  rw [← hfv]
  unfold step
  by_cases ht : train v b.samples = []
  · simp [ht]
  · rw [if_neg ht]
    simp only [ne_eq, ht, not_false_eq_true, true_and]
    constructor
    · intro hn
      cases hf : fullValid b.samples with
      | nil => rfl
      | cons x xs =>
        exfalso
        unfold stepNormal at hn
        simp only [hf, List.map_cons, npMax, Option.bind_eq_bind, Option.bind_some] at hn
        generalize hps : (train v b.samples).map (fun x => (clip v.bound (r0 x), x.id)) ++ b.agg = ps at *
        have hne : ps.map (·.1) ≠ [] := by
          rw [← hps]; simp [ht]
        obtain ⟨m, hm, _⟩ := hv.pick_max _ hne
        rw [List.getElem?_map] at hm
        cases hcur : ps[v.pick (ps.map (·.1))]? with
        | none => rw [hcur] at hm; simp at hm
        | some cur =>
          obtain ⟨q, hq⟩ := pqPushes_ok v.cap (new ++ ps.map fun p => ⟨p.1, p.2, 0, 0⟩)
          have hq' : pqPushes v.cap s.pq (ps.map fun p => ⟨p.1, p.2, 0, 0⟩) = some q := by
            have e := hi.pq
            unfold pqPushes at hq e ⊢
            rw [List.foldlM_append, e] at hq
            exact hq
          rw [hq', hcur] at hn
          unfold rMaxAll at hn
          by_cases hagg : b.agg = []
          · simp [hagg] at hn
          · obtain ⟨mm, hmm⟩ := npMax_ne_none hne
            simp [hagg, hmm] at hn
    · intro hf
      unfold stepNormal
      simp [hf, npMax]

/-! ## The hypotheses are met -/

/-- numpy's choices, concretely: the smallest reward as quantile, the first largest reward as pick. -/
def exEnv : Env where
  qpos := fun _ => 0
  pick := fun l => l.findIdx fun x => l.all fun y => decide (y ≤ x)
  cap := some 3
  bound := 1000

theorem exEnv_ok : exEnv.Ok := by
  constructor
  · intro n hn; exact hn
  · intro l hl
    obtain ⟨m, hm⟩ := npMax_ne_none hl
    obtain ⟨h1, h2⟩ := npMax_spec hm
    have hlt : l.findIdx (fun x => l.all fun y => decide (y ≤ x)) < l.length := by
      apply List.findIdx_lt_length_of_exists
      exact ⟨m, h1, by simpa using h2⟩
    refine ⟨l[l.findIdx fun x => l.all fun y => decide (y ≤ x)], List.getElem?_eq_getElem hlt, ?_⟩
    have := List.findIdx_getElem (w := hlt)
    simpa using this

/-- Three iterations: nothing valid, then two normal ones, the second of which brings only worse programs, an
aggregator program and a NaN. -/
def exBatches : List Batch :=
  [⟨[⟨some 0, true, 1⟩, ⟨some 0, true, 2⟩], []⟩,
   ⟨[⟨some 7, false, 3⟩, ⟨some 0, true, 1⟩], [(9, 4)]⟩,
   ⟨[⟨some 5, false, 5⟩, ⟨none, false, 6⟩], []⟩]

example : ∀ b ∈ exBatches, GoodBatch exEnv.bound b := by
  intro b hb
  simp [exBatches] at hb
  rcases hb with rfl | rfl | rfl <;> constructor <;> simp [exEnv]

example : ∃ s, run exEnv {} exBatches = some s ∧ s.rBest = some 9 ∧ s.bestP = some (9, 4) ∧ s.prev = some 9 :=
  ⟨⟨some 9, some 9, some (9, 4), ⟨[⟨5, 5, 0, 0⟩, ⟨9, 4, 0, 0⟩, ⟨7, 3, 0, 0⟩], [5, 4, 3]⟩⟩,
    by decide +kernel, rfl, rfl, rfl⟩

/-- **C17** (nothing to train on): if the first iteration has nothing to train on, the reported program is the first of the batch with the largest
finite reward, and that reward is the reported best. -/
theorem C17_first_best (v : Env) (b : Batch) (htr : train v b.samples = []) (s : St) (h : step v {} b = some s) (m : Int) (i : Nat)
    (hb : s.bestP = some (m, i)) : s.rBest = some m ∧
    ∃ pre x post, b.samples = pre ++ x :: post ∧ x.reward = some m ∧ x.id = i ∧
      (∀ y ∈ pre, ∀ r, y.reward = some r → r < m) ∧ ∀ y ∈ post, ∀ r, y.reward = some r → r ≤ m := by
  have key : ∀ (ss : List Sample) (m : Int) (i : Nat), firstBest ss = some (m, i) → ∃ pre x post, ss = pre ++ x :: post ∧ x.reward = some m ∧ x.id = i ∧
      (∀ y ∈ pre, ∀ r, y.reward = some r → r < m) ∧ ∀ y ∈ post, ∀ r, y.reward = some r → r ≤ m := by
    intro ss
    induction ss with
    | nil => intro m i h; nomatch h
    | cons a ss ih =>
      intro m i h
      rw [firstBest] at h
      split at h
      · rename_i r hr
        obtain ⟨pre, x, post, e, h1, h2, h3, h4⟩ := ih m i h
        refine ⟨a :: pre, x, post, by rw [e]; rfl, h1, h2, ?_, h4⟩
        intro y hy r hyr
        rcases List.mem_cons.1 hy with rfl | hy
        · rw [hr] at hyr; nomatch hyr
        · exact h3 y hy r hyr
      · rename_i x hx hn
        cases h
        refine ⟨[], a, ss, rfl, hx, rfl, fun _ h => (nomatch h), ?_⟩
        intro y hy r hyr
        have : (r, y.id) ∈ finitePairs ss := by
          unfold finitePairs
          rw [List.mem_filterMap]
          exact ⟨y, hy, by simp [hyr]⟩
        rw [(firstBest_spec ss).1 hn] at this
        nomatch this
      · rename_i x y j hx hs
        split at h
        · rename_i hlt
          cases h
          obtain ⟨pre, z, post, e, h1, h2, h3, h4⟩ := ih _ _ hs
          refine ⟨a :: pre, z, post, by rw [e]; rfl, h1, h2, ?_, h4⟩
          intro w hw r hwr
          rcases List.mem_cons.1 hw with rfl | hw
          · rw [hx] at hwr; cases hwr; omega
          · exact h3 w hw r hwr
        · rename_i hge
          cases h
          refine ⟨[], a, ss, rfl, hx, rfl, fun _ h => (nomatch h), ?_⟩
          intro w hw r hwr
          have : (r, w.id) ∈ finitePairs ss := by
            unfold finitePairs
            rw [List.mem_filterMap]
            exact ⟨w, hw, by simp [hwr]⟩
          have := ((firstBest_spec ss).2 _ _ hs).2 _ this
          simp only at this
          omega
  unfold step at h
  rw [if_pos htr] at h
  cases h
  unfold stepEmpty at hb ⊢
  cases hf : firstBest b.samples with
  | none => rw [hf] at hb; nomatch hb
  | some p =>
    obtain ⟨x, j⟩ := p
    rw [hf] at hb
    simp only [true_or, if_true] at hb ⊢
    cases hb
    exact ⟨rfl, key _ _ _ hf⟩

/-- The failing case is reachable: one valid program with reward 0 (for instance a NaN reward). -/
theorem C17_raises_counterexample : step exEnv {} ⟨[⟨none, false, 1⟩], []⟩ = none := by
  rw [C17_raises_iff exEnv exEnv_ok [] (by simp) {} rfl]
  refine ⟨?_, by simp [r0]⟩
  simp [train, quantile, r0, exEnv, sortI, insertI]

end Verif.Discover.Searcher.Claims
