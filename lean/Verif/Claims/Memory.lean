import Verif.Memory.Queue
/-!
# C14 – the priority memory; C15 – the recency memory
-/
namespace Verif.Memory.Claims

/-! ## Lemmas -/

/-- Membership test, contents and duplicates (everything but the order). -/
structure Inv (cap : Option Nat) (s : Q) : Prop where
  nodup : (s.heap.map Entry.id).Nodup
  unodup : s.uniq.Nodup
  mem : ∀ x, x ∈ s.uniq ↔ x ∈ s.heap.map Entry.id
  size : ∀ c, cap = some c → s.heap.length ≤ c

theorem mem_setAdd {s : List Nat} {x y : Nat} : y ∈ setAdd s x ↔ y = x ∨ y ∈ s := by
  unfold setAdd; split
  · rename_i h
    constructor
    · exact Or.inr
    · rintro (rfl | h') <;> assumption
  · simp

theorem nodup_setAdd {s : List Nat} {x : Nat} (h : s.Nodup) : (setAdd s x).Nodup := by
  unfold setAdd; split
  · exact h
  · exact List.nodup_cons.2 ⟨by assumption, h⟩

theorem setRemove_spec {s : List Nat} {x : Nat} (hn : s.Nodup) (hx : x ∈ s) :
    ∃ u, setRemove s x = some u ∧ u.Nodup ∧ ∀ y, y ∈ u ↔ y ∈ s ∧ y ≠ x := by
  refine ⟨s.erase x, by simp [setRemove, hx], hn.erase x, ?_⟩
  intro y
  rw [hn.mem_erase_iff]
  exact And.comm

theorem sinkHole_perm (h : List Entry) (pos : Nat) : (sinkHole h pos).1.Perm h := by
  induction hn : h.length - pos using Nat.strongRecOn generalizing h pos with
  | ind n ih =>
    rw [sinkHole]
    split
    · rename_i hc
      have := minChild_gt h pos hc
      exact (ih (h.length - minChild h pos) (by omega) _ _ (by simp)).trans (swap_perm _ _ _)
    · exact .refl _

theorem heappush_perm (h : List Entry) (e : Entry) : (heappush h e).Perm (e :: h) :=
  (siftdown_perm _ _).trans (List.perm_append_singleton e h)

theorem heappushpop_perm (h : List Entry) (e : Entry) :
    ((heappushpop h e).2 :: (heappushpop h e).1).Perm (e :: h) := by
  unfold heappushpop
  cases h with
  | nil => exact .refl _
  | cons r t =>
    simp only
    split
    · exact (List.Perm.cons r ((siftdown_perm _ _).trans (sinkHole_perm _ _))).trans (.swap _ _ _)
    · exact .refl _

/-- Adding `e` and dropping one item (possibly `e` itself). -/
theorem inv_exchange {cap : Option Nat} {s : Q} (hs : Inv cap s) {e p : Entry} {h' : List Entry}
    (hnew : e.id ∉ s.uniq) (hperm : (p :: h').Perm (e :: s.heap)) :
    ∃ u, setRemove (setAdd s.uniq e.id) p.id = some u ∧ Inv cap ⟨h', u⟩ := by
  have hids : (p.id :: h'.map Entry.id).Perm (e.id :: s.heap.map Entry.id) := by
    simpa using hperm.map Entry.id
  have hnd : (p.id :: h'.map Entry.id).Nodup := by
    refine hids.nodup_iff.2 (List.nodup_cons.2 ⟨?_, hs.nodup⟩)
    rw [← hs.mem]; exact hnew
  have hp : p.id ∈ setAdd s.uniq e.id := by
    have : p.id ∈ e.id :: s.heap.map Entry.id := hids.mem_iff.1 (by simp)
    rw [mem_setAdd, hs.mem]
    exact List.mem_cons.1 this
  obtain ⟨u, hu, hun, hum⟩ := setRemove_spec (nodup_setAdd hs.unodup (x := e.id)) hp
  refine ⟨u, hu, ⟨(List.nodup_cons.1 hnd).2, hun, ?_, ?_⟩⟩
  · intro x
    rw [hum, mem_setAdd, hs.mem]
    have := hids.mem_iff (a := x)
    simp only [List.mem_cons] at this
    constructor
    · rintro ⟨h1, h2⟩
      rcases this.2 h1 with h | h
      · exact absurd h h2
      · exact h
    · intro h
      refine ⟨this.1 (Or.inr h), ?_⟩
      rintro rfl
      exact (List.nodup_cons.1 hnd).1 h
  · intro c hc
    have := hperm.length_eq
    have := hs.size c hc
    simp at *; omega

theorem inv_add {cap : Option Nat} {s : Q} (hs : Inv cap s) {e : Entry} (hnew : e.id ∉ s.uniq)
    (hroom : full cap s.heap = false) : Inv cap ⟨heappush s.heap e, setAdd s.uniq e.id⟩ := by
  have hids : ((heappush s.heap e).map Entry.id).Perm (e.id :: s.heap.map Entry.id) := by
    simpa using (heappush_perm s.heap e).map Entry.id
  refine ⟨?_, nodup_setAdd hs.unodup, ?_, ?_⟩
  · refine hids.nodup_iff.2 (List.nodup_cons.2 ⟨?_, hs.nodup⟩)
    rw [← hs.mem]; exact hnew
  · intro x
    simp only
    rw [mem_setAdd, hs.mem, hids.mem_iff]; simp
  · intro c hc
    subst hc
    simp [full] at hroom
    have := (heappush_perm s.heap e).length_eq
    simp at *; omega

theorem set_perm_exchange {h : List Entry} {k : Nat} {x e : Entry} (hk : h[k]? = some x) :
    (x :: h.set k e).Perm (e :: h) := by
  obtain ⟨hl, rfl⟩ := List.getElem?_eq_some_iff.1 hk
  rw [List.set_eq_take_append_cons_drop, if_pos hl]
  have e1 : h = h.take k ++ h[k] :: h.drop (k + 1) := by
    rw [← List.drop_eq_getElem_cons hl, List.take_append_drop]
  conv => rhs; rw [e1]
  refine (List.Perm.cons _ List.perm_middle).trans ((List.Perm.swap _ _ _).trans (List.Perm.cons _ ?_))
  exact List.perm_middle.symm

theorem pqStep_inv (eps : Int) (cap : Option Nat) (s : Q) (hs : Inv cap s) (op : PqOp) :
    ∃ s', pqStep eps cap s op = some s' ∧ Inv cap s' := by
  cases op with
  | push e =>
    simp only [pqStep, pqPush]
    split
    · exact ⟨s, rfl, hs⟩
    · rename_i hnew
      split
      · obtain ⟨u, hu, hi⟩ := inv_exchange hs hnew (heappushpop_perm s.heap e)
        exact ⟨_, by rw [hu]; rfl, hi⟩
      · rename_i hr
        exact ⟨_, rfl, inv_add hs hnew (by simpa using hr)⟩
  | pushRmSame e =>
    simp only [pqStep, pqPushRmSame]
    split
    · exact ⟨s, rfl, hs⟩
    · rename_i hnew
      have hnew' : e.id ∉ s.uniq := fun h => hnew (Or.inl h)
      split
      · cases hk : (firstSame eps s.heap e).bind fun k => (s.heap[k]?).map fun x => (k, x) with
        | none =>
          obtain ⟨u, hu, hi⟩ := inv_exchange hs hnew' (heappushpop_perm s.heap e)
          exact ⟨_, by simp only [hu]; rfl, hi⟩
        | some p =>
          obtain ⟨k, x⟩ := p
          have hx : s.heap[k]? = some x := by
            simp only [Option.bind_eq_some_iff, Option.map_eq_some_iff, Prod.mk.injEq] at hk
            obtain ⟨k', _, x', h1, rfl, rfl⟩ := hk
            exact h1
          obtain ⟨u, hu, hi⟩ := inv_exchange hs hnew' (set_perm_exchange (e := e) hx)
          exact ⟨_, by simp only [hu]; rfl, hi⟩
      · rename_i hr
        exact ⟨_, rfl, inv_add hs hnew' (by simpa using hr)⟩
  | pop =>
    simp only [pqStep, pqPop]
    have hperm : heappop s.heap = none ∧ s.heap = [] ∨
        ∃ h e, heappop s.heap = some (h, e) ∧ (e :: h).Perm s.heap := by
      cases hh : s.heap with
      | nil => exact Or.inl ⟨rfl, rfl⟩
      | cons r t =>
        refine Or.inr ?_
        simp only [heappop]
        cases hl : t.getLast? with
        | none => exact ⟨[], r, rfl, by have : t = [] := by simpa using hl
                                        rw [this]⟩
        | some l =>
          obtain ⟨ys, rfl⟩ := List.getLast?_eq_some_iff.1 hl
          refine ⟨_, r, rfl, List.Perm.cons r ?_⟩
          refine ((siftdown_perm _ _).trans (sinkHole_perm _ _)).trans ?_
          simpa using (List.perm_append_singleton l ys).symm
    rcases hperm with ⟨h1, _⟩ | ⟨h, e, h1, hp⟩
    · exact ⟨s, by simp [h1], hs⟩
    · have hids : (e.id :: h.map Entry.id).Perm (s.heap.map Entry.id) := by simpa using hp.map Entry.id
      have hnd : (e.id :: h.map Entry.id).Nodup := hids.nodup_iff.2 hs.nodup
      obtain ⟨u, hu, hun, hum⟩ := setRemove_spec hs.unodup ((hs.mem e.id).2 (hids.mem_iff.1 (by simp)))
      refine ⟨⟨h, u⟩, by simp [h1, hu], ⟨(List.nodup_cons.1 hnd).2, hun, ?_, ?_⟩⟩
      · intro x
        simp only
        rw [hum, hs.mem, ← hids.mem_iff]
        simp only [List.mem_cons]
        constructor
        · rintro ⟨h1 | h1, h2⟩
          · exact absurd h1 h2
          · exact h1
        · intro hx
          refine ⟨Or.inr hx, ?_⟩
          rintro rfl
          exact (List.nodup_cons.1 hnd).1 hx
      · intro c hc
        have := hp.length_eq
        have := hs.size c hc
        simp at *; omega

/-! ## C14 -/

/-- **C14** (bookkeeping): after any sequence of pushes (of either kind) and pops, no call has raised, the memory
holds at most its capacity, no identifier twice, and its membership test answers exactly for what it holds. -/
theorem C14_bookkeeping (eps : Int) (cap : Option Nat) (ops : List PqOp) :
    ∃ s, pqRun eps cap {} ops = some s ∧
      (∀ c, cap = some c → s.heap.length ≤ c) ∧ (s.heap.map Entry.id).Nodup ∧
      ∀ x, x ∈ s.uniq ↔ ∃ e ∈ s.heap, e.id = x := by
  have key : ∀ (ops : List PqOp) (s : Q), Inv cap s → ∃ s', pqRun eps cap s ops = some s' ∧ Inv cap s' := by
    intro ops
    induction ops with
    | nil => intro s hs; exact ⟨s, rfl, hs⟩
    | cons op ops ih =>
      intro s hs
      obtain ⟨s1, h1, hi⟩ := pqStep_inv eps cap s hs op
      obtain ⟨s2, h2, hi2⟩ := ih s1 hi
      exact ⟨s2, by simp only [pqRun, List.foldlM_cons, h1]; exact h2, hi2⟩
  obtain ⟨s, h1, hi⟩ := key ops {} ⟨by simp, by simp, by simp, by simp⟩
  refine ⟨s, h1, hi.size, hi.nodup, fun x => ?_⟩
  rw [hi.mem]; simp

/-- What "keeps the best" means (spec): the held items are pushed ones, and one that was pushed and is not held was
displaced by a full memory of items that are all at least as good. -/
structure KeepsBest (cap : Option Nat) (pushed held : List Entry) : Prop where
  wasPushed : ∀ e ∈ held, e ∈ pushed
  best : ∀ p ∈ pushed, (∃ e ∈ held, e.id = p.id) ∨
    cap = some held.length ∧ ∀ e ∈ held, p.score ≤ e.score

/-- **C14** (the best are kept): if an identifier always comes with the same score, then after any sequence of pushes
the memory holds the best distinct items pushed, and its internal order is a heap. -/
theorem C14_keeps_best_partial (cap : Option Nat) (es : List Entry)
    (hsame : ∀ a ∈ es, ∀ b ∈ es, a.id = b.id → a.score = b.score) :
    ∃ s, pqPushes cap {} es = some s ∧ KeepsBest cap es s.heap ∧ IsHeap s.heap ∧ Inv cap s := by
  induction es using Verif.snoc_induction with
  | nil =>
    exact ⟨{}, rfl, ⟨by simp, by simp⟩, by intro i _ h; simp at h, ⟨by simp, by simp, by simp, by simp⟩⟩
  | snoc es e ih =>
    obtain ⟨s, hs, hk, hh, hi⟩ := ih (fun a ha b hb => hsame a (by simp [ha]) b (by simp [hb]))
    have hrun : pqPushes cap {} (es ++ [e]) = pqPush cap s e := by
      unfold pqPushes at hs ⊢
      rw [List.foldlM_append, hs]; simp
    rw [hrun]
    unfold pqPush
    split
    · rename_i hmem
      refine ⟨s, rfl, ⟨fun x hx => by simp [hk.wasPushed x hx], ?_⟩, hh, hi⟩
      intro p hp
      rcases List.mem_append.1 hp with hp | hp
      · exact hk.best p hp
      · simp at hp; subst hp
        left
        have := (hi.mem p.id).1 hmem
        simpa using this
    · rename_i hnew
      split
      · rename_i hfull
        obtain ⟨g1, g2, g3, g4⟩ := heappushpop_spec hh e
        obtain ⟨u, hu, hi'⟩ := inv_exchange hi hnew g2
        refine ⟨⟨(heappushpop s.heap e).1, u⟩, by simp [hu], ⟨?_, ?_⟩, g1, hi'⟩
        · intro x hx
          have : x ∈ e :: s.heap := g2.mem_iff.1 (by simp [hx])
          rcases List.mem_cons.1 this with rfl | h
          · simp
          · simp [hk.wasPushed x h]
        · -- full capacity
          obtain ⟨c, hc⟩ : ∃ c, cap = some c := by
            cases cap with
            | none => simp [full] at hfull
            | some c => exact ⟨c, rfl⟩
          have hlen : (heappushpop s.heap e).1.length = s.heap.length := by
            have := g2.length_eq; simpa using this
          have hcap : cap = some s.heap.length := by
            subst hc
            have h1 := hi.size c rfl
            simp [full] at hfull
            simp; omega
          intro p hp
          have hpop : ∀ x ∈ (heappushpop s.heap e).1, (heappushpop s.heap e).2.score ≤ x.score := by
            intro x hx
            exact g3 x (g2.mem_iff.1 (by simp [hx]))
          rcases List.mem_append.1 hp with hp | hp
          · rcases hk.best p hp with ⟨x, hx, hxid⟩ | ⟨_, hle⟩
            · have : x ∈ (heappushpop s.heap e).2 :: (heappushpop s.heap e).1 := g2.mem_iff.2 (by simp [hx])
              rcases List.mem_cons.1 this with rfl | h
              · right
                refine ⟨by rw [hcap]; simp only [hlen], ?_⟩
                intro y hy
                have e1 := hsame _ (by simp [hk.wasPushed _ hx]) p (by simp [hp]) hxid
                rw [← e1]; exact hpop y hy
              · exact Or.inl ⟨x, h, hxid⟩
            · right
              refine ⟨by rw [hcap]; simp only [hlen], ?_⟩
              intro y hy
              -- y is an old item or the newcomer; a newcomer is only kept if it beats an old item
              have : y ∈ e :: s.heap := g2.mem_iff.1 (by simp [hy])
              rcases List.mem_cons.1 this with rfl | h
              · by_cases hall : ∀ x ∈ s.heap, y.score ≤ x.score
                · rw [g4 hall] at hy
                  exact hle y hy
                · have ⟨x, hx⟩ := Classical.not_forall.1 hall
                  have ⟨hx1, hx2⟩ := Classical.not_imp.1 hx
                  have := hle x hx1
                  omega
              · exact hle y h
          · simp at hp; subst hp
            have : p ∈ (heappushpop s.heap p).2 :: (heappushpop s.heap p).1 := g2.mem_iff.2 (by simp)
            rcases List.mem_cons.1 this with h | h
            · right
              refine ⟨by rw [hcap]; simp only [hlen], ?_⟩
              intro y hy
              have := hpop y hy
              rw [← h] at this; exact this
            · exact Or.inl ⟨p, h, rfl⟩
      · rename_i hroom
        have hroom' : full cap s.heap = false := by simpa using hroom
        obtain ⟨g1, g2⟩ := heappush_spec hh e
        refine ⟨_, rfl, ⟨?_, ?_⟩, g1, inv_add hi hnew hroom'⟩
        · intro x hx
          have : x ∈ e :: s.heap := g2.mem_iff.1 hx
          rcases List.mem_cons.1 this with rfl | h
          · simp
          · simp [hk.wasPushed x h]
        · intro p hp
          left
          rcases List.mem_append.1 hp with hp | hp
          · rcases hk.best p hp with ⟨x, hx, hxid⟩ | ⟨hc, _⟩
            · exact ⟨x, g2.mem_iff.2 (by simp [hx]), hxid⟩
            · subst hc; simp [full] at hroom'
          · simp at hp; subst hp
            exact ⟨p, g2.mem_iff.2 (by simp), rfl⟩

/-- **C14** (reading): on such a memory `pop` removes a worst item, the reported maximum is a best item – at least
as good as anything ever pushed, if the capacity is not zero – and iterating in order lists exactly the held items
from best to worst. -/
theorem C14_reading_partial (cap : Option Nat) (hcap : cap ≠ some 0) (es : List Entry) (hne : es ≠ [])
    (hsame : ∀ a ∈ es, ∀ b ∈ es, a.id = b.id → a.score = b.score) (s : Q) (hs : pqPushes cap {} es = some s) :
    (∃ s' e, pqPop s = some (s', some e) ∧ (e :: s'.heap).Perm s.heap ∧ ∀ x ∈ s.heap, e.score ≤ x.score) ∧
    (∃ m, pqMax s = some m ∧ m ∈ s.heap ∧ m ∈ es ∧ ∀ p ∈ es, p.score ≤ m.score) ∧
    (pqInOrder s).Perm s.heap ∧ (pqInOrder s).Pairwise (fun a b => b.score ≤ a.score) := by
  obtain ⟨s', hs', hk, hh, hi⟩ := C14_keeps_best_partial cap es hsame
  rw [hs] at hs'; cases hs'
  have hheap : s.heap ≠ [] := by
    intro h0
    obtain ⟨p, hp⟩ := List.exists_mem_of_ne_nil es hne
    rcases hk.best p hp with ⟨x, hx, _⟩ | ⟨hc, _⟩
    · simp [h0] at hx
    · rw [h0] at hc; exact hcap hc
  refine ⟨?_, ?_, ?_, ?_⟩
  · rcases heappop_spec hh with ⟨h0, _⟩ | ⟨h', e, h1, _, h3, h4⟩
    · exact absurd h0 hheap
    · have he : e.id ∈ s.uniq := (hi.mem _).2 (by
        have : e ∈ s.heap := h3.mem_iff.1 (by simp)
        exact List.mem_map.2 ⟨e, this, rfl⟩)
      refine ⟨⟨h', s.uniq.erase e.id⟩, e, by simp [pqPop, h1, setRemove, he], h3, h4⟩
  · have hmax : ∀ (xs : List Entry) (x : Entry),
        (xs.foldl (fun m y => if m.score < y.score then y else m) x) ∈ x :: xs ∧
        ∀ y ∈ x :: xs, y.score ≤ (xs.foldl (fun m y => if m.score < y.score then y else m) x).score := by
      intro xs
      induction xs with
      | nil => intro x; simp
      | cons y ys ih =>
        intro x
        simp only [List.foldl_cons]
        split
        · obtain ⟨h1, h2⟩ := ih y
          refine ⟨by simp only [List.mem_cons] at h1 ⊢; exact Or.inr h1, ?_⟩
          intro z hz
          rcases List.mem_cons.1 hz with rfl | hz
          · have := h2 y (by simp); omega
          · exact h2 z hz
        · obtain ⟨h1, h2⟩ := ih x
          refine ⟨?_, ?_⟩
          · rcases List.mem_cons.1 h1 with h | h
            · rw [h]; simp
            · simp [h]
          · intro z hz
            rcases List.mem_cons.1 hz with rfl | hz
            · exact h2 z (by simp)
            · rcases List.mem_cons.1 hz with rfl | hz
              · have := h2 x (by simp); omega
              · exact h2 z (by simp [hz])
    cases hcase : s.heap with
    | nil => exact absurd hcase hheap
    | cons x xs =>
      obtain ⟨h1, h2⟩ := hmax xs x
      refine ⟨_, by simp only [pqMax, hcase], h1, hk.wasPushed _ (by rw [hcase]; exact h1), ?_⟩
      intro p hp
      rcases hk.best p hp with ⟨y, hy, hyid⟩ | ⟨_, hle⟩
      · have := hsame y (hk.wasPushed y hy) p hp hyid
        rw [← this]; exact h2 y (by rw [← hcase]; exact hy)
      · have a1 := hle x (by rw [hcase]; simp)
        have a2 := h2 x (by simp)
        omega
  · exact List.mergeSort_perm _ _
  · have := List.pairwise_mergeSort (le := fun a b : Entry => decide (b.score ≤ a.score))
      (fun a b c => by simp; omega) (fun a b => by simp; omega) s.heap
    simpa [pqInOrder] using this

/-- **C14**: without "one score per identifier" the property is false: an identifier pushed again with a better score
is ignored, and then lost. -/
theorem C14_rescored_counterexample :
    ∃ s, pqPushes (some 1) {} [⟨1, 7, 0, 0⟩, ⟨9, 7, 0, 0⟩, ⟨2, 8, 0, 0⟩] = some s ∧ s.heap = [⟨2, 8, 0, 0⟩] := by
  exact ⟨⟨[⟨2, 8, 0, 0⟩], [8]⟩, by decide +kernel, rfl⟩

/-- **C14** with "remove same rewards" switched on is false: a reward within the tolerance replaces the held item in
place, so a chain of slightly worse rewards makes the memory forget the best item; here, for every `n`, the memory of
capacity one ends with score `0` although `n` was pushed. -/
theorem C14_rm_same_counterexample (n : Nat) :
    ∃ s, pqRun 2 (some 1) {} ((List.range (n + 1)).map fun k : Nat => .pushRmSame ⟨(n : Int) - (k : Nat), k, 1, 0⟩) = some s ∧
      s.heap = [⟨0, n, 1, 0⟩] := by
  have key : ∀ m, m ≤ n → pqRun 2 (some 1) {} ((List.range (m + 1)).map fun k : Nat => .pushRmSame ⟨(n : Int) - (k : Nat), k, 1, 0⟩) =
      some ⟨[⟨(n : Int) - m, m, 1, 0⟩], [m]⟩ := by
    intro m
    induction m with
    | zero =>
      intro _
      simp [pqRun, pqStep, pqPushRmSame, firstSame, sameLong, full, heappush, siftdown, setAdd]
    | succ m ih =>
      intro hm
      rw [List.range_succ, List.map_append]
      unfold pqRun at ih ⊢
      rw [List.foldlM_append, ih (by omega)]
      have h1 : ((n : Int) - m - (n - (m + 1 : Nat)) < 2) ∧ ((n : Int) - (m + 1 : Nat) - (n - m) < 2) := by omega
      have h2 : firstSame 2 [⟨(n : Int) - m, m, 1, 0⟩] ⟨(n : Int) - (m + 1 : Nat), m + 1, 1, 0⟩ = some 0 := by
        simp only [firstSame, List.findIdx?_cons]
        rw [if_pos (by simpa using h1)]
      have h4 : sameLong 2 [⟨(n : Int) - m, m, 1, 0⟩] ⟨(n : Int) - (m + 1 : Nat), m + 1, 1, 0⟩ = false := by
        unfold sameLong; rw [h2]; rfl
      simp only [List.map_cons, List.map_nil, List.foldlM_cons, List.foldlM_nil, Option.bind_eq_bind,
        Option.bind_some, pqStep, pqPushRmSame, h2, h4]
      simp [full, setAdd, setRemove]
  refine ⟨_, key n (Nat.le_refl _), ?_⟩
  simp

example : (∀ a ∈ [⟨5, 1, 0, 0⟩, ⟨3, 2, 0, 0⟩, ⟨5, 1, 0, 0⟩, (⟨4, 3, 0, 0⟩ : Entry)],
    ∀ b ∈ [⟨5, 1, 0, 0⟩, ⟨3, 2, 0, 0⟩, ⟨5, 1, 0, 0⟩, (⟨4, 3, 0, 0⟩ : Entry)], a.id = b.id → a.score = b.score) ∧
    pqPushes (some 2) {} [⟨5, 1, 0, 0⟩, ⟨3, 2, 0, 0⟩, ⟨5, 1, 0, 0⟩, ⟨4, 3, 0, 0⟩] =
      some ⟨[⟨4, 3, 0, 0⟩, ⟨5, 1, 0, 0⟩], [3, 1]⟩ := by
  refine ⟨by decide, ?_⟩
  decide +kernel

/-! ## C15 -/

/-- The last push of each identifier, in order of these last pushes (spec). -/
def lastPushes : List Entry → List Entry
  | [] => []
  | e :: es => if ∃ x ∈ es, x.id = e.id then lastPushes es else e :: lastPushes es

/-- The last `n` items of a list (all of it, if shorter). -/
def lastN (n : Nat) (l : List Entry) : List Entry := l.drop (l.length - n)

theorem lastPushes_snoc (es : List Entry) (e : Entry) :
    lastPushes (es ++ [e]) = (lastPushes es).filter (fun x => x.id != e.id) ++ [e] := by
  induction es with
  | nil => simp [lastPushes]
  | cons a es ih =>
    simp only [List.cons_append, lastPushes]
    by_cases h : ∃ x ∈ es, x.id = a.id
    · have h' : ∃ x ∈ es ++ [e], x.id = a.id := by
        obtain ⟨x, hx, h⟩ := h; exact ⟨x, by simp [hx], h⟩
      rw [if_pos h, if_pos h', ih]
    · rw [if_neg h]
      by_cases hae : a.id = e.id
      · have h' : ∃ x ∈ es ++ [e], x.id = a.id := ⟨e, by simp, hae.symm⟩
        rw [if_pos h', ih, List.filter_cons]
        simp [hae]
      · have h' : ¬ ∃ x ∈ es ++ [e], x.id = a.id := by
          rintro ⟨x, hx, hxa⟩
          rcases List.mem_append.1 hx with hx | hx
          · exact h ⟨x, hx, hxa⟩
          · simp at hx; subst hx; exact hae hxa.symm
        rw [if_neg h', ih, List.filter_cons]
        simp [hae]

theorem mem_lastPushes_id {es : List Entry} {i : Nat} : (∃ x ∈ lastPushes es, x.id = i) ↔ ∃ x ∈ es, x.id = i := by
  induction es with
  | nil => simp [lastPushes]
  | cons a es ih =>
    simp only [lastPushes]
    split
    · rename_i h
      rw [ih]
      constructor
      · rintro ⟨x, hx, h⟩; exact ⟨x, by simp [hx], h⟩
      · rintro ⟨x, hx, hi⟩
        rcases List.mem_cons.1 hx with rfl | hx
        · obtain ⟨y, hy, hya⟩ := h; exact ⟨y, hy, hya.trans hi⟩
        · exact ⟨x, hx, hi⟩
    · constructor
      · rintro ⟨x, hx, hi⟩
        rcases List.mem_cons.1 hx with rfl | hx
        · exact ⟨x, by simp, hi⟩
        · obtain ⟨y, hy, hyi⟩ := ih.1 ⟨x, hx, hi⟩; exact ⟨y, by simp [hy], hyi⟩
      · rintro ⟨x, hx, hi⟩
        rcases List.mem_cons.1 hx with rfl | hx
        · exact ⟨x, by simp, hi⟩
        · obtain ⟨y, hy, hyi⟩ := ih.2 ⟨x, hx, hi⟩; exact ⟨y, by simp [hy], hyi⟩

theorem lastPushes_nodup (es : List Entry) : ((lastPushes es).map Entry.id).Nodup := by
  induction es with
  | nil => simp [lastPushes]
  | cons a es ih =>
    simp only [lastPushes]
    split
    · exact ih
    · rename_i h
      rw [List.map_cons, List.nodup_cons]
      refine ⟨?_, ih⟩
      intro hm
      obtain ⟨x, hx, hxa⟩ := List.mem_map.1 hm
      exact h (mem_lastPushes_id.1 ⟨x, hx, hxa⟩)

theorem eraseP_filter {l : List Entry} (h : (l.map Entry.id).Nodup) (i : Nat) :
    l.eraseP (fun x => x.id == i) = l.filter (fun x => x.id != i) := by
  induction l with
  | nil => rfl
  | cons a l ih =>
    rw [List.map_cons, List.nodup_cons] at h
    by_cases ha : a.id = i
    · rw [List.eraseP_cons_of_pos (by simp [ha]), List.filter_cons_of_neg (by simp [ha])]
      symm
      rw [List.filter_eq_self]
      intro x hx
      simp only [bne_iff_ne, ne_eq]
      rintro rfl
      exact h.1 (List.mem_map.2 ⟨x, hx, by rw [ha]⟩)
    · rw [List.eraseP_cons_of_neg (by simp [ha]), List.filter_cons_of_pos (by simp [ha]), ih h.2]

theorem lastN_concat (n : Nat) (l : List Entry) (e : Entry) : lastN (n + 1) (l ++ [e]) = lastN n l ++ [e] := by
  unfold lastN
  rw [List.length_append, List.length_cons, List.length_nil]
  rw [show l.length + (0 + 1) - (n + 1) = l.length - n by omega]
  rw [List.drop_append_of_le_length (by omega)]

theorem filter_lastN_mem {l : List Entry} (hn : (l.map Entry.id).Nodup) (n i : Nat)
    (hm : ∃ x ∈ lastN (n + 1) l, x.id = i) :
    lastN n (l.filter fun x => x.id != i) = (lastN (n + 1) l).filter fun x => x.id != i := by
  -- split l into the dropped part and the rest
  unfold lastN at *
  generalize hk : l.length - (n + 1) = k at hm ⊢
  have hsplit : l = l.take k ++ l.drop k := (List.take_append_drop k l).symm
  have hnd := hn
  rw [hsplit, List.map_append, List.nodup_append] at hnd
  obtain ⟨x, hx, hxi⟩ := hm
  have htake : (l.take k).filter (fun x => x.id != i) = l.take k := by
    rw [List.filter_eq_self]
    intro y hy
    simp only [bne_iff_ne, ne_eq]
    rintro rfl
    exact hnd.2.2 y.id (List.mem_map.2 ⟨y, hy, rfl⟩) x.id (List.mem_map.2 ⟨x, hx, rfl⟩) hxi.symm
  have hlen : ((l.drop k).filter fun x => x.id != i).length + 1 = (l.drop k).length := by
    rw [← eraseP_filter hnd.2.1, List.length_eraseP_of_mem hx (by simp [hxi])]
    have := List.length_pos_of_mem hx
    omega
  have e1 : l.filter (fun x => x.id != i) = l.take k ++ (l.drop k).filter fun x => x.id != i := by
    conv => lhs; rw [hsplit, List.filter_append, htake]
  rw [e1]
  have e2 : (l.take k ++ (l.drop k).filter fun x => x.id != i).length - n = (l.take k).length := by
    rw [List.length_append]
    simp only [List.length_take, List.length_drop] at hlen ⊢
    omega
  rw [e2, List.drop_left]

theorem filter_lastN_not_mem {l : List Entry} (n i : Nat)
    (hm : ¬ ∃ x ∈ lastN (n + 1) l, x.id = i) :
    lastN n (l.filter fun x => x.id != i) = lastN n l := by
  unfold lastN at *
  generalize hk : l.length - (n + 1) = k at hm
  have hsplit : l = l.take k ++ l.drop k := (List.take_append_drop k l).symm
  have hdrop : (l.drop k).filter (fun x => x.id != i) = l.drop k := by
    rw [List.filter_eq_self]
    intro y hy
    simp only [bne_iff_ne, ne_eq]
    rintro rfl
    exact hm ⟨y, hy, rfl⟩
  have e1 : l.filter (fun x => x.id != i) = (l.take k).filter (fun x => x.id != i) ++ l.drop k := by
    conv => lhs; rw [hsplit, List.filter_append, hdrop]
  have e2 : ((l.take k).filter (fun x => x.id != i)).length ≤ k := by
    have := List.length_filter_le (fun x : Entry => x.id != i) (l.take k)
    simp only [List.length_take] at this; omega
  by_cases hk0 : l.length ≤ n + 1
  · have : k = 0 := by omega
    subst this
    simp only [List.drop_zero] at hdrop
    rw [hdrop]
  · have hl : (l.drop k).length = n + 1 := by rw [List.length_drop]; omega
    rw [e1, List.length_append, hl]
    conv => rhs; rw [hsplit]
    rw [List.length_append, hl]
    rw [List.drop_append, List.drop_append]
    have a1 : ((l.take k).filter (fun x => x.id != i)).drop
        (((l.take k).filter (fun x => x.id != i)).length + (n + 1) - n) = [] := by
      apply List.drop_eq_nil_of_le; omega
    have a2 : (l.take k).drop ((l.take k).length + (n + 1) - n) = [] := by
      apply List.drop_eq_nil_of_le; omega
    rw [a1, a2]
    congr 2
    omega

/-- Two rewards within the tolerance. -/
def Near (eps : Int) (a b : Entry) : Prop := a.score - b.score < eps ∧ b.score - a.score < eps

theorem firstSame_some {eps : Int} {h : List Entry} {e : Entry} (hex : ∃ x ∈ h, Near eps x e) :
    ∃ k x, firstSame eps h e = some k ∧ h[k]? = some x ∧ Near eps x e := by
  cases hf : firstSame eps h e with
  | none =>
    unfold firstSame at hf
    rw [List.findIdx?_eq_none_iff] at hf
    obtain ⟨x, hx, hn⟩ := hex
    have := hf x hx
    simp [hn.1, hn.2] at this
  | some k =>
    unfold firstSame at hf
    rw [List.findIdx?_eq_some_iff_getElem] at hf
    obtain ⟨hk, hp, _⟩ := hf
    exact ⟨k, h[k], rfl, List.getElem?_eq_getElem hk, by simpa [Near] using hp⟩

theorem firstSame_none {eps : Int} {h : List Entry} {e : Entry} (hex : ¬ ∃ x ∈ h, Near eps x e) :
    firstSame eps h e = none := by
  unfold firstSame
  rw [List.findIdx?_eq_none_iff]
  intro x hx
  by_cases hp : x.score - e.score < eps ∧ e.score - x.score < eps
  · exact absurd ⟨x, hx, hp⟩ hex
  · simpa using hp

/-- **C14**, "remove same rewards": a program longer than every held program of (nearly) its reward – there being
one – is never stored; nothing changes. -/
theorem C14_rm_same_refuses (eps : Int) (cap : Option Nat) (s : Q) (e : Entry)
    (hex : ∃ x ∈ s.heap, Near eps x e) (hlong : ∀ x ∈ s.heap, Near eps x e → x.len < e.len) :
    pqPushRmSame eps cap s e = some s := by
  obtain ⟨k, x, hk, hx, hn⟩ := firstSame_some hex
  have hl := hlong x (List.mem_of_getElem? hx) hn
  unfold pqPushRmSame
  rw [if_pos]
  right
  simp [sameLong, hk, hx, hl]

/-- **C14**, "remove same rewards": a new program no longer than every held program of (nearly) its reward – there
being one – is stored; when the memory is full it takes the place of exactly one of those, the others stay; otherwise
it is added.  (Reachable states: the membership test agrees with the contents, as C14_bookkeeping shows.) -/
theorem C14_rm_same_replaces (eps : Int) (cap : Option Nat) (s : Q) (e : Entry)
    (huniq : ∀ x, x ∈ s.uniq ↔ ∃ y ∈ s.heap, y.id = x) (hnew : ∀ y ∈ s.heap, y.id ≠ e.id)
    (hex : ∃ x ∈ s.heap, Near eps x e) (hshort : ∀ x ∈ s.heap, Near eps x e → e.len ≤ x.len) :
    ∃ s', pqPushRmSame eps cap s e = some s' ∧
      if full cap s.heap = true then ∃ x ∈ s.heap, Near eps x e ∧ (x :: s'.heap).Perm (e :: s.heap)
      else s'.heap.Perm (e :: s.heap) := by
  obtain ⟨k, x, hk, hx, hn⟩ := firstSame_some hex
  have hxm := List.mem_of_getElem? hx
  have hs : ¬ (e.id ∈ s.uniq ∨ sameLong eps s.heap e = true) := by
    rintro (h | h)
    · obtain ⟨y, hy, he⟩ := (huniq _).1 h
      exact hnew y hy he
    · have := hshort x hxm hn
      simp [sameLong, hk, hx] at h
      omega
  unfold pqPushRmSame
  rw [if_neg hs]
  by_cases hf : full cap s.heap = true
  · have hin : x.id ∈ setAdd s.uniq e.id := by
      rw [mem_setAdd]; exact Or.inr ((huniq _).2 ⟨x, hxm, rfl⟩)
    refine ⟨⟨s.heap.set k e, (setAdd s.uniq e.id).erase x.id⟩, ?_, ?_⟩
    · rw [if_pos hf]
      simp [hk, hx, setRemove, hin]
    · rw [if_pos hf]
      refine ⟨x, hxm, hn, ?_⟩
      obtain ⟨hkl, hxe⟩ := List.getElem?_eq_some_iff.1 hx
      have h1 : s.heap = s.heap.take k ++ x :: s.heap.drop (k + 1) := by
        rw [← hxe, List.getElem_cons_drop, List.take_append_drop]
      have h2 : s.heap.set k e = s.heap.take k ++ e :: s.heap.drop (k + 1) := List.set_eq_take_append_cons_drop .. |>.trans (by simp [hkl])
      simp only
      rw [h2]
      conv => rhs; rw [h1]
      have p1 : (x :: (s.heap.take k ++ e :: s.heap.drop (k + 1))).Perm
          (x :: e :: (s.heap.take k ++ s.heap.drop (k + 1))) := List.Perm.cons _ List.perm_middle
      have p2 : (e :: (s.heap.take k ++ x :: s.heap.drop (k + 1))).Perm
          (e :: x :: (s.heap.take k ++ s.heap.drop (k + 1))) := List.Perm.cons _ List.perm_middle
      exact p1.trans ((List.Perm.swap ..).trans p2.symm)
  · refine ⟨⟨heappush s.heap e, setAdd s.uniq e.id⟩, by rw [if_neg hf], ?_⟩
    rw [if_neg hf]
    simp only [heappush]
    exact (siftdown_perm _ _).trans (List.perm_append_singleton ..)

/-- **C14**, "remove same rewards": without a held program of (nearly) the same reward it is the plain push. -/
theorem C14_rm_same_otherwise (eps : Int) (cap : Option Nat) (s : Q) (e : Entry)
    (hex : ¬ ∃ x ∈ s.heap, Near eps x e) : pqPushRmSame eps cap s e = pqPush cap s e := by
  have hf := firstSame_none hex
  have hs : sameLong eps s.heap e = false := by simp [sameLong, hf]
  unfold pqPushRmSame pqPush
  simp [hs, hf]

example : pqPushRmSame 2 (some 2) ⟨[⟨3, 1, 4, 0⟩, ⟨9, 2, 4, 0⟩], [1, 2]⟩ ⟨4, 5, 7, 0⟩ =
    some ⟨[⟨3, 1, 4, 0⟩, ⟨9, 2, 4, 0⟩], [1, 2]⟩ := by decide
example : pqPushRmSame 2 (some 2) ⟨[⟨3, 1, 4, 0⟩, ⟨9, 2, 4, 0⟩], [1, 2]⟩ ⟨4, 5, 4, 0⟩ =
    some ⟨[⟨4, 5, 4, 0⟩, ⟨9, 2, 4, 0⟩], [5, 2]⟩ := by decide

/-- **C15**: for every capacity of at least one and every sequence of pushes, the memory holds exactly the last
`capacity` distinct identifiers, each with its most recent data, in order of last push (oldest first); no call raises
and the membership test agrees with the contents. -/
theorem C15_recent (cap : Nat) (hcap : 0 < cap) (es : List Entry) :
    ∃ s, uqPushes (some cap) {} es = some s ∧ s.heap = lastN cap (lastPushes es) ∧
      ∀ x, x ∈ s.uniq ↔ ∃ e ∈ s.heap, e.id = x := by
  obtain ⟨n, rfl⟩ : ∃ n, cap = n + 1 := ⟨cap - 1, by omega⟩
  suffices h : ∃ s, uqPushes (some (n + 1)) {} es = some s ∧ s.heap = lastN (n + 1) (lastPushes es) ∧
      s.uniq.Nodup ∧ ∀ x, x ∈ s.uniq ↔ ∃ e ∈ s.heap, e.id = x by
    obtain ⟨s, h1, h2, _, h3⟩ := h; exact ⟨s, h1, h2, h3⟩
  induction es using Verif.snoc_induction with
  | nil => exact ⟨{}, rfl, by simp [lastN, lastPushes], by simp, by simp⟩
  | snoc es e ih =>
    obtain ⟨s, hs, hheap, hun, hmem⟩ := ih
    have hrun : uqPushes (some (n + 1)) {} (es ++ [e]) = uqPush (some (n + 1)) s e := by
      unfold uqPushes at hs ⊢
      rw [List.foldlM_append, hs]; simp
    have hnd := lastPushes_nodup es
    have hndh : (s.heap.map Entry.id).Nodup := by
      rw [hheap]; unfold lastN
      rw [List.map_drop]
      exact hnd.sublist (List.drop_sublist _ _)
    rw [hrun, lastPushes_snoc, lastN_concat]
    unfold uqPush
    split
    · rename_i hin
      refine ⟨_, rfl, ?_, hun, ?_⟩
      · simp only
        rw [eraseP_filter hndh, filter_lastN_mem hnd n e.id (by rw [← hheap]; exact (hmem _).1 hin), hheap]
      · intro x
        simp only
        rw [hmem, eraseP_filter hndh]
        constructor
        · rintro ⟨y, hy, rfl⟩
          by_cases hye : y.id = e.id
          · exact ⟨e, by simp, hye.symm⟩
          · exact ⟨y, by simp [hy, hye], rfl⟩
        · rintro ⟨y, hy, rfl⟩
          rcases List.mem_append.1 hy with hy | hy
          · exact ⟨y, (List.mem_filter.1 hy).1, rfl⟩
          · simp at hy; subst hy; exact (hmem _).1 hin
    · rename_i hin
      have hnin : ¬ ∃ x ∈ lastN (n + 1) (lastPushes es), x.id = e.id := by
        rw [← hheap]; exact fun h => hin ((hmem _).2 h)
      rw [filter_lastN_not_mem n e.id hnin]
      by_cases hfull : full (some (n + 1)) s.heap = true
      · rw [if_pos hfull]
        simp [full] at hfull
        cases hh : s.heap with
        | nil => simp [hh] at hfull
        | cons a t =>
          have hain : a.id ∈ s.uniq := (hmem _).2 ⟨a, by simp [hh], rfl⟩
          have hnt : (lastN (n + 1) (lastPushes es)).length ≤ n + 1 := by
            unfold lastN; rw [List.length_drop]; omega
          have htail : t = lastN n (lastPushes es) := by
            have h1 : lastN (n + 1) (lastPushes es) = a :: t := by rw [← hheap, hh]
            have hlen : (lastPushes es).length ≥ n + 1 := by
              have : (lastN (n + 1) (lastPushes es)).length ≥ n + 1 := by rw [← hheap]; exact hfull
              unfold lastN at this; rw [List.length_drop] at this; omega
            unfold lastN at h1 ⊢
            have h2 : (lastPushes es).length - n = ((lastPushes es).length - (n + 1)) + 1 := by omega
            rw [h2, ← List.drop_drop, h1]; rfl
          refine ⟨⟨t ++ [e], setAdd (s.uniq.erase a.id) e.id⟩, ?_, by simp [htail], ?_, ?_⟩
          · simp [uqPop, hh, setRemove, hain]
          · exact nodup_setAdd (hun.erase _)
          · intro x
            simp only
            rw [mem_setAdd, hun.mem_erase_iff, hmem, hh]
            rw [hh, List.map_cons, List.nodup_cons] at hndh
            constructor
            · rintro (rfl | ⟨hxa, y, hy, rfl⟩)
              · exact ⟨e, by simp, rfl⟩
              · rcases List.mem_cons.1 hy with rfl | hy
                · exact absurd rfl hxa
                · exact ⟨y, by simp [hy], rfl⟩
            · rintro ⟨y, hy, rfl⟩
              rcases List.mem_append.1 hy with hy | hy
              · right
                refine ⟨?_, y, by simp [hy], rfl⟩
                intro hya
                exact hndh.1 (List.mem_map.2 ⟨y, hy, hya⟩)
              · simp at hy; subst hy; exact Or.inl rfl
      · rw [if_neg hfull]
        simp [full] at hfull
        have hshort : lastN n (lastPushes es) = lastN (n + 1) (lastPushes es) := by
          have : (lastN (n + 1) (lastPushes es)).length < n + 1 := by rw [← hheap]; exact hfull
          unfold lastN at this ⊢
          rw [List.length_drop] at this
          have h1 : (lastPushes es).length - n = 0 := by omega
          have h2 : (lastPushes es).length - (n + 1) = 0 := by omega
          rw [h1, h2]
        refine ⟨⟨s.heap ++ [e], setAdd s.uniq e.id⟩, rfl, by simp [hshort, hheap], nodup_setAdd hun, ?_⟩
        intro x
        simp only
        rw [mem_setAdd, hmem]
        constructor
        · rintro (rfl | ⟨y, hy, rfl⟩)
          · exact ⟨e, by simp, rfl⟩
          · exact ⟨y, by simp [hy], rfl⟩
        · rintro ⟨y, hy, rfl⟩
          rcases List.mem_append.1 hy with hy | hy
          · exact Or.inr ⟨y, hy, rfl⟩
          · simp at hy; subst hy; exact Or.inl rfl

/-- **C15** for the default, unbounded memory: everything is kept, in order of last push. -/
theorem C15_recent_unbounded (es : List Entry) :
    ∃ s, uqPushes none {} es = some s ∧ s.heap = lastPushes es ∧ ∀ x, x ∈ s.uniq ↔ ∃ e ∈ s.heap, e.id = x := by
  induction es using Verif.snoc_induction with
  | nil => exact ⟨{}, rfl, by simp [lastPushes], by simp⟩
  | snoc es e ih =>
    obtain ⟨s, hs, hheap, hmem⟩ := ih
    have hrun : uqPushes none {} (es ++ [e]) = uqPush none s e := by
      unfold uqPushes at hs ⊢
      rw [List.foldlM_append, hs]; simp
    have hndh : (s.heap.map Entry.id).Nodup := by rw [hheap]; exact lastPushes_nodup es
    rw [hrun, lastPushes_snoc, ← hheap]
    unfold uqPush
    split
    · rename_i hin
      refine ⟨_, rfl, by simp only; rw [eraseP_filter hndh], ?_⟩
      intro x
      simp only
      rw [hmem, eraseP_filter hndh]
      constructor
      · rintro ⟨y, hy, rfl⟩
        by_cases hye : y.id = e.id
        · exact ⟨e, by simp, hye.symm⟩
        · exact ⟨y, by simp [hy, hye], rfl⟩
      · rintro ⟨y, hy, rfl⟩
        rcases List.mem_append.1 hy with hy | hy
        · exact ⟨y, (List.mem_filter.1 hy).1, rfl⟩
        · simp at hy; subst hy; exact (hmem _).1 hin
    · rename_i hin
      have hf : s.heap.filter (fun x => x.id != e.id) = s.heap := by
        rw [List.filter_eq_self]
        intro y hy
        simp only [bne_iff_ne, ne_eq]
        intro h
        exact hin ((hmem _).2 ⟨y, hy, h⟩)
      refine ⟨⟨s.heap ++ [e], setAdd s.uniq e.id⟩, by simp [full], by simp [hf], ?_⟩
      intro x
      simp only
      rw [mem_setAdd, hmem]
      constructor
      · rintro (rfl | ⟨y, hy, rfl⟩)
        · exact ⟨e, by simp, rfl⟩
        · exact ⟨y, by simp [hy], rfl⟩
      · rintro ⟨y, hy, rfl⟩
        rcases List.mem_append.1 hy with hy | hy
        · exact Or.inr ⟨y, hy, rfl⟩
        · simp at hy; subst hy; exact Or.inl rfl

/-- **C15**: capacity zero is not respected – the memory then holds one item. -/
theorem C15_zero_counterexample (e : Entry) :
    ∃ s, uqPushes (some 0) {} [e] = some s ∧ s.heap.length = 1 := by
  exact ⟨⟨[e], [e.id]⟩, by simp [uqPushes, uqPush, full, uqPop, setAdd], rfl⟩

example : lastN 2 (lastPushes [⟨0, 1, 0, 10⟩, ⟨0, 2, 0, 20⟩, ⟨0, 1, 0, 11⟩, ⟨0, 3, 0, 30⟩, ⟨0, 1, 0, 12⟩]) =
    [⟨0, 3, 0, 30⟩, ⟨0, 1, 0, 12⟩] := by decide
example : ∃ s, uqPushes (some 2) {} [⟨0, 1, 0, 10⟩, ⟨0, 2, 0, 20⟩, ⟨0, 1, 0, 11⟩, ⟨0, 3, 0, 30⟩, ⟨0, 1, 0, 12⟩] = some s ∧
    s.heap = [⟨0, 3, 0, 30⟩, ⟨0, 1, 0, 12⟩] := ⟨⟨_, [3, 1]⟩, by decide, rfl⟩

end Verif.Memory.Claims
