import Verif.Memory.Batch
import Verif.Claims.Memory
/-!
# C157: what is sampled, stored and trained on belongs together
-/
namespace Verif.Memory.Claims
open Verif.Memory

variable {A O P G : Type}

/-! ## From the memory -/

theorem pqPush_mem {cap : Option Nat} {q q' : Q} {e x : Entry} (h : pqPush cap q e = some q') (hx : x ∈ q'.heap) :
    x ∈ q.heap ∨ x = e := by
  unfold pqPush at h
  by_cases h1 : e.id ∈ q.uniq
  · rw [if_pos h1] at h; injection h with h; subst h; exact Or.inl hx
  rw [if_neg h1] at h
  by_cases h2 : full cap q.heap = true
  · rw [if_pos h2] at h
    simp only [Option.map_eq_some_iff] at h
    obtain ⟨u, _, rfl⟩ := h
    have := (heappushpop_perm q.heap e).mem_iff (a := x)
    have hm : x ∈ e :: q.heap := this.1 (List.mem_cons_of_mem _ hx)
    rcases List.mem_cons.1 hm with h | h
    · exact Or.inr h
    · exact Or.inl h
  · rw [if_neg h2] at h
    injection h with h; subst h
    rcases List.mem_cons.1 ((heappush_perm q.heap e).mem_iff.1 hx) with h | h
    · exact Or.inr h
    · exact Or.inl h

theorem pqPushRmSame_mem {eps : Int} {cap : Option Nat} {q q' : Q} {e x : Entry} (h : pqPushRmSame eps cap q e = some q')
    (hx : x ∈ q'.heap) : x ∈ q.heap ∨ x = e := by
  unfold pqPushRmSame at h
  by_cases h1 : e.id ∈ q.uniq ∨ sameLong eps q.heap e = true
  · rw [if_pos h1] at h; injection h with h; subst h; exact Or.inl hx
  rw [if_neg h1] at h
  by_cases h2 : full cap q.heap = true
  · rw [if_pos h2] at h
    split at h
    · next k y _ =>
      simp only [Option.map_eq_some_iff] at h
      obtain ⟨u, _, rfl⟩ := h
      exact List.mem_or_eq_of_mem_set hx
    · simp only [Option.map_eq_some_iff] at h
      obtain ⟨u, _, rfl⟩ := h
      have := (heappushpop_perm q.heap e).mem_iff (a := x)
      have hm : x ∈ e :: q.heap := this.1 (List.mem_cons_of_mem _ hx)
      rcases List.mem_cons.1 hm with h | h
      · exact Or.inr h
      · exact Or.inl h
  · rw [if_neg h2] at h
    injection h with h; subst h
    rcases List.mem_cons.1 ((heappush_perm q.heap e).mem_iff.1 hx) with h | h
    · exact Or.inr h
    · exact Or.inl h

theorem uqPush_mem {cap : Option Nat} {q q' : Q} {e x : Entry} (h : uqPush cap q e = some q') (hx : x ∈ q'.heap) :
    x ∈ q.heap ∨ x = e := by
  unfold uqPush at h
  by_cases h1 : e.id ∈ q.uniq
  · rw [if_pos h1] at h; injection h with h; subst h
    rcases List.mem_append.1 hx with h | h
    · exact Or.inl (List.mem_of_mem_eraseP h)
    · exact Or.inr (List.mem_singleton.1 h)
  rw [if_neg h1] at h
  simp only [Option.map_eq_some_iff] at h
  obtain ⟨s', hs', rfl⟩ := h
  rcases List.mem_append.1 hx with h | h
  · left
    by_cases h2 : full cap q.heap = true
    · rw [if_pos h2] at hs'
      unfold uqPop at hs'
      cases hh : q.heap with
      | nil => rw [hh] at hs'; injection hs' with hs'; subst hs'; rw [hh] at h; exact h
      | cons y ys =>
        rw [hh] at hs'
        simp only [Option.map_eq_some_iff] at hs'
        obtain ⟨u, _, rfl⟩ := hs'
        exact List.mem_cons_of_mem _ h
    · rw [if_neg h2] at hs'; injection hs' with hs'; subst hs'; exact h
  · exact Or.inr (List.mem_singleton.1 h)

theorem push_mem {k : Kind} {q q' : Q} {e x : Entry} (h : k.push q e = some q') (hx : x ∈ q'.heap) : x ∈ q.heap ∨ x = e := by
  unfold Kind.push at h
  by_cases h1 : k.removeSame = true
  · rw [if_pos h1] at h
    by_cases h2 : k.priority = true
    · rw [if_pos h2] at h; exact pqPushRmSame_mem h hx
    · rw [if_neg h2] at h; exact absurd h (by simp)
  · rw [if_neg h1] at h
    by_cases h2 : k.priority = true
    · rw [if_pos h2] at h; exact pqPush_mem h hx
    · rw [if_neg h2] at h; exact uqPush_mem h hx

/-- What is asked of an entry of the memory: it came with row `i` of a pushed batch – all six columns of that row – under the name of the
`i`-th program pushed with that batch. -/
def FromHistory (hist : List (Columns A O P × List Nat)) (m : Mem A O P) (e : Entry) : Prop :=
  ∃ x ∈ hist, ∃ (i : Nat) (row : Row A O P), x.2[i]? = some e.id ∧ getSample x.1 i = some row ∧ m.row e = some row ∧
    row.reward = e.score ∧ row.length = e.len

theorem pushSample_origin {k : Kind} {m m' : Mem A O P} {row : Row A O P} {id : Nat} (h : pushSample k m row id = some m') :
    (∃ ext, m'.store = m.store ++ ext) ∧
    ∀ e ∈ m'.q.heap, e ∈ m.q.heap ∨ (e.id = id ∧ m'.row e = some row ∧ row.reward = e.score ∧ row.length = e.len) := by
  unfold pushSample at h
  simp only [Option.map_eq_some_iff] at h
  obtain ⟨q, hq, rfl⟩ := h
  refine ⟨⟨[row], rfl⟩, ?_⟩
  intro e he
  rcases push_mem hq he with h | h
  · exact Or.inl h
  · subst h
    refine Or.inr ⟨rfl, ?_, rfl, rfl⟩
    simp [Mem.row]

theorem row_mono {m m' : Mem A O P} {ext : List (Row A O P)} (h : m'.store = m.store ++ ext) {e : Entry} {row : Row A O P}
    (hr : m.row e = some row) : m'.row e = some row := by
  unfold Mem.row at *
  rw [h]
  have hlt : e.data < m.store.length := by
    rcases Nat.lt_or_ge e.data m.store.length with h | h
    · exact h
    · rw [List.getElem?_eq_none h] at hr; exact absurd hr (by simp)
  rw [List.getElem?_append_left hlt]; exact hr

theorem pushFrom_origin {k : Kind} {b : Columns A O P} (ids : List Nat) (i : Nat) (m m' : Mem A O P)
    (h : pushFrom k b i ids m = some m') :
    (∃ ext, m'.store = m.store ++ ext) ∧
    ∀ e ∈ m'.q.heap, e ∈ m.q.heap ∨ ∃ (j : Nat) (row : Row A O P), ids[j]? = some e.id ∧ getSample b (i + j) = some row ∧
      m'.row e = some row ∧ row.reward = e.score ∧ row.length = e.len := by
  induction ids generalizing i m with
  | nil =>
    simp only [pushFrom] at h; injection h with h; subst h
    exact ⟨⟨[], by simp⟩, fun e he => Or.inl he⟩
  | cons id ids ih =>
    simp only [pushFrom, Option.bind_eq_bind, Option.bind_eq_some_iff] at h
    obtain ⟨row, hrow, m1, hm1, hrest⟩ := h
    obtain ⟨⟨ext1, he1⟩, ho1⟩ := pushSample_origin hm1
    obtain ⟨⟨ext2, he2⟩, ho2⟩ := ih (i + 1) m1 hrest
    refine ⟨⟨ext1 ++ ext2, by rw [he2, he1, List.append_assoc]⟩, ?_⟩
    intro e he
    rcases ho2 e he with h | ⟨j, row', h1, h2, h3⟩
    · rcases ho1 e h with h | ⟨h1, h2, h3⟩
      · exact Or.inl h
      · refine Or.inr ⟨0, row, ?_, hrow, row_mono he2 h2, h3⟩
        simp [h1]
    · refine Or.inr ⟨j + 1, row', ?_, ?_, h3⟩
      · simpa using h1
      · rw [show i + (j + 1) = i + 1 + j by omega]; exact h2

/-- **C157** (storing): after any history of pushed batches, every entry of the memory carries one whole row of one pushed batch, under the
name of the program pushed with that row, and is ranked by the reward of that row. -/
theorem C157_stored (k : Kind) (hist : List (Columns A O P × List Nat)) (m : Mem A O P)
    (h : hist.foldlM (fun m x => pushBatch k m x.1 x.2) {} = some m) : ∀ e ∈ m.q.heap, FromHistory hist m e := by
  suffices H : ∀ (rest done : List (Columns A O P × List Nat)) (m0 : Mem A O P), (∀ e ∈ m0.q.heap, FromHistory (done ++ rest) m0 e) →
      rest.foldlM (fun m x => pushBatch k m x.1 x.2) m0 = some m → ∀ e ∈ m.q.heap, FromHistory (done ++ rest) m e by
    exact H hist [] {} (fun e he => by simp at he) h
  intro rest
  induction rest with
  | nil =>
    intro done m0 h0 hf
    simp only [List.foldlM_nil] at hf
    injection hf with hf; subst hf; exact h0
  | cons x rest ih =>
    intro done m0 h0 hf
    simp only [List.foldlM_cons, Option.bind_eq_bind, Option.bind_eq_some_iff] at hf
    obtain ⟨m1, hm1, hf⟩ := hf
    have key := ih (done ++ [x]) m1 (by
      intro e he
      obtain ⟨⟨ext, hext⟩, ho⟩ := pushFrom_origin x.2 0 m0 m1 hm1
      rcases ho e he with h | ⟨j, row, h1, h2, h3⟩
      · obtain ⟨y, hy, i, row, a1, a2, a3, a4⟩ := h0 e h
        exact ⟨y, by simpa using hy, i, row, a1, a2, row_mono hext a3, a4⟩
      · refine ⟨x, by simp, j, row, h1, by simpa using h2, h3⟩) hf
    simpa using key

theorem mapM_some_get {α β : Type} {f : α → Option β} {l : List α} {r : List β} (h : l.mapM f = some r) :
    r.length = l.length ∧ ∀ (j : Nat) (a : α), l[j]? = some a → ∃ b, f a = some b ∧ r[j]? = some b := by
  induction l generalizing r with
  | nil => simp at h; subst h; simp
  | cons x xs ih =>
    simp only [List.mapM_cons, Option.bind_eq_bind, Option.bind_eq_some_iff, Option.pure_def] at h
    obtain ⟨y, hy, ys, hys, hr⟩ := h
    injection hr with hr; subst hr
    obtain ⟨h1, h2⟩ := ih hys
    refine ⟨by simp [h1], ?_⟩
    intro j a hj
    cases j with
    | zero => simp at hj; subst hj; exact ⟨y, hy, by simp⟩
    | succ j => simp at hj; obtain ⟨b, hb⟩ := h2 j a hj; exact ⟨b, by simpa using hb⟩

theorem mapM_total {α β : Type} {f : α → Option β} {l : List α} (h : ∀ a ∈ l, ∃ b, f a = some b) : ∃ r, l.mapM f = some r := by
  induction l with
  | nil => exact ⟨[], rfl⟩
  | cons x xs ih =>
    obtain ⟨y, hy⟩ := h x (by simp)
    obtain ⟨ys, hys⟩ := ih (fun a ha => h a (by simp [ha]))
    exact ⟨y :: ys, by simp [List.mapM_cons, hy, hys]⟩

theorem makeBatch_get {rows : List (Row A O P)} {b : Columns A O P} (h : makeBatch rows = some b) (j : Nat) :
    getSample b j = rows[j]? := by
  unfold makeBatch at h
  by_cases h0 : rows.isEmpty = true
  · rw [if_pos h0] at h; exact absurd h (by simp)
  rw [if_neg h0] at h
  injection h with h; subst h
  unfold getSample
  simp only [List.getElem?_map]
  cases rows[j]? <;> rfl

/-- **C157** (sampling): a batch drawn from the memory has one row for every draw, and it is – in all six columns – the row stored with the
entry that was drawn. -/
theorem C157_sampled (m : Mem A O P) (draws : List Nat) (b : Columns A O P) (h : sampleBatch m draws = some b) :
    b.actions.length = draws.length ∧
    ∀ (j i : Nat), draws[j]? = some i → ∃ e row, m.q.heap[i]? = some e ∧ m.row e = some row ∧ getSample b j = some row := by
  unfold sampleBatch at h
  by_cases h0 : m.q.heap.isEmpty = true
  · rw [if_pos h0] at h; exact absurd h (by simp)
  rw [if_neg h0] at h
  simp only [Option.bind_eq_bind, Option.bind_eq_some_iff] at h
  obtain ⟨es, hes, rows, hrows, hb⟩ := h
  obtain ⟨l1, g1⟩ := mapM_some_get hes
  obtain ⟨l2, g2⟩ := mapM_some_get hrows
  refine ⟨?_, ?_⟩
  · unfold makeBatch at hb
    by_cases h1 : rows.isEmpty = true
    · rw [if_pos h1] at hb; exact absurd hb (by simp)
    rw [if_neg h1] at hb
    injection hb with hb; subst hb
    simp [l2, l1]
  · intro j i hj
    obtain ⟨e, he, hej⟩ := g1 j i hj
    obtain ⟨row, hrow, hrj⟩ := g2 j e hej
    exact ⟨e, row, he, hrow, by rw [makeBatch_get hb, hrj]⟩

/-- **C157** (no failure): sampling from a non-empty memory never fails, for draws within the memory and a positive number of them; from an
empty one it always raises. -/
theorem C157_sample_total (k : Kind) (hist : List (Columns A O P × List Nat)) (m : Mem A O P)
    (h : hist.foldlM (fun m x => pushBatch k m x.1 x.2) {} = some m) (draws : List Nat) (hd : ∀ i ∈ draws, i < m.q.heap.length)
    (hne : draws ≠ []) : (sampleBatch m draws = none ↔ m.q.heap = []) := by
  constructor
  · intro hn
    apply Classical.byContradiction
    intro hh
    unfold sampleBatch at hn
    rw [if_neg (by simpa using hh)] at hn
    have hrow : ∀ e ∈ m.q.heap, ∃ row, m.row e = some row := by
      intro e he
      obtain ⟨x, _, i, row, _, _, hr, _⟩ := C157_stored k hist m h e he
      exact ⟨row, hr⟩
    obtain ⟨es, hes⟩ := mapM_total (f := fun (i : Nat) => m.q.heap[i]?) (l := draws)
      (fun i hi => ⟨m.q.heap[i]'(hd i hi), List.getElem?_eq_getElem (hd i hi)⟩)
    obtain ⟨l1, g1⟩ := mapM_some_get hes
    obtain ⟨rows, hrows⟩ := mapM_total (f := m.row) (l := es) (by
      intro e he
      obtain ⟨j, hj, hje⟩ := List.mem_iff_getElem.1 he
      obtain ⟨e', h1, h2⟩ := g1 j (draws[j]'(by omega)) (List.getElem?_eq_getElem _)
      rw [List.getElem?_eq_getElem hj, hje] at h2
      injection h2 with h2; subst h2
      exact hrow e (List.mem_of_getElem? h1))
    obtain ⟨l2, _⟩ := mapM_some_get hrows
    rw [hes] at hn
    simp only [Option.bind_eq_bind, Option.bind_some, hrows, makeBatch] at hn
    have : rows.isEmpty = false := by
      cases rows with
      | nil =>
        simp only [List.length_nil] at l2
        rw [← l2] at l1
        exact absurd (List.length_eq_zero_iff.1 l1.symm) hne
      | cons => rfl
    rw [this] at hn
    exact absurd hn (by simp)
  · intro hh
    unfold sampleBatch
    rw [if_pos (by simp [hh])]

/-- **C157** (reading): the whole memory as a batch lists exactly the stored rows, in the order of the entries, and the rewards and lengths
read off are those of these rows. -/
theorem C157_whole (m : Mem A O P) (b : Columns A O P) (h : toBatch m = some b) :
    getRewards m = some b.rewards ∧ getLengths m = some b.lengths ∧
    ∀ (j : Nat) (e : Entry), m.q.heap[j]? = some e → ∃ row, m.row e = some row ∧ getSample b j = some row := by
  unfold toBatch at h
  simp only [Option.bind_eq_bind, Option.bind_eq_some_iff] at h
  obtain ⟨rows, hrows, hb⟩ := h
  have hmap : ∀ {β : Type} (f : Row A O P → β) (l : List Entry) (rs : List (Row A O P)), l.mapM m.row = some rs →
      l.mapM (fun e => (m.row e).map f) = some (rs.map f) := by
    intro β f l
    induction l with
    | nil => intro rs hr; simp at hr; subst hr; rfl
    | cons e l ih =>
      intro rs hr
      simp only [List.mapM_cons, Option.bind_eq_bind, Option.bind_eq_some_iff, Option.pure_def] at hr
      obtain ⟨y, hy, ys, hys, hr⟩ := hr
      injection hr with hr; subst hr
      simp [List.mapM_cons, hy, ih ys hys]
  obtain ⟨_, g⟩ := mapM_some_get hrows
  have hb' := hb
  unfold makeBatch at hb
  by_cases h1 : rows.isEmpty = true
  · rw [if_pos h1] at hb; exact absurd hb (by simp)
  rw [if_neg h1] at hb
  injection hb with hb; subst hb
  refine ⟨hmap _ _ _ hrows, hmap _ _ _ hrows, ?_⟩
  intro j e hj
  obtain ⟨row, hr, hj'⟩ := g j e hj
  exact ⟨row, hr, by rw [makeBatch_get hb', hj']⟩

theorem argmaxFrom_spec (xs : List Int) : ∀ (pre : List Int) (j : Nat) (best : Int), pre[j]? = some best →
    (∀ (n : Nat) (y : Int), pre[n]? = some y → y ≤ best ∧ (n < j → y < best)) →
    ∃ m, (pre ++ xs)[argmaxFrom pre.length j best xs]? = some m ∧
      ∀ (n : Nat) (y : Int), (pre ++ xs)[n]? = some y → y ≤ m ∧ (n < argmaxFrom pre.length j best xs → y < m) := by
  induction xs with
  | nil =>
    intro pre j best hj h
    simp only [argmaxFrom, List.append_nil]
    exact ⟨best, hj, h⟩
  | cons x xs ih =>
    intro pre j best hj h
    have e : pre ++ x :: xs = (pre ++ [x]) ++ xs := by simp
    have hlen : (pre ++ [x]).length = pre.length + 1 := by simp
    have hjlt : j < pre.length := by
      rcases Nat.lt_or_ge j pre.length with h | h
      · exact h
      · rw [List.getElem?_eq_none h] at hj; exact absurd hj (by simp)
    simp only [argmaxFrom]
    rw [e, ← hlen]
    by_cases hx : best < x
    · rw [if_pos hx]
      apply ih (pre ++ [x]) pre.length x (by simp)
      intro n y hn
      rcases Nat.lt_or_ge n pre.length with hlt | hge
      · rw [List.getElem?_append_left hlt] at hn
        have := (h n y hn).1
        exact ⟨by omega, fun _ => by omega⟩
      · rw [List.getElem?_append_right hge] at hn
        have : n - pre.length = 0 := by
          rcases Nat.eq_zero_or_pos (n - pre.length) with h | h
          · exact h
          · rw [List.getElem?_eq_none (by simp; omega)] at hn; exact absurd hn (by simp)
        rw [this] at hn; simp at hn
        exact ⟨by omega, fun hh => by omega⟩
    · rw [if_neg hx]
      apply ih (pre ++ [x]) j best (by rw [List.getElem?_append_left hjlt]; exact hj)
      intro n y hn
      rcases Nat.lt_or_ge n pre.length with hlt | hge
      · rw [List.getElem?_append_left hlt] at hn
        exact h n y hn
      · rw [List.getElem?_append_right hge] at hn
        have : n - pre.length = 0 := by
          rcases Nat.eq_zero_or_pos (n - pre.length) with h | h
          · exact h
          · rw [List.getElem?_eq_none (by simp; omega)] at hn; exact absurd hn (by simp)
        rw [this] at hn; simp at hn
        exact ⟨by omega, fun hh => by omega⟩

/-- **C157** (the best): pushing the best of a batch pushes exactly the row with the largest reward (the first of several), together with the
program at the same position. -/
theorem C157_best (k : Kind) (m m' : Mem A O P) (b : Columns A O P) (programs : List Nat) (h : pushBest k m b programs = some m') :
    ∃ (i : Nat) (row : Row A O P) (id : Nat), getSample b i = some row ∧ programs[i]? = some id ∧ pushSample k m row id = some m' ∧
      (∀ r ∈ b.rewards, r ≤ row.reward) ∧ ∀ (n : Nat) (r : Int), n < i → b.rewards[n]? = some r → r < row.reward := by
  unfold pushBest at h
  simp only [Option.bind_eq_bind, Option.bind_eq_some_iff] at h
  obtain ⟨i, hi, row, hrow, id, hid, hp⟩ := h
  refine ⟨i, row, id, hrow, hid, hp, ?_⟩
  have hr : b.rewards[i]? = some row.reward := by
    unfold getSample at hrow
    simp only [Option.bind_eq_bind, Option.bind_eq_some_iff] at hrow
    obtain ⟨a, _, o, _, p, _, l, _, r, hr, c, _, he⟩ := hrow
    injection he with he; subst he; exact hr
  cases hb : b.rewards with
  | nil => rw [hb] at hr; simp at hr
  | cons x xs =>
    rw [hb] at hi
    simp only [argmax] at hi
    injection hi with hi
    obtain ⟨mx, h1, h2⟩ := argmaxFrom_spec xs [x] 0 x (by simp) (by
      intro n y hn
      cases n with
      | zero => simp at hn; exact ⟨by omega, fun h => absurd h (by omega)⟩
      | succ n => simp at hn)
    simp only [List.length_singleton, List.singleton_append] at h1 h2
    rw [hi] at h1 h2
    rw [hb, h1] at hr
    injection hr with hr; subst hr
    refine ⟨?_, ?_⟩
    · intro r hmem
      obtain ⟨n, hn, hnr⟩ := List.mem_iff_getElem.1 hmem
      exact (h2 n r (by rw [List.getElem?_eq_getElem hn, hnr])).1
    · intro n r hn hnr
      exact (h2 n r hnr).2 hn

/-! ## From the controller to the memory -/

/-- A sampled row: its actions, observation, prior, program, reward and flags. -/
structure SRow (A O P G : Type) where
  actions : A
  obs : O
  priors : P
  program : G
  reward : Int
  onPolicy : Bool
  invalid : Bool

/-- The columns of a list of rows. -/
def columns (rows : List (SRow A O P G)) : Sampled A O P G :=
  ⟨rows.map (·.actions), rows.map (·.obs), rows.map (·.priors), rows.map (·.program), rows.map (·.reward), rows.map (·.onPolicy),
    rows.map (·.invalid)⟩

theorem compress_map {R α : Type} (rows : List R) (f : R → α) (p : R → Bool) :
    compress (rows.map f) (rows.map p) = (rows.filter p).map f := by
  induction rows with
  | nil => rfl
  | cons x xs ih =>
    simp only [List.map_cons, compress, List.filter_cons]
    by_cases h : p x = true
    · rw [if_pos h, if_pos h, List.map_cons, ih]
    · rw [if_neg h, if_neg h, ih]

/-- **C157** (selection): the rows handed to training are exactly the sampled rows that are valid and whose reward reaches the quantile, in
order and whole: every column is reduced in the same way, and only the reward is clipped. -/
theorem C157_selected (rows : List (SRow A O P G)) (q M : Int) :
    (columns rows).select q M =
      columns ((rows.filter (fun x => decide (q ≤ x.reward) && !x.invalid)).map (fun x => { x with reward := min (max x.reward (-M)) M })) := by
  have e : ∀ x : SRow A O P G, (decide (q ≤ x.reward) && !x.invalid) = ((fun x : SRow A O P G => !x.invalid) x && (fun x => decide (q ≤ x.reward)) x) :=
    fun x => Bool.and_comm _ _
  have hf : rows.filter (fun x => decide (q ≤ x.reward) && !x.invalid) =
      (rows.filter (fun x => decide (q ≤ x.reward))).filter (fun x => !x.invalid) := by
    rw [List.filter_filter]
    exact List.filter_congr (fun x _ => e x)
  rw [hf]
  have hk : (rows.map (·.reward)).map (fun r => decide (q ≤ r)) = rows.map (fun x => decide (q ≤ x.reward)) := by
    rw [List.map_map]; rfl
  have hv : ((rows.filter (fun x => decide (q ≤ x.reward))).map (·.invalid)).map (fun b => !b) =
      (rows.filter (fun x => decide (q ≤ x.reward))).map (fun x => !x.invalid) := by
    rw [List.map_map]; rfl
  unfold Sampled.select columns
  simp only [hk, compress_map, hv]
  simp only [List.map_map]
  congr 1

theorem columns_append (rows agg : List (SRow A O P G)) (h : ∀ x ∈ agg, x.onPolicy = false) :
    (columns rows).append (columns agg) = columns (rows ++ agg) := by
  have : agg.map (fun x => x.onPolicy) = (agg.map (fun x => x.program)).map (fun _ => false) := by
    rw [List.map_map]
    exact List.map_congr_left (fun x hx => h x hx)
  unfold Sampled.append columns
  simp only [List.map_append, this]

/-- **C157** (training rows): the batch built from the selected rows and the rows of the aggregator holds, at every position, the actions,
observations, priors, reward and flag of one row, and the length of the program of that same row. -/
theorem C157_batch (rows agg : List (SRow A O P G)) (h : ∀ x ∈ agg, x.onPolicy = false) (len : G → Nat) (maxLength : Nat) (j : Nat) :
    getSample (((columns rows).append (columns agg)).batch len maxLength) j =
      ((rows ++ agg)[j]?).map (fun x => ⟨x.actions, x.obs, x.priors, min (len x.program) maxLength, x.reward, x.onPolicy⟩) ∧
    ((columns rows).append (columns agg)).programs[j]? = ((rows ++ agg)[j]?).map (·.program) := by
  rw [columns_append rows agg h]
  unfold getSample Sampled.batch columns
  simp only [List.getElem?_map, List.map_map]
  cases (rows ++ agg)[j]? <;> simp

/-- A case: two batches into a memory of capacity 2; the best two rows are kept and drawn back whole. -/
example :
    let b1 : Columns Nat Nat Nat := ⟨[10, 11], [20, 21], [30, 31], [3, 4], [5, 9], [true, false]⟩
    let b2 : Columns Nat Nat Nat := ⟨[12], [22], [32], [5], [7], [true]⟩
    let k : Kind := ⟨true, some 2, false, 0⟩
    ([(b1, [100, 101]), (b2, [102])].foldlM (fun m x => pushBatch k m x.1 x.2) {}).bind (fun m => sampleBatch m [1, 0, 1]) =
      some ⟨[11, 12, 11], [21, 22, 21], [31, 32, 31], [4, 5, 4], [9, 7, 9], [false, true, false]⟩ := by
  decide +kernel

end Verif.Memory.Claims
