import Verif.Dlga.Model
/-!
# C34, C35, C59: the genetic search of DLGA

## Specification
-/
namespace Verif.Claims
open Verif.Dlga

/-- A module (a product of library functions): between one and `maxLen` genes, each the index of a library function. -/
def LegalModule (lib maxLen : Nat) (m : Module) : Prop := m ≠ [] ∧ m.length ≤ maxLen ∧ ∀ a ∈ m, a < lib

/-- A genome (a sum of modules): at least one module, all legal. -/
def LegalGenome (lib maxLen : Nat) (g : Genome) : Prop := g ≠ [] ∧ ∀ m ∈ g, LegalModule lib maxLen m

/-- Whatever the random numbers, the computation returns (does not raise), with a result that satisfies `P`. -/
def Always {α : Type} (m : Gen α) (P : α → Prop) : Prop := ∀ s, ∃ a s', m s = .ok (a, s') ∧ P a

/-! ## Lemmas: reasoning about random computations -/

theorem always_pure {α : Type} {P : α → Prop} {a : α} (h : P a) : Always (pure a : Gen α) P := fun s => ⟨a, s, rfl, h⟩

theorem always_bind {α β : Type} {m : Gen α} {f : α → Gen β} {P : α → Prop} {Q : β → Prop} (hm : Always m P)
    (hf : ∀ a, P a → Always (f a) Q) : Always (m >>= f) Q := by
  intro s
  obtain ⟨a, s', e, ha⟩ := hm s
  obtain ⟨b, s'', e', hb⟩ := hf a ha s'
  refine ⟨b, s'', ?_, hb⟩
  show Gen.bind m f s = _
  simp only [Gen.bind, e, e']

theorem always_mono {α : Type} {m : Gen α} {P Q : α → Prop} (hm : Always m P) (h : ∀ a, P a → Q a) : Always m Q := fun s => by
  obtain ⟨a, s', e, ha⟩ := hm s
  exact ⟨a, s', e, h a ha⟩

theorem always_coin : Always coin (fun _ => True) := by
  refine always_bind (P := fun _ => True) (fun s => ⟨s 0, _, rfl, trivial⟩) (fun a _ => always_pure trivial)

theorem always_rand {n : Nat} (h : 0 < n) : Always (randBelow n) (fun a => a < n) := by
  unfold randBelow
  rw [if_neg (by omega)]
  exact always_bind (P := fun _ => True) (fun s => ⟨s 0, _, rfl, trivial⟩) (fun a _ => always_pure (Nat.mod_lt a h))

/-- A two-way branch on a coin. -/
theorem always_coin_ite {α : Type} {m1 m2 : Gen α} {P : α → Prop} (h1 : Always m1 P) (h2 : Always m2 P) :
    Always (do if ← coin then m1 else m2) P :=
  always_bind always_coin (fun b _ => by cases b <;> assumption)

/-! ## Lemmas: modules and genomes -/

theorem always_moduleLoop (lib maxLen : Nat) (hl : 0 < lib) (n : Nat) (acc : Module) (hn : acc.length + n ≤ maxLen)
    (hacc : ∀ a ∈ acc, a < lib) (hne : acc ≠ [] ∨ 0 < n) : Always (moduleLoop lib n acc) (LegalModule lib maxLen) := by
  induction n generalizing acc with
  | zero => exact always_pure ⟨by simpa using hne, by omega, hacc⟩
  | succ n ih =>
    unfold moduleLoop
    rw [if_neg (by omega)]
    refine always_bind (always_rand hl) (fun a ha => ?_)
    have hacc' : ∀ x ∈ acc ++ [a], x < lib := by
      intro x hx
      rcases List.mem_append.1 hx with hx | hx
      · exact hacc x hx
      · rw [List.mem_singleton.1 hx]; exact ha
    refine always_coin_ite (always_pure ⟨by simp, by simp; omega, hacc'⟩) (ih _ (by simp; omega) hacc' (Or.inl (by simp)))

theorem always_randomModule {lib maxLen : Nat} (hl : 0 < lib) (hm : 0 < maxLen) :
    Always (randomModule lib maxLen) (LegalModule lib maxLen) :=
  always_moduleLoop lib maxLen hl maxLen [] (by simp) (by simp) (Or.inr hm)

theorem sorted_perm (m : Module) : (sorted m).Perm m := List.perm_insertionSort _ _

theorem legal_sorted {lib maxLen : Nat} {m : Module} (h : LegalModule lib maxLen m) : LegalModule lib maxLen (sorted m) := by
  have hp := sorted_perm m
  refine ⟨fun e => ?_, by rw [hp.length_eq]; exact h.2.1, fun a ha => h.2.2 a (hp.mem_iff.1 ha)⟩
  rw [e] at hp
  exact h.1 hp.symm.eq_nil

/-- Legal, with at most `b` modules. -/
def LegalUpTo (lib maxLen b : Nat) (g : Genome) : Prop := LegalGenome lib maxLen g ∧ g.length ≤ b

theorem always_genomeLoop {lib maxLen : Nat} (hl : 0 < lib) (hm : 0 < maxLen) (n : Nat) (acc : Genome)
    (hn : acc.length + n ≤ maxLen) (hacc : ∀ m ∈ acc, LegalModule lib maxLen m) (hne : acc ≠ [] ∨ 0 < n) :
    Always (genomeLoop lib maxLen n acc) (LegalUpTo lib maxLen maxLen) := by
  induction n generalizing acc with
  | zero => exact always_pure ⟨⟨by simpa using hne, hacc⟩, by omega⟩
  | succ n ih =>
    unfold genomeLoop
    refine always_bind (always_randomModule hl hm) (fun m hml => ?_)
    simp only [if_neg hml.1]
    have hacc' : ∀ x ∈ acc ++ [sorted m], LegalModule lib maxLen x := by
      intro x hx
      rcases List.mem_append.1 hx with hx | hx
      · exact hacc x hx
      · rw [List.mem_singleton.1 hx]; exact legal_sorted hml
    exact always_coin_ite (always_pure ⟨⟨by simp, hacc'⟩, by simp; omega⟩) (ih _ (by simp; omega) hacc' (Or.inl (by simp)))

theorem always_randomGenome {lib maxLen : Nat} (hl : 0 < lib) (hm : 0 < maxLen) :
    Always (randomGenome lib maxLen) (LegalUpTo lib maxLen maxLen) :=
  always_genomeLoop hl hm maxLen [] (by simp) (by simp) (Or.inr hm)

theorem legal_set {lib maxLen b : Nat} {g : Genome} (h : LegalUpTo lib maxLen b g) (i : Nat) {m : Module}
    (hm : LegalModule lib maxLen m) : LegalUpTo lib maxLen b (g.set i m) := by
  refine ⟨⟨fun e => h.1.1 (by simpa using e), fun x hx => ?_⟩, by simpa using h.2⟩
  rcases List.mem_or_eq_of_mem_set hx with hx | hx
  · exact h.1.2 x hx
  · rw [hx]; exact hm

theorem getD_mem {g : Genome} {n : Nat} (h : n < g.length) : (g[n]?).getD [] ∈ g := by
  rw [List.getElem?_eq_getElem h]; exact List.getElem_mem h

theorem always_mutAdd {lib maxLen b : Nat} (hl : 0 < lib) (hm : 0 < maxLen) {g : Genome} (hg : LegalUpTo lib maxLen b g) :
    Always (mutAdd lib maxLen g) (LegalUpTo lib maxLen (b + 1)) := by
  have hg' : LegalUpTo lib maxLen (b + 1) g := ⟨hg.1, by have := hg.2; omega⟩
  unfold mutAdd
  refine always_coin_ite (always_bind (always_randomModule hl hm) (fun m hml => ?_)) (always_pure hg')
  refine always_pure ?_
  split
  · refine ⟨⟨by simp, fun x hx => ?_⟩, by have := hg.2; simp; omega⟩
    rcases List.mem_append.1 hx with hx | hx
    · exact hg.1.2 x hx
    · rw [List.mem_singleton.1 hx]; exact hml
  · exact hg'

theorem always_mutDelete {lib maxLen b : Nat} {g : Genome} (hg : LegalUpTo lib maxLen b g) :
    Always (mutDelete g) (LegalUpTo lib maxLen b) := by
  unfold mutDelete
  refine always_coin_ite ?_ (always_pure hg)
  by_cases hlen : g.length > 1
  · rw [if_pos hlen]
    refine always_bind (always_rand (by omega)) (fun i hi => always_pure ⟨⟨?_, fun x hx => ?_⟩, ?_⟩)
    · intro e
      have := congrArg List.length e
      rw [List.length_eraseIdx_of_lt hi] at this
      simp at this; omega
    · exact hg.1.2 x (List.mem_of_mem_eraseIdx hx)
    · have := List.length_eraseIdx_le g i
      have := hg.2; omega
  · rw [if_neg hlen]; exact always_pure hg

theorem always_mutGene {lib maxLen b : Nat} (hl : 0 < lib) {g : Genome} (hg : LegalUpTo lib maxLen b g) :
    Always (mutGene lib g) (LegalUpTo lib maxLen b) := by
  unfold mutGene
  refine always_coin_ite ?_ (always_pure hg)
  rw [if_pos ⟨hl, hg.1.1⟩]
  refine always_bind (always_rand (List.length_pos_iff.2 hg.1.1)) (fun n1 hn1 => ?_)
  have hmem := getD_mem hn1
  generalize (g[n1]?).getD [] = m at hmem
  have hm := hg.1.2 m hmem
  rw [if_pos hm.1]
  refine always_bind (always_rand (List.length_pos_iff.2 hm.1)) (fun n2 _ => always_bind (always_rand hl) (fun a ha => ?_))
  refine always_pure (legal_set hg n1 ⟨fun e => hm.1 (by simpa using e), by simpa using hm.2.1, fun x hx => ?_⟩)
  rcases List.mem_or_eq_of_mem_set hx with hx | hx
  · exact hm.2.2 x hx
  · rw [hx]; exact ha

theorem dedupLoop_mem (g acc : Genome) (x : Module) : x ∈ dedupLoop g acc ↔ x ∈ acc ∨ ∃ m ∈ g, x = sorted m := by
  induction g generalizing acc with
  | nil => simp [dedupLoop]
  | cons m r ih =>
    rw [dedupLoop, ih]
    by_cases h : sorted m ∈ acc
    · rw [if_neg (by simpa using h)]
      constructor
      · rintro (h' | ⟨m', h1, h2⟩)
        · exact Or.inl h'
        · exact Or.inr ⟨m', List.mem_cons_of_mem _ h1, h2⟩
      · rintro (h' | ⟨m', h1, h2⟩)
        · exact Or.inl h'
        · rcases List.mem_cons.1 h1 with rfl | h1
          · exact Or.inl (h2 ▸ h)
          · exact Or.inr ⟨m', h1, h2⟩
    · rw [if_pos h]
      constructor
      · rintro (h' | ⟨m', h1, h2⟩)
        · rcases List.mem_append.1 h' with h' | h'
          · exact Or.inl h'
          · exact Or.inr ⟨m, List.mem_cons_self, List.mem_singleton.1 h'⟩
        · exact Or.inr ⟨m', List.mem_cons_of_mem _ h1, h2⟩
      · rintro (h' | ⟨m', h1, h2⟩)
        · exact Or.inl (List.mem_append_left _ h')
        · rcases List.mem_cons.1 h1 with rfl | h1
          · exact Or.inl (by rw [h2]; simp)
          · exact Or.inr ⟨m', h1, h2⟩

theorem dedupLoop_length (g acc : Genome) : (dedupLoop g acc).length ≤ acc.length + g.length := by
  induction g generalizing acc with
  | nil => simp [dedupLoop]
  | cons m r ih =>
    rw [dedupLoop]
    refine Nat.le_trans (ih _) ?_
    split
    · simp; omega
    · simp

theorem legal_dedup {lib maxLen b : Nat} {g : Genome} (hg : LegalUpTo lib maxLen b g) : LegalUpTo lib maxLen b (dedup g) := by
  refine ⟨⟨fun e => ?_, fun x hx => ?_⟩, ?_⟩
  · obtain ⟨m, hm⟩ := List.exists_mem_of_ne_nil g hg.1.1
    have : sorted m ∈ dedup g := (dedupLoop_mem g [] _).2 (Or.inr ⟨m, hm, rfl⟩)
    rw [e] at this; cases this
  · rcases (dedupLoop_mem g [] x).1 hx with hx | ⟨m, hm, rfl⟩
    · cases hx
    · exact legal_sorted (hg.1.2 m hm)
  · have := dedupLoop_length g []
    have := hg.2
    unfold dedup; simp at *; omega

/-! ## Lemmas: the population -/

/-- A population of `n` legal genomes with at most `b` modules. -/
structure DlgaPopOk (lib maxLen b n : Nat) (p : Pop) : Prop where
  size : p.chrom.length = n
  refs : ∀ r ∈ p.chrom, r < p.heap.length
  legal : ∀ g ∈ p.heap, LegalUpTo lib maxLen b g

variable {lib maxLen b n : Nat}

theorem DlgaPopOk.mono {b' : Nat} {p : Pop} (h : DlgaPopOk lib maxLen b n p) (hb : b ≤ b') : DlgaPopOk lib maxLen b' n p :=
  ⟨h.size, h.refs, fun g hg => ⟨(h.legal g hg).1, Nat.le_trans (h.legal g hg).2 hb⟩⟩

theorem DlgaPopOk.get {p : Pop} (h : DlgaPopOk lib maxLen b n p) {i : Nat} (hi : i < n) :
    ∃ g, p.at? i = some g ∧ LegalUpTo lib maxLen b g := by
  have hi' : i < p.chrom.length := by rw [h.size]; exact hi
  have hr := h.refs _ (List.getElem_mem hi')
  refine ⟨p.heap[p.chrom[i]], ?_, h.legal _ (List.getElem_mem hr)⟩
  simp [Pop.at?, List.getElem?_eq_getElem hi', List.getElem?_eq_getElem hr]

theorem DlgaPopOk.modify {p : Pop} (h : DlgaPopOk lib maxLen b n p) (i : Nat) {g : Genome} (hg : LegalUpTo lib maxLen b g) :
    DlgaPopOk lib maxLen b n (p.modify i g) := by
  unfold Pop.modify
  split
  · exact h
  · refine ⟨h.size, fun r hr => by simpa using h.refs r hr, fun x hx => ?_⟩
    rcases List.mem_or_eq_of_mem_set hx with hx | hx
    · exact h.legal x hx
    · rw [hx]; exact hg

theorem DlgaPopOk.assign {p : Pop} (h : DlgaPopOk lib maxLen b n p) (i : Nat) {g : Genome} (hg : LegalUpTo lib maxLen b g) :
    DlgaPopOk lib maxLen b n (p.assign i g) := by
  unfold Pop.assign
  refine ⟨by simpa using h.size, fun r hr => ?_, fun x hx => ?_⟩
  · simp only [List.length_append, List.length_singleton]
    rcases List.mem_or_eq_of_mem_set hr with hr | hr
    · have := h.refs r hr; omega
    · omega
  · rcases List.mem_append.1 hx with hx | hx
    · exact h.legal x hx
    · rw [List.mem_singleton.1 hx]; exact hg

theorem DlgaPopOk.append {p : Pop} (h : DlgaPopOk lib maxLen b n p) {g : Genome} (hg : LegalUpTo lib maxLen b g) :
    DlgaPopOk lib maxLen b (n + 1) (p.append g) := by
  unfold Pop.append
  refine ⟨by simp [h.size], fun r hr => ?_, fun x hx => ?_⟩
  · simp only [List.length_append, List.length_singleton]
    rcases List.mem_append.1 hr with hr | hr
    · have := h.refs r hr; omega
    · rw [List.mem_singleton.1 hr]; omega
  · rcases List.mem_append.1 hx with hx | hx
    · exact h.legal x hx
    · rw [List.mem_singleton.1 hx]; exact hg

theorem DlgaPopOk.values {p : Pop} (h : DlgaPopOk lib maxLen b n p) :
    p.values.length = n ∧ ∀ g ∈ p.values, LegalUpTo lib maxLen b g := by
  constructor
  · unfold Pop.values
    have hrefs := h.refs
    rw [← h.size]
    generalize p.chrom = l at hrefs
    induction l with
    | nil => rfl
    | cons r l ih =>
      rw [List.filterMap_cons, List.getElem?_eq_getElem (hrefs r List.mem_cons_self)]
      simp only [List.length_cons, ih (fun x hx => hrefs x (List.mem_cons_of_mem _ hx))]
  · intro g hg
    obtain ⟨r, _, e⟩ := List.mem_filterMap.1 hg
    exact h.legal g (List.mem_of_getElem? e)

theorem always_loop {f : Pop → Nat → Gen Pop} {P : Nat → Pop → Prop} (m : Nat)
    (hf : ∀ i p, i < m → P i p → Always (f p i) (P (i + 1))) :
    ∀ k i p, i + k = m → P i p → Always (loopFrom f k i p) (P m) := by
  intro k
  induction k with
  | zero => intro i p hi hp; rw [← hi]; exact always_pure hp
  | succ k ih =>
    intro i p hi hp
    exact always_bind (hf i p (by omega) hp) (fun p' hp' => ih (i + 1) p' (by omega) hp')

theorem always_crossPair {p : Pop} (h : DlgaPopOk lib maxLen b n p) {i : Nat} (hi : 2 * i + 1 < n) :
    Always (crossPair p i) (DlgaPopOk lib maxLen b n) := by
  unfold crossPair
  obtain ⟨g1, e1, hg1⟩ := h.get (i := 2 * i) (by omega)
  obtain ⟨g2, e2, hg2⟩ := h.get hi
  simp only [e1, e2]
  refine always_bind (always_rand (List.length_pos_iff.2 hg1.1.1)) (fun n1 hn1 => ?_)
  refine always_bind (always_rand (List.length_pos_iff.2 hg2.1.1)) (fun n2 hn2 => ?_)
  refine always_pure ?_
  have h1 := h.modify (2 * i) (legal_set hg1 n1 (hg2.1.2 _ (getD_mem hn2)))
  obtain ⟨g3, e3, hg3⟩ := h1.get hi
  rw [e3]
  exact h1.modify _ (legal_set hg3 n2 (hg1.1.2 _ (getD_mem hn1)))

theorem always_crossOver {p : Pop} (h : DlgaPopOk lib maxLen b n p) {gens : Nat} (hg : 2 * (gens / 2) ≤ n) :
    Always (crossOver gens p) (DlgaPopOk lib maxLen b n) :=
  always_loop (P := fun _ => DlgaPopOk lib maxLen b n) (gens / 2)
    (fun i p hi hp => always_crossPair hp (by omega)) _ 0 p (by omega) h

theorem always_mutateOne (hl : 0 < lib) (hm : 0 < maxLen) {p : Pop} (h : DlgaPopOk lib maxLen b n p) {i : Nat} (hi : i < n) :
    Always (mutateOne lib maxLen p i) (DlgaPopOk lib maxLen (b + 1) n) := by
  unfold mutateOne
  obtain ⟨g, e, hg⟩ := h.get hi
  simp only [e]
  refine always_bind (always_mutAdd hl hm hg) (fun g1 h1 => always_bind (always_mutDelete h1) (fun g2 h2 =>
    always_bind (always_mutGene hl h2) (fun g3 h3 => always_pure ?_)))
  exact (h.mono (Nat.le_succ b)).modify i h3

theorem always_mutation (hl : 0 < lib) (hm : 0 < maxLen) {p : Pop} (h : DlgaPopOk lib maxLen b n p) :
    Always (mutation lib maxLen n p) (DlgaPopOk lib maxLen (b + n) n) :=
  always_loop (P := fun i => DlgaPopOk lib maxLen (b + i) n) n
    (fun i p hi hp => always_mutateOne hl hm hp hi) _ 0 p (by omega) h

theorem always_deleteDuplicates {p : Pop} (h : DlgaPopOk lib maxLen b n p) :
    Always (deleteDuplicates n p) (DlgaPopOk lib maxLen b n) := by
  refine always_loop (P := fun _ => DlgaPopOk lib maxLen b n) n (fun i p hi hp => ?_) _ 0 p (by omega) h
  unfold dedupOne
  obtain ⟨g, e, hg⟩ := hp.get hi
  simp only [e]
  exact always_pure (hp.assign i (legal_dedup hg))

theorem always_fill (hl : 0 < lib) (hm : 0 < maxLen) (hb : maxLen ≤ b) (k : Nat) {p : Pop} (h : DlgaPopOk lib maxLen b n p) :
    Always (fill lib maxLen k p) (fun p' => DlgaPopOk lib maxLen b (n + k) p' ∧ p.heap <+: p'.heap ∧ p.chrom <+: p'.chrom) := by
  induction k generalizing n p with
  | zero => exact always_pure ⟨h, List.prefix_refl _, List.prefix_refl _⟩
  | succ k ih =>
    refine always_bind (always_randomGenome hl hm) (fun g hg => ?_)
    have hg' : LegalUpTo lib maxLen b g := ⟨hg.1, Nat.le_trans hg.2 hb⟩
    refine always_mono (ih (h.append hg')) (fun p' hp' => ?_)
    rw [show n + 1 + k = n + (k + 1) from by omega] at hp'
    exact ⟨hp'.1, (List.prefix_append _ _).trans hp'.2.1, (List.prefix_append _ _).trans hp'.2.2⟩

/-! ## Lemmas: selection -/

variable {V F : Type} [LinearOrder F]

omit [LinearOrder F] in
theorem always_evalAll (ev : Genome → Eval V F) {p : Pop} (h : DlgaPopOk lib maxLen b n p) :
    ∀ k i, i + k = n → Always (evalAll ev p k i) (fun evs => evs.length = k ∧
      ∀ (j : Nat) g, j < k → p.at? (i + j) = some g → evs[j]? = some (ev g)) := by
  intro k
  induction k with
  | zero => intro i _; exact always_pure ⟨rfl, fun j g hj => by omega⟩
  | succ k ih =>
    intro i hi
    unfold evalAll
    obtain ⟨g, e, _⟩ := h.get (i := i) (by omega)
    simp only [e]
    refine always_bind (ih (i + 1) (by omega)) (fun r hr => always_pure ⟨by simp [hr.1], fun j g' hj hj' => ?_⟩)
    cases j with
    | zero =>
      simp only [Nat.add_zero] at hj'
      rw [e] at hj'; cases hj'; rfl
    | succ j =>
      rw [List.getElem?_cons_succ]
      exact hr.2 j g' (by omega) (by rw [← hj']; congr 1; omega)

theorem nsmallest_mem {k : Nat} {xs : List F} {x : F} (h : x ∈ nsmallest k xs) : x ∈ xs :=
  (List.mem_insertionSort _).1 (List.mem_of_mem_take h)

theorem nsmallest_length (k : Nat) (xs : List F) : (nsmallest k xs).length = min k xs.length := by
  simp [nsmallest]

theorem nsmallest_head {k : Nat} (hk : 0 < k) {xs : List F} (hx : xs ≠ []) :
    ∃ m r, nsmallest k xs = m :: r ∧ m ∈ xs ∧ ∀ x ∈ xs, m ≤ x := by
  have hs := List.pairwise_insertionSort (· ≤ ·) xs
  have hp := List.perm_insertionSort (· ≤ ·) xs
  unfold nsmallest
  generalize xs.insertionSort (· ≤ ·) = l at hs hp
  cases l with
  | nil => exact absurd hp.symm.eq_nil hx
  | cons m r =>
    obtain ⟨k', rfl⟩ : ∃ k', k = k' + 1 := ⟨k - 1, by omega⟩
    refine ⟨m, r.take k', by simp, hp.mem_iff.1 List.mem_cons_self, fun x hx => ?_⟩
    rcases List.mem_cons.1 (hp.mem_iff.2 hx) with rfl | hx
    · exact le_refl _
    · exact (List.pairwise_cons.1 hs).1 x hx

/-- What selection guarantees. -/
structure Selected (ev : Genome → Eval V F) (n : Nat) (p : Pop) (r : Result V F) : Prop where
  /-- the first genome is the best, with its evaluation -/
  first : ∃ g e, r.pop.at? 0 = some g ∧ r.kept.head? = some e ∧ e = ev g ∧ (∃ i, i < n ∧ p.at? i = some g) ∧
    (∀ i g', i < n → p.at? i = some g' → e.mse ≤ (ev g').mse) ∧ bestFitness r = some e.mse
  /-- every kept evaluation is that of the genome at its place, which was in the population -/
  kept : ∀ (k : Nat) e, r.kept[k]? = some e → ∃ g, r.pop.at? k = some g ∧ e = ev g ∧ ∃ i, i < n ∧ p.at? i = some g
  count : r.kept.length = n / 2
  /-- the scored genomes are those of the population -/
  scored : r.scored = (List.range n).filterMap p.at?

theorem at?_of_prefix {p p' : Pop} (hh : p.heap <+: p'.heap) (hc : p.chrom <+: p'.chrom) {i : Nat} {g : Genome}
    (h : p.at? i = some g) : p'.at? i = some g := by
  unfold Pop.at? at h ⊢
  cases hr : p.chrom[i]? with
  | none => rw [hr] at h; cases h
  | some r =>
    rw [hr] at h
    have h1 : p'.chrom[i]? = some r := by
      obtain ⟨t, ht⟩ := hc
      rw [← ht, List.getElem?_append_left (List.getElem?_eq_some_iff.1 hr).1]; exact hr
    have h2 : p'.heap[r]? = some g := by
      obtain ⟨t, ht⟩ := hh
      have h' : p.heap[r]? = some g := h
      rw [← ht, List.getElem?_append_left (List.getElem?_eq_some_iff.1 h').1]; exact h'
    rw [h1]; exact h2

/-- The kept list, described: as many as asked for, each a reference in the population with its evaluation, in ascending order of
fitness. -/
theorem keep_spec (ev : Genome → Eval V F) {p : Pop} (h : DlgaPopOk lib maxLen b n p) {evs : List (Eval V F)} (hlen : evs.length = n)
    (hev : ∀ (j : Nat) g, j < n → p.at? j = some g → evs[j]? = some (ev g)) (num : Nat) :
    (keep p evs num).map (fun q => q.2.mse) = nsmallest num (evs.map Eval.mse) ∧
    ∀ q ∈ keep p evs num, ∃ i g, i < n ∧ p.chrom[i]? = some q.1 ∧ p.at? i = some g ∧ q.2 = ev g := by
  have key : ∀ f ∈ nsmallest num (evs.map Eval.mse), ∃ r e i g, (evs.map Eval.mse).idxOf f = i ∧ i < n ∧ p.chrom[i]? = some r ∧
      evs[i]? = some e ∧ p.at? i = some g ∧ e = ev g ∧ e.mse = f := by
    intro f hf
    have hf' := nsmallest_mem hf
    have hi := List.idxOf_lt_length_of_mem hf'
    rw [List.length_map, hlen] at hi
    obtain ⟨g, hg, _⟩ := h.get hi
    have hc : (evs.map Eval.mse).idxOf f < p.chrom.length := by rw [h.size]; exact hi
    refine ⟨p.chrom[(evs.map Eval.mse).idxOf f], ev g, _, g, rfl, hi, List.getElem?_eq_getElem hc, hev _ g hi hg, hg, rfl, ?_⟩
    have hget : (evs.map Eval.mse)[(evs.map Eval.mse).idxOf f]? = some f := by
      have hlt := List.idxOf_lt_length_of_mem hf'
      rw [List.getElem?_eq_getElem hlt, List.getElem_idxOf hlt]
    rw [List.getElem?_map, hev _ g hi hg] at hget
    simpa using hget
  constructor
  · unfold keep
    rw [List.map_filterMap]
    conv_rhs => rw [← List.filterMap_some (l := nsmallest num (evs.map Eval.mse))]
    refine List.filterMap_congr (fun f hf => ?_)
    obtain ⟨r, e, i, g, rfl, _, hr, he, _, _, hm⟩ := key f hf
    simp only [hr, he, Option.map_some, hm]
  · intro q hq
    unfold keep at hq
    obtain ⟨f, hf, hq⟩ := List.mem_filterMap.1 hq
    obtain ⟨r, e, i, g, rfl, hi, hr, he, hg, hee, _⟩ := key f hf
    simp only [hr, he, Option.some.injEq] at hq
    subst hq
    exact ⟨_, g, hi, hr, hg, hee⟩

theorem always_select (ev : Genome → Eval V F) (hl : 0 < lib) (hm : 0 < maxLen) (hb : maxLen ≤ b) (hn : 2 ≤ n) {p : Pop}
    (h : DlgaPopOk lib maxLen b n p) :
    Always (select ev lib maxLen n p) (fun r => DlgaPopOk lib maxLen b n r.pop ∧ Selected ev n p r) := by
  unfold select
  refine always_bind (always_evalAll ev h n 0 (by omega)) (fun evs hevs => ?_)
  obtain ⟨hlen, hev⟩ := hevs
  have hev' : ∀ (j : Nat) g, j < n → p.at? j = some g → evs[j]? = some (ev g) := fun j g hj hg =>
    hev j g hj (by rw [Nat.zero_add]; exact hg)
  have hnum : min (n / 2) evs.length = n / 2 := by rw [hlen]; omega
  simp only [hnum]
  obtain ⟨hmse, hmem⟩ := keep_spec ev h hlen hev' (n / 2)
  have hklen : (keep p evs (n / 2)).length = n / 2 := by
    have := congrArg List.length hmse
    rw [List.length_map, nsmallest_length, List.length_map, hlen] at this
    omega
  generalize hkeep : keep p evs (n / 2) = ks at hmse hmem hklen
  have hok : DlgaPopOk lib maxLen b (n / 2) { p with chrom := ks.map Prod.fst } := by
    refine ⟨by simpa using hklen, fun r hr => ?_, h.legal⟩
    obtain ⟨q, hq, rfl⟩ := List.mem_map.1 hr
    obtain ⟨i, g, _, hc, _⟩ := hmem q hq
    exact h.refs _ (List.mem_of_getElem? hc)
  refine always_bind (always_fill hl hm hb (n - ks.length) hok) (fun p' hp' => always_pure ?_)
  obtain ⟨hp', hheap, hchrom⟩ := hp'
  have hat : ∀ (k : Nat) q, ks[k]? = some q → ∃ g, p'.at? k = some g ∧ q.2 = ev g ∧ ∃ i, i < n ∧ p.at? i = some g := by
    intro k q hk
    obtain ⟨i, g, hi, hc, hg, he⟩ := hmem q (List.mem_of_getElem? hk)
    refine ⟨g, at?_of_prefix hheap hchrom ?_, he, i, hi, hg⟩
    unfold Pop.at? at hg ⊢
    rw [hc] at hg
    simp only [List.getElem?_map, hk, Option.map_some]
    exact hg
  refine ⟨by rw [show n = n / 2 + (n - ks.length) from by omega]; exact hp', ?_, ?_, by simpa using hklen, rfl⟩
  · -- the first one
    have hevne : evs.map Eval.mse ≠ [] := by
      intro e
      have := congrArg List.length e
      simp [hlen] at this; omega
    obtain ⟨m, rest, hsm, _, hmin⟩ := nsmallest_head (k := n / 2) (by omega) hevne
    rw [hsm] at hmse
    cases ks with
    | nil => simp at hmse
    | cons q ks =>
      rw [List.map_cons, List.cons.injEq] at hmse
      obtain ⟨g, hg, he, hin⟩ := hat 0 q rfl
      have hle : ∀ i g', i < n → p.at? i = some g' → q.2.mse ≤ (ev g').mse := by
        intro i g' hi hg'
        rw [hmse.1]
        refine hmin _ (List.mem_map.2 ⟨ev g', List.mem_of_getElem? (hev' i g' hi hg'), rfl⟩)
      refine ⟨g, q.2, hg, by simp, he, hin, hle, ?_⟩
      unfold bestFitness
      simp only [List.map_cons, List.map_map]
      rw [List.min?_cons']
      congr 1
      have hall : ∀ x ∈ List.map (Eval.mse ∘ Prod.snd) ks, q.2.mse ≤ x := by
        intro x hx
        obtain ⟨q', hq', rfl⟩ := List.mem_map.1 hx
        obtain ⟨i, g', hi, _, hg', he'⟩ := hmem q' (List.mem_cons_of_mem _ hq')
        simp only [Function.comp, he']
        exact hle i g' hi hg'
      generalize List.map (Eval.mse ∘ Prod.snd) ks = xs at hall
      clear * - hall
      induction xs with
      | nil => rfl
      | cons x xs ih =>
        rw [List.foldl_cons, min_eq_left (hall x List.mem_cons_self)]
        exact ih (fun y hy => hall y (List.mem_cons_of_mem _ hy))
  · intro k e he
    rw [List.getElem?_map] at he
    cases hk : ks[k]? with
    | none => rw [hk] at he; cases he
    | some q =>
      rw [hk] at he
      simp only [Option.map_some, Option.some.injEq] at he
      subst he
      exact hat k q hk

/-! ## Lemmas: generations -/

theorem restoreElite_ok {p : Pop} (h : DlgaPopOk lib maxLen b n p) (hn : 0 < n) {best : Genome} (hb : LegalUpTo lib maxLen b best) :
    DlgaPopOk lib maxLen b n (restoreElite best p) ∧ (restoreElite best p).at? 0 = some best := by
  unfold restoreElite
  have hc : p.chrom ≠ [] := by intro e; have := h.size; rw [e] at this; simp at this; omega
  rw [if_neg hb.1.1, if_neg hc]
  refine ⟨h.assign 0 hb, ?_⟩
  have : 0 < p.chrom.length := by rw [h.size]; exact hn
  simp [Pop.at?, Pop.assign, this]

/-- One generation: the population stays legal, and the first genome is at least as good as the first one before. -/
theorem always_generation (ev : Genome → Eval V F) (hl : 0 < lib) (hm : 0 < maxLen) (hb : maxLen ≤ b) (hn : 2 ≤ n) {gens : Nat}
    (hg : 2 * (gens / 2) ≤ n) {p : Pop} (h : DlgaPopOk lib maxLen b n p) :
    Always (generation ev lib maxLen n gens p) (fun r => DlgaPopOk lib maxLen (b + n) n r.pop ∧
      ∃ best q, p.at? 0 = some best ∧ q.at? 0 = some best ∧ Selected ev n q r ∧ DlgaPopOk lib maxLen (b + n) n q) := by
  unfold generation
  obtain ⟨best, e, hbest⟩ := h.get (i := 0) (by omega)
  simp only [e, Option.getD_some]
  refine always_bind (always_crossOver h hg) (fun p1 h1 => always_bind (always_mutation hl hm h1) (fun p2 h2 =>
    always_bind (always_deleteDuplicates h2) (fun p3 h3 => ?_)))
  obtain ⟨h4, h5⟩ := restoreElite_ok h3 (by omega) (best := best) ⟨hbest.1, by have := hbest.2; omega⟩
  refine always_mono (always_select ev hl hm (by omega) hn h4) (fun r hr => ⟨hr.1, best, _, rfl, h5, hr.2, h4⟩)

/-- The histories: the results of the generations, most recent first, starting from a population with bound `b`. -/
inductive History (ev : Genome → Eval V F) (lib maxLen b n : Nat) (p0 : Pop) : List (Result V F) → Pop → Prop
  | start : DlgaPopOk lib maxLen b n p0 → History ev lib maxLen b n p0 [] p0
  | step {rs p r best q} : History ev lib maxLen b n p0 rs p → p.at? 0 = some best → q.at? 0 = some best → Selected ev n q r →
      DlgaPopOk lib maxLen (b + n * (rs.length + 1)) n q → DlgaPopOk lib maxLen (b + n * (rs.length + 1)) n r.pop → History ev lib maxLen b n p0 (r :: rs) r.pop

theorem History.ok {ev : Genome → Eval V F} {p0 p : Pop} {rs} (h : History ev lib maxLen b n p0 rs p) :
    DlgaPopOk lib maxLen (b + n * rs.length) n p := by
  cases h with
  | start h => simpa using h
  | step _ _ _ _ _ h => exact h

theorem always_generations (ev : Genome → Eval V F) (hl : 0 < lib) (hm : 0 < maxLen) (hb : maxLen ≤ b) (hn : 2 ≤ n) {gens : Nat}
    (hg : 2 * (gens / 2) ≤ n) {p0 : Pop} (h : DlgaPopOk lib maxLen b n p0) (k : Nat) :
    Always (generations ev lib maxLen n gens k p0) (fun x => x.1.length = k ∧ History ev lib maxLen b n p0 x.1 x.2) := by
  induction k with
  | zero => exact always_pure ⟨rfl, .start h⟩
  | succ k ih =>
    unfold generations
    refine always_bind ih (fun x hx => ?_)
    obtain ⟨rs, p⟩ := x
    obtain ⟨hlen, hx⟩ := hx
    have hok := hx.ok
    refine always_bind (always_generation ev hl hm (Nat.le_trans hb (Nat.le_add_right _ _)) hn hg hok) (fun r hr => always_pure ?_)
    obtain ⟨hr1, best, q, e1, e2, hsel, hq⟩ := hr
    refine ⟨by simp at hlen ⊢; exact hlen, .step hx e1 e2 hsel ?_ ?_⟩
    all_goals have e : b + n * rs.length + n = b + n * (rs.length + 1) := by rw [Nat.mul_add]; omega
    · rw [← e]; exact hq
    · rw [← e]; exact hr1

/-- In a history every result is a selection, and the best fitness never gets worse. -/
theorem History.facts {ev : Genome → Eval V F} {p0 p : Pop} {rs} (h : History ev lib maxLen b n p0 rs p) (hn : 0 < n) :
    (∀ (k : Nat) r, rs.reverse[k]? = some r → DlgaPopOk lib maxLen (b + n * (k + 1)) n r.pop ∧ ∃ q, Selected ev n q r ∧
      DlgaPopOk lib maxLen (b + n * (k + 1)) n q) ∧
    (rs.Pairwise (fun new old => ∀ x y, bestFitness new = some x → bestFitness old = some y → x ≤ y)) ∧
    (∀ r, rs.head? = some r → r.pop = p) := by
  induction h with
  | start => exact ⟨fun k r hr => by simp at hr, List.Pairwise.nil, fun r hr => by simp at hr⟩
  | @step rs p r best q hprev e1 e2 hsel hq hok ih =>
    obtain ⟨i1, i2, i3⟩ := ih
    refine ⟨fun k r' hr' => ?_, ?_, fun r' hr' => by simp at hr'; rw [hr']⟩
    · rw [List.reverse_cons] at hr'
      by_cases hk : k < rs.reverse.length
      · rw [List.getElem?_append_left hk] at hr'
        exact i1 k r' hr'
      · have hk2 := (List.getElem?_eq_some_iff.1 hr').1
        simp at hk hk2
        have hk3 : k = rs.length := by omega
        subst hk3
        rw [List.getElem?_append_right (by simp)] at hr'
        simp at hr'
        subst hr'
        exact ⟨hok, q, hsel, hq⟩
    · have hstep : ∀ old, rs.head? = some old → ∀ x y, bestFitness r = some x → bestFitness old = some y → x ≤ y := by
        intro old hold x y hx hy
        cases rs with
        | nil => cases hold
        | cons old' rs =>
          simp at hold
          subst hold
          have hpop := i3 old' rfl
          obtain ⟨_, qo, hso, _⟩ := i1 rs.length old' (by simp)
          obtain ⟨go, eo, ho1, _, ho3, _, _, ho5⟩ := hso.first
          obtain ⟨g, e, _, _, _, _, hle, hbf⟩ := hsel.first
          rw [hpop, e1] at ho1
          cases ho1
          have h1 := hle 0 best hn e2
          rw [hbf] at hx
          rw [ho5] at hy
          cases hx; cases hy
          rw [ho3]; exact h1
      refine List.pairwise_cons.2 ⟨fun old hold x y hx hy => ?_, i2⟩
      cases rs with
      | nil => cases hold
      | cons o rs =>
        obtain ⟨_, qo, hso, _⟩ := i1 rs.length o (by simp)
        obtain ⟨go, eo, _, _, _, _, _, ho5⟩ := hso.first
        have h1 := hstep o rfl x _ hx ho5
        rcases List.mem_cons.1 hold with rfl | hold
        · rw [ho5] at hy; cases hy; exact h1
        · exact le_trans h1 ((List.pairwise_cons.1 i2).1 old hold _ y ho5 hy)

/-- Everything about a run. -/
theorem always_evolution (ev : Genome → Eval V F) (lib maxLen n gens : Nat) (hl : 0 < lib) (hm : 0 < maxLen) (hn : 2 ≤ n)
    (hg : 0 < gens) (hg2 : 2 * (gens / 2) ≤ n) :
    Always (evolution ev lib maxLen n gens) (fun x => x.2.length = gens ∧ (∃ p0 p, History ev lib maxLen maxLen n p0 x.2 p) ∧
      ∃ g e r, x.1 = some (g, e) ∧ x.2.head? = some r ∧ r.pop.at? 0 = some g ∧ r.kept.head? = some e) := by
  unfold evolution
  have h0 : DlgaPopOk lib maxLen maxLen 0 { heap := [], chrom := [] } := ⟨rfl, by simp, by simp⟩
  refine always_bind (always_fill hl hm (Nat.le_refl _) n h0) (fun p0 hp0 => ?_)
  have hp0 := hp0.1
  rw [Nat.zero_add] at hp0
  refine always_bind (always_deleteDuplicates hp0) (fun p1 hp1 => ?_)
  refine always_bind (always_generations ev hl hm (Nat.le_refl _) hn hg2 hp1 gens) (fun x hx => ?_)
  obtain ⟨rs, p⟩ := x
  obtain ⟨hlen, hh⟩ := hx
  simp only at hlen hh ⊢
  obtain ⟨g, e, _⟩ := hh.ok.get (i := 0) (by omega)
  simp only [e]
  cases rs with
  | nil => simp at hlen; omega
  | cons r rs =>
    obtain ⟨i1, _, i3⟩ := hh.facts (by omega)
    have hpop := i3 r rfl
    obtain ⟨_, q, hs, _⟩ := i1 rs.length r (by simp)
    obtain ⟨g', e', f1, f2, f3, _⟩ := hs.first
    rw [hpop, e] at f1
    cases f1
    cases hk : r.kept with
    | nil => rw [hk] at f2; cases f2
    | cons e0 ks =>
      simp only [hk]
      refine always_pure ?_
      exact ⟨hlen, ⟨p1, p, hh⟩, g, e0, r, rfl, rfl, by rw [hpop]; exact e, by rw [hk]; rfl⟩

/-! ## Theorems -/

/-- **C34** (adding a term): mutation adds at most one term, never an empty one and never one the genome already has; a genome without repeated terms
stays without. -/
theorem C34_add_distinct {lib maxLen : Nat} (hl : 0 < lib) (hm : 0 < maxLen) (g : Genome) :
    Always (mutAdd lib maxLen g) (fun g' => (g' = g ∨ ∃ m, m ≠ [] ∧ m ∉ g ∧ g' = g ++ [m]) ∧ (g.Nodup → g'.Nodup)) := by
  unfold mutAdd
  refine always_coin_ite (always_bind (always_randomModule hl hm) (fun m hml => ?_)) (always_pure ⟨Or.inl rfl, id⟩)
  refine always_pure ?_
  split
  · rename_i h
    refine ⟨Or.inr ⟨m, h.1, h.2, rfl⟩, fun hn => ?_⟩
    rw [List.nodup_append]
    exact ⟨hn, by simp, fun a ha b hb e => h.2 (by rw [← List.mem_singleton.1 hb, ← e]; exact ha)⟩
  · exact ⟨Or.inl rfl, id⟩

/-- C34: whatever the random numbers, the search returns, and after every generation the population has the given size and consists
of genomes with at least one module, each with one to `maxLen` genes from the library.  After generation `k + 1` there are at most
`maxLen + n * (k + 1)` modules in a genome.  (At least one library function, modules of length one or more, two genomes or more, at
least one generation, and not more generations than genomes, see `C34_generations_counterexample`.)  Partial: the number of modules
is not bounded by `maxLen`, see `C34_length_counterexample`. -/
theorem C34_legal_partial (ev : Genome → Eval V F) (lib maxLen n gens : Nat) (hl : 0 < lib) (hm : 0 < maxLen) (hn : 2 ≤ n)
    (hg : 0 < gens) (hg2 : gens ≤ n) (s : Stream) :
    ∃ out rs s', evolution ev lib maxLen n gens s = .ok ((some out, rs), s') ∧ rs.length = gens ∧
      LegalGenome lib maxLen out.1 ∧
      ∀ (k : Nat) r, rs.reverse[k]? = some r → r.pop.values.length = n ∧
        ∀ g ∈ r.pop.values, LegalGenome lib maxLen g ∧ g.length ≤ maxLen + n * (k + 1) := by
  obtain ⟨x, s', e, h1, ⟨p0, p, hh⟩, g, ee, r, h2, h3, h4, _⟩ := always_evolution ev lib maxLen n gens hl hm hn hg (by omega) s
  obtain ⟨out, rs⟩ := x
  simp only at h1 h2 h3 hh
  subst h2
  obtain ⟨i1, _, i3⟩ := hh.facts (by omega)
  refine ⟨(g, ee), rs, s', e, h1, ?_, fun k r' hr' => ?_⟩
  · obtain ⟨g', e', hl'⟩ := hh.ok.get (i := 0) (by omega)
    rw [i3 r h3, e'] at h4
    cases h4
    exact hl'.1
  · exact (i1 k r' hr').1.values

/-- C35: in every run the best fitness recorded after a generation is at most the one recorded after any earlier generation. -/
theorem C35_monotone_partial (ev : Genome → Eval V F) (lib maxLen n gens : Nat) (hl : 0 < lib) (hm : 0 < maxLen) (hn : 2 ≤ n)
    (hg : 0 < gens) (hg2 : gens ≤ n) (s : Stream) :
    ∃ out rs s', evolution ev lib maxLen n gens s = .ok ((out, rs), s') ∧ rs.length = gens ∧
      ∃ hist : List F, rs.reverse.map bestFitness = hist.map some ∧ hist.Pairwise (fun older newer => newer ≤ older) := by
  obtain ⟨x, s', e, h1, ⟨p0, p, hh⟩, _⟩ := always_evolution ev lib maxLen n gens hl hm hn hg (by omega) s
  obtain ⟨out, rs⟩ := x
  obtain ⟨i1, i2, _⟩ := hh.facts (by omega)
  simp only at i1 i2 h1
  have hbf : ∀ r ∈ rs.reverse, ∃ f, bestFitness r = some f := by
    intro r hr
    obtain ⟨k, hk⟩ := List.getElem?_of_mem hr
    obtain ⟨_, q, hs, _⟩ := i1 k r hk
    obtain ⟨_, e, _, _, _, _, _, h⟩ := hs.first
    exact ⟨_, h⟩
  refine ⟨out, rs, s', e, h1, ?_⟩
  have i2' : rs.reverse.Pairwise (fun old new => ∀ x y, bestFitness new = some x → bestFitness old = some y → x ≤ y) := by
    rw [List.pairwise_reverse]; exact i2
  generalize rs.reverse = l at hbf i2'
  clear * - hbf i2'
  induction l with
  | nil => exact ⟨[], rfl, List.Pairwise.nil⟩
  | cons r l ih =>
    obtain ⟨hist, e1, e2⟩ := ih (fun r' hr' => hbf r' (List.mem_cons_of_mem _ hr')) (List.pairwise_cons.1 i2').2
    obtain ⟨f, hf⟩ := hbf r List.mem_cons_self
    refine ⟨f :: hist, by simp [hf, e1], List.pairwise_cons.2 ⟨fun x hx => ?_, e2⟩⟩
    have hx' : some x ∈ l.map bestFitness := by rw [e1]; exact List.mem_map.2 ⟨x, hx, rfl⟩
    obtain ⟨r', hr', e'⟩ := List.mem_map.1 hx'
    exact (List.pairwise_cons.1 i2').1 r' hr' x f e' hf

/-- C59: the returned coefficients, fitness and left-hand side are those of the returned genome, and its fitness is the best one
recorded in the last generation. -/
theorem C59_result_belongs (ev : Genome → Eval V F) (lib maxLen n gens : Nat) (hl : 0 < lib) (hm : 0 < maxLen) (hn : 2 ≤ n)
    (hg : 0 < gens) (hg2 : gens ≤ n) (s : Stream) :
    ∃ g rs last s', evolution ev lib maxLen n gens s = .ok ((some (g, ev g), rs), s') ∧ rs.head? = some last ∧
      bestFitness last = some (ev g).mse := by
  obtain ⟨x, s', e, h1, ⟨p0, p, hh⟩, g, ee, r, h2, h3, h4, h5⟩ := always_evolution ev lib maxLen n gens hl hm hn hg (by omega) s
  obtain ⟨out, rs⟩ := x
  simp only at h1 h2 h3 hh
  subst h2
  obtain ⟨i1, _, _⟩ := hh.facts (by omega)
  obtain ⟨_, q, hs, _⟩ := i1 (rs.length - 1) r (by
    cases rs with
    | nil => cases h3
    | cons r' rs => simp at h3; subst h3; simp)
  obtain ⟨g', e', f1, f2, f3, _, _, f6⟩ := hs.first
  rw [h4] at f1; cases f1
  rw [h5] at f2; cases f2
  subst f3
  exact ⟨g, rs, r, s', e, h3, f6⟩

/-! ### What does not hold -/

/-- Whatever the random numbers, the computation raises `e`. -/
def Fails {α : Type} (m : Gen α) (e : Err) : Prop := ∀ s, m s = .error e

theorem fails_left {α β : Type} {m : Gen α} {f : α → Gen β} {e : Err} (h : Fails m e) : Fails (m >>= f) e := fun s => by
  show Gen.bind m f s = _
  simp [Gen.bind, h s]

theorem fails_right {α β : Type} {m : Gen α} {f : α → Gen β} {P : α → Prop} {e : Err} (hm : Always m P)
    (hf : ∀ a, P a → Fails (f a) e) : Fails (m >>= f) e := fun s => by
  obtain ⟨a, s', e', ha⟩ := hm s
  show Gen.bind m f s = _
  simp only [Gen.bind, e']
  exact hf a ha s'

theorem at?_none {p : Pop} {i : Nat} (h : p.chrom.length ≤ i) : p.at? i = none := by
  simp [Pop.at?, List.getElem?_eq_none h]

theorem fails_crossPair {p : Pop} (h : DlgaPopOk lib maxLen b n p) {i : Nat} (hi : n ≤ 2 * i + 1) : Fails (crossPair p i) .index := by
  unfold crossPair
  cases e1 : p.at? (2 * i) with
  | none => exact fun s => rfl
  | some g1 =>
    have hlt : 2 * i < n := by
      rcases Nat.lt_or_ge (2 * i) n with h' | h'
      · exact h'
      · rw [at?_none (by rw [h.size]; exact h')] at e1; cases e1
    obtain ⟨g, e, hg⟩ := h.get hlt
    rw [e1] at e; cases e
    rw [at?_none (i := 2 * i + 1) (by rw [h.size]; exact hi)]
    exact fails_right (always_rand (List.length_pos_iff.2 hg.1.1)) (fun _ _ => fun s => rfl)

theorem fails_crossLoop : ∀ k i (p : Pop), DlgaPopOk lib maxLen b n p → n < 2 * (i + k) → 0 < k →
    Fails (loopFrom crossPair k i p) .index := by
  intro k
  induction k with
  | zero => intro i p _ _ h; omega
  | succ k ih =>
    intro i p hp hlt _
    unfold loopFrom
    rcases Nat.lt_or_ge (2 * i + 1) n with hi | hi
    · refine fails_right (always_crossPair hp hi) (fun p' hp' => ih (i + 1) p' hp' (by omega) ?_)
      omega
    · exact fails_left (fails_crossPair hp hi)

/-- C34 fails for more generations than genomes: `cross_over` takes the number of generations for the size of the population, so if
there are more generations than genomes (both even, say) the search always raises IndexError, in its first generation. -/
theorem C34_generations_counterexample (ev : Genome → Eval V F) (lib maxLen n gens : Nat) (hl : 0 < lib) (hm : 0 < maxLen)
    (hn : 2 ≤ n) (hg : n < 2 * (gens / 2)) : ∀ s, evolution ev lib maxLen n gens s = .error .index := by
  have h0 : DlgaPopOk lib maxLen maxLen 0 { heap := [], chrom := [] } := ⟨rfl, by simp, by simp⟩
  have hfail : ∀ p, DlgaPopOk lib maxLen maxLen n p → Fails (generation ev lib maxLen n gens p) .index := fun p hp =>
    fails_left (fails_crossLoop (gens / 2) 0 p hp (by omega) (by omega))
  have hgens : ∀ k, 0 < k → ∀ p, DlgaPopOk lib maxLen maxLen n p → Fails (generations ev lib maxLen n gens k p) .index := by
    intro k
    induction k with
    | zero => intro h; omega
    | succ k ih =>
      intro _ p hp
      unfold generations
      cases k with
      | zero => exact fails_right (P := fun x => x.2 = p) (always_pure rfl) (fun x hx => by
          obtain ⟨rs, p'⟩ := x
          simp only at hx
          subst hx
          exact fails_left (hfail p' hp))
      | succ k => exact fails_left (ih (by omega) p hp)
  show Fails _ _
  unfold evolution
  refine fails_right (always_fill hl hm (Nat.le_refl _) n h0) (fun p0 hp0 => ?_)
  have hp0 := hp0.1
  rw [Nat.zero_add] at hp0
  exact fails_right (always_deleteDuplicates hp0) (fun p1 hp1 => fails_left (hgens gens (by omega) p1 hp1))

/-- C34 fails for the base class with an odd population size: `DLGA.select` loses one genome. -/
theorem C34_base_odd_counterexample (ev : Genome → Eval V F) (hl : 0 < lib) (hm : 0 < maxLen) (hb : maxLen ≤ b) {p : Pop}
    (h : DlgaPopOk lib maxLen b n p) (hodd : n % 2 = 1) :
    Always (selectBase ev lib maxLen n p) (fun r => r.pop.values.length = n - 1) := by
  unfold selectBase
  refine always_bind (always_evalAll ev h n 0 (by omega)) (fun evs hevs => ?_)
  obtain ⟨hlen, hev⟩ := hevs
  have hev' : ∀ (j : Nat) g, j < n → p.at? j = some g → evs[j]? = some (ev g) := fun j g hj hg =>
    hev j g hj (by rw [Nat.zero_add]; exact hg)
  obtain ⟨hmse, hmem⟩ := keep_spec ev h hlen hev' (n / 2)
  have hklen : (keep p evs (n / 2)).length = n / 2 := by
    have := congrArg List.length hmse
    rw [List.length_map, nsmallest_length, List.length_map, hlen] at this
    omega
  have hok : DlgaPopOk lib maxLen b (n / 2) { p with chrom := (keep p evs (n / 2)).map Prod.fst } := by
    refine ⟨by simpa using hklen, fun r hr => ?_, h.legal⟩
    obtain ⟨q, hq, rfl⟩ := List.mem_map.1 hr
    obtain ⟨i, g, _, hc, _⟩ := hmem q hq
    exact h.refs _ (List.mem_of_getElem? hc)
  refine always_bind (always_fill hl hm hb (n / 2) hok) (fun p' hp' => always_pure ?_)
  have := hp'.1.values.1
  simp only
  omega

def exEvalLong (g : Genome) : Eval Unit Int := ⟨(), -(g.length : Int), "u_t"⟩

/-- The returned genome of a run, if it returns one. -/
def exWinner (ev : Genome → Eval Unit Int) (lib maxLen n gens : Nat) (s : Stream) : Option Genome :=
  match evolution ev lib maxLen n gens s with
  | .ok ((some (g, _), _), _) => some g
  | _ => none

/-- C34 fails in the bound on the number of modules: mutation adds modules without looking at the maximum.  Here the maximum is 1 and
the genome found has two modules. -/
theorem C34_length_counterexample : exWinner exEvalLong 2 1 2 2 (fun n => n / 3 + n / 7) = some [[0], [1]] := by
  decide +kernel

def exEvalGene (g : Genome) : Eval Unit Int := ⟨(), match g with | [[a]] => -(a : Int) | _ => 7, "u_t"⟩

/-- The fitness values of the initial population, and the best fitness after the first generation. -/
def exFirst (ev : Genome → Eval Unit Int) (lib maxLen n gens : Nat) (s : Stream) : Option (List Int × Option Int) :=
  match (do
    let p0 ← initial lib maxLen n { heap := [], chrom := [] }
    let p1 ← deleteDuplicates n p0
    let r ← generation ev lib maxLen n gens p1
    pure (p1.values.map (fun g => (ev g).mse), bestFitness r) : Gen (List Int × Option Int)) s with
  | .ok (x, _) => some x
  | _ => none

/-- C35 fails for the initial population: only its first genome is saved, so the best of the initial genomes (here with fitness -2) can
be lost in the first generation (best fitness 0). -/
theorem C35_initial_counterexample :
    exFirst exEvalGene 3 1 3 1 (fun n => n / 3 + 18 * n / 7) = some ([0, -2, -2], some 0) := by decide +kernel

/-- A concrete run of the theorems: 3 library functions, modules of up to 2, 4 genomes, 3 generations; ties make genomes shared. -/
example : (exWinner exEvalLong 3 2 4 3 (fun n => n * n / 3)).isSome = true := by decide +kernel

end Verif.Claims
