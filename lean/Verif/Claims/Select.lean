import Verif.Discover.Select
import Mathlib.Data.List.Pairwise
import Mathlib.Data.List.Nodup
import Mathlib.Data.Fin.VecNotation
import Mathlib.Algebra.Order.Group.Int
import Verif.Claims.Dlga
/-!
# C38 – the Pareto mask; C39, C63 – duplicate removal
-/
namespace Verif.Claims
open Verif.Discover

/-! ## C38 -/

section Pareto
variable {K : Type} [LinearOrder K] {m : Nat}

/-- Specification: row `a` is at least as good as `b` in every objective (costs are minimised). -/
def AtLeastAsGood (a b : Fin m → K) : Prop := ∀ i, a i ≤ b i

/-- Specification: `a` dominates `b`: at least as good everywhere, strictly better somewhere. -/
def Dominates (a b : Fin m → K) : Prop := AtLeastAsGood a b ∧ ∃ i, a i < b i

theorem anyLt_eq_false {r c : Fin m → K} : anyLt r c = false ↔ AtLeastAsGood c r := by
  simp [anyLt, AtLeastAsGood]

theorem compress_append {α : Type} (a b : List α) (x y : List Bool) (h : a.length = x.length) :
    compress (a ++ b) (x ++ y) = compress a x ++ compress b y := by
  simp [compress, List.zip_append h]

theorem compress_map {α : Type} (a : List α) (f : α → Bool) : compress a (a.map f) = a.filter f := by
  induction a with
  | nil => rfl
  | cons x a ih =>
    unfold compress at *
    by_cases h : f x <;> simp [h, ih]

theorem count_true_map {α : Type} (a : List α) (f : α → Bool) : (a.map f).count true = (a.filter f).length := by
  induction a with
  | nil => rfl
  | cons x a ih => by_cases h : f x <;> simp [h, ih]

theorem paretoMask_split (pre post : List (Nat × (Fin m → K))) (cur : Nat × (Fin m → K)) :
    paretoMask (pre ++ cur :: post) pre.length cur.2
      = pre.map (fun x => anyLt x.2 cur.2) ++ true :: post.map (fun x => anyLt x.2 cur.2) := by
  unfold paretoMask
  rw [List.map_append, List.set_append]
  simp

/-- One round of the loop. -/
theorem paretoLoop_step (f : Nat) (pre post : List (Nat × (Fin m → K))) (cur : Nat × (Fin m → K)) :
    paretoLoop (f + 1) (pre ++ cur :: post) pre.length
      = paretoLoop f ((pre.filter (fun x => anyLt x.2 cur.2) ++ [cur]) ++ post.filter (fun x => anyLt x.2 cur.2))
          (pre.filter (fun x => anyLt x.2 cur.2) ++ [cur]).length := by
  rw [paretoLoop]
  have hk : (pre ++ cur :: post)[pre.length]? = some cur := by simp
  rw [hk]
  simp only []
  rw [paretoMask_split, compress_append _ _ _ _ (by simp), compress_map]
  have : compress (cur :: post) (true :: post.map (fun x => anyLt x.2 cur.2))
      = cur :: post.filter (fun x => anyLt x.2 cur.2) := by
    rw [← compress_map post]; simp [compress]
  rw [this, List.take_append_of_le_length (by simp), List.take_of_length_le (by simp), count_true_map]
  simp

/-- `a` beats `b`: at least as good everywhere, and better or earlier in the list. -/
def Beats (a b : Nat × (Fin m → K)) : Prop := AtLeastAsGood a.2 b.2 ∧ (a.2 ≠ b.2 ∨ a.1 < b.1)

theorem Beats.trans {a b c : Nat × (Fin m → K)} (h : Beats a b) (h' : Beats b c) : Beats a c := by
  refine ⟨fun i => le_trans (h.1 i) (h'.1 i), ?_⟩
  by_cases e : a.2 = c.2
  · right
    have hb : a.2 = b.2 := by
      funext i; exact le_antisymm (h.1 i) (by rw [e]; exact h'.1 i)
    have hc : b.2 = c.2 := hb ▸ e
    rcases h.2 with h | h
    · exact absurd hb h
    · rcases h'.2 with h' | h'
      · exact absurd hc h'
      · omega
  · exact Or.inl e

theorem Beats.irrefl (a : Nat × (Fin m → K)) : ¬ Beats a a := by
  rintro ⟨_, h | h⟩
  · exact h rfl
  · exact lt_irrefl _ h

structure ParetoInv (all pre post : List (Nat × (Fin m → K))) : Prop where
  sub : (pre ++ post).Sublist all
  done : ∀ p ∈ pre, ∀ x ∈ pre ++ post, x ≠ p → ¬ AtLeastAsGood p.2 x.2
  gone : ∀ o ∈ all, o ∉ pre ++ post → ∃ y ∈ pre ++ post, Beats y o

theorem ParetoInv.step {all pre post : List (Nat × (Fin m → K))} {cur : Nat × (Fin m → K)}
    (hs : all.Pairwise (fun a b => a.1 < b.1)) (h : ParetoInv all pre (cur :: post)) :
    ParetoInv all (pre.filter (fun x => anyLt x.2 cur.2) ++ [cur]) (post.filter (fun x => anyLt x.2 cur.2)) := by
  have hsub : ((pre.filter (fun x => anyLt x.2 cur.2) ++ [cur]) ++ post.filter (fun x => anyLt x.2 cur.2)).Sublist
      (pre ++ cur :: post) := by
    rw [List.append_assoc]
    exact List.Sublist.append List.filter_sublist (List.Sublist.cons_cons _ List.filter_sublist)
  have hs' := hs.sublist h.sub
  rw [List.pairwise_append, List.pairwise_cons] at hs'
  refine ⟨hsub.trans h.sub, ?_, ?_⟩
  · intro p hp x hx hne
    rcases List.mem_append.1 hp with hp | hp
    · exact h.done p (List.mem_of_mem_filter hp) x (hsub.subset hx) hne
    · rw [List.mem_singleton] at hp; subst hp
      have : anyLt x.2 p.2 = true := by
        simp only [List.mem_append, List.mem_filter, List.mem_singleton] at hx
        rcases hx with (hx | hx) | hx
        · exact hx.2
        · exact absurd hx hne
        · exact hx.2
      intro hg
      rw [anyLt_eq_false.2 hg] at this
      exact absurd this (by simp)
  · intro o ho hn
    -- `cur` beats whatever it removes
    have hrem : ∀ y ∈ pre ++ cur :: post,
        y ∉ (pre.filter (fun x => anyLt x.2 cur.2) ++ [cur]) ++ post.filter (fun x => anyLt x.2 cur.2) → Beats cur y := by
      intro y hy hyn
      simp only [List.mem_append, List.mem_filter, List.mem_singleton, not_or, not_and] at hyn
      have hle : AtLeastAsGood cur.2 y.2 := by
        rw [← anyLt_eq_false]
        rcases List.mem_append.1 hy with hy | hy
        · simpa using hyn.1.1 hy
        · rcases List.mem_cons.1 hy with hy | hy
          · exact absurd hy hyn.1.2
          · simpa using hyn.2 hy
      refine ⟨hle, ?_⟩
      by_cases e : cur.2 = y.2
      · right
        rcases List.mem_append.1 hy with hy | hy
        · exfalso
          refine h.done y hy cur (by simp) (fun c => hyn.1.2 c.symm) ?_
          rw [e]; exact fun i => le_refl _
        · rcases List.mem_cons.1 hy with hy | hy
          · exact absurd hy hyn.1.2
          · exact hs'.2.1.1 y hy
      · exact Or.inl e
    have hcur : cur ∈ (pre.filter (fun x => anyLt x.2 cur.2) ++ [cur]) ++ post.filter (fun x => anyLt x.2 cur.2) := by simp
    by_cases ho' : o ∈ pre ++ cur :: post
    · exact ⟨cur, hcur, hrem o ho' hn⟩
    · obtain ⟨y, hy, hb⟩ := h.gone o ho ho'
      by_cases hy' : y ∈ (pre.filter (fun x => anyLt x.2 cur.2) ++ [cur]) ++ post.filter (fun x => anyLt x.2 cur.2)
      · exact ⟨y, hy', hb⟩
      · exact ⟨cur, hcur, (hrem y hy hy').trans hb⟩

theorem paretoLoop_inv (all : List (Nat × (Fin m → K))) (hs : all.Pairwise (fun a b => a.1 < b.1)) :
    ∀ (f : Nat) (pre post : List (Nat × (Fin m → K))), post.length ≤ f → ParetoInv all pre post →
      ∃ fin, paretoLoop f (pre ++ post) pre.length = fin.map Prod.fst ∧ ParetoInv all fin [] := by
  intro f
  induction f with
  | zero =>
    intro pre post hl h
    have : post = [] := List.length_eq_zero_iff.1 (by omega)
    subst this
    exact ⟨pre, by simp [paretoLoop], h⟩
  | succ f ih =>
    intro pre post hl h
    cases post with
    | nil => exact ⟨pre, by simp [paretoLoop], h⟩
    | cons cur post =>
      rw [paretoLoop_step]
      refine ih _ _ ?_ (h.step hs)
      have := List.length_filter_le (fun x => anyLt x.2 cur.2) post
      simp at hl; omega

/-- **C38.** For every cost matrix (any number of rows and objectives, with ties and equal rows), the mask has one entry
per row, and row `i` is marked exactly when no row dominates it and no earlier row is equal to it. -/
theorem C38_pareto (costs : List (Fin m → K)) :
    (isParetoEfficient costs).length = costs.length ∧
    ∀ (i : Nat) (hi : i < costs.length),
      (isParetoEfficient costs)[i]? = some true ↔
        (∀ (j : Nat) (hj : j < costs.length), ¬ Dominates costs[j] costs[i]) ∧
        (∀ (j : Nat) (hj : j < i), costs[j]'(by omega) ≠ costs[i]) := by
  refine ⟨by simp [isParetoEfficient], ?_⟩
  intro i hi
  let all := costs.mapIdx (fun (i : Nat) r => (i, r))
  have hget : ∀ (j : Nat) (hj : j < costs.length), (j, costs[j]) ∈ all := by
    intro j hj
    exact List.mem_mapIdx.2 ⟨j, hj, rfl⟩
  have hof : ∀ x ∈ all, ∃ hj : x.1 < costs.length, costs[x.1] = x.2 := by
    intro x hx
    obtain ⟨j, hj, rfl⟩ := List.mem_mapIdx.1 hx
    exact ⟨hj, rfl⟩
  have hs : all.Pairwise (fun a b => a.1 < b.1) := by
    rw [List.pairwise_iff_getElem]
    intro a b ha hb hab
    simp [all, hab]
  obtain ⟨fin, hfin, hinv⟩ := paretoLoop_inv all hs costs.length [] all (by simp [all])
    ⟨by simp, by simp, fun o ho hn => absurd ho (by simpa using hn)⟩
  have hmark : (isParetoEfficient costs)[i]? = some true ↔ (i, costs[i]) ∈ fin := by
    have hm : i ∈ fin.map Prod.fst ↔ (i, costs[i]) ∈ fin := by
      rw [List.mem_map]
      constructor
      · rintro ⟨x, hx, rfl⟩
        obtain ⟨_, h⟩ := hof x (hinv.sub.subset (by simpa using hx))
        rw [h]; exact hx
      · intro h; exact ⟨_, h, rfl⟩
    have hl : paretoLoop costs.length (costs.mapIdx (fun (i : Nat) r => (i, r))) 0 = fin.map Prod.fst := by
      simpa [all] using hfin
    rw [← hm, isParetoEfficient, hl]
    simp [hi]
  rw [hmark]
  have key : (i, costs[i]) ∈ fin ↔ ∀ y ∈ all, ¬ Beats y (i, costs[i]) := by
    constructor
    · intro hp y hy hb
      -- a surviving row at least as good
      have : ∃ z ∈ fin, Beats z (i, costs[i]) := by
        by_cases hyf : y ∈ fin
        · exact ⟨y, hyf, hb⟩
        · obtain ⟨z, hz, hzb⟩ := hinv.gone y hy (by simpa using hyf)
          exact ⟨z, by simpa using hz, hzb.trans hb⟩
      obtain ⟨z, hz, hzb⟩ := this
      refine hinv.done z hz (i, costs[i]) (by simpa using hp) ?_ hzb.1
      intro e
      rw [e] at hzb
      exact Beats.irrefl _ hzb
    · intro h
      by_contra hn
      obtain ⟨y, hy, hb⟩ := hinv.gone _ (hget i hi) (by simpa using hn)
      exact h y (hinv.sub.subset hy) hb
  rw [key]
  constructor
  · intro h
    refine ⟨fun j hj hd => h _ (hget j hj) ⟨hd.1, Or.inl ?_⟩, fun j hj e => h _ (hget j (by omega)) ⟨?_, Or.inr hj⟩⟩
    · intro e
      obtain ⟨k, hk⟩ := hd.2
      simp only [] at e
      rw [e] at hk
      exact lt_irrefl _ hk
    · simp only [e]; exact fun k => le_refl _
  · rintro ⟨h1, h2⟩ y hy hb
    obtain ⟨hj, hy2⟩ := hof y hy
    by_cases e : y.2 = costs[i]
    · rcases hb.2 with h | h
      · exact h e
      · exact h2 y.1 h (by rw [hy2, e])
    · apply h1 y.1 hj
      rw [hy2]
      refine ⟨hb.1, ?_⟩
      by_contra hno
      simp only [not_exists, not_lt] at hno
      exact e (funext fun k => le_antisymm (hb.1 k) (hno k))

/-- **C38**, corollary: with pairwise different rows the marked rows are exactly the non-dominated ones. -/
theorem C38_distinct (costs : List (Fin m → K)) (hd : costs.Nodup) (i : Nat) (hi : i < costs.length) :
    (isParetoEfficient costs)[i]? = some true ↔ ∀ (j : Nat) (hj : j < costs.length), ¬ Dominates costs[j] costs[i] := by
  rw [(C38_pareto costs).2 i hi]
  refine ⟨fun h => h.1, fun h => ⟨h, fun j hj e => ?_⟩⟩
  have := (List.nodup_iff_injective_getElem.1 hd) (a₁ := ⟨j, by omega⟩) (a₂ := ⟨i, hi⟩) e
  simp at this; omega

/-- **C38**, corollary: every non-dominated row is represented by an equal marked row. -/
theorem C38_represented (costs : List (Fin m → K)) (i : Nat) (hi : i < costs.length)
    (h : ∀ (j : Nat) (hj : j < costs.length), ¬ Dominates costs[j] costs[i]) :
    ∃ (j : Nat) (hj : j < costs.length), costs[j] = costs[i] ∧ (isParetoEfficient costs)[j]? = some true := by
  classical
  have hex : ∃ j, ∃ hj : j < costs.length, costs[j] = costs[i] := ⟨i, hi, rfl⟩
  obtain ⟨hj, e⟩ := Nat.find_spec hex
  refine ⟨Nat.find hex, hj, e, ?_⟩
  rw [(C38_pareto costs).2 _ hj]
  refine ⟨fun k hk => by rw [e]; exact h k hk, fun k hk e' => ?_⟩
  exact Nat.find_min hex hk ⟨by omega, e'.trans e⟩

/-- Non-trivial case with ties and an equal row: the second copy of (1,2) is not marked, the dominated (2,2) neither. -/
example : isParetoEfficient (K := Nat) (m := 2) [![1, 2], ![2, 2], ![2, 1], ![1, 2], ![0, 5]]
    = [true, false, true, false, true] := by decide +kernel

end Pareto

/-! ## C39 – near-equal scores (`filter_same`) and repeated modules (`delete_duplicates`) -/

section FilterSame
variable {P K : Type} [LinearOrder K] [AddCommGroup K]

theorem nearSome_iff {eps : K} {rs : List K} {r : K} : nearSome eps rs r = true ↔ ∃ r' ∈ rs, |r - r'| < eps := by
  simp [nearSome]

theorem filterSameLoop_spec (eps : K) (score : P → K) (all : List P) :
    ∀ (rest done out : List P), all = done ++ rest → out.Sublist done →
      out.Pairwise (fun a b => ¬ |score b - score a| < eps) →
      (∀ p ∈ done, p ∈ out ∨ ∃ q ∈ out, |score p - score q| < eps) →
      let res := filterSameLoop eps score rest out (out.map score)
      res.Sublist all ∧ res.Pairwise (fun a b => ¬ |score b - score a| < eps) ∧
        ∀ p ∈ all, p ∈ res ∨ ∃ q ∈ res, |score p - score q| < eps := by
  intro rest
  induction rest with
  | nil =>
    intro done out ha hs hp hr
    have : all = done := by simpa using ha
    subst this
    exact ⟨hs, hp, hr⟩
  | cons p rest ih =>
    intro done out ha hs hp hr
    simp only [filterSameLoop]
    by_cases hn : nearSome eps (out.map score) (score p) = true
    · rw [if_pos hn]
      refine ih (done ++ [p]) out (by simp [ha]) (hs.trans (List.sublist_append_left _ _)) hp ?_
      intro q hq
      rcases List.mem_append.1 hq with hq | hq
      · exact hr q hq
      · rw [List.mem_singleton] at hq; subst hq
        obtain ⟨r', hr', hlt⟩ := nearSome_iff.1 hn
        obtain ⟨q, hq, rfl⟩ := List.mem_map.1 hr'
        exact Or.inr ⟨q, hq, hlt⟩
    · rw [if_neg hn]
      have := ih (done ++ [p]) (out ++ [p]) (by simp [ha]) (hs.append (List.Sublist.refl _)) ?_ ?_
      · simpa using this
      · rw [List.pairwise_append]
        refine ⟨hp, by simp, ?_⟩
        intro a ha' b hb
        rw [List.mem_singleton] at hb; subst hb
        intro hlt
        exact hn (nearSome_iff.2 ⟨_, List.mem_map_of_mem ha', hlt⟩)
      · intro q hq
        rcases List.mem_append.1 hq with hq | hq
        · rcases hr q hq with h | ⟨x, hx, h⟩
          · exact Or.inl (by simp [h])
          · exact Or.inr ⟨x, by simp [hx], h⟩
        · exact Or.inl (by simp_all)

/-- **C39** (`filter_same`). For every list of programs: the result is a sub-list in the original order; no two kept
programs have scores closer than the tolerance; and every program is kept or has a kept program with a score closer
than the tolerance. -/
theorem C39_filter_same (eps : K) (score : P → K) (ps : List P) :
    (filterSame eps score ps).Sublist ps ∧
    (filterSame eps score ps).Pairwise (fun a b => ¬ |score b - score a| < eps) ∧
    ∀ p ∈ ps, p ∈ filterSame eps score ps ∨ ∃ q ∈ filterSame eps score ps, |score p - score q| < eps := by
  have := filterSameLoop_spec eps score ps ps [] [] (by simp) (List.Sublist.refl _) (by simp) (by simp)
  simpa [filterSame] using this

/-- The first program is always kept, first. -/
theorem C39_filter_same_first (eps : K) (score : P → K) (p : P) (ps : List P) :
    (filterSame eps score (p :: ps)).head? = some p := by
  have aux : ∀ (rest out : List P) (rs : List K), out.head? = some p → (filterSameLoop eps score rest out rs).head? = some p := by
    intro rest
    induction rest with
    | nil => intro out rs h; simpa [filterSameLoop] using h
    | cons q rest ih =>
      intro out rs h
      rw [filterSameLoop]
      by_cases hn : nearSome eps rs (score q) = true
      · rw [if_pos hn]; exact ih _ _ h
      · rw [if_neg hn]; exact ih _ _ (by simp [List.head?_append, h])
  unfold filterSame
  rw [filterSameLoop, if_neg (by simp [nearSome])]
  exact aux _ _ _ (by simp)

/-- Scores 10, 3, 11, 20, 3 with tolerance 2: 11 and the second 3 go. -/
example : filterSame (K := Int) 2 id [10, 3, 11, 20, 3] = [10, 3, 20] := by decide +kernel

end FilterSame

section DlgaDedup
open Verif.Dlga

/-- Specification: the first occurrence of each element, in order. -/
def firstOccurrences {α : Type} [DecidableEq α] : List α → List α
  | [] => []
  | a :: l => a :: (firstOccurrences l).filter (fun b => decide (b ≠ a))

theorem dedupLoop_eq (g acc : Genome) :
    dedupLoop g acc = acc ++ (firstOccurrences (g.map sorted)).filter (fun x => decide (x ∉ acc)) := by
  induction g generalizing acc with
  | nil => simp [dedupLoop, firstOccurrences]
  | cons m r ih =>
    rw [dedupLoop, ih]
    by_cases h : sorted m ∉ acc
    · rw [if_pos h]
      simp only [List.map_cons, firstOccurrences, List.filter_cons, h, not_false_eq_true, decide_true, if_true,
        List.filter_filter, List.append_assoc, List.singleton_append]
      congr 2
      apply List.filter_congr
      intro x _
      by_cases hx : x = sorted m <;> by_cases hx' : x ∈ acc <;> simp_all
    · rw [if_neg h]
      simp only [List.map_cons, firstOccurrences, List.filter_cons, h, decide_false, List.filter_filter]
      congr 1
      apply List.filter_congr
      intro x _
      by_cases hx : x = sorted m
      · subst hx; simp_all
      · simp [hx]

/-- **C39** (`delete_duplicates` on one genome). The result lists the distinct modules (as multisets of operators, i.e. the
sorted modules) once each, in the order of their first occurrence. -/
theorem C39_delete_duplicates (g : Genome) :
    dedup g = firstOccurrences (g.map sorted) ∧ (dedup g).Nodup ∧ ∀ x, x ∈ dedup g ↔ ∃ m ∈ g, x = sorted m := by
  have he : dedup g = firstOccurrences (g.map sorted) := by
    rw [dedup, dedupLoop_eq]; simp
  refine ⟨he, ?_, fun x => by simpa [dedup] using dedupLoop_mem g [] x⟩
  rw [he]
  generalize g.map sorted = l
  induction l with
  | nil => simp [firstOccurrences]
  | cons a l ih =>
    rw [firstOccurrences, List.nodup_cons]
    exact ⟨by simp, ih.filter _⟩

example : dedup [[2, 1], [3], [1, 2], [3], [0]] = [[1, 2], [3], [0]] := by decide +kernel

end DlgaDedup

/-! ## C63 – `drop_duplicates` -/

section DropDuplicates
variable {T V : Type}

theorem overwriteFirst_spec {s s' : List (DEntry T V)} {L : Nat} {cur : DEntry T V} (h : overwriteFirst s L cur = some s') :
    ∃ (idx : Nat) (old : DEntry T V), s[idx]? = some old ∧ old.len = L ∧ s' = s.set idx cur := by
  unfold overwriteFirst at h
  cases hf : s.findIdx? (fun e => e.len == L) with
  | none => rw [hf] at h; cases h
  | some idx =>
    rw [hf] at h
    simp only [Option.some.injEq] at h
    obtain ⟨hi, hp, _⟩ := List.findIdx?_eq_some_iff_getElem.1 hf
    exact ⟨idx, s[idx], by simp [hi], by simpa using hp, h.symm⟩

theorem overwriteFirst_isSome {s : List (DEntry T V)} {L : Nat} {cur : DEntry T V} (h : 0 < (s.map DEntry.len).count L) :
    ∃ s', overwriteFirst s L cur = some s' := by
  have hm : L ∈ s.map DEntry.len := List.count_pos_iff.1 h
  obtain ⟨e, he, hL⟩ := List.mem_map.1 hm
  unfold overwriteFirst
  cases hf : s.findIdx? (fun e => e.len == L) with
  | none =>
    rw [List.findIdx?_eq_none_iff] at hf
    have := hf e he
    simp [hL] at this
  | some idx => exact ⟨_, rfl⟩

theorem count_set_len (s : List (DEntry T V)) (idx : Nat) (old cur : DEntry T V) (h : s[idx]? = some old) (L : Nat)
    (hL : cur.len ≠ L) :
    ((s.set idx cur).map DEntry.len).count L + (if old.len = L then 1 else 0) = (s.map DEntry.len).count L := by
  induction s generalizing idx with
  | nil => simp at h
  | cons a s ih =>
    cases idx with
    | zero =>
      simp only [List.getElem?_cons_zero, Option.some.injEq] at h
      subst h
      simp [List.count_cons, hL]
    | succ idx =>
      simp only [List.getElem?_cons_succ] at h
      have := ih idx h
      simp only [List.set_cons_succ, List.map_cons, List.count_cons]
      omega

/-- The inner loop never raises. -/
theorem dropInner_isSome (same : V → V → Bool) (cur : DEntry T V) :
    ∀ (rest s : List (DEntry T V)) (dup : Bool),
      (∀ L, cur.len < L → (rest.map DEntry.len).count L ≤ (s.map DEntry.len).count L) →
      ∃ r, dropInner same cur rest s dup = some r := by
  intro rest
  induction rest with
  | nil => intro s dup _; exact ⟨_, rfl⟩
  | cons c rest ih =>
    intro s dup hc
    have hle : ∀ L, cur.len < L → (rest.map DEntry.len).count L ≤ (s.map DEntry.len).count L := by
      intro L hL
      have := hc L hL
      simp only [List.map_cons, List.count_cons] at this
      omega
    rw [dropInner]
    by_cases h1 : same c.val cur.val = true
    · rw [if_pos h1]
      by_cases h2 : cur.len < c.len
      · rw [if_pos h2]
        have hpos : 0 < (s.map DEntry.len).count c.len := by
          have := hc c.len h2
          simp only [List.map_cons, List.count_cons] at this
          simp at this; omega
        obtain ⟨s', hs'⟩ := overwriteFirst_isSome (cur := cur) hpos
        rw [hs']
        apply ih
        obtain ⟨idx, old, ho, hol, rfl⟩ := overwriteFirst_spec hs'
        intro L hL
        have h3 := count_set_len s idx old cur ho L (by omega)
        have h4 := hc L hL
        rw [hol] at h3
        rw [List.map_cons, List.count_cons] at h4
        by_cases hcl : c.len = L
        · rw [if_pos hcl] at h3; rw [if_pos (by simpa using hcl)] at h4; omega
        · rw [if_neg hcl] at h3; rw [if_neg (by simpa using hcl)] at h4; omega
      · rw [if_neg h2]; exact ih s true hle
    · rw [if_neg h1]; exact ih s dup hle

/-- What the inner loop does: an entry stays, or is overwritten by the current one because an equal-valued later entry has
the same, larger length. -/
theorem dropInner_spec (same : V → V → Bool) (cur : DEntry T V) :
    ∀ (rest s : List (DEntry T V)) (dup : Bool) (s' : List (DEntry T V)) (d' : Bool),
      dropInner same cur rest s dup = some (s', d') →
      s'.length = s.length ∧ d' = (dup || rest.any (fun c => same c.val cur.val)) ∧
      ∀ j : Nat, s'[j]? = s[j]? ∨ ∃ old c, s[j]? = some old ∧ s'[j]? = some cur ∧ c ∈ rest ∧ same c.val cur.val = true ∧
        cur.len < c.len ∧ old.len = c.len := by
  intro rest
  induction rest with
  | nil =>
    intro s dup s' d' h
    simp only [dropInner, Option.some.injEq, Prod.mk.injEq] at h
    obtain ⟨rfl, rfl⟩ := h
    simp
  | cons c rest ih =>
    intro s dup s' d' h
    rw [dropInner] at h
    have lift : ∀ (t : List (DEntry T V)) (j : Nat), (s'[j]? = t[j]? ∨ ∃ old c', t[j]? = some old ∧ s'[j]? = some cur ∧ c' ∈ rest ∧
        same c'.val cur.val = true ∧ cur.len < c'.len ∧ old.len = c'.len) →
        (s'[j]? = t[j]? ∨ ∃ old c', t[j]? = some old ∧ s'[j]? = some cur ∧ c' ∈ c :: rest ∧
        same c'.val cur.val = true ∧ cur.len < c'.len ∧ old.len = c'.len) := by
      rintro t j (h | ⟨o, c', h1, h2, h3, h4⟩)
      · exact Or.inl h
      · exact Or.inr ⟨o, c', h1, h2, List.mem_cons_of_mem _ h3, h4⟩
    by_cases h1 : same c.val cur.val = true
    · rw [if_pos h1] at h
      by_cases h2 : cur.len < c.len
      · rw [if_pos h2] at h
        cases hs : overwriteFirst s c.len cur with
        | none => rw [hs] at h; cases h
        | some t =>
          rw [hs] at h
          obtain ⟨hl, hd, hj⟩ := ih t true s' d' h
          obtain ⟨idx, old, ho, hol, rfl⟩ := overwriteFirst_spec hs
          refine ⟨by simpa using hl, by simp [hd, h1], ?_⟩
          intro j
          by_cases hij : idx = j
          · subst hij
            have hidx : idx < s.length := by
              by_contra hc
              rw [List.getElem?_eq_none (by omega)] at ho; cases ho
            right
            refine ⟨old, c, ho, ?_, by simp, h1, h2, hol⟩
            rcases hj idx with h | ⟨_, _, _, h, _⟩
            · rw [h]; simp [hidx]
            · exact h
          · have := lift _ j (hj j)
            simpa [List.getElem?_set, hij] using this
      · rw [if_neg h2] at h
        obtain ⟨hl, hd, hj⟩ := ih s true s' d' h
        exact ⟨hl, by simp [hd, h1], fun j => lift s j (hj j)⟩
    · rw [if_neg h1] at h
      obtain ⟨hl, hd, hj⟩ := ih s dup s' d' h
      exact ⟨hl, by simp [hd, h1], fun j => lift s j (hj j)⟩

theorem dropOuter_spec (same : V → V → Bool) (entries : List (DEntry T V)) :
    ∀ (n i : Nat) (s out : List (DEntry T V)), s.length = i + n → (∀ e ∈ s, e ∈ entries) → (∀ e ∈ out, e ∈ entries) →
      out.Pairwise (fun a b => same b.val a.val = false) →
      (∀ k ∈ out, ∀ j : Nat, i ≤ j → ∀ e, s[j]? = some e → same e.val k.val = false) →
      ∃ res, dropOuter same n i s out = some res ∧ (∀ e ∈ res, e ∈ entries) ∧
        res.Pairwise (fun a b => same b.val a.val = false) ∧ res.length ≤ out.length + n ∧ (0 < n ∨ out ≠ [] → res ≠ []) := by
  intro n
  induction n with
  | zero =>
    intro i s out _ _ ho hp _
    exact ⟨out, by simp [dropOuter], ho, hp, by simp, by simp⟩
  | succ n ih =>
    intro i s out hl hs ho hp hk
    rw [dropOuter]
    have hi : s[i]? = some s[i] := by simp
    rw [hi]
    simp only []
    obtain ⟨⟨s', d'⟩, hin⟩ := dropInner_isSome same s[i] (s.drop (i + 1)) s false (by
      intro L _
      exact ((List.drop_sublist (i + 1) s).map DEntry.len).count_le L)
    rw [hin]
    simp only []
    obtain ⟨hl', hd, hj⟩ := dropInner_spec same s[i] _ _ _ _ _ hin
    have hmem : s[i] ∈ s := List.getElem_mem _
    have hs' : ∀ e ∈ s', e ∈ entries := by
      intro e he
      obtain ⟨j, hjl, rfl⟩ := List.mem_iff_getElem.1 he
      rcases hj j with h | ⟨_, _, _, h, _⟩
      · rw [List.getElem?_eq_getElem hjl] at h
        exact hs _ (List.mem_of_getElem? h.symm)
      · rw [List.getElem?_eq_getElem hjl] at h
        simp only [Option.some.injEq] at h
        rw [h]; exact hs _ hmem
    have hold : ∀ k ∈ out, ∀ j : Nat, i + 1 ≤ j → ∀ e, s'[j]? = some e → same e.val k.val = false := by
      intro k hk' j hji e he
      rcases hj j with h | ⟨_, _, _, h, _⟩
      · exact hk k hk' j (by omega) e (by rw [← h]; exact he)
      · rw [h] at he
        simp only [Option.some.injEq] at he
        rw [← he]
        exact hk k hk' i (le_refl _) _ hi
    cases hdd : d' with
    | true =>
      rw [if_pos (by simp)]
      obtain ⟨res, h1, h2, h3, h4, h5⟩ := ih (i + 1) s' out (by omega) hs' ho hp hold
      refine ⟨res, h1, h2, h3, by omega, fun _ => ?_⟩
      -- a duplicate means there is a later entry
      apply h5
      left
      by_contra hn
      have hdrop : s.drop (i + 1) = [] := List.drop_eq_nil_of_le (by omega)
      rw [hdrop] at hd
      simp [hdd] at hd
    | false =>
      rw [if_neg (by simp)]
      have hns : ∀ c ∈ s.drop (i + 1), same c.val s[i].val = false := by
        have : (s.drop (i + 1)).any (fun c => same c.val s[i].val) = false := by simpa [hdd] using hd.symm
        intro c hc
        simpa using List.any_eq_false.1 this c hc
      obtain ⟨res, h1, h2, h3, h4, h5⟩ := ih (i + 1) s' (out ++ [s[i]]) (by omega) hs'
        (by intro e he; rcases List.mem_append.1 he with he | he
            · exact ho e he
            · rw [List.mem_singleton] at he; rw [he]; exact hs _ hmem)
        (by
          rw [List.pairwise_append]
          refine ⟨hp, by simp, ?_⟩
          intro a ha b hb
          rw [List.mem_singleton] at hb; subst hb
          exact hk a ha i (le_refl _) _ hi)
        (by
          intro k hk' j hji e he
          rcases List.mem_append.1 hk' with hk' | hk'
          · exact hold k hk' j hji e he
          · rw [List.mem_singleton] at hk'; subst hk'
            rcases hj j with h | ⟨_, c, _, _, hc, hcs, _⟩
            · rw [h] at he
              refine hns e ?_
              rw [List.mem_drop_iff_getElem]
              have hjl : j < s.length := by
                by_contra hc
                rw [List.getElem?_eq_none (by omega)] at he; cases he
              refine ⟨j - (i + 1), by omega, ?_⟩
              rw [List.getElem?_eq_getElem hjl] at he
              simp only [Option.some.injEq] at he
              rw [← he]
              congr 1; omega
            · rw [hns c hc] at hcs; cases hcs)
      refine ⟨res, h1, h2, h3, by simp at h4; omega, fun _ => h5 (Or.inr (by simp))⟩

/-- **C63.** For every list of tokens with their values, `drop_duplicates` never raises; every kept token comes with its own
value (the pair occurred in the input); no two kept values are equal up to the tolerance (in the code's comparison, later
against earlier); the result is not longer than the input, and not empty unless the input is. -/
theorem C63_sound (same : V → V → Bool) (len : T → Nat) (tokens : List T) (values : List V) :
    ∃ res, dropDuplicates same (dEntries len tokens values) = some res ∧
      (∀ e ∈ res, (e.tok, e.val) ∈ tokens.zip values) ∧
      res.Pairwise (fun a b => same b.val a.val = false) ∧
      res.length ≤ tokens.length ∧ (tokens.length = values.length → tokens ≠ [] → res ≠ []) := by
  obtain ⟨res, h1, h2, h3, h4, h5⟩ := dropOuter_spec same (dEntries len tokens values) (dEntries len tokens values).length 0
    (dEntries len tokens values) [] (by simp) (fun _ h => h) (by simp) (by simp) (by simp)
  refine ⟨res, h1, ?_, h3, ?_, ?_⟩
  · intro e he
    obtain ⟨x, hx, rfl⟩ := List.mem_map.1 (h2 e he)
    exact hx
  · simp [dEntries] at h4; omega
  · intro hl hne
    apply h5
    left
    have : 0 < tokens.length := List.length_pos_iff.2 hne
    simp [dEntries]; omega

theorem dropOuter_represents (same : V → V → Bool) (entries : List (DEntry T V))
    (symm : ∀ a b, same a b = true → same b a = true)
    (trans : ∀ a b c, same a b = true → same b c = true → same a c = true)
    (hlen : ∀ a ∈ entries, ∀ b ∈ entries, ∀ c ∈ entries, same a.val c.val = true → c.len < a.len → b.len = a.len →
      same a.val b.val = true) :
    ∀ (n i : Nat) (s out : List (DEntry T V)), s.length = i + n → (∀ e ∈ s, e ∈ entries) →
      (∀ j : Nat, ∀ e, s[j]? = some e → ∃ o, entries[j]? = some o ∧ same e.val o.val = true) →
      entries.length = s.length →
      (∀ e ∈ entries, (∃ k ∈ out, same k.val e.val = true) ∨ ∃ j o, i ≤ j ∧ entries[j]? = some o ∧ same o.val e.val = true) →
      ∀ res, dropOuter same n i s out = some res → ∀ e ∈ entries, ∃ k ∈ res, same k.val e.val = true := by
  intro n
  induction n with
  | zero =>
    intro i s out hl _ _ hel hrep res h e he
    simp only [dropOuter, Option.some.injEq] at h
    subst h
    rcases hrep e he with h | ⟨j, o, hj, ho, _⟩
    · exact h
    · rw [List.getElem?_eq_none (by omega)] at ho; cases ho
  | succ n ih =>
    intro i s out hl hs hcls hel hrep res h
    rw [dropOuter] at h
    have hi : s[i]? = some s[i] := by simp
    rw [hi] at h
    simp only [] at h
    cases hin : dropInner same s[i] (s.drop (i + 1)) s false with
    | none => rw [hin] at h; cases h
    | some r =>
      obtain ⟨s', d'⟩ := r
      rw [hin] at h
      simp only [] at h
      obtain ⟨hl', hd, hj⟩ := dropInner_spec same s[i] _ _ _ _ _ hin
      have hmem : s[i] ∈ s := List.getElem_mem _
      refine ih (i + 1) s' _ (by omega) ?_ ?_ (by omega) ?_ res h
      · intro e he
        obtain ⟨j, hjl, rfl⟩ := List.mem_iff_getElem.1 he
        rcases hj j with h | ⟨_, _, _, h, _⟩
        · rw [List.getElem?_eq_getElem hjl] at h
          exact hs _ (List.mem_of_getElem? h.symm)
        · rw [List.getElem?_eq_getElem hjl] at h
          simp only [Option.some.injEq] at h
          rw [h]; exact hs _ hmem
      · intro j e he
        rcases hj j with h | ⟨old, c, ho, h, hc, hcs, hlt, hol⟩
        · exact hcls j e (by rw [← h]; exact he)
        · obtain ⟨o, ho1, ho2⟩ := hcls j old ho
          refine ⟨o, ho1, ?_⟩
          rw [h] at he
          simp only [Option.some.injEq] at he
          rw [← he]
          have hc' : c ∈ entries := hs _ (List.mem_of_mem_drop hc)
          have := hlen c hc' old (hs _ (List.mem_of_getElem? ho)) s[i] (hs _ hmem) hcs hlt hol
          exact trans _ _ _ (trans _ _ _ (symm _ _ hcs) this) ho2
      · intro e he
        rcases hrep e he with ⟨k, hk, hke⟩ | ⟨j, o, hji, ho, hoe⟩
        · left
          refine ⟨k, ?_, hke⟩
          cases d' <;> simp [hk]
        · by_cases hji' : i + 1 ≤ j
          · exact Or.inr ⟨j, o, hji', ho, hoe⟩
          · have : j = i := by omega
            subst this
            obtain ⟨o', ho', hso⟩ := hcls j s[j] hi
            rw [ho] at ho'
            simp only [Option.some.injEq] at ho'
            subst ho'
            cases hdd : d' with
            | false => exact Or.inl ⟨s[j], by simp, trans _ _ _ hso hoe⟩
            | true =>
              right
              have : (s.drop (j + 1)).any (fun c => same c.val s[j].val) = true := by simpa [hdd] using hd.symm
              obtain ⟨c, hc, hcs⟩ := List.any_eq_true.1 this
              obtain ⟨k, hk, rfl⟩ := List.mem_drop_iff_getElem.1 hc
              obtain ⟨oc, hoc, hsc⟩ := hcls (j + 1 + k) s[j + 1 + k] (by simp)
              exact ⟨j + 1 + k, oc, by omega, hoc, trans _ _ _ (symm _ _ hsc) (trans _ _ _ hcs (trans _ _ _ hso hoe))⟩

/-- **C63**, nothing is lost, under two assumptions: the comparison is an equivalence (exact equality; the tolerance test of
the code is not transitive), and a length that belongs to a token with a shorter equal-valued competitor belongs to no
token of another value (for example: all tokens have the same length).  Missing from the full property: the general case,
which is false (`C63_loses_other`). -/
theorem C63_represented_partial (same : V → V → Bool) (len : T → Nat) (tokens : List T) (values : List V)
    (symm : ∀ a b, same a b = true → same b a = true)
    (trans : ∀ a b c, same a b = true → same b c = true → same a c = true) (refl : ∀ a, same a a = true)
    (hlen : ∀ a ∈ tokens.zip values, ∀ b ∈ tokens.zip values, ∀ c ∈ tokens.zip values, same a.2 c.2 = true →
      len c.1 < len a.1 → len b.1 = len a.1 → same a.2 b.2 = true) :
    ∃ res, dropDuplicates same (dEntries len tokens values) = some res ∧
      ∀ x ∈ tokens.zip values, ∃ k ∈ res, same k.val x.2 = true := by
  obtain ⟨res, h1, _⟩ := C63_sound same len tokens values
  refine ⟨res, h1, ?_⟩
  have := dropOuter_represents same (dEntries len tokens values) symm trans (by
    intro a ha b hb c hc
    obtain ⟨a, ha', rfl⟩ := List.mem_map.1 ha
    obtain ⟨b, hb', rfl⟩ := List.mem_map.1 hb
    obtain ⟨c, hc', rfl⟩ := List.mem_map.1 hc
    exact hlen a ha' b hb' c hc') (dEntries len tokens values).length 0 (dEntries len tokens values) [] (by simp) (fun _ h => h)
    (fun j e he => ⟨e, he, refl _⟩) rfl
    (by
      intro e he
      right
      obtain ⟨j, hj, rfl⟩ := List.mem_iff_getElem.1 he
      exact ⟨j, _, Nat.zero_le _, by simp [hj], refl _⟩) res h1
  intro x hx
  exact this ⟨x.1, x.2, len x.1⟩ (List.mem_map.2 ⟨x, hx, rfl⟩)

/-- All tokens of one length: the assumption on lengths holds, and one token of each value is kept (the last). -/
example : (dropDuplicates (T := String) (V := Nat) (· == ·) (dEntries String.length ["ab", "cd", "ef", "gh"] [1, 2, 1, 3])).map
    (List.map DEntry.tok) = some ["cd", "ef", "gh"] := by decide +kernel

theorem dropInner_distinct (same : V → V → Bool) (cur : DEntry T V) (s : List (DEntry T V)) (dup : Bool) :
    ∀ rest : List (DEntry T V), (∀ c ∈ rest, same c.val cur.val = false) → dropInner same cur rest s dup = some (s, dup) := by
  intro rest
  induction rest with
  | nil => intro _; rfl
  | cons c rest ih =>
    intro h
    rw [dropInner, if_neg (by rw [h c (by simp)]; simp)]
    exact ih fun c' hc' => h c' (by simp [hc'])

theorem dropOuter_distinct (same : V → V → Bool) (s : List (DEntry T V)) (h : s.Pairwise (fun a b => same b.val a.val = false)) :
    ∀ (n i : Nat), n + i = s.length → dropOuter same n i s (s.take i) = some s := by
  intro n
  induction n with
  | zero => intro i hi; simp only [dropOuter]; rw [List.take_of_length_le (by omega)]
  | succ n ih =>
    intro i hi
    have hlt : i < s.length := by omega
    rw [dropOuter, List.getElem?_eq_getElem hlt]
    simp only
    have hd : s.drop i = s[i] :: s.drop (i + 1) := List.drop_eq_getElem_cons hlt
    have hp : (s.drop i).Pairwise (fun a b => same b.val a.val = false) := h.sublist (List.drop_sublist _ _)
    rw [hd, List.pairwise_cons] at hp
    rw [dropInner_distinct same _ s false _ hp.1]
    simp only [Bool.false_eq_true, if_false]
    rw [show s.take i ++ [s[i]] = s.take (i + 1) by rw [List.take_add_one, List.getElem?_eq_getElem hlt]; rfl]
    exact ih (i + 1) (by omega)

/-- **C63**: a list without duplicates is returned unchanged. -/
theorem C63_distinct_kept (same : V → V → Bool) (len : T → Nat) (tokens : List T) (values : List V)
    (h : (tokens.zip values).Pairwise (fun a b => same b.2 a.2 = false)) :
    ∃ res, dropDuplicates same (dEntries len tokens values) = some res ∧ res.map (fun e => (e.tok, e.val)) = tokens.zip values := by
  refine ⟨dEntries len tokens values, ?_, ?_⟩
  · have := dropOuter_distinct same (dEntries len tokens values) (by unfold dEntries; rw [List.pairwise_map]; exact h) (dEntries len tokens values).length 0 rfl
    simpa [dropDuplicates] using this
  · simp [dEntries, Function.comp_def]

/-- **C63**, counterexample: a token of another value is lost.  `"x"` (value 1) equals `"long1"` (value 1), which has the
length of `"other"` (value 2): `"other"` is overwritten and its value disappears. -/
theorem C63_loses_other :
    (dropDuplicates (T := String) (V := Nat) (· == ·) (dEntries String.length ["x", "other", "long1"] [1, 2, 1])).map
      (List.map (fun e => (e.tok, e.val))) = some [("x", 1)] := by decide +kernel

/-- **C63**, counterexample: the kept representative need not be the shortest. -/
theorem C63_not_shortest :
    (dropDuplicates (T := String) (V := Nat) (· == ·) (dEntries String.length ["five5", "abc", "seven77"] [1, 1, 1])).map
      (List.map (fun e => (e.tok, e.val))) = some [("five5", 1)] := by decide +kernel

/-- **C63**, counterexample: because closeness is not transitive, a value can go although no kept value is close to it. -/
theorem C63_not_transitive :
    (dropDuplicates (T := String) (V := Int) (fun a b => decide (|a - b| < 2)) (dEntries String.length ["a", "b", "c"] [0, 1, 2])).map
      (List.map (fun e => (e.tok, e.val))) = some [("c", 2)] := by decide +kernel

end DropDuplicates

end Verif.Claims
