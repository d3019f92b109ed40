import Verif.Viz.DlgaOld
import Verif.Claims.VizData
import Mathlib.Tactic.Linarith
import Mathlib.Tactic.Ring
/-!
# C193: the figure functions of `kd.viz.dlga_viz`

## Specification
-/
namespace Verif.Viz.DlgaOld.Claims
open Verif.Viz.Data Verif.Viz.Data.Claims Verif.Viz.DlgaOld

/-- Gene `g` is the number of an operator with a stored field. -/
def Avail (m : DlgaModel) (g : Nat) : Prop := ∃ o c, m.ops[g]? = some o ∧ m.fields.lookup o = some c

/-- All stored fields have `n` values. -/
def Uniform (m : DlgaModel) (n : Nat) : Prop := ∀ o c, m.fields.lookup o = some c → c.length = n

/-- The smallest and the largest of some values. -/
def IsSpan (lo hi : Rat) (l : List Rat) : Prop := lo ∈ l ∧ hi ∈ l ∧ ∀ v ∈ l, lo ≤ v ∧ v ≤ hi

/-- The changes of a history over its first `k` steps, added up. -/
def variation (fit : List Rat) (k : Nat) : Rat := ((List.range k).map fun i => |(fit[i + 1]?).getD 0 - (fit[i]?).getD 0|).sum

/-! ## Lemmas -/

theorem geneCol_ok {m : DlgaModel} {g : Nat} {c : List Rat} (h : geneCol m g = .ok c) : c = column m g ∧ Avail m g := by
  unfold geneCol at h
  split at h
  · simp at h
  · rename_i o ho
    split at h
    · simp at h
    · rename_i c' hc
      simp only [Except.ok.injEq] at h
      subst h
      exact ⟨by simp [column, ho, hc], o, c', ho, hc⟩

theorem geneCol_avail {m : DlgaModel} {g : Nat} (h : Avail m g) : geneCol m g = .ok (column m g) := by
  obtain ⟨o, c, ho, hc⟩ := h
  simp [geneCol, column, ho, hc]

theorem geneCols_ok {m : DlgaModel} : ∀ (md : List Nat) (cs : List (List Rat)), geneCols m md = .ok cs →
    cs = md.map (column m) ∧ ∀ g ∈ md, Avail m g := by
  intro md
  induction md with
  | nil => intro cs h; simp [geneCols] at h; subst h; simp
  | cons g md ih =>
    intro cs h
    unfold geneCols at h
    split at h
    · simp at h
    · rename_i c hc
      split at h
      · simp at h
      · rename_i cs' hcs
        simp only [Except.ok.injEq] at h
        subst h
        obtain ⟨a, b⟩ := geneCol_ok hc
        obtain ⟨a', b'⟩ := ih _ hcs
        refine ⟨by simp [a, a'], ?_⟩
        intro x hx
        rcases List.mem_cons.1 hx with rfl | hx
        · exact b
        · exact b' x hx

theorem geneCols_avail {m : DlgaModel} : ∀ (md : List Nat), (∀ g ∈ md, Avail m g) → geneCols m md = .ok (md.map (column m)) := by
  intro md
  induction md with
  | nil => intro _; rfl
  | cons g md ih =>
    intro h
    unfold geneCols
    rw [geneCol_avail (h g (by simp)), ih (fun x hx => h x (by simp [hx]))]
    rfl

theorem avail_length {m : DlgaModel} {n : Nat} (hu : Uniform m n) {g : Nat} (h : Avail m g) : (column m g).length = n := by
  obtain ⟨o, c, ho, hc⟩ := h
  simp [column, ho, hc, hu o c hc]

theorem avail_get {m : DlgaModel} {g : Nat} (h : Avail m g) (k : Nat) : ((column m g)[k]?).getD 0 = geneValue m g k := by
  obtain ⟨o, c, ho, hc⟩ := h
  simp [column, geneValue, ho, hc]

theorem prodOf_avail {m : DlgaModel} {n : Nat} (hu : Uniform m n) {md : List Nat} (h : ∀ g ∈ md, Avail m g) :
    prodOf (md.map (column m)) = .ok (if md = [] then [1] else prodCol (md.map (column m))) := by
  cases md with
  | nil => rfl
  | cons g md =>
    simp only [List.map_cons, prodOf]
    rw [if_pos, if_neg (by simp)]
    simp only [List.all_eq_true, beq_iff_eq]
    intro c hc
    obtain ⟨x, hx, rfl⟩ := List.mem_map.1 hc
    rw [avail_length hu (h x (by simp [hx])), avail_length hu (h g (by simp))]

/-- What a term that is evaluated consists of. -/
theorem termOf_ok {m : DlgaModel} {n : Nat} (hu : Uniform m n) {i : Nat} {md : List Nat} {v : List Rat} {c : Rat}
    (h : termOf m i md = .ok (v, c)) :
    m.coef[i]? = some c ∧ (∀ g ∈ md, Avail m g) ∧ v = if md = [] then [1] else prodCol (md.map (column m)) := by
  unfold termOf at h
  split at h
  · simp at h
  · rename_i cs hcs
    obtain ⟨rfl, hav⟩ := geneCols_ok _ _ hcs
    rw [prodOf_avail hu hav] at h
    simp only at h
    split at h
    · simp at h
    · rename_i c' hc
      simp only [Except.ok.injEq, Prod.mk.injEq] at h
      exact ⟨by rw [hc, h.2], hav, h.1.symm⟩

theorem termOf_total {m : DlgaModel} {n : Nat} (hu : Uniform m n) {i : Nat} {md : List Nat} {c : Rat}
    (hc : m.coef[i]? = some c) (h : ∀ g ∈ md, Avail m g) :
    termOf m i md = .ok (if md = [] then [1] else prodCol (md.map (column m)), c) := by
  unfold termOf
  rw [geneCols_avail md h]
  simp only
  rw [prodOf_avail hu h]
  simp only [hc]

theorem term_value {m : DlgaModel} {n : Nat} (hu : Uniform m n) {md : List Nat} (h : ∀ g ∈ md, Avail m g) (hne : md ≠ []) (k : Nat) (hk : k < n) :
    (prodCol (md.map (column m)))[k]? = some (termValue m md k) := by
  rw [prodCol_get (n := n) _ (by simpa using hne) (by
    intro c hc
    obtain ⟨x, hx, rfl⟩ := List.mem_map.1 hc
    exact avail_length hu (h x hx)) hk]
  unfold termValue
  rw [List.map_map]
  congr 2
  refine List.map_congr_left fun g hg => ?_
  exact avail_get (h g hg) k

theorem term_length {m : DlgaModel} {n : Nat} (hu : Uniform m n) {md : List Nat} (h : ∀ g ∈ md, Avail m g) (hne : md ≠ []) :
    (prodCol (md.map (column m))).length = n :=
  prodCol_length _ (by simpa using hne) (by
    intro c hc
    obtain ⟨x, hx, rfl⟩ := List.mem_map.1 hc
    exact avail_length hu (h x hx))

theorem addCol_term {m : DlgaModel} {n : Nat} (hu : Uniform m n) {md : List Nat} (h : ∀ g ∈ md, Avail m g) (acc : List Rat) (ha : acc.length = n) (c : Rat) :
    ∃ r, addCol n acc (if md = [] then [1] else prodCol (md.map (column m))) c = .ok r ∧ r.length = n ∧
      ∀ k, k < n → r[k]? = some ((acc[k]?).getD 0 + c * termValue m md k) := by
  by_cases hne : md = []
  · subst hne
    rw [if_pos rfl]
    unfold addCol
    by_cases h1 : ([1] : List Rat).length = n
    · rw [if_pos h1]
      refine ⟨_, rfl, by simp [ha] at *; omega, ?_⟩
      intro k hk
      have h0 : k = 0 := by simp at h1; omega
      subst h0
      rw [List.getElem?_zipWith, List.getElem?_eq_getElem (l := acc) (by omega)]
      simp [termValue]
    · rw [if_neg h1, if_pos (by simp)]
      refine ⟨_, rfl, by simp [ha], ?_⟩
      intro k hk
      rw [List.getElem?_map, List.getElem?_eq_getElem (l := acc) (by omega)]
      simp [termValue]
  · rw [if_neg hne]
    unfold addCol
    rw [if_pos (term_length hu h hne)]
    refine ⟨_, rfl, by simp [ha, term_length hu h hne], ?_⟩
    intro k hk
    rw [List.getElem?_zipWith, List.getElem?_eq_getElem (l := acc) (by omega), term_value hu h hne k hk]
    simp

theorem rhsLoop_ok {m : DlgaModel} {n : Nat} (hu : Uniform m n) : ∀ (mods : List (List Nat)) (i : Nat) (acc r : List Rat), acc.length = n →
    rhsLoop m n i acc mods = .ok r → r.length = n ∧ (∀ md ∈ mods, ∀ g ∈ md, Avail m g) ∧ mods.length ≤ (m.coef.drop i).length ∧
      ∀ k, k < n → r[k]? = some ((acc[k]?).getD 0 + ((mods.zip (m.coef.drop i)).map fun p => p.2 * termValue m p.1 k).sum) := by
  intro mods
  induction mods with
  | nil =>
    intro i acc r ha h
    simp only [rhsLoop, Except.ok.injEq] at h
    subst h
    refine ⟨ha, by simp, by simp, fun k hk => ?_⟩
    rw [List.getElem?_eq_getElem (by omega)]; simp
  | cons md mods ih =>
    intro i acc r ha h
    unfold rhsLoop at h
    split at h
    · simp at h
    · rename_i v c ht
      obtain ⟨hc, hav, rfl⟩ := termOf_ok hu ht
      obtain ⟨acc', h1, h2, h3⟩ := addCol_term hu hav acc ha c
      rw [h1] at h
      simp only at h
      obtain ⟨g1, g2, g3, g4⟩ := ih (i + 1) acc' r h2 h
      have hi : i < m.coef.length := (List.getElem?_eq_some_iff.1 hc).1
      have hd : m.coef.drop i = c :: m.coef.drop (i + 1) := by
        rw [List.drop_eq_getElem_cons hi]
        rw [List.getElem?_eq_getElem hi] at hc
        simp only [Option.some.injEq] at hc
        rw [hc]
      refine ⟨g1, ?_, ?_, ?_⟩
      · intro x hx
        rcases List.mem_cons.1 hx with rfl | hx
        · exact hav
        · exact g2 x hx
      · rw [hd]; simp only [List.length_cons]; omega
      · intro k hk
        rw [g4 k hk, h3 k hk, hd]
        simp only [List.zip_cons_cons, List.map_cons, List.sum_cons, Option.getD_some]
        congr 1; ring

theorem rhsLoop_total {m : DlgaModel} {n : Nat} (hu : Uniform m n) : ∀ (mods : List (List Nat)) (i : Nat) (acc : List Rat), acc.length = n →
    (∀ md ∈ mods, ∀ g ∈ md, Avail m g) → mods.length + i ≤ m.coef.length → ∃ r, rhsLoop m n i acc mods = .ok r := by
  intro mods
  induction mods with
  | nil => intro i acc _ _ _; exact ⟨acc, rfl⟩
  | cons md mods ih =>
    intro i acc ha hav hl
    simp only [List.length_cons] at hl
    have hi : i < m.coef.length := by omega
    obtain ⟨acc', h1, h2, _⟩ := addCol_term hu (hav md (by simp)) acc ha (m.coef[i])
    obtain ⟨r, hr⟩ := ih (i + 1) acc' h2 (fun x hx => hav x (by simp [hx])) (by omega)
    refine ⟨r, ?_⟩
    unfold rhsLoop
    rw [termOf_total hu (List.getElem?_eq_getElem hi) (hav md (by simp))]
    simp only
    rw [h1]
    exact hr

theorem foldl_min : ∀ (l : List Rat) (a : Rat), l.foldl min a ∈ a :: l ∧ ∀ b ∈ a :: l, l.foldl min a ≤ b := by
  intro l
  induction l with
  | nil => intro a; simp
  | cons x l ih =>
    intro a
    obtain ⟨h1, h2⟩ := ih (min a x)
    refine ⟨?_, ?_⟩
    · simp only [List.foldl_cons]
      rcases List.mem_cons.1 h1 with h | h
      · rcases min_choice a x with e | e <;> rw [h, e] <;> simp
      · simp [h]
    · intro b hb
      simp only [List.foldl_cons]
      have h0 := h2 (min a x) (by simp)
      simp only [List.mem_cons] at hb
      rcases hb with rfl | rfl | hb
      · exact le_trans h0 (min_le_left _ _)
      · exact le_trans h0 (min_le_right _ _)
      · exact h2 b (by simp [hb])

theorem foldl_max : ∀ (l : List Rat) (a : Rat), l.foldl max a ∈ a :: l ∧ ∀ b ∈ a :: l, b ≤ l.foldl max a := by
  intro l
  induction l with
  | nil => intro a; simp
  | cons x l ih =>
    intro a
    obtain ⟨h1, h2⟩ := ih (max a x)
    refine ⟨?_, ?_⟩
    · simp only [List.foldl_cons]
      rcases List.mem_cons.1 h1 with h | h
      · rcases max_choice a x with e | e <;> rw [h, e] <;> simp
      · simp [h]
    · intro b hb
      simp only [List.foldl_cons]
      have h0 := h2 (max a x) (by simp)
      simp only [List.mem_cons] at hb
      rcases hb with rfl | rfl | hb
      · exact le_trans (le_max_left _ _) h0
      · exact le_trans (le_max_right _ _) h0
      · exact h2 b (by simp [hb])

/-! ## The parity figure -/

/-- **C193** (parity): whenever the figure is drawn, there is one point per sample, across the value of the whole reported equation (every term with its own
coefficient – none is left out) and up the stored left-hand side of the same sample; the line spans both. -/
theorem C193_parity (m : DlgaModel) (l : List Rat) (hl : m.fields.lookup m.lhs = some l) (hu : Uniform m l.length) (fig : ParityFig)
    (h : plotParity m = .ok (some fig)) :
    m.genome.length ≤ m.coef.length ∧ (∀ md ∈ m.genome, ∀ g ∈ md, Avail m g) ∧ fig.points.length = l.length ∧
    (∀ (r : Nat) (v : Rat), l[r]? = some v → fig.points[r]? = some (rhsValue m r, v)) ∧
    IsSpan fig.lo fig.hi (fig.points.map (·.1) ++ fig.points.map (·.2)) := by
  unfold plotParity at h
  split at h
  · simp at h
  · rw [hl] at h
    simp only at h
    split at h
    · simp at h
    · rename_i p hp
      obtain ⟨g1, g2, g3, g4⟩ := rhsLoop_ok hu m.genome 0 _ p (by simp) hp
      split at h
      · simp at h
      · rename_i a r hr
        simp only [Except.ok.injEq, Option.some.injEq] at h
        subst h
        refine ⟨by simpa using g3, g2, by simp [g1], ?_, ?_⟩
        · intro k v hk
          have hkl : k < l.length := (List.getElem?_eq_some_iff.1 hk).1
          have := g4 k hkl
          simp only [List.drop_zero, List.getElem?_replicate, if_pos hkl, Option.getD_some, zero_add] at this
          show (p.zip l)[k]? = _
          rw [List.getElem?_zip_eq_some]
          exact ⟨this, hk⟩
        · have e1 : (p.zip l).map (·.1) = p := List.map_fst_zip (by omega)
          have e2 : (p.zip l).map (·.2) = l := List.map_snd_zip (by omega)
          show IsSpan _ _ ((p.zip l).map (·.1) ++ (p.zip l).map (·.2))
          rw [e1, e2]
          have hm : ∀ v, v ∈ p ++ l ↔ v ∈ a :: r := by
            intro v; rw [← hr]; simp [or_comm]
          exact ⟨(hm _).2 (foldl_min r a).1, (hm _).2 (foldl_max r a).1,
            fun v hv => ⟨(foldl_min r a).2 v ((hm v).1 hv), (foldl_max r a).2 v ((hm v).1 hv)⟩⟩

/-- **C193** (parity): it is drawn for every equation with samples, stored fields for all its operators and a coefficient for every term. -/
theorem C193_parity_drawn (m : DlgaModel) (l : List Rat) (hl : m.fields.lookup m.lhs = some l) (hne : l ≠ []) (hu : Uniform m l.length)
    (hg : m.genome ≠ []) (hav : ∀ md ∈ m.genome, ∀ g ∈ md, Avail m g) (hc : m.genome.length ≤ m.coef.length) :
    ∃ fig, plotParity m = .ok (some fig) := by
  obtain ⟨p, hp⟩ := rhsLoop_total hu m.genome 0 (List.replicate l.length 0) (by simp) hav (by simpa using hc)
  unfold plotParity
  rw [if_neg hg, hl]
  simp only
  rw [hp]
  simp only
  split
  · rename_i h; simp at h; exact absurd h.1 hne
  · exact ⟨_, rfl⟩

/-! ## The relation figure -/

theorem termsLoop_total {m : DlgaModel} {n : Nat} (hu : Uniform m n) : ∀ (mods : List (List Nat)) (i : Nat),
    (∀ md ∈ mods, md ≠ [] ∧ ∀ g ∈ md, Avail m g) → mods.length + i ≤ m.coef.length →
    termsLoop m i mods = .ok ((mods.zip (m.coef.drop i)).map fun p => (p.1, prodCol (p.1.map (column m)), p.2)) := by
  intro mods
  induction mods with
  | nil => intro i _ _; rfl
  | cons md mods ih =>
    intro i hav hl
    simp only [List.length_cons] at hl
    have hi : i < m.coef.length := by omega
    unfold termsLoop
    rw [if_neg, termOf_total hu (List.getElem?_eq_getElem hi) (hav md (by simp)).2]
    · simp only
      rw [ih (i + 1) (fun x hx => hav x (by simp [hx])) (by omega), List.drop_eq_getElem_cons hi, if_neg (hav md (by simp)).1]
      rfl
    · intro h
      obtain ⟨g, hg, hg2⟩ := List.any_eq_true.1 h
      obtain ⟨o, c, ho, _⟩ := (hav md (by simp)).2 g hg
      have := (List.getElem?_eq_some_iff.1 ho).1
      simp at hg2
      omega

/-- **C193** (relations): one panel for each of the `top` terms with the largest coefficients (all if there are fewer), largest first, with the values of the term
across, the left-hand side up and its own coefficient; the grid of at most three columns has a place for every panel and no empty row. -/
theorem C193_relations (m : DlgaModel) (l : List Rat) (hl : m.fields.lookup m.lhs = some l) (hu : Uniform m l.length) (hg : m.genome ≠ [])
    (hav : ∀ md ∈ m.genome, md ≠ [] ∧ ∀ g ∈ md, Avail m g) (hc : m.genome.length ≤ m.coef.length) (top : Int) (ht : 0 < top) :
    ∃ fig rest, plotRelations m top = .ok (some fig) ∧ fig.up = l ∧ fig.panels.length = min top.toNat m.genome.length ∧
      (fig.panels.map (fun c => (c.1, c.2.2)) ++ rest).Perm (m.genome.zip m.coef) ∧
      (∀ c ∈ fig.panels, ∀ q ∈ rest, |q.2| ≤ |c.2.2|) ∧ fig.panels.Pairwise (fun a b => |b.2.2| ≤ |a.2.2|) ∧
      (∀ c ∈ fig.panels, c.2.1.length = l.length ∧ ∀ r, r < l.length → c.2.1[r]? = some (termValue m c.1 r)) ∧
      fig.cols = min fig.panels.length 3 ∧ fig.panels.length ≤ fig.rows * fig.cols ∧ fig.rows * fig.cols < fig.panels.length + fig.cols := by
  have hts := termsLoop_total hu m.genome 0 hav (by simpa using hc)
  rw [List.drop_zero] at hts
  generalize hT : (m.genome.zip m.coef).map (fun p => (p.1, prodCol (p.1.map (column m)), p.2)) = ts at hts
  have hperm := sortTerms_perm ts
  have hsort := sortTerms_sorted ts
  have hmem : ∀ c ∈ sortTerms ts, c.2.1.length = l.length ∧ ∀ r, r < l.length → c.2.1[r]? = some (termValue m c.1 r) := by
    intro c hcm
    have := hperm.mem_iff.1 hcm
    rw [← hT] at this
    obtain ⟨p, hp, rfl⟩ := List.mem_map.1 this
    have hp1 := (List.of_mem_zip hp).1
    exact ⟨term_length hu (hav p.1 hp1).2 (hav p.1 hp1).1, fun r hr => term_value hu (hav p.1 hp1).2 (hav p.1 hp1).1 r hr⟩
  have hslice : pySlice (sortTerms ts) top = (sortTerms ts).take top.toNat := by
    unfold pySlice; rw [if_neg (by omega)]
  have hlen : ((sortTerms ts).take top.toNat).length = min top.toNat m.genome.length := by
    rw [List.length_take, hperm.length_eq, ← hT, List.length_map, List.length_zip]
    omega
  have hpos : 0 < m.genome.length := List.length_pos_iff.2 hg
  have hne : (sortTerms ts).take top.toNat ≠ [] := by
    intro h
    rw [h] at hlen
    simp only [List.length_nil] at hlen
    omega
  refine ⟨⟨(sortTerms ts).take top.toNat, l, (((sortTerms ts).take top.toNat).length + min ((sortTerms ts).take top.toNat).length 3 - 1) / min ((sortTerms ts).take top.toNat).length 3, min ((sortTerms ts).take top.toNat).length 3⟩, ((sortTerms ts).drop top.toNat).map (fun c => (c.1, c.2.2)), ?_, rfl, hlen, ?_, ?_, ?_, ?_, rfl, ?_, ?_⟩
  · unfold plotRelations
    rw [if_neg hg, hl]
    simp only
    rw [hts]
    simp only
    rw [hslice, if_neg hne, if_neg]
    intro h
    obtain ⟨c, hc1, hc2⟩ := List.any_eq_true.1 h
    have := (hmem c (List.mem_of_mem_take hc1)).1
    simp [this] at hc2
  · rw [← List.map_append, List.take_append_drop]
    refine (hperm.map _).trans ?_
    rw [← hT, List.map_map]
    simp [Function.comp_def]
  · intro c hc1 q hq
    obtain ⟨c', hc', rfl⟩ := List.mem_map.1 hq
    rw [← List.take_append_drop top.toNat (sortTerms ts), List.pairwise_append] at hsort
    exact hsort.2.2 c hc1 c' hc'
  · exact hsort.sublist (List.take_sublist _ _)
  · intro c hc1; exact hmem c (List.mem_of_mem_take hc1)
  · simp only [hlen]
    generalize hw : min top.toNat m.genome.length = w
    have hw0 : 0 < w := by omega
    have hd := Nat.div_add_mod (w + min w 3 - 1) (min w 3)
    have hm := Nat.mod_lt (w + min w 3 - 1) (show 0 < min w 3 by omega)
    rw [Nat.mul_comm] at hd
    omega
  · simp only [hlen]
    generalize hw : min top.toNat m.genome.length = w
    have hw0 : 0 < w := by omega
    have hd := Nat.div_add_mod (w + min w 3 - 1) (min w 3)
    rw [Nat.mul_comm] at hd
    omega

/-- **C193** (relations, no terms asked for): asking for none of the terms gives no figure; asking for `-k` leaves out the `k` terms with the smallest coefficients – the same
figure as asking for the number of terms less `k`, none if that is not positive. -/
theorem C193_negative (m : DlgaModel) (l : List Rat) (hl : m.fields.lookup m.lhs = some l) (hu : Uniform m l.length)
    (hav : ∀ md ∈ m.genome, md ≠ [] ∧ ∀ g ∈ md, Avail m g) (hc : m.genome.length ≤ m.coef.length) :
    plotRelations m 0 = .ok none ∧
    ∀ k : Nat, 0 < k → plotRelations m (-(k : Int)) = if m.genome.length ≤ k then .ok none else plotRelations m ((m.genome.length : Int) - k) := by
  by_cases hg : m.genome = []
  · have : ∀ top, plotRelations m top = .ok none := by
      intro top
      unfold plotRelations
      rw [if_pos hg]
    simp [this]
  have hts := termsLoop_total hu m.genome 0 hav (by simpa using hc)
  rw [List.drop_zero] at hts
  generalize hT : (m.genome.zip m.coef).map (fun p => (p.1, prodCol (p.1.map (column m)), p.2)) = ts at hts
  have hlen : (sortTerms ts).length = m.genome.length := by
    rw [(sortTerms_perm ts).length_eq, ← hT, List.length_map, List.length_zip]
    omega
  have hempty : ∀ top, pySlice (sortTerms ts) top = [] → plotRelations m top = .ok none := by
    intro top h
    unfold plotRelations
    rw [if_neg hg, hl]
    simp only
    rw [hts]
    simp only
    rw [if_pos h]
  refine ⟨hempty 0 rfl, ?_⟩
  intro k hk
  by_cases hle : m.genome.length ≤ k
  · rw [if_pos hle]
    refine hempty _ ?_
    unfold pySlice
    rw [if_pos (by omega), hlen, show ((m.genome.length : Int) + -(k : Int)).toNat = 0 by omega]
    rfl
  · rw [if_neg hle]
    have : pySlice (sortTerms ts) (-(k : Int)) = pySlice (sortTerms ts) ((m.genome.length : Int) - k) := by
      unfold pySlice
      rw [if_pos (by omega), if_neg (by omega), hlen]
      rfl
    unfold plotRelations
    simp only [if_neg hg, hl, hts, this]

theorem termsLoop_own {m : DlgaModel} : ∀ (mods : List (List Nat)) (i : Nat) (ts : List (List Nat × List Rat × Rat)), termsLoop m i mods = .ok ts →
    ∀ c ∈ ts, (∀ g ∈ c.1, g < m.ops.length) ∧ (c.1, c.2.2) ∈ mods.zip (m.coef.drop i) := by
  intro mods
  induction mods with
  | nil =>
    intro i ts h c hc
    unfold termsLoop at h
    cases h
    cases hc
  | cons md mods ih =>
    intro i ts h c hc
    unfold termsLoop at h
    by_cases ha : (md.any fun g => decide (m.ops.length ≤ g)) = true
    · rw [if_pos ha] at h
      obtain ⟨h1, h2⟩ := ih (i + 1) ts h c hc
      refine ⟨h1, ?_⟩
      by_cases hi : i < m.coef.length
      · rw [List.drop_eq_getElem_cons hi, List.zip_cons_cons]; exact List.mem_cons_of_mem _ h2
      · rw [List.drop_eq_nil_of_le (by omega)] at h2; simp at h2
    · rw [if_neg ha] at h
      cases ht : termOf m i md with
      | error e => rw [ht] at h; cases h
      | ok p =>
        obtain ⟨v, co⟩ := p
        rw [ht] at h
        simp only at h
        have hi : m.coef[i]? = some co := by
          unfold termOf at ht
          repeat' split at ht
          all_goals first | (cases ht; done) | skip
          all_goals (cases ht; assumption)
        obtain ⟨hlt, he⟩ := List.getElem?_eq_some_iff.1 hi
        cases hr : termsLoop m (i + 1) mods with
        | error e => rw [hr] at h; cases h
        | ok ts' =>
          rw [hr] at h
          cases h
          rw [List.drop_eq_getElem_cons hlt, List.zip_cons_cons]
          rcases List.mem_cons.1 hc with rfl | hc
          · refine ⟨fun g hg => ?_, by rw [he]; exact List.mem_cons_self⟩
            by_contra hn
            exact ha (List.any_eq_true.2 ⟨g, hg, by simpa using hn⟩)
          · obtain ⟨h1, h2⟩ := ih (i + 1) ts' hr c hc
            exact ⟨h1, List.mem_cons_of_mem _ h2⟩

/-- **C193** (relations, skipped terms): whatever terms are skipped because a gene stands for no operator, every panel that is drawn shows a term of the equation
with the coefficient of this term – never that of a skipped one. -/
theorem C193_skipped (m : DlgaModel) (top : Int) (fig : RelFig) (h : plotRelations m top = .ok (some fig)) :
    ∀ c ∈ fig.panels, (∀ g ∈ c.1, g < m.ops.length) ∧ ∃ i : Nat, m.genome[i]? = some c.1 ∧ m.coef[i]? = some c.2.2 := by
  intro c hc
  unfold plotRelations at h
  by_cases hg : m.genome = []
  · rw [if_pos hg] at h; cases h
  rw [if_neg hg] at h
  cases hl : m.fields.lookup m.lhs with
  | none => rw [hl] at h; cases h
  | some l =>
    rw [hl] at h
    simp only at h
    cases ht : termsLoop m 0 m.genome with
    | error e => rw [ht] at h; cases h
    | ok ts =>
      rw [ht] at h
      simp only at h
      have hmem : c ∈ ts := by
        split at h
        · cases h
        · split at h
          · cases h
          · cases h
            exact (sortTerms_perm ts).mem_iff.1 (List.mem_of_mem_take hc)
      obtain ⟨h1, h2⟩ := termsLoop_own m.genome 0 ts ht c hmem
      refine ⟨h1, ?_⟩
      rw [List.drop_zero] at h2
      obtain ⟨i, hi, he⟩ := List.mem_iff_getElem.1 h2
      rw [List.length_zip] at hi
      rw [List.getElem_zip] at he
      exact ⟨i, by rw [List.getElem?_eq_getElem (by omega), (Prod.mk.inj he).1], by rw [List.getElem?_eq_getElem (by omega), (Prod.mk.inj he).2]⟩

/-! ## The optimisation figure -/

theorem changes_length : ∀ fit : List Rat, (changes fit).length = fit.length - 1 := by
  intro fit
  induction fit with
  | nil => rfl
  | cons a fit ih =>
    cases fit with
    | nil => rfl
    | cons b r => simp only [changes, List.length_cons] at *; omega

theorem changes_take : ∀ (fit : List Rat) (k : Nat), k ≤ fit.length - 1 → ((changes fit).take k).sum = variation fit k := by
  intro fit
  induction fit with
  | nil => intro k hk; have : k = 0 := by simpa using hk
           subst this; simp [variation]
  | cons a fit ih =>
    intro k hk
    cases fit with
    | nil => have : k = 0 := by simpa using hk
             subst this; simp [variation]
    | cons b r =>
      cases k with
      | zero => simp [variation]
      | succ k =>
        simp only [changes, List.take_succ_cons, List.sum_cons]
        rw [ih k (by simp at hk ⊢; omega)]
        unfold variation
        rw [List.range_succ_eq_map, List.map_cons, List.sum_cons, List.map_map, absR_eq]
        simp [Function.comp_def]

theorem cumsum_length : ∀ (l : List Rat) (s : Rat), (cumsum s l).length = l.length := by
  intro l
  induction l with
  | nil => intro s; rfl
  | cons a l ih => intro s; simp [cumsum, ih]

theorem cumsum_get : ∀ (l : List Rat) (s : Rat) (k : Nat), k < l.length → (cumsum s l)[k]? = some (s + (l.take (k + 1)).sum) := by
  intro l
  induction l with
  | nil => intro s k hk; simp at hk
  | cons a l ih =>
    intro s k hk
    cases k with
    | zero => simp [cumsum]
    | succ k =>
      simp only [cumsum, List.getElem?_cons_succ]
      rw [ih (s + a) k (by simpa using hk)]
      simp only [List.take_succ_cons, List.sum_cons]
      congr 1; ring

theorem takeWhile_stop {α : Type} (p : α → Bool) : ∀ (l : List α) (x : α), l[(l.takeWhile p).length]? = some x → p x = false := by
  intro l
  induction l with
  | nil => intro x h; simp at h
  | cons a l ih =>
    intro x h
    by_cases ha : p a = true
    · rw [List.takeWhile_cons_of_pos ha] at h
      exact ih x (by simpa using h)
    · rw [List.takeWhile_cons_of_neg ha] at h
      simp at h; subst h; simpa using ha

theorem takeWhile_before {α : Type} (p : α → Bool) : ∀ (l : List α) (k : Nat) (x : α), k < (l.takeWhile p).length → l[k]? = some x → p x = true := by
  intro l
  induction l with
  | nil => intro k x h; simp at h
  | cons a l ih =>
    intro k x h hx
    by_cases ha : p a = true
    · rw [List.takeWhile_cons_of_pos ha] at h
      cases k with
      | zero => simp at hx; subst hx; exact ha
      | succ k => exact ih k x (by simpa using h) (by simpa using hx)
    · rw [List.takeWhile_cons_of_neg ha] at h; simp at h

theorem variation_mono (fit : List Rat) {i j : Nat} (h : i ≤ j) : variation fit i ≤ variation fit j := by
  induction j with
  | zero => have : i = 0 := by omega
            subst this; exact le_refl _
  | succ j ih =>
    rcases Nat.lt_or_ge i (j + 1) with h1 | h1
    · refine le_trans (ih (by omega)) ?_
      unfold variation
      rw [List.range_succ, List.map_append, List.sum_append]
      simp
    · have : i = j + 1 := by omega
      subst this; exact le_refl _

theorem variation_nonneg (fit : List Rat) (k : Nat) : 0 ≤ variation fit k := by
  have := variation_mono fit (Nat.zero_le k)
  simpa [variation] using this

/-- **C193** (optimisation figure): with two generations or more the fitness curve is drawn over the generations; the highlighted part is its beginning
and contains at least four fifths of all the changes of the fitness, and it is at most four steps longer than the shortest beginning that does. -/
theorem C193_major (fit : List Rat) (h2 : 2 ≤ fit.length) :
    ∃ fig, plotOptimization fit = some fig ∧ fig.curve = (List.range fit.length).zip fit ∧ fig.major = fig.curve.take (fig.gens + 1) ∧
      1 ≤ fig.gens ∧ fig.gens + 1 ≤ fit.length ∧
      8 / 10 * variation fit (fit.length - 1) ≤ variation fit fig.gens ∧
      ∀ k, 1 ≤ k → 8 / 10 * variation fit (fit.length - 1) ≤ variation fit k → fig.gens ≤ k + 4 := by
  have hcl := changes_length fit
  unfold plotOptimization
  split
  · rename_i h; rw [h] at hcl; simp at hcl; omega
  · rename_i c r hcr
    rw [← hcr]
    simp only
    generalize hcum : cumsum 0 (changes fit) = cum
    have hlen : cum.length = fit.length - 1 := by rw [← hcum, cumsum_length, hcl]
    have hget : ∀ k, k < fit.length - 1 → cum[k]? = some (variation fit (k + 1)) := by
      intro k hk
      rw [← hcum, cumsum_get _ _ _ (by omega), zero_add, changes_take fit (k + 1) (by omega)]
    have hlast : (cum.getLast?).getD 0 = variation fit (fit.length - 1) := by
      rw [List.getLast?_eq_getElem?, hlen, hget _ (by omega)]
      simp only [Option.getD_some]
      congr 1; omega
    rw [hlast]
    generalize hv : variation fit (fit.length - 1) = total
    have htot : 0 ≤ total := by rw [← hv]; exact variation_nonneg _ _
    generalize hj : searchsorted cum (8 / 10 * total) = j
    have hj' : (cum.takeWhile fun x => decide (x < 8 / 10 * total)).length = j := hj
    have hjl : j < fit.length - 1 := by
      by_contra hcon
      have hx := hget (fit.length - 1 - 1) (by omega)
      have := takeWhile_before (fun x => decide (x < 8 / 10 * total)) cum (fit.length - 1 - 1) _ (by rw [hj']; omega) hx
      rw [decide_eq_true_eq, show fit.length - 1 - 1 + 1 = fit.length - 1 from by omega, hv] at this
      linarith
    have hstop : 8 / 10 * total ≤ variation fit (j + 1) := by
      have hx := hget j hjl
      have := takeWhile_stop (fun x => decide (x < 8 / 10 * total)) cum _ (by rw [hj']; exact hx)
      simpa using this
    refine ⟨_, rfl, rfl, rfl, ?_, ?_, ?_, ?_⟩
    · simp only; omega
    · simp only; omega
    · simp only
      exact le_trans hstop (variation_mono fit (by omega))
    · intro k hk hkv
      simp only
      have : j + 1 ≤ k := by
        by_contra hcon
        have hx := hget (k - 1) (by omega)
        have := takeWhile_before (fun x => decide (x < 8 / 10 * total)) cum (k - 1) _ (by rw [hj']; omega) hx
        rw [decide_eq_true_eq, show k - 1 + 1 = k from by omega] at this
        linarith
      omega

/-- **C193 (violated).** With one generation (or none) the optimisation figure raises. -/
theorem C193_one_generation_counterexample (fit : List Rat) (h : fit.length ≤ 1) : plotOptimization fit = none := by
  have hcl := changes_length fit
  unfold plotOptimization
  split
  · rfl
  · rename_i c r hcr; rw [hcr] at hcl; simp at hcl; omega

/-! ## Time slices -/

/-- **C193** (time slices): for relative times between 0 and 1 there is one panel per time asked for, in order; it shows the column of data at the last grid place
not after the relative time, and the time written above is the time of that column.
Partial, of the whole claim: False for a history of one generation (the optimisation figure raises), for relative times outside [0, 1] and between two samples (rounded down, not to the nearest; negative ones count from the end) and for terms without genes in the relation figure (counterexamples); otherwise as stated, in exact arithmetic. Drawing and the population panel are not modelled. -/
theorem C193_slices_partial (t slices : List Rat) (ht : t ≠ []) (hs : slices ≠ []) (h01 : ∀ s ∈ slices, 0 ≤ s ∧ s ≤ 1) :
    ∃ ps, plotTimeSlices t slices = .ok ps ∧ ps.length = slices.length ∧
      ∀ (k : Nat) (s : Rat), slices[k]? = some s → ∃ i v, ps[k]? = some (i, v) ∧ t[i]? = some v ∧
        (i : Rat) ≤ s * ((t.length : Rat) - 1) ∧ s * ((t.length : Rat) - 1) < i + 1 := by
  have hn : 1 ≤ t.length := List.length_pos_iff.2 ht
  have hq : (1 : Rat) ≤ t.length := by exact_mod_cast hn
  unfold plotTimeSlices
  rw [if_neg hs]
  clear hs
  induction slices with
  | nil => exact ⟨[], rfl, rfl, by simp⟩
  | cons s slices ih =>
    obtain ⟨ps, h1, h2, h3⟩ := ih (fun x hx => h01 x (by simp [hx]))
    obtain ⟨s0, s1⟩ := h01 s (by simp)
    have hx0 : 0 ≤ s * ((t.length : Rat) - 1) := mul_nonneg s0 (by linarith)
    have hx1 : s * ((t.length : Rat) - 1) ≤ (t.length : Rat) - 1 := by nlinarith
    have hf0 : 0 ≤ ⌊s * ((t.length : Rat) - 1)⌋ := Int.floor_nonneg.2 hx0
    have hle := Int.floor_le (s * ((t.length : Rat) - 1))
    have hlt := Int.lt_floor_add_one (s * ((t.length : Rat) - 1))
    generalize hi : ⌊s * ((t.length : Rat) - 1)⌋ = fl at hf0 hle hlt
    obtain ⟨i, rfl⟩ := Int.eq_ofNat_of_zero_le hf0
    have hlen : i < t.length := by
      have : (i : Rat) ≤ (t.length : Rat) - 1 := by
        have : ((i : Int) : Rat) ≤ _ := le_trans hle hx1
        exact_mod_cast this
      have h4 : (i : Rat) + 1 ≤ t.length := by linarith
      exact_mod_cast h4
    refine ⟨(i, t[i]) :: ps, ?_, by simp [h2], ?_⟩
    · unfold slicePanels
      have e : timeAt t (sliceIdx t.length s) = .ok (i, t[i]) := by
        simp only [sliceIdx, if_pos hx0, hi, timeAt]
        rw [if_neg (show ¬ ((i : Int) < 0) by omega), if_neg (by omega)]
        simp [hlen]
      rw [e]
      simp only
      rw [h1]
    · intro k x hk
      cases k with
      | zero =>
        simp only [List.getElem?_cons_zero, Option.some.injEq] at hk
        subst hk
        exact ⟨i, t[i], rfl, List.getElem?_eq_getElem hlen, by exact_mod_cast hle, by exact_mod_cast hlt⟩
      | succ k => exact h3 k x (by simpa using hk)

/-- **C193** (violated): the panel is not at the closest grid time (0.9 of the way from 0 to 1 shows time 0), a negative relative time shows a time from the end, and a relative
time above 1 may raise. -/
theorem C193_slice_counterexample : plotTimeSlices [0, 1] [9 / 10] = .ok [(0, 0)] ∧ plotTimeSlices [0, 1, 2] [-1 / 2] = .ok [(2, 2)] ∧
    plotTimeSlices [0, 1, 2] [3 / 2] = .error .index := by
  decide +kernel

/-! ## Examples -/

theorem eq_ok_of {α : Type} [DecidableEq α] (x : Except Exn α) (a : α) (h : (match x with | .ok b => decide (b = a) | .error _ => false) = true) : x = .ok a := by
  cases x with
  | ok b => simp at h; rw [h]
  | error e => simp at h

/-- `C193_skipped` on a case: the first term has gene 7 of two operators and is skipped; the second is drawn with its own coefficient 5. -/
example : plotRelations ⟨[[7], [0]], [3, 5], "ut", ["u", "ux"], [("u", [1]), ("ut", [2])]⟩ 4 = .ok (some ⟨[([0], [1], 5)], [2], 1, 1⟩) :=
  eq_ok_of _ _ (by decide +kernel)

/-- u_t = 2 u - 3 u u_x. -/
def demo : DlgaModel := ⟨[[0], [0, 1]], [2, -3], "u_t", ["u", "u_x"], [("u_t", [1, 2]), ("u", [1, 2]), ("u_x", [3, 4])]⟩

/-- A model meeting the hypotheses of the parity and relation theorems, and its figures. -/
theorem C193_demo : demo.fields.lookup demo.lhs = some [1, 2] ∧ Uniform demo 2 ∧ (∀ md ∈ demo.genome, md ≠ [] ∧ ∀ g ∈ md, Avail demo g) ∧
    (∃ fig, plotParity demo = .ok (some fig) ∧ fig.points = [(-7, 1), (-20, 2)] ∧ fig.lo = -20 ∧ fig.hi = 2) ∧
    ∃ fig, plotRelations demo 1 = .ok (some fig) ∧ fig.panels = [([0, 1], [3, 8], -3)] ∧ fig.rows = 1 ∧ fig.cols = 1 := by
  refine ⟨rfl, ?_, ?_, ⟨⟨[(-7, 1), (-20, 2)], -20, 2⟩, eq_ok_of _ _ (by decide +kernel), rfl, rfl, rfl⟩, ⟨⟨[([0, 1], [3, 8], -3)], [1, 2], 1, 1⟩, eq_ok_of _ _ (by decide +kernel), rfl, rfl, rfl⟩⟩
  · intro o c h
    unfold demo at h
    simp only [List.lookup] at h
    repeat' split at h
    all_goals first | (simp at h; subst h; rfl) | simp at h
  · intro md hmd
    simp only [demo, List.mem_cons, List.not_mem_nil, or_false] at hmd
    rcases hmd with rfl | rfl
    · refine ⟨by simp, fun g hg => ?_⟩
      simp at hg; subst hg
      exact ⟨"u", [1, 2], rfl, rfl⟩
    · refine ⟨by simp, fun g hg => ?_⟩
      simp at hg
      rcases hg with rfl | rfl
      · exact ⟨"u", [1, 2], rfl, rfl⟩
      · exact ⟨"u_x", [3, 4], rfl, rfl⟩

/-- **C193 (violated).** A term without genes (a constant) makes the relation figure fail although the parity figure shows it. -/
theorem C193_constant_counterexample :
    let m : DlgaModel := ⟨[[], [0]], [5, 1], "u_t", ["u"], [("u_t", [6, 7]), ("u", [1, 2])]⟩
    (∃ fig, plotParity m = .ok (some fig) ∧ fig.points = [(6, 6), (7, 7)]) ∧ (match plotRelations m 4 with | .error e => some e | .ok _ => none) = some .value := by
  exact ⟨⟨⟨[(6, 6), (7, 7)], 6, 7⟩, eq_ok_of _ _ (by decide +kernel), rfl⟩, by decide +kernel⟩

/-- Five generations; four fifths of the change (8 of 10) are reached after the first step. -/
example : (plotOptimization [10, 1, 1, 0, 0]).map (fun f => f.gens) = some 4 ∧
    (plotOptimization [20, 10, 10, 10, 10, 10, 10, 10]).map (fun f => f.gens) = some 5 := by decide +kernel

end Verif.Viz.DlgaOld.Claims
