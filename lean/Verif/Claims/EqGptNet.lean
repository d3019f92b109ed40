import Mathlib.Tactic.Linarith
import Mathlib.Tactic.NormNum
import Verif.EqGpt.Gpt
import Verif.Claims.EqGptSurrogate
/-!
# C148, C149: the EqGPT network looks back only; fine-tuning raises what the sampler draws from
-/
namespace Verif.EqGpt.Gpt.Claims
open Finset Verif.EqGpt.Gpt Verif.EqGpt.Surrogate

variable {E V L : Type} [AddCommGroup V] [Module ℝ V]

/-- There is a word other than the padding among the first `i + 1`. -/
def Started (seq : List Nat) (i : Nat) : Prop := ∃ j ≤ i, seq.getD j 0 ≠ 0

/-- The sentences agree up to position `i`. -/
def Agree (s s' : List Nat) (i : Nat) : Prop := ∀ j ≤ i, s.getD j 0 = s'.getD j 0

theorem sum_cut {M : Type} [AddCommMonoid M] (n i : Nat) (hi : i < n) (f : Nat → M) (h : ∀ j, i < j → f j = 0) :
    ∑ j ∈ range n, f j = ∑ j ∈ range (i + 1), f j := by
  symm
  apply Finset.sum_subset
  · intro j hj
    rw [mem_range] at hj ⊢
    omega
  · intro j _ hj
    rw [mem_range] at hj
    exact h j (by omega)

theorem attend_congr (n n' i : Nat) (hi : i < n) (hi' : i < n') (mask mask' : Nat → Bool) (score score' : Nat → ℝ) (val val' : Nat → V)
    (hm : ∀ j ≤ i, mask j = mask' j) (hlate : ∀ j, i < j → mask j = true ∧ mask' j = true) (hex : ∃ j ≤ i, mask j = false)
    (hv : ∀ j ≤ i, mask j = false → score j = score' j ∧ val j = val' j) : attend n mask score val = attend n' mask' score' val' := by
  obtain ⟨j0, hj0, hf⟩ := hex
  have hn : (List.range n).all mask = false := by
    rw [List.all_eq_false]
    exact ⟨j0, List.mem_range.2 (by omega), by simp [hf]⟩
  have hn' : (List.range n').all mask' = false := by
    rw [List.all_eq_false]
    exact ⟨j0, List.mem_range.2 (by omega), by simp [← hm j0 hj0, hf]⟩
  unfold attend
  rw [hn, hn']
  simp only [Bool.false_eq_true, if_false]
  have hz : ∑ k ∈ range n, (if mask k then (0 : ℝ) else Real.exp (score k)) = ∑ k ∈ range n', (if mask' k then (0 : ℝ) else Real.exp (score' k)) := by
    rw [sum_cut n i hi _ (fun j hj => by simp [(hlate j hj).1]), sum_cut n' i hi' _ (fun j hj => by simp [(hlate j hj).2])]
    apply Finset.sum_congr rfl
    intro j hj
    rw [mem_range] at hj
    rw [← hm j (by omega)]
    cases hmj : mask j with
    | true => rfl
    | false => simp [(hv j (by omega) hmj).1]
  rw [hz]
  obtain ⟨Z, hZ⟩ : ∃ Z, ∑ k ∈ range n', (if mask' k then (0 : ℝ) else Real.exp (score' k)) = Z := ⟨_, rfl⟩
  rw [hZ]
  rw [sum_cut n i hi _ (fun j hj => by simp [(hlate j hj).1]), sum_cut n' i hi' _ (fun j hj => by simp [(hlate j hj).2])]
  apply Finset.sum_congr rfl
  intro j hj
  rw [mem_range] at hj
  rw [← hm j (by omega)]
  cases hmj : mask j with
  | true => simp
  | false => rw [(hv j (by omega) hmj).1, (hv j (by omega) hmj).2]

theorem layer_congr (l : Layer E V) (s s' : List Nat) (i : Nat) (hi : i < s.length) (hi' : i < s'.length) (ha : Agree s s' i) (x x' : Nat → E)
    (hx : ∀ j ≤ i, Started s j → x j = x' j) : ∀ j ≤ i, Started s j → l.apply s x j = l.apply s' x' j := by
  intro j hj hs
  unfold Layer.apply
  rw [hx j hj hs]
  congr 1
  apply List.map_congr_left
  intro h _
  apply attend_congr s.length s'.length j (by omega) (by omega)
  · intro k hk
    simp only [masked, ha k (by omega)]
  · intro k hk
    simp [masked, hk]
  · obtain ⟨k, hk, hne⟩ := hs
    refine ⟨k, hk, ?_⟩
    simp only [masked, Bool.or_eq_false_iff, beq_eq_false_iff_ne, ne_eq, decide_eq_false_iff_not]
    exact ⟨hne, by omega⟩
  · intro k hk hm
    simp only [masked, Bool.or_eq_false_iff, beq_eq_false_iff_ne, ne_eq] at hm
    have := hx k (by omega) ⟨k, le_refl k, hm.1⟩
    rw [this]
    exact ⟨rfl, rfl⟩

theorem run_congr (ls : List (Layer E V)) (s s' : List Nat) (i : Nat) (hi : i < s.length) (hi' : i < s'.length) (ha : Agree s s' i) (x x' : Nat → E)
    (hx : ∀ j ≤ i, Started s j → x j = x' j) : ∀ j ≤ i, Started s j → runLayers s ls x j = runLayers s' ls x' j := by
  induction ls generalizing x x' with
  | nil => exact hx
  | cons l ls ih => exact ih _ _ (layer_congr l s s' i hi hi' ha x x' hx)

/-- **C148.** The network looks back only: what it says at a position depends on the words up to there alone – whatever words, padding or nothing follow –
provided one of them is not the padding.  For all weights, numbers of layers and heads. -/
theorem C148_causal (g : Net E V L) (s s' : List Nat) (i : Nat) (ha : Agree s s' i) (hs : Started s i) (l l' : List L) (h : g.logits s = some l) (h' : g.logits s' = some l')
    (hi : i < s.length) (hi' : i < s'.length) : ∃ v, l[i]? = some v ∧ l'[i]? = some v := by
  unfold Net.logits at h h'
  by_cases h1 : g.maxPos < s.length
  · rw [if_pos h1] at h; cases h
  by_cases h2 : g.maxPos < s'.length
  · rw [if_pos h2] at h'; cases h'
  rw [if_neg h1, Option.some.injEq] at h
  rw [if_neg h2, Option.some.injEq] at h'
  subst h h'
  refine ⟨_, by rw [List.getElem?_map, List.getElem?_range hi]; rfl, ?_⟩
  rw [List.getElem?_map, List.getElem?_range hi', Option.map_some, Option.some.injEq]
  congr 1
  exact (run_congr g.layers s s' i hi hi' ha _ _ (fun j hj _ => by rw [ha j hj]) i (le_refl i) hs).symm

/-- **C148** (lengths): one result per word, up to the number of positions; longer sentences raise. -/
theorem C148_length (g : Net E V L) (s : List Nat) :
    (g.logits s = none ↔ g.maxPos < s.length) ∧ ∀ l, g.logits s = some l → l.length = s.length := by
  unfold Net.logits
  by_cases h : g.maxPos < s.length
  · simp [h]
  · rw [if_neg h]
    refine ⟨by simp [h], fun l hl => ?_⟩
    rw [← Option.some.inj hl]
    simp

/-- A network with one layer and one head that copies the mean of what it attends to. -/
noncomputable def copier : Net ℝ ℝ ℝ :=
  ⟨fun w _ => w, [⟨[⟨fun _ _ => 0, id⟩], fun _ l => l.headD 0⟩], id, 50⟩

/-- **C148 (violated)** for sentences that begin with the padding: all scores of such a position are masked alike, the weights are equal over the whole
row, and the words that follow are seen. -/
theorem C148_padding_counterexample : copier.logits [0] = some [0] ∧ (copier.logits [0, 6]).map (fun l => l[0]?) = some (some 3) := by
  constructor
  · simp [copier, Net.logits, runLayers, Layer.apply, attend, masked]
  · simp [copier, Net.logits, runLayers, Layer.apply, attend, masked, List.range_succ, Finset.sum_range_succ]
    norm_num

/-! ## Fine-tuning -/

theorem next_eq (g : Net E V L) (s : List Nat) (l : List L) (h : g.logits s = some l) (hs : s ≠ []) : g.next s = l[s.length - 1]? := by
  have hl := (C148_length g s).2 l h
  unfold Net.next
  rw [h, Option.bind_some, List.getLast?_eq_getElem?, hl]

theorem getD_take (s : List Nat) (i j : Nat) (h : j ≤ i) : (s.take (i + 1)).getD j 0 = s.getD j 0 := by
  simp only [List.getD]
  rw [List.getElem?_take_of_lt (by omega)]

theorem getD_append (s t : List Nat) (j : Nat) (h : j < s.length) : (s ++ t).getD j 0 = s.getD j 0 := by
  simp only [List.getD]
  rw [List.getElem?_append_left h]

theorem filter_zip_pad {A : Type} (l : List A) (t : List Nat) (k : Nat) (h : 0 ∉ t) (hl : t.length ≤ l.length) :
    (l.zip (t ++ List.replicate k 0)).filter (fun q => q.2 != 0) = (l.take t.length).zip t := by
  induction t generalizing l with
  | nil =>
    simp only [List.nil_append, List.length_nil, List.take_zero, List.zip_nil_left, List.filter_eq_nil_iff]
    rintro ⟨a, b⟩ hab
    have := (List.of_mem_zip hab).2
    simp only [List.mem_replicate] at this
    simp [this.2]
  | cons w t ih =>
    cases l with
    | nil => simp at hl
    | cons a l =>
      have hw : w ≠ 0 := fun e => h (by simp [e])
      rw [List.cons_append, List.zip_cons_cons, List.filter_cons_of_pos (by simp [hw]), ih l (fun hm => h (by simp [hm])) (by simpa using hl)]
      rfl

/-- One row of a batch: the padded input and output of a sentence without padding give, for every position, the logits of the sentence up to there and
the next word. -/
theorem row_terms (g : Net E V L) (s : List Nat) (ni no : Nat) (h0 : 0 ∉ s) (hni : s.length - 1 ≤ ni) (hmax : ni ≤ g.maxPos) :
    ∃ ts, ((g.logits (pad ni s.dropLast)).map fun ls => (ls.zip (pad no s.tail)).filter fun q => q.2 != 0) = some ts ∧
      ts.map (fun q => (some q.1, q.2)) = (List.range (s.length - 1)).map fun i => (g.next (s.take (i + 1)), (s[i + 1]?).getD 0) := by
  have hpl : (pad ni s.dropLast).length = ni := by simp [pad]; omega
  obtain ⟨ls, hls⟩ : ∃ ls, g.logits (pad ni s.dropLast) = some ls := by
    cases hc : g.logits (pad ni s.dropLast) with
    | some l => exact ⟨l, rfl⟩
    | none =>
      have := (C148_length g _).1.1 hc
      omega
  have hlen := (C148_length g _).2 ls hls
  rw [hpl] at hlen
  rw [hls]
  refine ⟨_, rfl, ?_⟩
  have h0t : 0 ∉ s.tail := fun h => h0 (List.mem_of_mem_tail h)
  show List.map _ ((ls.zip (s.tail ++ List.replicate (no - s.tail.length) 0)).filter fun q => q.2 != 0) = _
  rw [filter_zip_pad ls s.tail _ h0t (by rw [List.length_tail, hlen]; exact hni)]
  apply List.ext_getElem?
  intro i
  rw [List.getElem?_map]
  by_cases hi : i < s.length - 1
  · have htl : s.tail[i]? = some (s[i + 1]'(by omega)) := by
      rw [List.getElem?_tail, List.getElem?_eq_getElem]
    have hli : ls[i]? = some (ls[i]'(by omega)) := List.getElem?_eq_getElem _
    have hz : ((ls.take s.tail.length).zip s.tail)[i]? = some (ls[i]'(by omega), s[i + 1]'(by omega)) := by
      rw [List.getElem?_zip_eq_some]
      exact ⟨by rw [List.getElem?_take_of_lt (by simpa using hi)]; exact hli, htl⟩
    rw [hz, List.getElem?_map, List.getElem?_range hi]
    simp only [Option.map_some, Option.some.injEq, Prod.mk.injEq]
    refine ⟨?_, by rw [List.getElem?_eq_getElem]; rfl⟩
    have htake : (s.take (i + 1)).length = i + 1 := by rw [List.length_take]; omega
    obtain ⟨lt, hlt⟩ : ∃ lt, g.logits (s.take (i + 1)) = some lt := by
      cases hc : g.logits (s.take (i + 1)) with
      | some l => exact ⟨l, rfl⟩
      | none =>
        have := (C148_length g _).1.1 hc
        omega
    rw [next_eq g _ lt hlt (by intro e; rw [e] at htake; simp at htake), htake, Nat.add_sub_cancel]
    have hagree : Agree (s.take (i + 1)) (pad ni s.dropLast) i := by
      intro j hj
      rw [getD_take s i j hj, pad, getD_append _ _ _ (by rw [List.length_dropLast]; omega)]
      simp only [List.getD]
      rw [List.getElem?_dropLast, if_pos (by omega)]
    have hstart : Started (s.take (i + 1)) i := by
      refine ⟨0, by omega, ?_⟩
      rw [getD_take s i 0 (by omega)]
      simp only [List.getD]
      rw [List.getElem?_eq_getElem (by omega : 0 < s.length), Option.getD_some]
      intro e
      exact h0 (e ▸ List.getElem_mem _)
    obtain ⟨v, hv, hv'⟩ := C148_causal g (s.take (i + 1)) (pad ni s.dropLast) i hagree hstart lt ls hlt hls (by omega) (by omega)
    rw [hv, ← hli, hv']
  · have h1 : ((ls.take s.tail.length).zip s.tail)[i]? = none := by
      rw [List.getElem?_eq_none_iff, List.length_zip, List.length_tail, List.length_take]
      omega
    rw [h1, List.getElem?_eq_none_iff.2 (by simpa using Nat.le_of_not_lt hi)]
    rfl

/-- **C149.** What enters the fine-tuning loss of a padded batch of sentences (without padding in them, and with at most as many words as there are
positions, plus one) is exactly, for every sentence and every word after the first, the word and what the sampler would draw it from after the words
before it.  So the loss is the mean negative log-probability of the sentences' words under the sampler, whatever other sentences are in the batch. -/
theorem C149_loss (g : Net E V L) (ss : List (List Nat)) (h0 : ∀ s ∈ ss, 0 ∉ s) (hmax : ∀ s ∈ ss, s.length ≤ g.maxPos + 1) :
    ∃ ts, g.lossTerms (batch ss) = some ts ∧
      ts.map (fun q => (some q.1, q.2)) = ss.flatMap fun s => (List.range (s.length - 1)).map fun i => (g.next (s.take (i + 1)), (s[i + 1]?).getD 0) := by
  unfold Net.lossTerms batch
  simp only
  obtain ⟨ni, hni⟩ : ∃ ni, longest ((ss.map item).map Prod.fst) = ni := ⟨_, rfl⟩
  obtain ⟨no, hno⟩ : ∃ no, longest ((ss.map item).map Prod.snd) = no := ⟨_, rfl⟩
  rw [hni, hno]
  have hle : ∀ s ∈ ss, s.length - 1 ≤ ni := by
    intro s hs
    rw [← hni]
    have h1 := Verif.EqGpt.Surrogate.Claims.le_longest _ _ (List.mem_map_of_mem (f := Prod.fst) (List.mem_map_of_mem (f := item) hs))
    simpa [item] using h1
  have hup : ni ≤ g.maxPos := by
    rw [← hni]
    unfold longest
    have key : ∀ (l : List Nat) (m k : Nat), m ≤ k → (∀ a ∈ l, a ≤ k) → l.foldl max m ≤ k := by
      intro l
      induction l with
      | nil => intro m k hm _; exact hm
      | cons a l ih =>
        intro m k hm hl
        rw [List.foldl_cons]
        exact ih _ _ (by have := hl a (List.mem_cons_self ..); omega) fun b hb => hl b (List.mem_cons_of_mem _ hb)
    apply key _ _ _ (by omega)
    intro a ha
    simp only [List.map_map, List.mem_map, Function.comp_apply, item] at ha
    obtain ⟨s, hs, rfl⟩ := ha
    rw [List.length_dropLast]
    have := hmax s hs
    omega
  rw [List.zip_map', List.map_map]
  clear hno hni hmax
  induction ss with
  | nil => exact ⟨[], rfl, rfl⟩
  | cons s ss ih =>
    obtain ⟨ts, h1, h2⟩ := row_terms g s ni no (h0 s (List.mem_cons_self ..)) (hle s (List.mem_cons_self ..)) hup
    obtain ⟨us, h3, h4⟩ := ih (fun s hs => h0 s (List.mem_cons_of_mem _ hs)) (fun s hs => hle s (List.mem_cons_of_mem _ hs))
    rw [Option.map_eq_some_iff] at h3
    obtain ⟨vs, h5, h6⟩ := h3
    refine ⟨ts ++ us, ?_, ?_⟩
    · rw [List.map_cons, List.mapM_cons]
      simp only [Function.comp_apply, item] at h1 h5 ⊢
      rw [h1, h5]
      simp [← h6]
    · rw [List.map_append, h2, h4, List.flatMap_cons]

example : (∀ s ∈ [[5, 6, 2, 7, 1], [5, 6, 1]], 0 ∉ s) ∧ ∀ s ∈ [[5, 6, 2, 7, 1], [5, 6, 1]], s.length ≤ copier.maxPos + 1 := by
  simp [copier]

end Verif.EqGpt.Gpt.Claims
