import Verif.EqGpt.Run
import Verif.Claims.EqGptBoard
import Verif.Claims.EqGptSample
import Verif.Claims.EqGptReward
/-!
# C180: a whole run of EqGPT
-/
namespace Verif.EqGpt.Run.Claims
open Verif.EqGpt Verif.EqGpt.Run Verif.Claims.EqGpt

variable {W α : Type} [LinearOrder α]

/-- `torch.topk(all_reward, samples)` on rewards without NaN: all indices by descending reward, ties in any order. -/
def TopK (t : List (Option α) → List Nat) : Prop := ∀ rs : List (Option α), none ∉ rs →
  (t rs).Perm (List.range rs.length) ∧
  (t rs).Pairwise (fun i j => ∀ a b, rs[i]? = some (some a) → rs[j]? = some (some b) → b ≤ a)

/-- The masks of successive candidates: each is what evaluating the candidate before left. -/
def Masks (cases : List Case) : List Bool → List (Scored α) → Prop
  | _, [] => True
  | m, c :: cs => c.mask = m ∧ Masks cases (maskAfter cases m c.sentence) cs

theorem masks_append (cases : List Case) : ∀ (l l' : List (Scored α)) (m : List Bool),
    Masks cases m l → Masks cases (l.foldl (fun m c => maskAfter cases m c.sentence) m) l' → Masks cases m (l ++ l') := by
  intro l
  induction l with
  | nil => intro l' m _ h; exact h
  | cons c l ih =>
    intro l' m h h'
    exact ⟨h.1, ih l' _ h.2 h'⟩

theorem samples_spec (S : Setting W α) (w : W) : ∀ (ds : List (W → List Nat → Draw)) (m : List Bool) l m',
    samples S w ds m = some (l, m') → l.length = ds.length ∧ Masks S.cases m l ∧
      m' = l.foldl (fun m c => maskAfter S.cases m c.sentence) m ∧
      ∀ c ∈ l, (∃ d ∈ ds, sample c.mask (d w) = some c.sentence) ∧
        c.reward = S.store (calcReward S.solve S.pen S.cases S.vars c.sentence) := by
  intro ds
  induction ds with
  | nil =>
    intro m l m' h
    simp only [samples, Option.some.injEq, Prod.mk.injEq] at h
    obtain ⟨rfl, rfl⟩ := h
    exact ⟨rfl, trivial, rfl, by simp⟩
  | cons d ds ih =>
    intro m l m' h
    unfold samples at h
    cases hs : sample m (d w) with
    | none => rw [hs] at h; cases h
    | some s =>
      rw [hs] at h
      simp only at h
      cases hr : samples S w ds (maskAfter S.cases m s) with
      | none => rw [hr] at h; cases h
      | some x =>
        obtain ⟨rest, mr⟩ := x
        rw [hr] at h
        simp only [Option.some.injEq, Prod.mk.injEq] at h
        obtain ⟨rfl, rfl⟩ := h
        obtain ⟨i1, i2, i3, i4⟩ := ih _ _ _ hr
        refine ⟨by simp [i1], ⟨rfl, i2⟩, by simpa using i3, fun c hc => ?_⟩
        rcases List.mem_cons.1 hc with rfl | hc
        · exact ⟨⟨d, by simp, hs⟩, rfl⟩
        · obtain ⟨⟨d', hd', e⟩, e'⟩ := i4 c hc
          exact ⟨⟨d', by simp [hd'], e⟩, e'⟩

theorem zipWith_map_zip {A B C : Type} (f : A → B → C) : ∀ (l : List A) (l' : List B), List.zipWith f l l' = (l.zip l').map fun p => f p.1 p.2 := by
  intro l
  induction l with
  | nil => intro l'; simp
  | cons a l ih =>
    intro l'
    cases l' with
    | nil => simp
    | cons b l' => simp [ih]

/-- What a run leaves behind. -/
structure Faithful (S : Setting W α) (m : List Bool) (ls : List (List (Scored α))) : Prop where
  masks : Masks S.cases m ls.flatten
  drawn : ∀ c ∈ ls.flatten, ∃ orc : List Nat → Draw, sample c.mask orc = some c.sentence
  scored : ∀ c ∈ ls.flatten, c.reward = S.store (calcReward S.solve S.pen S.cases S.vars c.sentence)

theorem epochs_spec (S : Setting W α) : ∀ (cs : List (Chance W α)) (st st' : St W α) (ls : List (List (Scored α))),
    epochs S st cs = some (ls, st') → ls.length = cs.length ∧ (∀ p ∈ ls.zip cs, p.1.length = p.2.draws.length) ∧ Faithful S st.mask ls ∧
      st'.board = (List.zipWith (fun l (c : Chance W α) => asEpoch c.topk l) ls cs).foldl (fun b e => some (update b e)) st.board := by
  intro cs
  induction cs with
  | nil =>
    intro st st' ls h
    simp only [epochs, Option.some.injEq, Prod.mk.injEq] at h
    obtain ⟨rfl, rfl⟩ := h
    exact ⟨rfl, by simp, ⟨trivial, by simp, by simp⟩, rfl⟩
  | cons c cs ih =>
    intro st st' ls h
    unfold epochs at h
    cases he : epoch S st c with
    | none => rw [he] at h; cases h
    | some x =>
      obtain ⟨l, s1⟩ := x
      rw [he] at h
      simp only at h
      cases hr : epochs S s1 cs with
      | none => rw [hr] at h; cases h
      | some y =>
        obtain ⟨ls', s2⟩ := y
        rw [hr] at h
        simp only [Option.some.injEq, Prod.mk.injEq] at h
        obtain ⟨rfl, rfl⟩ := h
        obtain ⟨i1, i2, i3, i4⟩ := ih _ _ _ hr
        unfold epoch at he
        cases hsm : samples S st.net c.draws st.mask with
        | none => rw [hsm] at he; cases he
        | some z =>
          obtain ⟨l', mm⟩ := z
          rw [hsm] at he
          simp only [Option.some.injEq, Prod.mk.injEq] at he
          obtain ⟨rfl, rfl⟩ := he
          obtain ⟨j1, j2, j3, j4⟩ := samples_spec S _ _ _ _ _ hsm
          refine ⟨by simp [i1], ?_, ⟨?_, ?_, ?_⟩, ?_⟩
          · intro p hp
            rw [List.zip_cons_cons] at hp
            rcases List.mem_cons.1 hp with rfl | hp
            · exact j1
            · exact i2 p hp
          · rw [List.flatten_cons]
            refine masks_append _ _ _ _ j2 ?_
            rw [← j3]
            exact i3.masks
          · intro x hx
            rw [List.flatten_cons] at hx
            rcases List.mem_append.1 hx with hx | hx
            · obtain ⟨⟨d, _, e⟩, _⟩ := j4 x hx
              exact ⟨_, e⟩
            · exact i3.drawn x hx
          · intro x hx
            rw [List.flatten_cons] at hx
            rcases List.mem_append.1 hx with hx | hx
            · exact (j4 x hx).2
            · exact i3.scored x hx
          · rw [i4]
            rfl

/-- **C180**: the report of a run (at least one epoch, at least one sample per epoch, no NaN among the rewards of the run).  Every candidate was drawn
with the mask of its time, and its reward is the mean reward over the cases of the data; the report lists, in strictly descending order of
reward, sentences drawn in this run, each with its own reward and the text of the terms that were evaluated; and the reward of every candidate of the run
is either listed or smaller than all listed ones.
Partial, of the whole claim: For runs with at least one sample per epoch in which no reward is NaN and no draw raises; with a NaN reward the report can be wrong (C80_nan_counterexample, C83_nan_counterexample), and it never has more entries than the first epoch has distinct rewards (C80_size_counterexample); the network is a function from its state and the prefix to a distribution; composition of the models of sampling, reward, mask and top ten. -/
theorem C180_report_partial (S : Setting W α) (w : W) (c0 : Chance W α) (cs : List (Chance W α)) (hd : ∀ c ∈ c0 :: cs, c.draws ≠ [])
    (ht : ∀ c ∈ c0 :: cs, TopK c.topk) (ls : List (List (Scored α))) (eqs : List String) (rewards : List (Option α))
    (h : search S w (c0 :: cs) = some (ls, eqs, rewards)) (hnan : ∀ c ∈ ls.flatten, c.reward ≠ none) :
    Faithful S (maskInvalid S.vars) ls ∧
    ∃ best : List (α × Scored α), eqs = best.map (fun p => shown (dropE p.2.sentence)) ∧ rewards = best.map (fun p => some p.1) ∧
      best.Pairwise (fun p q => q.1 < p.1) ∧ best ≠ [] ∧ best.length ≤ 10 ∧
      (∀ p ∈ best, p.2 ∈ ls.flatten ∧ p.2.reward = some p.1) ∧
      (∀ c ∈ ls.flatten, ∀ r, c.reward = some r → (∃ p ∈ best, p.1 = r) ∨ ∀ p ∈ best, r < p.1) := by
  unfold search at h
  cases he : epochs S ⟨w, maskInvalid S.vars, none⟩ (c0 :: cs) with
  | none => rw [he] at h; cases h
  | some x =>
    obtain ⟨ls', st⟩ := x
    rw [he] at h
    simp only at h
    obtain ⟨k1, k2, k3, k4⟩ := epochs_spec S _ _ _ _ he
    match ls', k1 with
    | l0 :: ls', k1 =>
    have hproper : ∀ (l : List (Scored α)) (c : Chance W α), (l, c) ∈ (l0 :: ls').zip (c0 :: cs) → (∀ x ∈ l, x.reward ≠ none) →
        Proper (asEpoch c.topk l) := by
      intro l c hlc hx
      have hc : c ∈ c0 :: cs := (List.of_mem_zip hlc).2
      have hnn : none ∉ l.map Scored.reward := by
        intro hm
        obtain ⟨x, hx1, hx2⟩ := List.mem_map.1 hm
        exact hx x hx1 hx2
      have hlen := k2 _ hlc
      obtain ⟨t1, t2⟩ := ht c hc _ hnn
      refine ⟨?_, by simp [asEpoch], hnn, by simpa [asEpoch] using t1, t2⟩
      intro hnil
      have : l = [] := List.map_eq_nil_iff.1 hnil
      rw [this] at hlen
      exact hd c hc (List.length_eq_zero_iff.1 hlen.symm)
    have hls : ls = l0 :: ls' := by
      cases hb : st.board with
      | none => rw [hb] at h; simp only [Option.some.injEq, Prod.mk.injEq] at h; exact h.1.symm
      | some b => rw [hb] at h; simp only [Option.some.injEq, Prod.mk.injEq] at h; exact h.1.symm
    subst hls
    have hmemf : ∀ l ∈ l0 :: ls', ∀ x ∈ l, x.reward ≠ none := fun l hl x hx => hnan x (List.mem_flatten.2 ⟨l, hl, hx⟩)
    obtain ⟨best, b1, b2, b3, b4, b5⟩ := C80_board_partial (asEpoch c0.topk l0)
      (List.zipWith (fun l (c : Chance W α) => asEpoch c.topk l) ls' cs)
      (hproper l0 c0 (by simp) (hmemf l0 (by simp)))
      (by
        intro e he'
        rw [zipWith_map_zip] at he'
        obtain ⟨⟨l, c⟩, hlc, rfl⟩ := List.mem_map.1 he'
        exact hproper l c (by simp [hlc]) (hmemf l (List.mem_cons_of_mem _ (List.of_mem_zip hlc).1)))
    have hboard : st.board = some ⟨best.map (fun p => some p.1), best.map Prod.snd⟩ := by
      rw [k4, ← b1]
      rfl
    rw [hboard] at h
    simp only [Option.some.injEq, Prod.mk.injEq] at h
    obtain ⟨_, rfl, rfl⟩ := h
    refine ⟨k3, ?_⟩
    have hepochs : asEpoch c0.topk l0 :: List.zipWith (fun l (c : Chance W α) => asEpoch c.topk l) ls' cs =
        ((l0 :: ls').zip (c0 :: cs)).map fun p => asEpoch p.2.topk p.1 := by
      rw [List.zip_cons_cons, List.map_cons, zipWith_map_zip]
    have hwit : ∀ p ∈ best, ∃ c ∈ (l0 :: ls').flatten, c.reward = some p.1 ∧ dropE c.sentence = p.2 := by
      intro p hp
      obtain ⟨e, he', i, hi1, hi2⟩ := b3 p hp
      rw [hepochs] at he'
      obtain ⟨⟨l, c⟩, hlc, rfl⟩ := List.mem_map.1 he'
      simp only [asEpoch, List.getElem?_map, Option.map_eq_some_iff] at hi1 hi2
      obtain ⟨x, hx, hxr⟩ := hi1
      obtain ⟨y, hy, hys⟩ := hi2
      rw [hx] at hy
      cases hy
      exact ⟨x, List.mem_flatten.2 ⟨l, (List.of_mem_zip hlc).1, List.mem_of_getElem? hx⟩, hxr, hys⟩
    haveI : Nonempty (Scored α) := ⟨⟨[], [], none⟩⟩
    choose! f hf using hwit
    refine ⟨best.map fun p => (p.1, f p), ?_, ?_, ?_, ?_, ?_, ?_, ?_⟩
    · rw [List.map_map, List.map_map]
      apply List.map_congr_left
      intro p hp
      simp [(hf p hp).2.2]
    · rw [List.map_map]; rfl
    · rw [List.pairwise_map]; exact b2
    · intro hnil
      have : best = [] := by simpa using hnil
      rw [this] at b5
      have hp0 := hproper l0 c0 (by simp) (hmemf l0 (by simp))
      have : (asEpoch c0.topk l0).rewards.dedup = [] := by
        simp only [List.length_nil] at b5
        exact List.length_eq_zero_iff.1 (by omega)
      cases hr : (asEpoch c0.topk l0).rewards with
      | nil => exact hp0.some_candidate hr
      | cons a l =>
        have ha : a ∈ (asEpoch c0.topk l0).rewards.dedup := List.mem_dedup.2 (by rw [hr]; simp)
        rw [this] at ha
        simp at ha
    · simp [b5]
    · intro p hp
      obtain ⟨q, hq, rfl⟩ := List.mem_map.1 hp
      exact ⟨(hf q hq).1, (hf q hq).2.1⟩
    · intro c hc r hr
      obtain ⟨l, hl, hcl⟩ := List.mem_flatten.1 hc
      obtain ⟨k, hk⟩ := List.getElem?_of_mem hl
      have hk' : k < (c0 :: cs).length := by
        have := (List.getElem?_eq_some_iff.1 hk).1
        rw [← k1]; exact this
      obtain ⟨i, hi⟩ := List.getElem?_of_mem hcl
      have := b4 r (dropE c.sentence) ⟨asEpoch ((c0 :: cs)[k]).topk l, ?_, i, ?_, ?_⟩
      · rcases this with ⟨p, hp, e⟩ | hlt
        · exact Or.inl ⟨(p.1, f p), List.mem_map.2 ⟨p, hp, rfl⟩, e⟩
        · refine Or.inr fun q hq => ?_
          obtain ⟨p, hp, rfl⟩ := List.mem_map.1 hq
          exact hlt p hp
      · rw [hepochs]
        refine List.mem_map.2 ⟨(l, (c0 :: cs)[k]), ?_, rfl⟩
        apply List.mem_of_getElem? (i := k)
        exact List.getElem?_zip_eq_some.2 ⟨hk, List.getElem?_eq_getElem hk'⟩
      · simp [asEpoch, hi, hr]
      · simp [asEpoch, hi]

theorem masks_index (cases : List Case) : ∀ (l : List (Scored α)) (m : List Bool), Masks cases m l →
    ∀ (i j : Nat) (a b : Scored α), i < j → l[i]? = some a → l[j]? = some b →
      ∀ k : Nat, b.mask[k]? = some true → (maskAfter cases a.mask a.sentence)[k]? = some true ∧ m[k]? = some true := by
  have first : ∀ (l : List (Scored α)) (m : List Bool), Masks cases m l → ∀ (j : Nat) (b : Scored α), l[j]? = some b →
      ∀ k : Nat, b.mask[k]? = some true → m[k]? = some true := by
    intro l
    induction l with
    | nil => intro m _ j b hb; simp at hb
    | cons c l ih =>
      intro m hm j b hb k hk
      cases j with
      | zero =>
        have : c = b := by simpa using hb
        subst this
        rw [← hm.1]; exact hk
      | succ j => exact C84_mask_shrinks cases m c.sentence k (ih _ hm.2 j b (by simpa using hb) k hk)
  intro l
  induction l with
  | nil => intro m _ i j a b _ ha; simp at ha
  | cons c l ih =>
    intro m hm i j a b hij ha hb k hk
    cases j with
    | zero => omega
    | succ j =>
      have hb' : l[j]? = some b := by simpa using hb
      cases i with
      | zero =>
        have : c = a := by simpa using ha
        subst this
        have := first l _ hm.2 j b hb' k hk
        rw [hm.1]
        exact ⟨this, C84_mask_shrinks cases m _ k this⟩
      | succ i =>
        obtain ⟨h1, h2⟩ := ih _ hm.2 i j a b (by omega) (by simpa using ha) hb' k hk
        exact ⟨h1, C84_mask_shrinks cases m _ k h2⟩

/-- A term with operands of the vocabulary. -/
theorem wellTerm_mono {m m' : List Bool} (h : ∀ w, Operand m w → Operand m' w) : ∀ t, WellTerm m t → WellTerm m' t := by
  intro t
  induction t using WellTerm.induct with
  | case1 => exact id
  | case2 a => exact h a
  | case3 a o r ih => exact fun ⟨h1, h2, h3⟩ => ⟨h _ h1, h2, ih h3⟩

/-- **C180** (fine-tuning): every epoch trains the network it sampled from on the sentences of the board as it is after this epoch, best first, each without repeated terms and between
the start and the end sign; the next epoch samples from the trained network. -/
theorem C180_trained (S : Setting W α) (st st' : St W α) (c : Chance W α) (l : List (Scored α)) (h : epoch S st c = some (l, st')) :
    ∃ b mask, samples S st.net c.draws st.mask = some (l, mask) ∧ st'.mask = mask ∧ st'.board = some b ∧ b = update st.board (asEpoch c.topk l) ∧
      ∃ data, st'.net = S.train st.net data ∧ data.length = b.sents.length ∧
        ∀ (i : Nat) s, b.sents[i]? = some s → data[i]? = some (if tS ∈ dropE (deleteDuplicate s) then dropE (deleteDuplicate s) else
          tS :: dropE (deleteDuplicate s) ++ [tE]) := by
  unfold epoch at h
  cases hs : samples S st.net c.draws st.mask with
  | none => rw [hs] at h; cases h
  | some q =>
    obtain ⟨l', mask⟩ := q
    rw [hs] at h
    cases h
    refine ⟨_, mask, rfl, rfl, rfl, rfl, _, rfl, by simp, ?_⟩
    intro i s hi
    rw [List.getElem?_map, hi]
    simp only [Option.map_some, trainSentence, List.contains_iff_mem]

/-- **C180**: words are only ever switched off.  If a candidate of the run has a word with a NaN value on some case of the data, the word is off in the
mask of every later candidate of the run (so by C84 no later candidate has it as an operand). -/
theorem C180_masked (S : Setting W α) (m : List Bool) (ls : List (List (Scored α))) (hf : Faithful S m ls) (i j : Nat) (a b : Scored α) (hij : i < j)
    (ha : ls.flatten[i]? = some a) (hb : ls.flatten[j]? = some b) :
    (∀ k : Nat, b.mask[k]? = some true → a.mask[k]? = some true ∧ m[k]? = some true) ∧
    ∀ terms, (∀ t ∈ terms, WellTerm a.mask t) → a.sentence = sentenceOf ([6] :: terms) → ∀ t ∈ terms, ∀ w ∈ operands t,
      (∃ c ∈ S.cases, Val.nan ∈ c.value w) → (∃ t' ∈ firsts ([6] :: terms), w ∈ operands t') → ¬ Operand b.mask w := by
  have key := masks_index S.cases _ m hf.masks i j a b hij ha hb
  refine ⟨fun k hk => ⟨C84_mask_shrinks S.cases a.mask a.sentence k (key k hk).1, (key k hk).2⟩, ?_⟩
  intro terms hw hs t ht w hwt ⟨c, hc, hn⟩ hfst hop
  have h57 : Operand (List.replicate 57 true) 6 := ⟨by omega, by omega, by decide⟩
  have hmono : ∀ x, Operand a.mask x → Operand (List.replicate 57 true) x := by
    intro x hx
    exact ⟨hx.1, hx.2.1, by rw [List.getElem?_replicate]; simp [hx.2.1]⟩
  have := C84_nan_masked S.cases a.mask terms (List.replicate 57 true) h57 (fun t ht => wellTerm_mono hmono t (hw t ht)) c hc w hfst hn
  rw [← hs] at this
  exact this (key w hop.2.2).1

/-- **C180**: candidates that can be drawn.  While the network gives every word a positive probability and the mask leaves an operand and an
operator, each candidate is `ut` and complete terms of words allowed by `get_mask_invalid` for the variables of the data, or it is cut off at 48
words. -/
theorem C180_candidates (S : Setting W α) (m : List Bool) (ls : List (List (Scored α))) (hf : Faithful S m ls) (c : Scored α) (hc : c ∈ ls.flatten)
    (orc : List Nat → Draw) (hs : sample c.mask orc = some c.sentence) (hl : Live c.mask orc) :
    (∀ w, Operand c.mask w → Operand m w) ∧
    ((∃ terms, terms ≠ [] ∧ (∀ t ∈ terms, WellTerm m t) ∧ c.sentence = sentenceOf ([6] :: terms)) ∨ c.sentence.length = 48) := by
  obtain ⟨j, hj⟩ := List.getElem?_of_mem hc
  have hmask : ∀ k : Nat, c.mask[k]? = some true → m[k]? = some true := by
    intro k hk
    cases j with
    | zero =>
      cases hfl : ls.flatten with
      | nil => rw [hfl] at hj; simp at hj
      | cons x l =>
        have := hf.masks
        rw [hfl] at this hj
        have e : x = c := by simpa using hj
        subst e
        rw [← this.1]; exact hk
    | succ j =>
      cases h0 : ls.flatten[0]? with
      | none =>
        have := (List.getElem?_eq_some_iff.1 hj).1
        rw [List.getElem?_eq_none_iff] at h0
        omega
      | some a => exact (masks_index S.cases _ m hf.masks 0 (j + 1) a c (by omega) h0 hj k hk).2
  have hop : ∀ w, Operand c.mask w → Operand m w := fun w hw => ⟨hw.1, hw.2.1, hmask w hw.2.2⟩
  refine ⟨hop, ?_⟩
  rcases (C84_sentence_partial c.mask orc c.sentence hl hs).2 with ⟨terms, h1, h2, h3⟩ | ⟨_, _, _, _, h, _⟩
  · exact Or.inl ⟨terms, h1, fun t ht => wellTerm_mono hop t (h2 t ht), h3⟩
  · exact Or.inr h

/-- **C180**, display and score of a complete candidate: the text is its distinct terms in the order of their first occurrence, and the reward is that
of exactly these terms. -/
theorem C180_shown (S : Setting W α) (m : List Bool) (ls : List (List (Scored α))) (hf : Faithful S m ls) (c : Scored α) (hc : c ∈ ls.flatten)
    (terms : List (List Nat)) (hw : ∀ t ∈ terms, WellTerm m t) (hs : c.sentence = sentenceOf ([6] :: terms)) :
    shown (dropE c.sentence) = String.intercalate "+" ((firsts ([6] :: terms)).map termText) ∧
    c.reward = S.store (calcReward S.solve S.pen S.cases S.vars (sentenceOf (firsts ([6] :: terms)))) := by
  have hfree : ∀ t ∈ [6] :: terms, ∀ x ∈ t, 3 ≤ x ∧ x ≠ 5 := by
    intro t ht
    rcases List.mem_cons.1 ht with rfl | ht
    · decide
    · exact (well_free m t (hw t ht)).1
  have hp : ∀ t ∈ [6] :: terms, 2 ∉ t := fun t ht hx => absurd (hfree t ht _ hx).1 (by omega)
  have hE : ∀ t ∈ [6] :: terms, 1 ∉ t := fun t ht hx => absurd (hfree t ht _ hx).1 (by omega)
  have h5 : ∀ t ∈ [6] :: terms, 5 ∉ t := fun t ht hx => absurd rfl (hfree t ht _ hx).2
  obtain ⟨d1, d2, _⟩ := C81_shown ([6] :: terms) (by simp) hp hE h5
  obtain hd2 := C81_idempotent ([6] :: terms) (by simp) hp hE
  rw [hf.scored c hc, hs]
  refine ⟨d2, ?_⟩
  congr 1
  unfold calcReward
  rw [← d1, hd2]

/-- Rewards below or equal, missing ones lowest. -/
def optLe : Option α → Option α → Prop
  | none, _ => True
  | some _, none => False
  | some a, some b => a ≤ b

instance : (a b : Option α) → Decidable (optLe a b)
  | none, _ => .isTrue trivial
  | some _, none => .isFalse id
  | some a, some b => inferInstanceAs (Decidable (a ≤ b))

/-- A `torch.topk`: sort the indices. -/
def topkOf (rs : List (Option α)) : List Nat :=
  (List.range rs.length).insertionSort (fun i j => optLe ((rs[j]?).getD none) ((rs[i]?).getD none))

theorem topkOf_ok : TopK (topkOf (α := α)) := by
  intro rs _
  refine ⟨List.perm_insertionSort _ _, ?_⟩
  haveI : Std.Total fun i j : Nat => optLe ((rs[j]?).getD none) ((rs[i]?).getD none) := ⟨fun i j => by
    cases (rs[i]?).getD none <;> cases (rs[j]?).getD none <;> simp [optLe, le_total]⟩
  haveI : IsTrans Nat fun i j : Nat => optLe ((rs[j]?).getD none) ((rs[i]?).getD none) := ⟨fun i j k h1 h2 => by
    cases hi : (rs[i]?).getD none <;> cases hj : (rs[j]?).getD none <;> cases hk : (rs[k]?).getD none <;>
      simp_all [optLe]
    exact le_trans h2 h1⟩
  have := List.pairwise_insertionSort (fun i j => optLe ((rs[j]?).getD none) ((rs[i]?).getD none)) (List.range rs.length)
  refine this.imp ?_
  intro i j h a b ha hb
  rw [ha, hb] at h
  exact h

/-- Rewards as rational numbers. -/
def storeRat : Val → Option Rat
  | .fin q => some q
  | _ => none

/-- A setting with the data of `ut = -2 uxx`. -/
def demoSetting : Setting Unit Rat :=
  ⟨fun _ => some [2], fun k => if k ≤ 1 then 0 else 3 / 500, [diffusion], ["t", "x"], storeRat, fun w _ => w⟩

/-- Draw the `k`-th operand, then `E`. -/
def pick (k : Nat) : Unit → List Nat → Draw := fun _ s => ⟨fun _ => 1 / 57, false, if s.length % 2 = 1 then k else 0⟩

/-- **C180**, a run: in the first epoch `ut + uxx` and `ut + ux` are drawn, in the second `ut + u`; the report lists the true equation first, and of the
two sentences with reward zero one. -/
theorem C180_concrete :
    (search demoSetting () [⟨[pick 1, pick 2], topkOf⟩, ⟨[pick 0], topkOf⟩]).map (fun r => (r.2.1, r.2.2)) =
      some (["ut+uxx", "ut+u"], [some (497 / 500), some 0]) := by
  decide +kernel

end Verif.EqGpt.Run.Claims
