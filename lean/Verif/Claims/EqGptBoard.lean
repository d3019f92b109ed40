import Mathlib.Data.List.Dedup
import Mathlib.Data.List.Sort
import Mathlib.Order.Basic
import Mathlib.Algebra.Order.Field.Rat
import Verif.EqGpt.Board

/-!
# C80: the EqGPT leader board

`fit_pretrained` returns the candidates with the best distinct rewards met in all epochs,
each reward next to its own sentence.
-/

namespace Verif.Claims.EqGpt

open Verif.EqGpt

variable {α : Type} [LinearOrder α] {σ : Type}

/-! ## Specification -/

/-- A candidate: some epoch sampled sentence `s` and gave it the (non-NaN) reward `r`. -/
def Sampled (es : List (Epoch α σ)) (r : α) (s : σ) : Prop :=
  ∃ e ∈ es, ∃ i : Nat, e.rewards[i]? = some (some r) ∧ e.sentences[i]? = some s

/-- An epoch as `fit_pretrained` produces it: at least one candidate, one reward and one
sentence per candidate, none of the rewards NaN, and `torch.topk` returning all indices by
descending reward, ties in any order. -/
structure Proper (e : Epoch α σ) : Prop where
  some_candidate : e.rewards ≠ []
  paired : e.sentences.length = e.rewards.length
  no_nan : none ∉ e.rewards
  all_indices : e.ord.Perm (List.range e.rewards.length)
  descending : e.ord.Pairwise (fun i j => ∀ a b, e.rewards[i]? = some (some a) →
    e.rewards[j]? = some (some b) → b ≤ a)

/-! ## `find_min_no_repeat` -/

private theorem any_req (a : α) (l : List α) :
    ((l.map some).any (fun b => req (some a) b)) = decide (a ∈ l) := by
  induction l with
  | nil => simp
  | cons x l ih =>
      rw [List.map_cons, List.any_cons, ih]
      by_cases h : a = x <;> simp [h, req]

private structure FmOut (aw : Nat → α) (L mi ri : List Nat) : Prop where
  pre : mi <+: ri
  mem : ∀ i ∈ ri, i ∈ mi ∨ i ∈ L
  desc : (ri.map aw).Pairwise (· > ·)
  short : ri.length ≤ 10
  cover : ∀ i ∈ L, aw i ∈ ri.map aw ∨ (ri.length = 10 ∧ ∀ a ∈ ri.map aw, aw i < a)

private theorem fmLoop_out (all : List (Option α)) (aw : Nat → α) :
    ∀ (L mi : List Nat), (∀ i ∈ L, all[i]? = some (some (aw i))) →
      L.Pairwise (fun i j => aw j ≤ aw i) →
      (∀ a ∈ mi.map aw, ∀ i ∈ L, aw i ≤ a) → (mi.map aw).Pairwise (· > ·) → mi.length < 10 →
      ∃ ri, fmLoop all L mi ((mi.map aw).map some) = (ri, (ri.map aw).map some) ∧
        FmOut aw L mi ri := by
  intro L
  induction L with
  | nil =>
      intro mi _ _ _ hd hl
      exact ⟨mi, rfl, ⟨List.prefix_rfl, fun i h => Or.inl h, hd, by omega, by simp⟩⟩
  | cons i L ih =>
      intro mi hall hp hge hd hl
      have hi : all[i]? = some (some (aw i)) := hall i (by simp)
      have hp' := List.pairwise_cons.1 hp
      simp only [fmLoop, hi, Option.getD_some, any_req]
      by_cases hm : aw i ∈ mi.map aw
      · simp only [hm, decide_true, Bool.not_true, Bool.false_eq_true, if_false, List.length_map]
        rw [if_neg (by omega)]
        obtain ⟨ri, h1, h2⟩ := ih mi (fun j hj => hall j (by simp [hj])) hp'.2
          (fun a ha j hj => hge a ha j (by simp [hj])) hd hl
        refine ⟨ri, h1, ⟨h2.pre, ?_, h2.desc, h2.short, ?_⟩⟩
        · intro j hj
          rcases h2.mem j hj with h | h
          · exact Or.inl h
          · exact Or.inr (by simp [h])
        · intro j hj
          rcases List.mem_cons.1 hj with rfl | hj
          · left
            obtain ⟨t, ht⟩ := h2.pre
            rw [← ht, List.map_append]
            exact List.mem_append_left _ hm
          · exact h2.cover j hj
      · have hlt : ∀ a ∈ mi.map aw, aw i < a := by
          intro a ha
          exact lt_of_le_of_ne (hge a ha i (by simp)) (fun he => hm (he ▸ ha))
        have hd' : ((mi ++ [i]).map aw).Pairwise (· > ·) := by
          rw [List.map_append]
          exact List.pairwise_append.2 ⟨hd, by simp, by
            intro a ha b hb
            simp only [List.map_cons, List.map_nil, List.mem_singleton] at hb
            exact hb ▸ hlt a ha⟩
        have hge' : ∀ a ∈ (mi ++ [i]).map aw, ∀ j ∈ L, aw j ≤ a := by
          intro a ha j hj
          rw [List.map_append, List.mem_append] at ha
          rcases ha with ha | ha
          · exact hge a ha j (by simp [hj])
          · simp only [List.map_cons, List.map_nil, List.mem_singleton] at ha
            exact ha ▸ hp'.1 j hj
        have hmap : (mi.map aw).map some ++ [some (aw i)] = ((mi ++ [i]).map aw).map some := by
          simp
        simp only [hm, decide_false, Bool.not_false, if_true, hmap, List.length_map]
        by_cases h10 : (mi ++ [i]).length = 10
        · rw [if_pos h10]
          refine ⟨mi ++ [i], rfl, ⟨List.prefix_append _ _, ?_, hd', by omega, ?_⟩⟩
          · intro j hj
            rcases List.mem_append.1 hj with h | h
            · exact Or.inl h
            · exact Or.inr (by simp at h; simp [h])
          · intro j hj
            rcases List.mem_cons.1 hj with rfl | hj
            · left; simp
            · by_cases hmem : aw j ∈ (mi ++ [i]).map aw
              · exact Or.inl hmem
              · right
                exact ⟨h10, fun a ha => lt_of_le_of_ne (hge' a ha j hj) (fun he => hmem (he ▸ ha))⟩
        · rw [if_neg h10]
          obtain ⟨ri, h1, h2⟩ := ih (mi ++ [i]) (fun j hj => hall j (by simp [hj])) hp'.2 hge' hd'
            (by simp only [List.length_append, List.length_singleton] at h10 ⊢; omega)
          refine ⟨ri, h1, ⟨(List.prefix_append _ _).trans h2.pre, ?_, h2.desc, h2.short, ?_⟩⟩
          · intro j hj
            rcases h2.mem j hj with h | h
            · rcases List.mem_append.1 h with h | h
              · exact Or.inl h
              · exact Or.inr (by simp at h; simp [h])
            · exact Or.inr (by simp [h])
          · intro j hj
            rcases List.mem_cons.1 hj with rfl | hj
            · left
              obtain ⟨t, ht⟩ := h2.pre
              rw [← ht, List.map_append]
              exact List.mem_append_left _ (by simp)
            · exact h2.cover j hj

/-- What one epoch offers. -/
private structure Offered (e : Epoch α σ) (P : List (α × σ)) : Prop where
  eq : offers e = P.map (fun p => (some p.1, p.2))
  desc : P.Pairwise (fun p q => p.1 > q.1)
  short : P.length ≤ 10
  mem : ∀ p ∈ P, Sampled [e] p.1 p.2
  cover : ∀ r s, Sampled [e] r s → (∃ p ∈ P, p.1 = r) ∨ (P.length = 10 ∧ ∀ p ∈ P, r < p.1)

private theorem offered (e : Epoch α σ) (h : Proper e) : ∃ P, Offered e P := by
  have hne : Nonempty α := by
    cases hr : e.rewards with
    | nil => exact absurd hr h.some_candidate
    | cons a l =>
        cases a with
        | none => exact absurd (by simp [hr]) h.no_nan
        | some a => exact ⟨a⟩
  obtain ⟨a0⟩ := hne
  let aw : Nat → α := fun i => ((e.rewards[i]?).getD none).getD a0
  have haw : ∀ i < e.rewards.length, e.rewards[i]? = some (some (aw i)) := by
    intro i hi
    have : e.rewards[i]? = some e.rewards[i] := List.getElem?_eq_getElem hi
    have hn : e.rewards[i] ≠ none := fun hc => h.no_nan (hc ▸ List.getElem_mem hi)
    obtain ⟨v, hv⟩ := Option.ne_none_iff_exists'.1 hn
    simp only [aw, this, Option.getD_some, hv]
  have hord : ∀ i ∈ e.ord, i < e.rewards.length := fun i hi => by
    simpa using (h.all_indices.mem_iff).1 hi
  obtain ⟨ri, h1, h2⟩ := fmLoop_out e.rewards aw e.ord [] (fun i hi => haw i (hord i hi))
    (h.descending.imp_of_mem (fun hi hj hd => hd _ _ (haw _ (hord _ hi)) (haw _ (hord _ hj))))
    (by simp) (by simp) (by simp)
  have hri : ∀ i ∈ ri, i < e.rewards.length := fun i hi => by
    rcases h2.mem i hi with h | h
    · simp at h
    · exact hord i h
  have hex : ∀ l : List Nat, (∀ i ∈ l, i < e.rewards.length) →
      ∃ P : List (α × σ), (((l.map aw).map some).zip l).filterMap
          (fun p => (e.sentences[p.2]?).map (fun s => (p.1, s)))
            = P.map (fun p => (some p.1, p.2)) ∧ P.map Prod.fst = l.map aw ∧
        ∀ p ∈ P, Sampled [e] p.1 p.2 := by
    intro l
    induction l with
    | nil => intro _; exact ⟨[], rfl, rfl, by simp⟩
    | cons i l ih =>
        intro hl
        obtain ⟨P, p1, p2, p3⟩ := ih (fun j hj => hl j (by simp [hj]))
        have hil := hl i (by simp)
        have hs : e.sentences[i]? = some (e.sentences[i]'(by rw [h.paired]; exact hil)) :=
          List.getElem?_eq_getElem _
        refine ⟨(aw i, e.sentences[i]'(by rw [h.paired]; exact hil)) :: P, ?_, ?_, ?_⟩
        · simp only [List.map_cons, List.zip_cons_cons, List.filterMap_cons, hs, Option.map_some, p1]
        · simp [p2]
        · intro p hp
          rcases List.mem_cons.1 hp with rfl | hp
          · exact ⟨e, by simp, i, haw i hil, hs⟩
          · exact p3 p hp
  obtain ⟨P, p1, p2, p3⟩ := hex ri hri
  have hlen : P.length = ri.length := by
    have := congrArg List.length p2
    simpa using this
  have hsh := h2.short
  refine ⟨P, ⟨?_, ?_, by omega, p3, ?_⟩⟩
  · unfold offers findMin
    rw [show ([] : List (Option α)) = (([] : List Nat).map aw).map some from rfl, h1]
    exact p1
  · have := h2.desc
    rw [← p2, List.pairwise_map] at this
    exact this
  · rintro r s ⟨e', he', i, hr, hs⟩
    simp only [List.mem_singleton] at he'
    subst he'
    have hi : i < e'.rewards.length := by
      by_contra hc
      rw [List.getElem?_eq_none (by omega)] at hr
      simp at hr
    have hri' : aw i = r := by
      have := haw i hi
      rw [hr] at this
      simpa using this.symm
    have hio : i ∈ e'.ord := (h.all_indices.mem_iff).2 (by simpa using hi)
    rcases h2.cover i hio with hc | ⟨hc1, hc2⟩
    · left
      rw [← p2, List.mem_map] at hc
      obtain ⟨p, hp, hpe⟩ := hc
      exact ⟨p, hp, by rw [hpe, hri']⟩
    · right
      refine ⟨by omega, fun p hp => ?_⟩
      rw [← hri']
      exact hc2 p.1 (by rw [← p2]; exact List.mem_map_of_mem hp)

/-! ## Inserting -/

/-- A board described by pairs. -/
private def ofPairs (P : List (α × σ)) : Board α σ := ⟨P.map (fun p => some p.1), P.map Prod.snd⟩

private theorem insertIdx_dropLast_map {β γ : Type} (f : β → γ) (l : List β) (j : Nat) (x : β) :
    ((l.map f).insertIdx j (f x)).dropLast = ((l.insertIdx j x).dropLast).map f := by
  rw [List.map_dropLast]
  congr 1
  induction l generalizing j with
  | nil => cases j <;> simp
  | cons a l ih => cases j <;> simp [ih]

private theorem insertIdx_split {β : Type} (l : List β) (j : Nat) (x : β) (h : j ≤ l.length) :
    l.insertIdx j x = l.take j ++ x :: l.drop j := by
  induction l generalizing j with
  | nil =>
      have : j = 0 := by simpa using h
      subst this; simp
  | cons a l ih =>
      cases j with
      | zero => simp
      | succ j =>
          simp only [List.insertIdx_succ_cons, List.take_succ_cons, List.drop_succ_cons,
            List.cons_append]
          rw [ih j (by simpa using h)]

private theorem findIdx_map (P : List (α × σ)) (r : α) :
    ((ofPairs P).awards.findIdx? (fun x => rlt x (some r)))
      = P.findIdx? (fun p => decide (p.1 < r)) := by
  simp only [ofPairs, List.findIdx?_map]
  rfl

private structure Kept (P : List (α × σ)) (r : α) (s : σ) (Q : List (α × σ)) : Prop where
  len : Q.length = P.length
  desc : Q.Pairwise (fun p q => p.1 > q.1)
  mem : ∀ p ∈ Q, p ∈ P ∨ p = (r, s)
  old : ∀ x, ((∃ p ∈ P, p.1 = x) ∨ ∀ p ∈ P, x < p.1) → (∃ p ∈ Q, p.1 = x) ∨ ∀ p ∈ Q, x < p.1
  new : (∃ p ∈ Q, p.1 = r) ∨ ∀ p ∈ Q, r < p.1

private theorem insertOne_kept (P : List (α × σ)) (r : α) (s : σ)
    (hd : P.Pairwise (fun p q => p.1 > q.1)) :
    ∃ Q, insertOne (ofPairs P) (some r) s = ofPairs Q ∧ Kept P r s Q := by
  unfold insertOne
  rw [findIdx_map]
  cases hf : P.findIdx? (fun p => decide (p.1 < r)) with
  | none =>
      refine ⟨P, rfl, ⟨rfl, hd, fun p hp => Or.inl hp, fun _ h => h, ?_⟩⟩
      rw [List.findIdx?_eq_none_iff] at hf
      by_cases he : ∃ p ∈ P, p.1 = r
      · exact Or.inl he
      · right
        intro p hp
        have := hf p hp
        simp only [decide_eq_false_iff_not, not_lt] at this
        exact lt_of_le_of_ne this (fun hc => he ⟨p, hp, hc.symm⟩)
  | some j =>
      have hany : ((ofPairs P).awards.any (fun x => req (some r) x))
          = decide (r ∈ P.map Prod.fst) := by
        rw [← any_req]
        simp [ofPairs, Function.comp_def]
      simp only [hany]
      by_cases hm : r ∈ P.map Prod.fst
      · rw [if_pos (by simpa using hm)]
        refine ⟨P, rfl, ⟨rfl, hd, fun p hp => Or.inl hp, fun _ h => h, ?_⟩⟩
        rw [List.mem_map] at hm
        obtain ⟨p, hp, he⟩ := hm
        exact Or.inl ⟨p, hp, he⟩
      · rw [if_neg (by simpa using hm)]
        obtain ⟨hj, hlt, hmin⟩ := List.findIdx?_eq_some_iff_getElem.1 hf
        simp only [decide_eq_true_eq] at hlt
        -- shape of the lists
        have hsplit : P = P.take j ++ P.drop j := (List.take_append_drop j P).symm
        have hge : ∀ p ∈ P.take j, r < p.1 := by
          intro p hp
          obtain ⟨k, hk, he⟩ := List.mem_take_iff_getElem.1 hp
          have hkj : k < j := by omega
          have := hmin k hkj
          simp only [decide_eq_true_eq, not_lt] at this
          rw [he] at this
          refine lt_of_le_of_ne this (fun hc => hm ?_)
          rw [hc]
          exact List.mem_map_of_mem (List.mem_of_mem_take hp)
        have hdrop : P.drop j ≠ [] := by
          intro hc
          have := List.drop_eq_nil_iff.1 hc
          omega
        obtain ⟨D, l, hDl⟩ : ∃ D l, P.drop j = D ++ [l] :=
          ⟨_, _, (List.dropLast_append_getLast hdrop).symm⟩
        have hPs : P = P.take j ++ (D ++ [l]) := by rw [← hDl]; exact hsplit
        have hlow : ∀ p ∈ D ++ [l], p.1 < r := by
          intro p hp
          rw [← hDl] at hp
          have hcons : P.drop j = P[j] :: P.drop (j + 1) := List.drop_eq_getElem_cons hj
          have hpd : (P.drop j).Pairwise (fun p q => p.1 > q.1) := hd.sublist (List.drop_sublist _ _)
          rw [hcons] at hp hpd
          rcases List.mem_cons.1 hp with rfl | hp
          · exact hlt
          · exact lt_trans ((List.pairwise_cons.1 hpd).1 p hp) hlt
        have hins : (P.insertIdx j (r, s)).dropLast = P.take j ++ (r, s) :: D := by
          have : P.insertIdx j (r, s) = (P.take j ++ (r, s) :: D) ++ [l] := by
            rw [insertIdx_split P j (r, s) (by omega), hDl]
            simp
          rw [this, List.dropLast_concat]
        refine ⟨P.take j ++ (r, s) :: D, ?_, ?_⟩
        · have e1 := insertIdx_dropLast_map (fun p : α × σ => some p.1) P j (r, s)
          have e2 := insertIdx_dropLast_map (Prod.snd) P j (r, s)
          rw [hins] at e1 e2
          simp only [ofPairs]
          simp only at e1 e2
          rw [e1, e2]
        · have hdP := hd
          rw [hPs] at hdP
          obtain ⟨hd1, hd2, hd3⟩ := List.pairwise_append.1 hdP
          obtain ⟨hd4, _, hd5⟩ := List.pairwise_append.1 hd2
          have hll : ∀ p ∈ P.take j ++ (r, s) :: D, l.1 < p.1 := by
            intro p hp
            rcases List.mem_append.1 hp with hp | hp
            · exact hd3 p hp l (by simp)
            · rcases List.mem_cons.1 hp with rfl | hp
              · exact hlow l (by simp)
              · exact hd5 p hp l (by simp)
          refine ⟨?_, ?_, ?_, ?_, ?_⟩
          · have := congrArg List.length hPs
            simp only [List.length_append, List.length_cons, List.length_nil] at this ⊢
            omega
          · refine List.pairwise_append.2 ⟨hd1, ?_, ?_⟩
            · exact List.pairwise_cons.2 ⟨fun p hp => hlow p (by simp [hp]), hd4⟩
            · intro p hp q hq
              rcases List.mem_cons.1 hq with rfl | hq
              · exact hge p hp
              · exact hd3 p hp q (by simp [hq])
          · intro p hp
            rcases List.mem_append.1 hp with hp | hp
            · exact Or.inl (List.mem_of_mem_take hp)
            · rcases List.mem_cons.1 hp with rfl | hp
              · exact Or.inr rfl
              · left
                rw [hPs]
                simp [hp]
          · rintro x (⟨p, hp, rfl⟩ | hx)
            · rw [hPs] at hp
              simp only [List.mem_append, List.mem_singleton] at hp
              rcases hp with hp | hp | rfl
              · exact Or.inl ⟨p, by simp [hp], rfl⟩
              · exact Or.inl ⟨p, by simp [hp], rfl⟩
              · exact Or.inr hll
            · right
              have hxl : x < l.1 := hx l (by rw [hPs]; simp)
              intro p hp
              exact lt_trans hxl (hll p hp)
          · exact Or.inl ⟨(r, s), by simp, rfl⟩

/-- The invariant of the board. -/
private structure Good (es : List (Epoch α σ)) (P : List (α × σ)) : Prop where
  desc : P.Pairwise (fun p q => p.1 > q.1)
  mem : ∀ p ∈ P, Sampled es p.1 p.2
  cover : ∀ r s, Sampled es r s → (∃ p ∈ P, p.1 = r) ∨ ∀ p ∈ P, r < p.1

private theorem insertMany (P : List (α × σ)) (O : List (α × σ))
    (hd : P.Pairwise (fun p q => p.1 > q.1)) :
    ∃ Q, (O.map (fun p => (some p.1, p.2))).foldl (fun b p => insertOne b p.1 p.2) (ofPairs P)
        = ofPairs Q ∧ Q.length = P.length ∧ Q.Pairwise (fun p q => p.1 > q.1) ∧
      (∀ p ∈ Q, p ∈ P ∨ p ∈ O) ∧
      (∀ x, ((∃ p ∈ P, p.1 = x) ∨ ∀ p ∈ P, x < p.1) → (∃ p ∈ Q, p.1 = x) ∨ ∀ p ∈ Q, x < p.1) ∧
      (∀ o ∈ O, (∃ p ∈ Q, p.1 = o.1) ∨ ∀ p ∈ Q, o.1 < p.1) := by
  induction O generalizing P with
  | nil => exact ⟨P, rfl, rfl, hd, fun p hp => Or.inl hp, fun _ h => h, by simp⟩
  | cons o O ih =>
      obtain ⟨Q1, q1, k⟩ := insertOne_kept P o.1 o.2 hd
      obtain ⟨Q, h1, h2, h3, h4, h5, h6⟩ := ih Q1 k.desc
      refine ⟨Q, ?_, h2.trans k.len, h3, ?_, fun x hx => h5 x (k.old x hx), ?_⟩
      · simp only [List.map_cons, List.foldl_cons, q1, h1]
      · intro p hp
        rcases h4 p hp with h | h
        · rcases k.mem p h with h | h
          · exact Or.inl h
          · exact Or.inr (by simp [h])
        · exact Or.inr (by simp [h])
      · intro o' ho'
        rcases List.mem_cons.1 ho' with rfl | ho'
        · exact h5 _ k.new
        · exact h6 o' ho'

omit [LinearOrder α] in
private theorem sampled_append (es fs : List (Epoch α σ)) (r : α) (s : σ) :
    Sampled (es ++ fs) r s ↔ Sampled es r s ∨ Sampled fs r s := by
  constructor
  · rintro ⟨e, he, h⟩
    rcases List.mem_append.1 he with he | he
    · exact Or.inl ⟨e, he, h⟩
    · exact Or.inr ⟨e, he, h⟩
  · rintro (⟨e, he, h⟩ | ⟨e, he, h⟩)
    · exact ⟨e, by simp [he], h⟩
    · exact ⟨e, by simp [he], h⟩

private theorem full_of_subset (P Q : List α) (hQ : Q.Pairwise (· > ·))
    (hl : P.length ≤ Q.length) (hsub : ∀ q ∈ Q, q ∈ P) : ∀ p ∈ P, p ∈ Q := by
  have nq : Q.Nodup := hQ.imp (fun h => ne_of_gt h)
  have hsp : Q.Subperm P := List.subperm_of_subset nq hsub
  exact fun p hp => ((hsp.perm_of_length_le hl).mem_iff).2 hp

private theorem step_good (es : List (Epoch α σ)) (P : List (α × σ)) (e : Epoch α σ)
    (hg : Good es P) (hl : P.length ≤ 10) (he : Proper e) :
    ∃ Q, update (some (ofPairs P)) e = ofPairs Q ∧ Q.length = P.length ∧ Good (es ++ [e]) Q := by
  obtain ⟨O, ho⟩ := offered e he
  obtain ⟨Q, h1, h2, h3, h4, h5, h6⟩ := insertMany P O hg.desc
  refine ⟨Q, ?_, h2, ⟨h3, ?_, ?_⟩⟩
  · simp only [update, ho.eq, h1]
  · intro p hp
    rw [sampled_append]
    rcases h4 p hp with h | h
    · exact Or.inl (hg.mem p h)
    · exact Or.inr (ho.mem p h)
  · intro r s hs
    rw [sampled_append] at hs
    rcases hs with hs | hs
    · exact h5 r (hg.cover r s hs)
    · rcases ho.cover r s hs with ⟨o, hO, rfl⟩ | ⟨h10, hlt⟩
      · exact h6 o hO
      · right
        by_cases hall : ∀ o ∈ O, ∃ p ∈ Q, p.1 = o.1
        · -- every offered reward is on the board, so the board is exactly them
          have hfull := full_of_subset (Q.map Prod.fst) (O.map Prod.fst)
            (by rw [List.pairwise_map]; exact ho.desc)
            (by simp only [List.length_map]; omega)
            (by
              intro q hq
              obtain ⟨o, hO, rfl⟩ := List.mem_map.1 hq
              obtain ⟨p, hp, hpe⟩ := hall o hO
              exact hpe ▸ List.mem_map_of_mem hp)
          intro p hp
          obtain ⟨o, hO, hoe⟩ := List.mem_map.1 (hfull p.1 (List.mem_map_of_mem hp))
          rw [← hoe]
          exact hlt o hO
        · push Not at hall
          obtain ⟨o, hO, hne⟩ := hall
          rcases h6 o hO with ⟨p, hp, hpe⟩ | hbelow
          · exact absurd hpe (hne p hp)
          · intro p hp
            exact lt_trans (hlt o hO) (hbelow p hp)

private theorem first_good (e : Epoch α σ) (he : Proper e) :
    ∃ P, update none e = ofPairs P ∧ Good [e] P ∧
      P.length = min 10 (e.rewards.dedup).length := by
  obtain ⟨O, ho⟩ := offered e he
  refine ⟨O, ?_, ⟨ho.desc, ho.mem, ?_⟩, ?_⟩
  · simp only [update, ho.eq, ofPairs, List.map_map, Function.comp_def]
  · intro r s hs
    rcases ho.cover r s hs with h | h
    · exact Or.inl h
    · exact Or.inr h.2
  · have nd : (O.map (fun p => some p.1)).Nodup := by
      rw [List.Nodup, List.pairwise_map]
      exact ho.desc.imp (fun h hc => absurd (Option.some.inj hc) (ne_of_gt h))
    have hsub : ∀ a ∈ O.map (fun p => some p.1), a ∈ e.rewards.dedup := by
      intro a ha
      obtain ⟨p, hp, rfl⟩ := List.mem_map.1 ha
      obtain ⟨e', he', i, hr, _⟩ := ho.mem p hp
      simp only [List.mem_singleton] at he'
      subst he'
      exact List.mem_dedup.2 (List.mem_of_getElem? hr)
    have hle : O.length ≤ (e.rewards.dedup).length := by
      have := (List.subperm_of_subset nd hsub).length_le
      simpa using this
    by_cases h10 : O.length = 10
    · omega
    · have hsup : ∀ a ∈ e.rewards.dedup, a ∈ O.map (fun p => some p.1) := by
        intro a ha
        have ha := List.mem_dedup.1 ha
        obtain ⟨i, hi, hie⟩ := List.mem_iff_getElem.1 ha
        cases a with
        | none => exact absurd ha he.no_nan
        | some a =>
            have hs : i < e.sentences.length := by rw [he.paired]; exact hi
            rcases ho.cover a e.sentences[i] ⟨e, by simp, i, by
                rw [List.getElem?_eq_getElem hi, hie], List.getElem?_eq_getElem hs⟩ with ⟨p, hp, hpe⟩ | hc
            · exact List.mem_map.2 ⟨p, hp, by rw [hpe]⟩
            · exact absurd hc.1 h10
      have hge : (e.rewards.dedup).length ≤ O.length := by
        have := (List.subperm_of_subset (List.nodup_dedup e.rewards) hsup).length_le
        simpa using this
      have := ho.short
      omega

/-! ## The claim -/

/-- **C80** (partial: no reward is NaN).  After any number of epochs, whatever the
sampled sentences, rewards and order of ties, the returned board

* lists each reward next to the sentence that earned it,
* in strictly descending order,
* and contains exactly the best distinct rewards of all candidates of all epochs: a
  candidate's reward is on the board or below everything on it;
* it has ten entries, or as many as the first epoch had distinct rewards if fewer.

Missing: boards with NaN rewards (`C80_nan_counterexample`); and the board does not grow
to ten entries when later epochs bring more distinct rewards (`C80_size_counterexample`). -/
theorem C80_board_partial (first : Epoch α σ) (later : List (Epoch α σ))
    (h1 : Proper first) (h2 : ∀ e ∈ later, Proper e) :
    ∃ best : List (α × σ),
      boardAfter (first :: later) = some ⟨best.map (fun p => some p.1), best.map Prod.snd⟩ ∧
      best.Pairwise (fun p q => q.1 < p.1) ∧
      (∀ p ∈ best, Sampled (first :: later) p.1 p.2) ∧
      (∀ r s, Sampled (first :: later) r s → (∃ p ∈ best, p.1 = r) ∨ ∀ p ∈ best, r < p.1) ∧
      best.length = min 10 (first.rewards.dedup).length := by
  obtain ⟨P, p1, p2, p3⟩ := first_good first h1
  have key : ∀ (later done : List (Epoch α σ)) (P : List (α × σ)), (∀ e ∈ later, Proper e) →
      Good done P → P.length = min 10 (first.rewards.dedup).length →
      ∃ Q, later.foldl (fun b e => some (update b e)) (some (ofPairs P)) = some (ofPairs Q) ∧
        Good (done ++ later) Q ∧ Q.length = min 10 (first.rewards.dedup).length := by
    intro later
    induction later with
    | nil => intro done P _ hg hl; exact ⟨P, rfl, by simpa using hg, hl⟩
    | cons e later ih =>
        intro done P hp hg hl
        obtain ⟨Q, q1, q2, q3⟩ := step_good done P e hg (by omega) (hp e (by simp))
        obtain ⟨R, r1, r2, r3⟩ := ih (done ++ [e]) Q (fun x hx => hp x (by simp [hx])) q3
          (by omega)
        refine ⟨R, ?_, by simpa using r2, r3⟩
        simp only [List.foldl_cons, q1, r1]
  obtain ⟨Q, q1, q2, q3⟩ := key later [first] P h2 p2 p3
  refine ⟨Q, ?_, q2.desc, q2.mem, q2.cover, q3⟩
  simp only [boardAfter, List.foldl_cons, p1]
  exact q1

/-- **C80** (partial: no NaN).  The first entry, `best_reward`, is the largest reward of
any candidate of any epoch, and `best_equation` is a sentence that earned it. -/
theorem C80_best_partial (first : Epoch α σ) (later : List (Epoch α σ))
    (h1 : Proper first) (h2 : ∀ e ∈ later, Proper e) :
    ∃ b r s, boardAfter (first :: later) = some b ∧ b.awards[0]? = some (some r) ∧
      b.sents[0]? = some s ∧ Sampled (first :: later) r s ∧
      ∀ r' s', Sampled (first :: later) r' s' → r' ≤ r := by
  obtain ⟨best, hb, hd, hm, hc, hl⟩ := C80_board_partial first later h1 h2
  have hpos : 0 < (first.rewards.dedup).length := by
    rw [List.length_pos_iff]
    intro hc
    cases hr : first.rewards with
    | nil => exact h1.some_candidate hr
    | cons a l =>
        have : a ∈ first.rewards.dedup := List.mem_dedup.2 (by simp [hr])
        rw [hc] at this
        simp at this
  cases best with
  | nil => simp at hl; omega
  | cons p best =>
      refine ⟨_, p.1, p.2, hb, rfl, rfl, hm p (by simp), ?_⟩
      intro r' s' hs
      rcases hc r' s' hs with ⟨q, hq, rfl⟩ | hlt
      · rcases List.mem_cons.1 hq with rfl | hq
        · exact le_rfl
        · exact le_of_lt ((List.pairwise_cons.1 hd).1 q hq)
      · exact le_of_lt (hlt p (by simp))

/-! ## Concrete cases -/

/-- Two epochs of three and two candidates. -/
def ep1 : Epoch Rat String := ⟨[some (1/2), some (3/4), some (1/2)], ["a", "b", "c"], [1, 2, 0]⟩
/-- The second epoch improves on the first. -/
def ep2 : Epoch Rat String := ⟨[some (5/8), some (7/8)], ["d", "e"], [1, 0]⟩

theorem ep1_proper : Proper ep1 := by
  refine ⟨by decide, by decide, by decide, by decide, ?_⟩
  simp only [ep1, List.pairwise_cons, List.mem_cons, List.not_mem_nil, or_false]
  refine ⟨?_, ?_, by simp, by simp⟩
  · rintro j (rfl | rfl) a b h1 h2 <;>
      simp only [List.getElem?_cons_succ, List.getElem?_cons_zero, Option.some.injEq] at h1 h2 <;>
      subst h1 <;> subst h2 <;> decide +kernel
  · rintro j rfl a b h1 h2
    simp only [List.getElem?_cons_succ, List.getElem?_cons_zero, Option.some.injEq] at h1 h2
    subst h1; subst h2; decide +kernel

theorem ep2_proper : Proper ep2 := by
  refine ⟨by decide, by decide, by decide, by decide, ?_⟩
  simp only [ep2, List.pairwise_cons, List.mem_cons, List.not_mem_nil, or_false]
  refine ⟨?_, by simp, by simp⟩
  rintro j rfl a b h1 h2
  simp only [List.getElem?_cons_succ, List.getElem?_cons_zero, Option.some.injEq] at h1 h2
  subst h1; subst h2; decide +kernel

example : (boardAfter [ep1, ep2]).map (fun b => (b.awards, b.sents))
    = some ([some (7/8), some (3/4)], ["e", "b"]) := by decide +kernel

example : ∃ b r s, boardAfter [ep1, ep2] = some b ∧ b.awards[0]? = some (some r) ∧
    b.sents[0]? = some s ∧ Sampled [ep1, ep2] r s ∧
      ∀ r' s', Sampled [ep1, ep2] r' s' → r' ≤ r :=
  C80_best_partial ep1 [ep2] ep1_proper (by simpa using ep2_proper)

/-- The board never grows: the first epoch had two distinct rewards, so `5/8` (and `1/2`)
are dropped although only two of the ten places are taken. -/
theorem C80_size_counterexample :
    Proper ep1 ∧ Proper ep2 ∧ Sampled [ep1, ep2] (5/8) "d" ∧
    (boardAfter [ep1, ep2]).map (fun b => b.awards) = some [some (7/8), some (3/4)] :=
  ⟨ep1_proper, ep2_proper, ⟨ep2, by simp, 0, by simp [ep2], by simp [ep2]⟩, by decide +kernel⟩

/-- A NaN reward (every case of the data gave NaN, so the mean is over nothing) is ranked
first by `torch.topk`, becomes `best_reward`, and a later perfect candidate is placed
behind it. -/
theorem C80_nan_counterexample :
    (boardAfter [(⟨[some (1/2), none], ["a", "nan"], [1, 0]⟩ : Epoch Rat String),
        ⟨[some 1], ["perfect"], [0]⟩]).map (fun b => (b.awards, b.sents))
      = some ([none, some 1], ["nan", "perfect"]) := by decide +kernel

end Verif.Claims.EqGpt
