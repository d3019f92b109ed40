import Verif.Discover.Cache
import Verif.Util
/-!
# C16 – one object per expression; C46 – remembered programs can be looked up
-/
namespace Verif.Discover.Claims
open Tree

/-! ## Bytes -/

theorem leBytes_length (w x : Nat) : (leBytes w x).length = w := by simp [leBytes]

theorem leBytes_inj (w : Nat) : ∀ x y, x < 256 ^ w → y < 256 ^ w → leBytes w x = leBytes w y → x = y := by
  induction w with
  | zero => intro x y hx hy _; simp at hx hy; omega
  | succ w ih =>
    intro x y hx hy h
    have hstep : ∀ z, leBytes (w + 1) z = (z % 256) :: leBytes w (z / 256) := by
      intro z
      unfold leBytes
      rw [List.range_succ_eq_map]
      simp only [List.map_cons, List.map_map, Nat.pow_zero, Nat.div_one, List.cons.injEq, true_and]
      apply List.map_congr_left
      intro k _
      simp only [Function.comp, Nat.succ_eq_add_one]
      rw [Nat.pow_succ', ← Nat.div_div_eq_div_mul]
    rw [hstep, hstep] at h
    simp only [List.cons.injEq] at h
    have e := ih (x / 256) (y / 256) (by rw [Nat.pow_succ'] at hx; omega) (by rw [Nat.pow_succ'] at hy; omega) h.2
    omega

theorem tobytes_inj (w : Nat) (hw : 0 < w) : ∀ xs ys : List Nat, (∀ x ∈ xs, x < 256 ^ w) → (∀ y ∈ ys, y < 256 ^ w) →
    tobytes w xs = tobytes w ys → xs = ys := by
  intro xs
  induction xs with
  | nil =>
    intro ys _ _ h
    cases ys with
    | nil => rfl
    | cons y ys =>
      have := congrArg List.length h
      simp [tobytes, leBytes_length] at this; omega
  | cons x xs ih =>
    intro ys hx hy h
    cases ys with
    | nil =>
      have := congrArg List.length h
      simp [tobytes, leBytes_length] at this; omega
    | cons y ys =>
      simp only [tobytes, List.flatMap_cons] at h
      obtain ⟨h1, h2⟩ := List.append_inj h (by simp [leBytes_length])
      rw [leBytes_inj w x y (hx x (by simp)) (hy y (by simp)) h1,
        ih ys (fun z hz => hx z (by simp [hz])) (fun z hz => hy z (by simp [hz])) h2]

theorem leBytes_8 (x : Nat) (hx : x < 256 ^ 4) : leBytes 8 x = leBytes 4 x ++ leBytes 4 0 := by
  have hd : ∀ k, 4 ≤ k → x / 256 ^ k = 0 := by
    intro k hk
    apply Nat.div_eq_of_lt
    exact Nat.lt_of_lt_of_le hx (Nat.pow_le_pow_right (by omega) hk)
  have hr : List.range 8 = [0, 1, 2, 3] ++ [4, 5, 6, 7] := by decide
  have hr4 : List.range 4 = [0, 1, 2, 3] := by decide
  unfold leBytes
  rw [hr, hr4]
  simp [hd 4 (by omega), hd 5 (by omega), hd 6 (by omega), hd 7 (by omega)]

/-- The int64 bytes of a list are the int32 bytes of the list interleaved with zeros. -/
theorem tobytes_8 (xs : List Nat) (hx : ∀ x ∈ xs, x < 256 ^ 4) :
    tobytes 8 xs = tobytes 4 (xs.flatMap fun x => [x, 0]) := by
  induction xs with
  | nil => rfl
  | cons x xs ih =>
    have := ih (fun y hy => hx y (by simp [hy]))
    simp only [tobytes, List.flatMap_cons, List.cons_append, List.nil_append] at this ⊢
    rw [this, leBytes_8 x (hx x (by simp)), List.append_assoc]

theorem dang_interleave (ar : Nat → Nat) (xs : List Nat) : ∀ d,
    dang ar d (xs.flatMap fun x => [x, 0]) = dang ar d xs + xs.length * ((ar 0 : Int) - 1) := by
  induction xs with
  | nil => intro d; simp [dang]
  | cons x xs ih =>
    intro d
    simp only [List.flatMap_cons, List.cons_append, List.nil_append, dang]
    rw [ih, dang_shift]
    simp only [List.length_cons, Int.natCast_add, Int.add_mul]
    simp; omega

/-- A complete traversal ends in a token without operands. -/
theorem complete_last (ar : Nat → Nat) (t : Tree) (hw : WF ar t) (p : List Nat) (x : Nat)
    (h : t.preorder = p ++ [x]) : ar x = 0 := by
  have hex := exact_preorder ar t hw
  have h1 := hex.1
  have h2 := hex.2 p [x] h (by simp)
  rw [h, dang_append] at h1
  simp only [dang] at h1
  omega

/-- Complete token lists have the same bytes only if they are equal – even across item sizes. -/
theorem key_inj (ar : Nat → Nat) {w w' : Nat} (hw : w = 4 ∨ w = 8) (hw' : w' = 4 ∨ w' = 8) {s t : Tree}
    (hs : WF ar s) (ht : WF ar t) (hbs : ∀ x ∈ s.preorder, x < 256 ^ 4) (hbt : ∀ x ∈ t.preorder, x < 256 ^ 4)
    (h : tobytes w s.preorder = tobytes w' t.preorder) : w = w' ∧ s.preorder = t.preorder := by
  have cross : ∀ {s t : Tree}, WF ar s → WF ar t → (∀ x ∈ s.preorder, x < 256 ^ 4) →
      (∀ x ∈ t.preorder, x < 256 ^ 4) → tobytes 8 s.preorder ≠ tobytes 4 t.preorder := by
    intro s t hs ht hbs hbt h
    rw [tobytes_8 _ hbs] at h
    have e := tobytes_inj 4 (by omega) _ _ (by
      intro x hx
      obtain ⟨y, hy, hx⟩ := List.mem_flatMap.1 hx
      simp at hx
      rcases hx with rfl | rfl
      · exact hbs _ hy
      · decide) hbt h
    have h1 := dang_preorder ar t ht 1
    rw [← e, dang_interleave, dang_preorder ar s hs] at h1
    have hpos : 0 < s.preorder.length := List.length_pos_iff.2 (preorder_ne_nil s)
    have h0 : (ar 0 : Int) - 1 = 0 := by
      have : (s.preorder.length : Int) * ((ar 0 : Int) - 1) = 0 := by omega
      rcases Int.mul_eq_zero.1 this with h | h <;> omega
    obtain ⟨l, x, hlx⟩ : ∃ l x, s.preorder = l ++ [x] :=
      ⟨_, _, (List.dropLast_concat_getLast (preorder_ne_nil s)).symm⟩
    have := complete_last ar t ht ((l.flatMap fun x => [x, 0]) ++ [x]) 0 (by rw [← e, hlx]; simp)
    omega
  rcases hw with rfl | rfl <;> rcases hw' with rfl | rfl
  · exact ⟨rfl, tobytes_inj 4 (by omega) _ _ hbs hbt h⟩
  · exact absurd h.symm (cross ht hs hbt hbs)
  · exact absurd h (cross hs ht hbs hbt)
  · have up : ∀ {l : List Nat}, (∀ x ∈ l, x < 256 ^ 4) → ∀ x ∈ l, x < 256 ^ 8 := by
      intro l hl x hx; have := hl x hx; omega
    exact ⟨rfl, tobytes_inj 8 (by omega) _ _ (up hbs) (up hbt) h⟩

/-! ## Histories -/

/-- What a request must look like: an int32 or int64 array holding a complete expression of a library with fewer than
2^32 tokens. -/
def GoodRequest (ar : Nat → Nat) (r : Request) : Prop :=
  (r.w = 4 ∨ r.w = 8) ∧ (∃ t : Tree, WF ar t ∧ t.preorder = r.tokens) ∧ ∀ x ∈ r.tokens, x < 256 ^ 4

def sameKey (a b : Request) : Bool := tobytes a.w a.tokens == tobytes b.w b.tokens

/-- The number of cached requests of `hist` for key `k` that are on-policy resp. off-policy. -/
def countOf (k : List Nat) (on : Bool) (hist : List Request) : Nat :=
  hist.countP fun r => !r.bypass && tobytes r.w r.tokens == k && r.onPolicy == on

/-- State of the cache after a history of requests paired with the objects they returned. -/
structure CacheInv (ar : Nat → Nat) (c : Cache) (hist : List (Request × Nat)) : Prop where
  good : ∀ q ∈ hist, GoodRequest ar q.1
  lt : ∀ q ∈ hist, q.2 < c.objs.length
  obj : ∀ q ∈ hist, ∀ p, c.objs[q.2]? = some p → p.tokens = q.1.tokens ∧ p.str = tobytes q.1.w q.1.tokens
  cached : ∀ q ∈ hist, q.1.bypass = false → c.dict.lookup (tobytes q.1.w q.1.tokens) = some q.2
  byp : ∀ q ∈ hist, q.1.bypass = true → ∀ k, c.dict.lookup k ≠ some q.2
  fresh : hist.Pairwise fun a b => a.1.bypass = true ∨ b.1.bypass = true → a.2 ≠ b.2
  dict : ∀ k o, c.dict.lookup k = some o → ∃ q ∈ hist, q.2 = o ∧ q.1.bypass = false ∧ tobytes q.1.w q.1.tokens = k
  counts : ∀ k o p, c.dict.lookup k = some o → c.objs[o]? = some p →
    p.onPolicy = countOf k true (hist.map (·.1)) ∧ p.offPolicy = countOf k false (hist.map (·.1))

theorem lookup_append_single (l : List (List Nat × Nat)) (k k' : List Nat) (o : Nat) (hn : l.lookup k' = none) :
    (l ++ [(k', o)]).lookup k = if k = k' then some o else l.lookup k := by
  induction l with
  | nil => simp [List.lookup]; split <;> simp_all
  | cons a l ih =>
    obtain ⟨a1, a2⟩ := a
    simp only [List.cons_append, List.lookup] at hn ⊢
    by_cases h : k' = a1
    · subst h; simp at hn
    · have h' : (k' == a1) = false := by simp [h]
      rw [h'] at hn
      by_cases h2 : k = a1
      · subst h2
        have h3 : ¬ k = k' := fun e => h e.symm
        simp [h3]
      · have h3 : (k == a1) = false := by simp [h2]
        rw [h3]; exact ih hn

theorem countOf_append (k : List Nat) (on : Bool) (h : List Request) (r : Request) :
    countOf k on (h ++ [r]) = countOf k on h +
      (if !r.bypass && tobytes r.w r.tokens == k && r.onPolicy == on then 1 else 0) := by
  simp [countOf, List.countP_append, List.countP_cons]

theorem countOf_zero (k : List Nat) (on : Bool) (h : List Request)
    (hn : ∀ r ∈ h, r.bypass = false → tobytes r.w r.tokens ≠ k) : countOf k on h = 0 := by
  unfold countOf
  rw [List.countP_eq_zero]
  intro r hr
  cases hb : r.bypass
  · have := hn r hr hb; simp [this]
  · simp

theorem good_key_inj {ar : Nat → Nat} {a b : Request} (ha : GoodRequest ar a) (hb : GoodRequest ar b)
    (h : tobytes a.w a.tokens = tobytes b.w b.tokens) : a.w = b.w ∧ a.tokens = b.tokens := by
  obtain ⟨h1, ⟨s, hs, es⟩, h3⟩ := ha
  obtain ⟨h1', ⟨t, ht, et⟩, h3'⟩ := hb
  rw [← es] at h h3
  rw [← et] at h h3'
  obtain ⟨e1, e2⟩ := key_inj ar h1 h1' hs ht h3 h3' h
  exact ⟨e1, by rw [← es, ← et, e2]⟩

theorem count_tokens (p : Prog) (b : Bool) : (p.count b).tokens = p.tokens ∧ (p.count b).str = p.str := by
  cases b <;> simp [Prog.count]

theorem cacheInv_step (ar : Nat → Nat) (c : Cache) (hist : List (Request × Nat)) (r : Request)
    (hr : GoodRequest ar r) (h : CacheInv ar c hist) :
    CacheInv ar (fromTokens c r).1 (hist ++ [(r, (fromTokens c r).2)]) := by
  by_cases hb : r.bypass = true
  · have e : fromTokens c r = (⟨c.objs ++ [newProg r], c.dict⟩, c.objs.length) := by simp [fromTokens, hb]
    rw [e]
    have hdlt : ∀ k o, c.dict.lookup k = some o → o < c.objs.length := by
      intro k o hk
      obtain ⟨q, hq, rfl, _⟩ := h.dict k o hk
      exact h.lt q hq
    constructor
    · intro q hq
      rcases List.mem_append.1 hq with hq | hq
      · exact h.good q hq
      · simp at hq; subst hq; exact hr
    · intro q hq
      simp only [List.length_append, List.length_cons, List.length_nil]
      rcases List.mem_append.1 hq with hq | hq
      · have := h.lt q hq; omega
      · simp at hq; subst hq; simp
    · intro q hq p hp
      rcases List.mem_append.1 hq with hq | hq
      · have := h.lt q hq
        simp only [List.getElem?_append_left this] at hp
        exact h.obj q hq p hp
      · simp at hq; subst hq
        simp at hp; subst hp; simp [newProg]
    · intro q hq hf
      rcases List.mem_append.1 hq with hq | hq
      · exact h.cached q hq hf
      · simp at hq; subst hq; rw [hb] at hf; cases hf
    · intro q hq hf k hk
      rcases List.mem_append.1 hq with hq | hq
      · exact h.byp q hq hf k hk
      · simp at hq; subst hq
        have := hdlt _ _ hk; simp at this
    · rw [List.pairwise_append]
      refine ⟨h.fresh, by simp, ?_⟩
      intro a ha b hb' _
      simp at hb'; subst hb'
      have := h.lt a ha; simp; omega
    · intro k o hk
      obtain ⟨q, hq, hh⟩ := h.dict k o hk
      exact ⟨q, by simp [hq], hh⟩
    · intro k o p hk hp
      have := hdlt k o hk
      simp only [List.getElem?_append_left this] at hp
      simp only [List.map_append, List.map_cons, List.map_nil, countOf_append, hb]
      simpa using h.counts k o p hk hp
  · have hb : r.bypass = false := by simpa using hb
    cases hl : c.dict.lookup (tobytes r.w r.tokens) with
    | some o =>
      have e : fromTokens c r = (⟨c.objs.modify o (·.count r.onPolicy), c.dict⟩, o) := by simp [fromTokens, hb, hl]
      rw [e]
      obtain ⟨q0, hq0, hq0o, hq0b, hq0k⟩ := h.dict _ o hl
      have hg : ∀ n p, (c.objs.modify o (·.count r.onPolicy))[n]? = some p →
          ∃ p', c.objs[n]? = some p' ∧ p.tokens = p'.tokens ∧ p.str = p'.str ∧
            p = if o = n then p'.count r.onPolicy else p' := by
        intro n p hp
        rw [List.getElem?_modify] at hp
        cases hc : c.objs[n]? with
        | none => rw [hc] at hp; simp at hp
        | some p' =>
          rw [hc] at hp
          simp only [Option.map_eq_map, Option.map_some, Option.some.injEq] at hp
          refine ⟨p', rfl, ?_, ?_, hp.symm⟩ <;> rw [← hp] <;> split <;> simp [count_tokens]
      constructor
      · intro q hq
        rcases List.mem_append.1 hq with hq | hq
        · exact h.good q hq
        · simp at hq; subst hq; exact hr
      · intro q hq
        simp only [List.length_modify]
        rcases List.mem_append.1 hq with hq | hq
        · exact h.lt q hq
        · simp at hq; subst hq; rw [← hq0o]; exact h.lt q0 hq0
      · intro q hq p hp
        obtain ⟨p', hp', ht, hs, _⟩ := hg _ _ hp
        rcases List.mem_append.1 hq with hq | hq
        · rw [ht, hs]; exact h.obj q hq p' hp'
        · simp at hq; subst hq
          simp only at hp'
          rw [ht, hs]
          have := h.obj q0 hq0 p' (by rw [hq0o]; exact hp')
          rw [this.1, this.2]
          exact ⟨(good_key_inj (h.good q0 hq0) hr hq0k).2, hq0k⟩
      · intro q hq hf
        rcases List.mem_append.1 hq with hq | hq
        · exact h.cached q hq hf
        · simp at hq; subst hq; exact hl
      · intro q hq hf k hk
        rcases List.mem_append.1 hq with hq | hq
        · exact h.byp q hq hf k hk
        · simp at hq; subst hq; rw [hb] at hf; cases hf
      · rw [List.pairwise_append]
        refine ⟨h.fresh, by simp, ?_⟩
        intro a ha b hb' hor
        simp at hb'; subst hb'
        rcases hor with h1 | h1
        · intro he; exact h.byp a ha h1 _ (by rw [hl, he])
        · simp [hb] at h1
      · intro k o hk
        obtain ⟨q, hq, hh⟩ := h.dict k o hk
        exact ⟨q, by simp [hq], hh⟩
      · intro k o' p hk hp
        obtain ⟨p', hp', _, _, hpe⟩ := hg _ _ hp
        have hc := h.counts k o' p' hk hp'
        simp only [List.map_append, List.map_cons, List.map_nil, countOf_append, hb]
        by_cases hk' : tobytes r.w r.tokens = k
        · subst hk'
          have : o' = o := by simp only at hk; rw [hl] at hk; simpa using hk.symm
          subst this
          simp only [if_true] at hpe
          rw [hpe]
          cases hon : r.onPolicy <;> simp [Prog.count, hc]
        · have hoo : ¬ o = o' := by
            intro he; subst he
            obtain ⟨q1, hq1, hq1o, hq1b, hq1k⟩ := h.dict k o hk
            have a1 := h.obj q0 hq0 p' (by rw [hq0o]; exact hp')
            have a2 := h.obj q1 hq1 p' (by rw [hq1o]; exact hp')
            apply hk'
            rw [← hq1k, ← hq0k, ← a1.2, ← a2.2]
          rw [if_neg hoo] at hpe
          rw [hpe]
          simp [hk', hc]
    | none =>
      have e : fromTokens c r = (⟨c.objs ++ [newProg r], c.dict ++ [(tobytes r.w r.tokens, c.objs.length)]⟩,
          c.objs.length) := by simp [fromTokens, hb, hl]
      rw [e]
      have hdlt : ∀ k o, c.dict.lookup k = some o → o < c.objs.length := by
        intro k o hk
        obtain ⟨q, hq, rfl, _⟩ := h.dict k o hk
        exact h.lt q hq
      have hnew := fun k => lookup_append_single c.dict k _ c.objs.length hl
      have hno : ∀ q ∈ hist, q.1.bypass = false → tobytes q.1.w q.1.tokens ≠ tobytes r.w r.tokens := by
        intro q hq hf he
        have := h.cached q hq hf
        rw [he, hl] at this; cases this
      constructor
      · intro q hq
        rcases List.mem_append.1 hq with hq | hq
        · exact h.good q hq
        · simp at hq; subst hq; exact hr
      · intro q hq
        simp only [List.length_append, List.length_cons, List.length_nil]
        rcases List.mem_append.1 hq with hq | hq
        · have := h.lt q hq; omega
        · simp at hq; subst hq; simp
      · intro q hq p hp
        rcases List.mem_append.1 hq with hq | hq
        · have := h.lt q hq
          simp only [List.getElem?_append_left this] at hp
          exact h.obj q hq p hp
        · simp at hq; subst hq
          simp at hp; subst hp; simp [newProg]
      · intro q hq hf
        simp only [hnew]
        rcases List.mem_append.1 hq with hq | hq
        · rw [if_neg (hno q hq hf)]; exact h.cached q hq hf
        · simp at hq; subst hq; simp
      · intro q hq hf k hk
        simp only [hnew] at hk
        rcases List.mem_append.1 hq with hq | hq
        · split at hk
          · have := h.lt q hq; simp at hk; omega
          · exact h.byp q hq hf k hk
        · simp at hq; subst hq; rw [hb] at hf; cases hf
      · rw [List.pairwise_append]
        refine ⟨h.fresh, by simp, ?_⟩
        intro a ha b hb' _
        simp at hb'; subst hb'
        have := h.lt a ha; simp; omega
      · intro k o hk
        simp only [hnew] at hk
        split at hk
        · rename_i he
          exact ⟨_, List.mem_append.2 (Or.inr (List.mem_singleton.2 rfl)), by simpa using hk, hb, he.symm⟩
        · obtain ⟨q, hq, hh⟩ := h.dict k o hk
          exact ⟨q, by simp [hq], hh⟩
      · intro k o p hk hp
        simp only [hnew] at hk
        simp only [List.map_append, List.map_cons, List.map_nil, countOf_append, hb]
        split at hk
        · rename_i he
          subst he
          simp at hk; subst hk
          simp at hp; subst hp
          have hz : ∀ on, countOf (tobytes r.w r.tokens) on (hist.map (·.1)) = 0 := by
            intro on
            apply countOf_zero
            intro x hx hxb
            obtain ⟨q, hq, rfl⟩ := List.mem_map.1 hx
            exact hno q hq hxb
          simp only [hz]
          cases hon : r.onPolicy <;> simp [newProg, hon]
        · rename_i he
          have := hdlt k o hk
          simp only [List.getElem?_append_left this] at hp
          have hc := h.counts k o p hk hp
          have he' : ¬ tobytes r.w r.tokens = k := fun e => he e.symm
          simp [he', hc]

theorem requests_inv (ar : Nat → Nat) : ∀ (rs : List Request) (c : Cache) (hist : List (Request × Nat)),
    (∀ r ∈ rs, GoodRequest ar r) → CacheInv ar c hist →
    (requests c rs).2.length = rs.length ∧
      CacheInv ar (requests c rs).1 (hist ++ rs.zip (requests c rs).2) := by
  intro rs
  induction rs with
  | nil => intro c hist _ h; simpa [requests] using h
  | cons r rs ih =>
    intro c hist hg h
    have h1 := cacheInv_step ar c hist r (hg r (by simp)) h
    have h2 := ih (fromTokens c r).1 _ (fun x hx => hg x (by simp [hx])) h1
    simp only [requests, List.length_cons, List.zip_cons_cons]
    refine ⟨by rw [h2.1], ?_⟩
    have := h2.2
    rwa [List.append_assoc] at this

theorem requests_inv_nil (ar : Nat → Nat) (rs : List Request) (hg : ∀ r ∈ rs, GoodRequest ar r) :
    (requests {} rs).2.length = rs.length ∧ CacheInv ar (requests {} rs).1 (rs.zip (requests {} rs).2) := by
  have := requests_inv ar rs {} [] hg
    (by constructor <;> simp [List.lookup])
  simpa using this

/-! ## The claims -/

/-- **C16 (identity).** In every history of requests for complete expressions, two cached requests get the same
program object exactly when they ask for the same tokens in an array of the same item size; in particular two different
expressions never share an object (whatever the item sizes).  A bypassed request never shares its object with any
other request.  The object returned always holds the tokens asked for. -/
theorem C16_same_object_partial (ar : Nat → Nat) (rs : List Request) (hg : ∀ r ∈ rs, GoodRequest ar r)
    (i j : Nat) (a b : Request) (hi : rs[i]? = some a) (hj : rs[j]? = some b) :
    ∃ o o', (requests {} rs).2[i]? = some o ∧ (requests {} rs).2[j]? = some o' ∧
      ((requests {} rs).1.objs[o]?.map (·.tokens)) = some a.tokens ∧
      (i ≠ j → (o = o' ↔ a.bypass = false ∧ b.bypass = false ∧ a.w = b.w ∧ a.tokens = b.tokens)) := by
  obtain ⟨hlen, hinv⟩ := requests_inv_nil ar rs hg
  have hil : i < rs.length := (List.getElem?_eq_some_iff.1 hi).1
  have hjl : j < rs.length := (List.getElem?_eq_some_iff.1 hj).1
  have hil' : i < (requests {} rs).2.length := by omega
  have hjl' : j < (requests {} rs).2.length := by omega
  have zi : (rs.zip (requests {} rs).2)[i]? = some (a, (requests {} rs).2[i]) := by
    rw [List.getElem?_zip_eq_some]; exact ⟨hi, List.getElem?_eq_getElem hil'⟩
  have zj : (rs.zip (requests {} rs).2)[j]? = some (b, (requests {} rs).2[j]) := by
    rw [List.getElem?_zip_eq_some]; exact ⟨hj, List.getElem?_eq_getElem hjl'⟩
  have mi := List.mem_of_getElem? zi
  have mj := List.mem_of_getElem? zj
  refine ⟨_, _, List.getElem?_eq_getElem hil', List.getElem?_eq_getElem hjl', ?_, ?_⟩
  · have hlt := hinv.lt _ mi
    have hp := List.getElem?_eq_getElem hlt
    simp only at hp
    rw [hp]
    simp [(hinv.obj _ mi _ hp).1]
  · intro hij
    constructor
    · intro he
      have hfr : a.bypass = true ∨ b.bypass = true → False := by
        intro hor
        obtain ⟨gi1, gi2⟩ := List.getElem?_eq_some_iff.1 zi
        obtain ⟨gj1, gj2⟩ := List.getElem?_eq_some_iff.1 zj
        have pw := List.pairwise_iff_getElem.1 hinv.fresh
        rcases Nat.lt_or_gt_of_ne hij with h | h
        · have := pw i j gi1 gj1 h
          rw [gi2, gj2] at this
          exact this hor he
        · have := pw j i gj1 gi1 h
          rw [gi2, gj2] at this
          exact this hor.symm he.symm
      have ha : a.bypass = false := by
        cases h : a.bypass
        · rfl
        · exact absurd (Or.inl h) hfr
      have hb : b.bypass = false := by
        cases h : b.bypass
        · rfl
        · exact absurd (Or.inr h) hfr
      have hlt := hinv.lt _ mi
      have hp := List.getElem?_eq_getElem hlt
      have o1 := hinv.obj _ mi _ hp
      have o2 := hinv.obj _ mj _ (by simp only at hp ⊢; rw [← he]; exact hp)
      have hk : tobytes a.w a.tokens = tobytes b.w b.tokens := by rw [← o1.2, ← o2.2]
      have := good_key_inj (hinv.good _ mi) (hinv.good _ mj) hk
      exact ⟨ha, hb, this.1, this.2⟩
    · rintro ⟨ha, hb, hw, ht⟩
      have c1 := hinv.cached _ mi ha
      have c2 := hinv.cached _ mj hb
      simp only [hw, ht] at c1 c2
      rw [c1] at c2
      simpa using c2

/-- **C16 (counters).** After any history, the on-policy (off-policy) counter of the object a cached request got is
the number of cached on-policy (off-policy) requests of the history for the same tokens and item size. -/
theorem C16_counts_partial (ar : Nat → Nat) (rs : List Request) (hg : ∀ r ∈ rs, GoodRequest ar r)
    (i : Nat) (a : Request) (hi : rs[i]? = some a) (hb : a.bypass = false) :
    ∃ o p, (requests {} rs).2[i]? = some o ∧ (requests {} rs).1.objs[o]? = some p ∧
      p.onPolicy = (rs.filter fun r => !r.bypass && r.w == a.w && r.tokens == a.tokens && r.onPolicy).length ∧
      p.offPolicy = (rs.filter fun r => !r.bypass && r.w == a.w && r.tokens == a.tokens && !r.onPolicy).length := by
  obtain ⟨hlen, hinv⟩ := requests_inv_nil ar rs hg
  have hil : i < rs.length := (List.getElem?_eq_some_iff.1 hi).1
  have hil' : i < (requests {} rs).2.length := by omega
  have zi : (rs.zip (requests {} rs).2)[i]? = some (a, (requests {} rs).2[i]) := by
    rw [List.getElem?_zip_eq_some]; exact ⟨hi, List.getElem?_eq_getElem hil'⟩
  have mi := List.mem_of_getElem? zi
  have hlt := hinv.lt _ mi
  have hp := List.getElem?_eq_getElem hlt
  refine ⟨_, _, List.getElem?_eq_getElem hil', hp, ?_⟩
  have hc := hinv.counts _ _ _ (hinv.cached _ mi hb) hp
  have hm : (rs.zip (requests {} rs).2).map (·.1) = rs := by
    apply List.map_fst_zip; omega
  have hag : a ∈ rs := List.mem_of_getElem? hi
  have key : ∀ on, countOf (tobytes a.w a.tokens) on rs =
      (rs.filter fun r => !r.bypass && r.w == a.w && r.tokens == a.tokens && r.onPolicy == on).length := by
    intro on
    unfold countOf
    rw [List.countP_eq_length_filter]
    congr 1
    apply List.filter_congr
    intro r hr
    by_cases hk : tobytes r.w r.tokens = tobytes a.w a.tokens
    · have := good_key_inj (hg r hr) (hg a hag) hk
      simp [this.1, this.2]
    · have : ¬ (r.w = a.w ∧ r.tokens = a.tokens) := fun h => hk (by rw [h.1, h.2])
      have k1 : (tobytes r.w r.tokens == tobytes a.w a.tokens) = false := beq_eq_false_iff_ne.2 hk
      rw [k1]
      by_cases h1 : r.w = a.w
      · have h2 : (r.tokens == a.tokens) = false := beq_eq_false_iff_ne.2 fun h => this ⟨h1, h⟩
        rw [h2]; simp
      · have h2 : (r.w == a.w) = false := beq_eq_false_iff_ne.2 h1
        rw [h2]; simp
  rw [hm, key, key] at hc
  simpa using hc

/-- C16 fails as stated: the same complete expression requested once as a sampled int64 array and once as an int32
array (from the genetic code or from text) gives two different objects, each with its own counters. -/
theorem C16_width_counterexample :
    let ar := fun t => if t = 0 then 2 else 0
    let rs : List Request := [⟨8, [0, 1, 2], true, false⟩, ⟨4, [0, 1, 2], false, false⟩]
    (∀ r ∈ rs, GoodRequest ar r) ∧ (requests {} rs).2 = [0, 1] ∧
      (requests {} rs).1.objs.map (fun p => (p.tokens, p.onPolicy, p.offPolicy)) =
        [([0, 1, 2], 1, 0), ([0, 1, 2], 0, 1)] := by
  refine ⟨?_, by decide, by decide⟩
  intro r hr
  have ht : ∃ t : Tree, WF (fun t => if t = 0 then 2 else 0) t ∧ t.preorder = [0, 1, 2] :=
    ⟨.node 0 [.node 1 [], .node 2 []], by simp [WF, WFL], by simp [preorder, preorderL]⟩
  simp at hr
  rcases hr with rfl | rfl <;> exact ⟨by simp, ht, by simp⟩

/-- **C46.** After any history, every program that was requested through the cache can be looked up again under its
`str`, and the lookup gives the very same object (this is what the end of a search does with every remembered
program, searcher.py:272). -/
theorem C46_lookup_partial (ar : Nat → Nat) (rs : List Request) (hg : ∀ r ∈ rs, GoodRequest ar r)
    (i : Nat) (a : Request) (hi : rs[i]? = some a) :
    ∃ o p, (requests {} rs).2[i]? = some o ∧ (requests {} rs).1.objs[o]? = some p ∧
      (a.bypass = false → (requests {} rs).1.dict.lookup p.str = some o) := by
  obtain ⟨hlen, hinv⟩ := requests_inv_nil ar rs hg
  have hil : i < rs.length := (List.getElem?_eq_some_iff.1 hi).1
  have hil' : i < (requests {} rs).2.length := by omega
  have zi : (rs.zip (requests {} rs).2)[i]? = some (a, (requests {} rs).2[i]) := by
    rw [List.getElem?_zip_eq_some]; exact ⟨hi, List.getElem?_eq_getElem hil'⟩
  have mi := List.mem_of_getElem? zi
  have hlt := hinv.lt _ mi
  have hp := List.getElem?_eq_getElem hlt
  refine ⟨_, _, List.getElem?_eq_getElem hil', hp, ?_⟩
  intro hb
  rw [(hinv.obj _ mi _ hp).2]
  exact hinv.cached _ mi hb

/-- With a stochastic task (reward noise) every request bypasses the cache, and the lookup at the end of the search
(searcher.py:272) finds nothing: `Program.cache[...]` raises `KeyError` for every remembered program. -/
theorem C46_stochastic_counterexample (rs : List Request) (h : ∀ r ∈ rs, r.bypass = true) (k : List Nat) :
    (requests {} rs).1.dict.lookup k = none := by
  have : ∀ (rs : List Request) (c : Cache), (∀ r ∈ rs, r.bypass = true) → (requests c rs).1.dict = c.dict := by
    intro rs
    induction rs with
    | nil => intro c _; rfl
    | cons r rs ih =>
      intro c h
      simp only [requests]
      rw [ih _ (fun x hx => h x (by simp [hx]))]
      simp [fromTokens, h r (by simp)]
  rw [this rs {} h]; rfl

/-- Hypotheses of the C16/C46 theorems are met by a mixed history. -/
example :
    let ar := fun t => if t = 0 then 2 else 0
    let rs : List Request := [⟨8, [0, 1, 2], true, false⟩, ⟨8, [1], true, false⟩, ⟨8, [0, 1, 2], false, false⟩,
      ⟨8, [1], true, true⟩]
    (∀ r ∈ rs, GoodRequest ar r) ∧ (requests {} rs).2 = [0, 1, 0, 2] := by
  refine ⟨?_, by decide⟩
  intro r hr
  have ht : ∃ t : Tree, WF (fun t => if t = 0 then 2 else 0) t ∧ t.preorder = [0, 1, 2] :=
    ⟨.node 0 [.node 1 [], .node 2 []], by simp [WF, WFL], by simp [preorder, preorderL]⟩
  have h1 : ∃ t : Tree, WF (fun t => if t = 0 then 2 else 0) t ∧ t.preorder = [1] :=
    ⟨.node 1 [], by simp [WF, WFL], by simp [preorder, preorderL]⟩
  simp at hr
  rcases hr with rfl | rfl | rfl | rfl
  · exact ⟨by simp, ht, by simp⟩
  · exact ⟨by simp, h1, by simp⟩
  · exact ⟨by simp, ht, by simp⟩
  · exact ⟨by simp, h1, by simp⟩

end Verif.Discover.Claims
