import Verif.Api.Params
/-!
# C32: `set_params` / `get_params`

## Specification
-/
namespace Verif.Claims
open Verif.Api

/-- A parameter name whose nested keys can be told apart: followed by `_` it contains no double underscore (so it has none
itself and does not end in `_`). -/
def GoodName (n : Key) : Prop := ¬ ['_', '_'] <:+: (n ++ ['_'])

/-- `k` names a parameter of the estimator (or of an estimator held by a parameter, and so on) whose value is `w`. -/
inductive Reads {A : Type} : Val A → Key → Val A → Prop
  | own {ns attrs n w} : n ∈ ns → attrs.lookup n = some w → Reads (.est (some ns) attrs) n w
  | sub {ns attrs n v k w} : n ∈ ns → attrs.lookup n = some v → Reads v k w → Reads (.est (some ns) attrs) (joinKey n k) w

/-- An estimator every parameter of which is stored under its own name, with distinct good names, at every level. -/
inductive WellFormed {A : Type} : Val A → Prop
  | atom (a : A) : WellFormed (.atom a)
  | est (ns : List Key) (attrs : List (Key × Val A)) (vals : Key → Val A) : ns.Nodup → (∀ n ∈ ns, GoodName n) →
      (∀ n ∈ ns, attrs.lookup n = some (vals n)) → (∀ n ∈ ns, WellFormed (vals n)) → WellFormed (.est (some ns) attrs)

/-- `k` is the key of a parameter inside the value of parameter `p`. -/
def Extends (k p : Key) : Prop := ∃ s, k = joinKey p s

/-! ## Lemmas -/

theorem put_lookup {α : Type} (d : List (Key × α)) (k : Key) (v : α) (k' : Key) :
    (put d k v).lookup k' = if k' = k then some v else d.lookup k' := by
  induction d with
  | nil =>
    simp only [put, List.lookup_cons, List.lookup_nil]
    by_cases h : k' = k
    · simp [h]
    · have : (k' == k) = false := by simpa using h
      simp [this, h]
  | cons p r ih =>
    obtain ⟨a, b⟩ := p
    simp only [put]
    by_cases ha : a = k
    · subst ha
      simp only [if_true, List.lookup_cons]
      by_cases h : k' = a
      · simp [h]
      · have : (k' == a) = false := by simpa using h
        simp [this, h]
    · simp only [ha, if_false, List.lookup_cons, ih]
      by_cases h : k' = a
      · subst h; simp [ha]
      · have : (k' == a) = false := by simpa using h
        simp [this]

theorem partition_good (n : Key) (h : GoodName n) (s : Key) :
    partition n = (n, none) ∧ partition (joinKey n s) = (n, some s) := by
  induction n with
  | nil => exact ⟨rfl, rfl⟩
  | cons c n ih =>
    have h' : GoodName n := fun hc => h (hc.trans (List.suffix_cons c _).isInfix)
    obtain ⟨i1, i2⟩ := ih h'
    by_cases hc : c = '_'
    · subst hc
      cases n with
      | nil => exact absurd (List.infix_refl _) h
      | cons e n =>
        have he : e ≠ '_' := by
          rintro rfl
          exact h ⟨[], n ++ ['_'], by simp⟩
        have p1 : partition ('_' :: e :: n) = ('_' :: (partition (e :: n)).1, (partition (e :: n)).2) := by
          rw [partition]; simpa using he
        have p2 : partition (joinKey ('_' :: e :: n) s) = ('_' :: (partition (joinKey (e :: n) s)).1, (partition (joinKey (e :: n) s)).2) := by
          show partition ('_' :: e :: (n ++ '_' :: '_' :: s)) = _
          rw [partition]
          · rfl
          · simpa using he
        rw [p1, p2, i1, i2]
        exact ⟨rfl, rfl⟩
    · have p1 : ∀ r, partition (c :: r) = (c :: (partition r).1, (partition r).2) := by
        intro r; rw [partition]; intro _ a; exact absurd a hc
      have p2 : partition (joinKey (c :: n) s) = (c :: (partition (joinKey n s)).1, (partition (joinKey n s)).2) := p1 _
      rw [p1, p2, i1, i2]
      exact ⟨rfl, rfl⟩

theorem partition_none (k h : Key) (e : partition k = (h, none)) : k = h := by
  induction k generalizing h with
  | nil => simp [partition] at e; exact e.symm
  | cons c r ih =>
    unfold partition at e
    split at e
    · simp at e
    · simp only [Prod.mk.injEq] at e
      rw [← e.1]
      congr 1
      exact ih _ (Prod.ext rfl e.2)

theorem partition_some (k h s : Key) (e : partition k = (h, some s)) : k = joinKey h s := by
  induction k generalizing h with
  | nil => simp [partition] at e
  | cons c r ih =>
    unfold partition at e
    split at e
    · simp only [Prod.mk.injEq, Option.some.injEq] at e
      obtain ⟨rfl, rfl⟩ := e
      rfl
    · simp only [Prod.mk.injEq] at e
      rw [← e.1]
      have := ih _ (Prod.ext rfl e.2)
      exact congrArg (c :: ·) this

theorem partition_head (r : Key) (x : Char) (t : Key) (e : (partition r).1 = x :: t) : ∃ t', r = x :: t' := by
  cases r with
  | nil => simp [partition] at e
  | cons y u =>
    unfold partition at e
    split at e
    · simp at e
    · simp only [List.cons.injEq] at e
      exact ⟨u, by rw [e.1]⟩

/-- The part before the delimiter has no delimiter. -/
theorem part_idem : ∀ (k h : Key) (s : Option Key), partition k = (h, s) → partition h = (h, none) := by
  intro k
  induction k with
  | nil => intro h s e; simp [partition] at e; rw [e.1]; rfl
  | cons c r ih =>
    intro h s e
    unfold partition at e
    split at e
    · simp only [Prod.mk.injEq] at e; rw [← e.1]; rfl
    · rename_i hne
      simp only [Prod.mk.injEq] at e
      have i1 := ih _ _ (rfl : partition r = ((partition r).1, (partition r).2))
      rw [← e.1]
      rw [partition]
      · rw [i1]
      · intro s' hc hs
        obtain ⟨t', ht⟩ := partition_head _ _ _ hs
        exact hne t' hc ht

theorem joinKey_inj (n m s s' : Key) (hn : GoodName n) (hm : GoodName m) (e : joinKey n s = joinKey m s') : n = m ∧ s = s' := by
  have h1 := (partition_good n hn s).2
  have h2 := (partition_good m hm s').2
  rw [e, h2] at h1
  simp only [Prod.mk.injEq, Option.some.injEq] at h1
  exact ⟨h1.1.symm, h1.2.symm⟩

theorem good_ne_join (n m s : Key) (hn : GoodName n) (hm : GoodName m) : n ≠ joinKey m s := by
  intro e
  have h1 := (partition_good n hn s).1
  rw [e, (partition_good m hm s).2] at h1
  simp at h1

theorem joinKey_assoc (a b c : Key) : joinKey (joinKey a b) c = joinKey a (joinKey b c) := by simp [joinKey]

/-- Reading a key of a well-formed estimator, by the shape of the key. -/
theorem reads_own {A : Type} (ns : List Key) (attrs : List (Key × Val A)) (hg : ∀ n ∈ ns, GoodName n) (h : Key) (hh : h ∈ ns) (w : Val A) :
    Reads (.est (some ns) attrs) h w ↔ attrs.lookup h = some w := by
  constructor
  · intro r
    cases r with
    | own _ h2 => exact h2
    | sub h1 h2 h3 => exact absurd rfl (good_ne_join _ _ _ (hg _ hh) (hg _ h1))
  · exact fun e => .own hh e

theorem reads_join {A : Type} (ns : List Key) (attrs : List (Key × Val A)) (hg : ∀ n ∈ ns, GoodName n) (h s : Key) (hgood : GoodName h) (w : Val A) :
    Reads (.est (some ns) attrs) (joinKey h s) w ↔ h ∈ ns ∧ ∃ v, attrs.lookup h = some v ∧ Reads v s w := by
  constructor
  · intro r
    generalize hk : joinKey h s = k at r
    cases r with
    | own h1 h2 => exact absurd hk.symm (good_ne_join _ _ _ (hg _ h1) hgood)
    | sub h1 h2 h3 =>
      obtain ⟨rfl, rfl⟩ := joinKey_inj _ _ _ _ hgood (hg _ h1) hk
      exact ⟨h1, _, h2, h3⟩
  · rintro ⟨h1, v, h2, h3⟩
    exact .sub h1 h2 h3

theorem reads_head {A : Type} (ns : List Key) (attrs : List (Key × Val A)) (k : Key) (w : Val A)
    (r : Reads (.est (some ns) attrs) k w) : k ∈ ns ∨ ∃ h s, h ∈ ns ∧ k = joinKey h s := by
  cases r with
  | own h1 _ => exact Or.inl h1
  | sub h1 _ _ => exact Or.inr ⟨_, _, h1, rfl⟩

/-! ### get_params -/

theorem foldl_put_lookup {A : Type} (n : Key) : ∀ (items : List (Key × Val A)) (out : List (Key × Val A)) (k : Key),
    (∀ s, k ≠ joinKey n s) → (items.foldl (fun d p => put d (joinKey n p.1) p.2) out).lookup k = out.lookup k := by
  intro items
  induction items with
  | nil => intro out k _; rfl
  | cons p r ih =>
    intro out k hk
    rw [List.foldl_cons, ih _ _ hk, put_lookup, if_neg (hk _)]

theorem foldl_put_join {A : Type} (n : Key) (hn : GoodName n) : ∀ (items : List (Key × Val A)) (out : List (Key × Val A)) (s : Key),
    (items.map (·.1)).Nodup →
    (items.foldl (fun d p => put d (joinKey n p.1) p.2) out).lookup (joinKey n s) = (items.lookup s).or (out.lookup (joinKey n s)) := by
  intro items
  induction items with
  | nil => intro out s _; simp
  | cons p r ih =>
    intro out s hd
    obtain ⟨a, b⟩ := p
    simp only [List.map_cons, List.nodup_cons] at hd
    rw [List.foldl_cons, ih _ _ hd.2, put_lookup, List.lookup_cons]
    by_cases h : s = a
    · subst h
      have : r.lookup s = none := by
        rw [List.lookup_eq_none_iff]
        intro q hq
        have : q.1 ≠ s := fun e => hd.1 (List.mem_map.2 ⟨q, hq, e⟩)
        have h2 : (s == q.1) = false := by simpa using Ne.symm this
        simpa using h2
      simp [this]
    · have e : (s == a) = false := by simpa using h
      have : ¬ joinKey n s = joinKey n a := fun e => h (joinKey_inj _ _ _ _ hn hn e).2
      simp [e, this]

theorem put_keys_nodup {α : Type} (d : List (Key × α)) (k : Key) (v : α) (h : (d.map (·.1)).Nodup) : ((put d k v).map (·.1)).Nodup := by
  have hm : ∀ d : List (Key × α), ∀ x, x ∈ (put d k v).map (·.1) → x = k ∨ x ∈ d.map (·.1) := by
    intro d
    induction d with
    | nil => intro x hx; simp [put] at hx; exact Or.inl hx
    | cons p r ih =>
      intro x hx
      obtain ⟨a, b⟩ := p
      simp only [put] at hx
      split at hx
      · simp at hx ⊢; rcases hx with rfl | ⟨c, hx⟩
        · exact Or.inl rfl
        · exact Or.inr (Or.inr ⟨c, hx⟩)
      · simp only [List.map_cons, List.mem_cons] at hx ⊢
        rcases hx with rfl | hx
        · exact Or.inr (Or.inl rfl)
        · rcases ih x hx with h | h
          · exact Or.inl h
          · exact Or.inr (Or.inr h)
  induction d with
  | nil => simp [put]
  | cons p r ih =>
    obtain ⟨a, b⟩ := p
    simp only [List.map_cons, List.nodup_cons] at h
    simp only [put]
    split
    · rename_i e; subst e; simpa using h
    · rename_i e
      simp only [List.map_cons, List.nodup_cons]
      refine ⟨?_, ih h.2⟩
      intro hx
      rcases hm r a hx with g | g
      · exact e g
      · exact h.1 g

theorem foldl_put_nodup {A : Type} (n : Key) : ∀ (items out : List (Key × Val A)), (out.map (·.1)).Nodup →
    ((items.foldl (fun d p => put d (joinKey n p.1) p.2) out).map (·.1)).Nodup := by
  intro items
  induction items with
  | nil => intro out h; exact h
  | cons p r ih => intro out h; exact ih _ (put_keys_nodup _ _ _ h)

/-- What the result of `get_params` must be. -/
def IsParams {A : Type} (v : Val A) (d : List (Key × Val A)) : Prop :=
  (d.map (·.1)).Nodup ∧ ∀ k w, d.lookup k = some w ↔ Reads v k w

theorem getLoop_spec {A : Type} (rec : Val A → Except PErr (List (Key × Val A))) (all : List Key) (attrs : List (Key × Val A))
    (hgood : ∀ n ∈ all, GoodName n) (hattr : ∀ n ∈ all, ∃ v, attrs.lookup n = some v ∧
      ∀ ns at', v = .est ns at' → ∃ d, rec v = .ok d ∧ IsParams v d)
    (hatom : ∀ a k w, ¬ Reads (Val.atom a : Val A) k w) :
    ∀ (todo done : List Key) (out : List (Key × Val A)), done ++ todo = all → (done ++ todo).Nodup → (out.map (·.1)).Nodup →
      (∀ k w, out.lookup k = some w ↔ ∃ n ∈ done, (k = n ∧ attrs.lookup n = some w) ∨ ∃ s v, k = joinKey n s ∧ attrs.lookup n = some v ∧ Reads v s w) →
      ∃ d, getLoop rec attrs todo out = .ok d ∧ IsParams (.est (some all) attrs) d := by
  intro todo
  induction todo with
  | nil =>
    intro done out he hnd hout h
    refine ⟨out, rfl, hout, ?_⟩
    intro k w
    rw [h]
    rw [List.append_nil] at he
    subst he
    constructor
    · rintro ⟨n, hn, ⟨rfl, e⟩ | ⟨s, v, rfl, e, r⟩⟩
      · exact .own hn e
      · exact .sub hn e r
    · intro r
      cases r with
      | own h1 h2 => exact ⟨_, h1, Or.inl ⟨rfl, h2⟩⟩
      | sub h1 h2 h3 => exact ⟨_, h1, Or.inr ⟨_, _, rfl, h2, h3⟩⟩
  | cons n r ih =>
    intro done out he hnd hout h
    have hn : n ∈ all := by rw [← he]; simp
    have hng := hgood n hn
    obtain ⟨v, hv, hrec⟩ := hattr n hn
    have hfresh : ∀ m ∈ done, m ≠ n := by
      intro m hm e; subst e
      rw [List.nodup_append] at hnd
      exact hnd.2.2 m hm m (by simp) rfl
    have hdone : ∀ m ∈ done, GoodName m := fun m hm => hgood m (by rw [← he]; simp [hm])
    -- the step
    have step : ∀ (items : List (Key × Val A)), (items.map (·.1)).Nodup → (∀ s w, items.lookup s = some w ↔ Reads v s w) →
        ∃ d, getLoop rec attrs r (put (items.foldl (fun d p => put d (joinKey n p.1) p.2) out) n v) = .ok d ∧ IsParams (.est (some all) attrs) d := by
      intro items hit hitems
      refine ih (done ++ [n]) _ (by rw [← he]; simp) (by simpa using hnd) (put_keys_nodup _ _ _ (foldl_put_nodup _ _ _ hout)) ?_
      intro k w
      rw [put_lookup]
      by_cases hk : k = n
      · subst hk
        simp only [if_true, Option.some.injEq]
        constructor
        · rintro rfl; exact ⟨k, by simp, Or.inl ⟨rfl, hv⟩⟩
        · rintro ⟨m, hm, ⟨rfl, e⟩ | ⟨s, u, e, _⟩⟩
          · rw [hv] at e; exact Option.some.inj e
          · rw [List.mem_append, List.mem_singleton] at hm
            rcases hm with hm | rfl
            · exact absurd e (good_ne_join _ _ _ hng (hdone m hm))
            · exact absurd e (good_ne_join _ _ _ hng hng)
      · rw [if_neg hk]
        by_cases hj : ∃ s, k = joinKey n s
        · obtain ⟨s, rfl⟩ := hj
          rw [foldl_put_join n hng _ _ _ hit]
          have hno : out.lookup (joinKey n s) = none := by
            cases e : out.lookup (joinKey n s) with
            | none => rfl
            | some w0 =>
              obtain ⟨m, hm, ⟨e1, _⟩ | ⟨s', u, e1, _⟩⟩ := (h _ w0).1 e
              · exact absurd e1.symm (good_ne_join _ _ _ (hdone m hm) hng)
              · exact absurd (joinKey_inj _ _ _ _ hng (hdone m hm) e1).1.symm (hfresh m hm)
          rw [hno, Option.or_none, hitems]
          constructor
          · intro rd; exact ⟨n, by simp, Or.inr ⟨s, v, rfl, hv, rd⟩⟩
          · rintro ⟨m, hm, ⟨e, _⟩ | ⟨s', u, e, e2, rd⟩⟩
            · rw [List.mem_append, List.mem_singleton] at hm
              rcases hm with hm | rfl
              · exact absurd e.symm (good_ne_join _ _ _ (hdone m hm) hng)
              · exact absurd e hk
            · rw [List.mem_append, List.mem_singleton] at hm
              have hm' : GoodName m := by
                rcases hm with hm | rfl
                · exact hdone m hm
                · exact hng
              obtain ⟨rfl, rfl⟩ := joinKey_inj _ _ _ _ hng hm' e
              rw [hv] at e2; cases e2; exact rd
        · rw [foldl_put_lookup n _ _ _ (fun s e => hj ⟨s, e⟩), h]
          constructor
          · rintro ⟨m, hm, x⟩; exact ⟨m, by simp [hm], x⟩
          · rintro ⟨m, hm, x⟩
            rw [List.mem_append, List.mem_singleton] at hm
            rcases hm with hm | rfl
            · exact ⟨m, hm, x⟩
            · rcases x with ⟨e, _⟩ | ⟨s, u, e, _⟩
              · exact absurd e hk
              · exact absurd ⟨s, e⟩ hj
    cases v with
    | atom a =>
      simp only [getLoop, hv]
      exact step [] (by simp) (by intro s w; simp; exact hatom a s w)
    | est ns at' =>
      obtain ⟨d, hd, hp⟩ := hrec ns at' rfl
      simp only [getLoop, hv, hd]
      exact step d hp.1 hp.2

theorem atom_reads {A : Type} (a : A) (k : Key) (w : Val A) : ¬ Reads (Val.atom a : Val A) k w := by
  intro h; cases h

/-- **C32**, `get_params`: on a well-formed estimator it returns (within the recursion limit) a dictionary with exactly the
parameters that can be named, at every depth, with their values. -/
theorem C32_get {A : Type} (v : Val A) (hw : WellFormed v) (he : ∀ a, v ≠ .atom a) :
    ∃ f0, ∀ f ≥ f0, ∃ d, getParams f v = .ok d ∧ (d.map (·.1)).Nodup ∧ ∀ k w, d.lookup k = some w ↔ Reads v k w := by
  induction hw with
  | atom a => exact absurd rfl (he a)
  | est ns attrs vals hnd hg hat hwf ih =>
    have hF : ∀ l : List Key, (∀ n ∈ l, n ∈ ns) → ∃ F, ∀ n ∈ l, ∀ f ≥ F, ∀ ns' at', vals n = .est ns' at' →
        ∃ d, getParams f (vals n) = .ok d ∧ IsParams (vals n) d := by
      intro l
      induction l with
      | nil => intro _; exact ⟨0, by simp⟩
      | cons m r ihl =>
        intro hl
        obtain ⟨F, hF⟩ := ihl fun n hn => hl n (List.mem_cons_of_mem _ hn)
        cases hm : vals m with
        | atom a =>
          refine ⟨F, ?_⟩
          intro n hn f hf ns' at' e
          rcases List.mem_cons.1 hn with rfl | hn
          · rw [hm] at e; cases e
          · exact hF n hn f hf ns' at' e
        | est a b =>
          obtain ⟨f0, h0⟩ := ih m (hl m (by simp)) (by intro x; rw [hm]; simp)
          refine ⟨max F f0, ?_⟩
          intro n hn f hf ns' at' e
          rcases List.mem_cons.1 hn with rfl | hn
          · exact h0 f (by omega)
          · exact hF n hn f (by omega) ns' at' e
    obtain ⟨F, hF⟩ := hF ns (fun _ h => h)
    refine ⟨F + 1, ?_⟩
    intro f hf
    obtain ⟨f', rfl⟩ : ∃ f', f = f' + 1 := ⟨f - 1, by omega⟩
    simp only [getParams]
    obtain ⟨d, h1, h2⟩ := getLoop_spec (getParams f') ns attrs hg
      (fun n hn => ⟨vals n, hat n hn, fun ns' at' e => hF n hn f' (by omega) ns' at' e⟩) atom_reads ns [] [] rfl hnd (by simp) (by simp)
    exact ⟨d, h1, h2⟩

/-! ### set_params -/

theorem nest_lookup_put {A : Type} (nested : List (Key × List (Key × Val A))) (h s : Key) (v : Val A) (h' s' : Key) :
    (((put nested h (put ((nested.lookup h).getD []) s v)).lookup h').getD []).lookup s' =
      if h' = h ∧ s' = s then some v else ((nested.lookup h').getD []).lookup s' := by
  rw [put_lookup]
  by_cases e : h' = h
  · subst e
    simp only [if_true, Option.getD_some, put_lookup, true_and]
  · simp [e]

/-- The state of the first loop: what the attributes and the nested parameters are after a list of (key, value) pairs. -/
theorem assignLoop_spec {A : Type} (valid : List Key) : ∀ (ps attrs : List (Key × Val A)) (nested : List (Key × List (Key × Val A)))
    (attrs' : List (Key × Val A)) (nested' : List (Key × List (Key × Val A))),
    assignLoop valid ps attrs nested = (attrs', nested', none) → (ps.map (·.1)).Nodup →
    (∀ h, (∀ v, (h, v) ∈ ps → partition h = (h, none) → attrs'.lookup h = some v) ∧
      ((∀ v, (h, v) ∈ ps → partition h ≠ (h, none)) → attrs'.lookup h = attrs.lookup h)) ∧
    (∀ h s, (∀ k v, (k, v) ∈ ps → partition k = (h, some s) → ((nested'.lookup h).getD []).lookup s = some v) ∧
      ((∀ k v, (k, v) ∈ ps → partition k ≠ (h, some s)) → ((nested'.lookup h).getD []).lookup s = ((nested.lookup h).getD []).lookup s)) ∧
    (∀ k v, (k, v) ∈ ps → (partition k).1 ∈ valid) := by
  intro ps
  induction ps with
  | nil =>
    intro attrs nested attrs' nested' h _
    simp only [assignLoop, Prod.mk.injEq, and_true] at h
    obtain ⟨rfl, rfl⟩ := h
    simp
  | cons p r ih =>
    intro attrs nested attrs' nested' h hd
    obtain ⟨k, v⟩ := p
    simp only [List.map_cons, List.nodup_cons] at hd
    have hkr : ∀ w, (k, w) ∉ r := fun w m => hd.1 (List.mem_map.2 ⟨_, m, rfl⟩)
    simp only [assignLoop] at h
    cases hp : partition k with
    | mk a b =>
      rw [hp] at h
      cases b with
      | none =>
        have hk := partition_none _ _ hp
        subst hk
        simp only at h
        by_cases hv : k ∈ valid
        · rw [if_pos hv] at h
          obtain ⟨i1, i2, i3⟩ := ih _ _ _ _ h hd.2
          refine ⟨?_, ?_, ?_⟩
          · intro g
            obtain ⟨j1, j2⟩ := i1 g
            constructor
            · intro w hm hpn
              rcases List.mem_cons.1 hm with e | hm
              · cases e
                rw [j2 (fun w hm => absurd hm (hkr w)), put_lookup, if_pos rfl]
              · exact j1 w hm hpn
            · intro hno
              rw [j2 (fun w hm => hno w (List.mem_cons_of_mem _ hm)), put_lookup, if_neg]
              rintro rfl
              exact hno v (by simp) hp
          · intro g s
            obtain ⟨j1, j2⟩ := i2 g s
            constructor
            · intro k' w hm hpn
              rcases List.mem_cons.1 hm with e | hm
              · cases e; rw [hp] at hpn; simp at hpn
              · exact j1 k' w hm hpn
            · intro hno; exact j2 fun k' w hm => hno k' w (List.mem_cons_of_mem _ hm)
          · intro k' w hm
            rcases List.mem_cons.1 hm with e | hm
            · cases e; rw [hp]; exact hv
            · exact i3 k' w hm
        · rw [if_neg hv] at h; simp at h
      | some s0 =>
        simp only at h
        by_cases hv : a ∈ valid
        · rw [if_pos hv] at h
          obtain ⟨i1, i2, i3⟩ := ih _ _ _ _ h hd.2
          have hk := partition_some _ _ _ hp
          refine ⟨?_, ?_, ?_⟩
          · intro g
            obtain ⟨j1, j2⟩ := i1 g
            constructor
            · intro w hm hpn
              rcases List.mem_cons.1 hm with e | hm
              · cases e; rw [hp] at hpn; simp at hpn
              · exact j1 w hm hpn
            · intro hno; exact j2 fun w hm => hno w (List.mem_cons_of_mem _ hm)
          · intro g s
            obtain ⟨j1, j2⟩ := i2 g s
            constructor
            · intro k' w hm hpn
              rcases List.mem_cons.1 hm with e | hm
              · cases e
                rw [hp] at hpn
                simp only [Prod.mk.injEq, Option.some.injEq] at hpn
                obtain ⟨rfl, rfl⟩ := hpn
                rw [j2, nest_lookup_put, if_pos ⟨rfl, rfl⟩]
                intro k'' w' hm' hp'
                have := partition_some _ _ _ hp'
                rw [← hk] at this; subst this
                exact hkr w' hm'
              · exact j1 k' w hm hpn
            · intro hno
              rw [j2 fun k' w hm => hno k' w (List.mem_cons_of_mem _ hm), nest_lookup_put, if_neg]
              rintro ⟨rfl, rfl⟩
              exact hno k v (by simp) hp
          · intro k' w hm
            rcases List.mem_cons.1 hm with e | hm
            · cases e; rw [hp]; exact hv
            · exact i3 k' w hm
        · rw [if_neg hv] at h; simp at h

theorem put_mem {α : Type} (d : List (Key × α)) (k : Key) (v : α) : ∀ q ∈ put d k v, q = (k, v) ∨ q ∈ d := by
  induction d with
  | nil => intro q hq; simp [put] at hq; exact Or.inl hq
  | cons p r ih =>
    intro q hq
    obtain ⟨a, b⟩ := p
    simp only [put] at hq
    split at hq
    · rcases List.mem_cons.1 hq with h | h
      · exact Or.inl h
      · exact Or.inr (List.mem_cons_of_mem _ h)
    · rcases List.mem_cons.1 hq with h | h
      · exact Or.inr (by rw [h]; simp)
      · rcases ih q h with h | h
        · exact Or.inl h
        · exact Or.inr (List.mem_cons_of_mem _ h)

/-- Invariants of the nested dictionary. -/
structure NestOk {A : Type} (ps : List (Key × Val A)) (nested : List (Key × List (Key × Val A))) : Prop where
  heads : (nested.map (·.1)).Nodup
  subs : ∀ q ∈ nested, (q.2.map (·.1)).Nodup ∧ q.2 ≠ []
  mem : ∀ q ∈ nested, ∀ p ∈ q.2, (joinKey q.1 p.1, p.2) ∈ ps

theorem lookup_mem_key {α : Type} : ∀ (l : List (Key × α)) (k : Key) (v : α), l.lookup k = some v → (k, v) ∈ l := by
  intro l
  induction l with
  | nil => intro k v h; simp at h
  | cons p r ih =>
    intro k v h
    obtain ⟨a, b⟩ := p
    rw [List.lookup_cons] at h
    by_cases hk : k = a
    · subst hk; simp at h; simp [h]
    · have : (k == a) = false := by simpa using hk
      simp [this] at h
      exact List.mem_cons_of_mem _ (ih k v h)

theorem mem_lookup_key {α : Type} : ∀ (l : List (Key × α)), (l.map (·.1)).Nodup → ∀ (k : Key) (v : α), (k, v) ∈ l → l.lookup k = some v := by
  intro l
  induction l with
  | nil => intro _ k v h; simp at h
  | cons p r ih =>
    intro hd k v h
    obtain ⟨a, b⟩ := p
    simp only [List.map_cons, List.nodup_cons] at hd
    rw [List.lookup_cons]
    rcases List.mem_cons.1 h with e | h1
    · cases e; simp
    · have : k ≠ a := by rintro rfl; exact hd.1 (List.mem_map.2 ⟨(k, v), h1, rfl⟩)
      have : (k == a) = false := by simpa using this
      simp [this, ih hd.2 k v h1]

theorem assignLoop_nest {A : Type} (valid : List Key) (all : List (Key × Val A)) : ∀ (ps attrs : List (Key × Val A)) (nested : List (Key × List (Key × Val A)))
    (attrs' : List (Key × Val A)) (nested' : List (Key × List (Key × Val A))),
    assignLoop valid ps attrs nested = (attrs', nested', none) → (∀ p ∈ ps, p ∈ all) → NestOk all nested → NestOk all nested' := by
  intro ps
  induction ps with
  | nil =>
    intro attrs nested attrs' nested' h _ hn
    simp only [assignLoop, Prod.mk.injEq, and_true] at h
    rw [← h.2]; exact hn
  | cons p r ih =>
    intro attrs nested attrs' nested' h hall hn
    obtain ⟨k, v⟩ := p
    simp only [assignLoop] at h
    have hr : ∀ p ∈ r, p ∈ all := fun p hp => hall p (List.mem_cons_of_mem _ hp)
    cases hp : partition k with
    | mk a b =>
      rw [hp] at h
      cases b with
      | none =>
        simp only at h
        by_cases hv : a ∈ valid
        · rw [if_pos hv] at h; exact ih _ _ _ _ h hr hn
        · rw [if_neg hv] at h; simp at h
      | some s =>
        simp only at h
        by_cases hv : a ∈ valid
        · rw [if_pos hv] at h
          have hk := partition_some _ _ _ hp
          refine ih _ _ _ _ h hr ⟨put_keys_nodup _ _ _ hn.heads, ?_, ?_⟩
          · intro q hq
            rcases put_mem _ _ _ q hq with rfl | hq
            · constructor
              · refine put_keys_nodup _ _ _ ?_
                cases e : nested.lookup a with
                | none => simp
                | some l => simpa using (hn.subs _ (lookup_mem_key _ _ _ e)).1
              · cases e : (nested.lookup a).getD [] with
                | nil => simp [put]
                | cons p t => obtain ⟨x, y⟩ := p; simp only [put]; split <;> simp
            · exact hn.subs q hq
          · intro q hq p hp'
            rcases put_mem _ _ _ q hq with rfl | hq
            · rcases put_mem _ _ _ p hp' with rfl | hp'
              · simp only; rw [← hk]; exact hall _ (by simp)
              · cases e : nested.lookup a with
                | none => rw [e] at hp'; simp at hp'
                | some l => rw [e] at hp'; exact hn.mem (a, l) (lookup_mem_key _ _ _ e) p (by simpa using hp')
            · exact hn.mem q hq p hp'
        · rw [if_neg hv] at h; simp at h

/-- The second loop: each head is processed once. -/
theorem nestLoop_spec {A : Type} (rec : Val A → List (Key × Val A) → Val A × Option PErr) :
    ∀ (nested : List (Key × List (Key × Val A))) (attrs attrs' : List (Key × Val A)), (nested.map (·.1)).Nodup →
    nestLoop rec nested attrs = (attrs', none) →
    (∀ h sub, (h, sub) ∈ nested → ∃ w w', attrs.lookup h = some w ∧ rec w sub = (w', none) ∧ attrs'.lookup h = some w') ∧
    (∀ h, h ∉ nested.map (·.1) → attrs'.lookup h = attrs.lookup h) := by
  intro nested
  induction nested with
  | nil =>
    intro attrs attrs' _ h
    simp only [nestLoop, Prod.mk.injEq, and_true] at h
    subst h; simp
  | cons p r ih =>
    intro attrs attrs' hd h
    obtain ⟨h0, sub0⟩ := p
    simp only [List.map_cons, List.nodup_cons] at hd
    simp only [nestLoop] at h
    cases hl : attrs.lookup h0 with
    | none => rw [hl] at h; simp at h
    | some w =>
      rw [hl] at h
      simp only at h
      cases hr : rec w sub0 with
      | mk w' e =>
        rw [hr] at h
        cases e with
        | some e => simp at h
        | none =>
          simp only at h
          obtain ⟨i1, i2⟩ := ih _ _ hd.2 h
          constructor
          · intro g sub hm
            rcases List.mem_cons.1 hm with e | hm1
            · cases e
              exact ⟨w, w', hl, hr, by rw [i2 _ hd.1, put_lookup, if_pos rfl]⟩
            · obtain ⟨x, x', a1, a2, a3⟩ := i1 g sub hm1
              refine ⟨x, x', ?_, a2, a3⟩
              rw [put_lookup, if_neg] at a1
              · exact a1
              · rintro rfl; exact hd.1 (List.mem_map.2 ⟨(g, sub), hm1, rfl⟩)
          · intro g hg
            simp only [List.map_cons, List.mem_cons, not_or] at hg
            rw [i2 g hg.2, put_lookup, if_neg hg.1]

/-- **C32**, `set_params`: if it returns normally, then afterwards every parameter that was given reads the value given (unless a
deeper parameter inside that same value was given as well), every parameter not related to a given key reads what it read before,
and the estimator is still well-formed.  `Extends k p`: `k` lies inside the value of `p`. -/
theorem C32_set {A : Type} (f : Nat) : ∀ (v v' : Val A) (ps : List (Key × Val A)), WellFormed v → (∀ p ∈ ps, WellFormed p.2) →
    (ps.map (·.1)).Nodup → setParams f v ps = (v', none) →
    WellFormed v' ∧
    (∀ k w, (k, w) ∈ ps → (∀ p ∈ ps, ¬ Extends p.1 k) → Reads v' k w) ∧
    (∀ k, (∀ p ∈ ps, p.1 ≠ k ∧ ¬ Extends p.1 k ∧ ¬ Extends k p.1) → ∀ w, Reads v' k w ↔ Reads v k w) := by
  induction f with
  | zero => intro v v' ps _ _ _ h; simp [setParams] at h
  | succ f ih =>
    intro v v' ps hw hvals hd h
    cases hw with
    | atom a => simp [setParams] at h
    | est ns attrs vals hnd hg hat hwf =>
      simp only [setParams] at h
      by_cases he : ps.isEmpty = true
      · rw [if_pos he] at h
        simp only [Prod.mk.injEq, and_true] at h
        subst h
        have : ps = [] := by simpa using he
        subst this
        exact ⟨.est ns attrs vals hnd hg hat hwf, by simp, by simp⟩
      · rw [if_neg he] at h
        cases hgp : getParams (f + 1) (.est (some ns) attrs) with
        | error e => rw [hgp] at h; simp at h
        | ok valid =>
          rw [hgp] at h
          simp only at h
          cases has : assignLoop (valid.map (·.1)) ps attrs [] with
          | mk attrs1 q =>
            obtain ⟨nested, e⟩ := q
            rw [has] at h
            cases e with
            | some e => simp at h
            | none =>
              simp only at h
              cases hnl : nestLoop (setParams f) nested attrs1 with
              | mk attrs2 e =>
                rw [hnl] at h
                simp only [Prod.mk.injEq] at h
                obtain ⟨rfl, rfl⟩ := h
                obtain ⟨a1, a2, a3⟩ := assignLoop_spec _ _ _ _ _ _ has hd
                have nok : NestOk ps nested := assignLoop_nest _ ps _ _ _ _ _ has (fun _ h => h) ⟨by simp, by simp, by simp⟩
                obtain ⟨b1, b2⟩ := nestLoop_spec _ _ _ _ nok.heads hnl
                -- the valid heads are the parameter names
                have hvalid : ∀ h, partition h = (h, none) → h ∈ valid.map (·.1) → h ∈ ns := by
                  intro h hp hm
                  obtain ⟨f0, hf0⟩ := C32_get (.est (some ns) attrs) (.est ns attrs vals hnd hg hat hwf) (by simp)
                  -- keys of the result come from the loop over the names
                  have key : ∀ (todo : List Key) (out d : List (Key × Val A)), (∀ n ∈ todo, n ∈ ns) → getLoop (getParams f) attrs todo out = .ok d →
                      ∀ k ∈ d.map (·.1), k ∈ out.map (·.1) ∨ k ∈ ns ∨ ∃ n ∈ ns, ∃ s, k = joinKey n s := by
                    have pm : ∀ (d : List (Key × Val A)) (k : Key) (v : Val A) (x : Key), x ∈ (put d k v).map (·.1) → x = k ∨ x ∈ d.map (·.1) := by
                      intro d k v x hx
                      obtain ⟨q, hq, rfl⟩ := List.mem_map.1 hx
                      rcases put_mem _ _ _ q hq with rfl | hq
                      · exact Or.inl rfl
                      · exact Or.inr (List.mem_map.2 ⟨q, hq, rfl⟩)
                    intro todo
                    induction todo with
                    | nil => intro out d _ hl k hk; simp only [getLoop, Except.ok.injEq] at hl; subst hl; exact Or.inl hk
                    | cons n r ihr =>
                      intro out d hns hl k hk
                      have hnr : ∀ m ∈ r, m ∈ ns := fun m hm => hns m (List.mem_cons_of_mem _ hm)
                      have hnn := hns n (by simp)
                      simp only [getLoop] at hl
                      split at hl
                      · simp at hl
                      · rcases ihr _ _ hnr hl k hk with h | h
                        · rcases pm _ _ _ _ h with rfl | h
                          · exact Or.inr (Or.inl hnn)
                          · exact Or.inl h
                        · exact Or.inr h
                      · split at hl
                        · simp at hl
                        · rename_i items _
                          rcases ihr _ _ hnr hl k hk with h | h
                          · rcases pm _ _ _ _ h with rfl | h
                            · exact Or.inr (Or.inl hnn)
                            · have : ∀ (items out : List (Key × Val A)), k ∈ (items.foldl (fun d p => put d (joinKey n p.1) p.2) out).map (·.1) →
                                  k ∈ out.map (·.1) ∨ ∃ s, k = joinKey n s := by
                                intro items
                                induction items with
                                | nil => intro out h; exact Or.inl h
                                | cons p t iht =>
                                  intro out h
                                  rcases iht _ h with h | h
                                  · rcases pm _ _ _ _ h with rfl | h
                                    · exact Or.inr ⟨_, rfl⟩
                                    · exact Or.inl h
                                  · exact Or.inr h
                              rcases this _ _ h with h | ⟨s, h⟩
                              · exact Or.inl h
                              · exact Or.inr (Or.inr ⟨n, hnn, s, h⟩)
                          · exact Or.inr h
                  simp only [getParams] at hgp
                  rcases key ns [] valid (fun _ h => h) hgp h hm with x | x | ⟨n, hn, s, rfl⟩
                  · simp at x
                  · exact x
                  · rw [(partition_good n (hg n hn) s).2] at hp
                    simp at hp
                -- a head of a given key is a name
                have head_ns : ∀ k w, (k, w) ∈ ps → (partition k).1 ∈ ns := fun k w hm =>
                  hvalid _ (part_idem k _ (partition k).2 rfl) (a3 k w hm)
                -- attributes after the first loop
                have hat1 : ∀ n ∈ ns, ∃ w, attrs1.lookup n = some w ∧ WellFormed w := by
                  intro n hn
                  by_cases hx : ∃ w, (n, w) ∈ ps
                  · obtain ⟨w, hx⟩ := hx
                    exact ⟨w, (a1 n).1 w hx (partition_good n (hg n hn) []).1, hvals _ hx⟩
                  · refine ⟨vals n, ?_, hwf n hn⟩
                    rw [(a1 n).2 (fun w hm => absurd ⟨w, hm⟩ hx), hat n hn]
                -- the nested call of a head
                have hcall : ∀ n sub w w', (n, sub) ∈ nested → n ∈ ns → attrs1.lookup n = some w → setParams f w sub = (w', none) →
                    WellFormed w' ∧ (∀ k u, (k, u) ∈ sub → (∀ p ∈ sub, ¬ Extends p.1 k) → Reads w' k u) ∧
                    (∀ k, (∀ p ∈ sub, p.1 ≠ k ∧ ¬ Extends p.1 k ∧ ¬ Extends k p.1) → ∀ u, Reads w' k u ↔ Reads w k u) := by
                  intro n sub w w' hm hn hl hs
                  obtain ⟨w0, e0, hw0⟩ := hat1 n hn
                  rw [hl] at e0; cases e0
                  exact ih w w' sub hw0 (fun p hp => hvals (joinKey n p.1, p.2) (nok.mem _ hm p hp)) (nok.subs _ hm).1 hs
                have head_of : ∀ q ∈ nested, q.1 ∈ ns := by
                  intro q hq
                  obtain ⟨p, hp⟩ := List.exists_mem_of_ne_nil _ (nok.subs q hq).2
                  have hm := nok.mem q hq p hp
                  have hh := head_ns _ _ hm
                  -- the head of the joined key is q.1
                  by_cases hgq : GoodName q.1
                  · rwa [(partition_good _ hgq _).2] at hh
                  · exfalso
                    -- q.1 was produced by partition, hence is good
                    have hl := mem_lookup_key _ nok.heads q.1 q.2 hq
                    have hl2 := mem_lookup_key _ (nok.subs q hq).1 p.1 p.2 hp
                    by_cases hex : ∃ k w, (k, w) ∈ ps ∧ partition k = (q.1, some p.1)
                    · obtain ⟨k, w, hm2, hpk⟩ := hex
                      have := head_ns k w hm2
                      rw [hpk] at this
                      exact hgq (hg _ this)
                    · have := (a2 q.1 p.1).2 (fun k w hm2 hpk => hex ⟨k, w, hm2, hpk⟩)
                      rw [hl] at this
                      simp only [Option.getD_some] at this
                      rw [hl2] at this
                      simp at this
                have hat2 : ∀ n ∈ ns, ∃ w, attrs2.lookup n = some w ∧ WellFormed w := by
                  intro n hn
                  by_cases hx : n ∈ nested.map (·.1)
                  · obtain ⟨q, hq, rfl⟩ := List.mem_map.1 hx
                    obtain ⟨w, w', e1, e2, e3⟩ := b1 q.1 q.2 hq
                    exact ⟨w', e3, (hcall _ _ _ _ hq hn e1 e2).1⟩
                  · obtain ⟨w, e, hw⟩ := hat1 n hn
                    exact ⟨w, by rw [b2 n hx]; exact e, hw⟩
                have nest_iff : ∀ n s u, n ∈ ns → ((joinKey n s, u) ∈ ps ↔ ∃ sub, (n, sub) ∈ nested ∧ (s, u) ∈ sub) := by
                  intro n s u hn
                  constructor
                  · intro hm
                    have := (a2 n s).1 _ u hm (partition_good n (hg n hn) s).2
                    cases e : nested.lookup n with
                    | none => rw [e] at this; simp at this
                    | some l =>
                      rw [e] at this
                      exact ⟨l, lookup_mem_key _ _ _ e, lookup_mem_key _ _ _ (by simpa using this)⟩
                  · rintro ⟨sub, h1, h2⟩
                    exact nok.mem _ h1 _ h2
                refine ⟨?_, ?_, ?_⟩
                · refine .est ns attrs2 (fun n => (attrs2.lookup n).getD (.est none [])) hnd hg ?_ ?_
                  · intro n hn; obtain ⟨w, e, _⟩ := hat2 n hn; simp [e]
                  · intro n hn; obtain ⟨w, e, hw⟩ := hat2 n hn; simpa [e] using hw
                · intro k w hm hext
                  cases hp : partition k with
                  | mk a b =>
                    have hans := head_ns k w hm
                    rw [hp] at hans
                    cases b with
                    | none =>
                      have := partition_none _ _ hp; subst this
                      refine .own hans ?_
                      rw [b2 k, (a1 k).1 w hm hp]
                      intro hx
                      obtain ⟨q, hq, rfl⟩ := List.mem_map.1 hx
                      obtain ⟨p, hp2⟩ := List.exists_mem_of_ne_nil _ (nok.subs q hq).2
                      exact hext _ (nok.mem q hq p hp2) ⟨p.1, rfl⟩
                    | some s =>
                      have := partition_some _ _ _ hp; subst this
                      obtain ⟨sub, h1, h2⟩ := (nest_iff a s w hans).1 hm
                      obtain ⟨x, x', e1, e2, e3⟩ := b1 a sub h1
                      refine .sub hans e3 ((hcall _ _ _ _ h1 hans e1 e2).2.1 s w h2 ?_)
                      rintro p hp3 ⟨s', e⟩
                      exact hext _ (nok.mem _ h1 p hp3) ⟨s', by simp only; rw [e, joinKey_assoc]⟩
                · intro k hun w
                  -- own or nested
                  have own_case : k ∈ ns → (Reads (.est (some ns) attrs2) k w ↔ Reads (.est (some ns) attrs) k w) := by
                    intro hk
                    rw [reads_own _ _ hg _ hk, reads_own _ _ hg _ hk, b2 k, (a1 k).2]
                    · intro u hm; exact absurd rfl (hun _ hm).1
                    · intro hx
                      obtain ⟨q, hq, rfl⟩ := List.mem_map.1 hx
                      obtain ⟨p, hp2⟩ := List.exists_mem_of_ne_nil _ (nok.subs q hq).2
                      exact (hun _ (nok.mem q hq p hp2)).2.1 ⟨p.1, rfl⟩
                  have sub_case : ∀ n s, n ∈ ns → k = joinKey n s → (Reads (.est (some ns) attrs2) k w ↔ Reads (.est (some ns) attrs) k w) := by
                    intro n s hn hk
                    subst hk
                    rw [reads_join _ _ hg _ _ (hg n hn), reads_join _ _ hg _ _ (hg n hn)]
                    have hno : ∀ u, (n, u) ∉ ps := fun u hm => (hun _ hm).2.2 ⟨s, rfl⟩
                    have e1 : attrs1.lookup n = attrs.lookup n := (a1 n).2 fun u hm => absurd hm (hno u)
                    by_cases hx : n ∈ nested.map (·.1)
                    · obtain ⟨q, hq, rfl⟩ := List.mem_map.1 hx
                      obtain ⟨x, x', d1, d2, d3⟩ := b1 q.1 q.2 hq
                      have hc := (hcall _ _ _ _ hq hn d1 d2).2.2 s (by
                        intro p hp2
                        obtain ⟨u1, u2, u3⟩ := hun _ (nok.mem q hq p hp2)
                        refine ⟨fun e => u1 (by rw [e]), ?_, ?_⟩
                        · rintro ⟨s', e⟩; exact u2 ⟨s', by simp only; rw [e, joinKey_assoc]⟩
                        · rintro ⟨s', e⟩; exact u3 ⟨s', by simp only; rw [e, joinKey_assoc]⟩) w
                      rw [d3, ← e1, d1]
                      simp only [Option.some.injEq, exists_eq_left', hn, true_and, hc]
                    · rw [b2 n hx, e1]
                  constructor
                  · intro r
                    rcases reads_head _ _ _ _ r with hk | ⟨n, s, hn, hk⟩
                    · exact (own_case hk).1 r
                    · exact (sub_case n s hn hk).1 r
                  · intro r
                    rcases reads_head _ _ _ _ r with hk | ⟨n, s, hn, hk⟩
                    · exact (own_case hk).2 r
                    · exact (sub_case n s hn hk).2 r

/-- **C32**, reading back in terms of the two API calls: after a successful `set_params`, `get_params` succeeds (within the recursion
limit), contains every given key with the given value (unless a deeper key inside that value was given too), and agrees with
the `get_params` from before on every key unrelated to the given ones. -/
theorem C32_roundtrip_partial {A : Type} (f : Nat) (v v' : Val A) (ps : List (Key × Val A)) (hw : WellFormed v) (he : ∀ a, v ≠ .atom a)
    (hvals : ∀ p ∈ ps, WellFormed p.2) (hd : (ps.map (·.1)).Nodup) (h : setParams f v ps = (v', none)) :
    ∃ f0, ∀ g ≥ f0, ∃ d d', getParams g v = .ok d ∧ getParams g v' = .ok d' ∧
      (∀ k w, (k, w) ∈ ps → (∀ p ∈ ps, ¬ Extends p.1 k) → d'.lookup k = some w) ∧
      (∀ k, (∀ p ∈ ps, p.1 ≠ k ∧ ¬ Extends p.1 k ∧ ¬ Extends k p.1) → d'.lookup k = d.lookup k) := by
  obtain ⟨hw', hA, hB⟩ := C32_set f v v' ps hw hvals hd h
  have he' : ∀ a, v' ≠ .atom a := by
    intro a e
    subst e
    cases v with
    | atom b => exact he b rfl
    | est ns attrs =>
      cases f with
      | zero => simp [setParams] at h
      | succ f =>
        simp only [setParams] at h
        split at h
        · simp at h
        · split at h
          · simp at h
          · split at h
            · simp at h
            · simp at h
  obtain ⟨f1, h1⟩ := C32_get v hw he
  obtain ⟨f2, h2⟩ := C32_get v' hw' he'
  refine ⟨max f1 f2, ?_⟩
  intro g hg
  obtain ⟨d, e1, _, r1⟩ := h1 g (by omega)
  obtain ⟨d', e2, _, r2⟩ := h2 g (by omega)
  refine ⟨d, d', e1, e2, ?_, ?_⟩
  · intro k w hm hx; exact (r2 k w).2 (hA k w hm hx)
  · intro k hk
    apply Option.ext
    intro w
    rw [r2, r1]
    exact hB k hk w

/-- **C32**, unknown names: a call that names something the estimator does not have never returns normally — every key of a
successful call can be read afterwards. -/
theorem C32_unknown {A : Type} (f : Nat) (v v' : Val A) (ps : List (Key × Val A)) (hw : WellFormed v)
    (hvals : ∀ p ∈ ps, WellFormed p.2) (hd : (ps.map (·.1)).Nodup) (h : setParams f v ps = (v', none))
    (k : Key) (w : Val A) (hk : (k, w) ∈ ps) (hext : ∀ p ∈ ps, ¬ Extends p.1 k) : ∃ u, Reads v' k u :=
  ⟨w, (C32_set f v v' ps hw hvals hd h).2.1 k w hk hext⟩

/-- A name that is not a parameter raises ValueError. -/
theorem C32_unknown_raises {A : Type} (v : Val A) (hw : WellFormed v) (he : ∀ a, v ≠ .atom a) (ps : List (Key × Val A))
    (k : Key) (w : Val A) (hk : (k, w) ∈ ps) (hun : ∀ u, ¬ Reads v (partition k).1 u) :
    ∃ f0, ∀ f ≥ f0, (setParams f v ps).2 = some .value := by
  obtain ⟨f0, h0⟩ := C32_get v hw he
  refine ⟨f0 + 1, ?_⟩
  intro f hf
  obtain ⟨f', rfl⟩ : ∃ f', f = f' + 1 := ⟨f - 1, by omega⟩
  cases v with
  | atom a => exact absurd rfl (he a)
  | est ns attrs =>
    obtain ⟨d, e, hd, hr⟩ := h0 (f' + 1) (by omega)
    have hne : ¬ ps.isEmpty = true := by
      intro h; have : ps = [] := by simpa using h
      subst this; cases hk
    simp only [setParams, if_neg hne, e]
    have hnot : (partition k).1 ∉ d.map (·.1) := by
      intro hm
      obtain ⟨q, hq, e2⟩ := List.mem_map.1 hm
      exact hun q.2 ((hr _ _).1 (by rw [← e2]; exact mem_lookup_key d hd q.1 q.2 hq))
    have : ∀ (ps attrs : List (Key × Val A)) (nested : List (Key × List (Key × Val A))), (k, w) ∈ ps →
        (assignLoop (d.map (·.1)) ps attrs nested).2.2 = some .value := by
      intro ps
      induction ps with
      | nil => intro _ _ h; cases h
      | cons p r ih =>
        intro attrs nested hm
        obtain ⟨k', v'⟩ := p
        simp only [assignLoop]
        rcases List.mem_cons.1 hm with e | hm1
        · cases e
          cases hp : partition k with
          | mk a b =>
            rw [hp] at hnot
            cases b <;> simp only [if_neg hnot]
        · cases hp : partition k' with
          | mk a b =>
            cases b with
            | none => simp only; split; exact ih _ _ hm1; rfl
            | some s => simp only; split; exact ih _ _ hm1; rfl
    have h3 := this ps attrs [] hk
    cases hA : assignLoop (d.map (·.1)) ps attrs [] with
    | mk a1 q =>
      obtain ⟨nst, er⟩ := q
      rw [hA] at h3
      simp only at h3
      subst h3
      rfl

/-- **C32**: a call that raises is not undone — parameters before the unknown one keep their new values. -/
theorem C32_not_atomic_counterexample :
    let a : Key := ['a']
    let v : Val Nat := .est (some [a]) [(a, .atom 1)]
    setParams 5 v [(a, .atom 2), (['z'], .atom 3)] = (.est (some [a]) [(a, .atom 2)], some .value) := by
  rfl

/-- A name that ends in an underscore hides the parameters inside its value: `get_params` lists `a___b`, `set_params` looks for a
parameter `a`. -/
theorem C32_underscore_counterexample :
    let v : Val Nat := .est (some ["a_".toList]) [("a_".toList, .est (some ["b".toList]) [("b".toList, .atom 1)])]
    (∃ d, getParams 5 v = .ok d ∧ d.lookup "a___b".toList = some (.atom 1)) ∧
    (setParams 5 v [("a___b".toList, .atom 2)]).2 = some .value := by
  refine ⟨⟨_, rfl, ?_⟩, rfl⟩
  rfl

/-- An estimator whose constructor has a parameter that is not stored under its name: `get_params`, and with it every
`set_params` call with at least one parameter, raises. -/
theorem C32_missing_attribute {A : Type} (ns : List Key) (attrs : List (Key × Val A)) (hatom : ∀ n w, attrs.lookup n = some w → ∃ a, w = .atom a)
    (n : Key) (hn : n ∈ ns) (hm : attrs.lookup n = none) (f : Nat) :
    getParams (f + 1) (.est (some ns) attrs) = .error .attribute ∧
    ∀ ps, ps ≠ [] → setParams (f + 1) (.est (some ns) attrs) ps = (.est (some ns) attrs, some .attribute) := by
  have key : ∀ (todo : List Key) (out : List (Key × Val A)), n ∈ todo → getLoop (getParams f) attrs todo out = .error .attribute := by
    intro todo
    induction todo with
    | nil => intro _ h; cases h
    | cons m r ih =>
      intro out h
      by_cases e : m = n
      · subst e; simp only [getLoop, hm]
      · have hr : n ∈ r := by
          rcases List.mem_cons.1 h with h | h
          · exact absurd h.symm e
          · exact h
        cases hl : attrs.lookup m with
        | none => simp only [getLoop, hl]
        | some w =>
          obtain ⟨a, rfl⟩ := hatom m w hl
          simp only [getLoop, hl]
          exact ih _ hr
  have hg : getParams (f + 1) (.est (some ns) attrs) = .error .attribute := by simp only [getParams]; exact key ns [] hn
  refine ⟨hg, ?_⟩
  intro ps hps
  have : ¬ ps.isEmpty = true := by simpa using hps
  simp only [setParams, if_neg this, hg]

/-- **C32** fails for the shipped `KD_Discover` (kd/model/kd_discover.py:73-106) and `KD_DLGA` (kd/model/kd_dlga.py:18-24): whatever the
values, `binary_operators` and `operators` are not stored, so `get_params` and `set_params` raise AttributeError. -/
theorem C32_shipped_counterexample {A : Type} (f : Nat) (v : Key → A) (ps : List (Key × Val A)) (hps : ps ≠ []) :
    let store (l : List String) : List (Key × Val A) := l.map fun s => (s.toList, .atom (v s.toList))
    let discover : Val A := .est (some (["binary_operators", "config_out", "core_num", "n_iterations", "n_samples_per_batch", "out_path", "seed", "unary_operators"].map String.toList))
      (store ["n_iterations", "n_samples_per_batch", "operator", "out_path", "dataset", "seed", "core_num", "base_config_file"])
    let dlga : Val A := .est (some (["epi", "input_dim", "operators", "verbose"].map String.toList)) (store ["user_operators", "library_size", "verbose", "epi"])
    getParams (f + 1) discover = .error .attribute ∧ (setParams (f + 1) discover ps).2 = some .attribute ∧
    getParams (f + 1) dlga = .error .attribute ∧ (setParams (f + 1) dlga ps).2 = some .attribute := by
  intro store discover dlga
  have hst : ∀ (l : List String) n w, (store l).lookup n = some w → ∃ a, w = .atom a := by
    intro l n w h
    have := lookup_mem_key _ _ _ h
    obtain ⟨s, _, e⟩ := List.mem_map.1 this
    cases e; exact ⟨_, rfl⟩
  have h1 := C32_missing_attribute (["binary_operators", "config_out", "core_num", "n_iterations", "n_samples_per_batch", "out_path", "seed", "unary_operators"].map String.toList)
    (store ["n_iterations", "n_samples_per_batch", "operator", "out_path", "dataset", "seed", "core_num", "base_config_file"]) (hst _)
    "binary_operators".toList (by simp) (by rfl) f
  have h2 := C32_missing_attribute (["epi", "input_dim", "operators", "verbose"].map String.toList)
    (store ["user_operators", "library_size", "verbose", "epi"]) (hst _) "operators".toList (by simp) (by rfl) f
  exact ⟨h1.1, by rw [h1.2 ps hps], h2.1, by rw [h2.2 ps hps]⟩

instance (n : Key) : Decidable (GoodName n) := by unfold GoodName; infer_instance

/-- The shipped `KD_SGA` (kd/model/kd_sga.py:25-75) and `KD_PySR` (kd/model/kd_pysr.py:39-70) are well-formed, so the theorems above
apply to them. -/
theorem C32_shipped_wellformed {A : Type} (v : Key → A) (rest : List (Key × Val A)) :
    let sga := ["delete_edges", "depth", "lhs_axis", "max_epoch", "num", "p_cro", "p_mute", "p_var", "primary_spatial_axis", "seed", "sga_run", "target_field", "use_autograd", "use_metadata", "width"]
    let pysr := ["binary_operators", "extra_model_kwargs", "niterations", "unary_operators"]
    ∀ names ∈ [sga, pysr], WellFormed (.est (some (names.map String.toList)) (names.map (fun s => (s.toList, Val.atom (v s.toList))) ++ rest)) := by
  intro sga pysr names hn
  have hnd : (names.map String.toList).Nodup ∧ ∀ n ∈ names.map String.toList, GoodName n := by
    simp only [List.mem_cons, List.not_mem_nil, or_false] at hn
    rcases hn with rfl | rfl
    · exact ⟨by decide +kernel, by decide +kernel⟩
    · exact ⟨by decide +kernel, by decide +kernel⟩
  refine .est _ _ (fun n => .atom (v n)) hnd.1 hnd.2 ?_ (fun n _ => .atom _)
  intro n hn
  have : ∀ (l : List String), n ∈ l.map String.toList → (l.map (fun s => (s.toList, Val.atom (v s.toList))) ++ rest).lookup n = some (Val.atom (v n)) := by
    intro l
    induction l with
    | nil => intro h; cases h
    | cons s r ih =>
      intro h
      simp only [List.map_cons, List.cons_append, List.lookup_cons]
      by_cases e : n = s.toList
      · subst e; simp
      · have e2 : (n == s.toList) = false := by simpa using e
        simp only [e2]
        refine ih ?_
        rcases List.mem_cons.1 h with h | h
        · exact absurd h e
        · exact h
  exact this names hn

/-- Non-vacuity: a nested call that sets two parameters of an inner estimator and one of the outer. -/
example : let inner : Val Nat := .est (some [['p'], ['q']]) [(['p'], .atom 1), (['q'], .atom 2)]
    let v : Val Nat := .est (some [['a'], ['b']]) [(['a'], inner), (['b'], .atom 3)]
    (setParams 9 v [("a__q".toList, .atom 7), (['b'], .atom 8)]) =
      (.est (some [['a'], ['b']]) [(['a'], .est (some [['p'], ['q']]) [(['p'], .atom 1), (['q'], .atom 7)]), (['b'], .atom 8)], none) := by
  rfl

end Verif.Claims
