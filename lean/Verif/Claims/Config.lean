import Verif.Api.Config
/-! C85: user configuration overrides exactly what it sets. -/
namespace Verif.Api.Claims
open Verif.Api

/-! ### Specification -/

/-- The entry of a configuration under a path of keys. -/
def at' : J → List String → Option J
  | j, [] => some j
  | .dict es, k :: p => match lookup k es with
    | some v => at' v p
    | none => none
  | .null, _ :: _ => none
  | .atom _, _ :: _ => none

/-- A setting: anything that is not a (sub)section. -/
def Leaf : J → Prop
  | .dict _ => False
  | _ => True

/-- Python dicts never repeat a key. -/
def WF (j : J) : Prop := ∀ p es, at' j p = some (.dict es) → (es.map (·.1)).Nodup

/-- The update replaces a whole setting of the base by a section (which the code cannot do). -/
def Clash (b u : J) : Prop :=
  ∃ p a e es, at' b p = some (.atom a) ∧ at' u p = some (.dict (e :: es))

/-! ### Lemmas -/

theorem lookup_assign (k k' : String) (v : J) (es : List (String × J)) :
    lookup k' (assign k v es) = if k = k' then some v else lookup k' es := by
  induction es with
  | nil => simp [assign, lookup]
  | cons e es ih =>
    obtain ⟨k1, v1⟩ := e
    simp only [assign]
    by_cases h : k1 = k
    · subst h
      by_cases h2 : k1 = k' <;> simp [lookup, h2]
    · simp only [if_neg h, lookup, ih]
      by_cases h2 : k = k'
      · subst h2; simp [h]
      · simp [h2]

theorem lookup_none (k : String) (es : List (String × J)) :
    lookup k es = none ↔ k ∉ es.map (·.1) := by
  induction es with
  | nil => simp [lookup]
  | cons e es ih =>
    obtain ⟨k1, v1⟩ := e
    simp only [lookup, List.map_cons, List.mem_cons, not_or]
    by_cases h : k1 = k
    · simp [h]
    · simp [h, ih, Ne.symm h, eq_comm]

theorem WF.sub {us : List (String × J)} (h : WF (.dict us)) {k : String} {v : J}
    (hl : lookup k us = some v) : WF v := by
  intro p es hp
  apply h (k :: p) es
  simp [at', hl, hp]

theorem WF.nodup {us : List (String × J)} (h : WF (.dict us)) : (us.map (·.1)).Nodup := h [] us rfl

/-- What the loop over the update's entries leaves behind, key by key. -/
theorem mergeEntries_lookup (us : List (String × J)) : ∀ (es : List (String × J)) (m : J),
    (us.map (·.1)).Nodup → mergeEntries true (.dict es) us = .ok m →
    ∃ ms, m = .dict ms ∧ ∀ k,
      (lookup k us = none → lookup k ms = lookup k es) ∧
      (∀ vs, lookup k us = some (.dict vs) →
        ∃ sub, merge true ((lookup k es).getD (.dict [])) (.dict vs) = .ok sub ∧ lookup k ms = some sub) ∧
      (∀ v, lookup k us = some v → Leaf v → lookup k ms = some v) := by
  induction us with
  | nil =>
    intro es m _ h
    simp only [mergeEntries, Except.ok.injEq] at h
    exact ⟨es, h.symm, fun k => ⟨fun _ => rfl, by simp [lookup], by simp [lookup]⟩⟩
  | cons e us ih =>
    intro es m hn h
    obtain ⟨k1, v1⟩ := e
    simp only [List.map_cons, List.nodup_cons] at hn
    have hk1 : lookup k1 us = none := (lookup_none k1 us).2 hn.1
    cases v1 with
    | dict vs =>
      simp only [mergeEntries, if_true, getItem] at h
      cases hm : merge true ((lookup k1 es).getD (.dict [])) (.dict vs) with
      | error e => simp [hm] at h
      | ok sub =>
        simp only [hm, setItem] at h
        obtain ⟨ms, rfl, hms⟩ := ih _ _ hn.2 h
        refine ⟨ms, rfl, fun k => ?_⟩
        obtain ⟨h1, h2, h3⟩ := hms k
        simp only [lookup, lookup_assign] at *
        by_cases hk : k1 = k
        · subst hk
          simp only [if_true] at *
          refine ⟨by simp, fun vs' hv => ?_, fun v hv hl => ?_⟩
          · simp only [Option.some.injEq, J.dict.injEq] at hv
            subst hv
            exact ⟨sub, hm, h1 hk1⟩
          · simp only [Option.some.injEq] at hv; subst hv; exact hl.elim
        · simp only [if_neg hk] at *
          exact ⟨h1, h2, h3⟩
    | null =>
      simp only [mergeEntries, if_true, setItem] at h
      obtain ⟨ms, rfl, hms⟩ := ih _ _ hn.2 h
      refine ⟨ms, rfl, fun k => ?_⟩
      obtain ⟨h1, h2, h3⟩ := hms k
      simp only [lookup, lookup_assign] at *
      by_cases hk : k1 = k
      · subst hk
        simp only [if_true] at *
        refine ⟨by simp, by simp, fun v hv _ => ?_⟩
        rw [← hv]; exact h1 hk1
      · simp only [if_neg hk] at *
        exact ⟨h1, h2, h3⟩
    | atom a =>
      simp only [mergeEntries, if_true, setItem] at h
      obtain ⟨ms, rfl, hms⟩ := ih _ _ hn.2 h
      refine ⟨ms, rfl, fun k => ?_⟩
      obtain ⟨h1, h2, h3⟩ := hms k
      simp only [lookup, lookup_assign] at *
      by_cases hk : k1 = k
      · subst hk
        simp only [if_true] at *
        refine ⟨by simp, by simp, fun v hv _ => ?_⟩
        rw [← hv]; exact h1 hk1
      · simp only [if_neg hk] at *
        exact ⟨h1, h2, h3⟩

/-- Merging into something that is neither a section nor `null` only works for an empty update. -/
theorem merge_atom (a : String) (us : List (String × J)) (m : J)
    (h : merge true (.atom a) (.dict us) = .ok m) : us = [] ∧ m = .atom a := by
  simp only [merge] at h
  cases us with
  | nil => simp only [mergeEntries, Except.ok.injEq] at h; exact ⟨rfl, h.symm⟩
  | cons e us =>
    obtain ⟨k, v⟩ := e
    cases v <;> simp [mergeEntries, getItem, setItem] at h

/-! ### Claims -/

/-- **C85** What the user sets wins: every setting of the user's configuration is found unchanged at the
same place of the merged configuration. -/
theorem C85_override (p : List String) : ∀ (b u m x : J), WF u → (∃ us, u = .dict us) →
    merge true b u = .ok m → at' u p = some x → Leaf x → at' m p = some x := by
  induction p with
  | nil =>
    rintro b u m x _ ⟨us, rfl⟩ _ hx hl
    simp only [at', Option.some.injEq] at hx
    subst hx; exact hl.elim
  | cons k p ih =>
    rintro b u m x hw ⟨us, rfl⟩ hm hx hl
    cases b with
    | null => simp only [merge, Except.ok.injEq] at hm; subst hm; exact hx
    | atom a =>
      obtain ⟨rfl, rfl⟩ := merge_atom a us m hm
      simp [at', lookup] at hx
    | dict es =>
      simp only [merge] at hm
      obtain ⟨ms, rfl, hms⟩ := mergeEntries_lookup us es m hw.nodup hm
      obtain ⟨_, h2, h3⟩ := hms k
      simp only [at'] at hx ⊢
      cases hk : lookup k us with
      | none => simp [hk] at hx
      | some v =>
        simp only [hk] at hx
        cases v with
        | dict vs =>
          obtain ⟨sub, hsub, hlk⟩ := h2 vs hk
          rw [hlk]
          exact ih _ _ _ _ (hw.sub hk) ⟨vs, rfl⟩ hsub hx hl
        | null =>
          rw [h3 _ hk trivial]
          cases p <;> simp_all [at']
        | atom a =>
          rw [h3 _ hk trivial]
          cases p <;> simp_all [at']

/-- **C85** What the user does not mention keeps its default: a place the user's configuration neither
contains nor lies below one of the user's settings has the same content before and after. -/
theorem C85_default (p : List String) : ∀ (b u m : J), WF u → (∃ us, u = .dict us) →
    merge true b u = .ok m → at' u p = none →
    (∀ q, q <+: p → ∀ x, at' u q = some x → ¬ Leaf x) → at' m p = at' b p := by
  induction p with
  | nil => rintro b u m _ _ _ hx; simp [at'] at hx
  | cons k p ih =>
    rintro b u m hw ⟨us, rfl⟩ hm hx hq
    cases b with
    | null =>
      simp only [merge, Except.ok.injEq] at hm; subst hm
      rw [hx]; rfl
    | atom a => obtain ⟨rfl, rfl⟩ := merge_atom a us m hm; rfl
    | dict es =>
      simp only [merge] at hm
      obtain ⟨ms, rfl, hms⟩ := mergeEntries_lookup us es m hw.nodup hm
      obtain ⟨h1, h2, _⟩ := hms k
      simp only [at'] at hx ⊢
      cases hk : lookup k us with
      | none => rw [h1 hk]
      | some v =>
        simp only [hk] at hx
        cases v with
        | null => exact (hq [k] ⟨p, rfl⟩ .null (by simp [at', hk]) trivial).elim
        | atom a => exact (hq [k] ⟨p, rfl⟩ (.atom a) (by simp [at', hk]) trivial).elim
        | dict vs =>
          obtain ⟨sub, hsub, hlk⟩ := h2 vs hk
          rw [hlk]
          have := ih _ _ _ (hw.sub hk) ⟨vs, rfl⟩ hsub hx (by
            rintro q ⟨r, rfl⟩ x hx'
            exact hq (k :: q) ⟨r, rfl⟩ x (by simp [at', hk, hx']))
          simp only [this]
          cases hb : lookup k es with
          | some w => simp
          | none =>
            simp only [Option.getD_none]
            cases p <;> simp_all [at', lookup]

theorem sizeOf_lookup (k : String) (us : List (String × J)) (v : J) (h : lookup k us = some v) :
    sizeOf v < sizeOf us := by
  induction us with
  | nil => simp [lookup] at h
  | cons e us ih =>
    obtain ⟨k1, v1⟩ := e
    simp only [lookup] at h
    by_cases hk : k1 = k
    · simp only [if_pos hk, Option.some.injEq] at h
      subst h; simp; omega
    · simp only [if_neg hk] at h
      have := ih h
      simp; omega

/-- The loop succeeds if every section of the update can be merged. -/
theorem mergeEntries_total (us : List (String × J)) : ∀ (es : List (String × J)),
    (us.map (·.1)).Nodup →
    (∀ k vs, lookup k us = some (.dict vs) →
      ∃ sub, merge true ((lookup k es).getD (.dict [])) (.dict vs) = .ok sub) →
    ∃ m, mergeEntries true (.dict es) us = .ok m := by
  induction us with
  | nil => intro es _ _; exact ⟨_, rfl⟩
  | cons e us ih =>
    intro es hn h
    obtain ⟨k1, v1⟩ := e
    simp only [List.map_cons, List.nodup_cons] at hn
    have hk1 : lookup k1 us = none := (lookup_none k1 us).2 hn.1
    have step : ∀ x, ∃ m, mergeEntries true (.dict (assign k1 x es)) us = .ok m := by
      intro x
      apply ih _ hn.2
      intro k vs hk
      have hne : k1 ≠ k := by rintro rfl; simp [hk1] at hk
      rw [lookup_assign, if_neg hne]
      exact h k vs (by simp [lookup, hne, hk])
    cases v1 with
    | dict vs =>
      obtain ⟨sub, hsub⟩ := h k1 vs (by simp [lookup])
      obtain ⟨m, hm⟩ := step sub
      exact ⟨m, by simp [mergeEntries, getItem, setItem, hsub, hm]⟩
    | null => obtain ⟨m, hm⟩ := step .null; exact ⟨m, by simp [mergeEntries, setItem, hm]⟩
    | atom a => obtain ⟨m, hm⟩ := step (.atom a); exact ⟨m, by simp [mergeEntries, setItem, hm]⟩

theorem merge_total (n : Nat) : ∀ (us : List (String × J)) (b : J), sizeOf us < n → WF (.dict us) →
    ¬ Clash b (.dict us) → ∃ m, merge true b (.dict us) = .ok m := by
  induction n with
  | zero => intro us b h; omega
  | succ n ih =>
    intro us b hs hw hc
    cases b with
    | null => exact ⟨_, rfl⟩
    | atom a =>
      cases us with
      | nil => exact ⟨_, rfl⟩
      | cons e us => exact (hc ⟨[], a, e, us, rfl, rfl⟩).elim
    | dict es =>
      simp only [merge]
      apply mergeEntries_total us es hw.nodup
      intro k vs hk
      have hlt := sizeOf_lookup k us _ hk
      simp only [J.dict.sizeOf_spec] at hlt
      apply ih vs _ (by omega) (hw.sub hk)
      rintro ⟨p, a, e, es', h1, h2⟩
      cases hb : lookup k es with
      | none =>
        rw [hb, Option.getD_none] at h1
        cases p <;> simp [at', lookup] at h1
      | some w =>
        rw [hb, Option.getD_some] at h1
        exact hc ⟨k :: p, a, e, es', by simp [at', hb, h1], by simp [at', hk, h2]⟩

/-- **C85** A user configuration is accepted exactly when it does not put a section where the defaults
have a single setting – on a Python that still has `collections.Mapping`. -/
theorem C85_accepted_iff (es us : List (String × J)) (hw : WF (.dict us)) :
    (∃ m, merge true (.dict es) (.dict us) = .ok m) ↔ ¬ Clash (.dict es) (.dict us) := by
  constructor
  · rintro ⟨m, hm⟩ ⟨p, a, e, vs, h1, h2⟩
    have key : ∀ (p : List String) (b : J) (us : List (String × J)) (m : J), WF (.dict us) →
        merge true b (.dict us) = .ok m → at' b p = some (.atom a) →
        at' (.dict us) p = some (.dict (e :: vs)) → False := by
      intro p
      induction p with
      | nil =>
        intro b us m hw hm h1 h2
        simp only [at', Option.some.injEq, J.dict.injEq] at h1 h2
        subst h1; subst h2
        have := (merge_atom _ _ _ hm).1
        simp at this
      | cons k p ih =>
        intro b us m hw hm h1 h2
        cases b with
        | null => simp [at'] at h1
        | atom a => simp [at'] at h1
        | dict es =>
          simp only [merge] at hm
          obtain ⟨ms, rfl, hms⟩ := mergeEntries_lookup us es m hw.nodup hm
          obtain ⟨_, h3, _⟩ := hms k
          simp only [at'] at h1 h2
          cases hk : lookup k us with
          | none => simp [hk] at h2
          | some v =>
            cases hb : lookup k es with
            | none => simp [hb] at h1
            | some w =>
              simp only [hk] at h2
              simp only [hb] at h1
              cases v with
              | null => cases p <;> simp [at'] at h2
              | atom a => cases p <;> simp [at'] at h2
              | dict vs' =>
                obtain ⟨sub, hsub, _⟩ := h3 vs' hk
                rw [hb, Option.getD_some] at hsub
                exact ih w vs' sub (hw.sub hk) hsub h1 h2
    exact key p _ us m hw hm h1 h2
  · intro hc
    exact merge_total _ us _ (Nat.lt_succ_self _) hw hc

theorem mem_keys_assign (k k' : String) (v : J) (es : List (String × J)) :
    k' ∈ (assign k v es).map (·.1) ↔ k' = k ∨ k' ∈ es.map (·.1) := by
  have h1 := lookup_none k' (assign k v es)
  have h2 := lookup_none k' es
  rw [lookup_assign] at h1
  by_cases h : k = k'
  · rw [if_pos h] at h1
    simp only [reduceCtorEq, false_iff, Classical.not_not] at h1
    exact ⟨fun _ => Or.inl h.symm, fun _ => h1⟩
  · rw [if_neg h, h2] at h1
    have := not_congr h1
    simp only [Classical.not_not] at this
    rw [← this]
    simp [Ne.symm h, eq_comm]

theorem nodup_assign (k : String) (v : J) (es : List (String × J)) (h : (es.map (·.1)).Nodup) :
    ((assign k v es).map (·.1)).Nodup := by
  induction es with
  | nil => simp [assign]
  | cons e es ih =>
    obtain ⟨k1, v1⟩ := e
    simp only [List.map_cons, List.nodup_cons] at h
    simp only [assign]
    by_cases hk : k1 = k
    · subst hk
      rw [if_pos rfl]
      simpa using h
    · rw [if_neg hk]
      simp only [List.map_cons, List.nodup_cons]
      refine ⟨?_, ih h.2⟩
      rw [mem_keys_assign]
      rintro (h' | h')
      · exact hk h'
      · exact h.1 h'

theorem mergeEntries_nodup (us : List (String × J)) : ∀ (es ms : List (String × J)), (es.map (·.1)).Nodup →
    mergeEntries true (.dict es) us = .ok (.dict ms) → (ms.map (·.1)).Nodup := by
  induction us with
  | nil =>
    intro es ms hn h
    simp only [mergeEntries, Except.ok.injEq, J.dict.injEq] at h
    subst h; exact hn
  | cons e us ih =>
    intro es ms hn h
    obtain ⟨k1, v1⟩ := e
    cases v1 with
    | dict vs =>
      simp only [mergeEntries, if_true, getItem] at h
      cases hm : merge true ((lookup k1 es).getD (.dict [])) (.dict vs) with
      | error e => simp [hm] at h
      | ok sub =>
        simp only [hm, setItem] at h
        exact ih _ _ (nodup_assign _ _ _ hn) h
    | null => simp only [mergeEntries, if_true, setItem] at h; exact ih _ _ (nodup_assign _ _ _ hn) h
    | atom a => simp only [mergeEntries, if_true, setItem] at h; exact ih _ _ (nodup_assign _ _ _ hn) h

theorem WF.leaf {j : J} (h : Leaf j) : WF j := by
  intro p es hp
  cases p with
  | nil => simp only [at', Option.some.injEq] at hp; subst hp; exact h.elim
  | cons k p => cases j <;> simp [at', Leaf] at hp h

/-- **C85** The merged configuration is again a proper configuration: no section has a key twice. -/
theorem C85_wellformed (p : List String) : ∀ (b u m : J) (es : List (String × J)), WF b → WF u → (∃ us, u = .dict us) →
    merge true b u = .ok m → at' m p = some (.dict es) → (es.map (·.1)).Nodup := by
  induction p with
  | nil =>
    rintro b u m es hb hu ⟨us, rfl⟩ hm hp
    simp only [at', Option.some.injEq] at hp
    subst hp
    cases b with
    | null => simp only [merge, Except.ok.injEq, J.dict.injEq] at hm; subst hm; exact hu.nodup
    | atom a => have := (merge_atom a us _ hm).2; cases this
    | dict bs => exact mergeEntries_nodup us bs es hb.nodup hm
  | cons k p ih =>
    rintro b u m es hb hu ⟨us, rfl⟩ hm hp
    cases b with
    | null => simp only [merge, Except.ok.injEq] at hm; subst hm; exact hu (k :: p) es hp
    | atom a => obtain ⟨_, rfl⟩ := merge_atom a us _ hm; simp [at'] at hp
    | dict bs =>
      simp only [merge] at hm
      obtain ⟨ms, rfl, hms⟩ := mergeEntries_lookup us bs m hu.nodup hm
      obtain ⟨h1, h2, h3⟩ := hms k
      simp only [at'] at hp
      cases hk : lookup k us with
      | none =>
        rw [h1 hk] at hp
        cases hb' : lookup k bs with
        | none => simp [hb'] at hp
        | some w => rw [hb'] at hp; exact (hb.sub hb') p es hp
      | some v =>
        cases v with
        | dict vs =>
          obtain ⟨sub, hsub, hl⟩ := h2 vs hk
          rw [hl] at hp
          refine ih _ _ _ _ ?_ (hu.sub hk) ⟨vs, rfl⟩ hsub hp
          cases hb' : lookup k bs with
          | none => intro q es' hq; cases q <;> simp [at', lookup] at hq; subst hq; simp
          | some w => exact hb.sub hb'
        | null => rw [h3 _ hk trivial] at hp; cases p <;> simp [at'] at hp
        | atom a => rw [h3 _ hk trivial] at hp; cases p <;> simp [at'] at hp

/-- **C85** A configuration given as a path (in an installation that has the base files): every setting in the user's file wins over
all defaults, and a top-level section that neither the user's file nor any base file has is the estimator's own. -/
theorem C85_path_partial (dir : Dir) (es us : List (String × J)) (task : Option String) (lang : Bool) (m : J)
    (hdir : ∀ f j, dir f = some j → WF j ∧ ∃ fs, j = .dict fs) (hu : WF (.dict us))
    (h : setConfig true dir (.dict es) (.path (.dict us) task lang) = .ok m) :
    (∀ p x, at' (.dict us) p = some x → Leaf x → at' m p = some x) ∧
    (∀ k, lookup k us = none → (∀ f fs, dir f = some (.dict fs) → lookup k fs = none) → at' m [k] = at' (.dict es) [k]) := by
  -- what merging two configurations gives
  have two : ∀ (a b : List (String × J)) (m : J), WF (.dict a) → WF (.dict b) → merge true (.dict a) (.dict b) = .ok m →
      ∃ ms, m = .dict ms ∧ WF m ∧ ∀ k, lookup k b = none → lookup k ms = lookup k a := by
    intro a b m ha hb hm
    have hm' := hm
    simp only [merge] at hm'
    obtain ⟨ms, rfl, hms⟩ := mergeEntries_lookup b a m hb.nodup hm'
    exact ⟨ms, rfl, fun p es hp => C85_wellformed p _ _ _ es ha hb ⟨b, rfl⟩ hm hp, fun k => (hms k).1⟩
  have hbase : ∀ base, getBaseConfig true dir task lang = .ok base → WF base ∧ ∃ bs, base = .dict bs ∧
      ∀ k, (∀ f fs, dir f = some (.dict fs) → lookup k fs = none) → lookup k bs = none := by
    intro base hb
    unfold getBaseConfig at hb
    cases h1 : dir "config_common.json" with
    | none => simp [h1] at hb
    | some c =>
      obtain ⟨w1, cs, rfl⟩ := hdir _ _ h1
      simp only [h1] at hb
      generalize hfile : (if task = some "regression" ∨ task = some "PDE" ∨ task = none
        then "config_regression.json" else "config_common.json") = file at hb
      cases h2 : dir file with
      | none => simp [h2] at hb
      | some t =>
        obtain ⟨w2, ts, rfl⟩ := hdir _ _ h2
        simp only [h2] at hb
        cases lang with
        | false =>
          simp only [Bool.false_eq_true, if_false] at hb
          obtain ⟨ms, rfl, w3, h3⟩ := two _ _ _ w1 w2 hb
          refine ⟨w3, ms, rfl, fun k hk => ?_⟩
          rw [h3 k (hk _ _ h2), hk _ _ h1]
        | true =>
          simp only [if_true] at hb
          cases h4 : dir "config_language.json" with
          | none => simp [h4] at hb
          | some l =>
            obtain ⟨w4, ls, rfl⟩ := hdir _ _ h4
            simp only [h4] at hb
            cases h5 : merge true (.dict ts) (.dict ls) with
            | error e => simp [h5] at hb
            | ok t2 =>
              simp only [h5] at hb
              obtain ⟨ts2, rfl, w5, h6⟩ := two _ _ _ w2 w4 h5
              obtain ⟨ms, rfl, w3, h3⟩ := two _ _ _ w1 w5 hb
              refine ⟨w3, ms, rfl, fun k hk => ?_⟩
              rw [h3 k (by rw [h6 k (hk _ _ h4), hk _ _ h2]), hk _ _ h1]
  unfold setConfig loadConfig at h
  cases hb : getBaseConfig true dir task lang with
  | error e => simp [hb] at h
  | ok base =>
    obtain ⟨wb, bs, rfl, hbs⟩ := hbase base hb
    simp only [hb] at h
    cases hl : merge true (.dict bs) (.dict us) with
    | error e => simp [hl] at h
    | ok cfg =>
      simp only [hl] at h
      obtain ⟨cs, rfl, wc, hcs⟩ := two _ _ _ wb hu hl
      -- (the estimator's own configuration need not be checked for repeated keys)
      constructor
      · intro p x hx hlx
        exact C85_override p _ _ _ _ wc ⟨cs, rfl⟩ h (C85_override p _ _ _ _ hu ⟨us, rfl⟩ hl hx hlx) hlx
      · intro k hk hf
        have h' := h
        simp only [merge] at h'
        obtain ⟨ms, rfl, hms⟩ := mergeEntries_lookup cs es m wc.nodup h'
        have := (hms k).1 (by rw [hcs k hk, hbs k hf])
        simp [at', this]

/-- **C85, counterexample** On Python 3.10 and later every non-empty user configuration is refused with an
`AttributeError`, whatever it says (the package declares `requires-python >= 3.9`). -/
theorem C85_python310_counterexample (dir : Dir) (es us : List (String × J)) (hu : us ≠ []) :
    setConfig false dir (.dict es) (.given (.dict us)) = .error .attribute := by
  cases us with
  | nil => exact (hu rfl).elim
  | cons e us => obtain ⟨k, v⟩ := e; cases v <;> simp [setConfig, merge, mergeEntries]

/-- **C85, counterexample** A configuration given as a path is never accepted by the shipped package: the
file `config_common.json` it is based on does not exist. -/
theorem C85_path_counterexample (hm : Bool) (dir : Dir)
    (hdir : ∀ f, f ∉ shippedFiles → dir f = none) (b d : J) (task : Option String) (lang : Bool) :
    setConfig hm dir b (.path d task lang) = .error .fileNotFound := by
  simp [setConfig, loadConfig, getBaseConfig, hdir "config_common.json" (by decide)]

/-- **C85** Without a user configuration the defaults are used unchanged, on every Python. -/
theorem C85_no_config (hm : Bool) (dir : Dir) (es : List (String × J)) :
    setConfig hm dir (.dict es) .none = .ok (.dict es) := by
  simp [setConfig, merge, mergeEntries]

/-! ### The hypotheses are met -/

private def exBase : J := .dict [("task", .dict [("metric", .atom "pde_reward"), ("eq_num", .atom "1")]),
  ("prior", .dict [("length", .dict [("max_", .atom "64")])])]
private def exUser : J := .dict [("prior", .dict [("length", .dict [("max_", .atom "20")])]),
  ("extra", .null)]

private theorem exWF : WF exUser := by
  intro p es h
  match p with
  | [] => simp only [exUser, at', Option.some.injEq, J.dict.injEq] at h; subst h; decide
  | k :: p =>
    simp only [exUser, at', lookup] at h
    by_cases h1 : "prior" = k
    · subst h1
      simp only [if_true] at h
      match p with
      | [] => simp only [at', Option.some.injEq, J.dict.injEq] at h; subst h; decide
      | k2 :: p =>
        simp only [at', lookup] at h
        by_cases h2 : "length" = k2
        · subst h2
          simp only [if_true] at h
          match p with
          | [] => simp only [at', Option.some.injEq, J.dict.injEq] at h; subst h; decide
          | k3 :: p =>
            simp only [at', lookup] at h
            by_cases h3 : "max_" = k3
            · subst h3; cases p <;> simp [at'] at h
            · simp [h3] at h
        · simp [h2] at h
    · by_cases h2 : "extra" = k
      · subst h2; cases p <;> simp [at'] at h
      · simp [h1, h2] at h

example : ∃ m, merge true exBase exUser = .ok m ∧
    at' m ["prior", "length", "max_"] = some (.atom "20") ∧
    at' m ["task", "metric"] = some (.atom "pde_reward") := by
  obtain ⟨m, hm⟩ := (C85_accepted_iff _ _ exWF).2 (b := ¬ Clash exBase exUser) (by
    rintro ⟨p, a, e, es, h1, h2⟩
    match p with
    | [] => simp [exBase, at'] at h1
    | k :: p =>
      simp only [exUser, at', lookup] at h2
      by_cases h3 : "prior" = k
      · subst h3
        simp only [exBase, at', lookup, if_true] at h1 h2
        match p with
        | [] => simp [at'] at h1
        | k2 :: p =>
          simp only [at', lookup] at h1 h2
          by_cases h4 : "length" = k2
          · subst h4
            simp only [if_true] at h1 h2
            match p with
            | [] => simp [at', lookup] at h1
            | k3 :: p =>
              simp only [at', lookup] at h2
              by_cases h5 : "max_" = k3
              · subst h5; cases p <;> simp [at'] at h2
              · simp [h5] at h2
          · simp [h4] at h2
      · by_cases h4 : "extra" = k
        · subst h4; cases p <;> simp [at'] at h2
        · simp [h3, h4] at h2)
  refine ⟨m, hm, ?_, ?_⟩
  · exact C85_override _ _ _ _ _ exWF ⟨_, rfl⟩ hm (by simp [exUser, at', lookup]) trivial
  · rw [C85_default ["task", "metric"] _ _ _ exWF ⟨_, rfl⟩ hm (by simp [exUser, at', lookup]) ?_]
    · simp [at', lookup]
    · intro q hq x hx
      match q with
      | [] => simp only [at', exUser, Option.some.injEq] at hx; subst hx; simp [Leaf]
      | k :: q =>
        obtain ⟨r, hr⟩ := hq
        simp only [List.cons_append, List.cons.injEq] at hr
        rw [hr.1] at hx
        simp [exUser, at', lookup] at hx

end Verif.Api.Claims
