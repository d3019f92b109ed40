import Verif.Dataset.Base
import Mathlib.Data.List.Perm.Basic
import Mathlib.Data.List.Nodup
/-!
# C25, C26, C27, C53–C56: datasets

## Specification
-/
namespace Verif.Claims
open Verif.Data

/-- A Python dict has each key once. -/
def IsDict {α : Type} (l : List (String × α)) : Prop := (l.map (·.1)).Nodup

/-- All parameter fields have the shape `s` and only finite entries. -/
def ParamsOk {V : Type} (fin : V → Bool) (s : List Nat) (ps : List (String × Arr V)) : Prop :=
  ∀ p ∈ ps, p.2.shape = s ∧ ∀ i ∈ indices s, fin (p.2.get i) = true

/-- A consistent dataset: either legacy, with one row of the solution per `x` and one column per `t`; or N-D, with axes in
one-to-one correspondence with the coordinate lists, all fields of the shape given by the lengths of the coordinate lists in
axis order, an existing target field (the solution) and an existing left-hand-side axis. -/
def Consistent {C V : Type} (fin : V → Bool) (d : DS C V) : Prop :=
  ParamsOk fin d.usol.shape d.params ∧
  ((∃ x t, d.x = some x ∧ d.t = some t ∧ d.usol.shape = [x.length, t.length] ∧
      d.fields = none ∧ d.coords = none ∧ d.axisOrder = none ∧ d.target = none ∧ d.lhs = none) ∨
   (∃ fs cs ax tg lh, d.fields = some fs ∧ d.coords = some cs ∧ d.axisOrder = some ax ∧ d.target = some tg ∧ d.lhs = some lh ∧
      ax ≠ [] ∧ ax.Perm (cs.map (·.1)) ∧ lh ∈ ax ∧ (tg, d.usol) ∈ fs ∧
      d.x = cs.lookup "x" ∧ d.t = cs.lookup "t" ∧
      ∀ f ∈ fs, f.2.shape.length = ax.length ∧
        ∀ (k : Nat) n, ax[k]? = some n → ∃ c, (n, c) ∈ cs ∧ f.2.shape[k]? = some c.length))

theorem addParams_ok {C V : Type} (fin : V → Bool) : ∀ (ps : List (String × Arr V)) (d d' : DS C V),
    addParams fin d ps = .ok d' ↔ ParamsOk fin d.usol.shape ps ∧ d' = { d with params := d.params ++ ps } := by
  intro ps
  induction ps with
  | nil =>
    intro d d'
    simp only [addParams, Except.ok.injEq, ParamsOk, List.append_nil]
    constructor
    · rintro rfl; exact ⟨by simp, rfl⟩
    · rintro ⟨_, rfl⟩; rfl
  | cons p r ih =>
    intro d d'
    obtain ⟨n, p⟩ := p
    simp only [addParams]
    by_cases hs : p.shape = d.usol.shape
    · rw [if_neg (by simpa using hs)]
      by_cases hf : (indices p.shape).all (fun i => fin (p.get i)) = true
      · rw [if_neg (by simp [hf])]
        rw [ih]
        simp only [ParamsOk, List.mem_cons, forall_eq_or_imp, List.append_assoc, List.cons_append, List.nil_append]
        simp only [List.all_eq_true] at hf
        constructor
        · rintro ⟨h1, h2⟩; exact ⟨⟨⟨hs, by rw [← hs]; exact hf⟩, h1⟩, h2⟩
        · rintro ⟨⟨_, h1⟩, h2⟩; exact ⟨h1, h2⟩
      · rw [if_pos (by simpa using hf)]
        simp only [reduceCtorEq, false_iff, not_and]
        intro h
        have := (h (n, p) (by simp)).2
        simp only [Bool.not_eq_true, List.all_eq_false] at hf
        obtain ⟨i, hi, h2⟩ := hf
        rw [hs] at hi
        exact absurd (this i hi) (by simpa using h2)
    · rw [if_pos (by simpa using hs)]
      simp only [reduceCtorEq, false_iff, not_and]
      intro h
      exact absurd (h (n, p) (by simp)).1 hs

theorem lookup_mem {α : Type} : ∀ (l : List (String × α)) (k : String) (v : α), l.lookup k = some v → (k, v) ∈ l := by
  intro l
  induction l with
  | nil => intro k v h; simp at h
  | cons p r ih =>
    intro k v h
    obtain ⟨a, b⟩ := p
    rw [List.lookup_cons] at h
    by_cases hk : k = a
    · subst hk; simp at h; simp [h]
    · have : (k == a) = false := by simpa using hk
      simp [this] at h
      exact List.mem_cons_of_mem _ (ih k v h)

theorem lookup_isSome {α : Type} : ∀ (l : List (String × α)) (k : String), k ∈ l.map (·.1) → ∃ v, l.lookup k = some v := by
  intro l
  induction l with
  | nil => intro k h; simp at h
  | cons p r ih =>
    intro k h
    obtain ⟨a, b⟩ := p
    rw [List.lookup_cons]
    by_cases hk : k = a
    · subst hk; exact ⟨b, by simp⟩
    · have : (k == a) = false := by simpa using hk
      simp only [this]
      refine ih k ?_
      simpa [hk] using h

theorem lookup_some_mem {α : Type} (l : List (String × α)) (k : String) (v : α) (h : l.lookup k = some v) : k ∈ l.map (·.1) :=
  List.mem_map.2 ⟨(k, v), lookup_mem l k v h, rfl⟩

/-- The requirements on the arguments in N-D mode. -/
def ValidNd {C V : Type} (a : Args C V) : Prop :=
  ∃ fs cs ax, a.fields = some fs ∧ a.coords = some cs ∧ a.axisOrder = some ax ∧
    ax ≠ [] ∧ ax.Nodup ∧ (∀ n, n ∈ ax ↔ n ∈ cs.map (·.1)) ∧ a.target ∈ fs.map (·.1) ∧ a.lhs ∈ ax ∧
    ∀ f ∈ fs, f.2.shape = ax.map fun n => ((cs.lookup n).getD []).length

theorem initNd_ok {C V : Type} (a : Args C V) (d : DS C V) :
    initNd a = .ok d ↔ ValidNd a ∧ ∃ fs cs ax u, a.fields = some fs ∧ a.coords = some cs ∧ a.axisOrder = some ax ∧
      fs.lookup a.target = some u ∧
      d = ⟨cs.lookup "x", cs.lookup "t", u, some fs, some cs, some ax, some a.target, some a.lhs, []⟩ := by
  unfold initNd ValidNd
  cases hf : a.fields with
  | none => simp
  | some fs =>
    cases hc : a.coords with
    | none => simp
    | some cs =>
      cases hx : a.axisOrder with
      | none => simp
      | some ax =>
        simp only [Option.some.injEq]
        cases fs with
        | nil =>
          simp only [reduceCtorEq, false_iff, not_and]
          rintro ⟨_, _, _, rfl, _, _, _, _, _, h, _⟩
          simp at h
        | cons f0 fr =>
          simp only
          by_cases h1 : ax = []
          · rw [if_pos h1]
            simp only [reduceCtorEq, false_iff, not_and]
            rintro ⟨_, _, _, _, _, rfl, h, _⟩; exact absurd h1 h
          rw [if_neg h1]
          by_cases h2 : ax.Nodup
          · rw [if_neg (not_not.2 h2)]
            by_cases h3 : (ax.all (fun n => n ∈ cs.map (·.1)) && (cs.map (·.1)).all (fun n => n ∈ ax)) = true
            · rw [if_neg (by simpa using h3)]
              have h3' : ∀ n, n ∈ ax ↔ n ∈ cs.map (·.1) := by
                simp only [Bool.and_eq_true, List.all_eq_true, decide_eq_true_eq] at h3
                exact fun n => ⟨h3.1 n, h3.2 n⟩
              cases h4 : (f0 :: fr).lookup a.target with
              | none =>
                simp only [reduceCtorEq, false_iff, not_and]
                rintro ⟨_, _, _, rfl, _, _, _, _, _, h, _⟩
                obtain ⟨v, hv⟩ := lookup_isSome _ _ h
                rw [hv] at h4; cases h4
              | some u =>
                simp only
                by_cases h5 : a.lhs ∈ ax
                · rw [if_neg (not_not.2 h5)]
                  by_cases h6 : fr.any (fun f => f.2.shape ≠ f0.2.shape) = true
                  · rw [if_pos h6]
                    simp only [reduceCtorEq, false_iff, not_and]
                    rintro ⟨_, cs', ax', rfl, rfl, rfl, _, _, _, _, _, h⟩
                    simp only [List.any_eq_true, decide_eq_true_eq] at h6
                    obtain ⟨f, hf1, hf2⟩ := h6
                    exact absurd ((h f (by simp [hf1])).trans (h f0 (by simp)).symm) hf2
                  · rw [if_neg h6]
                    simp only [List.any_eq_true, decide_eq_true_eq, not_exists, not_and, not_not] at h6
                    by_cases h7 : f0.2.shape = ax.map fun n => ((cs.lookup n).getD []).length
                    · rw [if_neg (not_not.2 h7)]
                      simp only [Except.ok.injEq]
                      constructor
                      · rintro rfl
                        refine ⟨⟨_, _, _, rfl, rfl, rfl, h1, h2, h3', lookup_some_mem _ _ _ h4, h5, ?_⟩, _, _, _, u, rfl, rfl, rfl, h4, rfl⟩
                        intro f hf
                        rcases List.mem_cons.1 hf with rfl | hf
                        · exact h7
                        · rw [h6 f hf, h7]
                      · rintro ⟨_, _, _, _, u', rfl, rfl, rfl, hu, rfl⟩
                        rw [h4] at hu; cases hu; rfl
                    · rw [if_pos h7]
                      simp only [reduceCtorEq, false_iff, not_and]
                      rintro ⟨_, cs', ax', rfl, rfl, rfl, _, _, _, _, _, h⟩
                      exact absurd (h f0 (by simp)) h7
                · rw [if_pos h5]
                  simp only [reduceCtorEq, false_iff, not_and]
                  rintro ⟨_, _, _, _, _, rfl, _, _, _, _, h, _⟩; exact absurd h h5
            · rw [if_pos (by rw [Bool.not_eq_true] at h3; rw [h3]; rfl)]
              simp only [reduceCtorEq, false_iff, not_and]
              rintro ⟨_, _, _, _, rfl, rfl, _, _, h, _⟩
              exfalso; apply h3
              simp only [Bool.and_eq_true, List.all_eq_true, decide_eq_true_eq]
              exact ⟨fun n => (h n).1, fun n => (h n).2⟩
          · rw [if_pos h2]
            simp only [reduceCtorEq, false_iff, not_and]
            rintro ⟨_, _, _, _, _, rfl, _, h, _⟩; exact absurd h h2

/-- The requirements on the arguments in legacy mode: which coordinate lists and solution are used, and their sizes. -/
def ValidLegacy {C V : Type} (nan : C) (a : Args C V) (x t : List C) (u : Arr V) : Prop :=
  ((∃ p, a.pdeData = some p ∧ x = p.1.getD [nan] ∧ t = p.2.1.getD [nan] ∧ p.2.2 = some u) ∨
    (a.pdeData = none ∧ a.x = some x ∧ a.t = some t ∧ a.usol = some u)) ∧
  u.shape = [x.length, t.length]

/-- **C25**, what is accepted: a call that gives N-D arguments succeeds exactly when they are valid in the sense of
`ValidNd` (and the parameter fields fit); a call without N-D arguments exactly when the legacy arguments are complete and the
sizes match; nothing else is accepted. -/
theorem C25_accepted_iff {C V : Type} (re : V → V) (fin : V → Bool) (nan : C) (a : Args C V) :
    (∃ d, construct re fin nan a = .ok d) ↔
      ((a.fields ≠ none ∨ a.coords ≠ none) ∧ ValidNd a ∧
        ∃ fs u, a.fields = some fs ∧ fs.lookup a.target = some u ∧ ParamsOk fin u.shape (a.params.getD [])) ∨
      (a.fields = none ∧ a.coords = none ∧ ∃ x t u, ValidLegacy nan a x t u ∧ ParamsOk fin u.shape (a.params.getD [])) := by
  unfold construct
  by_cases hnd : (a.fields.isSome || a.coords.isSome) = true
  · have hnd' : a.fields ≠ none ∨ a.coords ≠ none := by
      simpa [Option.isSome_iff_ne_none] using hnd
    simp only [hnd, if_true]
    constructor
    · rintro ⟨d, h⟩
      left
      cases hb : initNd a with
      | error e => rw [hb] at h; simp at h
      | ok d0 =>
        rw [hb] at h; simp only at h
        rw [addParams_ok] at h
        obtain ⟨v, fs, cs, ax, u, h1, h2, h3, h4, rfl⟩ := (initNd_ok a d0).1 hb
        exact ⟨hnd', v, fs, u, h1, h4, h.1⟩
    · rintro (⟨_, v, fs, u, h1, h2, h3⟩ | ⟨h1, h2, _⟩)
      · obtain ⟨fs', cs, ax, e1, e2, e3, _⟩ := id v
        have hb := (initNd_ok a ⟨cs.lookup "x", cs.lookup "t", u, some fs, some cs, some ax, some a.target, some a.lhs, []⟩).2
          ⟨v, fs, cs, ax, u, h1, e2, e3, h2, rfl⟩
        rw [hb]
        exact ⟨_, (addParams_ok _ _ _ _).2 ⟨h3, rfl⟩⟩
      · rcases hnd' with h | h
        · exact absurd h1 h
        · exact absurd h2 h
  · have hn : a.fields = none ∧ a.coords = none := by
      simpa [Option.isSome_iff_ne_none] using hnd
    simp only [hnd]
    simp only [hn.1, hn.2, ne_eq, not_true_eq_false, or_self, false_and, false_or, true_and]
    constructor
    · rintro ⟨d, h⟩
      simp only [Bool.false_eq_true, if_false] at h
      by_cases hl : (a.pdeData.isSome || (a.x.isSome && a.t.isSome && a.usol.isSome)) = true
      · rw [if_pos hl] at h
        unfold initLegacy at h
        cases hp : a.pdeData with
        | some p =>
          obtain ⟨x, t, u⟩ := p
          simp only [hp] at h
          cases u with
          | none => simp at h
          | some u =>
            simp only at h
            by_cases hs : u.shape = [(x.getD [nan]).length, (t.getD [nan]).length]
            · rw [if_neg (not_not.2 hs)] at h
              simp only at h
              rw [addParams_ok] at h
              exact ⟨_, _, u, ⟨Or.inl ⟨_, hp, rfl, rfl, rfl⟩, hs⟩, h.1⟩
            · rw [if_pos hs] at h; simp at h
        | none =>
          simp only [hp, Option.isSome_none, Bool.false_or, Bool.and_eq_true] at hl
          obtain ⟨⟨hx, ht⟩, hu⟩ := hl
          obtain ⟨x, hx⟩ := Option.isSome_iff_exists.1 hx
          obtain ⟨t, ht⟩ := Option.isSome_iff_exists.1 ht
          obtain ⟨u, hu⟩ := Option.isSome_iff_exists.1 hu
          simp only [hp, hx, ht, hu, Option.getD_some] at h
          by_cases hs : u.shape = [x.length, t.length]
          · rw [if_neg (not_not.2 hs)] at h
            simp only at h
            rw [addParams_ok] at h
            exact ⟨_, _, u, ⟨Or.inr ⟨hp, hx, ht, hu⟩, hs⟩, h.1⟩
          · rw [if_pos hs] at h; simp at h
      · rw [if_neg hl] at h; simp at h
    · rintro ⟨x, t, u, ⟨h, hs⟩, hp⟩
      simp only [Bool.false_eq_true, if_false]
      rcases h with ⟨⟨px, pt, pu⟩, hpd, rfl, rfl, hu⟩ | ⟨hpd, hx, ht, hu⟩
      · simp only at hu
        subst hu
        simp only [hpd, Option.isSome_some, Bool.true_or, if_true, initLegacy]
        rw [if_neg (not_not.2 hs)]
        exact ⟨_, (addParams_ok _ _ _ _).2 ⟨hp, rfl⟩⟩
      · simp only [hpd, hx, ht, hu, Option.isSome_some, Bool.and_self, Bool.or_true, if_true, initLegacy, Option.getD_some]
        rw [if_neg (not_not.2 hs)]
        exact ⟨_, (addParams_ok _ _ _ _).2 ⟨hp, rfl⟩⟩

/-- **C25**: every dataset that is constructed is consistent. -/
theorem C25_consistent {C V : Type} (re : V → V) (fin : V → Bool) (nan : C) (a : Args C V) (d : DS C V)
    (hdict : ∀ cs, a.coords = some cs → IsDict cs) (h : construct re fin nan a = .ok d) : Consistent fin d := by
  unfold construct at h
  by_cases hnd : (a.fields.isSome || a.coords.isSome) = true
  · simp only [hnd, if_true] at h
    cases hb : initNd a with
    | error e => rw [hb] at h; simp at h
    | ok d0 =>
      rw [hb] at h; simp only at h
      rw [addParams_ok] at h
      obtain ⟨hp, rfl⟩ := h
      obtain ⟨v, fs, cs, ax, u, h1, h2, h3, h4, rfl⟩ := (initNd_ok a d0).1 hb
      obtain ⟨fs', cs', ax', e1, e2, e3, hne, hnodup, hset, htgt, hlhs, hsh⟩ := v
      rw [h1] at e1; rw [h2] at e2; rw [h3] at e3
      cases e1; cases e2; cases e3
      refine ⟨by simpa using hp, Or.inr ⟨fs, cs, ax, a.target, a.lhs, rfl, rfl, rfl, rfl, rfl, hne, ?_, hlhs, lookup_mem _ _ _ h4, rfl, rfl, ?_⟩⟩
      · exact (List.perm_ext_iff_of_nodup hnodup (hdict cs h2)).2 hset
      · intro f hf
        refine ⟨by rw [hsh f hf]; simp, ?_⟩
        intro k n hk
        obtain ⟨c, hc⟩ := lookup_isSome cs n ((hset n).1 (List.mem_of_getElem? hk))
        exact ⟨c, lookup_mem _ _ _ hc, by rw [hsh f hf]; simp [hk, hc]⟩
  · simp only [hnd] at h
    simp only [Bool.false_eq_true, if_false] at h
    split at h
    · simp at h
    · rename_i d0 hb
      split at hb
      · rw [addParams_ok] at h
        obtain ⟨hp, rfl⟩ := h
        unfold initLegacy at hb
        cases hpd : a.pdeData with
        | some p =>
          obtain ⟨x, t, u⟩ := p
          simp only [hpd] at hb
          cases u with
          | none => simp at hb
          | some u =>
            simp only at hb
            by_cases hs : u.shape = [(x.getD [nan]).length, (t.getD [nan]).length]
            · rw [if_neg (not_not.2 hs)] at hb
              cases hb
              exact ⟨by simpa using hp, Or.inl ⟨_, _, rfl, rfl, hs, rfl, rfl, rfl, rfl, rfl⟩⟩
            · rw [if_pos hs] at hb; simp at hb
        | none =>
          simp only [hpd] at hb
          cases hu : a.usol with
          | none => simp [hu] at hb
          | some u =>
            simp only [hu] at hb
            by_cases hs : u.shape = [(a.x.getD [nan]).length, (a.t.getD [nan]).length]
            · rw [if_neg (not_not.2 hs)] at hb
              cases hb
              exact ⟨by simpa using hp, Or.inl ⟨_, _, rfl, rfl, hs, rfl, rfl, rfl, rfl, rfl⟩⟩
            · rw [if_pos hs] at hb; simp at hb
      · simp at hb

/-- **C25**, agreement: for real data the legacy constructor and the N-D constructor with axes `["x", "t"]` accept the same
inputs, and the two datasets have the same coordinates, solution and parameter fields. -/
theorem C25_agree_partial {C V : Type} (re : V → V) (fin : V → Bool) (nan : C) (x t : List C) (u : Arr V) (ps : Option (List (String × Arr V)))
    (hre : ∀ v, re v = v) :
    let L := construct re fin nan { x := some x, t := some t, usol := some u, params := ps }
    let N := construct re fin nan { fields := some [("u", u)], coords := some [("x", x), ("t", t)], axisOrder := some ["x", "t"], params := ps }
    (∀ e, L = .error e ↔ N = .error e) ∧
    ∀ d d', L = .ok d → N = .ok d' → d.x = d'.x ∧ d.t = d'.t ∧ d.usol = d'.usol ∧ d.params = d'.params := by
  have hN : initNd { fields := some [("u", u)], coords := some [("x", x), ("t", t)], axisOrder := some ["x", "t"], params := ps } =
      if u.shape ≠ [x.length, t.length] then .error .value
      else .ok (⟨some x, some t, u, some [("u", u)], some [("x", x), ("t", t)], some ["x", "t"], some "u", some "t", []⟩ : DS C V) := by
    simp [initNd, List.lookup]
  have hL : initLegacy re nan { x := some x, t := some t, usol := some u, params := ps } =
      if u.shape ≠ [x.length, t.length] then .error .value
      else .ok (⟨some x, some t, u, none, none, none, none, none, []⟩ : DS C V) := by
    have : (fun i => re (u.get i)) = u.get := by funext i; exact hre _
    simp [initLegacy, this]
  have cl : construct re fin nan { x := some x, t := some t, usol := some u, params := ps } =
      match initLegacy re nan { x := some x, t := some t, usol := some u, params := ps } with
      | .error e => .error e
      | .ok d => addParams fin d (ps.getD []) := rfl
  have cn : construct re fin nan { fields := some [("u", u)], coords := some [("x", x), ("t", t)], axisOrder := some ["x", "t"], params := ps } =
      match initNd { fields := some [("u", u)], coords := some [("x", x), ("t", t)], axisOrder := some ["x", "t"], params := ps } with
      | .error e => .error e
      | .ok d => addParams fin d (ps.getD []) := rfl
  have ap : ∀ (l : List (String × Arr V)) (d d' : DS C V), d.usol = d'.usol →
      ∀ e, addParams fin d l = .error e ↔ addParams fin d' l = .error e := by
    intro l
    induction l with
    | nil => intro d d' _ e; simp [addParams]
    | cons p r ih =>
      intro d d' hd e
      simp only [addParams, hd]
      split
      · rfl
      · split
        · rfl
        · exact ih _ _ (by rfl) e
  simp only
  rw [cl, cn, hL, hN]
  by_cases hs : u.shape = [x.length, t.length]
  · simp only [hs, ne_eq, not_true_eq_false, if_false]
    refine ⟨fun e => ap _ _ _ (by rfl) e, ?_⟩
    intro d d' h1 h2
    rw [addParams_ok] at h1 h2
    rw [h1.2, h2.2]
    exact ⟨rfl, rfl, rfl, rfl⟩
  · simp [hs]

/-- For complex data they do not agree: the legacy constructor takes the real part, the N-D constructor does not. -/
theorem C25_complex_counterexample {C V : Type} (re : V → V) (nan : C) (v : V) (hv : re v ≠ v) (a b : C) :
    ∃ (L N : DS C V), construct re (fun _ => true) nan { x := some [a], t := some [b], usol := some ⟨[1, 1], fun _ => v⟩ } = .ok L ∧
      construct re (fun _ => true) nan { fields := some [("u", ⟨[1, 1], fun _ => v⟩)], coords := some [("x", [a]), ("t", [b])], axisOrder := some ["x", "t"] } = .ok N ∧
      L.usol.get [0, 0] ≠ N.usol.get [0, 0] := by
  refine ⟨_, _, rfl, by simp [construct, initNd, List.lookup, addParams]; rfl, ?_⟩
  simpa using hv

/-- Non-vacuity: a three-dimensional dataset with a parameter field. -/
example : ∃ d : DS Rat Nat, construct id (fun _ => true) (0 : Rat)
    { fields := some [("u", ⟨[2, 1, 3], fun i => i.sum⟩), ("v", ⟨[2, 1, 3], fun _ => 7⟩)],
      coords := some [("t", [0, 1, 2]), ("x", [0, 1]), ("y", [5])], axisOrder := some ["x", "y", "t"],
      params := some [("k", ⟨[2, 1, 3], fun _ => 1⟩)] } = .ok d ∧ d.usol.shape = [2, 1, 3] := by
  refine ⟨_, by simp [construct, initNd, List.lookup, addParams]; rfl, rfl⟩

/-! ## Point lookup (C53), range queries (C26), sampling (C27)

The value of the solution at point number `i` of the x axis and `j` of the t axis, for a dataset whose axes are x and t in
either order. -/

/-- The index of the solution's entry at x number `i` and t number `j`: in axis order (legacy: x, then t). -/
def cellIdx {C V : Type} (d : DS C V) (i j : Nat) : List Nat :=
  (d.axisOrder.getD ["x", "t"]).map fun a => if a = "x" then i else j

/-- The value of the solution at x number `i` and t number `j`. -/
def valueAt {C V : Type} (d : DS C V) (i j : Nat) : V := d.usol.get (cellIdx d i j)

/-- A dataset over x and t only, stored with x first (all legacy datasets, and N-D ones with axes `["x", "t"]`). -/
structure XT {C V : Type} (d : DS C V) (x t : List C) : Prop where
  hx : d.x = some x
  ht : d.t = some t
  shape : d.usol.shape = [x.length, t.length]
  order : d.axisOrder = none ∨ d.axisOrder = some ["x", "t"]

theorem XT.value {C V : Type} {d : DS C V} {x t : List C} (h : XT d x t) (i j : Nat) : valueAt d i j = d.usol.get [i, j] := by
  rcases h.order with o | o <;> simp [valueAt, cellIdx, o]

/-- Every legacy dataset that is constructed, and every N-D one with axes x, t, satisfies `XT`. -/
theorem constructed_xt {C V : Type} (re : V → V) (fin : V → Bool) (nan : C) (a : Args C V) (d : DS C V)
    (h : construct re fin nan a = .ok d) (ho : d.axisOrder = none ∨ d.axisOrder = some ["x", "t"])
    (hdict : ∀ cs, a.coords = some cs → IsDict cs) : ∃ x t, XT d x t := by
  obtain ⟨_, h | h⟩ := C25_consistent re fin nan a d hdict h
  · obtain ⟨x, t, hx, ht, hs, _⟩ := h
    exact ⟨x, t, hx, ht, hs, ho⟩
  · obtain ⟨fs, cs, ax, tg, lh, h1, h2, h3, h4, h5, h6, h7, h8, h9, h10, h11, h12⟩ := h
    rcases ho with o | o
    · rw [h3] at o; cases o
    · rw [h3] at o; cases o
      obtain ⟨x, hx⟩ := lookup_isSome cs "x" (h7.subset (by simp))
      obtain ⟨t, ht⟩ := lookup_isSome cs "t" (h7.subset (by simp))
      have nd : (cs.map (·.1)).Nodup := (h7.nodup_iff).1 (by decide)
      have uniq : ∀ n c c', (n, c) ∈ cs → (n, c') ∈ cs → c = c' := by
        intro n c c' m1 m2
        have := List.inj_on_of_nodup_map nd m1 m2 rfl
        exact congrArg Prod.snd this
      obtain ⟨hl, hk⟩ := h12 _ h9
      simp only at hl hk
      obtain ⟨c0, m0, e0⟩ := hk 0 "x" rfl
      obtain ⟨c1, m1, e1⟩ := hk 1 "t" rfl
      have ex := uniq _ _ _ m0 (lookup_mem _ _ _ hx)
      have et := uniq _ _ _ m1 (lookup_mem _ _ _ ht)
      subst ex; subst et
      refine ⟨_, _, by rw [h10, hx], by rw [h11, ht], ?_, Or.inr h3⟩
      cases hsh : d.usol.shape with
      | nil => rw [hsh] at hl; simp at hl
      | cons p r =>
        cases r with
        | nil => rw [hsh] at hl; simp at hl
        | cons q r =>
          cases r with
          | cons _ _ => rw [hsh] at hl; simp at hl
          | nil => rw [hsh] at e0 e1; simp at e0 e1; simp [e0, e1]

/-- **C53** (x stored before t): a point inside the grid is returned with its coordinates and the value stored there; a point
outside raises IndexError. -/
theorem C53_datapoint_partial {C V : Type} (d : DS C V) (x t : List C) (h : XT d x t) (i j : Int) :
    (∀ (k l : Nat), i = k → j = l → k < x.length → l < t.length →
      ∃ a b v, getDatapoint d i j = .ok (a, b, v) ∧ x[k]? = some a ∧ t[l]? = some b ∧ v.shape = [] ∧ v.get [] = valueAt d k l) ∧
    (i < 0 ∨ (x.length : Int) ≤ i ∨ j < 0 ∨ (t.length : Int) ≤ j → getDatapoint d i j = .error .index) := by
  constructor
  · rintro k l rfl rfl hk hl
    have e1 := List.getElem?_eq_getElem hk
    have e2 := List.getElem?_eq_getElem hl
    refine ⟨x[k], t[l], ⟨[], fun r => d.usol.get ([k, l] ++ r)⟩, ?_, e1, e2, rfl, ?_⟩
    · have : d.usol.index [k, l] = .ok ⟨[], fun r => d.usol.get ([k, l] ++ r)⟩ := by
        simp [Arr.index, h.shape, hk, hl]
      simp only [getDatapoint, h.hx, h.ht]
      rw [if_neg (by omega)]
      simp only [Int.toNat_natCast, e1, e2, this]
    · simpa using (h.value k l).symm
  · intro ho
    simp only [getDatapoint, h.hx, h.ht]
    rw [if_pos (by omega)]

/-- **C53** fails when t is stored before x: the dataset is accepted, and the value returned for x number 1 and t number 0 is
that of x number 0 and t number 1. -/
theorem C53_axis_order_counterexample :
    ∃ d : DS Rat Nat, construct id (fun _ => true) (0 : Rat)
      { fields := some [("u", ⟨[2, 2], fun i => match i with | [a, b] => 10 * a + b | _ => 0⟩)],
        coords := some [("x", [0, 1]), ("t", [0, 1])], axisOrder := some ["t", "x"] } = .ok d ∧
      valueAt d 1 0 = 1 ∧ ∃ v, getDatapoint d 1 0 = .ok (1, 0, v) ∧ v.get [] = 10 := by
  refine ⟨_, by simp [construct, initNd, List.lookup, addParams]; rfl, ?_, ?_⟩
  · simp [valueAt, cellIdx]
  · refine ⟨⟨[], _⟩, by simp [getDatapoint, Arr.index]; rfl, ?_⟩
    simp

/-- **C53** fails with an error as well: with t stored before x, three points x and two times, the last x is refused. -/
theorem C53_axis_order_error_counterexample :
    ∃ d : DS Rat Nat, construct id (fun _ => true) (0 : Rat)
      { fields := some [("u", ⟨[2, 3], fun i => match i with | [a, b] => 10 * a + b | _ => 0⟩)],
        coords := some [("x", [0, 1, 2]), ("t", [0, 1])], axisOrder := some ["t", "x"] } = .ok d ∧
      valueAt d 2 0 = 2 ∧ getDatapoint d 2 0 = .error .index := by
  refine ⟨_, by simp [construct, initNd, List.lookup, addParams]; rfl, ?_, ?_⟩
  · simp [valueAt, cellIdx]
  · simp [getDatapoint, Arr.index]

/-! ### C26 -/

theorem countP_sorted : ∀ (l : List Rat), l.Pairwise (· ≤ ·) → ∀ v,
    (∀ i (h : i < l.length), l[i] < v ↔ i < searchsorted l v) := by
  intro l
  induction l with
  | nil => intro _ v i h; simp at h
  | cons a r ih =>
    intro hs v i hi
    rw [List.pairwise_cons] at hs
    unfold searchsorted
    rw [List.countP_cons]
    by_cases ha : a < v
    · cases i with
      | zero => simp [ha]
      | succ i =>
        have := ih hs.2 v i (by simpa using hi)
        unfold searchsorted at this
        simp [ha, this]
    · have hz : r.countP (fun c => decide (c < v)) = 0 := by
        rw [List.countP_eq_zero]
        intro c hc
        have := hs.1 c hc
        simp only [decide_eq_true_eq]
        grind
      rw [hz]
      cases i with
      | zero => simp [ha]
      | succ i =>
        simp only [List.getElem_cons_succ, ha, decide_false, Bool.false_eq_true, if_false]
        constructor
        · intro h
          have := hs.1 _ (List.getElem_mem (by simpa using hi : i < r.length))
          grind
        · intro h; omega

theorem searchsorted_le (l : List Rat) (v : Rat) : searchsorted l v ≤ l.length := List.countP_le_length

theorem slice_get {α : Type} (l : List α) (a b i : Nat) (h : i < b - a) : (slice l a b)[i]? = l[a + i]? := by
  simp only [slice, List.getElem?_drop]
  rw [List.getElem?_take_of_lt (by omega)]

theorem slice_length {α : Type} (l : List α) (a b : Nat) (h : b ≤ l.length) : (slice l a b).length = b - a := by
  simp only [slice, List.length_drop, List.length_take]; omega

theorem slice_filter (l : List Rat) (hs : l.Pairwise (· ≤ ·)) (lo hi : Rat) :
    slice l (searchsorted l lo) (searchsorted l hi) = l.filter (fun c => decide (lo ≤ c ∧ c < hi)) := by
  have h1 := countP_sorted l hs lo
  have h2 := countP_sorted l hs hi
  have key : ∀ (l : List Rat) (a b : Nat) (p : Rat → Bool), b ≤ l.length →
      (∀ i (h : i < l.length), p l[i] = true ↔ a ≤ i ∧ i < b) → slice l a b = l.filter p := by
    intro l
    induction l with
    | nil => intro a b p _ _; simp [slice]
    | cons c r ih =>
      intro a b p hb hp
      have h0 := hp 0 (by simp)
      have hr : ∀ i (h : i < r.length), p r[i] = true ↔ a ≤ i + 1 ∧ i + 1 < b := fun i h => hp (i + 1) (by simpa using h)
      cases b with
      | zero =>
        have : (c :: r).filter p = [] := by
          rw [List.filter_eq_nil_iff]
          intro x hx
          obtain ⟨i, hi, rfl⟩ := List.getElem_of_mem hx
          intro h; have := (hp i hi).1 h; omega
        rw [this]; simp [slice]
      | succ b =>
        have hb' : b ≤ r.length := by simpa using hb
        cases a with
        | zero =>
          have e := ih 0 b p hb' (by intro i h; rw [hr i h]; omega)
          have hc : p c = true := h0.2 (by omega)
          simp only [List.filter_cons, hc, if_true]
          rw [← e]; simp [slice]
        | succ a =>
          have e := ih a b p hb' (by intro i h; rw [hr i h]; omega)
          have hc : ¬ p c = true := fun h => by have := h0.1 h; omega
          simp only [List.filter_cons, hc]
          rw [if_neg (by simp), ← e]; simp [slice]
  refine key l _ _ _ (searchsorted_le _ _) ?_
  intro i h
  rw [decide_eq_true_eq]
  have a1 := h1 i h
  have a2 := h2 i h
  constructor
  · rintro ⟨p, q⟩
    refine ⟨?_, a2.1 q⟩
    rcases Nat.lt_or_ge i (searchsorted l lo) with g | g
    · have := a1.2 g; grind
    · exact g
  · rintro ⟨p, q⟩
    refine ⟨?_, a2.2 q⟩
    by_cases g : l[i] < lo
    · have := a1.1 g; omega
    · grind

/-- **C26** (x stored before t): on sorted coordinates the range query returns exactly the coordinates in the half-open ranges, in
order, and the value returned at each position of the sub-grid is the value stored at those coordinates. -/
theorem C26_range_partial {V : Type} (d : DS Rat V) (x t : List Rat) (h : XT d x t)
    (sx : x.Pairwise (· ≤ ·)) (st : t.Pairwise (· ≤ ·)) (xr tr : Rat × Rat) :
    ∃ rx rt ru, getRange d xr tr = .ok (rx, rt, ru) ∧
      rx = x.filter (fun c => decide (xr.1 ≤ c ∧ c < xr.2)) ∧ rt = t.filter (fun c => decide (tr.1 ≤ c ∧ c < tr.2)) ∧
      ru.shape = [rx.length, rt.length] ∧
      ∃ i0 j0, ∀ i j, i < rx.length → j < rt.length →
        rx[i]? = x[i0 + i]? ∧ rt[j]? = t[j0 + j]? ∧ ru.get [i, j] = valueAt d (i0 + i) (j0 + j) := by
  have e : getRange d xr tr = .ok (slice x (searchsorted x xr.1) (searchsorted x xr.2), slice t (searchsorted t tr.1) (searchsorted t tr.2),
      ⟨[min (searchsorted x xr.2) x.length - searchsorted x xr.1, min (searchsorted t tr.2) t.length - searchsorted t tr.1],
       shift2 d.usol.get (searchsorted x xr.1) (searchsorted t tr.1)⟩) := by
    simp [getRange, h.hx, h.ht, Arr.slice2, h.shape]
  refine ⟨_, _, _, e, slice_filter x sx _ _, slice_filter t st _ _, ?_, searchsorted x xr.1, searchsorted t tr.1, ?_⟩
  · rw [slice_length _ _ _ (searchsorted_le _ _), slice_length _ _ _ (searchsorted_le _ _),
      Nat.min_eq_left (searchsorted_le _ _), Nat.min_eq_left (searchsorted_le _ _)]
  · intro i j hi hj
    rw [slice_length _ _ _ (searchsorted_le _ _)] at hi hj
    exact ⟨slice_get _ _ _ _ hi, slice_get _ _ _ _ hj, by rw [h.value]; rfl⟩

/-- **C26** fails when t is stored before x: the solution block does not even have the shape of the returned coordinates. -/
theorem C26_axis_order_counterexample :
    ∃ d : DS Rat Nat, construct id (fun _ => true) (0 : Rat)
      { fields := some [("u", ⟨[1, 3], fun _ => 0⟩)], coords := some [("x", [0, 1, 2]), ("t", [0])], axisOrder := some ["t", "x"] } = .ok d ∧
      ∃ ru, getRange d (0, 5) (0, 5) = .ok ([0, 1, 2], [0], ru) ∧ ru.shape = [1, 1] := by
  refine ⟨_, by simp [construct, initNd, List.lookup, addParams]; rfl, ?_⟩
  refine ⟨_, by simp [getRange, Arr.slice2, searchsorted, slice]; exact ⟨by decide +kernel, by decide +kernel, rfl⟩, ?_⟩
  simp only
  decide +kernel

example : let d : DS Rat Nat := ⟨some [0, 1, 2], some [0, 1], ⟨[3, 2], fun i => i.sum⟩, none, none, none, none, none, []⟩
    XT d [0, 1, 2] [0, 1] ∧ ([0, 1, 2] : List Rat).Pairwise (· ≤ ·) :=
  ⟨⟨rfl, rfl, rfl, Or.inl rfl⟩, by decide +kernel⟩

/-! ### C27 -/

/-- The points at given grid positions, with the values stored there. -/
def PointsAt {C V : Type} (d : DS C V) (x t : List C) (pos : List (Nat × Nat)) (out : List (C × C) × List V) : Prop :=
  (∀ p ∈ pos, p.1 < x.length ∧ p.2 < t.length) ∧ out.1.length = pos.length ∧ out.2.length = pos.length ∧
  ∀ (k : Nat) (p : Nat × Nat), pos[k]? = some p → ∃ a b, x[p.1]? = some a ∧ t[p.2]? = some b ∧ out.1[k]? = some (a, b) ∧ out.2[k]? = some (valueAt d p.1 p.2)

theorem takeIdx_ok {α : Type} (l : List α) : ∀ idx : List Nat, (∀ i ∈ idx, i < l.length) →
    ∃ as, takeIdx l idx = .ok as ∧ as.length = idx.length ∧ ∀ (k i : Nat), idx[k]? = some i → as[k]? = l[i]? := by
  intro idx
  induction idx with
  | nil => intro _; exact ⟨[], rfl, rfl, by simp⟩
  | cons i r ih =>
    intro h
    obtain ⟨as, h1, h2, h3⟩ := ih fun j hj => h j (List.mem_cons_of_mem _ hj)
    have hi := List.getElem?_eq_getElem (h i (by simp))
    refine ⟨l[i]'(h i (by simp)) :: as, by simp only [takeIdx, hi, h1], by simp [h2], ?_⟩
    intro k j hk
    cases k with
    | zero => simp at hk; subst hk; simp
    | succ k => simpa using h3 k j (by simpa using hk)

theorem takeIdx2_ok {V : Type} (u : Arr V) (n0 n1 : Nat) : ∀ pos : List (Nat × Nat), (∀ p ∈ pos, p.1 < n0 ∧ p.2 < n1) →
    ∃ vs, takeIdx2 u n0 n1 pos = .ok vs ∧ vs.length = pos.length ∧ ∀ (k : Nat) p, pos[k]? = some p → vs[k]? = some (u.get [p.1, p.2]) := by
  intro pos
  induction pos with
  | nil => intro _; exact ⟨[], rfl, rfl, by simp⟩
  | cons p r ih =>
    intro h
    obtain ⟨i, j⟩ := p
    obtain ⟨vs, h1, h2, h3⟩ := ih fun q hq => h q (List.mem_cons_of_mem _ hq)
    have hi := h (i, j) (by simp)
    refine ⟨u.get [i, j] :: vs, by simp only [takeIdx2]; rw [if_pos hi]; simp only [h1], by simp [h2], ?_⟩
    intro k q hk
    cases k with
    | zero => simp at hk; subst hk; simp
    | succ k => simpa using h3 k q (by simpa using hk)

theorem gather_ok {C V : Type} (d : DS C V) (x t : List C) (h : XT d x t) (pos : List (Nat × Nat))
    (hp : ∀ p ∈ pos, p.1 < x.length ∧ p.2 < t.length) :
    ∃ out, gather x t d.usol x.length t.length pos = .ok out ∧ PointsAt d x t pos out := by
  obtain ⟨xs, a1, a2, a3⟩ := takeIdx_ok x (pos.map (·.1)) (by
    intro i hi; obtain ⟨p, m, rfl⟩ := List.mem_map.1 hi; exact (hp p m).1)
  obtain ⟨ts, b1, b2, b3⟩ := takeIdx_ok t (pos.map (·.2)) (by
    intro i hi; obtain ⟨p, m, rfl⟩ := List.mem_map.1 hi; exact (hp p m).2)
  obtain ⟨vs, c1, c2, c3⟩ := takeIdx2_ok d.usol x.length t.length pos hp
  refine ⟨(xs.zip ts, vs), by simp [gather, a1, b1, c1], hp, by simp [a2, b2], c2, ?_⟩
  intro k p hk
  obtain ⟨m1, m2⟩ := hp p (List.mem_of_getElem? hk)
  refine ⟨x[p.1], t[p.2], List.getElem?_eq_getElem m1, List.getElem?_eq_getElem m2, ?_, ?_⟩
  · have e1 := a3 k p.1 (by simp [hk])
    have e2 := b3 k p.2 (by simp [hk])
    rw [List.getElem?_eq_getElem m1] at e1
    rw [List.getElem?_eq_getElem m2] at e2
    exact List.getElem?_zip_eq_some.2 ⟨e1, e2⟩
  · rw [h.value]; exact c3 k p hk

/-- What `np.random.choice(total, n, replace=False)` may return. -/
structure IsChoice (total n : Nat) (draw : List Nat) : Prop where
  length : draw.length = n
  nodup : draw.Nodup
  lt : ∀ k ∈ draw, k < total

/-- **C27**, random sampling (x stored before t): for every outcome of the draw, exactly the requested number of points is
returned, at pairwise different positions of the grid, each with its coordinates and the value stored there. -/
theorem C27_random_partial {C V : Type} (d : DS C V) (x t : List C) (h : XT d x t) (n : Nat) (hn : n ≤ x.length * t.length)
    (draw lx lt : List Nat) (hd : IsChoice (x.length * t.length) n draw) :
    ∃ out pos, sample d (.int n) "random" draw lx lt = .ok out ∧ pos.length = n ∧ pos.Nodup ∧ PointsAt d x t pos out := by
  have hp : ∀ p ∈ draw.map (fun k => (k / t.length, k % t.length)), p.1 < x.length ∧ p.2 < t.length := by
    intro p hp
    obtain ⟨k, hk, rfl⟩ := List.mem_map.1 hp
    have := hd.lt k hk
    have ht : 0 < t.length := by
      rcases Nat.eq_zero_or_pos t.length with e | e
      · rw [e] at this; simp at this
      · exact e
    exact ⟨Nat.div_lt_of_lt_mul (by rw [Nat.mul_comm]; exact this), Nat.mod_lt _ ht⟩
  obtain ⟨out, ho, hP⟩ := gather_ok d x t h _ hp
  refine ⟨out, _, ?_, by simp [hd.length], ?_, hP⟩
  · have hg : Count.gt (x.length * t.length) (.int (n : Int)) = false := by
      simp only [Count.gt, decide_eq_false_iff_not]; omega
    have hz : ¬ ((n : Int) < 0) := by omega
    simp only [sample, h.hx, h.ht, Count.resolve, hg, h.shape]
    simp only [Bool.false_eq_true, if_false, if_true, hz]
    exact ho
  · rw [List.nodup_map_iff_inj_on hd.nodup]
    intro a _ b _ e
    simp only [Prod.mk.injEq] at e
    rw [← Nat.div_add_mod a t.length, ← Nat.div_add_mod b t.length, e.1, e.2]

/-- **C27**, ratios: a float strictly between 0 and 1 asks for that fraction of the points, rounded down; there are always
enough. -/
theorem C27_ratio {C V : Type} (d : DS C V) (x t : List C) (hx : d.x = some x) (ht : d.t = some t) (q : Rat) (h0 : 0 < q) (h1 : q < 1) (m : String) (draw lx lt : List Nat) :
    ∃ n : Nat, n ≤ x.length * t.length ∧ n = (((x.length * t.length : Nat) : Rat) * q).floor ∧
      sample d (.float q) m draw lx lt = sample d (.int n) m draw lx lt := by
  have hT : (0 : Rat) ≤ ((x.length * t.length : Nat) : Rat) := by exact_mod_cast Nat.zero_le _
  have a : (0 : Int) ≤ (((x.length * t.length : Nat) : Rat) * q).floor := by
    rw [Rat.le_floor_iff]
    simpa using Rat.mul_nonneg hT (Rat.le_of_lt h0)
  have b : (((x.length * t.length : Nat) : Rat) * q).floor ≤ ((x.length * t.length : Nat) : Int) := by
    have : ((((x.length * t.length : Nat) : Rat) * q).floor : Rat) ≤ ((x.length * t.length : Nat) : Rat) := by
      refine Rat.le_trans (Rat.floor_le _) ?_
      have := Rat.mul_le_mul_of_nonneg_left (Rat.le_of_lt h1) hT
      simpa using this
    exact_mod_cast this
  refine ⟨(((x.length * t.length : Nat) : Rat) * q).floor.toNat, by omega, by omega, ?_⟩
  have e : ((((x.length * t.length : Nat) : Rat) * q).floor.toNat : Int) = (((x.length * t.length : Nat) : Rat) * q).floor := by omega
  simp only [sample, hx, ht]
  simp only [Count.resolve, h0, h1, and_self, if_true, e]

/-- What the integer `np.linspace(0, L - 1, g, dtype=int)` may return: `g` indices, each the exact value rounded down or,
because of rounding in the floating-point product, one less. -/
def IsLinspace (L g : Nat) (l : List Nat) : Prop :=
  l.length = g ∧ ∀ (k i : Nat), l[k]? = some i → i ≤ k * (L - 1) / (g - 1) ∧ k * (L - 1) / (g - 1) ≤ i + 1

theorem linspace_lt (L g : Nat) (l : List Nat) (h : IsLinspace L g l) (hL : 0 < L) : ∀ i ∈ l, i < L := by
  intro i hi
  obtain ⟨k, hk, rfl⟩ := List.getElem_of_mem hi
  have h1 := (h.2 k _ (List.getElem?_eq_getElem hk)).1
  have h2 : k < g := h.1 ▸ hk
  have h3 : k * (L - 1) / (g - 1) ≤ L - 1 := by
    rcases Nat.eq_zero_or_pos (g - 1) with e | e
    · rw [e]; simp
    · exact Nat.div_le_of_le_mul (Nat.mul_le_mul_right _ (by omega))
  omega

theorem isqrt_spec (n : Nat) : isqrt n * isqrt n ≤ n ∧ n < (isqrt n + 1) * (isqrt n + 1) := by
  have hmem : ∀ g, g ∈ (List.range (n + 1)).filter (fun g => decide (g * g ≤ n)) ↔ g * g ≤ n := by
    intro g
    simp only [List.mem_filter, List.mem_range, decide_eq_true_eq]
    constructor
    · exact fun h => h.2
    · intro h
      refine ⟨?_, h⟩
      rcases Nat.eq_zero_or_pos g with e | e
      · omega
      · have : g * 1 ≤ g * g := Nat.mul_le_mul_left _ e
        omega
  have hne : (List.range (n + 1)).filter (fun g => decide (g * g ≤ n)) ≠ [] :=
    List.ne_nil_of_mem ((hmem 0).2 (by simp))
  have hlast : isqrt n = ((List.range (n + 1)).filter (fun g => decide (g * g ≤ n))).getLast hne := by
    unfold isqrt; rw [List.getLastD_eq_getLast?, List.getLast?_eq_some_getLast hne]; rfl
  have h1 : isqrt n * isqrt n ≤ n := (hmem _).1 (hlast ▸ List.getLast_mem hne)
  refine ⟨h1, ?_⟩
  by_contra hc
  have hm := (hmem (isqrt n + 1)).2 (by omega)
  have hs : ((List.range (n + 1)).filter (fun g => decide (g * g ≤ n))).Pairwise (· < ·) :=
    List.Pairwise.filter _ List.pairwise_lt_range
  have : ∀ (l : List Nat) (hl : l ≠ []), l.Pairwise (· < ·) → ∀ a ∈ l, a ≤ l.getLast hl := by
    intro l hl hp a ha
    have e := List.dropLast_concat_getLast hl
    rw [← e] at hp ha
    rw [List.pairwise_append] at hp
    rcases List.mem_append.1 ha with m | m
    · exact Nat.le_of_lt (hp.2.2 a m _ (by simp))
    · simp at m; omega
  have := this _ hne hs _ hm
  rw [← hlast] at this
  omega

/-- **C27**, uniform sampling (x stored before t): `g * g` points, `g` the integer square root of the requested number, all on the
grid and each with the value stored there. -/
theorem C27_uniform_partial {C V : Type} (d : DS C V) (x t : List C) (h : XT d x t) (n : Nat) (hn : n ≤ x.length * t.length)
    (draw lx lt : List Nat) (g : Nat) (hg : g * g ≤ n ∧ n < (g + 1) * (g + 1)) (hx : IsLinspace x.length g lx) (ht : IsLinspace t.length g lt) :
    ∃ out pos, sample d (.int n) "uniform" draw lx lt = .ok out ∧ pos.length = g * g ∧ PointsAt d x t pos out := by
  have hp : ∀ p ∈ lt.flatMap (fun j => lx.map fun i => (i, j)), p.1 < x.length ∧ p.2 < t.length := by
    intro p hp
    obtain ⟨j, hj, hp⟩ := List.mem_flatMap.1 hp
    obtain ⟨i, hi, rfl⟩ := List.mem_map.1 hp
    have g1 : 0 < g := by
      rcases Nat.eq_zero_or_pos g with e | e
      · have := hx.1; rw [e] at this; rw [List.length_eq_zero_iff.1 this] at hi; cases hi
      · exact e
    have : 0 < x.length * t.length := Nat.lt_of_lt_of_le (Nat.mul_pos g1 g1) (Nat.le_trans hg.1 hn)
    exact ⟨linspace_lt _ _ _ hx (Nat.pos_of_mul_pos_right this) i hi, linspace_lt _ _ _ ht (Nat.pos_of_mul_pos_left this) j hj⟩
  obtain ⟨out, ho, hP⟩ := gather_ok d x t h _ hp
  refine ⟨out, _, ?_, ?_, hP⟩
  · have hgt : Count.gt (x.length * t.length) (.int (n : Int)) = false := by
      simp only [Count.gt, decide_eq_false_iff_not]; omega
    have hz : ¬ ((n : Int) < 0) := by omega
    simp only [sample, h.hx, h.ht, Count.resolve, hgt, h.shape, Count.grid]
    simp only [Bool.false_eq_true, if_false, if_true, hz]
    rw [if_neg (by decide)]
    exact ho
  · have : ∀ l : List Nat, (l.flatMap (fun j => lx.map fun i => (i, j))).length = l.length * lx.length := by
      intro l
      induction l with
      | nil => simp
      | cons a r ih => rw [List.flatMap_cons, List.length_append, ih, List.length_map, List.length_cons, Nat.add_mul, Nat.one_mul, Nat.add_comm]
    rw [this, hx.1, ht.1]

/-- **C27**, rejected requests: more points than there are, a negative number, or an unknown method. -/
theorem C27_rejected {C V : Type} (d : DS C V) (x t : List C) (hx : d.x = some x) (ht : d.t = some t) (draw lx lt : List Nat) :
    (∀ (z : Int) m, (x.length * t.length : Nat) < z → sample d (.int z) m draw lx lt = .error .value) ∧
    (∀ (z : Int) m, z < 0 → m ≠ "spline" → sample d (.int z) m draw lx lt = .error .value) ∧
    (∀ c m, m ≠ "random" → m ≠ "uniform" → m ≠ "spline" → sample d c m draw lx lt = .error .value) := by
  refine ⟨?_, ?_, ?_⟩
  · intro z m hz
    have hg : (Count.int z).gt (x.length * t.length) = true := by simp only [Count.gt, decide_eq_true_eq]; omega
    simp only [sample, hx, ht, Count.resolve, hg, if_true]
  · intro z m hz hm
    simp only [sample, hx, ht, Count.resolve, Count.gt, Count.grid, hz, hm, if_true, if_false]
    split
    · rfl
    · split
      · rfl
      · split <;> rfl
  · intro c m h1 h2 h3
    simp only [sample, hx, ht, h1, h2, h3, if_false]
    split <;> rfl

/-- **C27**, other floats: one of at least 1 asks the uniform method for that many points, rounded down, if there are so many; the random method refuses
every float that is not a ratio; zero and negative floats and too large ones are refused or give what the integer below gives. -/
theorem C27_float {C V : Type} (d : DS C V) (x t : List C) (hx : d.x = some x) (ht : d.t = some t) (q : Rat) (hq : ¬ (0 < q ∧ q < 1)) (draw lx lt : List Nat) :
    (q ≤ ((x.length * t.length : Nat) : Rat) → sample d (.float q) "uniform" draw lx lt = sample d (.int q.floor) "uniform" draw lx lt ∧
      sample d (.float q) "random" draw lx lt = .error .type) ∧
    (((x.length * t.length : Nat) : Rat) < q → ∀ m, sample d (.float q) m draw lx lt = .error .value) ∧
    (q < 0 → sample d (.float q) "uniform" draw lx lt = .error .value) := by
  have hneg : (q < 0) ↔ q.floor < 0 := by
    constructor
    · intro h
      have h1 : ((q.floor : Int) : Rat) ≤ q := Rat.floor_le q
      have h2 : ((q.floor : Int) : Rat) < ((0 : Int) : Rat) := by simp; grind
      exact_mod_cast h2
    · intro h
      by_cases hc : q < 0
      · exact hc
      · have h0 : (0 : Rat) ≤ q := by grind
        have : (0 : Int) ≤ q.floor := by rw [Rat.le_floor_iff]; simpa using h0
        omega
  refine ⟨fun hle => ⟨?_, ?_⟩, fun hgt m => ?_, fun hn => ?_⟩
  · have hg : (Count.float q).gt (x.length * t.length) = false := by simp only [Count.gt, decide_eq_false_iff_not]; grind
    have hg' : (Count.int q.floor).gt (x.length * t.length) = false := by
      simp only [Count.gt, decide_eq_false_iff_not]
      have h1 : ((q.floor : Int) : Rat) ≤ q := Rat.floor_le q
      have h2 : ((q.floor : Int) : Rat) ≤ (((x.length * t.length : Nat) : Int) : Rat) := Rat.le_trans h1 (by rw [Rat.intCast_natCast]; exact hle)
      have h3 : q.floor ≤ ((x.length * t.length : Nat) : Int) := by exact_mod_cast h2
      omega
    have hgrid : (Count.float q).grid = (Count.int q.floor).grid := by
      by_cases h : q < 0
      · simp only [Count.grid, if_pos h, if_pos (hneg.1 h)]
      · simp only [Count.grid, if_neg h, if_neg (fun e => h (hneg.2 e))]
    simp [sample, hx, ht, Count.resolve, hq, hg, hg', hgrid]
  · have hg : (Count.float q).gt (x.length * t.length) = false := by simp only [Count.gt, decide_eq_false_iff_not]; grind
    simp [sample, hx, ht, Count.resolve, hq, hg]
  · have hg : (Count.float q).gt (x.length * t.length) = true := by simp only [Count.gt, decide_eq_true_eq]; exact hgt
    simp only [sample, hx, ht, Count.resolve, hq, if_false, hg, if_true]
  · have hT : (0 : Rat) ≤ ((x.length * t.length : Nat) : Rat) := by exact_mod_cast Nat.zero_le _
    have hg : (Count.float q).gt (x.length * t.length) = false := by simp only [Count.gt, decide_eq_false_iff_not]; grind
    simp [sample, hx, ht, Count.resolve, hq, hg, Count.grid, hn]

/-- **C27** fails when t is stored before x: a two-point sample pairs a coordinate with the value of another point. -/
theorem C27_axis_order_counterexample :
    ∃ d : DS Rat Nat, construct id (fun _ => true) (0 : Rat)
      { fields := some [("u", ⟨[2, 2], fun i => match i with | [a, b] => 10 * a + b | _ => 0⟩)],
        coords := some [("x", [0, 1]), ("t", [0, 1])], axisOrder := some ["t", "x"] } = .ok d ∧
      IsChoice 4 1 [2] ∧ sample d (.int 1) "random" [2] [] [] = .ok ([(1, 0)], [10]) ∧ valueAt d 1 0 = 1 := by
  refine ⟨_, by simp [construct, initNd, List.lookup, addParams]; rfl, ⟨rfl, by decide, by decide⟩, ?_, ?_⟩
  · simp [sample, Count.resolve, Count.gt, gather, takeIdx, takeIdx2]
  · simp [valueAt, cellIdx]

/-- The uniform method repeats points when one axis is shorter than the square root of the request. -/
theorem C27_uniform_repeats_counterexample :
    let d : DS Rat Nat := ⟨some [0], some [0, 1, 2, 3], ⟨[1, 4], fun i => i.sum⟩, none, none, none, none, none, []⟩
    XT d [0] [0, 1, 2, 3] ∧ IsLinspace 1 2 [0, 0] ∧ IsLinspace 4 2 [0, 3] ∧
    sample d (.int 4) "uniform" [] [0, 0] [0, 3] = .ok ([(0, 0), (0, 0), (0, 3), (0, 3)], [0, 0, 3, 3]) := by
  refine ⟨⟨rfl, rfl, rfl, Or.inl rfl⟩, ⟨rfl, ?_⟩, ⟨rfl, ?_⟩, ?_⟩
  · intro k i h; match k, h with
    | 0, h => simp at h; subst h; decide
    | 1, h => simp at h; subst h; decide
    | k + 2, h => simp at h
  · intro k i h; match k, h with
    | 0, h => simp at h; subst h; decide
    | 1, h => simp at h; subst h; decide
    | k + 2, h => simp at h
  · simp [sample, Count.resolve, Count.gt, gather, takeIdx, takeIdx2, Count.grid]

example : IsChoice 6 2 [5, 0] ∧ IsLinspace 5 3 [0, 2, 4] := by
  refine ⟨⟨rfl, by decide, by decide⟩, rfl, ?_⟩
  intro k i h; match k, h with
    | 0, h => simp at h; subst h; decide
    | 1, h => simp at h; subst h; decide
    | 2, h => simp at h; subst h; decide
    | k + 3, h => simp at h

/-! ## C54: mesh and boundaries -/

/-- **C54**: the rows of `mesh()` and the flattened solution correspond: in the order of the flattened solution, row and value
belong to the same grid point, and every grid point occurs. -/
theorem C54_mesh_aligned {C V : Type} (d : DS C V) (x t : List C) (h : XT d x t) :
    ∃ m, mesh d true = .ok m ∧ m.length = x.length * t.length ∧ d.usol.ravel.length = m.length ∧
      ∀ i j (a b : C), x[i]? = some a → t[j]? = some b →
        m[i * t.length + j]? = some (a, b) ∧ d.usol.ravel[i * t.length + j]? = some (valueAt d i j) := by
  have len : ∀ {α β γ : Type} (f : α → β → γ) (l : List α) (r : List β), (l.flatMap fun a => r.map (f a)).length = l.length * r.length := by
    intro α β γ f l r
    induction l with
    | nil => simp
    | cons a l ih => rw [List.flatMap_cons, List.length_append, ih, List.length_map, List.length_cons, Nat.add_mul, Nat.one_mul, Nat.add_comm]
  have get : ∀ {α β γ : Type} (f : α → β → γ) (r : List β) (l : List α) (i j : Nat) (a : α) (b : β), l[i]? = some a → r[j]? = some b →
      (l.flatMap fun a => r.map (f a))[i * r.length + j]? = some (f a b) := by
    intro α β γ f r l
    induction l with
    | nil => intro i j a b h; simp at h
    | cons c l ih =>
      intro i j a b ha hb
      have hj : j < r.length := (List.getElem?_eq_some_iff.1 hb).1
      rw [List.flatMap_cons]
      cases i with
      | zero =>
        simp at ha; subst ha
        rw [List.getElem?_append_left (by simpa using hj)]
        simp [hb]
      | succ i =>
        rw [List.getElem?_append_right (by rw [List.length_map, Nat.add_mul, Nat.one_mul]; omega)]
        rw [List.length_map, Nat.add_mul, Nat.one_mul, show i * r.length + r.length + j - r.length = i * r.length + j by omega]
        exact ih i j a b (by simpa using ha) hb
  have hr : d.usol.ravel = (List.range x.length).flatMap fun i => (List.range t.length).map fun j => d.usol.get [i, j] := by
    simp only [Arr.ravel, h.shape, indices, List.map_flatMap, List.map_map]
    congr 1
    funext i
    simp only [List.map_cons, List.map_nil, ← List.map_eq_flatMap]
    rfl
  refine ⟨x.flatMap fun a => t.map fun b => (a, b), by simp [mesh, h.hx, h.ht], len _ _ _, ?_, ?_⟩
  · rw [hr, len, len, List.length_range, List.length_range]
  · intro i j a b ha hb
    refine ⟨get (fun a b => (a, b)) t x i j a b ha hb, ?_⟩
    have hi : i < x.length := (List.getElem?_eq_some_iff.1 ha).1
    have hj : j < t.length := (List.getElem?_eq_some_iff.1 hb).1
    have := get (fun i j => d.usol.get [i, j]) (List.range t.length) (List.range x.length) i j i j (by simp [hi]) (by simp [hj])
    rw [hr, h.value]
    simpa using this

/-- With `indexing='xy'` the rows run through x first, so they do not follow the flattened solution. -/
theorem C54_xy_counterexample :
    let d : DS Rat Nat := ⟨some [0, 1], some [0, 1], ⟨[2, 2], fun i => match i with | [a, b] => 10 * a + b | _ => 0⟩, none, none, none, none, none, []⟩
    mesh d false = .ok [(0, 0), (1, 0), (0, 1), (1, 1)] ∧ d.usol.ravel = [0, 1, 10, 11] ∧ valueAt d 1 0 = 10 := by
  refine ⟨by simp [mesh], by decide, by simp [valueAt, cellIdx]⟩

/-- The least and the greatest coordinate of a list. -/
def IsBounds (c : List Rat) (b : Rat × Rat) : Prop := b.1 ∈ c ∧ b.2 ∈ c ∧ ∀ a ∈ c, b.1 ≤ a ∧ a ≤ b.2

theorem fold_min : ∀ (l : List Rat) (a : Rat), l.foldl min a ∈ a :: l ∧ ∀ b ∈ a :: l, l.foldl min a ≤ b := by
  intro l
  induction l with
  | nil => intro a; simp
  | cons c l ih =>
    intro a
    obtain ⟨h1, h2⟩ := ih (min a c)
    simp only [List.foldl_cons]
    constructor
    · rcases List.mem_cons.1 h1 with h | h
      · rw [h]
        by_cases hc : a ≤ c
        · rw [show min a c = a by rw [Rat.min_def]; simp [hc]]; simp
        · rw [show min a c = c by rw [Rat.min_def]; simp [hc]]; simp
      · simp [h]
    · intro b hb
      have hm := h2 (min a c) (by simp)
      have : min a c ≤ a ∧ min a c ≤ c := by
        rw [Rat.min_def]; split <;> grind
      simp only [List.mem_cons] at hb
      rcases hb with rfl | rfl | hb
      · grind
      · grind
      · exact h2 b (by simp [hb])

theorem fold_max : ∀ (l : List Rat) (a : Rat), l.foldl max a ∈ a :: l ∧ ∀ b ∈ a :: l, b ≤ l.foldl max a := by
  intro l
  induction l with
  | nil => intro a; simp
  | cons c l ih =>
    intro a
    obtain ⟨h1, h2⟩ := ih (max a c)
    simp only [List.foldl_cons]
    constructor
    · rcases List.mem_cons.1 h1 with h | h
      · rw [h]
        by_cases hc : a ≤ c
        · rw [show max a c = c by rw [Rat.max_def]; simp [hc]]; simp
        · rw [show max a c = a by rw [Rat.max_def]; simp [hc]]; simp
      · simp [h]
    · intro b hb
      have hm := h2 (max a c) (by simp)
      have : a ≤ max a c ∧ c ≤ max a c := by
        rw [Rat.max_def]; split <;> grind
      simp only [List.mem_cons] at hb
      rcases hb with rfl | rfl | hb
      · grind
      · grind
      · exact h2 b (by simp [hb])

theorem bounds_ok (c : List Rat) (b : Rat × Rat) (h : bounds c = .ok b) : IsBounds c b := by
  cases c with
  | nil => simp [bounds, minimum] at h
  | cons a r =>
    simp [bounds, minimum, maximum] at h
    subst h
    exact ⟨(fold_min r a).1, (fold_max r a).1, fun x hx => ⟨(fold_min r a).2 x hx, (fold_max r a).2 x hx⟩⟩

theorem bounds_some (c : List Rat) (h : c ≠ []) : ∃ b, bounds c = .ok b := by
  cases c with
  | nil => exact absurd rfl h
  | cons a r => exact ⟨_, rfl⟩

theorem isBounds_unique (c : List Rat) (a b : Rat × Rat) (ha : IsBounds c a) (hb : IsBounds c b) : a = b := by
  have h1 := ha.2.2 _ hb.1; have h2 := hb.2.2 _ ha.1
  have h3 := ha.2.2 _ hb.2.1; have h4 := hb.2.2 _ ha.2.1
  exact Prod.ext (by grind) (by grind)

/-- **C54**, boundaries of an N-D dataset: for every coordinate axis, in the order given, its least and greatest coordinate. -/
theorem C54_boundaries_nd {V : Type} (d : DS Rat V) (cs : List (String × List Rat)) (hc : d.coords = some cs) (hne : ∀ p ∈ cs, p.2 ≠ []) :
    ∃ bs, getBoundaries d = .ok bs ∧ bs.length = cs.length ∧
      ∀ (k : Nat) (n : String) (c : List Rat), cs[k]? = some (n, c) → ∃ b, bs[k]? = some (n, b) ∧ IsBounds c b := by
  simp only [getBoundaries, hc]
  clear hc
  induction cs with
  | nil => exact ⟨[], rfl, rfl, by simp⟩
  | cons p cs ih =>
    obtain ⟨bs, h1, h2, h3⟩ := ih (fun q hq => hne q (by simp [hq]))
    obtain ⟨b, hb⟩ := bounds_some p.2 (hne p (by simp))
    refine ⟨(p.1, b) :: bs, ?_, by simp [h2], ?_⟩
    · rw [List.mapM_cons, hb, h1]; rfl
    · intro k n c hk
      cases k with
      | zero => simp at hk; subst hk; exact ⟨b, rfl, bounds_ok _ _ hb⟩
      | succ k => simp at hk; simpa using h3 k n c hk

/-- **C54**, boundaries of a legacy dataset: the least and greatest coordinate of both axes, and the bounds of the mesh (in
either indexing) are the same numbers. -/
theorem C54_boundaries {V : Type} (d : DS Rat V) (x t : List Rat) (h : XT d x t) (hl : d.coords = none) (hx : x ≠ []) (ht : t ≠ []) :
    ∃ bx bt, IsBounds x bx ∧ IsBounds t bt ∧ getBoundaries d = .ok [("x", bx), ("t", bt)] ∧
      ∀ ij, meshBounds d ij = .ok ((bx.1, bt.1), (bx.2, bt.2)) := by
  obtain ⟨bx, hbx⟩ := bounds_some x hx
  obtain ⟨bt, hbt⟩ := bounds_some t ht
  refine ⟨bx, bt, bounds_ok _ _ hbx, bounds_ok _ _ hbt, ?_, ?_⟩
  · simp only [getBoundaries, hl, h.hx, h.ht, List.mapM_cons, List.mapM_nil, hbx, hbt]
    rfl
  · intro ij
    obtain ⟨a0, ha0⟩ := List.exists_mem_of_ne_nil x hx
    obtain ⟨b0, hb0⟩ := List.exists_mem_of_ne_nil t ht
    have key : ∀ m : List (Rat × Rat), (∀ p, p ∈ m ↔ p.1 ∈ x ∧ p.2 ∈ t) → mesh d ij = .ok m → meshBounds d ij = .ok ((bx.1, bt.1), (bx.2, bt.2)) := by
      intro m hm he
      have m1 : ∀ a, a ∈ m.map (·.1) ↔ a ∈ x := by
        intro a; simp only [List.mem_map]
        constructor
        · rintro ⟨p, hp, rfl⟩; exact ((hm p).1 hp).1
        · intro ha; exact ⟨(a, b0), (hm _).2 ⟨ha, hb0⟩, rfl⟩
      have m2 : ∀ a, a ∈ m.map (·.2) ↔ a ∈ t := by
        intro a; simp only [List.mem_map]
        constructor
        · rintro ⟨p, hp, rfl⟩; exact ((hm p).1 hp).2
        · intro ha; exact ⟨(a0, a), (hm _).2 ⟨ha0, ha⟩, rfl⟩
      obtain ⟨c1, h1⟩ := bounds_some (m.map (·.1)) (List.ne_nil_of_mem ((m1 a0).2 ha0))
      obtain ⟨c2, h2⟩ := bounds_some (m.map (·.2)) (List.ne_nil_of_mem ((m2 b0).2 hb0))
      have tr : ∀ (l l' : List Rat) c, (∀ a, a ∈ l ↔ a ∈ l') → IsBounds l c → IsBounds l' c := by
        intro l l' c hll ⟨p, q, r⟩
        exact ⟨(hll _).1 p, (hll _).1 q, fun a ha => r a ((hll a).2 ha)⟩
      have e1 := isBounds_unique x _ _ (tr _ _ _ m1 (bounds_ok _ _ h1)) (bounds_ok _ _ hbx)
      have e2 := isBounds_unique t _ _ (tr _ _ _ m2 (bounds_ok _ _ h2)) (bounds_ok _ _ hbt)
      simp only [meshBounds, he, h1, h2, e1, e2]
    cases ij with
    | true =>
      refine key (x.flatMap fun a => t.map fun b => (a, b)) ?_ (by simp [mesh, h.hx, h.ht])
      rintro ⟨a, b⟩; simp
    | false =>
      refine key (t.flatMap fun b => x.map fun a => (a, b)) ?_ (by simp [mesh, h.hx, h.ht])
      rintro ⟨a, b⟩; simp [and_comm]

/-! ## C55: get_derivative -/

/-- **C55**, what the derivative is: central differences of neighbouring entries inside, one-sided at the two ends, divided by the
number of index steps — not by the distance of the coordinates. -/
theorem C55_index_derivative_partial {C : Type} (d : DS C Rat) (x t : List C) (h : XT d x t) (h2 : 2 ≤ x.length) :
    ∃ g, getDerivative d "x" = .ok g ∧ g.shape = [x.length, t.length] ∧
      ∀ j, g.get [0, j] = valueAt d 1 j - valueAt d 0 j ∧
        g.get [x.length - 1, j] = valueAt d (x.length - 1) j - valueAt d (x.length - 2) j ∧
        ∀ i, 0 < i → i + 1 < x.length → g.get [i, j] = (valueAt d (i + 1) j - valueAt d (i - 1) j) / 2 := by
  refine ⟨_, by simp [getDerivative, h.shape]; rw [if_neg (by omega)], rfl, ?_⟩
  intro j
  simp only [h.value, gradAt]
  refine ⟨by simp, ?_, ?_⟩
  · rw [if_neg (by omega), if_pos (by omega)]
  · intro i h0 h1
    rw [if_neg (by omega), if_neg (by omega)]

/-- The same along t. -/
theorem C55_index_derivative_t_partial {C : Type} (d : DS C Rat) (x t : List C) (h : XT d x t) (h2 : 2 ≤ t.length) :
    ∃ g, getDerivative d "t" = .ok g ∧ g.shape = [x.length, t.length] ∧
      ∀ i, g.get [i, 0] = valueAt d i 1 - valueAt d i 0 ∧
        g.get [i, t.length - 1] = valueAt d i (t.length - 1) - valueAt d i (t.length - 2) ∧
        ∀ j, 0 < j → j + 1 < t.length → g.get [i, j] = (valueAt d i (j + 1) - valueAt d i (j - 1)) / 2 := by
  refine ⟨_, by simp [getDerivative, h.shape]; rw [if_neg (by omega)], rfl, ?_⟩
  intro j
  simp only [h.value, gradAt]
  refine ⟨by simp, ?_, ?_⟩
  · rw [if_neg (by omega), if_pos (by omega)]
  · intro i h0 h1
    rw [if_neg (by omega), if_neg (by omega)]

/-- **C55** (unit spacing): if the solution is linear in x and consecutive x coordinates differ by exactly 1, the derivative is
the slope everywhere. -/
theorem C55_unit_spacing_partial (d : DS Rat Rat) (x t : List Rat) (h : XT d x t) (h2 : 2 ≤ x.length) (s : Rat) (c : Nat → Rat)
    (hu : ∀ i j (a : Rat), x[i]? = some a → j < t.length → valueAt d i j = s * a + c j)
    (hs : ∀ i (a b : Rat), x[i]? = some a → x[i + 1]? = some b → b - a = 1) :
    ∃ g, getDerivative d "x" = .ok g ∧ ∀ i j, i < x.length → j < t.length → g.get [i, j] = s := by
  obtain ⟨g, hg, _, hg2⟩ := C55_index_derivative_partial d x t h h2
  refine ⟨g, hg, ?_⟩
  intro i j hi hj
  obtain ⟨e0, e1, e2⟩ := hg2 j
  have step : ∀ k, k + 1 < x.length → valueAt d (k + 1) j - valueAt d k j = s := by
    intro k hk
    have a1 := List.getElem?_eq_getElem hk
    have a0 := List.getElem?_eq_getElem (Nat.lt_of_succ_lt hk)
    have := hs k _ _ a0 a1
    rw [hu _ _ _ a1 hj, hu _ _ _ a0 hj]
    have : x[k + 1] = x[k] + 1 := by grind
    rw [this, Rat.mul_add]; grind
  by_cases h0 : i = 0
  · subst h0; rw [e0]; exact step 0 (by omega)
  · by_cases hl : i + 1 = x.length
    · rw [show i = x.length - 1 by omega, e1]
      have := step (x.length - 2) (by omega)
      rwa [show x.length - 2 + 1 = x.length - 1 by omega] at this
    · rw [e2 i (by omega) (by omega)]
      have s1 := step i (by omega)
      have s2 := step (i - 1) (by omega)
      rw [show i - 1 + 1 = i by omega] at s2
      grind

/-- **C55** fails otherwise: on a grid of spacing 1/2 the solution `u = x` is reported to have derivative 1/2. -/
theorem C55_spacing_counterexample :
    let d : DS Rat Rat := ⟨some [0, 1/2, 1], some [0], ⟨[3, 1], fun i => match i with | i :: _ => (i : Rat) / 2 | _ => 0⟩, none, none, none, none, none, []⟩
    XT d [0, 1/2, 1] [0] ∧ (∀ i (a : Rat), ([0, 1/2, 1] : List Rat)[i]? = some a → valueAt d i 0 = a) ∧
    ∃ g, getDerivative d "x" = .ok g ∧ g.get [0, 0] = 1/2 ∧ g.get [1, 0] = 1/2 ∧ g.get [2, 0] = 1/2 := by
  refine ⟨⟨rfl, rfl, rfl, Or.inl rfl⟩, ?_, _, rfl, ?_, ?_, ?_⟩
  · intro i a h
    match i, h with
    | 0, h => simp at h; subst h; decide +kernel
    | 1, h => simp at h; subst h; decide +kernel
    | 2, h => simp at h; subst h; decide +kernel
    | k + 3, h => simp at h
  all_goals decide +kernel

/-! ## C56: loading a file in either orientation -/

/-- **C56**: when the two axes have different lengths, a file that stores the solution by rows of x and a file that stores it by rows
of t give the same dataset, whose value at (x number i, t number j) is the file's. -/
theorem C56_orientation_partial {C V : Type} (re : V → V) (fin : V → Bool) (nan : C) (x t : List C) (f : Nat → Nat → V)
    (hne : x.length ≠ t.length) :
    let cs := [("x", x), ("t", t)]
    let byX : Arr V := ⟨[x.length, t.length], fun i => f (i.getD 0 0) (i.getD 1 0)⟩
    let byT : Arr V := ⟨[t.length, x.length], fun i => f (i.getD 1 0) (i.getD 0 0)⟩
    ∃ d d', loadPde re fin nan cs [("usol", byX)] "x" "t" "usol" = some d ∧
      loadPde re fin nan cs [("usol", byT)] "x" "t" "usol" = some d' ∧ XT d x t ∧ XT d' x t ∧
      ∀ i j, i < x.length → j < t.length → valueAt d i j = re (f i j) ∧ valueAt d' i j = re (f i j) := by
  have l1 : ([("x", x), ("t", t)] : List (String × List C)).lookup "x" = some x := by simp
  have l2 : ([("x", x), ("t", t)] : List (String × List C)).lookup "t" = some t := by simp [List.lookup]
  have hn : ¬ ([x.length, t.length] = [t.length, x.length]) := by simp; omega
  have mk : ∀ u : Arr V, u.shape = [x.length, t.length] →
      construct re fin nan { x := some x, t := some t, usol := some u } =
        .ok ⟨some x, some t, ⟨u.shape, fun i => re (u.get i)⟩, none, none, none, none, none, []⟩ := by
    intro u hu
    simp [construct, initLegacy, addParams, hu]
  refine ⟨⟨some x, some t, ⟨[x.length, t.length], fun i => re (f (i.getD 0 0) (i.getD 1 0))⟩, none, none, none, none, none, []⟩,
    ⟨some x, some t, ⟨[x.length, t.length], fun i => re (f (i.reverse.getD 1 0) (i.reverse.getD 0 0))⟩, none, none, none, none, none, []⟩,
    ?_, ?_, ⟨rfl, rfl, rfl, Or.inl rfl⟩, ⟨rfl, rfl, rfl, Or.inl rfl⟩, ?_⟩
  · have l3 : ([("usol", ⟨[x.length, t.length], fun i => f (i.getD 0 0) (i.getD 1 0)⟩)] : List (String × Arr V)).lookup "usol" =
        some ⟨[x.length, t.length], fun i => f (i.getD 0 0) (i.getD 1 0)⟩ := by simp
    simp only [loadPde, l1, l2, l3, if_neg hn]
    rw [mk _ rfl]
  · have l3 : ([("usol", ⟨[t.length, x.length], fun i => f (i.getD 1 0) (i.getD 0 0)⟩)] : List (String × Arr V)).lookup "usol" =
        some ⟨[t.length, x.length], fun i => f (i.getD 1 0) (i.getD 0 0)⟩ := by simp
    simp only [loadPde, l1, l2, l3, if_true]
    rw [mk _ rfl]
    rfl
  · intro i j _ _
    simp [valueAt, cellIdx]

/-- A file that lacks a key, or whose solution fits neither orientation, gives `None`. -/
theorem C56_none {C V : Type} (re : V → V) (fin : V → Bool) (nan : C) (vars : List (String × List C)) (arrs : List (String × Arr V))
    (xk tk uk : String) (h : vars.lookup xk = none ∨ vars.lookup tk = none ∨ arrs.lookup uk = none ∨
      ∃ x t u, vars.lookup xk = some x ∧ vars.lookup tk = some t ∧ arrs.lookup uk = some u ∧
        u.shape ≠ [x.length, t.length] ∧ u.shape ≠ [t.length, x.length]) :
    loadPde re fin nan vars arrs xk tk uk = none := by
  unfold loadPde
  rcases h with h | h | h | ⟨x, t, u, hx, ht, hu, h1, h2⟩
  · rw [h]
  · rw [h]; cases vars.lookup xk <;> rfl
  · rw [h]; cases vars.lookup xk <;> cases vars.lookup tk <;> rfl
  · simp only [hx, ht, hu, if_neg h2]
    simp [construct, initLegacy, h1]

/-- **C56** fails for square grids: a file stored by rows of x (the dataset's own layout) is transposed. -/
theorem C56_square_counterexample :
    let u : Arr Nat := ⟨[2, 2], fun i => 10 * i.getD 0 0 + i.getD 1 0⟩
    ∃ d : DS Rat Nat, loadPde id (fun _ => true) (0 : Rat) [("x", [0, 1]), ("t", [0, 1])] [("usol", u)] "x" "t" "usol" = some d ∧
      valueAt d 1 0 = u.get [0, 1] ∧ valueAt d 1 0 ≠ u.get [1, 0] := by
  refine ⟨_, rfl, by decide, by decide⟩

end Verif.Claims
