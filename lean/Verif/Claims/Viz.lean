import Verif.Viz.Registry
/-!
# C33, C57, C58: the visualization registry, `render`, and the plot style

## Specification

Histories of registry calls are lists with the most recent call first.
-/
namespace Verif.Claims
open Verif.Viz

section
variable {C A : Type} [DecidableEq C]

mutual
/-- The adapter registered for exactly class `c`, reading the history backwards: the latest registration, or the latest lookup
that resolved a lazy registration to `c`, unless `c` was unregistered or the registry cleared since. -/
def exactOf (name : C → String) : List (Op C A) → C → Option A
  | [], _ => none
  | .register d a :: h, c => if d = c then some a else exactOf name h c
  | .registerLazy _ _ :: h, c => exactOf name h c
  | .unregister d :: h, c => if d = c then none else exactOf name h c
  | .clear :: _, _ => none
  | .lookup d :: h, c =>
    match exactOf name h d, pendingOf name h (name d) with
    | none, some (.found e a) => if e = c then some a else exactOf name h c
    | _, _ => exactOf name h c

/-- The lazy registration still pending for a class name: the latest one, unless the registry was cleared since or a class of that
name was looked up since without having an adapter of its own. -/
def pendingOf (name : C → String) : List (Op C A) → String → Option (Resolved C A)
  | [], _ => none
  | .register _ _ :: h, n => pendingOf name h n
  | .registerLazy m r :: h, n => if m = n then some r else pendingOf name h n
  | .unregister _ :: h, n => pendingOf name h n
  | .clear :: _, _ => none
  | .lookup d :: h, n =>
    match exactOf name h d with
    | none => if name d = n then none else pendingOf name h n
    | some _ => pendingOf name h n
end

/-- The time since which class `c` has had an adapter of its own without interruption. -/
def sinceOf (name : C → String) : List (Op C A) → C → Nat
  | [], _ => 0
  | _ :: h, c => if (exactOf name h c).isSome then sinceOf name h c else h.length

/-- The answer the history calls for, once no lazy registration is pending for the class: its own adapter; else that of the
ancestor that has been registered for longest; else nothing. -/
inductive Answer (name : C → String) (sub : C → C → Bool) (h : List (Op C A)) (c : C) : Option A → Prop
  | own {a} : exactOf name h c = some a → Answer name sub h c (some a)
  | ancestor {d a} : exactOf name h c = none → exactOf name h d = some a → sub c d = true →
      (∀ e b, exactOf name h e = some b → sub c e = true → e ≠ d → sinceOf name h d < sinceOf name h e) →
      Answer name sub h c (some a)
  | nothing : exactOf name h c = none → (∀ d b, exactOf name h d = some b → sub c d = false) → Answer name sub h c none

/-! ## Lemmas -/

theorem dget_dput {K V : Type} [DecidableEq K] (d : List (K × V)) (k : K) (v : V) (k' : K) :
    dget (dput d k v) k' = if k = k' then some v else dget d k' := by
  induction d with
  | nil => simp [dput, dget]
  | cons p r ih =>
    by_cases hp : p.1 = k
    · by_cases hk : k = k'
      · simp [dput, dget, hp, hk]
      · simp [dput, dget, hp, hk]
    · by_cases hk : p.1 = k'
      · have : ¬ k = k' := fun e => hp (hk.trans e.symm)
        rw [dput, if_neg hp, dget, if_pos hk, if_neg this, dget, if_pos hk]
      · simp [dput, dget, hp, hk, ih]

theorem dget_dpop {K V : Type} [DecidableEq K] (d : List (K × V)) (k k' : K) :
    dget (dpop d k) k' = if k = k' then none else dget d k' := by
  induction d with
  | nil => simp [dpop, dget]
  | cons p r ih =>
    unfold dpop at ih ⊢
    by_cases hp : p.1 = k
    · rw [List.filter_cons_of_neg (by simp [hp]), ih]
      by_cases hk : k = k'
      · simp [hk]
      · simp [dget, hk, hp]
    · rw [List.filter_cons_of_pos (by simp [hp])]
      by_cases hk : p.1 = k'
      · have : ¬ k = k' := fun e => hp (hk.trans e.symm)
        simp [dget, hk, this]
      · rw [dget, if_neg hk, ih, dget, if_neg hk]

theorem dget_isSome {K V : Type} [DecidableEq K] (d : List (K × V)) (k : K) :
    (dget d k).isSome = true ↔ k ∈ d.map Prod.fst := by
  induction d with
  | nil => simp [dget]
  | cons p r ih =>
    by_cases hp : p.1 = k
    · simp [dget, hp]
    · have : ¬ k = p.1 := fun e => hp e.symm
      simp [dget, hp, ih, this]

theorem dput_keys {K V : Type} [DecidableEq K] (d : List (K × V)) (k : K) (v : V) :
    (dput d k v).map Prod.fst = if (dget d k).isSome then d.map Prod.fst else d.map Prod.fst ++ [k] := by
  induction d with
  | nil => simp [dput, dget]
  | cons p r ih =>
    by_cases hp : p.1 = k
    · simp [dput, dget, hp]
    · simp only [dput, dget, hp, if_false, List.map_cons, ih]
      split <;> simp

theorem dpop_keys {K V : Type} [DecidableEq K] (d : List (K × V)) (k : K) :
    ((dpop d k).map Prod.fst).Sublist (d.map Prod.fst) := List.filter_sublist.map _

/-- The state after a history agrees with what the history says. -/
structure Agrees (name : C → String) (h : List (Op C A)) (s : Reg C A) : Prop where
  exact_ : ∀ c, dget s.eager c = exactOf name h c
  pending : ∀ n, dget s.lazy n = pendingOf name h n
  order : (s.eager.map Prod.fst).Pairwise (fun c d => sinceOf name h c < sinceOf name h d)
  bound : ∀ c ∈ s.eager.map Prod.fst, sinceOf name h c < h.length

theorem since_step (name : C → String) (op : Op C A) (h : List (Op C A)) (c : C) (hc : (exactOf name h c).isSome) :
    sinceOf name (op :: h) c = sinceOf name h c := by simp [sinceOf, hc]

theorem agrees_keep {name : C → String} {h : List (Op C A)} {s s' : Reg C A} (ag : Agrees name h s) (op : Op C A)
    (he : ∀ c, dget s'.eager c = exactOf name (op :: h) c) (hp : ∀ n, dget s'.lazy n = pendingOf name (op :: h) n)
    (hk : (s'.eager.map Prod.fst).Sublist (s.eager.map Prod.fst)) : Agrees name (op :: h) s' := by
  have hin : ∀ c ∈ s'.eager.map Prod.fst, sinceOf name (op :: h) c = sinceOf name h c := fun c hc =>
    since_step name op h c (by rw [← ag.exact_]; exact (dget_isSome _ _).2 (hk.subset hc))
  refine ⟨he, hp, ?_, fun c hc => ?_⟩
  · refine List.Pairwise.imp_of_mem ?_ (ag.order.sublist hk)
    intro a b ha hb hab
    rw [hin a ha, hin b hb]; exact hab
  · rw [hin c hc, List.length_cons]
    exact Nat.lt_succ_of_lt (ag.bound c (hk.subset hc))

theorem agrees_put {name : C → String} {h : List (Op C A)} {s s' : Reg C A} (ag : Agrees name h s) (op : Op C A) (d : C) (a : A)
    (he : s'.eager = dput s.eager d a) (hx : ∀ c, exactOf name (op :: h) c = if d = c then some a else exactOf name h c)
    (hp : ∀ n, dget s'.lazy n = pendingOf name (op :: h) n) : Agrees name (op :: h) s' := by
  have hget : ∀ c, dget s'.eager c = exactOf name (op :: h) c := fun c => by rw [he, dget_dput, hx, ag.exact_]
  by_cases hd : (dget s.eager d).isSome = true
  · refine agrees_keep ag op hget hp ?_
    rw [he, dput_keys, if_pos hd]
    exact List.Sublist.refl _
  · have hin : ∀ c ∈ s.eager.map Prod.fst, sinceOf name (op :: h) c = sinceOf name h c := fun c hc =>
      since_step name op h c (by rw [← ag.exact_]; exact (dget_isSome _ _).2 hc)
    have hdl : sinceOf name (op :: h) d = h.length := by
      rw [ag.exact_] at hd; simp [sinceOf, hd]
    refine ⟨hget, hp, ?_, fun c hc => ?_⟩
    · rw [he, dput_keys, if_neg hd, List.pairwise_append]
      refine ⟨?_, List.pairwise_singleton _ _, ?_⟩
      · refine List.Pairwise.imp_of_mem ?_ ag.order
        intro x y hx hy hxy
        rw [hin x hx, hin y hy]; exact hxy
      · intro x hx y hy
        rw [List.mem_singleton.1 hy, hin x hx, hdl]
        exact ag.bound x hx
    · rw [he, dput_keys, if_neg hd, List.mem_append] at hc
      rw [List.length_cons]
      rcases hc with hc | hc
      · rw [hin c hc]; exact Nat.lt_succ_of_lt (ag.bound c hc)
      · rw [List.mem_singleton.1 hc, hdl]; exact Nat.lt_succ_self _

theorem getAdapter_reg (name : C → String) (sub : C → C → Bool) (s : Reg C A) (c : C) :
    (getAdapter name sub s c).2 = match dget s.eager c with | some _ => s | none => (resolveLazy s (name c)).2 := by
  unfold getAdapter
  cases h : dget s.eager c with
  | some a => rfl
  | none =>
    rcases hr : resolveLazy s (name c) with ⟨b, s'⟩
    cases b with
    | true => rfl
    | false =>
      simp only
      cases dget s'.eager c <;> rfl

theorem agrees_after (name : C → String) (sub : C → C → Bool) (h : List (Op C A)) : Agrees name h (after name sub h) := by
  induction h with
  | nil => exact ⟨fun _ => rfl, fun _ => rfl, List.Pairwise.nil, fun c hc => absurd hc (by simp [after])⟩
  | cons op h ag =>
    cases op with
    | register d a =>
      exact agrees_put ag _ d a rfl (fun c => by simp [exactOf]) (fun n => by rw [pendingOf, ← ag.pending]; rfl)
    | registerLazy m r =>
      refine agrees_keep ag _ (fun c => by rw [exactOf, ← ag.exact_]; rfl) (fun n => ?_) (List.Sublist.refl _)
      simp only [after, step, registerLazy, dget_dput, pendingOf, ag.pending]
    | unregister d =>
      refine agrees_keep ag _ (fun c => ?_) (fun n => by rw [pendingOf, ← ag.pending]; rfl) (dpop_keys _ _)
      simp only [after, step, unregister, dget_dpop, exactOf, ag.exact_]
    | clear => exact ⟨fun c => by simp [after, step, clear, dget, exactOf], fun n => by simp [after, step, clear, dget, pendingOf],
        List.Pairwise.nil, fun c hc => absurd hc (by simp [after, step, clear])⟩
    | lookup d =>
      show Agrees name _ (getAdapter name sub (after name sub h) d).2
      rw [getAdapter_reg]
      have hd := ag.exact_ d
      cases hx : exactOf name h d with
      | some a =>
        rw [hx] at hd; rw [hd]
        refine agrees_keep ag _ (fun c => ?_) (fun n => ?_) (List.Sublist.refl _)
        · simp [exactOf, hx, ag.exact_]
        · simp [pendingOf, hx, ag.pending]
      | none =>
        rw [hx] at hd; rw [hd]
        have hp := ag.pending (name d)
        simp only [resolveLazy]
        cases hr : pendingOf name h (name d) with
        | none =>
          rw [hr] at hp; rw [hp]
          refine agrees_keep ag _ (fun c => ?_) (fun n => ?_) (List.Sublist.refl _)
          · simp [exactOf, hx, hr, ag.exact_]
          · simp only [pendingOf, hx, ag.pending]
            by_cases hn : name d = n
            · rw [if_pos hn, ← hn, hr]
            · rw [if_neg hn]
        | some r =>
          rw [hr] at hp; rw [hp]
          have hlazy : ∀ n, dget (dpop (after name sub h).lazy (name d)) n = pendingOf name (.lookup d :: h) n := fun n => by
            simp only [pendingOf, hx, dget_dpop, ag.pending]
          cases r with
          | raises => exact agrees_keep ag _ (fun c => by simp [exactOf, hx, hr, ag.exact_]) hlazy (List.Sublist.refl _)
          | nothing => exact agrees_keep ag _ (fun c => by simp [exactOf, hx, hr, ag.exact_]) hlazy (List.Sublist.refl _)
          | found e a => exact agrees_put ag _ e a rfl (fun c => by simp [exactOf, hx, hr]) hlazy

theorem walk_spec {name : C → String} (sub : C → C → Bool) {h : List (Op C A)} (c : C) (d : List (C × A))
    (ho : (d.map Prod.fst).Pairwise (fun c d => sinceOf name h c < sinceOf name h d)) :
    (∀ a, walk sub c d = some a → ∃ e, dget d e = some a ∧ sub c e = true ∧
      ∀ e', (dget d e').isSome → sub c e' = true → e' ≠ e → sinceOf name h e < sinceOf name h e') ∧
    (walk sub c d = none → ∀ e, (dget d e).isSome → sub c e = false) := by
  induction d with
  | nil => exact ⟨fun a ha => by simp [walk] at ha, fun _ e he => by simp [dget] at he⟩
  | cons p r ih =>
    rw [List.map_cons, List.pairwise_cons] at ho
    have ih := ih ho.2
    by_cases hs : sub c p.1 = true
    · refine ⟨fun a ha => ?_, fun hn => by simp [walk, hs] at hn⟩
      simp only [walk, hs, if_true, Option.some.injEq] at ha
      refine ⟨p.1, by simp [dget, ha], hs, fun e' he' _ hne => ?_⟩
      have : ¬ p.1 = e' := fun e => hne e.symm
      rw [dget, if_neg this] at he'
      exact ho.1 e' ((dget_isSome _ _).1 he')
    · have hw : walk sub c (p :: r) = walk sub c r := by simp [walk, hs]
      rw [hw]
      refine ⟨fun a ha => ?_, fun hn e he => ?_⟩
      · obtain ⟨e, he, hse, hall⟩ := ih.1 a ha
        have hpe : ¬ p.1 = e := fun e' => hs (e' ▸ hse)
        refine ⟨e, by rw [dget, if_neg hpe]; exact he, hse, fun e' he' hs' hne => ?_⟩
        have hpe' : ¬ p.1 = e' := fun e'' => hs (e'' ▸ hs')
        rw [dget, if_neg hpe'] at he'
        exact hall e' he' hs' hne
      · by_cases hpe : p.1 = e
        · rw [← hpe]; simpa using hs
        · rw [dget, if_neg hpe] at he
          exact ih.2 hn e he

/-! ## Theorems -/

/-- C33 (determinism and meaning): after every history, a lookup gives exactly the answer the history (with this lookup) calls for:
the class's own adapter, else the adapter of its longest registered ancestor, else nothing.  It raises only when a pending lazy
resolver raises. -/
theorem C33_answer (name : C → String) (sub : C → C → Bool) (h : List (Op C A)) (c : C)
    (hr : exactOf name h c = none → pendingOf name h (name c) ≠ some .raises) :
    ∃ r, (getAdapter name sub (after name sub h) c).1 = .ok r ∧ Answer name sub (.lookup c :: h) c r := by
  have ag := agrees_after name sub h
  have ag' := agrees_after name sub (.lookup c :: h)
  have hs : after name sub (.lookup c :: h) = (getAdapter name sub (after name sub h) c).2 := rfl
  rw [hs, getAdapter_reg] at ag'
  unfold getAdapter
  have hx := ag.exact_ c
  cases hxc : exactOf name h c with
  | some a =>
    rw [hxc] at hx
    rw [hx] at ag' ⊢
    exact ⟨some a, rfl, .own (by rw [← ag'.exact_, hx])⟩
  | none =>
    rw [hxc] at hx
    rw [hx] at ag' ⊢
    have hnr := hr hxc
    rw [← ag.pending] at hnr
    rcases hres : resolveLazy (after name sub h) (name c) with ⟨b, s'⟩
    rw [hres] at ag'
    have hb : b = false := by
      cases b with
      | false => rfl
      | true =>
        exfalso
        unfold resolveLazy at hres
        split at hres <;> simp_all
    subst hb
    simp only
    cases hg : dget s'.eager c with
    | some a => exact ⟨some a, rfl, .own (by rw [← ag'.exact_]; exact hg)⟩
    | none =>
      have hnone : exactOf name (.lookup c :: h) c = none := by rw [← ag'.exact_]; exact hg
      obtain ⟨w1, w2⟩ := walk_spec sub c s'.eager ag'.order
      refine ⟨_, rfl, ?_⟩
      cases hw : walk sub c s'.eager with
      | some a =>
        obtain ⟨e, he, hse, hall⟩ := w1 a hw
        refine .ancestor hnone (by rw [← ag'.exact_]; exact he) hse (fun e' b' he' hs' hne => hall e' ?_ hs' hne)
        rw [← ag'.exact_] at he'
        show (dget s'.eager e').isSome = true
        rw [show dget s'.eager e' = some b' from he']; rfl
      | none =>
        refine .nothing hnone (fun d b' hd => w2 hw d ?_)
        rw [← ag'.exact_] at hd
        rw [show dget s'.eager d = some b' from hd]; rfl

/-- C33: the history calls for one answer only. -/
theorem C33_answer_unique (name : C → String) (sub : C → C → Bool) (h : List (Op C A)) (c : C) (r r' : Option A)
    (h1 : Answer name sub h c r) (h2 : Answer name sub h c r') : r = r' := by
  cases h1 with
  | own e1 =>
    cases h2 with
    | own e2 => rw [← e1, ← e2]
    | ancestor e2 => rw [e2] at e1; cases e1
    | nothing e2 => rw [e2] at e1; cases e1
  | @ancestor d a e1 hd hs hall =>
    cases h2 with
    | own e2 => rw [e1] at e2; cases e2
    | @ancestor d' a' _ hd' hs' hall' =>
      by_cases hne : d = d'
      · subst hne; rw [← hd, ← hd']
      · have h3 := hall d' a' hd' hs' (fun e => hne e.symm)
        have h4 := hall' d a hd hs hne
        omega
    | nothing _ hn => rw [hn d a hd] at hs; cases hs
  | nothing e1 hn =>
    cases h2 with
    | own e2 => rw [e1] at e2; cases e2
    | @ancestor d' a' _ hd' hs' _ => rw [hn d' a' hd'] at hs'; cases hs'
    | nothing => rfl

/-- C33: a class with an adapter of its own gets it, and the lookup leaves the registry as it was. -/
theorem C33_exact (name : C → String) (sub : C → C → Bool) (h : List (Op C A)) (c : C) (a : A) (hx : exactOf name h c = some a) :
    getAdapter name sub (after name sub h) c = (.ok (some a), after name sub h) := by
  have := (agrees_after name sub h).exact_ c
  rw [hx] at this
  simp [getAdapter, this]

/-- C33: registering is effective until the class is registered again, unregistered or the registry is cleared, whatever else is
registered, unregistered or looked up in between, as long as no lazy registration for the same class exists. -/
theorem C33_registered (name : C → String) (sub : C → C → Bool) (pre post : List (Op C A)) (c : C) (a : A)
    (hpost : ∀ op ∈ post, (∀ b, op ≠ .register c b) ∧ op ≠ .unregister c ∧ op ≠ .clear)
    (hlazy : ∀ n b, .registerLazy n (.found c b) ∉ post ++ .register c a :: pre) :
    (getAdapter name sub (after name sub (post ++ .register c a :: pre)) c).1 = .ok (some a) := by
  have hpend : ∀ (l : List (Op C A)), (∀ n b, .registerLazy n (.found c b) ∉ l) → ∀ n b,
      pendingOf name l n ≠ some (.found c b) := by
    intro l
    induction l with
    | nil => intro _ n b; simp [pendingOf]
    | cons op l ih =>
      intro hl n b
      have ih := ih (fun n b hm => hl n b (List.mem_cons_of_mem _ hm))
      cases op with
      | register d x => simp only [pendingOf]; exact ih n b
      | registerLazy m r =>
        simp only [pendingOf]
        split
        · intro e; cases e; exact hl _ _ (List.mem_cons_self)
        · exact ih n b
      | unregister d => simp only [pendingOf]; exact ih n b
      | clear => simp [pendingOf]
      | lookup d =>
        simp only [pendingOf]
        split
        · split
          · simp
          · exact ih n b
        · exact ih n b
  have hx : exactOf name (post ++ .register c a :: pre) c = some a := by
    induction post with
    | nil => simp [exactOf]
    | cons op post ih =>
      have ih := ih (fun o ho => hpost o (List.mem_cons_of_mem _ ho)) (fun n b hm => hlazy n b (List.mem_cons_of_mem _ hm))
      have hop := hpost op List.mem_cons_self
      have hl : ∀ n b, .registerLazy n (.found c b) ∉ post ++ .register c a :: pre := fun n b hm => hlazy n b (List.mem_cons_of_mem _ hm)
      rw [List.cons_append]
      cases op with
      | register d x =>
        have : ¬ d = c := fun e => hop.1 x (by rw [e])
        simp only [exactOf, this, if_false, ih]
      | registerLazy m r => simp only [exactOf, ih]
      | unregister d =>
        have : ¬ d = c := fun e => hop.2.1 (by rw [e])
        simp only [exactOf, this, if_false, ih]
      | clear => exact absurd rfl hop.2.2
      | lookup d =>
        simp only [exactOf]
        split
        · rename_i e x _ hp
          have : ¬ e = c := fun he => hpend _ hl (name d) x (by rw [hp, he])
          simp only [this, if_false, ih]
        · exact ih
  rw [C33_exact name sub _ c a hx]

/-- C33: without an adapter of its own, a class whose name has a pending lazy registration for it gets that adapter, now and at every
later lookup right after. -/
theorem C33_lazy (name : C → String) (sub : C → C → Bool) (h : List (Op C A)) (c : C) (a : A) (hx : exactOf name h c = none)
    (hp : pendingOf name h (name c) = some (.found c a)) :
    (getAdapter name sub (after name sub h) c).1 = .ok (some a) ∧
    (getAdapter name sub (after name sub (.lookup c :: h)) c).1 = .ok (some a) := by
  have hown : exactOf name (.lookup c :: h) c = some a := by simp [exactOf, hx, hp]
  refine ⟨?_, by rw [C33_exact name sub _ c a hown]⟩
  obtain ⟨r, hr, hans⟩ := C33_answer name sub h c (fun _ => by rw [hp]; simp)
  rw [hr, C33_answer_unique name sub _ c r (some a) hans (.own hown)]

/-- C33: a lookup that returns can be repeated: it gives the same answer again and the registry no longer changes. -/
theorem C33_repeat (name : C → String) (sub : C → C → Bool) (h : List (Op C A)) (c : C) (r : Option A)
    (hr : (getAdapter name sub (after name sub h) c).1 = .ok r) :
    getAdapter name sub (after name sub (.lookup c :: h)) c = (.ok r, after name sub (.lookup c :: h)) := by
  show getAdapter name sub (getAdapter name sub (after name sub h) c).2 c = (.ok r, (getAdapter name sub (after name sub h) c).2)
  generalize after name sub h = s at hr ⊢
  unfold getAdapter at hr
  cases hx : dget s.eager c with
  | some a =>
    have : getAdapter name sub s c = (.ok (some a), s) := by simp [getAdapter, hx]
    rw [hx] at hr; simp only [Except.ok.injEq] at hr
    rw [this]; simp only [this, hr]
  | none =>
    rw [hx] at hr
    rw [getAdapter_reg, hx]
    simp only at hr ⊢
    rcases hres : resolveLazy s (name c) with ⟨b, s'⟩
    rw [hres] at hr
    cases b with
    | true => simp at hr
    | false =>
      simp only at hr ⊢
      have hgone : dget s'.lazy (name c) = none := by
        have h1 : s' = (resolveLazy s (name c)).2 := by rw [hres]
        rw [h1]; unfold resolveLazy
        split
        · assumption
        all_goals simp [dget_dpop]
      unfold getAdapter
      cases hg : dget s'.eager c with
      | some a => rw [hg] at hr; simp only at hr ⊢; rw [hr]
      | none =>
        rw [hg] at hr
        simp only [resolveLazy, hgone] at hr ⊢
        rw [hg]; simp only; rw [hr]

/-- C33: if no lazy registration was made (or all are resolved), lookups change nothing at all. -/
theorem C33_eager_pure (name : C → String) (sub : C → C → Bool) (h : List (Op C A)) (c : C)
    (hp : pendingOf name h (name c) = none) : after name sub (.lookup c :: h) = after name sub h := by
  show (getAdapter name sub _ c).2 = _
  rw [getAdapter_reg]
  have := (agrees_after name sub h).pending (name c)
  rw [hp] at this
  split
  · rfl
  · simp [resolveLazy, this]

/-- C33: looking up one class changes no answer for another class `c'`, unless the lookup resolves a lazy registration for a class
that is a proper ancestor of `c'`, or replaces an adapter registered explicitly.  (Lazy registrations are under the name of the
class they resolve to; two classes may share a name.) -/
theorem C33_lookup_stable_partial (name : C → String) (sub : C → C → Bool) (h : List (Op C A)) (c c' : C)
    (hr : pendingOf name h (name c) ≠ some .raises)
    (hnames : ∀ e a, pendingOf name h (name c) = some (.found e a) →
      name e = name c ∧ exactOf name h e = none ∧ (sub c' e = true → c' = e)) :
    (getAdapter name sub (after name sub (.lookup c :: h)) c').1 = (getAdapter name sub (after name sub h) c').1 := by
  show (getAdapter name sub (getAdapter name sub (after name sub h) c).2 c').1 = _
  rw [getAdapter_reg]
  have ag := agrees_after name sub h
  rw [← ag.pending] at hr
  have hn2 : ∀ e a, dget (after name sub h).lazy (name c) = some (.found e a) →
      name e = name c ∧ dget (after name sub h).eager e = none ∧ (sub c' e = true → c' = e) := fun e a he => by
    have := hnames e a (by rw [← ag.pending]; exact he)
    rw [ag.exact_]; exact this
  generalize after name sub h = s at hr hn2
  cases hx : dget s.eager c with
  | some a => rfl
  | none =>
    simp only
    unfold resolveLazy
    cases hl : dget s.lazy (name c) with
    | none => rfl
    | some r =>
      have hpop : ∀ n, n ≠ name c → dget (dpop s.lazy (name c)) n = dget s.lazy n := fun n hn => by
        rw [dget_dpop, if_neg (fun e => hn e.symm)]
      cases r with
      | raises => exact absurd hl hr
      | nothing =>
        simp only
        unfold getAdapter
        simp only
        cases hx' : dget s.eager c' with
        | some a => rfl
        | none =>
          simp only
          by_cases hn : name c' = name c
          · simp [resolveLazy, hn, hl, dget_dpop, hx']
          · simp only [resolveLazy, hpop _ hn]
            rcases hq : dget s.lazy (name c') with _ | (_ | _ | ⟨e, a⟩)
            · simp [hx']
            · simp
            · simp [hx']
            · simp only
              cases dget (dput s.eager e a) c' <;> rfl
      | found e a =>
        obtain ⟨hne, hxe, hsub⟩ := hn2 e a hl
        simp only
        unfold getAdapter
        simp only [dget_dput]
        by_cases hec : e = c'
        · subst hec
          simp only [if_true, hxe]
          simp [resolveLazy, hne, hl, dget_dput]
        · rw [if_neg hec]
          cases hx' : dget s.eager c' with
          | some a' => rfl
          | none =>
            have hnsub : sub c' e = false := by
              cases hs : sub c' e with
              | false => rfl
              | true => exact absurd (hsub hs).symm hec
            simp only
            by_cases hn : name c' = name c
            · simp [resolveLazy, hn, hl, dget_dpop, dget_dput, hec, hx']
            · simp only [resolveLazy, hpop _ hn]
              have hw : ∀ d : List (C × A), dget d e = none → walk sub c' (dput d e a) = walk sub c' d := by
                intro d
                induction d with
                | nil => intro _; simp [dput, walk, hnsub]
                | cons p r ih =>
                  intro hd
                  by_cases hp : p.1 = e
                  · simp [dget, hp] at hd
                  · rw [dget, if_neg hp] at hd
                    simp only [dput, hp, if_false, walk, ih hd]
              have hw2 : ∀ (d : List (C × A)) f b, dget d e = none → dget d f = none →
                  walk sub c' (dput (dput d e a) f b) = walk sub c' (dput d f b) := by
                intro d f b
                induction d with
                | nil =>
                  intro _ _
                  by_cases hef : e = f
                  · simp [dput, hef]
                  · simp [dput, hef, walk, hnsub]
                | cons p r ih =>
                  intro hd hf
                  by_cases hp : p.1 = e
                  · simp [dget, hp] at hd
                  · by_cases hpf : p.1 = f
                    · simp [dget, hpf] at hf
                    · rw [dget, if_neg hp] at hd
                      rw [dget, if_neg hpf] at hf
                      simp only [dput, hp, hpf, if_false, walk, ih hd hf]
              have hw3 : ∀ (d : List (C × A)) f b, f ≠ e → dget d e = none →
                  walk sub c' (dput (dput d e a) f b) = walk sub c' (dput d f b) := by
                intro d f b hfe
                induction d with
                | nil =>
                  intro _
                  have : ¬ e = f := fun q => hfe q.symm
                  simp [dput, this, walk, hnsub]
                | cons p r ih =>
                  intro hd
                  by_cases hp : p.1 = e
                  · simp [dget, hp] at hd
                  · rw [dget, if_neg hp] at hd
                    by_cases hpf : p.1 = f
                    · simp only [dput, hp, if_false, if_pos hpf, walk, hw r hd]
                    · simp only [dput, hp, hpf, if_false, walk, ih hd]
              rcases hq : dget s.lazy (name c') with _ | (_ | _ | ⟨f, b⟩)
              · simp [hx', dget_dput, hec, hw _ hxe]
              · simp
              · simp [hx', dget_dput, hec, hw _ hxe]
              · simp only [dget_dput, hx', if_neg hec]
                by_cases hfc : f = c'
                · simp [hfc]
                · simp only [if_neg hfc]
                  by_cases hfe : f = e
                  · rw [hw2 _ f b hxe (by rw [hfe]; exact hxe)]
                  · rw [hw3 _ f b hfe hxe]

/-- C33: after unregistering a class it has no adapter of its own; if no lazy registration is pending for its name and no ancestor is
registered, the next lookup finds nothing. -/
theorem C33_unregister_partial (name : C → String) (sub : C → C → Bool) (h : List (Op C A)) (c : C)
    (hp : pendingOf name h (name c) = none) (hanc : ∀ d a, exactOf name h d = some a → d ≠ c → sub c d = false) :
    (getAdapter name sub (after name sub (.unregister c :: h)) c).1 = .ok none := by
  have hx : exactOf name (.unregister c :: h) c = none := by simp [exactOf]
  have hp' : pendingOf name (.unregister c :: h) (name c) = none := by simp [pendingOf, hp]
  obtain ⟨r, hr, hans⟩ := C33_answer name sub (.unregister c :: h) c (fun _ => by rw [hp']; simp)
  rw [hr, C33_answer_unique name sub _ c r none hans]
  have hsame : ∀ d, exactOf name (.lookup c :: .unregister c :: h) d = exactOf name (.unregister c :: h) d := fun d => by
    have e := exactOf.eq_6 name d c (.unregister c :: h)
    rw [hx, hp'] at e
    exact e
  refine .nothing (by rw [hsame, hx]) (fun d b hd => ?_)
  have hd' : exactOf name (.unregister c :: h) d = some b := by rw [← hsame]; exact hd
  simp only [exactOf] at hd'
  split at hd'
  · cases hd'
  · rename_i hne
    exact hanc d b hd' (fun e => hne e.symm)

/-- C33: after clearing, nothing is found. -/
theorem C33_clear (name : C → String) (sub : C → C → Bool) (h : List (Op C A)) (c : C) :
    (getAdapter name sub (after name sub (.clear :: h)) c).1 = .ok none := by
  simp [after, step, clear, getAdapter, dget, resolveLazy, walk]

end

/-! ### Concrete cases, and what does not hold

Classes 0, 1, 2, …; 1 and 2 are subclasses of 0. -/

def exName (c : Nat) : String := if c = 0 then "Base" else if c = 1 then "Left" else if c = 2 then "Right" else "Left"
def exSub (c d : Nat) : Bool := decide (c = d) || (decide (d = 0) && decide (c ≤ 2))

/-- The longest registered ancestor, an own adapter, a lazy one. -/
example : (getAdapter exName exSub (after exName exSub [.registerLazy "Right" (.found 2 "r"), .register 0 "b", .register 1 "l"]) 1).1
    = .ok (some "l") := rfl
example : (getAdapter exName exSub (after exName exSub [.registerLazy "Right" (.found 2 "r"), .register 0 "b", .register 1 "l"]) 2).1
    = .ok (some "r") := rfl
example : (getAdapter exName exSub (after exName exSub [.unregister 1, .register 0 "b", .register 1 "l"]) 1).1
    = .ok (some "b") := rfl

/-- C33 fails in one respect: looking up the lazily registered class changes the answer for its subclasses, which before that find
nothing. -/
theorem C33_lookup_counterexample :
    (getAdapter exName exSub (after exName exSub [.registerLazy "Base" (.found 0 "b")]) 1).1 = .ok none ∧
    (getAdapter exName exSub (after exName exSub [.lookup 0, .registerLazy "Base" (.found 0 "b")]) 1).1 = .ok (some "b") := ⟨rfl, rfl⟩

/-- C33 fails in another: looking up a class that shares its name with a lazily registered one replaces an adapter registered
explicitly for the latter (class 3 is also called "Left"). -/
theorem C33_override_counterexample :
    (getAdapter exName exSub (after exName exSub [.register 1 "mine", .registerLazy "Left" (.found 1 "lazy")]) 1).1 =
      .ok (some "mine") ∧
    (getAdapter exName exSub (after exName exSub [.lookup 3, .register 1 "mine", .registerLazy "Left" (.found 1 "lazy")]) 1).1 =
      .ok (some "lazy") := ⟨rfl, rfl⟩

/-- C33 fails in a third: unregistering a class whose adapter is still lazy does not remove it. -/
theorem C33_unregister_counterexample :
    (getAdapter exName exSub (after exName exSub [.unregister 1, .registerLazy "Left" (.found 1 "lazy")]) 1).1 =
      .ok (some "lazy") := rfl

/-! ### `render` -/

section
variable {C R : Type} [DecidableEq C]

/-- C57: an intent is drawn by the adapter found for the target exactly when `list_capabilities` lists it; otherwise `render` returns
a warning (with the sorted capabilities if there is an adapter) and draws nothing.  The adapter is told the backend that was asked
for.  The backend must be usable. -/
theorem C57_dispatch (name : C → String) (sub : C → C → Bool) (usable : String → Bool) (s : Sess C R) (c : Option C)
    (tname kind backend : String) (extra : List (String × String)) (hb : backend = "matplotlib" ∨ usable backend = true)
    (ans : Option (Adapter R)) (hans : (getTarget name sub s.reg c).1 = .ok ans) :
    ∃ caps, listCapabilities name sub s.reg c = .ok caps ∧
    (kind ∈ caps → ∃ ad b, ans = some ad ∧ (backend ≠ "matplotlib" → backend ≠ "" → b = backend) ∧ (render name sub usable s c tname kind backend extra).1 =
      (match (styleContext s.style extra (ad.run kind b) s.rc).1 with | .ok x => .ok (.drawn x) | .error e => .error e)) ∧
    (kind ∉ caps → ∃ text sorted, (render name sub usable s c tname kind backend extra).1 = .ok (.warning kind text sorted) ∧
      (∀ l, sorted = some l → l.Perm caps ∧ l.Pairwise (· ≤ ·)) ∧ (sorted = none ↔ ans = none)) := by
  have hsw : ∃ b, switchBackend usable s.backend (requested backend) = some b := by
    unfold switchBackend requested
    rcases hb with hb | hb
    · rw [if_pos hb]; exact ⟨_, rfl⟩
    · split
      · exact ⟨_, rfl⟩
      · rename_i b hq
        have hbb : b = backend := by
          by_cases hm : backend = "matplotlib"
          · simp [hm] at hq
          · simpa [hm, eq_comm] using hq
        rw [hbb, hb]
        split <;> exact ⟨_, rfl⟩
  obtain ⟨b, hb'⟩ := hsw
  have hren : (render name sub usable s c tname kind backend extra).1 =
      (draw ans s.style extra tname kind (activeBackend (requested backend) b) s.rc).1 := by
    unfold render
    rcases hg : getTarget name sub s.reg c with ⟨x, g⟩
    rw [hg] at hans
    simp only at hans
    subst hans
    simp only [hb']
  cases ans with
  | none =>
    refine ⟨[], by simp [listCapabilities, hans], fun hk => absurd hk (by simp), fun _ => ?_⟩
    exact ⟨_, none, hren, fun l hl => by simp at hl, by simp⟩
  | some ad =>
    refine ⟨ad.caps, by simp [listCapabilities, hans], fun hk => ?_, fun hk => ?_⟩
    · refine ⟨ad, activeBackend (requested backend) b, rfl, fun h1 h2 => ?_, ?_⟩
      · simp only [requested, h1, if_false, activeBackend]
        split
        · rename_i e; exact absurd (Option.some.inj e) h2
        · rfl
      · rw [hren]
        simp only [draw]
        rw [if_pos (by simpa using hk)]
        rcases (styleContext s.style extra (ad.run kind (activeBackend (requested backend) b)) s.rc).1 with e | x <;> rfl
    · refine ⟨"Adapter " ++ ad.cls ++ " does not support intent '" ++ kind ++ "'.", some (ad.caps.mergeSort (fun a b => decide (a ≤ b))), ?_, fun l hl => ?_, by simp⟩
      · rw [hren]
        simp only [draw]
        rw [if_neg (by simpa using hk)]
      · cases hl
        refine ⟨List.mergeSort_perm _ _, ?_⟩
        have := List.pairwise_mergeSort (le := fun a b : String => decide (a ≤ b))
          (fun a b c h1 h2 => by
            simp only [decide_eq_true_eq] at *
            exact String.le_trans h1 h2)
          (fun a b => by
            have := String.le_total a b
            simpa using this) ad.caps
        exact this.imp (fun h => by simpa using h)

theorem dget_rcSet (rc : Rc) (k v k' : String) :
    dget (rcSet rc k v) k' = if k = k' ∧ (dget rc k).isSome then some v else dget rc k' := by
  induction rc with
  | nil => simp [rcSet, dget]
  | cons p r ih =>
    unfold rcSet at ih ⊢
    rw [List.map_cons]
    by_cases hp : p.1 = k
    · by_cases hk : k = k'
      · simp [dget, hp, hk]
      · simp only [dget, hp, if_true, hk, if_false, ih, false_and]
    · simp only [if_neg hp, dget, ih]
      by_cases hk : p.1 = k'
      · have : ¬ k = k' := fun e => hp (hk.trans e.symm)
        simp [hk, this]
      · simp [hk]

theorem rcSet_keys (rc : Rc) (k v : String) : (rcSet rc k v).map Prod.fst = rc.map Prod.fst := by
  unfold rcSet
  rw [List.map_map]
  refine List.map_congr_left (fun p _ => ?_)
  simp only [Function.comp]
  split
  · rename_i h; exact h.symm
  · rfl

theorem rcUpdate_keys (rc d : Rc) : (rcUpdate rc d).2.map Prod.fst = rc.map Prod.fst := by
  induction d generalizing rc with
  | nil => rfl
  | cons p r ih =>
    simp only [rcUpdate]
    split
    · rw [ih, rcSet_keys]
    · rfl

theorem ext_of_dget (a b : Rc) (hk : a.map Prod.fst = b.map Prod.fst) (hn : (a.map Prod.fst).Nodup)
    (h : ∀ k, dget a k = dget b k) : a = b := by
  induction a generalizing b with
  | nil =>
    cases b with
    | nil => rfl
    | cons p r => simp at hk
  | cons p r ih =>
    cases b with
    | nil => simp at hk
    | cons q t =>
      rw [List.map_cons, List.map_cons, List.cons.injEq] at hk
      rw [List.map_cons, List.nodup_cons] at hn
      have hpq : p = q := by
        have := h p.1
        simp only [dget, if_true, hk.1.symm, Option.some.injEq] at this
        exact Prod.ext hk.1 this
      subst hpq
      rw [ih t hk.2 hn.2 (fun k => ?_)]
      have := h k
      simp only [dget] at this
      by_cases hpk : p.1 = k
      · have h1 : dget r k = none := by
          cases hd : dget r k with
          | none => rfl
          | some v => exact absurd ((dget_isSome r k).1 (by rw [hd]; rfl)) (hpk ▸ hn.1)
        have h2 : dget t k = none := by
          cases hd : dget t k with
          | none => rfl
          | some v => exact absurd ((dget_isSome t k).1 (by rw [hd]; rfl)) (by rw [← hk.2]; exact hpk ▸ hn.1)
        rw [h1, h2]
      · simpa [hpk] using this

theorem rcUpdate_get (rc d : Rc) (hn : (d.map Prod.fst).Nodup) (hin : ∀ k ∈ d.map Prod.fst, k ∈ rc.map Prod.fst) (k : String) :
    dget (rcUpdate rc d).2 k = (match dget d k with | some v => some v | none => dget rc k) := by
  induction d generalizing rc with
  | nil => simp [rcUpdate, dget]
  | cons p r ih =>
    rw [List.map_cons, List.nodup_cons] at hn
    have hp : (dget rc p.1).isSome = true := (dget_isSome _ _).2 (hin p.1 (by simp))
    simp only [rcUpdate, hp, if_true]
    rw [ih _ hn.2 (fun k hk => by rw [rcSet_keys]; exact hin k (by simp [hk])), dget_rcSet]
    by_cases hpk : p.1 = k
    · have h1 : dget r k = none := by
        cases hd : dget r k with
        | none => rfl
        | some v => exact absurd ((dget_isSome r k).1 (by rw [hd]; rfl)) (hpk ▸ hn.1)
      rw [h1]
      have : (dget rc k).isSome = true := hpk ▸ hp
      simp [dget, hpk, this]
    · simp [dget, hpk]

/-- Restoring with all the original values gives the original parameters back. -/
theorem restore (rc rc' : Rc) (hn : (rc.map Prod.fst).Nodup) (hk : rc'.map Prod.fst = rc.map Prod.fst) :
    (rcUpdate rc' rc).2 = rc := by
  refine ext_of_dget _ _ (by rw [rcUpdate_keys, hk]) (by rw [rcUpdate_keys, hk]; exact hn) (fun k => ?_)
  rw [rcUpdate_get rc' rc hn (fun k h => by rw [hk]; exact h)]
  cases hd : dget rc k with
  | some v => rfl
  | none =>
    simp only
    cases hd' : dget rc' k with
    | none => rfl
    | some v =>
      have := (dget_isSome rc' k).1 (by rw [hd']; rfl)
      rw [hk] at this
      rw [← dget_isSome, hd] at this
      cases this

/-- C58: rendering never leaks plot style: whatever the adapter does (return, raise, change parameters itself), whatever the style and
the extra style (unknown keys included), the parameters of matplotlib afterwards are those before. -/
theorem C58_style_restored_partial (name : C → String) (sub : C → C → Bool) (usable : String → Bool) (s : Sess C R) (c : Option C)
    (tname kind backend : String) (extra : List (String × String)) (hn : (s.rc.map Prod.fst).Nodup)
    (hk : ∀ ad, (getTarget name sub s.reg c).1 = .ok (some ad) → ∀ b rc,
      (ad.run kind b rc).2.map Prod.fst = rc.map Prod.fst) :
    (render name sub usable s c tname kind backend extra).2.rc = s.rc ∧
    (render name sub usable s c tname kind backend extra).2.style = s.style := by
  unfold render
  rcases hg : getTarget name sub s.reg c with ⟨x, g⟩
  cases x with
  | error e => exact ⟨rfl, rfl⟩
  | ok ad =>
    simp only
    cases hs : switchBackend usable s.backend (requested backend) with
    | none => exact ⟨rfl, rfl⟩
    | some b =>
      refine ⟨?_, rfl⟩
      simp only
      cases ad with
      | none => rfl
      | some ad =>
        simp only [draw]
        split
        · simp only [styleContext]
          have hkeys := rcUpdate_keys s.rc (dupdate s.style extra)
          rcases hu : rcUpdate s.rc (dupdate s.style extra) with ⟨ok, rc'⟩
          rw [hu] at hkeys
          cases ok with
          | false => exact restore _ _ hn hkeys
          | true =>
            refine restore _ _ hn ?_
            rw [hk ad (by rw [hg]) _ rc']
            exact hkeys
        · rfl

omit [DecidableEq C] in
/-- C58: a style with a key matplotlib does not know is refused with KeyError before anything is drawn; with known keys only the body is run
with each of them set to the style's value and every other parameter as before, and its result is returned. -/
theorem C58_style_applied (style extra : List (String × String)) (body : Rc → Except String R × Rc) (rc : Rc)
    (hn : ((dupdate style extra).map Prod.fst).Nodup) :
    ((∃ k ∈ (dupdate style extra).map Prod.fst, k ∉ rc.map Prod.fst) → (styleContext style extra body rc).1 = .error "KeyError") ∧
    ((∀ k ∈ (dupdate style extra).map Prod.fst, k ∈ rc.map Prod.fst) → ∃ rc', (styleContext style extra body rc).1 = (body rc').1 ∧
      ∀ k, dget rc' k = (match dget (dupdate style extra) k with | some v => some v | none => dget rc k)) := by
  have hbad : ∀ (d rc : Rc), (∃ k ∈ d.map Prod.fst, k ∉ rc.map Prod.fst) → (rcUpdate rc d).1 = false := by
    intro d
    induction d with
    | nil => rintro rc ⟨k, hk, _⟩; simp at hk
    | cons p r ih =>
      rintro rc ⟨k, hk, hkn⟩
      simp only [rcUpdate]
      split
      · rename_i hp
        rw [List.map_cons, List.mem_cons] at hk
        rcases hk with rfl | hk
        · exact absurd ((dget_isSome _ _).1 hp) hkn
        · exact ih _ ⟨k, hk, by rw [rcSet_keys]; exact hkn⟩
      · rfl
  have hgood : ∀ (d rc : Rc), (∀ k ∈ d.map Prod.fst, k ∈ rc.map Prod.fst) → (rcUpdate rc d).1 = true := by
    intro d
    induction d with
    | nil => intro rc _; rfl
    | cons p r ih =>
      intro rc hin
      have hp : (dget rc p.1).isSome = true := (dget_isSome _ _).2 (hin p.1 (by simp))
      simp only [rcUpdate, hp, if_true]
      exact ih _ fun k hk => by rw [rcSet_keys]; exact hin k (by simp [hk])
  constructor
  · intro h
    have h1 := hbad _ _ h
    unfold styleContext
    rcases hu : rcUpdate rc (dupdate style extra) with ⟨ok, rc'⟩
    rw [hu] at h1
    cases h1
    rfl
  · intro h
    have h1 := hgood _ _ h
    have h2 := rcUpdate_get rc (dupdate style extra) hn h
    unfold styleContext
    rcases hu : rcUpdate rc (dupdate style extra) with ⟨ok, rc'⟩
    rw [hu] at h1 h2
    cases h1
    exact ⟨rc', rfl, h2⟩

/-- A style with a known and with an unknown key. -/
example : ((dupdate [("font.size", "12")] []).map Prod.fst).Nodup ∧
    (styleContext [("font.size", "12")] [] (fun rc => (.ok (dget rc "font.size"), rc)) [("font.size", "10")]).1.toOption = some (some "12") ∧
    (styleContext [("font.sise", "12")] [] (fun rc => (.ok (dget rc "font.size"), rc)) [("font.size", "10")]).1.toOption = none := by decide

omit [DecidableEq C] in
/-- C58: the configured style is the defaults overlaid with the given style: a key takes the given value (the last one given), else
the default; earlier calls of `configure` leave no trace. -/
theorem C58_configure (defaults style : List (String × String)) (s : Sess C R) (k : String) :
    dget (configureStyle defaults s style).style k =
      (match dget style.reverse k with | some v => some v | none => dget defaults k) := by
  show dget (dupdate defaults style) k = _
  unfold dupdate
  induction style generalizing defaults with
  | nil => simp [dget]
  | cons p r ih =>
    rw [List.foldl_cons, ih, dget_dput, List.reverse_cons]
    have happ : ∀ (l : List (String × String)), dget (l ++ [p]) k =
        (match dget l k with | some v => some v | none => if p.1 = k then some p.2 else none) := by
      intro l
      induction l with
      | nil => simp [dget]
      | cons q l ih => by_cases hq : q.1 = k <;> simp [dget, hq, ih]
    rw [happ]
    cases dget r.reverse k with
    | some v => rfl
    | none => by_cases hp : p.1 = k <;> simp [hp]

/-- **C57** (the backend): a figure is drawn with the backend named in the call, if one is named (not the default and not empty), otherwise with the
configured one, and with `matplotlib` if none is configured. -/
theorem C57_backend (req cur : Option String) :
    (∀ b, b ≠ "" → req = some b → activeBackend req cur = b) ∧
    (req = none ∨ req = some "" → (∀ b, b ≠ "" → cur = some b → activeBackend req cur = b) ∧
      (cur = none ∨ cur = some "" → activeBackend req cur = "matplotlib")) := by
  refine ⟨?_, ?_⟩
  · rintro b hb rfl
    simp only [activeBackend]
    split <;> simp_all
  · intro h
    refine ⟨?_, ?_⟩
    · rintro b hb rfl
      simp only [activeBackend]
      rcases h with rfl | rfl <;> split <;> simp_all
    · rintro (rfl | rfl) <;> rcases h with rfl | rfl <;> rfl

/-- C58 fails in one respect: the backend of an earlier call stays: a call that names no backend (the default) is drawn with the
backend of the last call that named one. -/
theorem C58_backend_counterexample (name : C → String) (sub : C → C → Bool) (rc : Rc) (extra : List (String × String)) :
    let s : Sess C R := { reg := { eager := [], lazy := [] }, style := [], backend := none, rc := rc }
    (render name sub (fun _ => true) s none "NoneType" "x" "agg" extra).2.backend = some "agg" ∧
    activeBackend (requested "matplotlib") none = "matplotlib" ∧
    activeBackend (requested "matplotlib") (some "agg") = "agg" := by
  refine ⟨?_, by decide, by decide⟩
  simp [render, getTarget, requested, switchBackend]

end

/-- A concrete rendering: the adapter changes a parameter and raises; the parameters are restored. -/
example :
    let ad : Adapter Nat := { cls := "V", caps := ["equation"], run := fun _ _ rc => (.error "boom", rcSet rc "font.size" "99") }
    let s : Sess Nat Nat := { reg := { eager := [(1, ad)], lazy := [] }, style := [("font.size", "12")], backend := none,
                              rc := [("font.size", "10"), ("savefig.dpi", "100")] }
    (render exName exSub (fun _ => true) s (some 1) "Left" "equation" "matplotlib" [("savefig.dpi", "300")]).2.rc = s.rc := by
  decide

/-- The registry as shipped: three classes registered, the fourth lazily (adapters.py:15-45); each gets its own adapter, in any order
of lookups, and classes that are none of these and no subclass of them get none. -/
def shippedHistory : List (Op String String) :=
  [.registerLazy "KD_PySR" (.found "KD_PySR" "PySRVizAdapter"), .register "KD_SGA" "SGAVizAdapter",
   .register "KD_Discover" "DiscoverVizAdapter", .register "KD_DLGA" "DLGAVizAdapter"]

/-- The specification of the shipped registry. -/
def shippedAdapter (c : String) : Option String :=
  if c = "KD_DLGA" then some "DLGAVizAdapter" else if c = "KD_Discover" then some "DiscoverVizAdapter"
  else if c = "KD_SGA" then some "SGAVizAdapter" else if c = "KD_PySR" then some "PySRVizAdapter" else none

/-- C33 for the shipped registrations (classes named by their names): after any sequence of lookups, a class gets its own adapter. -/
theorem C33_shipped (sub : String → String → Bool) (lookups : List String) (c : String) (a : String)
    (ha : shippedAdapter c = some a) :
    (getAdapter id sub (after id sub (lookups.map Op.lookup ++ shippedHistory)) c).1 = .ok (some a) := by
  -- either the lazy entry is pending, or the class already has its adapter
  have key : ∀ ls : List String,
      (∀ c, c ≠ "KD_PySR" → exactOf id (ls.map Op.lookup ++ shippedHistory) c = shippedAdapter c) ∧
      ((exactOf id (ls.map Op.lookup ++ shippedHistory) "KD_PySR" = none ∧
        pendingOf id (ls.map Op.lookup ++ shippedHistory) "KD_PySR" = some (.found "KD_PySR" "PySRVizAdapter")) ∨
       exactOf id (ls.map Op.lookup ++ shippedHistory) "KD_PySR" = some "PySRVizAdapter") ∧
      (∀ n, n ≠ "KD_PySR" → pendingOf id (ls.map Op.lookup ++ shippedHistory) n = none) := by
    intro ls
    induction ls with
    | nil =>
      refine ⟨fun c hc => ?_, Or.inl ⟨by decide, by decide⟩, fun n hn => ?_⟩
      · simp only [List.map_nil, List.nil_append, shippedHistory, exactOf, shippedAdapter]
        by_cases h1 : c = "KD_DLGA"
        · subst h1; decide
        · by_cases h2 : c = "KD_Discover"
          · subst h2; decide
          · by_cases h3 : c = "KD_SGA"
            · subst h3; decide
            · simp [Ne.symm h1, Ne.symm h2, Ne.symm h3, h1, h2, h3, hc]
      · simp only [List.map_nil, List.nil_append, shippedHistory, pendingOf]
        simp [Ne.symm hn]
    | cons d ls ih =>
      obtain ⟨i1, i2, i3⟩ := ih
      rw [List.map_cons, List.cons_append]
      generalize ls.map Op.lookup ++ shippedHistory = h at i1 i2 i3 ⊢
      by_cases hd : d = "KD_PySR"
      · subst hd
        rcases i2 with ⟨hx, hp⟩ | hx
        · refine ⟨fun c hc => ?_, Or.inr ?_, fun n hn => ?_⟩
          · simp only [exactOf, id, hx, hp, Ne.symm hc, if_false]; exact i1 c hc
          · simp only [exactOf, id, hx, hp, if_true]
          · simp only [pendingOf, id, hx, Ne.symm hn, if_false]; exact i3 n hn
        · refine ⟨fun c hc => ?_, Or.inr ?_, fun n hn => ?_⟩
          · simp only [exactOf, id, hx]; exact i1 c hc
          · simp only [exactOf, id, hx]
          · simp only [pendingOf, id, hx]; exact i3 n hn
      · have hpd := i3 d hd
        have hsame : ∀ c, exactOf id (Op.lookup d :: h) c = exactOf id h c := fun c => by
          simp [exactOf, id, hpd]
        have hpsame : ∀ n, pendingOf id (Op.lookup d :: h) n = pendingOf id h n := fun n => by
          simp only [pendingOf, id]
          split
          · split
            · rename_i hn; rw [← hn, hpd]
            · rfl
          · rfl
        refine ⟨fun c hc => by rw [hsame]; exact i1 c hc, ?_, fun n hn => by rw [hpsame]; exact i3 n hn⟩
        rw [hsame, hpsame]; exact i2
  obtain ⟨k1, k2, _⟩ := key lookups
  by_cases hc : c = "KD_PySR"
  · subst hc
    have : a = "PySRVizAdapter" := by
      have h2 : shippedAdapter "KD_PySR" = some "PySRVizAdapter" := by decide
      rw [h2] at ha; exact (Option.some.inj ha).symm
    subst this
    rcases k2 with ⟨hx, hp⟩ | hx
    · exact (C33_lazy id sub _ _ _ hx hp).1
    · rw [C33_exact id sub _ _ _ hx]
  · rw [C33_exact id sub _ _ a (by rw [k1 c hc]; exact ha)]

end Verif.Claims
