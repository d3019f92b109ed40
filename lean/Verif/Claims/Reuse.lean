import Verif.Sga.Reuse
/-!
# C167: a configuration used for several contexts
-/
namespace Verif.Sga.Reuse.Claims
open Verif.Sga.Reuse
variable {A : Type}

/-- A configuration with the legacy arrays given and nothing else. -/
def given (target : String) (u x t : A) : Conf A := ⟨target, some u, some x, some t, none, none, none, none⟩

/-- The first context analyses the given arrays. -/
theorem C167_first_partial (target : String) (u x t : A) : (build (given target u x t)).2 = some ⟨[(target, u)], [("x", x), ("t", t)], ["x", "t"]⟩ := rfl

/-- The first context of a grid analyses the given grid, with the given order of the axes (that of the coordinates without one). -/
theorem C167_first_grid_partial (c : Conf A) (f k : Dict A) (hf : c.fields = some f) (hk : c.coords = some k) (ax : List String)
    (hne : ax ≠ []) (hx : c.axes = some ax ∨ ((c.axes = none ∨ c.axes = some []) ∧ ax = k.map Prod.fst)) :
    (build c).2 = some ⟨f, k, ax⟩ := by
  have h : axisOrder c.axes k = ax := by
    rcases hx with hx | ⟨hx | hx, he⟩
    · cases ax with
      | nil => exact absurd rfl hne
      | cons a as => rw [hx]; rfl
    · rw [hx, he]; rfl
    · rw [hx, he]; rfl
  simp [build, payload, hf, hk, h, hne]

/-- Without a grid: arrays given in part are refused, also if the configuration has data of its own (they are not completed from it); without any given array those of the
configuration are analysed. -/
theorem C167_incomplete (c : Conf A) (hf : c.fields = none) (hk : c.coords = none) :
    ((c.u.isSome ∨ c.x.isSome ∨ c.t.isSome) → (c.u = none ∨ c.x = none ∨ c.t = none) → (build c).2 = none) ∧
    (c.u = none → c.x = none → c.t = none → (build c).2 = c.own.map fun d => ⟨[(c.target, d.1)], [("x", d.2.1), ("t", d.2.2)], ["x", "t"]⟩) := by
  constructor
  · intro h1 h2
    have : arrays c = none := by
      unfold arrays
      rw [if_pos (by simpa [or_assoc] using h1)]
      rcases h2 with h | h | h
      · rw [h]
      · rw [h]; cases c.u <;> rfl
      · rw [h]; cases c.u <;> cases c.x <;> rfl
    simp [build, payload, hf, hk, this]
  · intro h1 h2 h3
    have : arrays c = c.own := by simp [arrays, h1, h2, h3]
    unfold build payload
    rw [hf, hk, this]
    cases c.own <;> rfl

theorem build_some {c : Conf A} {p : Payload A} (h : (build c).2 = some p) : (build c).1 = store c p := by
  unfold build at h ⊢
  cases hp : payload c with
  | none => rw [hp] at h; nomatch h
  | some q => rw [hp] at h; cases h; rfl

theorem payload_axes {c : Conf A} {p : Payload A} (h : payload c = some p) : p.axes ≠ [] := by
  unfold payload at h
  cases hf : c.fields with
  | none =>
    cases hk : c.coords with
    | none =>
      rw [hf, hk] at h
      cases ha : arrays c with
      | none => simp [ha] at h
      | some d => simp [ha] at h; subst h; simp [legacy]
    | some k => simp [hf, hk] at h
  | some f =>
    cases hk : c.coords with
    | none => simp [hf, hk] at h
    | some k =>
      simp only [hf, hk] at h
      by_cases hx : axisOrder c.axes k = []
      · simp [hx] at h
      · simp only [if_neg hx, Option.some.injEq] at h; subst h; exact hx

theorem payload_store (c : Conf A) (p : Payload A) (hp : p.axes ≠ []) : payload (store c p) = some p := by
  obtain ⟨f, k, a⟩ := p
  cases a with
  | nil => exact absurd rfl hp
  | cons b bs => simp [payload, store, axisOrder]

/-- Building again without changes gives the same data and leaves the configuration alone. -/
theorem C167_again_partial (c : Conf A) (p : Payload A) (h : (build c).2 = some p) : build (build c).1 = ((build c).1, some p) := by
  have hp : payload c = some p := by
    unfold build at h
    cases hq : payload c with
    | none => rw [hq] at h; nomatch h
    | some q => rw [hq] at h; exact h
  have hs := payload_store c p (payload_axes hp)
  rw [build_some h]
  unfold build
  rw [hs]
  rfl

/-- The actions that give new legacy arrays, or build. -/
def Arrays : Op A → Prop
  | .setU _ => True
  | .setX _ => True
  | .setT _ => True
  | .build => True
  | _ => False

/-- After a first context no new array u, x or t is ever analysed: whatever arrays are set and however many contexts follow, all analyse the data
of the first. -/
theorem C167_stale_counterexample (c : Conf A) (p : Payload A) (h : (build c).2 = some p) (ops : List (Op A)) (ho : ∀ o ∈ ops, Arrays o) :
    ∀ q ∈ (run c (.build :: ops)).2, q = p := by
  have hp : payload c = some p := by
    unfold build at h
    cases hq : payload c with
    | none => rw [hq] at h; nomatch h
    | some q => rw [hq] at h; exact h
  have inv : ∀ (ops : List (Op A)) (s : Conf A × List (Payload A)), (∀ o ∈ ops, Arrays o) →
      s.1.fields = some p.fields → s.1.coords = some p.coords → s.1.axes = some p.axes → (∀ q ∈ s.2, q = p) →
      ∀ q ∈ (ops.foldl step s).2, q = p := by
    intro ops
    induction ops with
    | nil => intro s _ _ _ _ h; exact h
    | cons o os ih =>
      intro s ha hf hk hx hq
      have ho := ha o List.mem_cons_self
      have hos := fun o' h' => ha o' (List.mem_cons_of_mem _ h')
      rw [List.foldl_cons]
      cases o with
      | setU a => exact ih _ hos hf hk hx hq
      | setX a => exact ih _ hos hf hk hx hq
      | setT a => exact ih _ hos hf hk hx hq
      | setFields d => exact absurd ho id
      | setCoords d => exact absurd ho id
      | setAxes d => exact absurd ho id
      | build =>
        have hs : s.1 = store s.1 p := by
          cases hc : s.1
          simp only [hc] at hf hk hx
          simp [store, hf, hk, hx]
        have hb : build s.1 = (s.1, some p) := by
          unfold build
          rw [hs, payload_store _ p (payload_axes hp)]
          rfl
        refine ih _ hos ?_ ?_ ?_ ?_
        · simp only [step, hb]; exact hf
        · simp only [step, hb]; exact hk
        · simp only [step, hb]; exact hx
        · intro q hm
          simp only [step, hb, Option.toList_some, List.mem_append, List.mem_singleton] at hm
          exact hm.elim (hq q) id
  have hb : build c = (store c p, some p) := by unfold build; rw [hp]
  unfold run
  rw [List.foldl_cons]
  refine inv ops _ ho ?_ ?_ ?_ ?_
  · simp [step, hb, store]
  · simp [step, hb, store]
  · simp [step, hb, store]
  · intro q hm
    simpa [step, hb] using hm

/-- A new grid after a first context is analysed, but with the axes of the first unless they are set as well. -/
theorem C167_axes_counterexample (c : Conf A) (p : Payload A) (h : (build c).2 = some p) (f k : Dict A) :
    (run c [.build, .setFields f, .setCoords k, .build]).2 = [p, ⟨f, k, p.axes⟩] := by
  have hp : payload c = some p := by
    unfold build at h
    cases hq : payload c with
    | none => rw [hq] at h; nomatch h
    | some q => rw [hq] at h; exact h
  have hx := payload_axes hp
  have hb : build c = (store c p, some p) := by unfold build; rw [hp]
  obtain ⟨pf, pk, a⟩ := p
  cases a with
  | nil => exact absurd rfl hx
  | cons b bs =>
    simp only [run, List.foldl_cons, List.foldl_nil, step, hb, store]
    simp [build, payload, axisOrder]

/-- With the axes set as well the new grid is analysed as given. -/
theorem C167_new_grid_partial (c : Conf A) (p : Payload A) (h : (build c).2 = some p) (f k : Dict A) (a : String) (as : List String) :
    (run c [.build, .setFields f, .setCoords k, .setAxes (a :: as), .build]).2 = [p, ⟨f, k, a :: as⟩] := by
  have hb : build c = (store c p, some p) := by
    have := build_some h
    cases hc : build c; rw [hc] at h this; simp only at h this; rw [h, this]
  simp only [run, List.foldl_cons, List.foldl_nil, step, hb, store]
  simp [build, payload, axisOrder]

/-! Arrays 1, 2, 3; then u becomes 9: the second context still analyses 1. -/
example : (run (given "u" 1 2 3) [.build, .setU 9, .build]).2.map (fun p => p.fields) = [[("u", 1)], [("u", 1)]] := by decide +kernel
/-! A three-dimensional grid after a legacy problem keeps the axes x and t. -/
example : ((run (given "u" 1 2 3) [.build, .setFields [("u", 7)], .setCoords [("x", 1), ("y", 2), ("t", 3)], .build]).2.map fun p => p.axes) =
    [["x", "t"], ["x", "t"]] := by decide +kernel

end Verif.Sga.Reuse.Claims
