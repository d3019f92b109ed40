import Verif.Sga.Context
/-!
# C19, C20, C29: SGA term trees and the symbol tables they are drawn from
-/
namespace Verif.Claims
open Verif.Sga

/-! ## C29: the symbol tables -/

theorem dkey_toList (f a : String) : (dkey f a).toList = f.toList ++ '_' :: a.toList := by
  simp [dkey, String.toList_append]

theorem dkey_inj {f a f' a' : String} (h1 : '_' ∉ a.toList) (h2 : '_' ∉ a'.toList) (h : dkey f a = dkey f' a') :
    f = f' ∧ a = a' := by
  have h := congrArg String.toList h
  rw [dkey_toList, dkey_toList] at h
  have key : ∀ (x y u v : List Char), '_' ∉ u → '_' ∉ v → x ++ '_' :: u = y ++ '_' :: v → x = y ∧ u = v := by
    intro x y u v hu hv he
    rw [List.append_eq_append_iff] at he
    rcases he with ⟨c, h1, h2⟩ | ⟨c, h1, h2⟩
    · cases c with
      | nil => simp at h1 h2; exact ⟨h1.symm, h2⟩
      | cons d c => simp at h2; exact absurd (by rw [h2.2]; simp) hu
    · cases c with
      | nil => simp at h1 h2; exact ⟨h1, h2.symm⟩
      | cons d c => simp at h2; exact absurd (by rw [h2.2]; simp) hv
  obtain ⟨a1, a2⟩ := key _ _ _ _ h1 h2 h
  exact ⟨String.toList_inj.1 a1, String.toList_inj.1 a2⟩

theorem mem_insertKeys {k : String} : ∀ {ks acc : List String}, k ∈ insertKeys acc ks ↔ k ∈ acc ∨ k ∈ ks := by
  intro ks
  induction ks with
  | nil => intro acc; simp [insertKeys]
  | cons x ks ih =>
    intro acc
    have e : insertKeys acc (x :: ks) = insertKeys (if acc.contains x then acc else acc ++ [x]) ks := rfl
    rw [e, ih]
    by_cases hx : x ∈ acc
    · simp only [List.contains_eq_mem, hx, decide_true, if_true, List.mem_cons]
      constructor
      · rintro (h | h)
        · exact Or.inl h
        · exact Or.inr (Or.inr h)
      · rintro (h | rfl | h)
        · exact Or.inl h
        · exact Or.inl hx
        · exact Or.inr h
    · simp [List.contains_eq_mem, hx, or_assoc]

theorem insertKeys_nodup : ∀ (ks acc : List String), acc.Nodup → (insertKeys acc ks).Nodup := by
  intro ks
  induction ks with
  | nil => intro acc h; exact h
  | cons x ks ih =>
    intro acc h
    have e : insertKeys acc (x :: ks) = insertKeys (if acc.contains x then acc else acc ++ [x]) ks := rfl
    rw [e]
    apply ih
    by_cases hx : x ∈ acc
    · simpa [List.contains_eq_mem, hx] using h
    · simp only [List.contains_eq_mem, hx, decide_false, Bool.false_eq_true, if_false]
      rw [List.nodup_append]
      exact ⟨h, by simp, by intro a ha b hb; simp at hb; subst hb; intro he; subst he; exact hx ha⟩

/-- What a successful construction has checked. -/
theorem build_spec {p : Prob} {w : Pays} {ctx : Ctx} (h : p.build w = some ctx) :
    p.namesOk = true ∧ p.gridOk = true ∧ p.targetOk = true ∧ p.primaryAxis.isSome = true ∧
    (∀ e ∈ p.denTable w, e.name ≠ p.lhs) ∧ p.denTable w ≠ [] ∧ p.lhs ∈ p.axes ∧
    (∀ f ∈ p.fields, dkey f p.lhs ∉ p.gradKeys) ∧ (∀ e ∈ p.vars w true, e.name ≠ p.lhs) ∧
    ctx = p.tables w := by
  unfold Prob.build at h
  split at h
  · rename_i hc
    simp only [Bool.and_eq_true, Bool.not_eq_true', List.any_eq_false, beq_iff_eq, List.all_eq_true,
      List.isEmpty_eq_false_iff, List.contains_iff_mem] at hc
    obtain ⟨⟨⟨⟨⟨⟨⟨⟨h1, h2⟩, h3⟩, h4⟩, h5⟩, h6⟩, h7⟩, h8⟩, h9⟩ := hc
    simp at h
    refine ⟨h1, h2, h3, h4, h6, h5, h7, ?_, h9, h.symm⟩
    intro f hf hm
    have := h8 f hf
    rw [List.contains_eq_mem] at this
    simp [hm] at this
  · simp at h

theorem namesOk_spec {p : Prob} (h : p.namesOk = true) :
    (∀ a ∈ p.axes, validAxis [] a.toList = true) ∧ (∀ f ∈ p.fields, validName [] f.toList = true) ∧
    (∀ f ∈ p.fields, f ∉ p.coords) ∧ (∀ f ∈ p.fields, ∀ g ∈ p.fields, ∀ a ∈ p.axes, f ≠ dkey g a) := by
  unfold Prob.namesOk at h
  simp only [Bool.and_eq_true, List.all_eq_true, Bool.not_eq_true', bne_iff_ne] at h
  refine ⟨h.1.1.1.1.1.1, h.1.1.1.1.2, ?_, h.1.1.2⟩
  intro f hf
  have := h.1.1.1.2 f hf
  simpa [List.contains_eq_mem] using this

theorem validAxis_no_underscore {a : List Char} (h : validAxis [] a = true) : '_' ∉ a := by
  simp only [validAxis, Bool.and_eq_true, Bool.not_eq_true'] at h
  simpa using h.2

/-- **C29**: if the problem context is built at all, the left-hand-side axis is neither a variable nor a denominator,
and a variable named like the left-hand-side derivative of a field can only be a user-supplied parameter field. -/
theorem C29_tables_partial {p : Prob} {w : Pays} {ctx : Ctx} (h : p.build w = some ctx) :
    (∀ e ∈ ctx.VARS, e.name ≠ p.lhs) ∧ (∀ e ∈ ctx.den, e.name ≠ p.lhs) ∧
    (∀ f ∈ p.fields, ∀ e ∈ ctx.VARS, e.name = dkey f p.lhs → e.name ∈ p.params) := by
  obtain ⟨h1, _, _, _, h6, _, h7, h8, h9, rfl⟩ := build_spec h
  obtain ⟨n1, n2, n3, n4⟩ := namesOk_spec h1
  refine ⟨h9, h6, ?_⟩
  intro f hf e he hk
  simp only [Prob.tables, Prob.vars, if_true, List.mem_append, List.mem_map, List.mem_cons, List.not_mem_nil, or_false] at he
  rcases he with ((((⟨g, hg, rfl⟩ | ⟨a, ha, rfl⟩) | ⟨q, hq, rfl⟩) | rfl) | ⟨k, hk', rfl⟩)
  · exact absurd hk (n4 g hg f hf p.lhs h7)
  · exfalso
    simp at hk
    have hv := validAxis_no_underscore (n1 a (List.mem_filter.1 ha).1)
    rw [hk, dkey_toList] at hv
    simp at hv
  · exact hq
  · exfalso
    have := congrArg String.toList hk
    rw [dkey_toList] at this
    have hm : '_' ∈ "0".toList := by rw [this]; simp
    revert hm; decide
  · exact absurd (hk ▸ hk') (h8 f hf)

/-- **C29** (operators): every context has the same eight operators, with these numbers of arguments, and each has a function of its own. -/
theorem C29_operators {p : Prob} {w : Pays} {ctx : Ctx} (h : p.build w = some ctx) :
    ctx.OPS.map (fun e => (e.name, e.arity)) =
      [("+", 2), ("-", 2), ("*", 2), ("/", 2), ("d", 2), ("d^2", 2), ("^2", 1), ("^3", 1)] ∧
    ∀ e ∈ ctx.OPS, ∀ e' ∈ ctx.OPS, e.pay = e'.pay → e = e' := by
  obtain ⟨_, _, _, _, _, _, _, _, _, rfl⟩ := build_spec h
  have q : ∀ e ∈ [opAdd, opSub, opMul, opDiv, opD, opD2, opSq, opCu], ∀ e' ∈ [opAdd, opSub, opMul, opDiv, opD, opD2, opSq, opCu],
      e.pay = e'.pay → e = e' := by decide
  exact ⟨rfl, q⟩

/-- **C29** (name clashes): the context is refused if a field is called like a coordinate, like a first derivative of a field along an axis, like the old short name of the
left-hand-side derivative (`ut` for field `u` and axis `t`), or `ux`. -/
theorem C29_clash (p : Prob) (w : Pays) (f : String) (hf : f ∈ p.fields)
    (h : f ∈ p.coords ∨ (∃ g ∈ p.fields, ∃ a ∈ p.axes, f = g ++ "_" ++ a) ∨ (p.lhs.length = 1 ∧ p.target ∈ p.fields ∧ f = p.target ++ p.lhs) ∨ f = "ux") :
    p.build w = none := by
  cases hb : p.build w with
  | none => rfl
  | some ctx =>
    exfalso
    have h1 := (build_spec hb).1
    obtain ⟨_, _, n3, n4⟩ := namesOk_spec h1
    rcases h with h | ⟨g, hg, a, ha, rfl⟩ | ⟨h2, h3, rfl⟩ | rfl
    · exact n3 f hf h
    · exact n4 _ hf g hg a ha rfl
    · unfold Prob.namesOk at h1
      simp only [Bool.and_eq_true, Bool.not_eq_true', Bool.and_eq_false_iff, decide_eq_false_iff_not, List.contains_eq_mem] at h1
      rcases h1.1.2 with (h | h) | h
      · exact h h2
      · simp [h3] at h
      · simp [hf] at h
    · unfold Prob.namesOk at h1
      simp only [Bool.and_eq_true, Bool.not_eq_true', List.contains_eq_mem] at h1
      have := h1.2
      simp [hf] at this

/-- Without parameter fields no variable refers to a left-hand-side derivative. -/
theorem C29_no_derivative_partial {p : Prob} {w : Pays} {ctx : Ctx} (h : p.build w = some ctx)
    (hp : p.params = []) : ∀ f ∈ p.fields, ∀ e ∈ ctx.VARS, e.name ≠ dkey f p.lhs := by
  intro f hf e he hk
  have := (C29_tables_partial h).2.2 f hf e he hk
  rw [hp] at this; simp at this

def exProb : Prob := ⟨["u", "v"], ["x", "y", "t"], ["x", "y", "t"], "t", "u", none, [], [], true⟩
def exPays : Pays := ⟨fun _ => 0, fun _ => 1, fun _ => 2, 3, fun _ => 4⟩

example : ∃ ctx, exProb.build exPays = some ctx ∧
    ctx.VARS.map (·.name) = ["u", "v", "x", "y", "0", "u_x", "u_y", "v_x", "v_y"] := by
  refine ⟨(exProb.build exPays).get (by decide), by simp, by decide⟩

/-- Parameter names are not checked: a parameter field called `u_t` puts the left-hand side itself into the library. -/
theorem C29_param_counterexample :
    ((⟨["u"], ["x", "t"], ["x", "t"], "t", "u", none, ["u_t"], [], true⟩ : Prob).build exPays).isSome = true := by
  decide

/-- **C29** (the spatial axis): without a configured one and without a spatial axis `x` it is the first spatial axis. -/
theorem C29_first_axis {p : Prob} {w : Pays} {ctx : Ctx} (h : p.build w = some ctx) (hp : p.primary = none) (hx : "x" ∉ p.axes ∨ "x" = p.lhs) :
    p.primaryAxis = p.axes.find? fun a => a ≠ p.lhs := by
  obtain ⟨_, _, _, h4, _, _, _, _, _, _⟩ := build_spec h
  have hf : p.axes.find? (fun a => a ≠ p.lhs) = (p.axes.filter (· != p.lhs)).head? := by
    rw [List.head?_filter]; congr 1; funext a
    by_cases ha : a = p.lhs <;> simp [ha]
  unfold Prob.primaryAxis at h4 ⊢
  simp only at h4 ⊢
  rw [hf]
  cases hs : p.axes.filter (· != p.lhs) with
  | nil => rfl
  | cons s l =>
    have hn : (s :: l).contains "x" = false := by
      rw [← hs]
      simp only [Bool.eq_false_iff, ne_eq, List.contains_iff_mem, List.mem_filter, bne_iff_ne, not_and, Decidable.not_not]
      intro hm
      rcases hx with hx | hx
      · exact absurd hm hx
      · exact hx
    simp only [hp, hn, Bool.false_eq_true, if_false, List.head?_cons]

/-- **C29** (the spatial axis): a context that is built has a spatial axis.  If the configuration names one, that name
is one of the axes and is not the left-hand-side axis, and it is the one used; a configuration naming anything else
stops the construction.  Otherwise `x` is used when it is a spatial axis, and the first spatial axis when it is not. -/
theorem C29_primary_axis {p : Prob} {w : Pays} {ctx : Ctx} (h : p.build w = some ctx) :
    ∃ a, p.primaryAxis = some a ∧ a ∈ p.axes ∧ a ≠ p.lhs ∧ (∀ o, p.primary = some o → a = o) ∧
      (p.primary = none → "x" ∈ p.axes → "x" ≠ p.lhs → a = "x") := by
  obtain ⟨_, _, _, h4, _, _, _, _, _, _⟩ := build_spec h
  obtain ⟨a, ha⟩ := Option.isSome_iff_exists.1 h4
  refine ⟨a, ha, ?_⟩
  unfold Prob.primaryAxis at ha
  simp only at ha
  split at ha
  · simp at ha
  · rename_i s rest hs
    have hsm : s ∈ p.axes ∧ s ≠ p.lhs := by
      have : s ∈ p.axes.filter (· != p.lhs) := by rw [hs]; simp
      simpa using this
    split at ha
    · rename_i o ho
      split at ha
      · rename_i hc
        simp only [Bool.and_eq_true, List.contains_iff_mem, bne_iff_ne] at hc
        simp only [Option.some.injEq] at ha
        subst ha
        exact ⟨hc.1, hc.2, fun o' h' => by rw [ho] at h'; exact Option.some.inj h', fun h' => by rw [ho] at h'; simp at h'⟩
      · simp at ha
    · rename_i ho
      simp only [Option.some.injEq] at ha
      by_cases hx : "x" ∈ p.axes.filter (· != p.lhs)
      · rw [if_pos (by simpa [List.contains_iff_mem] using hx)] at ha
        subst ha
        have : "x" ∈ p.axes ∧ "x" ≠ p.lhs := by simpa using hx
        exact ⟨this.1, this.2, fun o' h' => by rw [ho] at h'; simp at h', fun _ _ _ => rfl⟩
      · rw [if_neg (by simpa [List.contains_iff_mem] using hx)] at ha
        subst ha
        exact ⟨hsm.1, hsm.2, fun o' h' => by rw [ho] at h'; simp at h',
          fun _ h1 h2 => absurd (by simpa using ⟨h1, h2⟩) hx⟩

/-- Naming the left-hand-side axis, or something that is not an axis, as the spatial axis is refused. -/
theorem C29_primary_refused (p : Prob) (w : Pays) (o : String) (ho : p.primary = some o)
    (hb : o ∉ p.axes ∨ o = p.lhs) : p.build w = none := by
  rcases hbu : p.build w with _ | ctx
  · rfl
  · obtain ⟨a, _, h1, h2, h3, _⟩ := C29_primary_axis hbu
    have := h3 o ho
    subst this
    exact absurd hb (by rintro (h | h) <;> contradiction)

example : (∃ ctx, ({ exProb with primary := some "x" } : Prob).build exPays = some ctx) ∧
    ({ exProb with primary := some "t" } : Prob).build exPays = none := by
  refine ⟨⟨(({ exProb with primary := some "x" } : Prob).build exPays).get (by decide), by simp⟩, by decide⟩

/-- The variable table of a successful construction without parameters and without autograd keys has no duplicate
names: a printed term determines the data it was computed from. -/
theorem C49_names_distinct {p : Prob} {w : Pays} {ctx : Ctx} (h : p.build w = some ctx) (hp : p.params = [])
    (hpre : p.pre = []) (hnd : p.fields.Nodup) : (ctx.VARS.map (·.name)).Nodup := by
  obtain ⟨h1, h2, _, _, _, _, _, _, _, rfl⟩ := build_spec h
  obtain ⟨n1, n2, n3, n4⟩ := namesOk_spec h1
  have hg : p.axes.Nodup ∧ ∀ a ∈ p.axes, a ∈ p.coords := by
    unfold Prob.gridOk at h2
    simp only [Bool.and_eq_true, decide_eq_true_eq, List.all_eq_true] at h2
    exact ⟨h2.1.1, fun a ha => by have := h2.1.2 a ha; simpa using this⟩
  have e1 : ((p.vars w true).map (·.name)) = p.fields ++ p.axes.filter (· != p.lhs) ++ ["0"] ++ p.gradKeys := by
    simp [Prob.vars, hp, List.map_map, Function.comp_def]
  rw [show (p.tables w).VARS = p.vars w true from rfl, e1]
  have hgk : ∀ k ∈ p.gradKeys, ∃ f ∈ p.fields, ∃ a ∈ p.axes, k = dkey f a := by
    intro k hk
    unfold Prob.gradKeys at hk
    rw [mem_insertKeys, hpre] at hk
    simp only [List.not_mem_nil, false_or, List.mem_flatMap, List.mem_map, List.mem_filter] at hk
    obtain ⟨f, hf, a, ha, rfl⟩ := hk
    exact ⟨f, hf, a, ha.1, rfl⟩
  have hgn : p.gradKeys.Nodup := by unfold Prob.gradKeys; rw [hpre]; exact insertKeys_nodup _ _ (by simp)
  have h0f : "0" ∉ p.fields := by
    intro hm
    have := n2 _ hm
    revert this; decide
  have h0a : "0" ∉ p.axes := by
    intro hm
    have := n1 _ hm
    revert this; decide
  rw [List.nodup_append, List.nodup_append, List.nodup_append]
  refine ⟨⟨⟨hnd, hg.1.filter _, ?_⟩, by simp, ?_⟩, hgn, ?_⟩
  · intro f hf a ha he
    subst he
    exact n3 f hf (hg.2 f (List.mem_filter.1 ha).1)
  · intro x hx y hy he
    subst he
    simp at hy; subst hy
    rw [List.mem_append] at hx
    rcases hx with hx | hx
    · exact h0f hx
    · exact h0a (List.mem_filter.1 hx).1
  · intro x hx k hk he
    subst he
    obtain ⟨f, hf, a, ha, he⟩ := hgk x hk
    simp only [List.mem_append, List.mem_cons, List.not_mem_nil, or_false] at hx
    rcases hx with (hx | hx) | hx
    · exact n4 x hx f hf a ha he
    · have hv := validAxis_no_underscore (n1 x (List.mem_filter.1 hx).1)
      rw [he, dkey_toList] at hv
      simp at hv
    · have : '_' ∈ "0".toList := by rw [← hx, he, dkey_toList]; simp
      revert this; decide

/-- The tables of every successfully built context satisfy the shape conditions used below. -/
theorem built_tables_ok {p : Prob} {w : Pays} {ctx : Ctx} (h : p.build w = some ctx) : ctx.Ok := by
  obtain ⟨h1, _, _, _, _, _, _, _, _, rfl⟩ := build_spec h
  obtain ⟨n1, n2, n3, n4⟩ := namesOk_spec h1
  have q1 : ∀ e ∈ [opAdd, opSub, opMul, opDiv, opD, opD2, opSq, opCu], e.arity = 1 ∨ e.arity = 2 := by decide
  have q2 : ∀ e ∈ [opAdd, opSub, opMul, opDiv, opD, opD2, opSq, opCu], isD e.name = true → e.arity = 2 := by decide
  have q3 : ∀ e ∈ [opSq, opCu], e ∈ [opAdd, opSub, opMul, opDiv, opD, opD2, opSq, opCu] ∧ e.arity = 1 := by decide
  have q4 : ∀ e ∈ [opAdd, opSub, opMul, opDiv, opD, opD2],
      e ∈ [opAdd, opSub, opMul, opDiv, opD, opD2, opSq, opCu] ∧ e.arity = 2 := by decide
  have q5 : ∀ e ∈ [opMul, opD, opD2, opDiv, opSq, opCu],
      e ∈ [opAdd, opSub, opMul, opDiv, opD, opD2, opSq, opCu] := by decide
  refine ⟨?_, ?_, q1, q2, q5, q3, q4, ?_⟩
  · intro e he
    simp only [Prob.tables, Prob.vars, if_true, List.mem_append, List.mem_map, List.mem_cons, List.not_mem_nil, or_false] at he
    rcases he with ((((⟨g, hg, rfl⟩ | ⟨a, ha, rfl⟩) | ⟨q, hq, rfl⟩) | rfl) | ⟨k, hk', rfl⟩) <;> rfl
  · intro e he
    simp only [Prob.tables, Prob.denTable, List.mem_map] at he
    obtain ⟨a, _, rfl⟩ := he
    rfl
  · intro e he
    unfold Ctx.isDen
    rw [List.any_eq_false]
    intro d hd
    simp only [Prob.tables, Prob.denTable, List.mem_map] at hd
    obtain ⟨a, ha, rfl⟩ := hd
    have hv := n1 a (List.mem_filter.1 ha).1
    simp only [Prob.tables, List.mem_cons, List.not_mem_nil, or_false] at he
    intro hh
    simp at hh
    subst hh
    rcases he with rfl | rfl | rfl | rfl | rfl | rfl | rfl | rfl <;> (revert hv; decide)

/-- If `x` is only ever the name of a spatial axis, the simple-mode shortcut of `mutate` is harmless. -/
theorem built_tables_xden {p : Prob} {w : Pays} {ctx : Ctx} (h : p.build w = some ctx)
    (hx : "x" ∈ p.fields ++ p.params ++ p.pre → "x" ∈ p.axes) : ctx.XDen := by
  obtain ⟨h1, _, _, _, _, _, _, _, h9, rfl⟩ := build_spec h
  intro e he hn
  have hlx : "x" ≠ p.lhs := fun hh => h9 e he (hn.trans hh)
  have main : "x" ∈ p.axes → (p.tables w).isDen "x" = true := by
    intro hm
    unfold Ctx.isDen
    rw [List.any_eq_true]
    refine ⟨⟨"x", 0, w.coord "x"⟩, ?_, by simp⟩
    simp only [Prob.tables, Prob.denTable, List.mem_map, List.mem_filter]
    exact ⟨"x", ⟨hm, by simpa using hlx⟩, rfl⟩
  simp only [Prob.tables, Prob.vars, if_true, List.mem_append, List.mem_map, List.mem_cons, List.not_mem_nil, or_false] at he
  rcases he with ((((⟨g, hg, rfl⟩ | ⟨a, ha, rfl⟩) | ⟨q, hq, rfl⟩) | rfl) | ⟨k, hk', rfl⟩)
  · simp at hn; subst hn; exact main (hx (by simp [hg]))
  · simp at hn; subst hn; exact main (List.mem_filter.1 ha).1
  · simp at hn; subst hn; exact main (hx (by simp [hq]))
  · simp at hn
  · simp at hn; subst hn
    unfold Prob.gradKeys at hk'
    rw [mem_insertKeys] at hk'
    rcases hk' with hk' | hk'
    · exact main (hx (by simp [hk']))
    · exfalso
      simp only [List.mem_flatMap, List.mem_map] at hk'
      obtain ⟨f, _, a, _, he⟩ := hk'
      have : '_' ∈ "x".toList := by rw [← he, dkey_toList]; simp
      revert this; decide

/-! ## C19: generated trees -/

/-- **C19**: for every depth limit of at least two, every table and every random outcome, the generated level table
stands for exactly one expression: variables or denominators at its leaves, operators of the right arity inside, a
denominator to the right of every derivative, depth within the limit, a root from the root table; every table node
belongs to it (node count = size); the code's pre-order and in-order strings are those of the expression. -/
theorem C19_wellformed (ctx : Ctx) (hc : ctx.Ok) (maxDepth : Nat) (hm : 2 ≤ maxDepth) (root : Entry)
    (hr : root ∈ ctx.ROOT) (dr : Nat → Nat → GenDraw) (hd : ∀ d k, (dr d k).From ctx) :
    ∃ e, decode (genTree maxDepth root dr) 0 = some e ∧ Legal ctx e ∧ e.root = root ∧ e.depth ≤ maxDepth ∧
      ((genTree maxDepth root dr).map List.length).sum = e.size ∧
      dfs (genTree maxDepth root dr) 0 = some e.preorder ∧
      inorder (genTree maxDepth root dr) = some e.shown := by
  have h := genTree_chain ctx hc maxDepth hm root hr dr hd
  have hlen : (genTree maxDepth root dr).length = maxDepth := by simp [genTree, genRest_length]; omega
  unfold genTree at h hlen ⊢
  obtain ⟨e, h1, h2, h3, h4, _⟩ := decode_ok ctx hc _ _ h 0 ⟨root, some 0, none⟩ rfl
  rw [hlen] at h4
  refine ⟨e, h1, h2, h3, h4, ?_, dfs_decode ctx hc _ _ h 0 _ e rfl h1, inorder_eq ctx hc _ _ h e h1⟩
  rw [← exprs_size ctx hc _ _ h]
  have he := decode_exprs ctx hc _ _ h 0 (by simp)
  rw [h1] at he
  have hl := exprs_length (l := [(⟨root, some 0, none⟩ : Node)])
    (ls := genRest dr (maxDepth - 1) 1 [⟨root, some 0, none⟩])
  match hx : exprs ([(⟨root, some 0, none⟩ : Node)] :: genRest dr (maxDepth - 1) 1 [⟨root, some 0, none⟩]), hl with
  | [a], _ => rw [hx] at he; simp at he; subst he; simp [sizes]

/-- **C19**, children: in a generated table the children of the nodes of one level, in order, are exactly the nodes of
the next level: node `i` owns the block that starts where the blocks of the nodes before it end. -/
theorem C19_partition (ctx : Ctx) (hc : ctx.Ok) (maxDepth : Nat) (hm : 2 ≤ maxDepth) (root : Entry)
    (hr : root ∈ ctx.ROOT) (dr : Nat → Nat → GenDraw) (hd : ∀ d k, (dr d k).From ctx) (d : Nat) (l l2 : List Node)
    (h1 : (genTree maxDepth root dr)[d]? = some l) (h2 : (genTree maxDepth root dr)[d + 1]? = some l2) :
    l2.length = (l.map Node.arity).sum ∧
    ∀ (i : Nat) (n : Node), l[i]? = some n → 0 < n.arity →
      n.childSt = some ((l.take i).map Node.arity).sum ∧
      ∀ j, j < n.arity → ∃ c, l2[((l.take i).map Node.arity).sum + j]? = some c ∧ c.parentIdx = some i := by
  have hs : ∀ x : List Node, sumAr x = (x.map Node.arity).sum := by
    intro x
    induction x with
    | nil => rfl
    | cons a x ih => simp [sumAr, ih]
  have gen : ∀ (ls : Levels) (d : Nat), Chain ctx ls → ls[d]? = some l → ls[d + 1]? = some l2 → Ok1 ctx l ∧ Ok2 ctx l l2 := by
    intro ls
    induction ls with
    | nil => intro d _ h; simp at h
    | cons x ls ih =>
      intro d hch ha hb
      match ls, hch with
      | [], _ => cases d <;> simp at hb
      | y :: ls, hch =>
        cases d with
        | zero => simp at ha hb; subst ha; subst hb; exact ⟨hch.1, hch.2.1⟩
        | succ d => exact ih d hch.2.2 (by simpa using ha) (by simpa using hb)
  obtain ⟨o1, o2⟩ := gen _ d (genTree_chain ctx hc maxDepth hm root hr dr hd) h1 h2
  refine ⟨by rw [o2.len, hs], ?_⟩
  intro i n hn ha
  have h3 := (o1.op i n hn ha).2
  rw [off, hs] at h3
  refine ⟨h3, ?_⟩
  intro j hj
  obtain ⟨c, c1, c2, _⟩ := o2.child i n j hn hj
  rw [off, hs] at c1
  exact ⟨c, c1, c2⟩

/-- No generated term of a successfully built context differentiates along the left-hand-side axis. -/
theorem C29_terms {p : Prob} {w : Pays} {ctx : Ctx} (h : p.build w = some ctx) :
    ∀ e, Legal ctx e → ∀ o l r, e = .bin o l r → isD o.name = true → ∃ v, r = .leaf v ∧ v.name ≠ p.lhs := by
  rintro e hl o l r rfl hd
  obtain ⟨v, hv, hden⟩ := hl.2.2.2.2 hd
  refine ⟨v, hv, ?_⟩
  unfold Ctx.isDen at hden
  rw [List.any_eq_true] at hden
  obtain ⟨x, hx, he⟩ := hden
  simp at he
  rw [← he]
  exact (C29_tables_partial h).2.1 x hx

def exCtx : Ctx := (exProb.build exPays).get (by decide)
def exDraw (d k : Nat) : GenDraw := ⟨d == 1 && k == 0, ⟨"y", 0, 1⟩, ⟨"u", 0, 0⟩, if d == 2 then opD2 else opD⟩

example : exProb.build exPays = some exCtx ∧ opMul ∈ exCtx.ROOT ∧ (∀ d k, (exDraw d k).From exCtx) ∧
    inorder (genTree 4 opMul exDraw) = some "(u * ((u d^2 y) d y))" := by
  refine ⟨by simp [exCtx], by decide, ?_, by decide⟩
  intro d k
  refine ⟨by simp only [exDraw]; decide, by simp only [exDraw]; decide, ?_⟩
  simp only [exDraw]
  split <;> decide

/-- A depth limit of one is not usable: the constructor's traversal walks below the last level (IndexError). -/
theorem C19_depth_one_raises (root : Entry) (dr : Nat → Nat → GenDraw) (hr : 0 < root.arity) :
    dfs (genTree 1 root dr) 0 = none := by
  obtain ⟨n, hn⟩ : ∃ n, root.arity = n + 1 := ⟨root.arity - 1, by omega⟩
  simp [genTree, genRest, dfs, Node.arity, hn, List.range_succ_eq_map]

/-! ## C20: mutated trees -/

/-- The trees the search works with: generated, then mutated any number of times. -/
inductive Reach (ctx : Ctx) (maxDepth : Nat) : Levels → Prop where
  | gen (root : Entry) (dr : Nat → Nat → GenDraw) : root ∈ ctx.ROOT → (∀ d k, (dr d k).From ctx) →
      Reach ctx maxDepth (genTree maxDepth root dr)
  | step (t t' : Levels) (dr : Nat → Nat → MutDraw) : Reach ctx maxDepth t → (∀ d k, (dr d k).From ctx) →
      mutTree ctx dr t = .ok t' → Reach ctx maxDepth t'

theorem reach_chain (ctx : Ctx) (hc : ctx.Ok) (hx : ctx.XDen) (maxDepth : Nat) (hm : 2 ≤ maxDepth) {t : Levels}
    (h : Reach ctx maxDepth t) : ∃ root ls, t = [⟨root, some 0, none⟩] :: ls ∧ root ∈ ctx.ROOT ∧
      Chain ctx ([⟨root, some 0, none⟩] :: ls) ∧ t.length = maxDepth := by
  induction h with
  | gen root dr hr hd =>
    exact ⟨root, _, rfl, hr, genTree_chain ctx hc maxDepth hm root hr dr hd, by simp [genTree, genRest_length]; omega⟩
  | step t t' dr _ hd he ih =>
    obtain ⟨root, ls, rfl, hr, hch, hlen⟩ := ih
    obtain ⟨ls', rfl, h1, h2⟩ := (mutTree_chain ctx hc hx dr hd _ ls hch).2 t' he
    refine ⟨root, ls', rfl, hr, h1, ?_⟩
    have := congrArg List.length h2
    simp at this hlen ⊢
    omega

/-- **C20**: every tree reached by generation and any number of mutations stands for exactly one legal expression
within the depth limit, with all table nodes used, and its printed forms are those of the expression. -/
theorem C20_wellformed_partial (ctx : Ctx) (hc : ctx.Ok) (hx : ctx.XDen) (maxDepth : Nat) (hm : 2 ≤ maxDepth)
    {t : Levels} (h : Reach ctx maxDepth t) :
    ∃ e, decode t 0 = some e ∧ Legal ctx e ∧ e.root ∈ ctx.ROOT ∧ e.depth ≤ maxDepth ∧
      (t.map List.length).sum = e.size ∧ dfs t 0 = some e.preorder ∧ inorder t = some e.shown := by
  obtain ⟨root, ls, rfl, hr, hch, hlen⟩ := reach_chain ctx hc hx maxDepth hm h
  obtain ⟨e, h1, h2, h3, h4, _⟩ := decode_ok ctx hc _ _ hch 0 ⟨root, some 0, none⟩ rfl
  rw [hlen] at h4
  refine ⟨e, h1, h2, by rw [h3]; exact hr, h4, ?_, dfs_decode ctx hc _ _ hch 0 _ e rfl h1, inorder_eq ctx hc _ _ hch e h1⟩
  rw [← exprs_size ctx hc _ _ hch]
  have he := decode_exprs ctx hc _ _ hch 0 (by simp)
  rw [h1] at he
  have hl := exprs_length (l := [(⟨root, some 0, none⟩ : Node)]) (ls := ls)
  match hx' : exprs ([(⟨root, some 0, none⟩ : Node)] :: ls), hl with
  | [a], _ => rw [hx'] at he; simp at he; subst he; simp [sizes]

/-- **C20**, one mutation: it never raises, and when its rejection loops end the new expression has the shape and the
root of the old one. -/
theorem C20_keeps_shape_partial (ctx : Ctx) (hc : ctx.Ok) (hx : ctx.XDen) (maxDepth : Nat) (hm : 2 ≤ maxDepth)
    {t : Levels} (h : Reach ctx maxDepth t) (dr : Nat → Nat → MutDraw) (hd : ∀ d k, (dr d k).From ctx) :
    mutTree ctx dr t ≠ .error .raised ∧
    ∀ t', mutTree ctx dr t = .ok t' → ∃ e e', decode t 0 = some e ∧ decode t' 0 = some e' ∧ e.sameShape e' ∧
      e'.root = e.root ∧ Legal ctx e' := by
  obtain ⟨root, ls, rfl, hr, hch, hlen⟩ := reach_chain ctx hc hx maxDepth hm h
  obtain ⟨a1, a2⟩ := mutTree_chain ctx hc hx dr hd _ ls hch
  refine ⟨a1, ?_⟩
  intro t' he
  obtain ⟨ls', rfl, b1, b2⟩ := a2 t' he
  obtain ⟨e, h1, _, h3, _⟩ := decode_ok ctx hc _ _ hch 0 ⟨root, some 0, none⟩ rfl
  obtain ⟨e', h1', h2', h3', _⟩ := decode_ok ctx hc _ _ b1 0 ⟨root, some 0, none⟩ rfl
  exact ⟨e, e', h1, h1', sameShape_decode ctx hc _ _ _ _ hch b1 b2.symm 0 e e' h1 h1', by rw [h3, h3'], h2'⟩

def exMut (_ _ : Nat) : MutDraw := ⟨true, [⟨"v", 0, 0⟩, ⟨"x", 0, 1⟩], [opCu], [opD2, opMul]⟩

/-- A mutation of every node of the tree above: the leaf under `*` may become a field, the leaves under derivatives
only another axis, `d` becomes `d^2` and the inner `d^2` becomes `*`. -/
example : (∀ d k, (exMut d k).From exCtx) ∧ exCtx.XDen ∧
    (match mutTree exCtx exMut (genTree 4 opMul exDraw) with
      | .ok t' => inorder t' | .error _ => none) = some "(v * ((v * v) d^2 x))" := by
  refine ⟨?_, ?_, by decide⟩
  · intro d k
    refine ⟨?_, ?_, ?_⟩ <;> (simp only [exMut]; decide)
  · apply built_tables_xden (p := exProb) (w := exPays) (by simp [exCtx])
    decide

/-- With a *field* called `x` on a grid without an `x` axis the simple-mode shortcut lets `mutate` differentiate with
respect to the field: the hypothesis on the name `x` is needed. -/
def exProbX : Prob := ⟨["u", "x"], ["y", "t"], ["y", "t"], "t", "u", none, [], [], true⟩
def exCtxX : Ctx := (exProbX.build exPays).get (by decide)
theorem C20_x_field_counterexample :
    exProbX.build exPays = some exCtxX ∧ exCtxX.isDen "x" = false ∧
    (match mutTree exCtxX (fun _ k => ⟨k == 1, [⟨"x", 0, 0⟩], [], []⟩)
        (genTree 2 opD fun _ _ => ⟨false, ⟨"y", 0, 1⟩, ⟨"u", 0, 0⟩, opD⟩) with
      | .ok t' => inorder t' | .error _ => none) = some "(u d x)" := by
  refine ⟨by simp [exCtxX], by decide, by decide⟩

/-! ### The rejection loops -/

/-- **C20**, operator loops: with the shipped tables an acceptable replacement for an operator always exists. -/
theorem C20_operator_pick_exists {p : Prob} {w : Pays} {ctx : Ctx} (h : p.build w = some ctx) (cur right : String) :
    (∃ e ∈ ctx.OP1, (!(e.name == cur)) = true) ∧ (∃ e ∈ ctx.OP2, op2Exit ctx cur right e = true) := by
  obtain ⟨_, _, _, _, _, _, _, _, _, rfl⟩ := build_spec h
  constructor
  · by_cases hc : cur = "^2"
    · exact ⟨opCu, by simp [Prob.tables], by subst hc; decide⟩
    · exact ⟨opSq, by simp [Prob.tables], by simpa [opSq] using fun h => hc h.symm⟩
  · have nd : ∀ n : String, isD n = false → ∀ e : Entry, e.name = n → n ≠ cur →
        op2Exit (p.tables w) cur right e = true := by
      intro n hn e he hne
      subst he
      simp [op2Exit, hn, hne]
    by_cases hc : cur = "+"
    · exact ⟨opSub, by simp [Prob.tables], nd "-" (by decide) _ rfl (by subst hc; decide)⟩
    · exact ⟨opAdd, by simp [Prob.tables], nd "+" (by decide) _ rfl (fun h => hc h.symm)⟩

/-- **C20**, leaf loop: an acceptable replacement for a leaf exists in the variable table; under a derivative this needs a second axis, or `x` itself in simple mode. -/
theorem C20_leaf_pick_exists {p : Prob} {w : Pays} {ctx : Ctx} (h : p.build w = some ctx) (parent cur : String)
    (hd : isD parent = true → (∃ a ∈ p.axes, a ≠ p.lhs ∧ a ≠ cur) ∨ (p.simple = true ∧ "x" ∈ p.axes ∧ "x" ≠ p.lhs))
    : ∃ e ∈ ctx.VARS, leafExit ctx parent cur e = true := by
  have hok := built_tables_ok h
  obtain ⟨h1, _, h3, _, _, _, _, _, h9, rfl⟩ := build_spec h
  have hax : ∀ a ∈ p.axes, a ≠ p.lhs → (⟨a, 0, w.coord a⟩ : Entry) ∈ p.vars w true ∧
      (⟨a, 0, w.coord a⟩ : Entry) ∈ p.denTable w := by
    intro a ha hl
    constructor
    · simp only [Prob.vars, List.mem_append, List.mem_map, List.mem_filter]
      exact Or.inl (Or.inl (Or.inl (Or.inr ⟨a, ⟨ha, by simpa using hl⟩, rfl⟩)))
    · simp only [Prob.denTable, List.mem_map, List.mem_filter]
      exact ⟨a, ⟨ha, by simpa using hl⟩, rfl⟩
  by_cases hp : isD parent = true
  · rcases hd hp with ⟨a, ha, hl, hne⟩ | ⟨hs, hx, hxl⟩
    · obtain ⟨m1, m2⟩ := hax a ha hl
      refine ⟨_, m1, ?_⟩
      have : (p.tables w).isDen a = true := isDen_of_mem (ctx := p.tables w) m2
      simp [leafExit, this, hne]
    · obtain ⟨m1, _⟩ := hax "x" hx hxl
      exact ⟨_, m1, by simp [leafExit, show (p.tables w).simple = true from hs, hp]⟩
  · have hp' : isD parent = false := by simpa using hp
    -- the constant `0` or the target field
    by_cases hc : cur = "0"
    · have ht : p.target ∈ p.fields := by simpa [Prob.targetOk] using h3
      refine ⟨⟨p.target, 0, w.field p.target⟩, ?_, ?_⟩
      · simp only [Prob.tables, Prob.vars, List.mem_append, List.mem_map]
        exact Or.inl (Or.inl (Or.inl (Or.inl ⟨_, ht, rfl⟩)))
      · have hne : p.target ≠ cur := by
          rintro he
          rw [hc] at he
          have := (namesOk_spec h1).2.1 _ ht
          rw [he] at this
          revert this; decide
        simp [leafExit, hp', hne]
    · refine ⟨⟨"0", 0, w.zero⟩, ?_, ?_⟩
      · simp [Prob.tables, Prob.vars]
      · have hc' : "0" ≠ cur := fun h => hc h.symm
        simp [leafExit, hp', hc']

/-- With one spatial axis that is not called `x` no pick is ever accepted under a derivative: mutating the axis of
`d(u, y)` on a `(y, t)` grid loops forever. -/
theorem C20_hang_counterexample :
    let p : Prob := ⟨["u"], ["y", "t"], ["y", "t"], "t", "u", none, [], [], true⟩
    ∃ ctx, p.build exPays = some ctx ∧ ∀ e ∈ ctx.VARS, leafExit ctx "d" "y" e = false := by
  refine ⟨((⟨["u"], ["y", "t"], ["y", "t"], "t", "u", none, [], [], true⟩ : Prob).build exPays).get (by decide), by simp, by decide⟩

end Verif.Claims
