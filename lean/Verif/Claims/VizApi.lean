import Verif.Viz.Api
import Verif.Claims.Viz
/-!
# C199: the plot helpers reach the right adapter with the right options, save to their own files and say what they did
-/
namespace Verif.Viz.Api.Claims
open Verif.Viz Verif.Viz.Api
variable {V : Type}

/-! ## Specification -/

/-- The parameters of a helper that must be given. -/
def needed : String → List String
  | "plot_time_slices" => ["t_coords", "true_field", "predicted_field"]
  | "plot_field_comparison" => ["t_coords", "true_field", "predicted_field"]
  | "plot_residuals" => ["actual", "predicted"]
  | _ => []

/-- The parameters of a helper that count as not given if they are None. -/
def noneMeansAbsent : String → List String
  | "plot_time_slices" => ["spatial_coords", "x_coords", "slice_times"]
  | "plot_field_comparison" => ["spatial_coords", "x_coords", "residual_field"]
  | "plot_residuals" => ["coordinates"]
  | "plot_parity" => ["title"]
  | _ => []

/-- What the adapter is to find under a key, if the helper called `name` got the keyword arguments `kw`. -/
def passed (four : V) (name : String) (kw : Kw V) (k : String) : Option (Option V) :=
  if k = "show_info" then none
  else match dget kw k with
    | none => if name = "plot_derivative_relationships" ∧ k = "top_n_terms" then some (some four) else none
    | some none => if k ∈ noneMeansAbsent name then none else some none
    | some (some v) => some (some v)

/-- The figure a helper is to draw. -/
def figure : String → String
  | "plot_training_curve" => "training_curve"
  | "plot_validation_curve" => "validation_curve"
  | "plot_search_evolution" => "search_evolution"
  | "plot_optimization" => "optimization"
  | "plot_time_slices" => "time_slices"
  | "render_equation" => "equation"
  | "plot_residuals" => "residual"
  | "plot_field_comparison" => "field_comparison"
  | "plot_derivative_relationships" => "derivative_relationships"
  | "plot_parity" => "parity"
  | n => n

/-- The helpers that draw something for the models of an adapter. -/
def supports : Ad → List String
  | .dlga => ["plot_training_curve", "plot_validation_curve", "plot_search_evolution", "plot_optimization", "plot_time_slices", "render_equation", "plot_residuals",
      "plot_field_comparison", "plot_derivative_relationships", "plot_parity"]
  | .discover => ["plot_search_evolution", "render_equation", "plot_residuals", "plot_field_comparison", "plot_parity"]
  | .sga => ["render_equation", "plot_field_comparison", "plot_time_slices", "plot_parity", "plot_residuals"]
  | .pysr => ["render_equation", "plot_parity", "plot_residuals"]

/-- The shipped class a class is or is derived from. -/
def root : Cls → Cls
  | .derived b _ => root b
  | .spr => .discover
  | .regression => .discover
  | c => c

/-! ## Lemmas -/

theorem dget_filter (d : Kw V) (P : String → Bool) (k : String) : dget (d.filter fun p => P p.1) k = if P k then dget d k else none := by
  induction d with
  | nil => simp [dget]
  | cons p d ih =>
    by_cases hp : P p.1
    · rw [List.filter_cons_of_pos (by simpa using hp)]
      by_cases hk : p.1 = k
      · subst hk; simp [dget, hp]
      · simp [dget, hk, ih]
    · rw [List.filter_cons_of_neg (by simpa using hp), ih]
      by_cases hk : p.1 = k
      · subst hk; simp [hp]
      · simp [dget, hk]

/-- What an assignment puts under its key. -/
def result (kw d : Kw V) : Put V → Option (Option V)
  | .required k => dget kw k
  | .optional k => match dget kw k with
    | some (some v) => some (some v)
    | _ => dget d k
  | .default k v => some ((dget kw k).getD (some v))

theorem put_other {kw d d' : Kw V} {p : Put V} (h : put kw d p = some d') {k : String} (hk : k ≠ p.key) : dget d' k = dget d k := by
  have hk' : ¬ p.key = k := fun e => hk e.symm
  cases p with
  | required q =>
    simp only [put, Option.map_eq_some_iff] at h
    obtain ⟨v, _, rfl⟩ := h
    rw [Verif.Claims.dget_dput]; simp only [Put.key] at hk'; simp [hk']
  | optional q =>
    simp only [put] at h
    split at h
    · cases h
      rw [Verif.Claims.dget_dput]; simp only [Put.key] at hk'; simp [hk']
    · cases h; rfl
  | default q v =>
    simp only [put] at h
    cases h
    rw [Verif.Claims.dget_dput]; simp only [Put.key] at hk'; simp [hk']

theorem put_key {kw d d' : Kw V} {p : Put V} (h : put kw d p = some d') : dget d' p.key = result kw d p := by
  cases p with
  | required q =>
    simp only [put, Option.map_eq_some_iff] at h
    obtain ⟨v, hv, rfl⟩ := h
    rw [Verif.Claims.dget_dput]; simp [Put.key, result, hv]
  | optional q =>
    simp only [put] at h
    split at h
    · next v hv =>
      cases h
      rw [Verif.Claims.dget_dput]; simp [Put.key, result, hv]
    · next hv =>
      cases h
      simp only [Put.key, result]
  | default q v =>
    simp only [put] at h
    cases h
    rw [Verif.Claims.dget_dput]; simp [Put.key, result]

theorem putAll_spec (kw : Kw V) : ∀ (ps : List (Put V)) (d d' : Kw V), (ps.map Put.key).Nodup → putAll kw d ps = some d' →
    (∀ k, k ∉ ps.map Put.key → dget d' k = dget d k) ∧ ∀ p ∈ ps, dget d' p.key = result kw d p := by
  intro ps
  induction ps with
  | nil => intro d d' _ h; cases h; simp
  | cons p ps ih =>
    intro d d' hn h
    simp only [putAll, Option.bind_eq_some_iff] at h
    obtain ⟨e, he, h⟩ := h
    simp only [List.map_cons, List.nodup_cons] at hn
    obtain ⟨h1, h2⟩ := ih e d' hn.2 h
    constructor
    · intro k hk
      simp only [List.map_cons, List.mem_cons, not_or] at hk
      rw [h1 k hk.2, put_other he hk.1]
    · intro q hq
      rcases List.mem_cons.1 hq with rfl | hq
      · rw [h1 _ hn.1, put_key he]
      · rw [h2 q hq]
        have hne : q.key ≠ p.key := fun e => hn.1 (e ▸ List.mem_map_of_mem hq)
        have := put_other he hne
        cases q <;> simp only [result, Put.key] at this ⊢
        rw [this]

theorem putAll_isSome (kw : Kw V) : ∀ (ps : List (Put V)) (d : Kw V), (putAll kw d ps).isSome ↔ ∀ k, .required k ∈ ps → (dget kw k).isSome := by
  intro ps
  induction ps with
  | nil => intro d; simp [putAll]
  | cons p ps ih =>
    intro d
    have key : (putAll kw d (p :: ps)).isSome ↔ (put kw d p).isSome ∧ ∀ k, .required k ∈ ps → (dget kw k).isSome := by
      simp only [putAll]
      cases hp : put kw d p with
      | none => simp
      | some e => simp [ih]
    rw [key]
    cases p with
    | required q => simp [put]
    | optional q =>
      have : (put kw d (.optional q)).isSome := by simp only [put]; split <;> rfl
      simp [this]
    | default q v => simp [put]

theorem helpers_nodup (four : V) : ∀ h ∈ helpers four, (h.puts.map Put.key).Nodup ∧ "show_info" ∉ h.puts.map Put.key := by
  intro h hh
  simp only [helpers, List.mem_cons, List.not_mem_nil, or_false] at hh
  rcases hh with rfl | rfl | rfl | rfl | rfl | rfl | rfl | rfl | rfl | rfl <;> simp [Put.key]

/-- **C199** (calls): a helper accepts exactly the calls with its needed parameters, whatever else is passed (except a second `model`). -/
theorem C199_accepts (four : V) (h : Helper V) (hh : h ∈ helpers four) (kw : Kw V) :
    (payload h kw).isSome ↔ (∀ k ∈ needed h.name, (dget kw k).isSome) ∧ dget kw "model" = none := by
  unfold payload
  cases hm : dget kw "model" with
  | some v => simp
  | none =>
    simp only [Option.isSome_none, Bool.false_eq_true, if_false, and_true]
    rw [putAll_isSome]
    simp only [helpers, List.mem_cons, List.not_mem_nil, or_false] at hh
    rcases hh with rfl | rfl | rfl | rfl | rfl | rfl | rfl | rfl | rfl | rfl <;> simp [needed]

/-- **C199** (options): the adapter finds under every key exactly what the caller passed: extra options and needed parameters as they are, None for an optional parameter is
the same as leaving it out, `top_n_terms` is 4 by default, and `show_info` is not passed on. -/
theorem C199_options (four : V) (h : Helper V) (hh : h ∈ helpers four) (kw d : Kw V) (hd : payload h kw = some d) (k : String) :
    dget d k = passed four h.name kw k := by
  unfold payload at hd
  split at hd
  · cases hd
  · have hn := helpers_nodup four h hh
    obtain ⟨h1, h2⟩ := putAll_spec kw h.puts _ d hn.1 hd
    have hf : ∀ q, dget (kw.filter fun p => p.1 ∉ "show_info" :: h.puts.map Put.key) q =
        if q ∉ "show_info" :: h.puts.map Put.key then dget kw q else none := by
      intro q
      have := dget_filter kw (fun s => decide (s ∉ "show_info" :: h.puts.map Put.key)) q
      simpa using this
    have hout : k ∉ h.puts.map Put.key → dget d k = if k = "show_info" then none else dget kw k := by
      intro hk
      rw [h1 k hk, hf]
      by_cases hs : k = "show_info"
      · simp [hs]
      · rw [if_pos (by simp only [List.mem_cons, not_or]; exact ⟨hs, hk⟩), if_neg hs]
    have hin : ∀ p ∈ h.puts, dget d p.key = passed four h.name kw p.key := by
      intro p hp
      have hne : p.key ≠ "show_info" := fun e => hn.2 (e ▸ List.mem_map_of_mem hp)
      have hfil := hf p.key
      rw [if_neg (by simp only [List.mem_cons, not_or, Classical.not_and_iff_not_or_not, Classical.not_not]; exact .inr (List.mem_map_of_mem hp))] at hfil
      rw [h2 p hp]
      generalize kw.filter _ = e at hfil
      clear h1 h2 hf hout hd
      simp only [helpers, List.mem_cons, List.not_mem_nil, or_false] at hh
      rcases hh with rfl | rfl | rfl | rfl | rfl | rfl | rfl | rfl | rfl | rfl <;> simp only [List.mem_cons, List.not_mem_nil, or_false] at hp
      all_goals
        first
        | exact hp.elim
        | (rcases hp with rfl | rfl | rfl | rfl | rfl | rfl) <;> simp only [Put.key] at hfil <;> simp only [Put.key, result, passed, noneMeansAbsent] <;>
            rcases dget kw _ with _ | _ | _ <;> simp [hfil]
        | (rcases hp with rfl | rfl | rfl) <;> simp only [Put.key] at hfil <;> simp only [Put.key, result, passed, noneMeansAbsent] <;>
            rcases dget kw _ with _ | _ | _ <;> simp [hfil]
        | subst hp; simp only [Put.key] at hfil; simp only [Put.key, result, passed, noneMeansAbsent] <;>
            rcases dget kw _ with _ | _ | _ <;> simp [hfil]
    by_cases hk : k ∈ h.puts.map Put.key
    · obtain ⟨p, hp, rfl⟩ := List.mem_map.1 hk
      exact hin p hp
    · rw [hout hk]
      have key : k ∉ noneMeansAbsent h.name ∧ ¬ (h.name = "plot_derivative_relationships" ∧ k = "top_n_terms") := by
        clear h1 h2 hf hout hd hin
        simp only [helpers, List.mem_cons, List.not_mem_nil, or_false] at hh
        rcases hh with rfl | rfl | rfl | rfl | rfl | rfl | rfl | rfl | rfl | rfl <;> simp [Put.key] at hk <;> simp [noneMeansAbsent, hk]
      unfold passed
      split
      · rfl
      · rcases dget kw k with _ | _ | _ <;> simp [key]

-- a residual plot with an extra option and without coordinates
example : payload (V := Nat) ⟨"plot_residuals", "residual", [.required "actual", .required "predicted", .optional "coordinates"]⟩
    [("bins", some 7), ("predicted", some 2), ("coordinates", none), ("show_info", some 0), ("actual", some 1)] =
      some [("bins", some 7), ("actual", some 1), ("predicted", some 2)] := by decide +kernel

/-! ### Which adapter -/

/-- A class with an adapter of its own. -/
def Own (d : Cls) : Prop := d = .dlga ∨ d = .discover ∨ d = .sga ∨ d = .pysr

theorem sub_root (c d : Cls) (hd : Own d) : c.sub d = decide (root c = d) := by
  induction c with
  | derived b n ih =>
    have : (d == Cls.derived b n) = false := by rcases hd with rfl | rfl | rfl | rfl <;> rfl
    rw [Cls.sub, this, Bool.false_or, ih]; rfl
  | other n => rcases hd with rfl | rfl | rfl | rfl <;> simp [Cls.sub, root]
  | _ => rcases hd with rfl | rfl | rfl | rfl <;> rfl

theorem root_own {d : Cls} (hd : Own d) : root d = d := by rcases hd with rfl | rfl | rfl | rfl <;> rfl

theorem walk_root (L : List (Cls × Ad)) (hL : ∀ p ∈ L, Own p.1) (c : Cls) : walk Cls.sub c L = dget L (root c) := by
  induction L with
  | nil => rfl
  | cons p L ih =>
    have hp := hL p List.mem_cons_self
    have ih := ih fun q hq => hL q (List.mem_cons_of_mem _ hq)
    by_cases h : root c = p.1
    · simp [walk, dget, sub_root c p.1 hp, h]
    · have h' : ¬ p.1 = root c := fun e => h e.symm
      simp [walk, dget, sub_root c p.1 hp, h, h', ih]

theorem dget_own (L : List (Cls × Ad)) (hL : ∀ p ∈ L, Own p.1) (c : Cls) (a : Ad) (h : dget L c = some a) : dget L (root c) = some a := by
  have hc : c ∈ L.map Prod.fst := (Verif.Claims.dget_isSome L c).1 (by rw [h]; rfl)
  obtain ⟨p, hp, rfl⟩ := List.mem_map.1 hc
  rw [root_own (hL p hp), h]

/-- The adapters registered before and after the lazy one is resolved. -/
def table (imports : Cls → Bool) (resolved : Bool) : List (Cls × Ad) :=
  (if imports .dlga then [(.dlga, .dlga)] else []) ++ (if imports .discover then [(.discover, .discover)] else []) ++
  (if imports .sga then [(.sga, .sga)] else []) ++ (if resolved && imports .pysr then [(.pysr, .pysr)] else [])

theorem table_own (imports : Cls → Bool) (r : Bool) : ∀ p ∈ table imports r, Own p.1 := by
  intro p hp
  unfold table at hp
  simp only [List.mem_append] at hp
  rcases hp with ((hp | hp) | hp) | hp <;> split at hp <;> simp at hp <;> subst hp <;> simp [Own]

/-- The registry before and after the lazy adapter is resolved. -/
def reg (imports : Cls → Bool) (r : Bool) : Reg Cls Ad :=
  ⟨table imports r, if r then [] else [("KD_PySR", if imports .pysr then .found .pysr .pysr else .nothing)]⟩

theorem defaults_reg (imports : Cls → Bool) : registerDefaults imports ⟨[], []⟩ = reg imports false := by
  unfold registerDefaults reg table
  cases imports .dlga <;> cases imports .discover <;> cases imports .sga <;> simp [register, registerLazy, dput]

theorem resolve_reg (imports : Cls → Bool) (r : Bool) (n : String) :
    resolveLazy (reg imports r) n = (false, reg imports (r || n == "KD_PySR")) := by
  cases r with
  | true => simp [resolveLazy, reg, dget]
  | false =>
    by_cases hn : n = "KD_PySR"
    · subst hn
      unfold resolveLazy reg table
      cases imports .dlga <;> cases imports .discover <;> cases imports .sga <;> cases imports .pysr <;> simp [dget, dput, dpop]
    · have : ¬ "KD_PySR" = n := fun e => hn e.symm
      have hb : (n == "KD_PySR") = false := by simpa using hn
      simp [resolveLazy, reg, dget, this, hb]

theorem get_reg (imports : Cls → Bool) (r : Bool) (c : Cls) :
    getAdapter Cls.name Cls.sub (reg imports r) c =
      (.ok (dget (table imports (r || c.name == "KD_PySR")) (root c)), reg imports (r || c.name == "KD_PySR")) := by
  cases h : dget (reg imports r).eager c with
  | some a =>
    have h' := dget_own _ (table_own imports r) c a h
    have hr : (r || c.name == "KD_PySR") = r := by
      cases r with
      | true => rfl
      | false =>
        have hc : c ∈ (table imports false).map Prod.fst := (Verif.Claims.dget_isSome _ c).1 (by rw [show dget (table imports false) c = some a from h]; rfl)
        obtain ⟨p, hp, rfl⟩ := List.mem_map.1 hc
        unfold table at hp
        simp only [List.mem_append] at hp
        rcases hp with ((hp | hp) | hp) | hp <;> split at hp <;> simp at hp <;> subst hp <;> simp_all [Cls.name]
    rw [hr, h']
    simp [getAdapter, h]
  | none =>
    unfold getAdapter
    rw [h, resolve_reg]
    simp only
    cases h2 : dget (reg imports (r || c.name == "KD_PySR")).eager c with
    | some a =>
      have h' := dget_own _ (table_own imports _) c a h2
      rw [h']
    | none =>
      simp only
      rw [show (reg imports (r || c.name == "KD_PySR")).eager = table imports (r || c.name == "KD_PySR") from rfl, walk_root _ (table_own imports _)]

theorem session_reg (imports : Cls → Bool) (before : List Cls) : session imports before = reg imports (before.any fun c => c.name == "KD_PySR") := by
  have key : ∀ (l : List Cls) (r : Bool), l.foldl (fun s c => (getAdapter Cls.name Cls.sub s c).2) (reg imports r) =
      reg imports (r || l.any fun c => c.name == "KD_PySR") := by
    intro l
    induction l with
    | nil => intro r; simp
    | cons c l ih => intro r; rw [List.foldl_cons, get_reg, ih, List.any_cons, Bool.or_assoc]
  unfold session
  rw [defaults_reg, key, Bool.false_or]

/-- The adapter meant for a model class. -/
def meant : Cls → Option Ad
  | .dlga => some .dlga
  | .discover => some .discover
  | .sga => some .sga
  | .pysr => some .pysr
  | _ => none

theorem dget_table (imports : Cls → Bool) (r : Bool) (d : Cls) :
    dget (table imports r) d = (meant d).filter fun _ => imports d && (r || d != .pysr) := by
  unfold table
  cases d <;> simp only [meant] <;> cases imports .dlga <;> cases imports .discover <;> cases imports .sga <;> cases r <;> cases imports .pysr <;> rfl

/-- **C199** (adapter): after the package is imported, whatever models were plotted before, a model of DLGA, DISCOVER (regular, sparse, regression) or SGA, or of a class
derived from these, gets the adapter of its method, KD_PySR gets that of PySR, and any other class none – provided the model's module can be imported. -/
theorem C199_adapter_partial (imports : Cls → Bool) (before : List Cls) (c : Cls) (hi : imports (root c) = true) (hp : root c = .pysr → c.name = "KD_PySR") :
    (getAdapter Cls.name Cls.sub (session imports before) c).1 = .ok (meant (root c)) := by
  rw [session_reg, get_reg, dget_table, hi]
  by_cases h : root c = .pysr
  · rw [h, hp h]; simp [meant]
  · have : (root c != .pysr) = true := by simpa using h
    rw [this]
    cases meant (root c) <;> simp

/-- **C199, counterexample**: a class derived from KD_PySR has no adapter, until a KD_PySR itself (or a class of that name) was plotted; then it has. -/
theorem C199_subclass_counterexample (imports : Cls → Bool) (hi : imports .pysr = true) (before : List Cls) (b : Cls) (n : String) (hb : root b = .pysr)
    (hn : n ≠ "KD_PySR") :
    (getAdapter Cls.name Cls.sub (session imports before) (.derived b n)).1 = .ok (some .pysr) ↔ ∃ c ∈ before, c.name = "KD_PySR" := by
  have h1 : (n == "KD_PySR") = false := by simpa using hn
  rw [session_reg, get_reg, dget_table]
  rw [show (Cls.derived b n).name = n from rfl, show root (.derived b n) = .pysr from hb, h1, Bool.or_false, hi]
  simp only [meant]
  by_cases h : ∃ c ∈ before, c.name = "KD_PySR"
  · have h2 : (before.any fun c => c.name == "KD_PySR") = true := by simpa using h
    rw [h2]; simp [h]
  · have h2 : (before.any fun c => c.name == "KD_PySR") = false := by
      rw [Bool.eq_false_iff]; simpa using h
    rw [h2]; simp [h]

-- a class derived from the regression class, after a plot of KD_PySR
example : (getAdapter Cls.name Cls.sub (session (fun _ => true) [.pysr, .eqgpt]) (.derived .regression "Mine")).1 = .ok (some .discover) :=
  C199_adapter_partial _ _ _ rfl (by decide)

/-! ### What is drawn -/

/-- Every intent an adapter announces has a handler, and no other. -/
theorem C199_handlers (a : Ad) (kind : String) : kind ∈ a.caps ↔ (a.files kind).isSome := by
  constructor
  · intro h
    have : ∀ k ∈ a.caps, (a.files k).isSome := by cases a <;> decide +kernel
    exact this kind h
  · intro h
    unfold Ad.files at h
    split at h <;> first | (cases h; done) | decide +kernel

/-- **C199** (drawing): a helper called with a model whose class has adapter `a` hands the adapter's handler the options, if the method supports the helper, and returns what
it returns; otherwise the result is a single warning, without file or figure, and no handler is called. -/
theorem C199_draws (four : V) (h : Helper V) (hh : h ∈ helpers four) (handler : Ad → String → Kw V → Option Result) (s : Reg Cls Ad) (c : Cls) (a : Ad)
    (ha : (getAdapter Cls.name Cls.sub s c).1 = .ok (some a)) (show' : Bool) (options : Kw V) :
    (h.name ∈ supports a → (dispatch handler s c h.kind show' options).map Prod.fst = handler a (figure h.name) options) ∧
    (h.name ∉ supports a → ∃ w, ∀ handler', (dispatch handler' s c h.kind show' options).map Prod.fst = some ⟨[w], [], false⟩) := by
  have key : h.name ∈ supports a ↔ h.kind ∈ a.caps := by
    simp only [helpers, List.mem_cons, List.not_mem_nil, or_false] at hh
    rcases hh with rfl | rfl | rfl | rfl | rfl | rfl | rfl | rfl | rfl | rfl <;> cases a <;> simp [supports, Ad.caps]
  have hk : figure h.name = h.kind := by
    simp only [helpers, List.mem_cons, List.not_mem_nil, or_false] at hh
    rcases hh with rfl | rfl | rfl | rfl | rfl | rfl | rfl | rfl | rfl | rfl <;> simp [figure]
  rw [hk]
  constructor
  · intro hs
    unfold dispatch
    rw [ha]
    simp only [key.1 hs, if_true]
    cases handler a h.kind options <;> simp [dispatch.emit]
  · intro hs
    refine ⟨"Adapter " ++ a.cls ++ " does not support intent '" ++ h.kind ++ "'.", fun handler' => ?_⟩
    unfold dispatch
    rw [ha]
    simp only [mt key.2 hs, if_false, dispatch.emit, Option.map_some]

/-- A class without adapter (EqGPT, other classes) gets a single warning from every helper. -/
theorem C199_none (handler : Ad → String → Kw V → Option Result) (s : Reg Cls Ad) (c : Cls) (ha : (getAdapter Cls.name Cls.sub s c).1 = .ok none) (kind : String)
    (show' : Bool) (options : Kw V) :
    (dispatch handler s c kind show' options).map Prod.fst = some ⟨["No visualization adapter registered for " ++ c.name ++ "."], [], false⟩ := by
  simp [dispatch, ha, dispatch.emit]

/-! ### What is printed -/

theorem mem_join (sep : String) (l : List String) (p : String) (h : p ∈ l) : ∃ pre post, join sep l = pre ++ p ++ post := by
  induction l with
  | nil => cases h
  | cons a l ih =>
    cases l with
    | nil =>
      simp only [List.mem_singleton] at h
      subst h
      exact ⟨"", "", by simp [join]⟩
    | cons b l =>
      rcases List.mem_cons.1 h with rfl | h
      · exact ⟨"", sep ++ join sep (b :: l), by simp [join, String.append_assoc]⟩
      · obtain ⟨pre, post, e⟩ := ih h
        exact ⟨a ++ sep ++ pre, post, by rw [join, e]; simp [String.append_assoc]⟩

/-- **C199** (printing): with `show_info` a helper that returns prints one line, otherwise none; the line names the intent and every warning, and, if there is no warning,
every saved file. -/
theorem C199_printed_partial (handler : Ad → String → Kw V → Option Result) (s : Reg Cls Ad) (c : Cls) (kind : String) (show' : Bool) (options : Kw V) (r : Result)
    (out : List String) (h : dispatch handler s c kind show' options = some (r, out)) :
    (show' = false → out = []) ∧ (show' = true → ∃ ln, out = ["[kd.viz." ++ kind ++ "] " ++ ln] ∧ (∀ w ∈ r.warnings, ∃ pre post, ln = pre ++ w ++ post) ∧
      (r.warnings = [] → ∀ p ∈ r.paths, ∃ pre post, ln = pre ++ p ++ post)) := by
  have hout : out = if show' then [line kind r] else [] := by
    unfold dispatch at h
    split at h
    · cases h
    · simp only [dispatch.emit, Option.some.injEq, Prod.mk.injEq] at h
      rw [← h.1, ← h.2]
    · split at h
      · simp only [Option.bind_eq_some_iff, dispatch.emit, Option.some.injEq, Prod.mk.injEq] at h
        obtain ⟨x, _, rfl, h⟩ := h
        exact h.symm
      · simp only [dispatch.emit, Option.some.injEq, Prod.mk.injEq] at h
        rw [← h.1, ← h.2]
  subst hout
  refine ⟨fun e => by simp [e], fun e => ?_⟩
  subst e
  simp only [if_true]
  unfold line
  by_cases hw : r.warnings = []
  · by_cases hp : r.paths = []
    · cases r.figure with
      | true => exact ⟨"figure ready", by simp [hw, hp, String.append_assoc], by simp [hw], by simp [hp]⟩
      | false => exact ⟨"produced no output", by simp [hw, hp, String.append_assoc], by simp [hw], by simp [hp]⟩
    · refine ⟨"saved: " ++ join ", " r.paths, by simp [hw, hp, String.append_assoc]; rw [← String.append_assoc]; rfl, by simp [hw], fun _ p hm => ?_⟩
      obtain ⟨pre, post, e⟩ := mem_join ", " r.paths p hm
      exact ⟨"saved: " ++ pre, post, by rw [e]; simp [String.append_assoc]⟩
  · refine ⟨"warning: " ++ join "; " r.warnings, by simp [hw, String.append_assoc]; rw [← String.append_assoc]; rfl, fun w hm => ?_, fun h => absurd h hw⟩
    obtain ⟨pre, post, e⟩ := mem_join "; " r.warnings w hm
    exact ⟨"warning: " ++ pre, post, by rw [e]; simp [String.append_assoc]⟩

/-- **C199, counterexample**: of a figure saved with a warning (a DISCOVER residual figure in two or more space dimensions, an SGA figure) the printed line says nothing: it
does not depend on what was saved. -/
theorem C199_printed_counterexample (kind : String) (r : Result) (hw : r.warnings ≠ []) (paths : List String) (fig : Bool) :
    line kind r = line kind ⟨r.warnings, paths, fig⟩ := by
  simp [line, hw]

/-! ### Where figures are saved -/

/-- **C199** (files): with the same settings no two figures are saved to the same file, unless the same adapter draws the same intent; every file lies in the adapter's own
directory under the directory asked for in the call, else under the configured one, else under the current one. -/
theorem C199_files (outputDir saveDir : Option Path) (cwd : Path) (a b : Ad) (i j : String) (fa fb : List String) (ha : a.files i = some fa) (hb : b.files j = some fb)
    (f g : String) (hf : f ∈ fa) (hg : g ∈ fb) :
    resolveOutput a outputDir saveDir cwd f = (outputDir.getD (saveDir.getD cwd)) ++ [a.subdir, f] ∧
    (resolveOutput a outputDir saveDir cwd f = resolveOutput b outputDir saveDir cwd g → a = b ∧ i = j ∧ f = g) := by
  have hr : ∀ (a : Ad) f, resolveOutput a outputDir saveDir cwd f = (outputDir.getD (saveDir.getD cwd)) ++ [a.subdir, f] := by
    intro a f
    cases outputDir <;> simp [resolveOutput, savePath]
  refine ⟨hr a f, fun e => ?_⟩
  rw [hr, hr] at e
  have e := List.append_cancel_left e
  simp only [List.cons.injEq, and_true] at e
  have hab : a = b := by
    cases a <;> cases b <;> first | rfl | exact absurd e.1 (by decide +kernel)
  subst hab
  have e2 := e.2
  subst e2
  have hi : i ∈ a.caps := (C199_handlers a i).2 (by rw [ha]; rfl)
  have hj : j ∈ a.caps := (C199_handlers a j).2 (by rw [hb]; rfl)
  have tbl : ∀ i ∈ a.caps, ∀ j ∈ a.caps, ∀ f ∈ (a.files i).getD [], f ∈ (a.files j).getD [] → i = j := by
    cases a <;> decide +kernel
  exact ⟨rfl, tbl i hi j hj f (by rw [ha]; exact hf) (by rw [hb]; exact hg), rfl⟩

end Verif.Viz.Api.Claims
