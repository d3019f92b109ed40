import Verif.Discover.PriorBuild
/-!
# C165: the configured constraints are in force in every search; C166: the report of constraint counts
-/
namespace Verif.Discover.PriorBuild.Claims
open Verif.Discover.PriorBuild

variable {A P L : Type}

/-! ## C165 -/

/-- The enabled entries of a configuration, in order, with the name of their type. -/
def enabled (es : List (String × List (Args A))) : List (String × A) :=
  es.flatMap fun e => (e.2.filter (fun a => a.on == some true)).map fun a => (e.1, a.rest)

/-- The constraint an entry stands for, if it is valid for the library. -/
def valid (cls : String → Option (A → Made P)) (x : String × A) : Option P :=
  match cls x.1 with
  | some mk => match mk x.2 with
    | .ok p => some p
    | _ => none
  | none => none

/-- The constraints the configuration asks for. -/
def configured (cls : String → Option (A → Made P)) (c : Config A) : List P := (enabled c.entries).filterMap (valid cls)

/-- Building raises nothing: all types are known, and no enabled entry raises. -/
def Builds (cls : String → Option (A → Made P)) (c : Config A) : Prop :=
  ∀ e ∈ c.entries, ∃ mk, cls e.1 = some mk ∧ ∀ a ∈ e.2, a.on = some true → ∀ h : mk a.rest = .raises, False

theorem enabled_cons (n : String) (as : List (Args A)) (es : List (String × List (Args A))) :
    enabled ((n, as) :: es) = (as.filter (fun a => a.on == some true)).map (fun a => (n, a.rest)) ++ enabled es := rfl

theorem buildArgs_eq (cls : String → Option (A → Made P)) (n : String) (mk : A → Made P) (hn : cls n = some mk) (as : List (Args A))
    (h : ∀ a ∈ as, a.on = some true → ∀ _ : mk a.rest = .raises, False) :
    (buildArgs mk as).2 = some (((as.filter (fun a => a.on == some true)).map (fun a => (n, a.rest))).filterMap (valid cls)) := by
  induction as with
  | nil => rfl
  | cons a as ih =>
    have ih := ih (fun b hb => h b (by simp [hb]))
    have ha := h a (by simp)
    unfold buildArgs
    cases ho : a.on with
    | none => simp [ho, ih]
    | some b =>
      cases b with
      | false => simp [ho, ih]
      | true =>
        cases hm : mk a.rest with
        | ok p => simp [ho, ih, hm, valid, hn]
        | skipped => simp [ho, ih, hm, valid, hn]
        | raises => exact (ha ho hm).elim

theorem buildArgs_rest (mk : A → Made P) (as : List (Args A)) (h : (buildArgs mk as).2 ≠ none) :
    (buildArgs mk as).1 = as.map popOn := by
  induction as with
  | nil => rfl
  | cons a as ih =>
    unfold buildArgs at h ⊢
    cases ho : a.on with
    | none => simp only [ho] at h ⊢; rw [ih h]; rfl
    | some b =>
      cases b with
      | false => simp only [ho] at h ⊢; rw [ih h]; rfl
      | true =>
        cases hm : mk a.rest with
        | ok p =>
          simp only [ho, hm] at h ⊢
          rw [ih (fun hc => h (by simp [hc]))]; rfl
        | skipped => simp only [ho, hm] at h ⊢; rw [ih h]; rfl
        | raises => simp [ho, hm] at h

/-- **C165** (one build): the joint prior has exactly the constraints that are enabled and valid for the library, in the order of the configuration. -/
theorem C165_build (cls : String → Option (A → Made P)) (c : Config A) (h : Builds cls c) :
    (makePrior cls c).2 = some ⟨configured cls c, c.count.getD false⟩ := by
  have key : ∀ es : List (String × List (Args A)),
      (∀ e ∈ es, ∃ mk, cls e.1 = some mk ∧ ∀ a ∈ e.2, a.on = some true → ∀ _ : mk a.rest = .raises, False) →
      (buildAll cls es).2 = some ((enabled es).filterMap (valid cls)) := by
    intro es
    induction es with
    | nil => intro _; rfl
    | cons e es ih =>
      intro he
      obtain ⟨n, as⟩ := e
      obtain ⟨mk, hmk, hr⟩ := he (n, as) (by simp)
      have i := ih (fun e' h' => he e' (by simp [h']))
      unfold buildAll
      simp only [hmk, buildArgs_eq cls n mk hmk as hr, i, enabled_cons, List.filterMap_append, Option.map_some]
  unfold makePrior
  simp only [key c.entries h, configured, Option.map_some]

/-- All types of a configuration are known. -/
def Known (cls : String → Option (A → Made P)) (c : Config A) : Prop := ∀ e ∈ c.entries, (cls e.1).isSome

/-- No entry is enabled and counting is off. -/
def Empty (c : Config A) : Prop := c.count = none ∧ ∀ e ∈ c.entries, ∀ a ∈ e.2, a.on = none

theorem buildAll_rest (cls : String → Option (A → Made P)) (es : List (String × List (Args A))) (h : (buildAll cls es).2 ≠ none) :
    (buildAll cls es).1 = es.map (fun e => (e.1, e.2.map popOn)) := by
  induction es with
  | nil => rfl
  | cons e es ih =>
    obtain ⟨n, as⟩ := e
    unfold buildAll at h ⊢
    cases hc : cls n with
    | none => simp [hc] at h
    | some mk =>
      cases hb : (buildArgs mk as).2 with
      | none => simp [hc, hb] at h
      | some ps =>
        simp only [hc, hb] at h ⊢
        rw [ih (fun hcon => h (by simp [hcon])), buildArgs_rest mk as (by simp [hb])]
        rfl

/-- **C165** (what a build leaves behind): building switches every entry of the configuration off. -/
theorem C165_consumed (cls : String → Option (A → Made P)) (c : Config A) (h : (makePrior cls c).2 ≠ none) : Empty (makePrior cls c).1 := by
  refine ⟨rfl, ?_⟩
  have h' : (buildAll cls c.entries).2 ≠ none := fun hc => h (by simp [makePrior, hc])
  intro e he a ha
  simp only [makePrior] at he
  rw [buildAll_rest cls c.entries h'] at he
  obtain ⟨e', _, rfl⟩ := List.mem_map.1 he
  obtain ⟨a', _, rfl⟩ := List.mem_map.1 ha
  rfl

theorem known_after (cls cls' : String → Option (A → Made P)) (c : Config A) (h : Known cls' c) : Known cls' (makePrior cls c).1 := by
  have key : ∀ es : List (String × List (Args A)), (∀ e ∈ es, (cls' e.1).isSome) → ∀ e ∈ (buildAll cls es).1, (cls' e.1).isSome := by
    intro es
    induction es with
    | nil => intro _ e he; simp [buildAll] at he
    | cons e es ih =>
      intro hk
      obtain ⟨n, as⟩ := e
      intro e' he'
      unfold buildAll at he'
      cases hc : cls n with
      | none => simp only [hc] at he'; exact hk e' he'
      | some mk =>
        cases hb : (buildArgs mk as).2 with
        | none =>
          simp only [hc, hb, List.mem_cons] at he'
          rcases he' with rfl | h'
          · exact hk (n, as) (by simp)
          · exact hk e' (by simp [h'])
        | some ps =>
          simp only [hc, hb, List.mem_cons] at he'
          rcases he' with rfl | h'
          · exact hk (n, as) (by simp)
          · exact ih (fun x hx => hk x (by simp [hx])) e' h'
  exact key c.entries h

theorem empty_builds (cls : String → Option (A → Made P)) (c : Config A) (he : Empty c) (hk : Known cls c) : Builds cls c := by
  intro e h
  obtain ⟨mk, hmk⟩ := Option.isSome_iff_exists.1 (hk e h)
  refine ⟨mk, hmk, ?_⟩
  intro a ha ho
  rw [he.2 e h a ha] at ho
  exact absurd ho (by simp)

theorem empty_configured (cls : String → Option (A → Made P)) (c : Config A) (he : Empty c) : configured cls c = [] := by
  have : enabled c.entries = [] := by
    unfold enabled
    rw [List.flatMap_eq_nil_iff]
    intro e hm
    have : e.2.filter (fun a => a.on == some true) = [] := by
      rw [List.filter_eq_nil_iff]
      intro a ha
      simp [he.2 e hm a ha]
    rw [this]; rfl
  simp [configured, this]

/-- **C165** (building again): whatever the library then is, the second joint prior has no constraint at all. -/
theorem C165_second_build (cls cls' : String → Option (A → Made P)) (c : Config A) (h : (makePrior cls c).2 ≠ none) (hk : Known cls' c) :
    (makePrior cls' (makePrior cls c).1).2 = some ⟨[], false⟩ := by
  have he := C165_consumed cls c h
  rw [C165_build cls' _ (empty_builds cls' _ he (known_after cls cls' c hk)), empty_configured cls' _ he]
  rfl

/-- **C165** (regular mode – partial: one import).  After one `import_dataset`, every search has the configured constraints, however often it is trained.
Missing: importing again. -/
theorem C165_regular_partial (cls : L → String → Option (A → Made P)) (c : Config A) (lib : L) (h : Builds (cls lib) c) (n : Nat) (libs : List L)
    (hn : libs.length = n) :
    ((((Est.new c).regular cls (.importDataset lib)) |> fun e => (libs.map Op.train).foldl (Est.regular cls) e).searches)
      = List.replicate n ⟨configured (cls lib) c, c.count.getD false⟩ := by
  have key : ∀ (ops : List L) (e : Est A P) (j : Joint P), e.prior = some j →
      ((ops.map Op.train).foldl (Est.regular cls) e).searches = e.searches ++ List.replicate ops.length j := by
    intro ops
    induction ops with
    | nil => intro e j _; simp
    | cons l ops ih =>
      intro e j hj
      rw [List.map_cons, List.foldl_cons, ih _ j (by simpa [Est.regular, Est.search] using hj)]
      simp [Est.regular, Est.search, hj, List.replicate_succ]
  have hp : ((Est.new c : Est A P).regular cls (.importDataset lib)).prior = some ⟨configured (cls lib) c, c.count.getD false⟩ := by
    simp [Est.regular, Est.setup, Est.new, C165_build (cls lib) c h, Option.orElse]
  have := key libs _ _ hp
  rw [hn] at this
  simpa [Est.regular, Est.setup, Est.new] using this

/-- **C165**, false of reused estimators: after a second `import_dataset` (regular mode) the search has no constraint. -/
theorem C165_reimport_counterexample (cls : L → String → Option (A → Made P)) (c : Config A) (lib lib' lib'' : L) (h : Builds (cls lib) c)
    (hk : Known (cls lib') c) :
    ([.importDataset lib, .importDataset lib', .train lib''].foldl (Est.regular cls) (Est.new c)).searches = [⟨[], false⟩] := by
  have h1 := C165_build (cls lib) c h
  have h2 := C165_second_build (cls lib) (cls lib') c (by simp [h1]) hk
  simp [Est.regular, Est.setup, Est.search, Est.new, h2, Option.orElse]

/-- **C165**, false of sparse mode: with `import_dataset` and `train` – the documented way – the search never has any constraint, whatever is configured, for
the library is set up twice. -/
theorem C165_sparse_counterexample (cls : L → String → Option (A → Made P)) (c : Config A) (lib lib' : L) (h : Builds (cls lib) c)
    (hk : Known (cls lib') c) :
    ([.importDataset lib, .train lib'].foldl (Est.sparse cls) (Est.new c)).searches = [⟨[], false⟩] := by
  have h1 := C165_build (cls lib) c h
  have h2 := C165_second_build (cls lib) (cls lib') c (by simp [h1]) hk
  simp [Est.sparse, Est.setup, Est.search, Est.new, h2, Option.orElse]

/-- **C165** (sparse mode without import – `fit(x, y, domains)`): the first run has the configured constraints, the next one none. -/
theorem C165_sparse_fit (cls : L → String → Option (A → Made P)) (c : Config A) (lib lib' : L) (h : Builds (cls lib) c) (hk : Known (cls lib') c) :
    ([.train lib, .train lib'].foldl (Est.sparse cls) (Est.new c)).searches = [⟨configured (cls lib) c, c.count.getD false⟩, ⟨[], false⟩] := by
  have h1 := C165_build (cls lib) c h
  have h2 := C165_second_build (cls lib) (cls lib') c (by simp [h1]) hk
  simp [Est.sparse, Est.setup, Est.search, Est.new, h1, h2, Option.orElse]

/-- A set-up that stops with an error leaves the controller of the last successful one: the next search runs with the earlier constraints. -/
theorem C165_failed_setup (cls : L → String → Option (A → Made P)) (e : Est A P) (j : Joint P) (hj : e.prior = some j) (lib lib' : L)
    (hf : (makePrior (cls lib) e.cfg).2 = none) :
    ([.importDataset lib, .train lib'].foldl (Est.regular cls) e).searches = e.searches ++ [j] := by
  simp [Est.regular, Est.setup, Est.search, hf, hj, Option.orElse]

/-- **C165** (history): after any calls in any order, on either estimator, every search ran with the constraints of the first successful build, or with none. -/
theorem C165_history (cls : L → String → Option (A → Made P)) (c : Config A) (hk : ∀ lib, Builds (cls lib) c) (step : Est A P → Op L → Est A P)
    (hs : step = Est.regular cls ∨ step = Est.sparse cls) (ops : List (Op L)) :
    ∀ j ∈ (ops.foldl step (Est.new c)).searches, (∃ lib, j = ⟨configured (cls lib) c, c.count.getD false⟩) ∨ j = ⟨[], false⟩ := by
  have hkn : ∀ lib, Known (cls lib) c := by
    intro lib e he
    obtain ⟨mk, hmk, _⟩ := hk lib e he
    simp [hmk]
  -- the state: the configuration is untouched or consumed
  have inv : ∀ (ops : List (Op L)) (e : Est A P),
      ((e.cfg = c ∨ (Empty e.cfg ∧ ∀ lib, Known (cls lib) e.cfg)) ∧
        (∀ j ∈ e.prior.toList ++ e.searches, (∃ lib, j = ⟨configured (cls lib) c, c.count.getD false⟩) ∨ j = ⟨[], false⟩)) →
      (∀ j ∈ (ops.foldl step e).searches, (∃ lib, j = ⟨configured (cls lib) c, c.count.getD false⟩) ∨ j = ⟨[], false⟩) := by
    have hsetup : ∀ (lib : L) (e : Est A P),
        ((e.cfg = c ∨ (Empty e.cfg ∧ ∀ lib, Known (cls lib) e.cfg)) ∧
          (∀ j ∈ e.prior.toList ++ e.searches, (∃ lib, j = ⟨configured (cls lib) c, c.count.getD false⟩) ∨ j = ⟨[], false⟩)) →
        (((e.setup (cls lib)).cfg = c ∨ (Empty (e.setup (cls lib)).cfg ∧ ∀ lib', Known (cls lib') (e.setup (cls lib)).cfg)) ∧
          (∀ j ∈ (e.setup (cls lib)).prior.toList ++ (e.setup (cls lib)).searches,
            (∃ lib, j = ⟨configured (cls lib) c, c.count.getD false⟩) ∨ j = ⟨[], false⟩)) := by
      rintro lib e ⟨hc, hj⟩
      rcases hc with hc | ⟨hE, hK⟩
      · have hb := C165_build (cls lib) c (hk lib)
        refine ⟨Or.inr ⟨?_, ?_⟩, ?_⟩
        · simp only [Est.setup, hc]; exact C165_consumed (cls lib) c (by simp [hb])
        · intro lib'; simp only [Est.setup, hc]; exact known_after (cls lib) (cls lib') c (hkn lib')
        · intro j hm
          simp only [Est.setup, hc, hb, Option.orElse, Option.toList_some, List.singleton_append, List.mem_cons] at hm
          rcases hm with rfl | hm
          · exact Or.inl ⟨lib, rfl⟩
          · exact hj j (by simp [hm])
      · have hB := empty_builds (cls lib) e.cfg hE (hK lib)
        have hb := C165_build (cls lib) e.cfg hB
        rw [empty_configured (cls lib) e.cfg hE, hE.1] at hb
        refine ⟨Or.inr ⟨?_, ?_⟩, ?_⟩
        · simp only [Est.setup]; exact C165_consumed (cls lib) e.cfg (by simp [hb])
        · intro lib'; simp only [Est.setup]; exact known_after (cls lib) (cls lib') e.cfg (hK lib')
        · intro j hm
          simp only [Est.setup, hb, Option.orElse, Option.toList_some, List.singleton_append, List.mem_cons] at hm
          rcases hm with rfl | hm
          · exact Or.inr rfl
          · exact hj j (by simp [hm])
    have hsearch : ∀ (e : Est A P),
        ((e.cfg = c ∨ (Empty e.cfg ∧ ∀ lib, Known (cls lib) e.cfg)) ∧
          (∀ j ∈ e.prior.toList ++ e.searches, (∃ lib, j = ⟨configured (cls lib) c, c.count.getD false⟩) ∨ j = ⟨[], false⟩)) →
        ((e.search.cfg = c ∨ (Empty e.search.cfg ∧ ∀ lib, Known (cls lib) e.search.cfg)) ∧
          (∀ j ∈ e.search.prior.toList ++ e.search.searches,
            (∃ lib, j = ⟨configured (cls lib) c, c.count.getD false⟩) ∨ j = ⟨[], false⟩)) := by
      rintro e ⟨hc, hj⟩
      refine ⟨hc, ?_⟩
      intro j hm
      simp only [Est.search, List.mem_append] at hm
      rcases hm with hm | hm | hm
      · exact hj j (by simp [hm])
      · exact hj j (by simp [hm])
      · exact hj j (List.mem_append.2 (Or.inl hm))
    intro ops
    induction ops with
    | nil => intro e he j hj; exact he.2 j (List.mem_append.2 (Or.inr hj))
    | cons o ops ih =>
      intro e he
      rw [List.foldl_cons]
      apply ih
      rcases hs with rfl | rfl
      · cases o with
        | importDataset lib => exact hsetup lib e he
        | train lib => exact hsearch e he
      · cases o with
        | importDataset lib => exact hsetup lib e he
        | train lib => exact hsearch _ (hsetup lib e he)
  exact inv ops _ ⟨Or.inl rfl, by simp [Est.new]⟩

/-- **C165** (length limit): without constraints the length limit is the controller's own setting. -/
theorem C165_length (lengthOf : P → Option (Option Nat)) (dflt : Option Nat) (k : Nat) (priors : List P) :
    maxLength lengthOf dflt k [] = dflt.map (· * k) ∧
    ∀ pre p post m, priors = pre ++ p :: post → (∀ q ∈ pre, lengthOf q = none) → lengthOf p = some (some m) →
      maxLength lengthOf dflt k priors = some (m * k) := by
  refine ⟨rfl, ?_⟩
  intro pre p post m hp hpre hm
  have : pre.filterMap lengthOf = [] := by
    rw [List.filterMap_eq_nil_iff]; exact hpre
  simp [maxLength, hp, this, hm]

/-- The types of the default configuration of sparse mode (config_pde_pinn.json:152-198); arguments: the greatest length, if there is one. -/
def pinnConfig : Config (Option Nat) :=
  ⟨none, [("length", [⟨some true, some 64⟩]), ("repeat", [⟨some true, none⟩]), ("inverse", [⟨some true, none⟩]), ("trig", [⟨some true, none⟩]),
    ("const", [⟨some false, none⟩]), ("no_inputs", [⟨some false, none⟩]), ("uniform_arity", [⟨some false, none⟩]), ("soft_length", [⟨some true, none⟩]),
    ("diff_left", [⟨some true, none⟩]), ("diff_right", [⟨some true, none⟩]), ("diff_descedent", [⟨some true, none⟩])]⟩

/-- A library without inverse and trigonometric operators (the default one): those two are skipped. -/
def pinnCls : String → Option (Option Nat → Made (String × Option Nat)) := fun n => some fun m =>
  if n = "inverse" ∨ n = "trig" then .skipped else .ok (n, m)

/-- **C165**, concrete case: the default configuration of sparse mode.  The constraints asked for, with limit 64; the search after import and training has none,
with the controller's limit 30. -/
theorem C165_concrete : Builds pinnCls pinnConfig ∧ Known pinnCls pinnConfig ∧
    (configured pinnCls pinnConfig).map Prod.fst = ["length", "repeat", "soft_length", "diff_left", "diff_right", "diff_descedent"] ∧
    maxLength (fun p => if p.1 = "length" then some p.2 else none) (some 30) 1 (configured pinnCls pinnConfig) = some 64 ∧
    maxLength (fun (p : String × Option Nat) => if p.1 = "length" then some p.2 else none) (some 30) 1 [] = some 30 := by
  refine ⟨?_, ?_, by decide +kernel, by decide +kernel, rfl⟩
  · intro e _
    refine ⟨_, rfl, ?_⟩
    intro a _ _ h

    split at h <;> exact absurd h (by simp)
  · intro e _; rfl

/-! ## C166 -/

/-- All hard constraints come before all other priors. -/
def HardFirst (isConstraint : List Bool) : Prop := ∃ k l, isConstraint = List.replicate k true ++ List.replicate l false

theorem addCounts_none (n : Nat → Nat) (is counts : List Nat) : addCounts n is counts = none ↔ ∃ i ∈ is, counts.length ≤ i := by
  induction is generalizing counts with
  | nil => simp [addCounts]
  | cons i is ih =>
    unfold addCounts
    by_cases h : i < counts.length
    · rw [if_pos h, ih]
      simp only [List.length_set, List.mem_cons, exists_eq_or_imp]
      constructor
      · exact Or.inr
      · rintro (h' | h')
        · omega
        · exact h'
    · rw [if_neg h]
      simp only [true_iff]
      exact ⟨i, by simp, by omega⟩

theorem addCounts_some (n : Nat → Nat) (is counts : List Nat) (hd : is.Nodup) (h : ∀ i ∈ is, i < counts.length) :
    ∃ r, addCounts n is counts = some r ∧ r.length = counts.length ∧
      ∀ j, j < counts.length → (r[j]?).getD 0 = (counts[j]?).getD 0 + if j ∈ is then n j else 0 := by
  induction is generalizing counts with
  | nil => exact ⟨counts, rfl, rfl, by simp⟩
  | cons i is ih =>
    have hi := h i (by simp)
    rw [List.nodup_cons] at hd
    obtain ⟨r, h1, h2, h3⟩ := ih (counts.set i ((counts[i]?).getD 0 + n i)) hd.2 (by simpa using fun j hj => h j (by simp [hj]))
    refine ⟨r, ?_, by simpa using h2, ?_⟩
    · unfold addCounts; rw [if_pos hi]; exact h1
    · intro j hj
      rw [h3 j (by simpa using hj)]
      by_cases hij : j = i
      · subst hij
        simp [hi, hd.1]
      · have : ((counts.set i ((counts[i]?).getD 0 + n i))[j]?) = counts[j]? := by
          rw [List.getElem?_set_ne (fun hh => hij hh.symm)]
        rw [this]
        simp [hij]

theorem indices_nodup (b : List Bool) : (constraintIndices b).Nodup := List.Pairwise.filter _ List.nodup_range

theorem mem_indices (b : List Bool) (i : Nat) : i ∈ constraintIndices b ↔ b[i]? = some true := by
  unfold constraintIndices
  simp only [List.mem_filter, List.mem_range]
  constructor
  · rintro ⟨h1, h2⟩
    rw [List.getElem?_eq_getElem h1] at h2 ⊢
    simpa using h2
  · intro h
    obtain ⟨h1, h2⟩ := List.getElem?_eq_some_iff.1 h
    exact ⟨h1, by simp [h]⟩

theorem hardFirst_iff (b : List Bool) : HardFirst b ↔ ∀ i ∈ constraintIndices b, i < (constraintIndices b).length := by
  constructor
  · rintro ⟨k, l, rfl⟩
    have hlen : k ≤ (constraintIndices (List.replicate k true ++ List.replicate l false)).length := by
      have hsub : List.range k ⊆ constraintIndices (List.replicate k true ++ List.replicate l false) := by
        intro i hi
        rw [mem_indices]
        have : i < k := List.mem_range.1 hi
        rw [List.getElem?_append_left (by simpa using this)]
        simp [this]
      have := (List.nodup_range (n := k)).length_le_of_subset hsub
      simpa using this
    intro i hi
    rw [mem_indices] at hi
    rcases Nat.lt_or_ge i k with h | h
    · omega
    · rw [List.getElem?_append_right (by simpa using h)] at hi
      simp only [List.length_replicate] at hi
      obtain ⟨h1, h2⟩ := List.getElem?_eq_some_iff.1 hi
      simp at h2
  · intro h
    obtain ⟨k, hk⟩ : ∃ k, (constraintIndices b).length = k := ⟨_, rfl⟩
    rw [hk] at h
    have hsub : constraintIndices b ⊆ List.range k := fun i hi => List.mem_range.2 (h i hi)
    have hperm : ∀ i, i < k → i ∈ constraintIndices b := by
      intro i hi
      refine Classical.byContradiction fun hn => ?_
      have h2 : (i :: constraintIndices b).Nodup := List.nodup_cons.2 ⟨hn, indices_nodup b⟩
      have h3 : (i :: constraintIndices b) ⊆ List.range k := by
        intro j hj
        rcases List.mem_cons.1 hj with rfl | hj
        · exact List.mem_range.2 hi
        · exact hsub hj
      have := h2.length_le_of_subset h3
      simp [hk] at this
      omega
    have hkb : k ≤ b.length := by
      refine Classical.byContradiction fun hn => ?_
      have := (mem_indices b b.length).1 (hperm b.length (by omega))
      simp at this
    refine ⟨k, b.length - k, ?_⟩
    apply List.ext_getElem?
    intro i
    rcases Nat.lt_or_ge i k with hi | hi
    · rw [(mem_indices b i).1 (hperm i hi), List.getElem?_append_left (by simpa using hi)]
      simp [hi]
    · rw [List.getElem?_append_right (by simpa using hi)]
      simp only [List.length_replicate]
      by_cases hb : i < b.length
      · rw [List.getElem?_eq_getElem hb]
        have hne : b[i] ≠ true := fun ht => by
          have := h i ((mem_indices b i).2 (by rw [List.getElem?_eq_getElem hb, ht]))
          omega
        have : b[i] = false := by simpa using hne
        rw [this, List.getElem?_replicate]
        rw [if_pos (by omega)]
      · rw [List.getElem?_eq_none (by omega), List.getElem?_replicate, if_neg (by omega)]

/-- **C166** (when counting works): the first call with counting succeeds exactly if all hard constraints come before all other priors; otherwise it ends in an IndexError. -/
theorem C166_works_iff (b : List Bool) (c : Call) : ((Counter.new b).call b c).isSome ↔ HardFirst b := by
  rw [hardFirst_iff]
  unfold Counter.call
  rw [Option.isSome_map, Option.isSome_iff_ne_none, ne_eq, addCounts_none]
  simp only [Counter.new, List.length_replicate]
  constructor
  · intro h i hi
    refine Classical.byContradiction fun hn => h ⟨i, hi, by omega⟩
  · rintro h ⟨i, hi, hle⟩
    have := h i hi
    omega

/-- **C166** (the counts – partial: hard constraints first).  Then after any calls the count of every constraint is the number of entries it has forbidden, the report lists
the constraints in order under their names, and the reference number is the number of rows times tokens so far, summed over the calls.
Missing: other orders of the configuration. -/
theorem C166_counts_partial (b : List Bool) (h : HardFirst b) (cs : List Call) :
    ∃ s, (Counter.new b).calls b cs = some s ∧ s.totalTokens = (cs.map fun c => c.rows * c.time).sum ∧
      s.counts = (constraintIndices b).map (fun i => (cs.map fun c => c.forbids i).sum) := by
  have hrange : constraintIndices b = List.range (constraintIndices b).length := by
    obtain ⟨k, l, rfl⟩ := h
    have e : constraintIndices (List.replicate k true ++ List.replicate l false) = List.range k := by
      unfold constraintIndices
      rw [show (List.replicate k true ++ List.replicate l false).length = k + l by simp, List.range_add, List.filter_append]
      have h1 : (List.range k).filter (fun (i : Nat) => ((List.replicate k true ++ List.replicate l false)[i]?).getD false) = List.range k := by
        rw [List.filter_eq_self]
        intro i hi
        have : i < k := List.mem_range.1 hi
        rw [List.getElem?_append_left (by simpa using this)]
        simp [this]
      have h2 : ((List.range l).map (k + ·)).filter (fun (i : Nat) => ((List.replicate k true ++ List.replicate l false)[i]?).getD false) = [] := by
        rw [List.filter_eq_nil_iff]
        intro i hi
        obtain ⟨j, hj, rfl⟩ := List.mem_map.1 hi
        rw [List.getElem?_append_right (by simp)]
        have : j < l := List.mem_range.1 hj
        simp [this]
      rw [h1, h2, List.append_nil]
    rw [e]; simp
  obtain ⟨k, hk⟩ : ∃ k, (constraintIndices b).length = k := ⟨_, rfl⟩
  rw [hk] at hrange
  have key : ∀ (cs : List Call) (s : Counter), s.counts.length = k →
      ∃ s', s.calls b cs = some s' ∧ s'.totalTokens = s.totalTokens + (cs.map fun c => c.rows * c.time).sum ∧ s'.counts.length = k ∧
        ∀ j, j < k → (s'.counts[j]?).getD 0 = (s.counts[j]?).getD 0 + (cs.map fun c => c.forbids j).sum := by
    intro cs
    induction cs with
    | nil => intro s hs; exact ⟨s, rfl, by simp, hs, by simp⟩
    | cons c cs ih =>
      intro s hs
      obtain ⟨r, h1, h2, h3⟩ := addCounts_some c.forbids (constraintIndices b) s.counts (indices_nodup b)
        (by rw [hrange, hs]; exact fun i hi => List.mem_range.1 hi)
      obtain ⟨s', g1, g2, g3, g4⟩ := ih ⟨r, s.totalTokens + c.rows * c.time⟩ (by simp [h2, hs])
      refine ⟨s', ?_, ?_, g3, ?_⟩
      · simp only [Counter.calls, Counter.call, h1, Option.map_some, Option.bind_some, g1]
      · rw [g2]; simp [Nat.add_assoc]
      · intro j hj
        rw [g4 j hj]
        show (r[j]?).getD 0 + _ = _
        rw [h3 j (by omega), if_pos (by rw [hrange]; exact List.mem_range.2 hj)]
        simp [Nat.add_assoc]
  obtain ⟨s, h1, h2, h3, h4⟩ := key cs (Counter.new b) (by simp [Counter.new, hk])
  refine ⟨s, h1, by simpa [Counter.new] using h2, ?_⟩
  apply List.ext_getElem (by simp [h3, hk])
  intro j hj hj'
  have := h4 j (by omega)
  have hget : (constraintIndices b)[j]'(by simpa using hj') = j := by
    have : (constraintIndices b)[j]? = some j := by rw [hrange]; exact List.getElem?_range (by omega)
    exact (List.getElem?_eq_some_iff.1 this).2
  simp only [List.getElem_map, hget]
  rw [List.getElem?_eq_getElem hj] at this
  simpa [Counter.new, List.getElem?_replicate, show j < k by omega, hk] using this

/-- **C166**, false of the default configuration: the soft length prior comes before the constraints on derivatives, so the first call raises IndexError. -/
theorem C166_default_counterexample (c : Call) :
    (Counter.new [true, true, false, true, true, true]).call [true, true, false, true, true, true] c = none := by
  rw [← Option.not_isSome_iff_eq_none, C166_works_iff]
  rintro ⟨k, l, h⟩
  match k with
  | 0 => cases l <;> simp [List.replicate_succ] at h
  | 1 => cases l <;> simp [List.replicate_succ] at h
  | 2 => 
    match l with
    | 0 => simp [List.replicate_succ] at h
    | 1 => simp [List.replicate_succ] at h
    | l + 2 => simp [List.replicate_succ] at h
  | k + 3 => simp [List.replicate_succ] at h

/-- **C166**, the percentage can exceed one hundred: after one token in one row, two forbidden entries count as 200 per cent. -/
theorem C166_percentage_counterexample :
    ((Counter.new [true]).calls [true] [⟨1, 1, fun _ => 2⟩]).map (fun s => (s.counts, s.totalTokens)) = some ([2], 1) := by decide +kernel

theorem natString_inj {i j : Nat} (h : toString i = toString j) : i = j := by
  have h2 : Nat.toDigits 10 i = Nat.toDigits 10 j := by
    have := congrArg String.toList h
    simpa [toString, Nat.repr] using this
  have := congrArg (fun l => Nat.ofDigitChars 10 l 0) h2
  simpa using this

theorem split_dash {a b c d : List Char} (ha : '-' ∉ a) (hb : '-' ∉ b) (h : a ++ '-' :: c = b ++ '-' :: d) : a = b ∧ c = d := by
  induction a generalizing b with
  | nil =>
    cases b with
    | nil => simpa using h
    | cons x b => simp only [List.nil_append, List.cons_append, List.cons.injEq] at h; exact absurd (List.mem_cons.2 (Or.inl h.1)) hb
  | cons y a ih =>
    cases b with
    | nil => simp only [List.nil_append, List.cons_append, List.cons.injEq] at h; exact absurd (List.mem_cons.2 (Or.inl h.1.symm)) ha
    | cons x b =>
      simp only [List.cons_append, List.cons.injEq] at h
      obtain ⟨h1, h2⟩ := ih (fun hm => ha (by simp [hm])) (fun hm => hb (by simp [hm])) h.2
      exact ⟨by rw [h.1, h1], h2⟩

/-- **C166** (names): the priors get different names. -/
theorem C166_names (classOf : List String) (h : ∀ c ∈ classOf, '-' ∉ c.toList) : (names classOf).Nodup := by
  rw [List.nodup_iff_pairwise_ne, List.pairwise_iff_getElem]
  intro i j hi hj hij heq
  have hi' : i < classOf.length := by simpa [names] using hi
  have hj' : j < classOf.length := by simpa [names] using hj
  simp only [names, List.getElem_map, List.getElem_range, List.getElem?_eq_getElem hi', List.getElem?_eq_getElem hj', Option.getD_some] at heq
  have ht := congrArg String.toList heq
  simp only [String.toList_append, List.append_assoc] at ht
  have e : ("-" : String).toList = ['-'] := rfl
  rw [e] at ht
  obtain ⟨h1, h2⟩ := split_dash (h _ (List.getElem_mem hi')) (h _ (List.getElem_mem hj')) ht
  have hc : classOf[i] = classOf[j] := String.toList_inj.1 h1
  have hn := natString_inj (String.toList_inj.1 h2)
  rw [← hc] at hn
  -- the class of `i` is counted before `j`
  have hsplit : classOf.take j = classOf.take i ++ classOf[i] :: (classOf.take j).drop (i + 1) := by
    apply List.ext_getElem?
    intro m
    rcases Nat.lt_trichotomy m i with hm | hm | hm
    · rw [List.getElem?_append_left (by simp; omega), List.getElem?_take_of_lt (by omega), List.getElem?_take_of_lt hm]
    · subst hm
      rw [List.getElem?_append_right (by simp; omega), List.getElem?_take_of_lt hij]
      simp [Nat.min_eq_left (Nat.le_of_lt hi')]
    · rw [List.getElem?_append_right (by simp; omega)]
      have e1 : m - (classOf.take i).length = (m - i - 1) + 1 := by simp; omega
      rw [e1, List.getElem?_cons_succ, List.getElem?_drop]
      congr 1; omega
  rw [hsplit, List.count_append, List.count_cons_self] at hn
  omega

/-- **C166** (nothing counted): as long as no token was seen, there is no report. -/
theorem C166_report_empty (classOf : List String) (b : List Bool) (h : HardFirst b) (cs : List Call) (ht : ∀ c ∈ cs, c.rows = 0 ∨ c.time = 0) :
    ((Counter.new b).calls b cs).bind (report classOf b) = none := by
  obtain ⟨s, h1, h2, h3⟩ := C166_counts_partial b h cs
  rw [h1, Option.bind_some]
  have h0 : s.totalTokens = 0 := by
    rw [h2]
    clear h1 h2 h3
    induction cs with
    | nil => rfl
    | cons c cs ih =>
      rw [List.map_cons, List.sum_cons, ih fun x hx => ht x (List.mem_cons_of_mem _ hx)]
      rcases ht c List.mem_cons_self with h | h <;> simp [h]
  unfold report
  rw [if_pos h0]

/-- **C166** (the report): for every constraint its name and the number of entries it has forbidden. -/
theorem C166_report_partial (classOf : List String) (b : List Bool) (h : HardFirst b) (cs : List Call) (ht : (cs.map fun c => c.rows * c.time).sum ≠ 0) :
    ((Counter.new b).calls b cs).bind (report classOf b) =
      some ((constraintIndices b).map fun i => (((names classOf)[i]?).getD "", (cs.map fun c => c.forbids i).sum)) := by
  obtain ⟨s, h1, h2, h3⟩ := C166_counts_partial b h cs
  rw [h1, Option.bind_some]
  unfold report
  rw [if_neg (by rw [h2]; exact ht), h3]
  congr 1
  rw [List.zip_map_right, List.map_map]
  apply List.ext_getElem (by simp)
  intro j hj hj'
  simp

/-- A case: two constraints before the soft prior, one call on two rows after three tokens. -/
example : HardFirst [true, true, false] ∧
    ((Counter.new [true, true, false]).calls [true, true, false] [⟨2, 3, fun i => i + 1⟩]).bind (report ["LengthConstraint", "RepeatConstraint", "SoftLengthPrior"] [true, true, false])
      = some [("LengthConstraint-0", 1), ("RepeatConstraint-0", 2)] :=
  ⟨⟨2, 1, rfl⟩, by decide +kernel⟩

end Verif.Discover.PriorBuild.Claims
