import Verif.App.Form
/-!
# C169 (results of training in the form), C170 (models offered), C171 (figures of the form)
-/
namespace Verif.App.Form.Claims
open Verif.App.Form
variable {M F : Type}

/-! ## C169 -/

/-- With the modules of the repository no training but EqGPT's ever shows a result, whatever the dataset, the model and the outcome of the fit. -/
theorem C169_never_counterexample (env : Env M F) (hm : env.modules = shippedModules) (dataset name : String) (h : name ≠ "KD_EqGPT") :
    ∀ eq fig m caps, runTraining env dataset name ≠ .result eq fig m caps := by
  have hd : "kd_dscv" ∉ env.modules := by rw [hm]; decide +kernel
  intro eq fig m caps
  unfold runTraining
  by_cases h0 : dataset = "" ∨ name = ""
  · rw [if_pos h0]; exact (fun h => nomatch h)
  · rw [if_neg h0]
    unfold runLocal
    by_cases h1 : name ≠ "KD_EqGPT" ∧ env.loads dataset = false
    · rw [if_pos h1]; exact (fun h => nomatch h)
    · rw [if_neg h1]
      cases moduleOf name with
      | none => exact (fun h => nomatch h)
      | some mod =>
        by_cases h2 : mod ∈ env.modules
        · simp only [h2, if_true]
          cases env.fit dataset name with
          | none => exact (fun h => nomatch h)
          | some p =>
            have hp : present env name p.1 p.2 = none := by
              unfold present plotTypes
              rw [if_neg h, if_neg hd]
              cases equationText env name p.1 p.2 <;> rfl
            simp only [hp, Option.getD_none]
            exact (fun h => nomatch h)
        · simp only [h2, if_false]; exact (fun h => nomatch h)

/-- In particular a successful fit of KD_SGA or KD_DLGA is shown as a training error, and the fitted model is lost. -/
theorem C169_error_counterexample (env : Env M F) (hm : env.modules = shippedModules) (dataset name : String) (hd : dataset ≠ "")
    (hn : name = "KD_SGA" ∨ name = "KD_DLGA" ∨ name = "KD_DSCV" ∨ name = "KD_DSCV_SPR") :
    runTraining env dataset name = .trainingError := by
  have hk : "kd_dscv" ∉ env.modules := by rw [hm]; decide +kernel
  have hne : name ≠ "" ∧ name ≠ "KD_EqGPT" := by
    rcases hn with h | h | h | h <;> subst h <;> decide +kernel
  unfold runTraining
  rw [if_neg (fun h => h.elim hd hne.1)]
  unfold runLocal
  by_cases h1 : name ≠ "KD_EqGPT" ∧ env.loads dataset = false
  · rw [if_pos h1]
  · rw [if_neg h1]
    have hs : ∃ mod, moduleOf name = some mod := by
      rcases hn with h | h | h | h <;> subst h <;> exact ⟨_, rfl⟩
    obtain ⟨mod, hmod⟩ := hs
    rw [hmod]
    by_cases h2 : mod ∈ env.modules
    · simp only [h2, if_true]
      cases env.fit dataset name with
      | none => rfl
      | some p =>
        have hp : present env name p.1 p.2 = none := by
          unfold present plotTypes
          rw [if_neg hne.2, if_neg hk]
          cases equationText env name p.1 p.2 <;> rfl
        simp only [hp, Option.getD_none]
    · simp only [h2, if_false]

/-- A name outside the five of the form is answered as unknown model, provided the dataset can be loaded; nothing is trained. -/
theorem C169_unknown (env : Env M F) (dataset name : String) (hd : dataset ≠ "") (hn : name ≠ "") (hl : env.loads dataset = true)
    (hu : name ∉ ["KD_EqGPT", "KD_SGA", "KD_DLGA", "KD_DSCV", "KD_DSCV_SPR"]) : runTraining env dataset name = .unknownModel := by
  have hm : moduleOf name = none := by
    unfold moduleOf
    split <;> simp_all
  simp [runTraining, hd, hn, runLocal, hl, hm]

/-- EqGPT's result is shown, whatever dataset is selected (a dataset must be selected, but is not used), with the reported equation. -/
theorem C169_eqgpt_partial (env : Env M F) (hm : "kd_eqgpt" ∈ env.modules) (dataset : String) (hd : dataset ≠ "") (m : M) (r : Option String)
    (hf : env.fit dataset "KD_EqGPT" = some (m, r)) :
    runTraining env dataset "KD_EqGPT" =
      .result (r.getD "(no equation found)") (env.figure m (r.getD "(no equation found)")) m [] := by
  simp [runTraining, hd, runLocal, moduleOf, hm, hf, present, equationText]

/-- If the missing module were there, every successful fit would be shown: the model's own equation, and all plot types of the model except those of
sparse runs for other models. -/
theorem C169_with_module_partial (env : Env M F) (hk : "kd_dscv" ∈ env.modules) (dataset name mod : String) (hd : dataset ≠ "") (hn : name ≠ "")
    (he : name ≠ "KD_EqGPT") (hl : env.loads dataset = true) (hmod : moduleOf name = some mod) (him : mod ∈ env.modules) (m : M) (r : Option String)
    (hf : env.fit dataset name = some (m, r)) (eq : String) (heq : equationText env name m r = some eq) :
    ∃ plots, runTraining env dataset name = .result eq (env.figure m eq) m plots ∧
      ∀ c, c ∈ plots ↔ c ∈ env.capabilities m ∧ (env.isSpr m = true ∨ "spr_".isPrefixOf c = false) := by
  refine ⟨if env.isSpr m then env.capabilities m else (env.capabilities m).filter fun c => !("spr_".isPrefixOf c), ?_, ?_⟩
  · simp only [runTraining, hd, hn, or_self, if_false, runLocal, hl, hmod, him, if_true, hf, present, heq, plotTypes, hk, if_neg he]
    rw [if_neg (by simp)]
    rfl
  · intro c
    cases hs : env.isSpr m with
    | true => simp
    | false => rw [if_neg (by simp), List.mem_filter]; simp

/-! A DLGA fit that succeeds: an error is shown with the repository's modules, the equation with the missing one. -/
def exEnv (mods : List String) : Env Nat Nat :=
  ⟨mods, fun _ => true, fun _ _ => some (5, none), fun _ => none, fun _ => some "u_t = u", fun _ => ["equation", "spr_residual"], fun _ => false, fun m _ => some m⟩
example : runTraining (exEnv shippedModules) "kdv" "KD_DLGA" = .trainingError := by with_unfolding_all rfl
example : runTraining (exEnv ("kd_dscv" :: shippedModules)) "kdv" "KD_DLGA" = .result "u_t = u" (some 5) 5 ["equation"] := by with_unfolding_all rfl

/-! ## C170 -/

/-- A model is offered exactly if the registry marks the dataset for the form's key of the model, or it is EqGPT. -/
theorem C170_offered (reg : List (String × Entry)) (name model : String) (hn : name ≠ "") :
    model ∈ compatible reg name ↔
      model = "KD_EqGPT" ∨ ∃ key e, (model, key) ∈ modelKeys ∧ reg.lookup name = some e ∧ e.models.lookup key = some true := by
  unfold compatible
  rw [if_neg hn]
  simp only
  have key : ∀ m, m ∈ (modelKeys.filter fun p => ((((reg.lookup name).map Entry.models).getD []).lookup p.2).getD false).map Prod.fst ↔
      ∃ key e, (m, key) ∈ modelKeys ∧ reg.lookup name = some e ∧ e.models.lookup key = some true := by
    intro m
    constructor
    · intro h
      obtain ⟨⟨a, k⟩, hp, rfl⟩ := List.mem_map.1 h
      obtain ⟨h1, h2⟩ := List.mem_filter.1 hp
      cases hl : reg.lookup name with
      | none => rw [hl] at h2; simp at h2
      | some e =>
        rw [hl] at h2
        refine ⟨k, e, h1, rfl, ?_⟩
        cases hv : e.models.lookup k with
        | none => simp [hv] at h2
        | some b => simp [hv] at h2; rw [h2]
    · rintro ⟨k, e, h1, h2, h3⟩
      exact List.mem_map.2 ⟨(m, k), List.mem_filter.2 ⟨h1, by simp [h2, h3]⟩, rfl⟩
  by_cases he : "KD_EqGPT" ∈ (modelKeys.filter fun p => ((((reg.lookup name).map Entry.models).getD []).lookup p.2).getD false).map Prod.fst
  · rw [if_pos he, key]
    constructor
    · exact Or.inr
    · rintro (rfl | h)
      · exact (key _).1 he
      · exact h
  · rw [if_neg he, List.mem_append, key, List.mem_singleton]
    exact Or.comm

/-- No model is offered twice. -/
theorem C170_nodup (reg : List (String × Entry)) (name : String) : (compatible reg name).Nodup := by
  unfold compatible
  by_cases hn : name = ""
  · rw [if_pos hn]; exact List.nodup_nil
  · rw [if_neg hn]
    simp only
    have h : ((modelKeys.filter fun p => ((((reg.lookup name).map Entry.models).getD []).lookup p.2).getD false).map Prod.fst).Nodup :=
      List.Nodup.sublist (List.filter_sublist.map _) (by decide +kernel : (modelKeys.map Prod.fst).Nodup)
    by_cases he : "KD_EqGPT" ∈ (modelKeys.filter fun p => ((((reg.lookup name).map Entry.models).getD []).lookup p.2).getD false).map Prod.fst
    · rw [if_pos he]; exact h
    · rw [if_neg he]
      exact List.nodup_append.2 ⟨h, by simp, fun a ha b hb => by
        rw [List.mem_singleton.1 hb]; exact fun e => he (e ▸ ha)⟩

/-- The registry marks datasets under the keys sga, dlga, discover and discover_spr only. -/
def RegistryKeys (reg : List (String × Entry)) : Prop :=
  ∀ p ∈ reg, ∀ q ∈ p.2.models, q.1 = "sga" ∨ q.1 = "dlga" ∨ q.1 = "discover" ∨ q.1 = "discover_spr"

theorem lookup_mem {α β : Type} [BEq α] [LawfulBEq α] {l : List (α × β)} {a : α} {b : β} (h : l.lookup a = some b) : (a, b) ∈ l := by
  obtain ⟨l₁, l₂, rfl, -⟩ := List.lookup_eq_some_iff.1 h
  simp

/-- The models of the form and the entry of the registry that each of them needs; nothing else is offered.
Partial, of the whole claim: What is offered is characterised exactly; the form asks for the keys dscv and dscv_spr while the registry uses discover and discover_spr, so DISCOVER is never offered and four datasets offer EqGPT only (counterexample for every such registry). -/
theorem C170_models_partial (reg : List (String × Entry)) (name model : String) (hn : name ≠ "") :
    model ∈ compatible reg name ↔ model = "KD_EqGPT" ∨ ∃ e, reg.lookup name = some e ∧
      (model = "KD_SGA" ∧ e.models.lookup "sga" = some true ∨ model = "KD_DLGA" ∧ e.models.lookup "dlga" = some true ∨
        model = "KD_DSCV" ∧ e.models.lookup "dscv" = some true ∨ model = "KD_DSCV_SPR" ∧ e.models.lookup "dscv_spr" = some true) := by
  rw [C170_offered reg name model hn]
  constructor
  · rintro (h | ⟨key, e, h1, h2, h3⟩)
    · exact Or.inl h
    · simp only [modelKeys, List.mem_cons, Prod.mk.injEq, List.not_mem_nil, or_false] at h1
      rcases h1 with ⟨rfl, rfl⟩ | ⟨rfl, rfl⟩ | ⟨rfl, rfl⟩ | ⟨rfl, rfl⟩ | ⟨rfl, rfl⟩
      · exact Or.inr ⟨e, h2, Or.inl ⟨rfl, h3⟩⟩
      · exact Or.inr ⟨e, h2, Or.inr (Or.inl ⟨rfl, h3⟩)⟩
      · exact Or.inr ⟨e, h2, Or.inr (Or.inr (Or.inl ⟨rfl, h3⟩))⟩
      · exact Or.inr ⟨e, h2, Or.inr (Or.inr (Or.inr ⟨rfl, h3⟩))⟩
      · exact Or.inl rfl
  · rintro (h | ⟨e, h2, h⟩)
    · exact Or.inl h
    · rcases h with ⟨rfl, h3⟩ | ⟨rfl, h3⟩ | ⟨rfl, h3⟩ | ⟨rfl, h3⟩
      · exact Or.inr ⟨"sga", e, by simp [modelKeys], h2, h3⟩
      · exact Or.inr ⟨"dlga", e, by simp [modelKeys], h2, h3⟩
      · exact Or.inr ⟨"dscv", e, by simp [modelKeys], h2, h3⟩
      · exact Or.inr ⟨"dscv_spr", e, by simp [modelKeys], h2, h3⟩

/-- With such a registry the form offers exactly SGA and DLGA where marked, and EqGPT; the two DISCOVER models are never offered. -/
theorem C170_discover_counterexample (reg : List (String × Entry)) (hk : RegistryKeys reg) (name : String) :
    "KD_DSCV" ∉ compatible reg name ∧ "KD_DSCV_SPR" ∉ compatible reg name := by
  by_cases hn : name = ""
  · simp [compatible, hn]
  have aux : ∀ model key', (∀ k, (model, k) ∈ modelKeys → k = key') → model ≠ "KD_EqGPT" →
      (key' ≠ "sga" ∧ key' ≠ "dlga" ∧ key' ≠ "discover" ∧ key' ≠ "discover_spr") → model ∉ compatible reg name := by
    intro model key' hu hne hbad hc
    rcases (C170_offered reg name model hn).1 hc with h | ⟨k, e, h1, h2, h3⟩
    · exact hne h
    · rcases hk _ (lookup_mem h2) _ (lookup_mem h3) with h | h | h | h <;>
        · have := hu k h1
          simp only at h
          subst this
          simp [h] at hbad
  exact ⟨aux "KD_DSCV" "dscv" (by simp [modelKeys]) (by decide +kernel) (by decide +kernel),
    aux "KD_DSCV_SPR" "dscv_spr" (by simp [modelKeys]) (by decide +kernel) (by decide +kernel)⟩

/-- The shipped registry is of this kind and marks every active dataset for DISCOVER. -/
theorem C170_shipped : RegistryKeys shipped ∧ ∀ p ∈ shipped, p.2.pending = false → p.2.models.lookup "discover" = some true := by
  refine ⟨?_, ?_⟩
  · unfold RegistryKeys; decide +kernel
  · decide +kernel

/-- For four of the eight active datasets EqGPT is the only model offered, and the one selected, although it does not use the dataset. -/
theorem C170_only_eqgpt : ∀ name ∈ ["PDE_divide", "PDE_compound", "fisher", "fisher_linear"],
    name ∈ active shipped ∧ onDataset shipped name = (["KD_EqGPT"], some "KD_EqGPT") := by decide +kernel

/-- The datasets offered are those of the registry that are not pending. -/
theorem C170_active (reg : List (String × Entry)) (name : String) : name ∈ active reg ↔ ∃ e, (name, e) ∈ reg ∧ e.pending = false := by
  unfold active
  constructor
  · intro h
    obtain ⟨⟨a, e⟩, hp, rfl⟩ := List.mem_map.1 h
    obtain ⟨h1, h2⟩ := List.mem_filter.1 hp
    exact ⟨e, h1, by simpa using h2⟩
  · rintro ⟨e, h1, h2⟩
    exact List.mem_map.2 ⟨(name, e), List.mem_filter.2 ⟨h1, by simp [h2]⟩, rfl⟩

/-- The selected model is always one of those offered; with a dataset there is one. -/
theorem C170_selected (reg : List (String × Entry)) (name : String) :
    (∀ m, (onDataset reg name).2 = some m → m ∈ (onDataset reg name).1) ∧ (name ≠ "" → ∃ m, (onDataset reg name).2 = some m) := by
  constructor
  · intro m h
    exact List.mem_of_head? h
  · intro hn
    have : "KD_EqGPT" ∈ compatible reg name := (C170_offered reg name _ hn).2 (Or.inl rfl)
    cases hc : compatible reg name with
    | nil => rw [hc] at this; nomatch this
    | cons a l => exact ⟨a, by simp [onDataset, hc]⟩

/-- What the form offers for the datasets shipped. -/
theorem C170_shipped_models : (active shipped).map (fun n => (n, compatible shipped n)) =
    [("chafee-infante", ["KD_SGA", "KD_DLGA", "KD_EqGPT"]), ("burgers", ["KD_SGA", "KD_DLGA", "KD_EqGPT"]),
     ("burgers-reflib", ["KD_SGA", "KD_DLGA", "KD_EqGPT"]), ("kdv", ["KD_SGA", "KD_DLGA", "KD_EqGPT"]),
     ("PDE_divide", ["KD_EqGPT"]), ("PDE_compound", ["KD_EqGPT"]), ("fisher", ["KD_EqGPT"]), ("fisher_linear", ["KD_EqGPT"])] := by
  decide +kernel

example : compatible shipped "burgers" = ["KD_SGA", "KD_DLGA", "KD_EqGPT"] := by decide +kernel

/-! ## C171 -/

/-- **C171**: with a figure the message names the kind asked for; a raised or warned drawing shows its own text, and a drawing without result says so. -/
theorem C171_message (tmp : String) (draw : Option String → M → Rendered F) (dir : Option String) (kind : String) (m : M) :
    (∀ f, (runViz tmp draw dir kind (some m)).2.1 = some f → (runViz tmp draw dir kind (some m)).2.2 = "'" ++ kind ++ "' generated.") ∧
    (∀ e, draw (some tmp) m = .raised e → (runViz tmp draw dir kind (some m)).2.2 = "Visualization error: " ++ e) ∧
    (∀ fig w ws files, draw (some tmp) m = .done fig (w :: ws) files → (runViz tmp draw dir kind (some m)).2.2 = "\n".intercalate (w :: ws)) ∧
    (draw (some tmp) m = .done none [] [] → (runViz tmp draw dir kind (some m)).2.2 = "No output for '" ++ kind ++ "'.") := by
  simp only [runViz, configureDir]
  cases hd : draw (some tmp) m with
  | raised e => simp [vizAnswer]
  | done fig ws files =>
    cases ws with
    | cons w ws => simp [vizAnswer]; rintro _ _ _ _ _ rfl rfl _; rfl
    | nil => cases fig <;> cases files <;> simp [vizAnswer]

/-- A figure is shown exactly if drawing neither raised nor warned and gave a figure or a file; an in-memory figure goes before files. -/
theorem C171_figure (tmp : String) (draw : Option String → M → Rendered F) (dir : Option String) (kind : String) (m : M) (f : F) :
    (runViz tmp draw dir kind (some m)).2.1 = some f ↔
      ∃ fig files, draw (some tmp) m = .done fig [] files ∧ (fig = some f ∨ (fig = none ∧ files.head? = some f)) := by
  simp only [runViz, configureDir]
  cases hd : draw (some tmp) m with
  | raised e => simp [vizAnswer]
  | done fig ws files =>
    cases ws with
    | cons w ws => simp [vizAnswer]
    | nil =>
      cases fig with
      | some g =>
        constructor
        · intro h; exact ⟨some g, files, rfl, Or.inl h⟩
        · rintro ⟨fig, files', h, h' | ⟨h', -⟩⟩
          · cases h; exact h'
          · cases h; nomatch h'
      | none =>
        cases files with
        | nil =>
          constructor
          · intro h; nomatch h
          · rintro ⟨fig, files', h, h' | ⟨-, h'⟩⟩
            · cases h; nomatch h'
            · cases h; nomatch h'
        | cons g gs =>
          constructor
          · intro h; exact ⟨none, g :: gs, rfl, Or.inr ⟨rfl, h⟩⟩
          · rintro ⟨fig, files', h, h' | ⟨-, h'⟩⟩
            · cases h; nomatch h'
            · cases h; exact h'

/-- Drawing happens with the temporary directory as the place for files, whatever was configured before. -/
theorem C171_tempdir (tmp : String) (draw : Option String → M → Rendered F) (dir dir' : Option String) (kind : String) (m : M) :
    (runViz tmp draw dir kind (some m)).2 = (runViz tmp draw dir' kind (some m)).2 := rfl

/-- The directory configured before is not restored: afterwards it is the removed temporary directory, for every model, plot and outcome. -/
theorem C171_dir_counterexample (tmp : String) (draw : Option String → M → Rendered F) (dir : Option String) (kind : String) (m : M) :
    (runViz tmp draw dir kind (some m)).1 = some tmp := rfl

/-- Without a model nothing is changed. -/
theorem C171_no_model_partial (tmp : String) (draw : Option String → M → Rendered F) (dir : Option String) (kind : String) :
    runViz tmp draw dir kind none = (dir, (none, "Please train a model first.")) := rfl

example : runViz "/tmp/a" (fun _ (_ : Nat) => Rendered.done (some 3) [] []) (some "figs") "parity" (some 1) =
    (some "/tmp/a", (some 3, "'parity' generated.")) := by with_unfolding_all rfl

end Verif.App.Form.Claims
