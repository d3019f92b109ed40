import Verif.App.Runner
import Verif.Claims.RegressionText
/-! C95: what `result.json` says about a run.  C96: settings reach GPU jobs unchanged.  C97: where the data come from.
C98: polling a job.  C99: operator lists. -/
namespace Verif.App.Claims
open Verif.App

/-! ### C95 -/

/-- The equation this run found: the model named in the configuration, trained on the data set of the configuration. -/
def Found (env : Env) (c : Config) (e : String) : Prop :=
  ∃ m s d, c.model = some m ∧ source env.exists_ c = some s ∧ env.load s = .ret d ∧ env.fit m d = .ret e

theorem train_found {env : Env} {c : Config} {m e : String} (hm : c.model = some m) (h : train env m c = .ret e) : Found env c e := by
  unfold train at h
  split at h
  · cases h
  · next s hs =>
    split at h
    · cases h
    · cases h
    · next d hd => exact ⟨m, s, d, hm, hs, hd, h⟩

theorem save_cases (env : SaveEnv) (old : Option File) (r : Result) :
    ((saveOutput env old r).1 = old ∧ (∀ u, (saveOutput env old r).2 ≠ .ret u)) ∨
    ((saveOutput env old r).1 = some .torn ∧ (∀ u, (saveOutput env old r).2 ≠ .ret u)) ∨
    (saveOutput env old r).1 = some (.whole r) := by
  unfold saveOutput
  rcases env.mkdir with _ | _ | _ <;> rcases env.open_ with _ | _ | _ <;> rcases env.dump with _ | _ | _ <;> simp

theorem onError_cases (env : Env) (m : String) (lab : Option String) (file : Option File) :
    (onError env m lab file).2 ≠ .zero ∧
    ((onError env m lab file).1 = file ∨ (onError env m lab file).1 = some .torn ∨
      (onError env m lab file).1 = some (.whole ⟨m, lab, "(error)", .error⟩)) := by
  unfold onError
  rcases env.printError with _ | _ | _
  · have h := save_cases env.saveError file ⟨m, lab, "(error)", .error⟩
    simp only
    split
    · next f heq =>
      rw [heq] at h
      refine ⟨by simp, ?_⟩
      rcases h with h | h | h
      · exact Or.inl h.1
      · exact Or.inr (Or.inl h.1)
      · exact Or.inr (Or.inr h)
    · next f o _ heq =>
      rw [heq] at h
      refine ⟨by simp, ?_⟩
      rcases h with h | h | h
      · exact Or.inl h.1
      · exact Or.inr (Or.inl h.1)
      · exact Or.inr (Or.inr h)
  · exact ⟨by simp, Or.inl rfl⟩
  · exact ⟨by simp, Or.inl rfl⟩

/-- Everything that can be in the output directory after a run, wherever it fails or is killed. -/
theorem main_cases (env : Env) (k : Bool) (c : Config) (file : Option File) :
    (main env k c file).1 = file ∧ (main env k c file).2 ≠ .zero ∨
    (main env k c file).1 = some .torn ∧ (main env k c file).2 ≠ .zero ∨
    (∃ m e, c.model = some m ∧ Found env c e ∧ (main env k c file).1 = some (.whole ⟨m, label k c, e, .success⟩)) ∨
    (∃ m, c.model = some m ∧ (main env k c file).1 = some (.whole ⟨m, label k c, "(error)", .error⟩) ∧
      (main env k c file).2 ≠ .zero) := by
  unfold main
  cases hm : c.model with
  | none => left; simp [truthy]
  | some m =>
    by_cases h1 : truthy (some m) = false
    · left; simp [h1]
    · rw [if_neg h1]
      simp only [Option.getD_some]
      by_cases h2 : m ∉ runners
      · rw [if_pos h2]; left; simp
      · rw [if_neg h2]
        have herr : ∀ f : Option File, (f = file ∨ f = some .torn ∨ ∃ e, Found env c e ∧ f = some (.whole ⟨m, label k c, e, .success⟩)) →
            (onError env m (label k c) f).1 = file ∧ (onError env m (label k c) f).2 ≠ .zero ∨
            (onError env m (label k c) f).1 = some .torn ∧ (onError env m (label k c) f).2 ≠ .zero ∨
            (∃ m' e, some m = some m' ∧ Found env c e ∧ (onError env m (label k c) f).1 = some (.whole ⟨m', label k c, e, .success⟩)) ∨
            (∃ m', some m = some m' ∧ (onError env m (label k c) f).1 = some (.whole ⟨m', label k c, "(error)", .error⟩) ∧
              (onError env m (label k c) f).2 ≠ .zero) := by
          intro f hf
          obtain ⟨h3, h4⟩ := onError_cases env m (label k c) f
          rcases h4 with h4 | h4 | h4
          · rcases hf with hf | hf | ⟨e, he, hf⟩
            · exact Or.inl ⟨h4.trans hf, h3⟩
            · exact Or.inr (Or.inl ⟨h4.trans hf, h3⟩)
            · exact Or.inr (Or.inr (Or.inl ⟨m, e, rfl, he, h4.trans hf⟩))
          · exact Or.inr (Or.inl ⟨h4, h3⟩)
          · exact Or.inr (Or.inr (Or.inr ⟨m, rfl, h4, h3⟩))
        cases env.printHead with
        | kill => left; simp
        | exc => left; simp
        | ret _ =>
        simp only
        cases ht : train env m c with
        | kill => left; simp
        | exc => exact herr file (Or.inl rfl)
        | ret e =>
          have hfound := train_found hm ht
          have hs := save_cases env.save file ⟨m, label k c, e, .success⟩
          simp only
          cases hso : saveOutput env.save file ⟨m, label k c, e, .success⟩ with
          | mk f st =>
            rw [hso] at hs
            simp only at hs
            have hf : f = file ∨ f = some .torn ∨ ∃ e, Found env c e ∧ f = some (.whole ⟨m, label k c, e, .success⟩) := by
              rcases hs with hs | hs | hs
              · exact Or.inl hs.1
              · exact Or.inr (Or.inl hs.1)
              · exact Or.inr (Or.inr ⟨e, hfound, hs⟩)
            cases st with
            | kill =>
              simp only
              rcases hf with hf | hf | ⟨e', he', hf⟩
              · exact Or.inl ⟨hf, by simp⟩
              · exact Or.inr (Or.inl ⟨hf, by simp⟩)
              · exact Or.inr (Or.inr (Or.inl ⟨m, e', rfl, he', hf⟩))
            | exc => exact herr f hf
            | ret u =>
              have hw : f = some (.whole ⟨m, label k c, e, .success⟩) := by
                rcases hs with hs | hs | hs
                · exact absurd rfl (hs.2 u)
                · exact absurd rfl (hs.2 u)
                · exact hs
              simp only
              rcases env.viz with _ | _ | _ <;> rcases env.printDone with _ | _ | _ <;> simp only <;>
                first
                | exact herr f hf
                | exact Or.inr (Or.inr (Or.inl ⟨m, e, rfl, hfound, hw⟩))

/-- **C95** (success means success): wherever the run fails or is killed, if afterwards `result.json` reports success, then either
this run found the reported equation with the configured model, or the file is untouched from before the run (and the process did not
end with exit code 0). -/
theorem C95_success_partial (env : Env) (k : Bool) (c : Config) (file : Option File) (r : Result)
    (h : (main env k c file).1 = some (.whole r)) (hr : r.status = .success) :
    (c.model = some r.model ∧ Found env c r.equation ∧ r.dataset = label k c) ∨
    (file = some (.whole r) ∧ (main env k c file).2 ≠ .zero) := by
  rcases main_cases env k c file with ⟨h1, h2⟩ | ⟨h1, h2⟩ | ⟨m, e, hm, he, h1⟩ | ⟨m, hm, h1, h2⟩
  · exact Or.inr ⟨h1.symm.trans h, h2⟩
  · rw [h1] at h; cases h
  · rw [h1] at h
    obtain rfl : _ = r := by simpa using h
    exact Or.inl ⟨hm, he, rfl⟩
  · rw [h1] at h
    obtain rfl : _ = r := by simpa using h
    cases hr

/-- **C95** (exit code 0): the result is complete, reports success and is the equation this run found. -/
theorem C95_exit_zero (env : Env) (k : Bool) (c : Config) (file : Option File) (h : (main env k c file).2 = .zero) :
    ∃ r, (main env k c file).1 = some (.whole r) ∧ r.status = .success ∧ c.model = some r.model ∧ Found env c r.equation := by
  rcases main_cases env k c file with ⟨_, h2⟩ | ⟨_, h2⟩ | ⟨m, e, hm, he, h1⟩ | ⟨m, hm, _, h2⟩
  · exact absurd h h2
  · exact absurd h h2
  · exact ⟨_, h1, rfl, hm, he⟩
  · exact absurd h h2

/-- Nothing but loading and training can fail. -/
structure Healthy (env : Env) : Prop where
  save : env.save = ⟨.ret (), .ret (), .ret (), .ret ()⟩
  saveError : env.saveError = ⟨.ret (), .ret (), .ret (), .ret ()⟩
  viz : env.viz ≠ .kill
  printHead : env.printHead = .ret ()
  printDone : env.printDone = .ret ()
  printError : env.printError = .ret ()
  load : ∀ s, env.load s ≠ .kill
  fit : ∀ m d, env.fit m d ≠ .kill

/-- **C95** (every run leaves a result): if files can be written and nothing is killed, a run with a known model ends with exit code 0 and
a success report exactly if it found an equation, and otherwise with exit code 1 and an error report; either way the result file is
this run's. -/
theorem C95_complete (env : Env) (hh : Healthy env) (k : Bool) (c : Config) (file : Option File) (m : String) (hm : c.model = some m)
    (hr' : m = "dlga" ∨ m = "dscv_spr") :
    (∃ e, Found env c e ∧ main env k c file = (some (.whole ⟨m, label k c, e, .success⟩), .zero)) ∨
    ((∀ e, ¬ Found env c e) ∧ main env k c file = (some (.whole ⟨m, label k c, "(error)", .error⟩), .one)) := by
  have hr : m ∈ runners := by
    rcases hr' with rfl | rfl <;> simp [runners]
  have htr : truthy (some m) = true := by
    unfold runners at hr
    rcases List.mem_cons.1 hr with rfl | hr
    · decide
    · rcases List.mem_cons.1 hr with rfl | hr
      · decide
      · cases hr
  have hk : train env m c ≠ .kill := by
    unfold train
    split
    · simp
    · next s _ =>
      split
      · next h => exact absurd h (hh.load s)
      · simp
      · next d _ => exact hh.fit m d
  unfold main
  simp only [hm, htr, Bool.true_eq_false, if_false, Option.getD_some, not_not.2 hr, hh.printHead]
  cases ht : train env m c with
  | kill => exact absurd ht hk
  | exc =>
    right
    constructor
    · rintro e ⟨m', s, d, hm', hs, hd, hf⟩
      rw [hm] at hm'
      cases hm'
      simp [train, hs, hd, hf] at ht
    · simp [onError, hh.printError, hh.saveError, saveOutput]
  | ret e =>
    left
    refine ⟨e, train_found hm ht, ?_⟩
    have hv := hh.viz
    cases hvz : env.viz with
    | kill => exact absurd hvz hv
    | exc => simp [hh.save, hh.printDone, saveOutput]
    | ret u => simp [hh.save, hh.printDone, saveOutput]

/-- **C95** Without a model, or with one the runner does not know, nothing is loaded, trained or written, and the exit code is 1. -/
theorem C95_unknown (env : Env) (k : Bool) (c : Config) (file : Option File) (h : ∀ m, c.model = some m → m ≠ "dlga" ∧ m ≠ "dscv_spr") :
    main env k c file = (file, .one) := by
  unfold main
  cases hm : c.model with
  | none => simp [truthy]
  | some m =>
    obtain ⟨h1, h2⟩ := h m hm
    by_cases ht : truthy (some m) = false
    · simp [ht]
    · simp [ht, runners, h1, h2]

/-- **C95, counterexample** The result file of an earlier run is not removed first: a run that is killed while training (or names an unknown
model) leaves the earlier success report in place. -/
theorem C95_stale_counterexample (r : Result) (env : Env) (c : Config) (k : Bool) :
    (c.model = some "unknown" → main env k c (some (.whole r)) = (some (.whole r), .one)) ∧
    (train env "dlga" c = .kill → c.model = some "dlga" → env.printHead = .ret () → main env k c (some (.whole r)) = (some (.whole r), .killed)) := by
  constructor
  · intro h; simp [main, h, truthy, runners]
  · intro h h' h2; simp [main, h', truthy, runners, h, h2]

/-- **C95, counterexample** The result is not written atomically: a run killed while writing destroys the earlier report and leaves a file
that cannot be read. -/
theorem C95_torn_counterexample (env : Env) (c : Config) (k : Bool) (e : String) (file : Option File)
    (hh : env.printHead = .ret ()) (hm : c.model = some "dlga") (ht : train env "dlga" c = .ret e)
    (hs : env.save = ⟨.ret (), .ret (), .kill, .ret ()⟩) :
    main env k c file = (some .torn, .killed) ∧ downloadResult (main env k c file).1 = none := by
  have : main env k c file = (some .torn, .killed) := by
    simp [main, hm, truthy, runners, hh, ht, hs, saveOutput]
  exact ⟨this, by rw [this]; rfl⟩

/-- **C95, counterexample** If printing the equation fails (a character the terminal cannot show) after the result was saved, the saved success
is overwritten by an error report without the equation. -/
theorem C95_demoted_counterexample (env : Env) (c : Config) (k : Bool) (e : String) (file : Option File)
    (hh : env.printHead = .ret ()) (hm : c.model = some "dlga") (ht : train env "dlga" c = .ret e)
    (hs : env.save = ⟨.ret (), .ret (), .ret (), .ret ()⟩) (hv : env.viz = .ret ()) (hp : env.printDone = .exc)
    (hpe : env.printError = .ret ()) (hse : env.saveError = ⟨.ret (), .ret (), .ret (), .ret ()⟩) :
    main env k c file = (some (.whole ⟨"dlga", label k c, "(error)", .error⟩), .one) := by
  simp [main, hh, hm, truthy, runners, ht, hs, hv, hp, onError, hpe, hse, saveOutput]

/-- An environment in which the data set "burgers" trains to an equation. -/
def demo : Env :=
  { printHead := .ret (), exists_ := fun _ => false, load := fun _ => .ret 1, fit := fun _ _ => .ret "u_t = u_xx", viz := .exc,
    save := ⟨.ret (), .ret (), .ret (), .ret ()⟩, saveError := ⟨.ret (), .ret (), .ret (), .ret ()⟩, printDone := .ret (),
    printError := .ret () }

example : main demo true ⟨some "dlga", some "burgers", none⟩ none =
    (some (.whole ⟨"dlga", some "burgers", "u_t = u_xx", .success⟩), .zero) := by decide

example : Healthy demo := ⟨rfl, rfl, by simp [demo], rfl, rfl, rfl, by simp [demo], by simp [demo]⟩

/-! ### C96 -/

/-- **C96** A GPU job constructs and fits the model with exactly the settings a run in the process would use, and is not sent if those
settings cannot be read; the only exception is a positive sample number below 1. -/
theorem C96_same_settings_partial (𝒱 : Values) (ws : Char → Bool) (m : GpuModel) (f : Form 𝒱)
    (hs : ∀ v, f.dlgaSample = some v → 𝒱.truth v = true → 𝒱.toInt v ≠ some 0) :
    (gpuParams m f).bind (runnerCall ws) = localCall ws m f := by
  cases m with
  | dlga =>
    unfold gpuParams localCall
    simp only [Option.bind_eq_bind]
    cases h1 : 𝒱.toFloat f.dlgaEpi with
    | none => rfl
    | some epi =>
      cases h2 : 𝒱.toInt f.dlgaMaxIter with
      | none => rfl
      | some mi =>
        simp only [Option.bind_some]
        unfold optInt
        cases h3 : f.dlgaSample with
        | none => simp [runnerCall, 𝒱.float_ofFloat, 𝒱.int_ofInt, optInt]
        | some v =>
          cases h4 : 𝒱.truth v with
          | false => simp [h4, runnerCall, 𝒱.float_ofFloat, 𝒱.int_ofInt, optInt]
          | true =>
            cases h5 : 𝒱.toInt v with
            | none => simp [h4, h5]
            | some i =>
              have : i ≠ 0 := fun h => hs v h3 h4 (by rw [h5, h])
              simp [h4, h5, runnerCall, 𝒱.float_ofFloat, 𝒱.int_ofInt, optInt, 𝒱.truth_ofInt, this]
  | spr =>
    unfold gpuParams localCall
    simp only [Option.bind_eq_bind]
    cases h1 : 𝒱.toInt f.batch with
    | none => rfl
    | some batch =>
      cases h2 : 𝒱.toInt f.seed with
      | none => rfl
      | some seed =>
        cases h3 : 𝒱.toInt f.sprEpochs with
        | none => rfl
        | some ep =>
          cases h4 : 𝒱.toFloat f.sprRatio with
          | none => rfl
          | some r => simp [runnerCall, 𝒱.float_ofFloat, 𝒱.int_ofInt]

/-- **C96, counterexample** A sample number between 0 and 1 (read as 0) means "sample 0" in the process, but "no sampling" in a job. -/
theorem C96_sample_counterexample (𝒱 : Values) (ws : Char → Bool) (f : Form 𝒱) (v : 𝒱.V) (epi : 𝒱.F) (mi : Int)
    (h1 : 𝒱.toFloat f.dlgaEpi = some epi) (h2 : 𝒱.toInt f.dlgaMaxIter = some mi)
    (hv : f.dlgaSample = some v) (ht : 𝒱.truth v = true) (hi : 𝒱.toInt v = some 0) :
    localCall ws .dlga f = some (.dlga (parseOps ws f.dlgaOps) epi 2 mi (some 0)) ∧
    (gpuParams .dlga f).bind (runnerCall ws) = some (.dlga (parseOps ws f.dlgaOps) epi 2 mi none) := by
  constructor
  · simp [localCall, h1, h2, optInt, hv, ht, hi]
  · simp [gpuParams, runnerCall, h1, h2, optInt, hv, ht, hi, 𝒱.float_ofFloat, 𝒱.int_ofInt, 𝒱.truth_ofInt]

/-- Values: numbers in tenths. -/
def tenths : Values where
  V := Int
  F := Int
  toInt := fun v => some (v / 10)
  toFloat := some
  truth := fun v => decide (v ≠ 0)
  ofInt := fun i => i * 10
  ofFloat := id
  int_ofInt := fun i => by simp
  float_ofFloat := fun f => rfl
  truth_ofInt := fun i => by simp

def demoForm (sample : Int) : Form tenths :=
  ⟨"u, u_x".toList, (1 : Int), (30000 : Int), some sample, [], [], (0 : Int), (0 : Int), (0 : Int), (0 : Int)⟩

example : (gpuParams .dlga (demoForm 5000)).bind (runnerCall (· == ' ')) = localCall (· == ' ') .dlga (demoForm 5000) :=
  C96_same_settings_partial tenths _ .dlga (demoForm 5000) (by
    intro v hv _
    obtain rfl : (5000 : Int) = v := Option.some.inj hv
    decide)

example : tenths.truth (5 : Int) = true ∧ tenths.toInt (5 : Int) = some 0 := by decide

/-! ### C97 -/

/-- The data set the label of a result names. -/
def Labelled (exists_ : String → Bool) (c : Config) (l : Option String) : Prop :=
  match source exists_ c with
  | some (.file f) => l = some f
  | some (.named n) => l = some n
  | none => True

/-- **C97** The data set named in the result is the one that was used, provided the configuration does not give both a name and an
existing file. -/
theorem C97_label_partial (exists_ : String → Bool) (k : Bool) (c : Config) (hk : c.datasetFile ≠ none → k = true)
    (h : ∀ f, c.datasetFile = some f → f ≠ "" → exists_ f = true → truthy c.datasetName = false) :
    Labelled exists_ c (label k c) := by
  unfold Labelled source label
  cases hf : c.datasetFile with
  | none =>
    simp only
    by_cases ht : truthy c.datasetName = true
    · cases hn : c.datasetName with
      | none => simp [hn, truthy] at ht
      | some n => simp [hn] at ht; simp [ht]
    · simp [ht]
  | some f =>
    by_cases hfe : f ≠ "" ∧ exists_ f = true
    · have := h f hf hfe.1 hfe.2
      have hk := hk (by simp [hf])
      simp [hfe, this, hk]
    · simp only [hfe, if_false]
      by_cases ht : truthy c.datasetName = true
      · cases hn : c.datasetName with
        | none => simp [hn, truthy] at ht
        | some n => simp [hn] at ht; simp [ht]
      · simp [ht]

/-- **C97, counterexample** With both a name and an existing file, the file is used but the result names the other data set. -/
theorem C97_both_counterexample (exists_ : String → Bool) (k : Bool) (c : Config) (n f : String) (hn : c.datasetName = some n)
    (hf : c.datasetFile = some f) (hn' : n ≠ "") (hf' : f ≠ "") (he : exists_ f = true) :
    source exists_ c = some (.file f) ∧ label k c = some n := by
  simp [source, label, hn, hf, hn', hf', he, truthy]

/-- **C97, counterexample** A missing file is not an error if a name is given too: the named data set is used instead. -/
theorem C97_missing_counterexample (exists_ : String → Bool) (c : Config) (n f : String) (hn : c.datasetName = some n)
    (hf : c.datasetFile = some f) (hn' : n ≠ "") (he : exists_ f = false) : source exists_ c = some (.named n) := by
  simp [source, hn, hf, hn', he, truthy]

/-- **C97, counterexample** A data file uploaded with a job is never used: the job trains on the named data set, or fails if none is named. -/
theorem C97_upload_counterexample (exists_ : String → Bool) (m : String) (name : Option String) (file : String) :
    (submitConfig m name (some file)).datasetFile = none ∧
    source exists_ (submitConfig m name (some file)) = if truthy name then name.map .named else none := by
  refine ⟨rfl, ?_⟩
  unfold submitConfig source
  cases name with
  | none => rfl
  | some n =>
    by_cases h : n = ""
    · simp [h, truthy]
    · simp [h, truthy]

/-- **C97** A job for a built-in data set trains on it and names it in the result. -/
theorem C97_job_named (exists_ : String → Bool) (m n : String) (hn : n ≠ "") :
    source exists_ (submitConfig m (some n) none) = some (.named n) ∧ label false (submitConfig m (some n) none) = some n ∧
    (submitConfig m (some n) none).model = some m := by
  simp [submitConfig, source, label, truthy, hn]

/-- **C97** The temporary configuration file of a submission is removed however the submission ends, unless the process is killed. -/
theorem C97_no_temp_file (env : SubmitEnv) (pid : Nat) (h : (submitJob env pid).2 ≠ .kill) : (submitJob env pid).1 = false := by
  unfold submitJob at h ⊢
  simp only at h ⊢
  split at h
  · exact absurd rfl h
  · rfl

example : source (fun _ => true) ⟨some "dlga", none, some "a.mat"⟩ = some (.file "a.mat") := by decide
example : submitJob ⟨.ret (), .ret none, .ret 5⟩ 0 = (false, .exc) := by rfl

/-! ### C98 -/

/-- **C98** A status is never both finished and failed; the text agrees with the flags, for every status code. -/
theorem C98_status (code : Int) :
    ¬ ((checkJob code).finished = true ∧ (checkJob code).failed = true) ∧
    ((checkJob code).finished = true ↔ (checkJob code).text = "Finished") ∧
    ((checkJob code).failed = true ↔ (checkJob code).text = "Failed" ∨ (checkJob code).text = "Error") := by
  by_cases h : 0 ≤ code ∧ code ≤ 13
  · obtain ⟨h1, h2⟩ := h
    have : code = 0 ∨ code = 1 ∨ code = 2 ∨ code = 3 ∨ code = 4 ∨ code = 5 ∨ code = 6 ∨ code = 7 ∨ code = 8 ∨ code = 9 ∨ code = 10 ∨
        code = 11 ∨ code = 12 ∨ code = 13 := by omega
    rcases this with rfl | rfl | rfl | rfl | rfl | rfl | rfl | rfl | rfl | rfl | rfl | rfl | rfl | rfl <;> decide
  · have hl : statusMap.lookup code = none := by
      rw [List.lookup_eq_none_iff]
      intro p hp
      have : 0 ≤ p.1 ∧ p.1 ≤ 13 := by
        have hall : ∀ p ∈ statusMap, 0 ≤ p.1 ∧ p.1 ≤ 13 := by decide
        exact hall p hp
      simp only [bne_iff_ne, ne_eq]
      rintro rfl
      exact h this
    have ht : ∀ s : String, s.toList.head? ≠ some 'U' → (checkJob code).text ≠ s := by
      intro s hs he
      apply hs
      rw [← he]
      simp [checkJob, hl]
    have hne : code ≠ 10 ∧ code ≠ 11 ∧ code ≠ 12 ∧ code ≠ 13 := by omega
    have h1 := ht "Finished" (by decide)
    have h2 := ht "Failed" (by decide)
    have h3 := ht "Error" (by decide)
    simp [checkJob, hne, hl] at h1 h2 h3 ⊢
    simp [h1, h2, h3]

/-- **C98** (texts): the text shown for every status code of the server; other codes are shown as unknown with their number. -/
theorem C98_text (code : Int) :
    ((checkJob code).text = "Running" ↔ code = 1 ∨ (4 ≤ code ∧ code ≤ 8)) ∧ ((checkJob code).text = "Pending" ↔ code = 0) ∧
    ((checkJob code).text = "Packaging" ↔ code = 2) ∧ ((checkJob code).text = "Submitted" ↔ code = 3) ∧
    ((checkJob code).text = "DownloadOutput" ↔ code = 9) ∧ ((checkJob code).text = "Finished" ↔ code = 10 ∨ code = 11) ∧
    ((checkJob code).text = "Failed" ↔ code = 12) ∧ ((checkJob code).text = "Error" ↔ code = 13) ∧
    ((checkJob code).text = "Unknown(" ++ toString code ++ ")" ↔ code < 0 ∨ 13 < code) := by
  by_cases h : 0 ≤ code ∧ code ≤ 13
  · obtain ⟨h1, h2⟩ := h
    have : code = 0 ∨ code = 1 ∨ code = 2 ∨ code = 3 ∨ code = 4 ∨ code = 5 ∨ code = 6 ∨ code = 7 ∨ code = 8 ∨ code = 9 ∨ code = 10 ∨
        code = 11 ∨ code = 12 ∨ code = 13 := by omega
    rcases this with rfl | rfl | rfl | rfl | rfl | rfl | rfl | rfl | rfl | rfl | rfl | rfl | rfl | rfl <;> decide +kernel
  · have hl : statusMap.lookup code = none := by
      rw [List.lookup_eq_none_iff]
      intro p hp
      have : 0 ≤ p.1 ∧ p.1 ≤ 13 := by
        have hall : ∀ p ∈ statusMap, 0 ≤ p.1 ∧ p.1 ≤ 13 := by decide
        exact hall p hp
      simp only [bne_iff_ne, ne_eq]
      rintro rfl
      exact h this
    have ht : ∀ s : String, s.toList.head? ≠ some 'U' → (checkJob code).text ≠ s := by
      intro s hs he
      apply hs
      rw [← he]
      simp [checkJob, hl]
    refine ⟨iff_of_false (ht _ (by decide)) (by omega), iff_of_false (ht _ (by decide)) (by omega), iff_of_false (ht _ (by decide)) (by omega),
      iff_of_false (ht _ (by decide)) (by omega), iff_of_false (ht _ (by decide)) (by omega), iff_of_false (ht _ (by decide)) (by omega),
      iff_of_false (ht _ (by decide)) (by omega), iff_of_false (ht _ (by decide)) (by omega), iff_of_true ?_ (by omega)⟩
    simp [checkJob, hl]

/-- A check that tells nothing new: the request failed or the job is neither finished nor failed. -/
def Waiting (id : Nat) : Click → Prop
  | .check code _ => ∀ c, code id = some c → (checkJob c).finished = false ∧ (checkJob c).failed = false
  | _ => False

/-- **C98** (polling): after submitting a job, as long as checks find it unfinished (or fail), it is not forgotten; the first check that
finds it finished shows the equation in this job's own result file, if the file can be downloaded and read. -/
theorem C98_polling_partial (job : Option Nat) (id : Nat) (waits : List Click) (hw : ∀ c ∈ waits, Waiting id c)
    (code : Nat → Option Int) (output : Nat → Option (Option File)) (c : Int) (hc : code id = some c)
    (hfin : (checkJob c).finished = true) (st : Status) (e : String) (ho : (output id).bind downloadResult = some (st, e)) :
    sessionState job (.submit (some id) :: waits) = some id ∧
    (session job (.submit (some id) :: waits ++ [.check code output])).getLast? = some (.equation e) ∧
    ∀ s ∈ session (some id) waits, s = .running ∨ s = .checkFailed := by
  have hstep : ∀ k, Waiting id k → (click (some id) k).1 = some id ∧ ((click (some id) k).2 = .running ∨ (click (some id) k).2 = .checkFailed) := by
    intro k hk
    cases k with
    | submit _ => exact hk.elim
    | runLocal => exact hk.elim
    | check co ou =>
      unfold click
      simp only
      cases h : co id with
      | none => simp
      | some x =>
        obtain ⟨h1, h2⟩ := hk x h
        simp [h1, h2]
  have hall : sessionState (some id) waits = some id ∧ ∀ s ∈ session (some id) waits, s = .running ∨ s = .checkFailed := by
    induction waits with
    | nil => exact ⟨rfl, by simp [session]⟩
    | cons k ks ih =>
      obtain ⟨h1, h2⟩ := hstep k (hw k (by simp))
      obtain ⟨h3, h4⟩ := ih (fun c hc => hw c (by simp [hc]))
      refine ⟨?_, ?_⟩
      · unfold sessionState at h3 ⊢
        rw [List.foldl_cons, h1]; exact h3
      · intro s hs
        simp only [session, h1, List.mem_cons] at hs
        rcases hs with rfl | hs
        · exact h2
        · exact h4 s hs
  have hlast : ∀ (j : Option Nat) (ks : List Click) (k : Click),
      (session j (ks ++ [k])).getLast? = some (click (sessionState j ks) k).2 := by
    intro j ks k
    induction ks generalizing j with
    | nil => simp [session, sessionState]
    | cons x xs ih =>
      simp only [List.cons_append, session, sessionState, List.foldl_cons]
      rw [List.getLast?_cons, ih]
      simp [sessionState]
  refine ⟨?_, ?_, hall.2⟩
  · exact hall.1
  · rw [hlast]
    have : sessionState job (.submit (some id) :: waits) = some id := hall.1
    rw [this]
    have hnf : (checkJob c).failed = false := by
      have := (C98_status c).1
      cases h : (checkJob c).failed with
      | false => rfl
      | true => exact absurd ⟨hfin, h⟩ this
    simp only [click, hc, hnf, hfin, ho]
    simp

/-- **C98** Checking the form's job after a run that ended with exit code 0 shows the equation that run found. -/
theorem C98_shows_found (env : Env) (k : Bool) (c : Config) (file : Option File) (h : (main env k c file).2 = .zero) (id : Nat)
    (code : Nat → Option Int) (hc : code id = some 10) :
    ∃ e, Found env c e ∧ click (some id) (.check code (fun _ => some (main env k c file).1)) = (none, .equation e) := by
  obtain ⟨r, h1, _, _, h2⟩ := C95_exit_zero env k c file h
  refine ⟨r.equation, h2, ?_⟩
  simp only [click, hc, h1]
  simp [downloadResult, checkJob]

/-- **C98, counterexample** If downloading or reading the finished job's result fails once, the form forgets the job: a second check finds
none, whatever the server answers. -/
theorem C98_download_counterexample (id : Nat) (code code' : Nat → Option Int) (output output' : Nat → Option (Option File))
    (hc : code id = some 10) (ho : output id = none ∨ output id = some (some .torn)) :
    session (some id) [.check code output, .check code' output'] = [.downloadFailed, .noJob] := by
  rcases ho with ho | ho <;> simp [session, click, hc, ho, checkJob, downloadResult]

/-- **C98, counterexample** Submitting a second job, or training in the process, forgets the first job. -/
theorem C98_second_counterexample (id id' : Nat) :
    sessionState (some id) [.submit (some id')] = some id' ∧ sessionState (some id) [.runLocal] = none ∧
    sessionState (some id) [.submit none] = none := by
  simp [sessionState, click]

/-- **C98, counterexample** The status in the result file is not looked at: a run that failed is shown as a finished job with the
equation `(error)`. -/
theorem C98_error_counterexample (id : Nat) (code : Nat → Option Int) (m : String) (lab : Option String) (hc : code id = some 10) :
    click (some id) (.check code (fun _ => some (some (.whole ⟨m, lab, "(error)", .error⟩)))) = (none, .equation "(error)") := by
  simp [click, hc, checkJob, downloadResult]

example : session none [.submit (some 7), .check (fun _ => some 4) (fun _ => none), .check (fun _ => none) (fun _ => none),
    .check (fun _ => some 11) (fun _ => some (main demo true ⟨some "dlga", some "burgers", none⟩ none).1)] =
    [.submitted 7, .running, .checkFailed, .equation "u_t = u_xx"] := by decide

/-! ### C99 -/

open Verif.Discover.RegressionText Verif.Discover.RegressionText.Claims

/-- A text without white space at its ends. -/
def Trimmed (ws : Char → Bool) (s : List Char) : Prop :=
  (∀ c, s.head? = some c → ws c = false) ∧ (∀ c, s.getLast? = some c → ws c = false)

theorem dropWhile_trimmed (ws : Char → Bool) (s : List Char) (h : ∀ c, s.head? = some c → ws c = false) : s.dropWhile ws = s := by
  cases s with
  | nil => rfl
  | cons c s => simp [List.dropWhile, h c rfl]

theorem dropWhile_head (ws : Char → Bool) (s : List Char) : ∀ c, (s.dropWhile ws).head? = some c → ws c = false := by
  intro c hc
  have := List.head?_dropWhile_not (p := ws) s
  rw [hc] at this
  simpa using this

theorem strip_trimmed (ws : Char → Bool) (s : List Char) : Trimmed ws (strip ws s) := by
  unfold strip
  constructor
  · intro c hc
    rw [List.head?_reverse] at hc
    -- the last character of a dropWhile of the reverse is the first character of the string
    have hsuf : (s.dropWhile ws).reverse.dropWhile ws <:+ (s.dropWhile ws).reverse := List.dropWhile_suffix ws
    obtain ⟨t, ht⟩ := hsuf
    have h1 : (s.dropWhile ws).head? = some c := by
      have : (s.dropWhile ws) = ((s.dropWhile ws).reverse.dropWhile ws).reverse ++ t.reverse := by
        rw [← List.reverse_append, ht, List.reverse_reverse]
      rw [this, List.head?_append, List.head?_reverse, hc]
      rfl
    exact dropWhile_head ws s c h1
  · intro c hc
    rw [List.getLast?_reverse] at hc
    exact dropWhile_head ws _ c hc

theorem strip_id (ws : Char → Bool) (s : List Char) (h : Trimmed ws s) : strip ws s = s := by
  unfold strip
  rw [dropWhile_trimmed ws s h.1, dropWhile_trimmed ws s.reverse (by rw [List.head?_reverse]; exact h.2), List.reverse_reverse]

theorem strip_pad (ws : Char → Bool) (a o b : List Char) (ha : ∀ c ∈ a, ws c = true) (hb : ∀ c ∈ b, ws c = true) (ho : Trimmed ws o) :
    strip ws (a ++ o ++ b) = o := by
  unfold strip
  rw [List.append_assoc, List.dropWhile_append_of_pos ha]
  cases o with
  | nil =>
    rw [List.nil_append]
    have : b.dropWhile ws = [] := by
      have := List.dropWhile_append_of_pos (l₂ := []) hb
      simpa using this
    rw [this]; rfl
  | cons x o =>
    rw [dropWhile_trimmed ws ((x :: o) ++ b) (by intro c hc; exact ho.1 c (by simpa using hc)), List.reverse_append,
      List.dropWhile_append_of_pos (by simpa using hb),
      dropWhile_trimmed ws _ (by rw [List.head?_reverse]; exact ho.2), List.reverse_reverse]

/-- **C99** (reading): operators written with any white space around them and separated by commas, possibly with empty places, are read
as exactly those operators in order. -/
theorem C99_parse (ws : Char → Bool) (hws : ws ',' = false) (fields : List (List Char × List Char × List Char))
    (hpad : ∀ f ∈ fields, (∀ c ∈ f.1, ws c = true) ∧ (∀ c ∈ f.2.2, ws c = true) ∧ Trimmed ws f.2.1 ∧ ',' ∉ f.2.1) :
    parseOps ws (joinComma (fields.map fun f => f.1 ++ f.2.1 ++ f.2.2)) = (fields.map (·.2.1)).filter (· ≠ []) := by
  have hnc : ∀ l : List Char, (∀ c ∈ l, ws c = true) → ',' ∉ l := by
    intro l hl h
    have := hl _ h
    rw [hws] at this; cases this
  unfold parseOps
  by_cases hf : fields = []
  · subst hf; rfl
  · rw [split_join]
    · congr 1
      rw [List.map_map]
      apply List.map_congr_left
      intro f h
      obtain ⟨h1, h2, h3, _⟩ := hpad f h
      exact strip_pad ws _ _ _ h1 h2 h3
    · simpa using hf
    · intro a ha
      obtain ⟨f, h, rfl⟩ := List.mem_map.1 ha
      obtain ⟨h1, h2, _, h4⟩ := hpad f h
      simp only [List.mem_append, not_or]
      exact ⟨⟨hnc _ h1, h4⟩, hnc _ h2⟩

theorem split_no_comma (s : List Char) : ∀ a ∈ splitComma s, ',' ∉ a := by
  induction s with
  | nil => simp [splitComma]
  | cons c s ih =>
    intro a ha
    unfold splitComma at ha
    split at ha
    · next h => exact absurd h (splitComma_ne s)
    · next b r h =>
      rw [h] at ih
      split at ha
      · rcases List.mem_cons.1 ha with rfl | ha
        · simp
        · exact ih a ha
      · next hc =>
        rcases List.mem_cons.1 ha with rfl | ha
        · simp only [List.mem_cons, not_or]
          exact ⟨fun h => hc h.symm, ih b (by simp)⟩
        · exact ih a (by simp [ha])

theorem mem_dropWhile {p : Char → Bool} {s : List Char} {c : Char} (h : c ∈ s.dropWhile p) : c ∈ s :=
  (List.dropWhile_suffix p).mem h

/-- **C99** (well-formed): every operator read from any text is non-empty, trimmed and free of commas, and writing the operators again
with commas and reading them gives the same operators. -/
theorem C99_stable (ws : Char → Bool) (hws : ws ',' = false) (s : List Char) :
    (∀ o ∈ parseOps ws s, o ≠ [] ∧ Trimmed ws o ∧ ',' ∉ o) ∧ parseOps ws (joinComma (parseOps ws s)) = parseOps ws s := by
  have h1 : ∀ o ∈ parseOps ws s, o ≠ [] ∧ Trimmed ws o ∧ ',' ∉ o := by
    intro o ho
    unfold parseOps at ho
    rw [List.mem_filter] at ho
    obtain ⟨hm, hne⟩ := ho
    obtain ⟨a, ha, rfl⟩ := List.mem_map.1 hm
    refine ⟨by simpa using hne, strip_trimmed ws a, ?_⟩
    intro h
    apply split_no_comma s a ha
    unfold strip at h
    rw [List.mem_reverse] at h
    have := mem_dropWhile h
    rw [List.mem_reverse] at this
    exact mem_dropWhile this
  refine ⟨h1, ?_⟩
  have h2 := C99_parse ws hws ((parseOps ws s).map fun o => ([], o, [])) (by
    intro f hf
    obtain ⟨o, ho, rfl⟩ := List.mem_map.1 hf
    exact ⟨by simp, by simp, (h1 o ho).2.1, (h1 o ho).2.2⟩)
  simp only [List.map_map, Function.comp_def, List.nil_append, List.append_nil, List.map_id'] at h2
  rw [h2]
  rw [List.filter_eq_self]
  intro o ho
  simpa using (h1 o ho).1

example : parseOps (· == ' ') " add, mul ,,diff ".toList = ["add".toList, "mul".toList, "diff".toList] := by decide

end Verif.App.Claims
