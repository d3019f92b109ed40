import Verif.App.RunnerViz
import Verif.Claims.VizApi
/-!
# C204: the figures saved with the result of a job

## Specification
-/
namespace Verif.App.RunnerViz.Claims
open Verif.Viz Verif.Viz.Api Verif.Viz.Api.Claims Verif.App.RunnerViz

/-- The figures meant for a job: for DLGA the equation, the search and the training curve; for the sparse mode of DISCOVER the equation and the search. -/
def wanted : Ad → List String
  | .dlga => ["equation", "search_evolution", "training_curve"]
  | .discover => ["equation", "search_evolution"]
  | _ => ["equation"]

/-- The adapters' directories. -/
def folder : Ad → String
  | .dlga => "dlga"
  | .discover => "discover"
  | .sga => "sga"
  | .pysr => "pysr"

/-- The library's adapters never return a figure, they save files. -/
def NoFigure (handler : Ad → String → Drawn) : Prop := ∀ a k, (handler a k).figure = false

/-! ## Lemmas -/

theorem folder_eq (a : Ad) : a.subdir = folder a := by cases a <;> rfl

theorem get_again (imports : Cls → Bool) (r : Bool) (c : Cls) :
    getAdapter Cls.name Cls.sub (getAdapter Cls.name Cls.sub (reg imports r) c).2 c = ((getAdapter Cls.name Cls.sub (reg imports r) c).1, (getAdapter Cls.name Cls.sub (reg imports r) c).2) := by
  rw [get_reg]
  simp only
  rw [get_reg]
  simp [Bool.or_assoc]

theorem saveFigures_some (handler : Ad → String → Drawn) (out cwd : Path) (dir : Option Path) (c : Cls) (s : Reg Cls Ad) (a : Ad)
    (h : getAdapter Cls.name Cls.sub s c = (.ok (some a), s)) : ∀ ks : List String,
    saveFigures handler out cwd dir c a.caps s ks = ks.flatMap fun k => drawWith handler out cwd dir k a := by
  intro ks
  induction ks with
  | nil => rfl
  | cons k ks ih =>
    have e : saveFigure handler out cwd dir c s k = (s, drawWith handler out cwd dir k a) := by simp only [saveFigure, h]
    rw [saveFigures, e, List.flatMap_cons, ih]
    split
    · rename_i hk
      rw [drawWith, if_neg hk.1, List.nil_append]
    · rfl

theorem saveFigures_none (handler : Ad → String → Drawn) (out cwd : Path) (dir : Option Path) (c : Cls) (caps : List String) (s : Reg Cls Ad)
    (h : getAdapter Cls.name Cls.sub s c = (.ok none, s)) : ∀ ks : List String, saveFigures handler out cwd dir c caps s ks = [] := by
  intro ks
  induction ks with
  | nil => rfl
  | cons k ks ih =>
    have e : saveFigure handler out cwd dir c s k = (s, []) := by simp only [saveFigure, h]
    rw [saveFigures, e, ih]
    split <;> rfl

theorem again (imports : Cls → Bool) (before : List Cls) (c : Cls) (o : Option Ad) (h : (getAdapter Cls.name Cls.sub (session imports before) c).1 = .ok o) :
    ∃ s, getAdapter Cls.name Cls.sub (session imports before) c = (.ok o, s) ∧ getAdapter Cls.name Cls.sub s c = (.ok o, s) := by
  refine ⟨(getAdapter Cls.name Cls.sub (session imports before) c).2, by rw [← h], ?_⟩
  rw [session_reg] at h ⊢
  rw [get_again, h]

theorem wanted_eq (a : Ad) (k : String) : k ∈ wanted a ↔ k ∈ kinds ∧ k ∈ a.caps := by
  constructor
  · have : ∀ k ∈ wanted a, k ∈ kinds ∧ k ∈ a.caps := by cases a <;> decide +kernel
    exact this k
  · rintro ⟨h1, h2⟩
    have : ∀ k ∈ kinds, k ∈ a.caps → k ∈ wanted a := by cases a <;> decide +kernel
    exact this k h1 h2

theorem resolve (a : Ad) (out cwd : Path) (f : String) : resolveOutput a none (some out) cwd f = out ++ [folder a, f] := by
  simp [resolveOutput, savePath, folder_eq]

/-! ## C204 -/

/-- **C204** (part): the files written are those the wanted figures save, in the adapter's directory below the output directory – whatever directory was configured, whichever models were
plotted before, and also if drawing another figure raises – and a figure returned in memory would go next to result.json. -/
theorem C204_files_partial (handler : Ad → String → Drawn) (out cwd : Path) (dir : Option Path) (imports : Cls → Bool) (before : List Cls) (c : Cls) (a : Ad)
    (ha : (getAdapter Cls.name Cls.sub (session imports before) c).1 = .ok (some a)) (p : Path) :
    p ∈ (saveViz handler out cwd dir c (session imports before)).1 ↔
      ∃ k ∈ wanted a, (∃ f ∈ (handler a k).saved, p = out ++ [folder a, f]) ∨
        ((handler a k).raised = false ∧ (handler a k).figure = true ∧ p = out ++ [k ++ ".png"]) := by
  obtain ⟨s, h1, h2⟩ := again imports before c (some a) ha
  unfold saveViz
  simp only [h1, configure]
  rw [saveFigures_some handler out cwd (some out) c s a h2, List.mem_flatMap]
  simp only [wanted_eq]
  have key : ∀ k, p ∈ drawWith handler out cwd (some out) k a ↔ k ∈ a.caps ∧ ((∃ f ∈ (handler a k).saved, p = out ++ [folder a, f]) ∨
        ((handler a k).raised = false ∧ (handler a k).figure = true ∧ p = out ++ [k ++ ".png"])) := by
    intro k
    unfold drawWith
    split
    · rename_i hk
      rw [List.mem_append, List.mem_map]
      have e1 : (∃ f ∈ (handler a k).saved, resolveOutput a none (some out) cwd f = p) ↔ ∃ f ∈ (handler a k).saved, p = out ++ [folder a, f] := by
        simp only [resolve, eq_comm]
      rw [e1]
      cases (handler a k).raised <;> cases (handler a k).figure <;> simp [hk]
    · rename_i hk
      simp [hk]
  constructor
  · rintro ⟨k, hk, hp⟩
    exact ⟨k, ⟨hk, ((key k).1 hp).1⟩, ((key k).1 hp).2⟩
  · rintro ⟨k, ⟨hk, hc⟩, hp⟩
    exact ⟨k, hk, (key k).2 ⟨hc, hp⟩⟩

/-- **C204** (part): the two kinds of job. After a DLGA job the figures are in `dlga/`, after a DISCOVER job in `discover/`. -/
theorem C204_jobs_partial (handler : Ad → String → Drawn) (hf : NoFigure handler) (out cwd : Path) (dir : Option Path) (imports : Cls → Bool) (before : List Cls) (p : Path) :
    (imports .dlga = true → (p ∈ (saveViz handler out cwd dir .dlga (session imports before)).1 ↔
      ∃ k ∈ ["equation", "search_evolution", "training_curve"], ∃ f ∈ (handler .dlga k).saved, p = out ++ ["dlga", f])) ∧
    (imports .discover = true → (p ∈ (saveViz handler out cwd dir .spr (session imports before)).1 ↔
      ∃ k ∈ ["equation", "search_evolution"], ∃ f ∈ (handler .discover k).saved, p = out ++ ["discover", f])) := by
  constructor
  · intro hi
    rw [C204_files_partial handler out cwd dir imports before .dlga .dlga (C199_adapter_partial imports before .dlga hi (fun h => nomatch h))]
    simp [hf _ _, wanted, folder]
  · intro hi
    rw [C204_files_partial handler out cwd dir imports before .spr .discover (C199_adapter_partial imports before .spr hi (fun h => nomatch h))]
    simp [hf _ _, wanted, folder]

/-- **C204**: a model without an adapter leaves no files. -/
theorem C204_none (handler : Ad → String → Drawn) (out cwd : Path) (dir : Option Path) (imports : Cls → Bool) (before : List Cls) (c : Cls)
    (ha : (getAdapter Cls.name Cls.sub (session imports before) c).1 = .ok none) : (saveViz handler out cwd dir c (session imports before)).1 = [] := by
  obtain ⟨s, h1, h2⟩ := again imports before c none ha
  unfold saveViz
  simp only [h1]
  exact saveFigures_none handler out cwd _ c [] s h2 kinds

/-- **C204 (violated).** No figure is ever saved alongside result.json, as `save_viz` says: none of its files is directly in the output directory. -/
theorem C204_alongside_counterexample (handler : Ad → String → Drawn) (hf : NoFigure handler) (out cwd : Path) (dir : Option Path) (imports : Cls → Bool) (before : List Cls)
    (c : Cls) (a : Ad) (ha : (getAdapter Cls.name Cls.sub (session imports before) c).1 = .ok (some a)) (name : String) :
    out ++ [name] ∉ (saveViz handler out cwd dir c (session imports before)).1 := by
  rw [C204_files_partial handler out cwd dir imports before c a ha]
  rintro ⟨k, -, ⟨f, -, h⟩ | ⟨-, h, -⟩⟩
  · have := List.append_cancel_left h
    simp at this
  · rw [hf] at h; cases h

/-- **C204 (violated).** The configured directory is not restored: afterwards every figure plotted without a directory of its own goes to the output directory of the job. -/
theorem C204_restored_counterexample (handler : Ad → String → Drawn) (out cwd : Path) (dir : Option Path) (c : Cls) (s : Reg Cls Ad) (a : Ad) (f : String) :
    resolveOutput a none (saveViz handler out cwd dir c s).2 cwd f = out ++ [folder a, f] := by
  have : (saveViz handler out cwd dir c s).2 = some out := by
    unfold saveViz
    simp only [configure]
    split <;> rfl
  rw [this, resolve]

-- a DLGA job whose search figure raises: the two other figures are there
example : (saveViz (fun _ k => if k = "equation" then ⟨["equation.png"], false, false⟩ else if k = "training_curve" then ⟨["training_loss.png"], false, false⟩ else ⟨[], false, true⟩)
    ["job", "out"] ["home"] none .dlga (session (fun _ => true) [])).1 = [["job", "out", "dlga", "equation.png"], ["job", "out", "dlga", "training_loss.png"]] := by decide +kernel

end Verif.App.RunnerViz.Claims
