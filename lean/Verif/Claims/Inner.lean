import Verif.Discover.Inner
import Mathlib.Tactic.NormNum
/-!
# C172: data sets known to DISCOVER by name
-/
namespace Verif.Discover.Inner.Claims
open Verif.Discover.Inner

/-- The files of a machine that are the repository at `root`, as far as the data sets are concerned. -/
def Repository (exist : Path → Bool) (root : Path) : Prop := ∀ p, exist p = true ↔ ∃ f ∈ repoFiles, p = root ++ f

theorem append_of_length {a b c d : Path} (h : a ++ b = c ++ d) (hl : b.length = d.length) : a = c ∧ b = d := by
  have : a.length = c.length := by
    have := congrArg List.length h
    simp at this; omega
  exact List.append_inj h this

theorem exist_data {exist : Path → Bool} {root cwd : Path} (hr : Repository exist root) (f : String)
    (hf : ["kd", "data_file", f] ∈ repoFiles) : exist (cwd ++ ["kd", "data_file", f]) = true ↔ cwd = root := by
  rw [hr]
  constructor
  · rintro ⟨g, hg, h⟩
    by_cases hl : g.length = 3
    · exact (append_of_length h (by simp [hl])).1
    · have hg' : g = ["kd", "model", "discover", "task", "pde", "data_new", "Kdv.mat"] := by
        simp only [repoFiles, List.mem_cons, List.not_mem_nil, or_false] at hg
        rcases hg with rfl | rfl | rfl | rfl | rfl | rfl
        all_goals first | rfl | exact absurd rfl hl
      subst hg'
      have h2 : cwd ++ ["kd", "data_file", f] = (root ++ ["kd", "model", "discover", "task"]) ++ ["pde", "data_new", "Kdv.mat"] := by simpa using h
      have := (append_of_length h2 rfl).2
      simp at this
  · rintro rfl
    exact ⟨_, hf, rfl⟩

theorem exist_kdv {exist : Path → Bool} {root cwd : Path} (hr : Repository exist root) :
    exist (cwd ++ ["discover", "task", "pde", "data_new", "Kdv.mat"]) = true ↔ cwd = root ++ ["kd", "model"] := by
  rw [hr]
  constructor
  · rintro ⟨g, hg, h⟩
    simp only [repoFiles, List.mem_cons, List.not_mem_nil, or_false] at hg
    have tail : ∀ f : String, cwd ++ ["discover", "task", "pde", "data_new", "Kdv.mat"] ≠ root ++ ["kd", "data_file", f] := by
      intro f h
      have h2 : (cwd ++ ["discover", "task"]) ++ ["pde", "data_new", "Kdv.mat"] = root ++ ["kd", "data_file", f] := by simpa using h
      have := (append_of_length h2 rfl).2
      simp at this
    rcases hg with rfl | rfl | rfl | rfl | rfl | rfl
    · exact absurd h (tail _)
    · exact absurd h (tail _)
    · exact absurd h (tail _)
    · exact absurd h (tail _)
    · exact absurd h (tail _)
    · have h2 : cwd ++ ["discover", "task", "pde", "data_new", "Kdv.mat"] =
          (root ++ ["kd", "model"]) ++ ["discover", "task", "pde", "data_new", "Kdv.mat"] := by simpa using h
      exact (append_of_length h2 rfl).1
  · rintro rfl
    exact ⟨["kd", "model", "discover", "task", "pde", "data_new", "Kdv.mat"], by simp [repoFiles], by simp⟩

/-- The working directory a data set can be loaded from. -/
def home (root : Path) : String → Path
  | "Kdv" => root ++ ["kd", "model"]
  | _ => root

/-- A name of the list loads exactly from one directory: the root of the repository, kd/model for Kdv (with at least two times in the file). -/
theorem C172_where (exist : Path → Bool) (root cwd : Path) (hr : Repository exist root) (read : String → Content) (fd : List ℚ → ℚ → List ℚ)
    (ht : ∀ n, 2 ≤ (read n).t.length) (old : Option Handler) (name : String) (hn : name ∈ dataList) :
    (∃ h, importInner exist read fd cwd old name "regular" = some (some h)) ↔ cwd = home root name := by
  have hs : ∀ n, ∃ dt, step (read n).t = some dt := by
    intro n
    have := ht n
    match (read n).t, this with
    | a :: b :: l, _ => exact ⟨b - a, rfl⟩
  simp only [importInner, if_true, Handler.new, if_pos hn, Option.bind_some, Handler.load]
  simp only [dataList, List.mem_cons, List.not_mem_nil, or_false] at hn
  rcases hn with rfl | rfl | rfl
  · simp only [sourceFiles, List.all_cons, List.all_nil, Bool.and_true, home]
    obtain ⟨dt, hd⟩ := hs "chafee-infante"
    by_cases hc : cwd = root
    · have e := fun f hf => (exist_data (cwd := cwd) hr f hf).2 hc
      refine ⟨fun _ => hc, fun _ => ?_⟩
      simp [e "chafee_infante_CI.npy" (by simp [repoFiles]), e "chafee_infante_x.npy" (by simp [repoFiles]),
        e "chafee_infante_t.npy" (by simp [repoFiles]), Handler.fill, hd]
    · have e : exist (cwd ++ ["kd", "data_file", "chafee_infante_CI.npy"]) = false := by
        rw [Bool.eq_false_iff]
        exact fun h => hc ((exist_data hr _ (by simp [repoFiles])).1 h)
      simp [e, hc]
  · simp only [sourceFiles, List.all_cons, List.all_nil, Bool.and_true, home]
    obtain ⟨dt, hd⟩ := hs "Burgers"
    by_cases hc : cwd = root
    · refine ⟨fun _ => hc, fun _ => ?_⟩
      simp [(exist_data (cwd := cwd) hr "burgers.mat" (by simp [repoFiles])).2 hc, Handler.fill, hd]
    · have e : exist (cwd ++ ["kd", "data_file", "burgers.mat"]) = false := by
        rw [Bool.eq_false_iff]
        exact fun h => hc ((exist_data hr _ (by simp [repoFiles])).1 h)
      simp [e, hc]
  · simp only [sourceFiles, List.all_cons, List.all_nil, Bool.and_true, home]
    obtain ⟨dt, hd⟩ := hs "Kdv"
    by_cases hc : cwd = root ++ ["kd", "model"]
    · refine ⟨fun _ => hc, fun _ => ?_⟩
      simp [(exist_kdv (cwd := cwd) hr).2 hc, Handler.fill, hd]
    · have e : exist (cwd ++ ["discover", "task", "pde", "data_new", "Kdv.mat"]) = false := by
        rw [Bool.eq_false_iff]
        exact fun h => hc ((exist_kdv hr).1 h)
      simp [e, hc]

/-- From no directory do all three names load. -/
theorem C172_all_counterexample (exist : Path → Bool) (root cwd : Path) (hr : Repository exist root) (read : String → Content)
    (fd : List ℚ → ℚ → List ℚ) (ht : ∀ n, 2 ≤ (read n).t.length) (old : Option Handler) :
    ∃ name ∈ dataList, ¬ ∃ h, importInner exist read fd cwd old name "regular" = some (some h) := by
  by_cases hc : cwd = root
  · refine ⟨"Kdv", by simp [dataList], fun h => ?_⟩
    have := (C172_where exist root cwd hr read fd ht old "Kdv" (by simp [dataList])).1 h
    rw [hc] at this
    have := congrArg List.length this
    simp [home] at this
  · exact ⟨"Burgers", by simp [dataList], fun h => hc ((C172_where exist root cwd hr read fd ht old "Burgers" (by simp [dataList])).1 h)⟩

/-- Other names are refused. -/
theorem C172_unknown (exist : Path → Bool) (read : String → Content) (fd : List ℚ → ℚ → List ℚ) (cwd : Path) (old : Option Handler) (name : String)
    (hn : name ∉ dataList) : importInner exist read fd cwd old name "regular" = none := by
  simp [importInner, Handler.new, hn]

/-- What is loaded: the solution and places of the file, the derivative of every row with the first time step, one space dimension and the true
equation of the name, whatever the estimator had before. -/
theorem C172_content_partial (exist : Path → Bool) (read : String → Content) (fd : List ℚ → ℚ → List ℚ) (cwd : Path) (old : Option Handler)
    (name : String) (h : Handler) (hi : importInner exist read fd cwd old name "regular" = some (some h)) :
    ∃ t0 t1 ts files sym, (read name).t = t0 :: t1 :: ts ∧ sourceFiles name = some (files, sym) ∧
      h.data = some ⟨(read name).u, (read name).u.map (fun row => fd row (t1 - t0)), [(read name).x], 1, sym⟩ := by
  simp only [importInner, if_true, Option.map_eq_some_iff] at hi
  obtain ⟨h', hb, he⟩ := hi
  cases he
  obtain ⟨h0, hn, hl⟩ := Option.bind_eq_some_iff.1 hb
  unfold Handler.new at hn
  by_cases hm : name ∈ dataList
  · rw [if_pos hm] at hn
    cases hn
    unfold Handler.load at hl
    simp only at hl
    cases hs : sourceFiles name with
    | none => simp [hs] at hl
    | some p =>
      obtain ⟨files, sym⟩ := p
      simp only [hs] at hl
      by_cases he : (files.all fun f => exist (cwd ++ f)) = true
      · rw [if_pos he] at hl
        unfold Handler.fill at hl
        obtain ⟨dt, hd, hh⟩ := Option.map_eq_some_iff.1 hl
        match ht : (read name).t, hd with
        | t0 :: t1 :: ts, hd =>
          cases hd
          exact ⟨t0, t1, ts, files, sym, rfl, rfl, by rw [← hh]; rfl⟩
      · rw [if_neg he] at hl; nomatch hl
  · rw [if_neg hm] at hn; nomatch hn

/-- Any other type than regular loads nothing and raises nothing: the estimator goes on with the data it had. -/
theorem C172_type_counterexample (exist : Path → Bool) (read : String → Content) (fd : List ℚ → ℚ → List ℚ) (cwd : Path) (old : Option Handler)
    (name type : String) (h : type ≠ "regular") : importInner exist read fd cwd old name type = some old := by simp [importInner, h]

/-- Loading a handler a second time lists its places twice, with one space dimension still. -/
theorem C172_twice_counterexample (exist : Path → Bool) (read : String → Content) (fd : List ℚ → ℚ → List ℚ) (cwd : Path) (name : String)
    (h₀ h₁ h₂ : Handler) (hn : Handler.new name = some h₀) (h1 : h₀.load exist read fd cwd = some h₁) (h2 : h₁.load exist read fd cwd = some h₂) :
    ∃ d, h₂.data = some d ∧ d.X = [(read name).x, (read name).x] ∧ d.nInputDim = 1 := by
  have hs0 : h₀.source = name ∧ h₀.X = [] := by
    unfold Handler.new at hn
    by_cases hm : name ∈ dataList
    · rw [if_pos hm] at hn; cases hn; exact ⟨rfl, rfl⟩
    · rw [if_neg hm] at hn; nomatch hn
  have key : ∀ (a b : Handler), a.load exist read fd cwd = some b →
      b.source = a.source ∧ b.X = a.X ++ [(read a.source).x] ∧ ∃ d, b.data = some d ∧ d.X = b.X ∧ d.nInputDim = 1 := by
    intro a b hab
    unfold Handler.load at hab
    cases hs : sourceFiles a.source with
    | none => simp [hs] at hab
    | some p =>
      simp only [hs] at hab
      by_cases he : (p.1.all fun f => exist (cwd ++ f)) = true
      · rw [if_pos he] at hab
        unfold Handler.fill at hab
        obtain ⟨dt, -, hh⟩ := Option.map_eq_some_iff.1 hab
        rw [← hh]
        exact ⟨rfl, rfl, _, rfl, rfl, rfl⟩
      · rw [if_neg he] at hab; nomatch hab
  obtain ⟨a1, a2, -⟩ := key _ _ h1
  obtain ⟨-, b2, d, b3, b4, b5⟩ := key _ _ h2
  refine ⟨d, b3, ?_, b5⟩
  rw [b4, b2, a2, a1, hs0.1, hs0.2]
  rfl

/-! A machine with the repository at /kd; the Burgers data load from there, Kdv does not. -/
def exExist (p : Path) : Bool := repoFiles.any fun f => p == "kd" :: f
theorem ex_repository : Repository exExist ["kd"] := by
  intro p
  unfold exExist
  rw [List.any_eq_true]
  constructor
  · rintro ⟨f, hf, h⟩; exact ⟨f, hf, by simpa using h⟩
  · rintro ⟨f, hf, h⟩; exact ⟨f, hf, by simp [h]⟩
example : ((importInner exExist (fun _ => ⟨[[1, 2], [3, 5]], [0, 1], [0, 1]⟩) (fun r dt => r.map (· / dt)) ["kd"] none "Burgers" "regular").map
    fun o => o.map fun h => h.data.map fun d => (d.ut, d.X)) = some (some (some ([[1, 2], [3, 5]], [[0, 1]]))) := by
  norm_num [importInner, Handler.new, dataList, Handler.load, sourceFiles, exExist, repoFiles, Handler.fill, step]
example : ((importInner exExist (fun _ => ⟨[[1, 2], [3, 5]], [0, 1], [0, 1]⟩) (fun r dt => r.map (· / dt)) ["kd"] none "Kdv" "regular").isNone) = true := by
  decide +kernel

end Verif.Discover.Inner.Claims
