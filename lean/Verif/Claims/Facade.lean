import Verif.Discover.Facade
/-! C86–C89: re-importing data, estimators sharing a process, SPR rounds, seeds. -/
namespace Verif.Discover.Facade.Claims
open Verif.Discover.Facade

/-! ## C86: importing a data set leaves no trace of earlier ones -/

/-- The configuration after an import into a sparse estimator, field by field. -/
theorem imp_spr_cfg (e : Est) (name : String) (d : Data) (hk : e.base.kind = .spr) :
    (e.step (.imp name (some d))).cfg =
      { functionSet := if e.base.operator ≠ [] then e.base.operator
          else autoSelect e.base.functionSet (d.nInputDim.getD 1)
        dataset := some name
        inputDim := if d.nInputDim.getD 1 > 1 then d.nInputDim.getD 1 + 1 else e.base.inputDim
        generationType := if d.nInputDim.getD 1 > 1 then "multi_AD" else e.base.generationType
        nInputVar := if d.nInputDim.getD 1 > 1 then d.nInputDim.getD 1 else e.base.nInputVar
        nParamVar := d.nParamVar.getD 0
        paramNames := if d.nParamVar.getD 0 > 0 then some d.paramNames else none } := by
  simp only [Est.step, hk, Est.setTask, Est.extendPath, injectNd]
  by_cases h1 : d.nInputDim.getD 1 > 1
  · by_cases h2 : d.nParamVar.getD 0 > 0
    · simp only [if_pos h1, if_pos h2]
    · have h3 : d.nParamVar.getD 0 = 0 := by omega
      simp only [if_pos h1, if_neg h2]; rw [h3]
  · by_cases h2 : d.nParamVar.getD 0 > 0
    · simp only [if_neg h1, if_pos h2]
    · have h3 : d.nParamVar.getD 0 = 0 := by omega
      simp only [if_neg h1, if_neg h2]; rw [h3]

/-- The configuration after an import into a regular estimator. -/
theorem imp_regular_cfg (e : Est) (name : String) (d : Data) (hk : e.base.kind = .regular) :
    (e.step (.imp name (some d))).cfg =
      { e.cfg with
        functionSet := if e.base.operator ≠ [] then e.base.operator
          else autoSelect e.base.functionSet (d.nInputDim.getD 1)
        dataset := some name } := by
  simp only [Est.step, hk, Est.setTask, Est.extendPath]
  rfl

/-- Fields a regular estimator never writes. -/
def SameRest (c c' : Cfg) : Prop :=
  c.inputDim = c'.inputDim ∧ c.generationType = c'.generationType ∧ c.nInputVar = c'.nInputVar ∧
  c.nParamVar = c'.nParamVar ∧ c.paramNames = c'.paramNames

theorem step_base (e : Est) (o : Op) : (e.step o).base = e.base := by
  cases o with
  | imp n d =>
    cases d with
    | none => rfl
    | some d => simp only [Est.step]; cases e.base.kind <;> rfl
  | fitRaw d p => simp only [Est.step]; cases e.base.kind <;> rfl
  | train p => simp only [Est.step]; cases e.base.kind <;> rfl

theorem run_base (ops : List Op) : ∀ e : Est, (e.run ops).base = e.base := by
  induction ops with
  | nil => intro e; rfl
  | cons o ops ih => intro e; rw [Est.run, List.foldl_cons]; exact (ih _).trans (step_base e o)

theorem step_rest (e : Est) (o : Op) (hk : e.base.kind = .regular) : SameRest (e.step o).cfg e.cfg := by
  cases o with
  | imp n d =>
    cases d with
    | none => exact ⟨rfl, rfl, rfl, rfl, rfl⟩
    | some d => simp only [Est.step, hk]; exact ⟨rfl, rfl, rfl, rfl, rfl⟩
  | fitRaw d p => simp only [Est.step, hk]; exact ⟨rfl, rfl, rfl, rfl, rfl⟩
  | train p => simp only [Est.step, hk]; exact ⟨rfl, rfl, rfl, rfl, rfl⟩

theorem run_rest (ops : List Op) : ∀ e : Est, e.base.kind = .regular → SameRest (e.run ops).cfg e.cfg := by
  induction ops with
  | nil => intro e _; exact ⟨rfl, rfl, rfl, rfl, rfl⟩
  | cons o ops ih =>
    intro e hk
    have h1 := ih (e.step o) (by rw [step_base]; exact hk)
    have h2 := step_rest e o hk
    obtain ⟨a1, a2, a3, a4, a5⟩ := h1
    obtain ⟨b1, b2, b3, b4, b5⟩ := h2
    exact ⟨a1.trans b1, a2.trans b2, a3.trans b3, a4.trans b4, a5.trans b5⟩

/-- **C86** For every history of imports (also failing ones), trainings and raw fits on an estimator, the
task and network configuration in force after importing a data set is the one a freshly constructed
estimator with the same settings would have. -/
theorem C86_no_trace_partial (b : Base) (out : Option String) (hist : List Op) (name : String) (d : Data) :
    (((Est.fresh b out).run hist).step (.imp name (some d))).cfg =
      ((Est.fresh b out).step (.imp name (some d))).cfg := by
  have hb : ((Est.fresh b out).run hist).base = b := run_base hist _
  cases hk : b.kind with
  | spr =>
    have hk1 : ((Est.fresh b out).run hist).base.kind = .spr := by rw [hb]; exact hk
    have hk2 : (Est.fresh b out).base.kind = .spr := hk
    rw [imp_spr_cfg _ _ _ hk1, imp_spr_cfg _ _ _ hk2, hb]
    rfl
  | regular =>
    have hk1 : ((Est.fresh b out).run hist).base.kind = .regular := by rw [hb]; exact hk
    have hk2 : (Est.fresh b out).base.kind = .regular := hk
    obtain ⟨h1, h2, h3, h4, h5⟩ := run_rest hist (Est.fresh b out) hk2
    rw [imp_regular_cfg _ _ _ hk1, imp_regular_cfg _ _ _ hk2, hb]
    simp only [h1, h2, h3, h4, h5]
    rfl

/-- The derivative operators that fit `n` space dimensions, for numpy and for torch evaluation. -/
def fitting (torch : Bool) (n : Int) : List String :=
  if torch then ["lap_t"] else if n = 2 then ["Diff", "Diff2", "lap"] else ["Diff_3", "Diff2_3", "lap_3"]

theorem mem_fromKeys (t : String) (l : List String) : ∀ seen, t ∈ fromKeys seen l ↔ t ∈ l ∧ t ∉ seen := by
  induction l with
  | nil => intro seen; simp [fromKeys]
  | cons a l ih =>
    intro seen
    by_cases h : a ∈ seen
    · rw [fromKeys, if_pos h, ih]
      constructor
      · rintro ⟨h1, h2⟩; exact ⟨by simp [h1], h2⟩
      · rintro ⟨h1, h2⟩
        rcases List.mem_cons.1 h1 with rfl | h1
        · exact (h2 h).elim
        · exact ⟨h1, h2⟩
    · rw [fromKeys, if_neg h, List.mem_cons, List.mem_cons, ih]
      constructor
      · rintro (rfl | ⟨h1, h2⟩)
        · exact ⟨Or.inl rfl, h⟩
        · exact ⟨Or.inr h1, fun hs => h2 (List.mem_cons_of_mem _ hs)⟩
      · rintro ⟨h1, h2⟩
        by_cases hta : t = a
        · exact Or.inl hta
        · refine Or.inr ⟨h1.resolve_left hta, ?_⟩
          simp [hta, h2]

theorem nodup_fromKeys (l : List String) : ∀ seen, (fromKeys seen l).Nodup := by
  induction l with
  | nil => intro seen; simp [fromKeys]
  | cons a l ih =>
    intro seen
    by_cases h : a ∈ seen
    · rw [fromKeys, if_pos h]; exact ih seen
    · rw [fromKeys, if_neg h, List.nodup_cons]
      exact ⟨by simp [mem_fromKeys], ih _⟩

theorem fromKeys_sublist (l : List String) : ∀ seen, List.Sublist (fromKeys seen l) l := by
  induction l with
  | nil => intro seen; simp [fromKeys]
  | cons a l ih =>
    intro seen
    by_cases h : a ∈ seen
    · rw [fromKeys, if_pos h]; exact (ih seen).cons _
    · rw [fromKeys, if_neg h]; exact (ih _).cons_cons a

/-- The finite-difference and autograd derivative operators of the library (functions.py:54-69): derivatives in one, two and three space dimensions. -/
def derivativeNames : List String :=
  ["diff", "diff2", "diff3", "diff4"] ++ ["Diff", "Diff2", "lap"] ++ ["Diff_3", "Diff2_3", "lap_3"] ++
  ["diff_t", "diff2_t", "diff3_t", "diff4_t"] ++ ["lap_t"]

/-- **C86** Which operators the search uses after importing a data set, for every history before it:
the user's operators if any were given; otherwise the configured ones, where for data with two or three
space dimensions the derivative operators are exchanged for the ones of that dimension, without repetition
and without touching the other operators. -/
theorem C86_function_set (b : Base) (out : Option String) (hist : List Op) (name : String) (d : Data)
    (fs : List String) (n : Int) (hn : n = d.nInputDim.getD 1)
    (hfs : fs = (((Est.fresh b out).run hist).step (.imp name (some d))).cfg.functionSet) :
    (b.operator ≠ [] → fs = b.operator) ∧
    (b.operator = [] → n ≠ 2 → n ≠ 3 → fs = b.functionSet) ∧
    (b.operator = [] → n = 2 ∨ n = 3 →
      fs.Nodup ∧
      (∀ t, t ∈ fs ↔ t ∈ fitting (b.functionSet.any isTorchName) n ∨
        (t ∈ b.functionSet ∧ t ∉ derivativeNames)) ∧
      fitting (b.functionSet.any isTorchName) n <+: fs ∧
      List.Sublist (fs.drop (fitting (b.functionSet.any isTorchName) n).length) b.functionSet) := by
  rw [C86_no_trace_partial] at hfs
  have key : fs = if b.operator ≠ [] then b.operator else autoSelect b.functionSet n := by
    rw [hfs, hn]
    have hb : (Est.fresh b out).base = b := rfl
    cases hk : b.kind with
    | regular => rw [imp_regular_cfg _ _ _ (by rw [hb]; exact hk), hb]
    | spr => rw [imp_spr_cfg _ _ _ (by rw [hb]; exact hk), hb]
  refine ⟨fun h => by rw [key, if_pos h], fun h h2 h3 => ?_, fun h hd => ?_⟩
  · rw [key, if_neg (by simp [h]), autoSelect]
    by_cases h1 : n ≤ 1
    · rw [if_pos h1]
    · rw [if_neg h1]
      have hn1 : ∀ f, (f = diffTokens ∨ f = diffTokensTorch) → f n = none := by
        rintro f (rfl | rfl)
        · simp only [diffTokens]; split <;> first | rfl | omega
        · simp only [diffTokensTorch]; split <;> first | rfl | omega
      by_cases ht : b.functionSet.any isTorchName
      · simp [ht, hn1 diffTokensTorch (Or.inr rfl)]
      · simp [ht, hn1 diffTokens (Or.inl rfl)]
  · have hmap : (if b.functionSet.any isTorchName then diffTokensTorch else diffTokens) n =
        some (fitting (b.functionSet.any isTorchName) n) := by
      rcases hd with rfl | rfl <;> cases b.functionSet.any isTorchName <;> rfl
    have h1 : ¬ n ≤ 1 := by omega
    have key2 : fs = fromKeys [] (fitting (b.functionSet.any isTorchName) n ++
        b.functionSet.filter (fun t => t ∉ allDiffTokens)) := by
      rw [key, if_neg (by simp [h]), autoSelect, if_neg h1]
      simp only [hmap]
    have happ : ∀ (l1 l2 : List String) (seen : List String), l1.Nodup → (∀ t ∈ l1, t ∉ seen) →
        ∃ seen', fromKeys seen (l1 ++ l2) = l1 ++ fromKeys seen' l2 := by
      intro l1 l2
      induction l1 with
      | nil => intro seen _ _; exact ⟨seen, rfl⟩
      | cons a l1 ih =>
        intro seen hnd hs
        obtain ⟨s', h'⟩ := ih (a :: seen) (List.nodup_cons.1 hnd).2 (by
          intro t ht hmem
          rcases List.mem_cons.1 hmem with rfl | hm
          · exact (List.nodup_cons.1 hnd).1 ht
          · exact hs t (List.mem_cons_of_mem _ ht) hm)
        refine ⟨s', ?_⟩
        rw [List.cons_append, fromKeys, if_neg (hs a List.mem_cons_self), h', List.cons_append]
    have hfit : (fitting (b.functionSet.any isTorchName) n).Nodup := by
      rcases hd with rfl | rfl <;> cases b.functionSet.any isTorchName <;> decide
    obtain ⟨s', hs'⟩ := happ _ (b.functionSet.filter (fun t => t ∉ allDiffTokens)) [] hfit (by simp)
    refine ⟨by rw [key2]; exact nodup_fromKeys _ _, fun t => ?_, ?_, ?_⟩
    · rw [key2, mem_fromKeys, show derivativeNames = allDiffTokens from rfl]
      simp
    · rw [key2, hs']; exact ⟨_, rfl⟩
    · rw [key2, hs', List.drop_left]
      exact (fromKeys_sublist _ _).trans List.filter_sublist

/-- **C86** The network of a sparse estimator gets one input per space dimension and one for time, and the
parameters of the imported data set, for every history. -/
theorem C86_network (b : Base) (out : Option String) (hist : List Op) (name : String) (d : Data)
    (hk : b.kind = .spr) (c : Cfg)
    (hc : c = (((Est.fresh b out).run hist).step (.imp name (some d))).cfg) :
    c.dataset = some name ∧
    (∀ n, d.nInputDim = some n → n > 1 →
      c.inputDim = n + 1 ∧ c.generationType = "multi_AD" ∧ c.nInputVar = n) ∧
    (d.nInputDim.getD 1 ≤ 1 →
      c.inputDim = b.inputDim ∧ c.generationType = b.generationType ∧ c.nInputVar = b.nInputVar) ∧
    c.nParamVar = d.nParamVar.getD 0 ∧
    (d.nParamVar.getD 0 = 0 → c.paramNames = none) ∧
    (d.nParamVar.getD 0 ≠ 0 → c.paramNames = some d.paramNames) := by
  rw [C86_no_trace_partial] at hc
  have hb : (Est.fresh b out).base = b := rfl
  rw [imp_spr_cfg _ _ _ (by rw [hb]; exact hk), hb] at hc
  subst hc
  refine ⟨rfl, fun n hn h1 => ?_, fun h1 => ?_, rfl, fun h0 => ?_, fun h0 => ?_⟩
  · simp only [hn, Option.getD_some, if_pos h1, and_self]
  · simp only [if_neg (show ¬ d.nInputDim.getD 1 > 1 by omega), and_self]
  · simp [h0]
  · simp only [if_pos (show d.nParamVar.getD 0 > 0 by omega)]

/-- **C86** A refused import changes nothing, also for everything done later. -/
theorem C86_refused (b : Base) (out : Option String) (h1 h2 : List Op) (name : String) :
    (Est.fresh b out).run (h1 ++ .imp name none :: h2) = (Est.fresh b out).run (h1 ++ h2) := by
  simp only [Est.run, List.foldl_append, List.foldl_cons]
  rfl

/-- **C86, counterexample** Fitting raw arrays does leave traces: after importing an `n`-dimensional data
set (`n > 1`), every later `fit(x, y, domains)` – whatever the arrays – still configures the network for
`n + 1` inputs and still carries the old data set's name. -/
theorem C86_raw_fit_counterexample (b : Base) (out : Option String) (hist : List Op) (name : String)
    (d raw : Data) (p : Option String) (n : Int) (hk : b.kind = .spr) (hn : d.nInputDim = some n) (h1 : n > 1) :
    let c := ((((Est.fresh b out).run hist).step (.imp name (some d))).step (.fitRaw raw p)).cfg
    c.inputDim = n + 1 ∧ c.dataset = some name := by
  have hb : (((Est.fresh b out).run hist).step (.imp name (some d))).base.kind = .spr := by
    rw [step_base, run_base]; exact hk
  obtain ⟨_, h2, _⟩ := C86_network b out hist name d hk _ rfl
  have hname : (((Est.fresh b out).run hist).step (.imp name (some d))).name = some name := by
    have hb' : ((Est.fresh b out).run hist).base.kind = .spr := by rw [run_base]; exact hk
    simp only [Est.step, hb', Est.setTask, Est.extendPath]
  intro c
  have hc : c = ({ (((Est.fresh b out).run hist).step (.imp name (some d))) with data := some raw }.setTask).cfg := by
    simp only [c]
    generalize ((Est.fresh b out).run hist).step (.imp name (some d)) = e at *
    simp only [Est.step, hb]
  rw [hc]
  exact ⟨(h2 n hn h1).1, hname⟩

/-- **C86, counterexample** The output path is not reset: every import appends to it, so the second data
set's file is placed "inside" the first one's CSV file. -/
theorem C86_out_path_counterexample (d1 d2 : Data) :
    (((Est.fresh ⟨.regular, [], ["add", "diff"], 2, "AD", 1, "0"⟩ (some "./log/")).run
      [.imp "a" (some d1), .imp "b" (some d2)])).outPath =
        some "./log/discover_a_0.csv/discover_b_0.csv" := by
  simp only [Est.run, List.foldl, Est.step, Est.fresh, Est.setTask, Est.extendPath, Option.map_some]
  decide +kernel

example : (((Est.fresh ⟨.regular, [], ["add", "mul", "diff", "diff2", "n2"], 2, "AD", 1, "0"⟩ none).run
    [.imp "cube" (some ⟨some 3, none, none, 0⟩), .imp "bad" none]).step
      (.imp "plane" (some ⟨some 2, none, none, 1⟩))).cfg.functionSet = ["Diff", "Diff2", "lap", "add", "mul", "n2"] := by
  decide +kernel

/-! ## C87: every round trains the network with the better equation -/

/-- **C87** In every round the equation handed to the network is one of those found so far, and on that
round's data it scores at least as well as both the newly found one and the one carried over. -/
theorem C87_carried_partial {P : Type} (reward : Nat → P → Int) (found : Nat → P) (i : Nat) :
    let c := carried (fun a b => decide (a > b)) reward found
    (∃ j ≤ i, c i = found j) ∧ reward i (found i) ≤ reward i (c i) ∧
      (∀ j, i = j + 1 → reward i (c j) ≤ reward i (c i) ∧ (c i = c j ∨ c i = found i)) := by
  intro c
  induction i with
  | zero => exact ⟨⟨0, Nat.le_refl _, rfl⟩, Int.le_refl _, by simp⟩
  | succ i ih =>
    have hc : c (i + 1) = if reward (i + 1) (c i) > reward (i + 1) (found (i + 1)) then c i else found (i + 1) := by
      simp [c, carried]
    by_cases h : reward (i + 1) (c i) > reward (i + 1) (found (i + 1))
    · rw [if_pos h] at hc
      obtain ⟨⟨j, hj, hcj⟩, _⟩ := ih
      refine ⟨⟨j, by omega, hc.trans hcj⟩, by rw [hc]; omega, ?_⟩
      intro k hk
      obtain rfl : i = k := by omega
      exact ⟨by rw [hc]; exact Int.le_refl _, Or.inl hc⟩
    · rw [if_neg h] at hc
      refine ⟨⟨i + 1, Nat.le_refl _, hc⟩, by rw [hc]; exact Int.le_refl _, ?_⟩
      intro k hk
      obtain rfl : i = k := by omega
      exact ⟨by rw [hc]; omega, Or.inr hc⟩

/-- **C87** If the data did not change the scores between rounds, the carried equation would be the best of
all found so far. -/
theorem C87_best_of_all {P : Type} (reward : Nat → P → Int) (found : Nat → P)
    (hsame : ∀ i j p, reward i p = reward j p) (i j : Nat) (hj : j ≤ i) :
    reward 0 (found j) ≤ reward 0 (carried (fun a b => decide (a > b)) reward found i) := by
  induction i with
  | zero => obtain rfl : j = 0 := by omega
            exact Int.le_refl _
  | succ i ih =>
    obtain ⟨_, h1, h2⟩ := C87_carried_partial reward found (i + 1)
    rcases Nat.lt_or_ge i j with h | h
    · obtain rfl : j = i + 1 := by omega
      rw [hsame (i + 1) 0, hsame (i + 1) 0] at h1
      exact h1
    · have := (h2 i rfl).1
      rw [hsame (i + 1) 0, hsame (i + 1) 0] at this
      exact Int.le_trans (ih h) this

/-- **C87, counterexample** The result that is returned comes from one more search and is not compared with
the carried equation: it can be worse on the same data. -/
theorem C87_returned_counterexample :
    ∃ (reward : Nat → Nat → Int) (found : Nat → Nat) (n : Nat),
      reward n (finalResult found n) < reward n (carried (fun a b => decide (a > b)) reward found (n - 1)) :=
  ⟨fun _ p => if p = 0 then 1 else 0, fun i => i, 3, by decide⟩

/-! ## C88: every estimator works on its own data -/

/-- The data set an estimator was given last, read off the calls. -/
def lastGiven (e : Nat) : List Call → Option Nat
  | [] => none
  | c :: cs => match lastGiven e cs with
    | some d => some d
    | none => match c with
      | .importRegular e' d => if e' = e then some d else none
      | .importSpr e' d => if e' = e then some d else none
      | .fitRegression e' d => if e' = e then some d else none
      | _ => none

/-- The call configures the shared attributes. -/
def SetsUp : Call → Bool
  | .importRegular .. | .importSpr .. | .trainSpr _ | .fitRegression .. => true
  | _ => false

/-- Whose set-up a call performs. -/
def who : Call → Nat
  | .importRegular e _ | .trainRegular e | .importSpr e _ | .trainSpr e | .fitRegression e _ | .predict e => e

theorem own_step (p : Process) (c : Call) (e : Nat) :
    ((p.call c).1).own e = match lastGiven e [c] with
      | some d => some d
      | none => p.own e := by
  cases c with
  | importRegular e' d =>
    by_cases h : e' = e
    · simp [Process.call, Process.setup, Process.give, lastGiven, h]
    · simp [Process.call, Process.setup, Process.give, lastGiven, h, Ne.symm h]
  | importSpr e' d =>
    by_cases h : e' = e
    · simp [Process.call, Process.setup, Process.give, lastGiven, h]
    · simp [Process.call, Process.setup, Process.give, lastGiven, h, Ne.symm h]
  | fitRegression e' d =>
    by_cases h : e' = e
    · simp [Process.call, Process.setup, Process.give, lastGiven, h]
    · simp [Process.call, Process.setup, Process.give, lastGiven, h, Ne.symm h]
  | trainRegular e' => simp [Process.call, lastGiven]
  | trainSpr e' => simp [Process.call, lastGiven, Process.setup]
  | predict e' => simp [Process.call, lastGiven]

theorem own_calls (e : Nat) (cs : List Call) : ∀ p : Process,
    (p.calls cs).own e = match lastGiven e cs with
      | some d => some d
      | none => p.own e := by
  induction cs with
  | nil => intro p; rfl
  | cons c cs ih =>
    intro p
    have : p.calls (c :: cs) = ((p.call c).1).calls cs := rfl
    rw [this, ih, own_step]
    simp only [lastGiven]
    cases lastGiven e cs with
    | some d => rfl
    | none => rfl

theorem calls_append (p : Process) (a b : List Call) : p.calls (a ++ b) = (p.calls a).calls b := by
  simp [Process.calls]

/-- Calls that set nothing up leave the shared attributes alone. -/
theorem shared_calls (cs : List Call) : ∀ p : Process, (∀ c ∈ cs, SetsUp c = false) →
    (p.calls cs).shared = p.shared := by
  induction cs with
  | nil => intro p _; rfl
  | cons c cs ih =>
    intro p h
    have : p.calls (c :: cs) = ((p.call c).1).calls cs := rfl
    rw [this, ih _ (fun c' hc' => h c' (List.mem_cons_of_mem _ hc'))]
    have hc := h c List.mem_cons_self
    cases c <;> simp_all [SetsUp, Process.call]

/-- **C88** After any calls of any estimators, training a sparse estimator and fitting a regression
estimator always use that estimator's own, latest data. -/
theorem C88_own_data (hist : List Call) (e d : Nat) :
    (((Process.start.calls hist).call (.trainSpr e)).2 = .trainedOn (lastGiven e hist)) ∧
    (((Process.start.calls hist).call (.fitRegression e d)).2 = .trainedOn (some d)) := by
  constructor
  · have := own_calls e hist Process.start
    simp only [Process.call, Process.setup, this]
    cases lastGiven e hist <;> rfl
  · simp [Process.call, Process.setup, Process.give]

/-- **C88** Before any estimator was given data there is nothing to train on. -/
theorem C88_start (hist : List Call) (e : Nat) (h : ∀ c ∈ hist, SetsUp c = false) :
    ((Process.start.calls hist).call (.trainRegular e)).2 = .trainedOn none := by
  have hs := shared_calls hist Process.start h
  simp only [Process.call, hs]
  rfl

/-- **C88** Training a `KD_Discover` uses its own data as long as no other estimator was set up since it
imported them. -/
theorem C88_regular_partial (before after : List Call) (e d : Nat)
    (h : ∀ c ∈ after, SetsUp c = false) :
    ((Process.start.calls (before ++ [.importRegular e d] ++ after)).call (.trainRegular e)).2 =
      .trainedOn (some d) := by
  have hs : (Process.start.calls (before ++ [.importRegular e d] ++ after)).shared.task = some d := by
    rw [calls_append, shared_calls after _ h, calls_append]
    simp [Process.calls, Process.call, Process.setup, Process.give]
  simp only [Process.call, hs]

/-- **C88, counterexample** If another estimator is set up in between, the first one is trained on the other
one's data: for every history and every pair of estimators. -/
theorem C88_regular_counterexample (before : List Call) (e1 e2 d1 d2 : Nat) :
    ((Process.start.calls (before ++ [.importRegular e1 d1, .importRegular e2 d2])).call (.trainRegular e1)).2 =
      .trainedOn (some d2) := by
  rw [calls_append]
  simp [Process.calls, Process.call, Process.setup, Process.give]

/-- **C88** A fitted regression estimator is evaluated by the executor it was fitted with as long as no
sparse estimator is set up afterwards. -/
theorem C88_predict_partial (before after : List Call) (e d : Nat)
    (h : ∀ c ∈ after, ∀ e', c ≠ .trainSpr e' ∧ ∀ d', c ≠ .importSpr e' d') :
    ((Process.start.calls (before ++ [.fitRegression e d] ++ after)).call (.predict e)).2 =
      .evaluatedBy .numpy := by
  have key : ∀ (cs : List Call) (p : Process), p.shared.exec = .numpy →
      (∀ c ∈ cs, ∀ e', c ≠ .trainSpr e' ∧ ∀ d', c ≠ .importSpr e' d') → (p.calls cs).shared.exec = .numpy := by
    intro cs
    induction cs with
    | nil => intro p hp _; exact hp
    | cons c cs ih =>
      intro p hp hcs
      have : p.calls (c :: cs) = ((p.call c).1).calls cs := rfl
      rw [this]
      apply ih _ _ (fun c' hc' => hcs c' (List.mem_cons_of_mem _ hc'))
      have hc := hcs c List.mem_cons_self
      cases c with
      | importSpr e' d' => exact ((hc e').2 d' rfl).elim
      | trainSpr e' => exact ((hc e').1 rfl).elim
      | importRegular e' d' => rfl
      | fitRegression e' d' => rfl
      | trainRegular e' => exact hp
      | predict e' => exact hp
  have h1 : (Process.start.calls (before ++ [.fitRegression e d])).shared.exec = .numpy := by
    rw [calls_append]
    simp [Process.calls, Process.call, Process.setup, Process.give]
  have h2 : (Process.start.calls (before ++ [.fitRegression e d] ++ after)).shared.exec = .numpy := by
    rw [calls_append]
    exact key after _ h1 h
  simp only [Process.call, h2]

/-- **C88, counterexample** After a sparse estimator was set up, a regression estimator fitted before is
evaluated with the torch executor (on numpy arrays, for which it returns nothing and `predict` raises). -/
theorem C88_predict_counterexample (before : List Call) (e1 e2 d1 d2 : Nat) :
    ((Process.start.calls (before ++ [.fitRegression e1 d1, .importSpr e2 d2])).call (.predict e1)).2 =
      .evaluatedBy .torch := by
  rw [calls_append]
  simp [Process.calls, Process.call, Process.setup, Process.give]

example : ((Process.start.calls [.importRegular 1 10, .fitRegression 2 20, .importRegular 1 11, .predict 2]).call
    (.trainRegular 1)).2 = .trainedOn (some 11) := by decide

/-! ## C89: a seed determines the result -/

/-- **C89** Everything a `KD_Discover` does after the controller was made is determined by the seed: two
runs with the same seed and data and the same initial controller weights give the same result, whatever
the program did before. -/
theorem C89_seed_partial {S W D C R : Type} (m : Machine S W D C R) (s1 s2 : S) (seed : Nat) (d : D)
    (hw : (m.initWeights s1).1 = (m.initWeights s2).1) :
    m.fitRegular s1 seed d = m.fitRegular s2 seed d := by
  simp [Machine.fitRegular, hw]

/-- **C89** For a sparse estimator the networks are determined by the seed; only the split into training and
validation points and the collocation points are drawn before. -/
theorem C89_seed_sparse_partial {S W D C R : Type} (m : Machine S W D C R) (s1 s2 : S) (seed : Nat) (d : D)
    (hc : (m.colloc s1 d).1 = (m.colloc s2 d).1) :
    m.fitSpr s1 seed d = m.fitSpr s2 seed d := by
  simp [Machine.fitSpr, hc]

/-- **C89** (what is missing): runs differ exactly if the search differs for the two initial weights, which are drawn before the seed is set. -/
theorem C89_weights {S W D C R : Type} (m : Machine S W D C R) (seed : Nat) (d : D) (s1 s2 : S) :
    m.fitRegular s1 seed d = m.fitRegular s2 seed d ↔ m.search (m.initWeights s1).1 (m.seeded seed) d = m.search (m.initWeights s2).1 (m.seeded seed) d := Iff.rfl

/-- A generator that counts, weights and points drawn from it, and a search whose result is its weights. -/
def exMachine : Machine Nat Nat Unit Nat Nat :=
  ⟨id, fun s => (s, s + 1), fun s _ => (s, s + 1), fun s => (s, s + 1), fun w _ _ => w, fun _ _ _ _ c => c⟩

/-- **C89, counterexample** The seed alone does not determine the result: for a machine, a seed and data, two earlier states of the generator (a fresh one, and
one after a single draw) give different results, for regular and for sparse estimators. -/
theorem C89_seed_counterexample : ∃ (s : Nat), exMachine.fitRegular s 5 () ≠ exMachine.fitRegular (exMachine.initWeights s).2 5 () ∧
    exMachine.fitSpr s 5 () ≠ exMachine.fitSpr (exMachine.initWeights s).2 5 () := ⟨0, by decide, by decide⟩

end Verif.Discover.Facade.Claims
