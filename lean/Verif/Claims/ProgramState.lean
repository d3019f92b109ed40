import Verif.Discover.ProgramState
import Verif.Discover.Basic
/-!
# C158: copies of programs; C159: programs with several objects; C160: the SymPy tree of a program
-/
namespace Verif.Discover.ProgramState.Claims
open Verif.Discover Verif.Discover.ProgramState

/-! ## C158 -/

/-- **C158** (partial): a copy has the same tokens and origin, and the same evaluation metrics; if the program has been evaluated, also the same constants
and validity, and it counts as sampled on (off) policy once if the program ever was. -/
theorem C158_copy_partial {R W M V : Type} (nConst : List Nat → Nat) (p c : Prog R W M V) (h : copyProg nConst p = some c) :
    c.tokens = p.tokens ∧ c.originallyOn = p.originallyOn ∧ c.metrics = p.metrics ∧
    (p.metrics.isSome → c.consts = p.consts ∧ c.invalid = p.invalid ∧ (p.invalid = true → c.error = p.error) ∧
      c.onCount = min p.onCount 1 ∧ c.offCount = min p.offCount 1) := by
  unfold copyProg at h
  simp only [Option.map_eq_some_iff] at h
  obtain ⟨s, hs, rfl⟩ := h
  unfold getState at hs
  simp only [Option.bind_eq_bind, Option.bind_eq_some_iff] at hs
  obtain ⟨cs, hcs, er, her, hs⟩ := hs
  injection hs with hs; subst hs
  unfold setState
  unfold constState at hcs
  unfold errorState at her
  cases hm : p.metrics with
  | none => simp [fresh]
  | some m =>
    rw [hm] at hcs
    have hmap : ∀ (l : List (Option V)) (r : List V), l.mapM id = some r → r.map some = l := by
      intro l
      induction l with
      | nil => intro r hr; simp at hr; subst hr; rfl
      | cons x xs ih =>
        intro r hr
        simp only [List.mapM_cons, id, Option.bind_eq_bind, Option.bind_eq_some_iff, Option.pure_def] at hr
        obtain ⟨y, hy, ys, hys, hr⟩ := hr
        injection hr with hr; subst hr
        simp [hy, ih ys hys]
    have h1 := hmap p.consts cs (by simpa using hcs)
    simp only [Option.isSome_some, if_true]
    have hcount : ∀ k : Nat, boolCount (k != 0) = min k 1 := by
      intro k
      cases k with
      | zero => rfl
      | succ k => simp [boolCount]
    refine ⟨by trivial, by trivial, by trivial, fun _ => ⟨h1, by trivial, ?_, hcount _, hcount _⟩⟩
    intro hi
    rw [hi] at her
    simp only [if_true] at her
    rw [her]

/-- **C158**, false: the reward and the coefficients of a program are never in its copy. -/
theorem C158_reward_counterexample {R W M V : Type} (nConst : List Nat → Nat) (p c : Prog R W M V) (h : copyProg nConst p = some c) :
    c.reward = none ∧ c.w = none := by
  unfold copyProg at h
  simp only [Option.map_eq_some_iff] at h
  obtain ⟨s, _, rfl⟩ := h
  unfold setState
  cases s.metrics <;> simp [fresh]

/-- **C158**, false: an invalid program that has only been rewarded has a valid copy, without its constants, with its counts reset. -/
theorem C158_invalid_counterexample :
    ∃ c, copyProg (fun _ => 1) (⟨[3, 1, 2], [some 5], some 7, some (), (none : Option Unit), true, some ("log", "divide"), 4, 2, false⟩ : Prog Nat Unit Unit Nat) = some c ∧
      c.invalid = false ∧ c.consts = [none] ∧ c.onCount = 0 ∧ c.offCount = 1 :=
  ⟨_, rfl, rfl, rfl, rfl, rfl⟩

/-- **C158**, false: the copy of an evaluated program counts as sampled at most once. -/
theorem C158_counts_counterexample :
    ∃ c, copyProg (fun _ => 0) (⟨[3, 1, 2], [], some 7, some (), some (), false, none, 4, 2, true⟩ : Prog Nat Unit Unit Nat) = some c ∧
      c.onCount = 1 ∧ c.offCount = 1 :=
  ⟨_, rfl, rfl, rfl⟩

/-- **C158**: when copying fails: an evaluated program with a constant that has no value, or an invalid program without an error text. -/
theorem C158_fails_iff {R W M V : Type} (nConst : List Nat → Nat) (p : Prog R W M V) :
    copyProg nConst p = none ↔ (p.metrics.isSome ∧ none ∈ p.consts) ∨ (p.invalid = true ∧ p.error = none) := by
  have hmap : ∀ (l : List (Option V)), l.mapM id = none ↔ none ∈ l := by
    intro l
    induction l with
    | nil => simp
    | cons x xs ih =>
      cases x with
      | none => simp [List.mapM_cons]
      | some y =>
        simp only [List.mapM_cons, id, Option.bind_eq_bind, Option.bind_some, List.mem_cons]
        cases hx : xs.mapM id with
        | none => simp [ih.1 hx]
        | some ys =>
          have : none ∉ xs := fun hh => by rw [ih.2 hh] at hx; exact absurd hx (by simp)
          simp [this]
  unfold copyProg getState constState errorState
  rw [Option.map_eq_none_iff]
  cases hm : p.metrics with
  | none =>
    simp only [Option.isSome_none, Bool.false_eq_true, if_false, Option.bind_eq_bind, Option.bind_some, false_and, false_or]
    cases hi : p.invalid with
    | false => simp
    | true => cases he : p.error <;> simp
  | some m =>
    simp only [Option.isSome_some, if_true, Option.bind_eq_bind, true_and]
    cases hc : p.consts.mapM id with
    | none => simp [(hmap _).1 hc]
    | some cs =>
      have : none ∉ p.consts := fun hh => by rw [(hmap _).2 hh] at hc; exact absurd hc (by simp)
      simp only [this, false_or, Option.bind_some]
      cases hi : p.invalid with
      | false => simp
      | true => cases he : p.error <;> simp

/-! ## C159 -/

theorem splitLoop_exact (ar : Nat → Nat) (p : List Nat) : ∀ (q : List Nat) (s t : Int) (D : List Int) (cur : List Nat),
    p ≠ [] → t < s → t ∈ D → (∀ d ∈ D, d ≤ t) → dang ar s p = t → (∀ a b, p = a ++ b → b ≠ [] → t < dang ar s a) →
    splitLoop ar (p ++ q) s D cur = (cur ++ p) :: splitLoop ar q t (D.filter (· ≠ t)) [] := by
  induction p with
  | nil => intro q s t D cur h; exact absurd rfl h
  | cons x xs ih =>
    intro q s t D cur _ hts htD hD hsum hpre
    simp only [List.cons_append, splitLoop]
    by_cases hx : xs = []
    · subst hx
      simp only [dang] at hsum
      rw [if_pos (by rw [hsum]; exact htD), hsum]
      simp
    · have hgt : t < s + ((ar x : Int) - 1) := by
        have := hpre [x] xs rfl hx
        simpa [dang] using this
      rw [if_neg (by
        intro hmem
        have := hD _ hmem
        omega)]
      rw [ih q (s + ((ar x : Int) - 1)) t D (cur ++ [x]) hx hgt htD hD (by simpa [dang] using hsum) (by
        intro a b hab hb
        have := hpre (x :: a) b (by rw [hab]; rfl) hb
        simpa [dang] using this)]
      simp

open Tree in
/-- **C159**: a traversal that lists `n` expressions one after the other is split into exactly these. -/
theorem C159_split (ar : Nat → Nat) (ts : List Tree) (h : WFL ar ts) :
    splitObjects ar ts.length (preorderL ts) = ts.map preorder := by
  suffices H : ∀ (ts : List Tree), WFL ar ts → ∀ (k : Nat) (D : List Int),
      (∀ d ∈ D, ∃ j : Nat, k ≤ j ∧ d = -((j : Int) + 1)) → (∀ j : Nat, k ≤ j → j < k + ts.length → -((j : Int) + 1) ∈ D) →
      splitLoop ar (preorderL ts) (-(k : Int)) D [] = ts.map preorder by
    have := H ts h 0 ((List.range ts.length).map (fun (k : Nat) => -((k : Int) + 1))) (by
      intro d hd
      obtain ⟨j, _, rfl⟩ := List.mem_map.1 hd
      exact ⟨j, by omega, rfl⟩) (by
      intro j _ hj
      exact List.mem_map.2 ⟨j, List.mem_range.2 (by omega), rfl⟩)
    simpa [splitObjects] using this
  intro ts
  induction ts with
  | nil => intro _ k D _ _; rfl
  | cons c cs ih =>
    intro hw k D hD1 hD2
    simp only [WFL] at hw
    simp only [preorderL, List.map_cons]
    have hex := exact_preorder ar c hw.1
    have hs : ∀ a, dang ar (-(k : Int)) a = dang ar 1 a - 1 - k := by
      intro a; rw [dang_eq ar (-(k : Int)), dang_eq ar 1]; omega
    rw [splitLoop_exact ar c.preorder (preorderL cs) (-(k : Int)) (-((k : Int) + 1)) D []]
    · rw [List.nil_append]
      congr 1
      have e : (-((k : Int) + 1)) = -(((k + 1 : Nat)) : Int) := by omega
      rw [e]
      apply ih hw.2 (k + 1)
      · intro d hd
        obtain ⟨hd1, hd2⟩ := List.mem_filter.1 hd
        obtain ⟨j, hj, rfl⟩ := hD1 d hd1
        refine ⟨j, ?_, rfl⟩
        have hne : j ≠ k := by
          rintro rfl
          simp at hd2
        omega
      · intro j hj1 hj2
        refine List.mem_filter.2 ⟨hD2 j (by omega) (by simp; omega), ?_⟩
        simp
        omega
    · intro hnil
      cases c with
      | node t ds => simp [preorder] at hnil
    · omega
    · exact hD2 k (le_refl _) (by simp)
    · intro d hd
      obtain ⟨j, hj, rfl⟩ := hD1 d hd
      omega
    · rw [hs, hex.1]; omega
    · intro a b hab hb
      have := hex.2 a b hab hb
      rw [hs]; omega

/-! ## C160 -/

/-- What a program computes at a node from the values of its operands (kd/model/discover/functions.py): the arithmetic operators, and `env` for all
other names. -/
noncomputable def progMeaning (env : String → List ℝ → ℝ) (v : String) (args : List ℝ) : ℝ :=
  match v, args with
  | "add", [a, b] => a + b
  | "sub", [a, b] => a - b
  | "mul", [a, b] => a * b
  | "div", [a, b] => a / b
  | "pow", [a, b] => Real.rpow a b
  | "inv", [a] => 1 / a
  | "neg", [a] => -a
  | "n2", [a] => a * a
  | "n3", [a] => a * a * a
  | "n4", [a] => a * a * a * a
  | v, args => env v args

/-- What SymPy reads: `Add`, `Mul`, `Pow` and numbers, and `env` for all other names. -/
noncomputable def symMeaning (env : String → List ℝ → ℝ) (v : String) (args : List ℝ) : ℝ :=
  match v, args with
  | "Add", [a, b] => a + b
  | "Mul", [a, b] => a * b
  | "Pow", [a, b] => Real.rpow a b
  | "-1", [] => -1
  | "2", [] => 2
  | "3", [] => 3
  | "4", [] => 4
  | v, args => env v args

noncomputable def value (f : String → List ℝ → ℝ) : SNode → ℝ
  | .node v cs => f v (cs.attach.map fun ⟨c, _⟩ => value f c)

/-- The number of operands of the arithmetic operators. -/
def arityOf (v : String) : Option Nat :=
  if v ∈ ["add", "sub", "mul", "div", "pow"] then some 2
  else if v ∈ ["inv", "neg", "n2", "n3", "n4"] then some 1
  else none

/-- A labelled expression: the arithmetic operators have their operands; no token has one of the names SymPy uses itself. -/
def Ok : SNode → Prop
  | .node v cs => (∀ k, arityOf v = some k → cs.length = k) ∧ v ∉ ["Add", "Mul", "Pow", "-1", "2", "3", "4"] ∧ ∀ c, (_h : c ∈ cs) → Ok c

theorem SNode.induct {P : SNode → Prop} (h : ∀ v cs, (∀ c ∈ cs, P c) → P (.node v cs)) : ∀ t, P t
  | .node v cs => h v cs (fun c _ => SNode.induct h c)

theorem value_eq (f : String → List ℝ → ℝ) (v : String) (cs : List SNode) : value f (.node v cs) = f v (cs.map (value f)) := by
  rw [value]; congr 1; rw [List.attach_map_val (f := value f)]

theorem build_eq (v : String) (cs : List SNode) : build (.node v cs) = .node (capitalised v) (cs.map build) := by
  rw [build]; congr 1; rw [List.attach_map_val (f := build)]

theorem convert_eq (v : String) (cs : List SNode) : convert (.node v cs) = convertTop v (cs.map convert) := by
  rw [convert]; congr 1; rw [List.attach_map_val (f := convert)]

/-- Names other than the converted ones. -/
def converted : List String := ["div", "sub", "inv", "neg", "n2", "n3", "n4"]

theorem convertTop_other (v : String) (cs : List SNode) (h : v ∉ converted) : convertTop v cs = .node v cs := by
  unfold convertTop
  split <;> first | rfl | (exfalso; exact h (by decide))

theorem symMeaning_other (env : String → List ℝ → ℝ) (v : String) (args : List ℝ) (h : v ∉ ["Add", "Mul", "Pow", "-1", "2", "3", "4"]) :
    symMeaning env v args = env v args := by
  unfold symMeaning
  split <;> first | rfl | (exfalso; exact h (by decide))

theorem progMeaning_other (env : String → List ℝ → ℝ) (v : String) (args : List ℝ) (h : arityOf v = none) :
    progMeaning env v args = env v args := by
  unfold progMeaning
  split <;> first | rfl | (exfalso; revert h; decide)

/-- **C160**: the tree given to SymPy has the value of the program, for all values of the variables, of the constants and of the other functions. -/
theorem C160_value (env : String → List ℝ → ℝ) (t : SNode) (h : Ok t) :
    value (symMeaning env) (convert (build t)) = value (progMeaning env) t := by
  induction t using SNode.induct with
  | h v cs ih =>
    rw [Ok] at h
    obtain ⟨h1, h2, h3⟩ := h
    have hcs : (cs.map build).map (fun c => value (symMeaning env) (convert c)) = cs.map (value (progMeaning env)) := by
      rw [List.map_map]
      exact List.map_congr_left (fun c hc => ih c hc (h3 c hc))
    rw [build_eq, convert_eq, value_eq]
    have one : ∀ a : SNode, cs = [a] → value (symMeaning env) (convert (build a)) = value (progMeaning env) a := by
      intro a ha; exact ih a (by simp [ha]) (h3 a (by simp [ha]))
    have two : ∀ a b : SNode, cs = [a, b] → value (symMeaning env) (convert (build a)) = value (progMeaning env) a ∧
        value (symMeaning env) (convert (build b)) = value (progMeaning env) b := by
      intro a b hab
      exact ⟨ih a (by simp [hab]) (h3 a (by simp [hab])), ih b (by simp [hab]) (h3 b (by simp [hab]))⟩
    have getTwo : arityOf v = some 2 → ∃ a b, cs = [a, b] := by
      intro ha
      have := h1 2 ha
      match cs, this with
      | [a, b], _ => exact ⟨a, b, rfl⟩
    have getOne : arityOf v = some 1 → ∃ a, cs = [a] := by
      intro ha
      have := h1 1 ha
      match cs, this with
      | [a], _ => exact ⟨a, rfl⟩
    have pownat : ∀ (x : ℝ) (n : ℕ), Real.rpow x (n : ℝ) = x ^ n := fun x n => Real.rpow_natCast x n
    by_cases hv : arityOf v = none
    · -- another name
      have hv' : capitalised v = v := by
        unfold capitalised
        by_cases e1 : v = "add"
        · subst e1; exact absurd hv (by decide)
        by_cases e2 : v = "mul"
        · subst e2; exact absurd hv (by decide)
        by_cases e3 : v = "pow"
        · subst e3; exact absurd hv (by decide)
        simp [e1, e2, e3]
      have hc : v ∉ converted := by
        intro hm
        have : ∀ w ∈ converted, arityOf w ≠ none := by decide
        exact this v hm hv
      rw [hv', convertTop_other v _ hc, value_eq, symMeaning_other env v _ h2, progMeaning_other env v _ hv]
      congr 1
      rw [List.map_map]
      rw [← hcs]; rw [List.map_map, List.map_map]; rfl
    · have hmem : v ∈ ["add", "sub", "mul", "div", "pow"] ∨ v ∈ ["inv", "neg", "n2", "n3", "n4"] := by
        unfold arityOf at hv
        by_cases e1 : v ∈ ["add", "sub", "mul", "div", "pow"]
        · exact Or.inl e1
        · rw [if_neg e1] at hv
          by_cases e2 : v ∈ ["inv", "neg", "n2", "n3", "n4"]
          · exact Or.inr e2
          · rw [if_neg e2] at hv; exact absurd rfl hv
      rcases hmem with hm | hm
      · obtain ⟨a, b, rfl⟩ := getTwo (by unfold arityOf; rw [if_pos hm])
        obtain ⟨ta, tb⟩ := two a b rfl
        simp only [List.mem_cons, List.not_mem_nil, or_false] at hm
        rcases hm with rfl | rfl | rfl | rfl | rfl
        · simp [capitalised, convertTop, value_eq, symMeaning, progMeaning, ta, tb]
        · simp [capitalised, convertTop, value_eq, symMeaning, progMeaning, ta, tb, leaf]; ring
        · simp [capitalised, convertTop, value_eq, symMeaning, progMeaning, ta, tb]
        · simp [capitalised, convertTop, value_eq, symMeaning, progMeaning, ta, tb, leaf, Real.rpow_neg_one, div_eq_mul_inv]
        · simp [capitalised, convertTop, value_eq, symMeaning, progMeaning, ta, tb]
      · obtain ⟨a, rfl⟩ := getOne (by
          unfold arityOf
          rw [if_neg (by
            intro hh
            simp only [List.mem_cons, List.not_mem_nil, or_false] at hm hh
            rcases hm with rfl | rfl | rfl | rfl | rfl <;> simp at hh), if_pos hm])
        have ta := one a rfl
        have p2 := fun x => pownat x 2
        have p3 := fun x => pownat x 3
        have p4 := fun x => pownat x 4
        norm_num at p2 p3 p4
        simp only [List.mem_cons, List.not_mem_nil, or_false] at hm
        rcases hm with rfl | rfl | rfl | rfl | rfl
        · simp [capitalised, convertTop, value_eq, symMeaning, progMeaning, ta, leaf, Real.rpow_neg_one]
        · simp [capitalised, convertTop, value_eq, symMeaning, progMeaning, ta, leaf]
        · simp [capitalised, convertTop, value_eq, symMeaning, progMeaning, ta, leaf]; ring
        · simp [capitalised, convertTop, value_eq, symMeaning, progMeaning, ta, leaf]; ring
        · simp [capitalised, convertTop, value_eq, symMeaning, progMeaning, ta, leaf]; ring

/-- The names in a tree. -/
def names : SNode → List String
  | .node v cs => v :: (cs.attach.map fun ⟨c, _⟩ => names c).flatten

theorem names_eq (v : String) (cs : List SNode) : names (.node v cs) = v :: (cs.map names).flatten := by
  rw [names]; congr 2; rw [List.attach_map_val (f := names)]

/-- **C160**: none of the program's own arithmetic names is left in it. -/
theorem C160_names (t : SNode) (h : Ok t) : ∀ n ∈ names (convert (build t)), arityOf n = none := by
  induction t using SNode.induct with
  | h v cs ih =>
    rw [Ok] at h
    obtain ⟨h1, h2, h3⟩ := h
    have hall : ∀ n ∈ (((cs.map build).map convert).map names).flatten, arityOf n = none := by
      intro n hn
      obtain ⟨l, hl, hnl⟩ := List.mem_flatten.1 hn
      obtain ⟨c', hc', rfl⟩ := List.mem_map.1 hl
      obtain ⟨b', hb', rfl⟩ := List.mem_map.1 hc'
      obtain ⟨c, hc, rfl⟩ := List.mem_map.1 hb'
      exact ih c hc (h3 c hc) n hnl
    rw [build_eq, convert_eq]
    by_cases hv : arityOf v = none
    · have hv' : capitalised v = v := by
        unfold capitalised
        by_cases e1 : v = "add"
        · subst e1; exact absurd hv (by decide)
        by_cases e2 : v = "mul"
        · subst e2; exact absurd hv (by decide)
        by_cases e3 : v = "pow"
        · subst e3; exact absurd hv (by decide)
        simp [e1, e2, e3]
      have hc : v ∉ converted := by
        intro hm
        have : ∀ w ∈ converted, arityOf w ≠ none := by decide
        exact this v hm hv
      rw [hv', convertTop_other v _ hc, names_eq]
      intro n hn
      rcases List.mem_cons.1 hn with rfl | hn
      · exact hv
      · exact hall n hn
    · have hmem : v ∈ ["add", "sub", "mul", "div", "pow"] ∨ v ∈ ["inv", "neg", "n2", "n3", "n4"] := by
        unfold arityOf at hv
        by_cases e1 : v ∈ ["add", "sub", "mul", "div", "pow"]
        · exact Or.inl e1
        · rw [if_neg e1] at hv
          by_cases e2 : v ∈ ["inv", "neg", "n2", "n3", "n4"]
          · exact Or.inr e2
          · rw [if_neg e2] at hv; exact absurd rfl hv
      have lits : ∀ n ∈ ["Add", "Mul", "Pow", "-1", "2", "3", "4"], arityOf n = none := by decide
      rcases hmem with hm | hm
      · obtain ⟨a, b, rfl⟩ : ∃ a b, cs = [a, b] := by
          have := h1 2 (by unfold arityOf; rw [if_pos hm])
          match cs, this with
          | [a, b], _ => exact ⟨a, b, rfl⟩
        intro n hn
        have ha := hall n
        simp only [List.map_cons, List.map_nil, List.flatten_cons, List.flatten_nil, List.append_nil, List.mem_append] at ha
        simp only [List.mem_cons, List.not_mem_nil, or_false] at hm
        have split : n ∈ names (convert (build a)) ∨ n ∈ names (convert (build b)) ∨ n ∈ ["Add", "Mul", "Pow", "-1", "2", "3", "4"] := by
          rcases hm with rfl | rfl | rfl | rfl | rfl <;>
            simp [capitalised, convertTop, names_eq, leaf] at hn <;> simp only [List.mem_cons, List.not_mem_nil, or_false] <;> tauto
        rcases split with h | h | h
        · exact ha (Or.inl h)
        · exact ha (Or.inr h)
        · exact lits n h
      · obtain ⟨a, rfl⟩ : ∃ a, cs = [a] := by
          have := h1 1 (by
            unfold arityOf
            rw [if_neg (by
              intro hh
              simp only [List.mem_cons, List.not_mem_nil, or_false] at hm hh
              rcases hm with rfl | rfl | rfl | rfl | rfl <;> simp at hh), if_pos hm])
          match cs, this with
          | [a], _ => exact ⟨a, rfl⟩
        intro n hn
        have ha := hall n
        simp only [List.map_cons, List.map_nil, List.flatten_cons, List.flatten_nil, List.append_nil] at ha
        simp only [List.mem_cons, List.not_mem_nil, or_false] at hm
        have split : n ∈ names (convert (build a)) ∨ n ∈ ["Add", "Mul", "Pow", "-1", "2", "3", "4"] := by
          rcases hm with rfl | rfl | rfl | rfl | rfl <;>
            simp [capitalised, convertTop, names_eq, leaf] at hn <;> simp only [List.mem_cons, List.not_mem_nil, or_false] <;> tauto
        rcases split with h | h
        · exact ha h
        · exact lits n h

/-- A case: `u1 - u1/x1`. -/
example : Ok (.node "sub" [leaf "u1", .node "div" [leaf "u1", leaf "x1"]]) := by
  have hl : ∀ n, arityOf n = none → n ∉ ["Add", "Mul", "Pow", "-1", "2", "3", "4"] → Ok (leaf n) := by
    intro n h1 h2
    rw [leaf, Ok]
    exact ⟨fun k hk => by rw [h1] at hk; exact absurd hk (by simp), h2, fun c hc => absurd hc (by simp)⟩
  have hu := hl "u1" (by decide) (by decide)
  have hx := hl "x1" (by decide) (by decide)
  have hd : Ok (.node "div" [leaf "u1", leaf "x1"]) := by
    rw [Ok]
    refine ⟨by decide, by decide, ?_⟩
    intro c hc
    simp only [List.mem_cons, List.not_mem_nil, or_false] at hc
    rcases hc with rfl | rfl
    · exact hu
    · exact hx
  rw [Ok]
  refine ⟨by decide, by decide, ?_⟩
  intro c hc
  simp only [List.mem_cons, List.not_mem_nil, or_false] at hc
  rcases hc with rfl | rfl
  · exact hu
  · exact hd

/-! ### The text determines the tree -/

/-- Brackets and commas. -/
def isDelim (c : Char) : Prop := c = '(' ∨ c = ',' ∨ c = ')'

/-- The names have no brackets and commas in them. -/
def PlainNames (t : SNode) : Prop := ∀ n ∈ names t, ∀ c ∈ n.toList, ¬ isDelim c

/-- Where the text of a tree ends: at the end, a comma or a closing bracket. -/
def Stop (r : List Char) : Prop := r = [] ∨ ∃ q, r = ',' :: q ∨ r = ')' :: q

theorem text_leaf (v : String) : (SNode.text (.node v [])).toList = v.toList := by rw [SNode.text]

theorem text_node (v : String) (c : SNode) (cs : List SNode) :
    (SNode.text (.node v (c :: cs))).toList = v.toList ++ '(' :: ([','].intercalate ((c :: cs).map (fun d => d.text.toList)) ++ [')']) := by
  have e : ((c :: cs).attach.map fun ⟨d, _⟩ => SNode.text d) = (c :: cs).map SNode.text := List.attach_map_val (f := SNode.text)
  have e1 : ("(" : String).toList = ['('] := rfl
  have e2 : ("," : String).toList = [','] := rfl
  have e3 : (")" : String).toList = [')'] := rfl
  rw [SNode.text, e]
  simp only [String.toList_append, String.toList_intercalate, e1, e2, e3, List.map_map, List.append_assoc, List.singleton_append]
  rfl

theorem span_names {v w a b : List Char} (hv : ∀ c ∈ v, ¬ isDelim c) (hw : ∀ c ∈ w, ¬ isDelim c)
    (ha : a = [] ∨ ∃ x q, isDelim x ∧ a = x :: q) (hb : b = [] ∨ ∃ x q, isDelim x ∧ b = x :: q) (h : v ++ a = w ++ b) : v = w ∧ a = b := by
  induction v generalizing w with
  | nil =>
    cases w with
    | nil => exact ⟨rfl, by simpa using h⟩
    | cons y w =>
      exfalso
      rw [List.nil_append] at h
      rcases ha with rfl | ⟨x, q, hx, rfl⟩
      · simp at h
      · simp only [List.cons_append, List.cons.injEq] at h
        exact hw y (by simp) (h.1 ▸ hx)
  | cons z v ih =>
    cases w with
    | nil =>
      exfalso
      rw [List.nil_append] at h
      rcases hb with rfl | ⟨x, q, hx, rfl⟩
      · simp at h
      · simp only [List.cons_append, List.cons.injEq] at h
        exact hv z (by simp) (h.1.symm ▸ hx)
    | cons y w =>
      simp only [List.cons_append, List.cons.injEq] at h
      obtain ⟨i1, i2⟩ := ih (fun c hc => hv c (by simp [hc])) (fun c hc => hw c (by simp [hc])) h.2
      exact ⟨by rw [h.1, i1], i2⟩

theorem Stop.delim {r : List Char} (h : Stop r) : r = [] ∨ ∃ x q, isDelim x ∧ r = x :: q := by
  rcases h with h | ⟨q, h | h⟩
  · exact Or.inl h
  · exact Or.inr ⟨',', q, Or.inr (Or.inl rfl), h⟩
  · exact Or.inr ⟨')', q, Or.inr (Or.inr rfl), h⟩

theorem plain_child {v : String} {cs : List SNode} (h : PlainNames (.node v cs)) (c : SNode) (hc : c ∈ cs) : PlainNames c := by
  intro n hn
  apply h n
  rw [names_eq]
  exact List.mem_cons.2 (Or.inr (List.mem_flatten.2 ⟨_, List.mem_map.2 ⟨c, hc, rfl⟩, hn⟩))

theorem children_inj : ∀ (cs : List SNode),
    (∀ c ∈ cs, ∀ (t' : SNode) (r r' : List Char), PlainNames t' → Stop r → Stop r' → c.text.toList ++ r = t'.text.toList ++ r' → c = t' ∧ r = r') →
    ∀ (cs' : List SNode) (r r' : List Char), cs ≠ [] → cs' ≠ [] → (∀ c ∈ cs', PlainNames c) →
      [','].intercalate (cs.map (fun d => d.text.toList)) ++ ')' :: r = [','].intercalate (cs'.map (fun d => d.text.toList)) ++ ')' :: r' →
      cs = cs' ∧ r = r' := by
  intro cs
  induction cs with
  | nil => intro _ _ _ _ h; exact absurd rfl h
  | cons c cs ih =>
    intro hP cs' r r' _ hne hpl h
    obtain ⟨c', ds', rfl⟩ := List.exists_cons_of_ne_nil hne
    have hc := hP c (by simp) c'
    have hc' := hpl c' (by simp)
    have stopB : ∀ q, Stop (')' :: q) := fun q => Or.inr ⟨q, Or.inr rfl⟩
    have stopC : ∀ q, Stop (',' :: q) := fun q => Or.inr ⟨q, Or.inl rfl⟩
    cases cs with
    | nil =>
      cases ds' with
      | nil =>
        simp only [List.map_cons, List.map_nil, List.intercalate_singleton] at h
        obtain ⟨h1, h2⟩ := hc _ _ hc' (stopB _) (stopB _) h
        simp only [List.cons.injEq, true_and] at h2
        exact ⟨by rw [h1], h2⟩
      | cons d' es' =>
        simp only [List.map_cons, List.map_nil, List.intercalate_singleton, List.intercalate_cons_cons, List.append_assoc, List.singleton_append] at h
        have := (hc _ _ hc' (stopB _) (stopC _) h).2
        simp at this
    | cons d es =>
      cases ds' with
      | nil =>
        simp only [List.map_cons, List.map_nil, List.intercalate_singleton, List.intercalate_cons_cons, List.append_assoc, List.singleton_append] at h
        have := (hc _ _ hc' (stopC _) (stopB _) h).2
        simp at this
      | cons d' es' =>
        simp only [List.map_cons, List.intercalate_cons_cons, List.append_assoc, List.singleton_append] at h
        obtain ⟨h1, h2⟩ := hc _ _ hc' (stopC _) (stopC _) h
        simp only [List.cons.injEq, true_and] at h2
        obtain ⟨h3, h4⟩ := ih (fun x hx => hP x (by simp [hx])) (d' :: es') r r' (by simp) (by simp) (fun x hx => hpl x (by simp [hx]))
          h2
        exact ⟨by rw [h1, h3], h4⟩

theorem text_inj (t : SNode) : ∀ (t' : SNode) (r r' : List Char), PlainNames t → PlainNames t' → Stop r → Stop r' →
    t.text.toList ++ r = t'.text.toList ++ r' → t = t' ∧ r = r' := by
  induction t using SNode.induct with
  | h v cs ih =>
    intro t' r r' hp hp' hr hr' h
    obtain ⟨v', cs'⟩ := t'
    have hv : ∀ c ∈ v.toList, ¬ isDelim c := hp v (by rw [names_eq]; simp)
    have hv' : ∀ c ∈ v'.toList, ¬ isDelim c := hp' v' (by rw [names_eq]; simp)
    have opn : ∀ q, (('(' : Char) :: q = [] ∨ ∃ x p, isDelim x ∧ '(' :: q = x :: p) := fun q => Or.inr ⟨_, _, Or.inl rfl, rfl⟩
    cases cs with
    | nil =>
      cases cs' with
      | nil =>
        rw [text_leaf, text_leaf] at h
        obtain ⟨h1, h2⟩ := span_names hv hv' hr.delim hr'.delim h
        exact ⟨by rw [String.toList_inj.1 h1], h2⟩
      | cons c' cs' =>
        rw [text_leaf, text_node, List.append_assoc, List.cons_append] at h
        have := (span_names hv hv' hr.delim (opn _) h).2
        rcases hr with hr | ⟨q, hr | hr⟩ <;> (rw [hr] at this; simp at this)
    | cons c cs =>
      cases cs' with
      | nil =>
        rw [text_leaf, text_node, List.append_assoc, List.cons_append] at h
        have := (span_names hv hv' (opn _) hr'.delim h).2
        rcases hr' with hr | ⟨q, hr | hr⟩ <;> (rw [hr] at this; simp at this)
      | cons c' cs' =>
        rw [text_node, text_node, List.append_assoc, List.append_assoc, List.cons_append, List.cons_append] at h
        obtain ⟨h1, h2⟩ := span_names hv hv' (opn _) (opn _) h
        simp only [List.cons.injEq, true_and, List.append_assoc, List.singleton_append] at h2
        obtain ⟨h3, h4⟩ := children_inj (c :: cs) (fun x hx t' r r' hpt => ih x hx t' r r' (plain_child hp x hx) hpt) (c' :: cs') r r' (by simp) (by simp)
          (fun x hx => plain_child hp' x hx) h2
        exact ⟨by rw [String.toList_inj.1 h1, h3], h4⟩

/-- **C160** (the text given to SymPy): different trees have different texts, so no structure is lost in the text. -/
theorem C160_text (t t' : SNode) (h : PlainNames t) (h' : PlainNames t') (he : t.text = t'.text) : t = t' :=
  (text_inj t t' [] [] h h' (Or.inl rfl) (Or.inl rfl) (by rw [he])).1

/-- A case: `Add(u1,Mul(x1,-1))`. -/
example : (SNode.node "Add" [.node "u1" [], .node "Mul" [.node "x1" [], .node "-1" []]]).text = "Add(u1,Mul(x1,-1))" := by
  simp [SNode.text, String.intercalate_cons_cons]

end Verif.Discover.ProgramState.Claims
