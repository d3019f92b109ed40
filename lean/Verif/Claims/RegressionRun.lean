import Verif.Discover.RegressionRun
import Verif.Claims.Search
import Verif.Claims.Regression
import Verif.Claims.RegressionMetric
/-!
# C187: a whole run of symbolic regression
-/
namespace Verif.Discover.RegressionRun.Claims
open Verif.Discover Verif.Discover.Search Verif.Discover.Search.Claims Verif.Discover.Regression Verif.Discover.Regression.Claims Verif.Discover.RegressionRun
  Verif.Discover.RegressionMetric Verif.Discover.RegressionMetric.Claims Verif.Discover.Claims Tree

variable {p : Nat}

/-- A set-up of a run: enforced constraints, a library `item` whose arities are those of `lib`, and rewards that are compared in their order, within the bound. -/
structure Ok (v : Searcher.Env) (lib : Lib) (ps : List Prior) (L : Nat) (fl : ℝ → Int) (item : Nat → Item ℝ) : Prop where
  env : v.Ok
  setup : Setup lib ps L
  arity : ∀ k, (item k).arity = lib.arity k
  mono : Monotone fl
  low : -v.bound ≤ fl 0 ∧ fl 0 ≤ 0
  high : fl 1 ≤ v.bound

/-- The numbers an expression predicts for the training table, once its constants are optimised; none if numpy reports an error. -/
def Predicts (T : Task p ℝ) (item : Nat → Item ℝ) (t : Tree) (ys : List ℝ) : Prop :=
  predict (some (p, Prog.fresh (optimise T (t.preorder.map item)))) T.X = .ok ys ∧ T.fpError (optimise T (t.preorder.map item)) T.X = false

/-! ## Lemmas -/

theorem exprs_of_trees (ar : Nat → Nat) (cs : List Tree)
    (ih : ∀ c ∈ cs, WF ar c → ∀ l : List (Item ℝ), l.map Item.arity = c.preorder.map ar → ∃ e : Expr ℝ, e.WF ∧ e.items = l) :
    Tree.WFL ar cs → ∀ l : List (Item ℝ), l.map Item.arity = (preorderL cs).map ar →
      ∃ es : List (Expr ℝ), es.length = cs.length ∧ Regression.Claims.WFL es ∧ itemsL es = l := by
  induction cs with
  | nil =>
    intro _ l hl
    simp [preorderL] at hl
    subst hl
    exact ⟨[], rfl, trivial, rfl⟩
  | cons c cs ihc =>
    intro hw l hl
    rw [preorderL, List.map_append] at hl
    obtain ⟨a, b, rfl, h1, h2⟩ := List.map_eq_append_iff.1 hl
    obtain ⟨e, e1, e2⟩ := ih c List.mem_cons_self hw.1 a h1
    obtain ⟨es, f1, f2, f3⟩ := ihc (fun c' hc => ih c' (List.mem_cons_of_mem _ hc)) hw.2 b h2
    exact ⟨e :: es, by simp [f1], ⟨e1, f2⟩, by rw [itemsL, e2, f3]⟩

/-- Any elements with the arities of a complete expression are a complete expression. -/
theorem expr_of_tree (ar : Nat → Nat) (t : Tree) : WF ar t → ∀ l : List (Item ℝ), l.map Item.arity = t.preorder.map ar → ∃ e : Expr ℝ, e.WF ∧ e.items = l := by
  induction t using Tree.induct with
  | h tok cs ih =>
    intro hw l hl
    rw [preorder, List.map_cons] at hl
    obtain ⟨a, b, rfl, h1, h2⟩ := List.map_eq_cons_iff.1 hl
    obtain ⟨es, f1, f2, f3⟩ := exprs_of_trees ar cs ih hw.2 b h2
    exact ⟨.mk a es, ⟨by rw [f1, h1]; exact hw.1, f2⟩, by rw [Expr.items, f3]⟩

theorem arity_set (is : List (Item ℝ)) : ∀ cs, (setConstants is cs).map Item.arity = is.map Item.arity := by
  induction is with
  | nil => intro cs; cases cs <;> rfl
  | cons i is ih =>
    intro cs
    cases cs with
    | nil => cases i <;> rfl
    | cons c cs => cases i <;> simp [setConstants, ih, Item.arity]

theorem constants_none : ∀ is : List (Item ℝ), constCount is = 0 → getConstants is = []
  | [], _ => rfl
  | .const _ :: is, h => by simp [constCount] at h
  | .var _ :: is, h => constants_none is h
  | .hard _ _ :: is, h => constants_none is h
  | .op _ _ _ :: is, h => constants_none is h

theorem set_nil (is : List (Item ℝ)) : setConstants is [] = is := by cases is with
  | nil => rfl
  | cons i is => cases i <;> rfl

theorem optimise_set (T : Task p ℝ) (is : List (Item ℝ)) : optimise T is = setConstants is (getConstants (optimise T is)) := by
  unfold optimise
  by_cases h : constCount is = 0
  · rw [if_pos h, constants_none is h, set_nil]
  · rw [if_neg h, getConstants_set is _ (by simp)]

theorem onTrain_iff (T : Task p ℝ) (is : List (Item ℝ)) (ys : List ℝ) :
    onTrain T is = some ys ↔ predict (some (p, Prog.fresh is)) T.X = .ok ys ∧ T.fpError is T.X = false := by
  unfold onTrain predict Prog.fresh
  simp only [ne_eq, not_true_eq_false, if_false]
  cases executeDirect is T.X with
  | val zs => cases T.fpError is T.X <;> simp
  | retNone => simp
  | raise => simp

theorem score_valid (fl : ℝ → Int) (T : Task p ℝ) (item : Nat → Item ℝ) (t : Tree) (ys : List ℝ) (h : Predicts T item t ys) :
    score fl T item t.preorder = ⟨some (fl (T.metric T.y ys t.preorder.length)), false⟩ := by
  unfold score
  rw [(onTrain_iff _ _ _).2 h]
  simp

theorem score_ok {v : Searcher.Env} {lib : Lib} {ps : List Prior} {L : Nat} {fl : ℝ → Int} {item : Nat → Item ℝ} (hok : Ok v lib ps L fl item)
    (coeff inf : ℝ) (hc : 0 ≤ coeff) (X : Table p ℝ) (y : List ℝ) (opt) (fpe) : ScoreOk L v.bound (score fl (task coeff inf X y opt fpe) item) := by
  constructor
  · intro l hl
    unfold score at hl ⊢
    cases h : onTrain (task coeff inf X y opt fpe) (optimise (task coeff inf X y opt fpe) (l.map item)) with
    | none => exact ⟨_, rfl, hok.low.2⟩
    | some ys => rw [h] at hl; nomatch hl
  · intro l _ x hx
    unfold score at hx
    cases h : onTrain (task coeff inf X y opt fpe) (optimise (task coeff inf X y opt fpe) (l.map item)) with
    | none =>
      rw [h] at hx; cases hx
      exact ⟨hok.low.1, le_trans (hok.mono (by simp [task])) hok.high⟩
    | some ys =>
      rw [h] at hx; cases hx
      have hr := C92_range coeff hc y ys (l.map item).length
      exact ⟨le_trans hok.low.1 (hok.mono hr.1), le_trans (hok.mono hr.2.1) hok.high⟩

/-- What the search leaves. -/
theorem found {v : Searcher.Env} {lib : Lib} {ps : List Prior} {L : Nat} {fl : ℝ → Int} {item : Nat → Item ℝ} (hok : Ok v lib ps L fl item)
    (coeff inf : ℝ) (hc : 0 ≤ coeff) (X : Table p ℝ) (y : List ℝ) (opt) (fpe) (dss : List (List Draw)) (hd : ∀ ds ∈ dss, ds ≠ [] ∧ ∀ d ∈ ds, Row lib ps L d)
    (c : Cache) (s : Searcher.St) (h : search v lib (score fl (task coeff inf X y opt fpe) item) ({}, {}) dss = some (c, s)) :
    (s.bestP = none ∧ ∀ t : Tree, ¬ Drawn lib dss t) ∨
    ∃ (m : Int) (o : Nat) (t : Tree), s.bestP = some (m, o) ∧ c.objs[o]?.map (·.tokens) = some t.preorder ∧ Drawn lib dss t ∧ (∀ q ∈ ps, Obeys lib t q) ∧
      (score fl (task coeff inf X y opt fpe) item t.preorder).reward = some m ∧
      ∀ t' : Tree, Drawn lib dss t' → ∀ r, (score fl (task coeff inf X y opt fpe) item t'.preorder).reward = some r → r ≤ m := by
  have hsc := score_ok hok coeff inf hc X y opt fpe
  cases hm : s.rBest with
  | none =>
    left
    obtain ⟨ts, bs, e1, _, e3, _⟩ := run_of_search hok.setup hsc hd h
    have hbp : s.bestP = none := ((Searcher.Claims.C17_best_is_max v hok.env bs (fun b hb => (e3 b hb).1) s e1).2.1).2 hm
    refine ⟨hbp, fun t ht => ?_⟩
    have := (C174_nothing v hok.env lib ps L hok.setup _ hsc dss hd c s h).1 hbp t ht
    unfold score at this
    split at this <;> nomatch this
  | some m =>
    right
    obtain ⟨o, t, g⟩ := C174_reported v hok.env lib ps L hok.setup _ hsc dss hd c s h m hm
    exact ⟨m, o, t, g⟩

theorem item_expr {v : Searcher.Env} {lib : Lib} {ps : List Prior} {L : Nat} {fl : ℝ → Int} {item : Nat → Item ℝ} (hok : Ok v lib ps L fl item)
    (t : Tree) (hw : WF lib.arity t) (cs : List ℝ) : ∃ e : Expr ℝ, e.WF ∧ e.items = setConstants (t.preorder.map item) cs := by
  apply expr_of_tree lib.arity t hw
  rw [arity_set, List.map_map]
  exact List.map_congr_left fun k _ => hok.arity k

/-! ## The claims -/

/-- **C187** (result).  A fit that returns reports an expression drawn in the search, complete and obeying every constraint, with the constants found for it.
The reported reward and error are those of what `predict` gives for the training table; no expression drawn in the whole run, with the constants found for it,
has a larger reward; and for every table with the right number of features `predict` answers, in each row, the value of the reported expression on that row. -/
theorem C187_result (v : Searcher.Env) (lib : Lib) (ps : List Prior) (L : Nat) (fl : ℝ → Int) (item : Nat → Item ℝ) (hok : Ok v lib ps L fl item) (hp : 0 < p)
    (coeff inf : ℝ) (hc : 0 ≤ coeff) (X : Table p ℝ) (y : List ℝ) (opt : (k : Nat) → ((Fin k → ℝ) → ℝ) → (Fin k → ℝ)) (fpe : List (Item ℝ) → Table p ℝ → Bool)
    (dss : List (List Draw)) (hd : ∀ ds ∈ dss, ds ≠ [] ∧ ∀ d ∈ ds, Row lib ps L d)
    (F : FitResult ℝ) (h : fit v lib fl (task coeff inf X y opt fpe) item dss = .ok F) :
    ∃ t : Tree, Drawn lib dss t ∧ (∀ q ∈ ps, Obeys lib t q) ∧ F.program.items = setConstants (t.preorder.map item) F.constants ∧
      (∃ ys, predict (some (p, F.program)) X = .ok ys ∧ F.reward = metric coeff y ys t.preorder.length ∧ F.mse = Reward.mse y ys) ∧
      (∀ t', Drawn lib dss t' → ∀ ys, Predicts (task coeff inf X y opt fpe) item t' ys → fl (metric coeff y ys t'.preorder.length) ≤ fl F.reward) ∧
      ∃ e : Expr ℝ, e.WF ∧ e.items = F.program.items ∧ ∀ Z : Table p ℝ, ∃ zs, predict (some (p, F.program)) Z = .ok zs ∧ Z.map (fun row => e.value row) = zs.map some := by
  unfold fit at h
  cases hs : search v lib (score fl (task coeff inf X y opt fpe) item) ({}, {}) dss with
  | none => rw [hs] at h; nomatch h
  | some cs =>
    obtain ⟨c, s⟩ := cs
    rw [hs] at h
    simp only at h
    rcases found hok coeff inf hc X y opt fpe dss hd c s hs with ⟨g, _⟩ | ⟨m, o, t, g1, g2, g3, g4, g5, g6⟩
    · rw [g] at h; nomatch h
    · rw [g1] at h
      simp only [g2, Option.getD_some] at h
      cases hr : report (task coeff inf X y opt fpe) ((Prog.fresh (t.preorder.map item)).acts (task coeff inf X y opt fpe) [.reward]) with
      | error e => rw [hr] at h; nomatch h
      | ok F' =>
        rw [hr] at h
        simp only [Except.ok.injEq] at h
        subst h
        have hna : NoAssign (p := p) (K := ℝ) [.reward] := by intro cs hcs; simp at hcs
        obtain ⟨ys, y1, y2, y3, y4⟩ := C91_consistent_partial _ _ _ hna F' hr
        have hi := acts_inv (task coeff inf X y opt fpe) (t.preorder.map item) [.reward] _ (.inl rfl) hna
        obtain ⟨a1, a2, a3, a4, a5⟩ := getReward_inv _ _ _ hi
        obtain ⟨b1, b2, b3, b4, b5⟩ := getMse_inv _ _ _ a1
        have hit : F'.program.items = optimise (task coeff inf X y opt fpe) (t.preorder.map item) := by
          unfold report at hr
          simp only at hr
          split at hr
          · nomatch hr
          · simp only [Except.ok.injEq] at hr
            subst hr
            exact b4
        have hset : F'.program.items = setConstants (t.preorder.map item) F'.constants := by
          rw [y4, hit]; exact optimise_set _ _
        have hvalid : ∃ zs, onTrain (task coeff inf X y opt fpe) (optimise (task coeff inf X y opt fpe) (t.preorder.map item)) = some zs := by
          have := mt (C91_report_fails_iff (task coeff inf X y opt fpe) (t.preorder.map item) [.reward] hna).2 (by rw [hr]; exact fun h => nomatch h)
          exact Option.ne_none_iff_exists'.1 this
        obtain ⟨zs, hz⟩ := hvalid
        have hz' := (onTrain_iff _ _ _).1 hz
        have hzy : zs = ys := by
          have e : predict (some (p, F'.program)) X = predict (some (p, Prog.fresh (optimise (task coeff inf X y opt fpe) (t.preorder.map item)))) X := by
            unfold predict Prog.fresh; simp only [hit]
          have := hz'.1
          rw [show (task coeff inf X y opt fpe).X = X from rfl] at this y1
          rw [← e, y1] at this
          exact (Except.ok.inj this).symm
        subst hzy
        have hm : m = fl F'.reward := by
          rw [score_valid fl _ item t zs hz'] at g5
          rw [y2, List.length_map]
          exact (Option.some.inj g5).symm
        refine ⟨t, g3, g4, hset, ⟨zs, y1, ?_, y3⟩, ?_, ?_⟩
        · rw [y2, List.length_map]; rfl
        · intro t' ht' ys' hy'
          rw [← hm]
          exact g6 t' ht' _ (by rw [score_valid fl _ item t' ys' hy']; rfl)
        · obtain ⟨e, e1, e2⟩ := item_expr hok t g3.1 F'.constants
          rw [← hset] at e2
          refine ⟨e, e1, e2, fun Z => ?_⟩
          have h1 := C90_rowwise hp e e1 F'.program e2.symm X
          rw [show predict (some (p, F'.program)) X = .ok zs from y1] at h1
          have h2 := C90_rowwise hp e e1 F'.program e2.symm Z
          cases hZ : predict (some (p, F'.program)) Z with
          | ok zs => rw [hZ] at h2; exact ⟨zs, rfl, h2.1⟩
          | error _ =>
            rw [hZ] at h2
            have := h1.2 (fun _ => 0)
            rw [h2 (fun _ => 0)] at this
            nomatch this

/-- **C187** (failure).  If the search runs through, `fit` fails exactly if nothing was drawn or the expression found is invalid on the training table; it
returns whenever some drawn expression has valid predictions with a reward that counts as positive.
Partial, of the whole claim: All statements hold for every run of the search and every optimiser; the search itself raises if a batch has only valid programs whose penalty eats the whole reward (C187_penalty_counterexample). -/
theorem C187_returns_partial (v : Searcher.Env) (lib : Lib) (ps : List Prior) (L : Nat) (fl : ℝ → Int) (item : Nat → Item ℝ) (hok : Ok v lib ps L fl item)
    (coeff inf : ℝ) (hc : 0 ≤ coeff) (X : Table p ℝ) (y : List ℝ) (opt : (k : Nat) → ((Fin k → ℝ) → ℝ) → (Fin k → ℝ)) (fpe : List (Item ℝ) → Table p ℝ → Bool)
    (dss : List (List Draw)) (hd : ∀ ds ∈ dss, ds ≠ [] ∧ ∀ d ∈ ds, Row lib ps L d)
    (hs : (search v lib (score fl (task coeff inf X y opt fpe) item) ({}, {}) dss).isSome) :
    ((∃ t, Drawn lib dss t ∧ ∃ ys, Predicts (task coeff inf X y opt fpe) item t ys ∧ 0 < fl (metric coeff y ys t.preorder.length)) →
      ∃ F, fit v lib fl (task coeff inf X y opt fpe) item dss = .ok F) ∧
    ((∃ t, Drawn lib dss t) → (∀ t, Drawn lib dss t → ∀ ys, ¬ Predicts (task coeff inf X y opt fpe) item t ys) →
      fit v lib fl (task coeff inf X y opt fpe) item dss = .error (.report .type)) ∧
    ((∀ t, ¬ Drawn lib dss t) → fit v lib fl (task coeff inf X y opt fpe) item dss = .error .nothing) := by
  obtain ⟨⟨c, s⟩, hs⟩ := Option.isSome_iff_exists.1 hs
  have hna : NoAssign (p := p) (K := ℝ) [.reward] := by intro cs hcs; simp at hcs
  unfold fit
  rw [hs]
  simp only
  rcases found hok coeff inf hc X y opt fpe dss hd c s hs with ⟨g, g'⟩ | ⟨m, o, t, g1, g2, g3, g4, g5, g6⟩
  · rw [g]
    exact ⟨fun ⟨t, ht, _⟩ => absurd ht (g' t), fun ⟨t, ht⟩ => absurd ht (g' t), fun _ => rfl⟩
  · rw [g1]
    simp only [g2, Option.getD_some]
    have hiff := C91_report_fails_iff (task coeff inf X y opt fpe) (t.preorder.map item) [.reward] hna
    refine ⟨?_, ?_, fun hn => absurd g3 (hn t)⟩
    · rintro ⟨t', ht', ys, hy, hpos⟩
      have hle := g6 t' ht' _ (by rw [score_valid fl _ item t' ys hy])
      have hv : onTrain (task coeff inf X y opt fpe) (optimise (task coeff inf X y opt fpe) (t.preorder.map item)) ≠ none := by
        intro hn
        unfold score at g5
        rw [hn] at g5
        have : m = fl 0 := (Option.some.inj g5).symm
        have := hok.low.2
        simp only [task] at hle
        omega
      cases hr : report (task coeff inf X y opt fpe) ((Prog.fresh (t.preorder.map item)).acts (task coeff inf X y opt fpe) [.reward]) with
      | ok F => exact ⟨F, rfl⟩
      | error e =>
        exfalso
        have : e = .type := by
          unfold report at hr
          simp only at hr
          split at hr
          · simp only [Except.error.injEq] at hr; exact hr.symm
          · nomatch hr
        subst this
        exact hv (hiff.1 hr)
    · intro _ hall
      have hv : onTrain (task coeff inf X y opt fpe) (optimise (task coeff inf X y opt fpe) (t.preorder.map item)) = none := by
        cases hx : onTrain (task coeff inf X y opt fpe) (optimise (task coeff inf X y opt fpe) (t.preorder.map item)) with
        | none => rfl
        | some ys => exact absurd ((onTrain_iff _ _ _).1 hx) (hall t g3 ys)
      rw [hiff.2 hv]

/-- **C187** (no exception in the search).  The search runs through if the reward of every drawn expression with valid predictions counts as positive. -/
theorem C187_runs (v : Searcher.Env) (lib : Lib) (ps : List Prior) (L : Nat) (fl : ℝ → Int) (item : Nat → Item ℝ) (hok : Ok v lib ps L fl item)
    (coeff inf : ℝ) (hc : 0 ≤ coeff) (X : Table p ℝ) (y : List ℝ) (opt : (k : Nat) → ((Fin k → ℝ) → ℝ) → (Fin k → ℝ)) (fpe : List (Item ℝ) → Table p ℝ → Bool)
    (dss : List (List Draw)) (hd : ∀ ds ∈ dss, ds ≠ [] ∧ ∀ d ∈ ds, Row lib ps L d)
    (hpos : ∀ t, Drawn lib dss t → ∀ ys, Predicts (task coeff inf X y opt fpe) item t ys → 0 < fl (metric coeff y ys t.preorder.length)) :
    (search v lib (score fl (task coeff inf X y opt fpe) item) ({}, {}) dss).isSome := by
  apply C174_total v hok.env lib ps L hok.setup _ (score_ok hok coeff inf hc X y opt fpe) dss hd
  intro t ht hv
  cases hx : onTrain (task coeff inf X y opt fpe) (optimise (task coeff inf X y opt fpe) (t.preorder.map item)) with
  | none => unfold score at hv; rw [hx] at hv; nomatch hv
  | some ys =>
    have hP : Predicts (task coeff inf X y opt fpe) item t ys := (onTrain_iff _ _ _).1 hx
    rw [score_valid fl _ item t ys hP]
    exact ⟨_, rfl, hpos t ht ys hP⟩

/-- The optimiser finds a minimum of the error of this expression. -/
def Optimal (T : Task p ℝ) (is : List (Item ℝ)) : Prop :=
  ∀ cs : Fin (constCount is) → ℝ, mseFunction T (optimise T is) ≤ mseFunction T (setConstants is (List.ofFn cs))

/-- **C187** (recovery).  If an expression is drawn that gives the targets exactly with some constants, and the optimiser minimises its error, then the fit
returns an expression with at least the reward of an exact fit with that many tokens.  Without a penalty, and if a reward below 1 is told from 1, its
predictions for the training table are the targets. -/
theorem C187_recovery (v : Searcher.Env) (lib : Lib) (ps : List Prior) (L : Nat) (fl : ℝ → Int) (item : Nat → Item ℝ) (hok : Ok v lib ps L fl item) (hp : 0 < p)
    (coeff inf : ℝ) (hc : 0 ≤ coeff) (hinf : 0 < inf) (X : Table p ℝ) (y : List ℝ) (hXy : X.length = y.length)
    (opt : (k : Nat) → ((Fin k → ℝ) → ℝ) → (Fin k → ℝ)) (fpe : List (Item ℝ) → Table p ℝ → Bool)
    (dss : List (List Draw)) (hd : ∀ ds ∈ dss, ds ≠ [] ∧ ∀ d ∈ ds, Row lib ps L d)
    (hs : (search v lib (score fl (task coeff inf X y opt fpe) item) ({}, {}) dss).isSome)
    (t : Tree) (ht : Drawn lib dss t) (cs : Fin (constCount (t.preorder.map item)) → ℝ)
    (hex : predict (some (p, Prog.fresh (setConstants (t.preorder.map item) (List.ofFn cs)))) X = .ok y)
    (hfp : fpe (setConstants (t.preorder.map item) (List.ofFn cs)) X = false)
    (hopt : Optimal (task coeff inf X y opt fpe) (t.preorder.map item)) (hpos : 0 < fl (1 - coeff * t.preorder.length)) :
    ∃ F, fit v lib fl (task coeff inf X y opt fpe) item dss = .ok F ∧ fl (1 - coeff * t.preorder.length) ≤ fl F.reward ∧
      (fl (1 - coeff * (t.preorder.length + 1 : Nat)) < fl (1 - coeff * t.preorder.length) → F.program.items.length ≤ t.preorder.length) ∧
      (coeff = 0 → (∀ x < 1, fl x < fl 1) → predict (some (p, F.program)) X = .ok y) := by
  have hself : ∀ l : List ℝ, Reward.mse l l = 0 := by
    intro l
    unfold Reward.mse Reward.mean
    have : (List.zipWith (fun a b => (a - b) ^ 2) l l).sum = 0 := by
      apply List.sum_eq_zero
      intro x hx
      rw [List.zipWith_self] at hx
      obtain ⟨a, _, rfl⟩ := List.mem_map.1 hx
      simp
    rw [this, zero_div]
  have hlen : ∀ (e : Expr ℝ), e.WF → ∀ P : Regression.Prog ℝ, P.items = e.items → ∀ ys, predict (some (p, P)) X = .ok ys → ys.length = y.length := by
    intro e he P hP ys hys
    have := C90_rowwise hp e he P hP X
    rw [hys] at this
    have := congrArg List.length this.1
    simp at this
    omega
  -- the drawn expression predicts the targets once optimised
  have hm0 : mseFunction (task coeff inf X y opt fpe) (setConstants (t.preorder.map item) (List.ofFn cs)) = 0 := by
    unfold mseFunction
    rw [(onTrain_iff (task coeff inf X y opt fpe) _ y).2 ⟨hex, hfp⟩]
    exact hself y
  have hle := hopt cs
  rw [hm0] at hle
  obtain ⟨ys, hys⟩ : ∃ ys, onTrain (task coeff inf X y opt fpe) (optimise (task coeff inf X y opt fpe) (t.preorder.map item)) = some ys := by
    cases hx : onTrain (task coeff inf X y opt fpe) (optimise (task coeff inf X y opt fpe) (t.preorder.map item)) with
    | some ys => exact ⟨ys, rfl⟩
    | none =>
      unfold mseFunction at hle
      rw [hx] at hle
      simp only [task] at hle
      linarith
  have hP : Predicts (task coeff inf X y opt fpe) item t ys := (onTrain_iff _ _ _).1 hys
  obtain ⟨e, e1, e2⟩ := item_expr hok t ht.1 (getConstants (optimise (task coeff inf X y opt fpe) (t.preorder.map item)))
  rw [← optimise_set] at e2
  have hyl : ys.length = y.length := hlen e e1 (Prog.fresh (optimise (task coeff inf X y opt fpe) (t.preorder.map item))) e2.symm ys hP.1
  have hys0 : Reward.mse y ys = 0 := by
    unfold mseFunction at hle
    rw [hys] at hle
    exact le_antisymm hle (Reward.Claims.mse_nonneg _ _)
  have hacc : 1 / (1 + Real.sqrt (Reward.mse y ys / max (Reward.var y) (1 / 10 ^ 12))) = 1 := by rw [hys0]; simp
  have hyy : ys = y := (acc_one hyl.symm).1 hacc
  subst hyy
  have hmet : metric coeff ys ys t.preorder.length = max 0 (1 - coeff * t.preorder.length) := by
    rw [metric_eq coeff hc, hacc, one_mul]
  have hmp : 0 < 1 - coeff * (t.preorder.length : ℝ) := by
    by_contra hn
    have := hok.mono (not_lt.1 hn)
    have := hok.low.2
    omega
  rw [max_eq_right hmp.le] at hmet
  obtain ⟨F, hF⟩ := (C187_returns_partial v lib ps L fl item hok coeff inf hc X ys opt fpe dss hd hs).1 ⟨t, ht, ys, hP, by rw [hmet]; exact hpos⟩
  obtain ⟨t', k1, k2, k3, ⟨zs, z1, z2, z3⟩, k5, e', e1', e2', _⟩ := C187_result v lib ps L fl item hok hp coeff inf hc X ys opt fpe dss hd F hF
  have hge := k5 t ht ys hP
  rw [hmet] at hge
  refine ⟨F, hF, hge, fun hlt => ?_, fun h0 h1 => ?_⟩
  · rw [k3, length_set, List.length_map]
    by_contra hn
    have hn' : t.preorder.length + 1 ≤ t'.preorder.length := by omega
    have hcast : coeff * ((t.preorder.length + 1 : Nat) : ℝ) ≤ coeff * (t'.preorder.length : ℝ) := mul_le_mul_of_nonneg_left (by exact_mod_cast hn') hc
    have hu : metric coeff ys zs t'.preorder.length ≤ max 0 (1 - coeff * ((t.preorder.length + 1 : Nat) : ℝ)) := by
      rw [metric_eq coeff hc]
      calc _ ≤ 1 * max 0 (1 - coeff * (t'.preorder.length : ℝ)) := mul_le_mul_of_nonneg_right (acc_le ys zs) (le_max_left _ _)
        _ ≤ _ := by rw [one_mul]; exact max_le_max le_rfl (by linarith)
    rw [z2] at hge
    have h3 := hok.mono hu
    rcases max_choice 0 (1 - coeff * ((t.preorder.length + 1 : Nat) : ℝ)) with h | h <;> rw [h] at h3
    · have := hok.low.2; omega
    · omega
  · have hr1 : F.reward = 1 := by
      by_contra hne
      have hle1 : F.reward ≤ 1 := by rw [z2]; exact (C92_range coeff hc ys zs _).2.1
      have := h1 _ (lt_of_le_of_ne hle1 hne)
      rw [h0] at hge
      simp at hge
      omega
    have hzl : zs.length = ys.length := hlen e' e1' F.program e2'.symm zs z1
    rw [z2] at hr1
    have := ((C92_one_iff coeff hc ys zs _ hzl.symm).1 hr1).1
    rw [z1, this]

/-! ## A case

Library: mul, add, x1 and a constant; the targets are 2 x for x = 1, 2; the row drawn begins with `mul(const, x1)`; rewards are rounded down to hundredths. -/

noncomputable section
open Classical

def exLib : Lib := ⟨[⟨"mul", 2, none, none, none⟩, ⟨"add", 2, none, none, none⟩, ⟨"x1", 0, some 0, none, none⟩, ⟨"const", 0, none, none, none⟩]⟩

def exItem : Nat → Item ℝ
  | 0 => .op "mul" 2 (some fun l => l.getD 0 0 * l.getD 1 0)
  | 1 => .op "add" 2 (some fun l => l.getD 0 0 + l.getD 1 0)
  | 2 => .var 0
  | _ => .const none

def exPs : List Prior := [.length (some 3) (some 5)]

def exRows : List (List Draw) := [[⟨[0, 3, 2, 2, 2], fun _ => 2⟩]]

def exFl (x : ℝ) : Int := ⌊x * 100⌋

/-- A minimum, if there is one. -/
def exOpt (k : Nat) (f : (Fin k → ℝ) → ℝ) : Fin k → ℝ := if h : ∃ c, ∀ c', f c ≤ f c' then h.choose else fun _ => 0

def exX : Table 1 ℝ := [fun _ => 1, fun _ => 2]

theorem exFl_zero : exFl 0 = 0 := by simp [exFl]

theorem exFl_one : exFl 1 = 100 := by unfold exFl; rw [Int.floor_eq_iff]; norm_num

theorem ex_ok : Ok Searcher.Claims.exEnv exLib exPs 5 exFl exItem := by
  refine ⟨Searcher.Claims.exEnv_ok, ⟨?_, by decide, by decide, ⟨3, by simp [exPs]⟩, ?_⟩, ?_, fun a b h => Int.floor_mono (by linarith), ?_, ?_⟩
  · intro t
    match t with
    | 0 => decide
    | 1 => decide
    | 2 => decide
    | 3 => decide
    | t + 4 => simp [exLib, Lib.arity]
  · intro q hq
    simp only [exPs, List.mem_cons, List.not_mem_nil, or_false] at hq
    subst hq
    exact ⟨⟨3, rfl⟩, by intro m hm; cases hm; rfl⟩
  · intro k
    match k with
    | 0 => rfl
    | 1 => rfl
    | 2 => rfl
    | 3 => rfl
    | k + 4 => simp [exItem, exLib, Lib.arity, Item.arity]
  · rw [exFl_zero]; decide
  · rw [exFl_one]; decide

theorem ex_rows : ∀ ds ∈ exRows, ds ≠ [] ∧ ∀ d ∈ ds, Row exLib exPs 5 d := by
  intro ds hds
  simp only [exRows, List.mem_cons, List.not_mem_nil, or_false] at hds
  subst hds
  refine ⟨by simp, fun d hd => ?_⟩
  simp only [List.mem_cons, List.not_mem_nil, or_false] at hd
  subst hd
  exact ⟨sampled_of_canDraw (by decide), rfl⟩

def exTree : Tree := node 0 [node 3 [], node 2 []]

theorem ex_drawn : Drawn exLib exRows exTree := by
  refine ⟨by simp [exTree, WF, Tree.WFL, exLib, Lib.arity], [⟨[0, 3, 2, 2, 2], fun _ => 2⟩], by simp [exRows], _, List.mem_singleton.2 rfl, ?_⟩
  exact ⟨[2, 2], rfl⟩

theorem ex_exact (c : ℝ) : predict (some (1, Prog.fresh (setConstants (exTree.preorder.map exItem) [c]))) exX = .ok [c, c * 2] := by
  have h := C90_rowwise (p := 1) (by decide) (.mk (.op "mul" 2 (some fun l => l.getD 0 0 * l.getD 1 0)) [.mk (.const (some c)) [], .mk (.var 0) []])
    (by simp [Expr.WF, Regression.Claims.WFL, Item.arity]) (Prog.fresh (setConstants (exTree.preorder.map exItem) [c])) rfl exX
  cases hp : predict (some (1, Prog.fresh (setConstants (exTree.preorder.map exItem) [c]))) exX with
  | error e =>
    rw [hp] at h
    have := h (fun _ => 0)
    simp [Expr.value, valueL] at this
  | ok ys =>
    rw [hp] at h
    have h1 := h.1
    simp [exX, Expr.value, valueL] at h1
    congr 1
    match ys, h1 with
    | [a, b], h1 => simp at h1; rw [h1.1, ← h1.2, h1.1]

/-- The task, with a penalty per token. -/
abbrev exT (coeff : ℝ) : Task 1 ℝ := task coeff 1 exX [2, 4] exOpt fun _ _ => false

theorem ex_ofFn (cs : Fin (constCount (exTree.preorder.map exItem)) → ℝ) : ∃ c, List.ofFn cs = [c] := by
  have h : (List.ofFn cs).length = 1 := by rw [List.length_ofFn]; rfl
  match hl : List.ofFn cs, h with
  | [c], _ => exact ⟨c, rfl⟩

theorem ex_optimal (coeff : ℝ) : Optimal (exT coeff) (exTree.preorder.map exItem) := by
  have hmf : ∀ c, mseFunction (exT coeff) (setConstants (exTree.preorder.map exItem) [c]) = Reward.mse [2, 4] [c, c * 2] := by
    intro c
    unfold mseFunction
    rw [(onTrain_iff (exT coeff) _ [c, c * 2]).2 ⟨ex_exact c, rfl⟩]
    rfl
  have hex : ∃ c : Fin (constCount (exTree.preorder.map exItem)) → ℝ, ∀ c' : Fin (constCount (exTree.preorder.map exItem)) → ℝ, mseFunction (exT coeff) (setConstants (exTree.preorder.map exItem) (List.ofFn c)) ≤
      mseFunction (exT coeff) (setConstants (exTree.preorder.map exItem) (List.ofFn c')) := by
    refine ⟨fun _ => 2, fun c' => ?_⟩
    obtain ⟨a, ha⟩ := ex_ofFn c'
    have h2 : List.ofFn (fun _ : Fin (constCount (exTree.preorder.map exItem)) => (2 : ℝ)) = [2] := rfl
    rw [ha, h2, hmf, hmf]
    have : Reward.mse [2, 4] [2, 2 * 2] = 0 := by simp [Reward.mse, Reward.mean]; norm_num
    rw [this]
    exact Reward.Claims.mse_nonneg _ _
  intro cs
  unfold optimise
  rw [if_neg (by decide)]
  show mseFunction (exT coeff) (setConstants _ (List.ofFn (exOpt _ _))) ≤ _
  unfold exOpt
  rw [dif_pos hex]
  exact hex.choose_spec cs

theorem ex_only (t : Tree) (h : Drawn exLib exRows t) : t.preorder = exTree.preorder := by
  obtain ⟨hw, ds, h1, d, h2, a, ha⟩ := h
  simp only [exRows, List.mem_cons, List.not_mem_nil, or_false] at h1
  subst h1
  simp only [List.mem_cons, List.not_mem_nil, or_false] at h2
  subst h2
  exact exact_prefix_unique exLib.arity 1 (exact_preorder exLib.arity t hw) (exact_preorder exLib.arity exTree ex_drawn.1) (ha.trans rfl : _ = exTree.preorder ++ [2, 2])

/-- The fit finds the targets. -/
theorem C187_concrete : ∃ F, fit Searcher.Claims.exEnv exLib exFl (exT 0) exItem exRows = .ok F ∧ predict (some (1, F.program)) exX = .ok [2, 4] := by
  have hmin := ex_optimal 0
  have h2 : List.ofFn (fun _ : Fin (constCount (exTree.preorder.map exItem)) => (2 : ℝ)) = [2] := rfl
  have hpred : predict (some (1, Prog.fresh (setConstants (exTree.preorder.map exItem) (List.ofFn (fun _ : Fin (constCount (exTree.preorder.map exItem)) => (2 : ℝ)))))) exX = .ok [2, 4] := by
    rw [h2, ex_exact]; norm_num
  have hs : (search Searcher.Claims.exEnv exLib (score exFl (exT 0) exItem) ({}, {}) exRows).isSome := by
    apply C187_runs _ exLib exPs 5 exFl exItem ex_ok 0 1 le_rfl exX [2, 4] exOpt (fun _ _ => false) exRows ex_rows
    intro t ht ys hP
    unfold Predicts at hP
    rw [ex_only t ht] at hP ⊢
    have h0 := hmin (fun _ => 2)
    unfold mseFunction at h0
    rw [(onTrain_iff (exT 0) _ [2, 4]).2 ⟨hpred, rfl⟩, (onTrain_iff (exT 0) _ ys).2 hP] at h0
    have hz : Reward.mse [2, 4] [2, 4] = 0 := by simp [Reward.mse, Reward.mean]
    have hy : Reward.mse [2, 4] ys = 0 := le_antisymm (by simpa [task, hz] using h0) (Reward.Claims.mse_nonneg _ _)
    have : metric 0 [2, 4] ys exTree.preorder.length = 1 := by
      rw [metric_eq 0 le_rfl, hy]; simp
    rw [this, exFl_one]
    decide
  obtain ⟨F, f1, _, _, f4⟩ := C187_recovery _ exLib exPs 5 exFl exItem ex_ok (by decide) 0 1 le_rfl (by norm_num) exX [2, 4] rfl exOpt (fun _ _ => false) exRows ex_rows hs
    exTree ex_drawn (fun _ => 2) hpred rfl hmin (by rw [zero_mul, sub_zero, exFl_one]; decide)
  refine ⟨F, f1, f4 rfl fun x hx => ?_⟩
  rw [exFl_one]
  unfold exFl
  rw [Int.floor_lt]
  push_cast
  linarith

/-- **C187** fails with a penalty: an expression whose penalty eats the whole reward (`coeff` times its length at least 1) is valid with reward 0, and if a
batch has no better one the search raises, although `mul(const, x1)` reproduces the targets. -/
theorem C187_penalty_counterexample : fit Searcher.Claims.exEnv exLib exFl (exT 1) exItem exRows = .error .search := by
  have h2 : List.ofFn (fun _ : Fin (constCount (exTree.preorder.map exItem)) => (2 : ℝ)) = [2] := rfl
  have hm0 : mseFunction (exT 1) (setConstants (exTree.preorder.map exItem) (List.ofFn (fun _ : Fin (constCount (exTree.preorder.map exItem)) => (2 : ℝ)))) = 0 := by
    unfold mseFunction
    rw [h2, (onTrain_iff (exT 1) _ [2, 2 * 2]).2 ⟨ex_exact 2, rfl⟩]
    show Reward.mse [2, 4] [2, 2 * 2] = 0
    simp [Reward.mse, Reward.mean]; norm_num
  have hle := ex_optimal 1 (fun _ => 2)
  rw [hm0] at hle
  have hsc : score exFl (exT 1) exItem [0, 3, 2] = ⟨some 0, false⟩ := by
    show score exFl (exT 1) exItem exTree.preorder = _
    cases hx : onTrain (exT 1) (optimise (exT 1) (exTree.preorder.map exItem)) with
    | none =>
      unfold mseFunction at hle
      rw [hx] at hle
      simp only [task] at hle
      norm_num at hle
    | some ys =>
      rw [score_valid exFl (exT 1) exItem exTree ys ((onTrain_iff _ _ _).1 hx)]
      have : metric 1 [2, 4] ys exTree.preorder.length = 0 := by
        rw [metric_eq 1 (by norm_num), show exTree.preorder.length = 3 from rfl]
        norm_num
      show Score.mk (some (exFl (metric 1 [2, 4] ys exTree.preorder.length))) false = _
      rw [this, exFl_zero]
  have hs : search Searcher.Claims.exEnv exLib (score exFl (exT 1) exItem) ({}, {}) exRows = none := by
    have hfr : ∃ c', fromRows exLib {} [⟨[0, 3, 2, 2, 2], fun _ => 2⟩] = some (c', [0]) ∧ c'.objs[0]?.map (·.tokens) = some [0, 3, 2] := ⟨_, rfl, rfl⟩
    obtain ⟨c', f1, f2⟩ := hfr
    have hsam : sampleOf (score exFl (exT 1) exItem) c' 0 = ⟨some 0, false, 0⟩ := by
      unfold sampleOf
      rw [f2]
      simp [hsc]
    have hst : Searcher.step Searcher.Claims.exEnv {} ⟨[⟨some 0, false, 0⟩], []⟩ = none := by decide
    simp [search, exRows, oneStep, f1, hsam, hst]
  unfold fit
  rw [hs]

end

end Verif.Discover.RegressionRun.Claims
