import Verif.Discover.Recover
import Verif.Claims.Search
import Verif.Claims.Fit
import Verif.Claims.Terms
import Verif.Claims.Exec
import Verif.Claims.Reward
/-!
# C175: an equation the data satisfy exactly is found, once it is drawn
-/
namespace Verif.Discover.Recover.Claims
open Verif.Discover Verif.Discover.Search Verif.Discover.Search.Claims Verif.Discover.Recover Verif.Discover.Fit.Claims Verif.Discover.Reward
  Verif.Discover.Reward.Claims Tree

/-- The data satisfy exactly an equation with the terms of the program `tokens`: the terms are accepted and have values, the left-hand side is their
combination with the coefficients `w`, these are the only such coefficients, and they have an acceptable size. -/
structure Satisfies (T : Task) (lib : Lib) (tokens : List Nat) (w : List ℝ) : Prop where
  terms : ∃ ts cols, termsOf lib tokens = some ts ∧ ts ≠ [] ∧ (Fit.regulations T.cfg (tokens.map lib.name) ts).2 = [] ∧
    ts.map T.run = cols.map Fit.TermVal.col ∧ (∀ x ∈ cols, x.length = T.lhs.length) ∧ (T.lstsq cols T.lhs).isSome ∧ w.length = cols.length ∧
    (∀ i, i < T.lhs.length → T.lhs[i]? = some (combo cols w i)) ∧
    (∀ w' : List ℝ, w'.length = cols.length → (∀ i, i < T.lhs.length → combo cols w' i = combo cols w i) → w' = w)
  sizes : ∀ a ∈ w, T.small a = false ∧ T.large a = false

theorem sum_sq_zero {l : List ℝ} (h : ∀ x ∈ l, 0 ≤ x) (hs : l.sum ≤ 0) : ∀ x ∈ l, x = 0 := by
  intro x hx
  exact sum_eq_zero' h (le_antisymm hs (List.sum_nonneg h)) x hx

/-- **C175** (fit): if the data satisfy an equation with the program's terms exactly, the fit returns the coefficients of that equation and reproduces
the data. -/
theorem C175_exact_fit (T : Task) (hls : LeastSquares T.lstsq) (hc : T.cfg.addConst = false) (lib : Lib) (tokens : List Nat) (w : List ℝ)
    (h : Satisfies T lib tokens w) : ∃ f, fitOf T lib tokens = some f ∧ f.w = w ∧ f.yHat = T.lhs := by
  obtain ⟨ts, cols, h1, h2, h3, h4, h5, h6, h7, h8, h9⟩ := h.terms
  obtain ⟨w', hw'⟩ := Option.isSome_iff_exists.1 h6
  obtain ⟨l1, l2, l3⟩ := hls cols T.lhs w' hw'
  have hz : sse cols w T.lhs = 0 := by
    unfold sse
    apply List.sum_eq_zero
    intro x hx
    obtain ⟨i, hi, rfl⟩ := List.mem_map.1 hx
    rw [h8 i (List.mem_range.1 hi)]
    simp
  have hle := l3 w h7
  rw [hz] at hle
  have hfit : ∀ i, i < T.lhs.length → combo cols w' i = combo cols w i := by
    intro i hi
    have := sum_sq_zero (l := (List.range T.lhs.length).map fun i => ((T.lhs[i]?).getD 0 - combo cols w' i) ^ 2)
      (by intro x hx; obtain ⟨j, _, rfl⟩ := List.mem_map.1 hx; exact sq_nonneg _) hle _
      (List.mem_map_of_mem (List.mem_range.2 hi))
    have h0 := pow_eq_zero_iff (two_ne_zero) |>.1 this
    rw [h8 i hi] at h0
    simp only [Option.getD_some] at h0
    linarith
  have hww : w' = w := h9 w' l1 hfit
  subst hww
  have hval := (C70_valid_iff T.small T.large T.lstsq T.cfg hc T.run (tokens.map lib.name) ts T.lhs).2
    ⟨h3, h2, cols, w', h4, fun x hx y hy => by rw [h5 x hx, h5 y hy], hw', h.sizes⟩
  obtain ⟨f, hf⟩ := hval
  obtain ⟨cols', n, a1, a2, a3, a4, a5, a6⟩ := C70_columns T.small T.large T.lstsq T.cfg T.run _ ts T.lhs f hf
  have hcl : cols.length = ts.length := by simpa using (congrArg List.length h4).symm
  have hcols : cols' = cols := by
    apply List.ext_getElem (by omega)
    intro j hj hj'
    have hjt : j < ts.length := by omega
    have e1 := (a3 j hjt hj).1
    have e2 : (ts.map T.run)[j]'(by simpa using hjt) = (cols.map Fit.TermVal.col)[j]'(by simpa using hj') := by
      congr 1
    rw [List.getElem_map, List.getElem_map, e1] at e2
    injection e2
  have hrhs : f.rhs = cols := by
    rcases a4 with a4 | ⟨a4, _⟩
    · rw [a4, hcols]
    · rw [hc] at a4; nomatch a4
  have hfw : f.w = w' := by
    rw [hrhs, hw'] at a5
    exact (Option.some.inj a5).symm
  refine ⟨f, by unfold fitOf; rw [h1]; simp only; rw [hf], hfw, ?_⟩
  obtain ⟨_, b2, _⟩ := C70_best T.small T.large T.lstsq hls T.cfg T.run _ ts T.lhs f hf
  rw [b2, hrhs, hfw]
  apply List.ext_getElem?
  intro i
  by_cases hi : i < T.lhs.length
  · rw [h8 i hi, List.getElem?_map, List.getElem?_range hi]; rfl
  · rw [List.getElem?_eq_none (by simpa using hi), List.getElem?_eq_none (by omega)]

theorem reward_exact (lam : ℝ) (y : List ℝ) (n : Nat) : pdeReward lam y y n = 1 - lam * n := by
  have : mse y y = 0 := by
    unfold mse mean
    have : (List.zipWith (fun a b : ℝ => (a - b) ^ 2) y y).sum = 0 := by
      apply List.sum_eq_zero
      intro x hx
      rw [List.zipWith_self] at hx
      obtain ⟨a, _, rfl⟩ := List.mem_map.1 hx
      simp
    rw [this, zero_div]
  unfold pdeReward
  rw [this]
  simp

/-- **C175** (reward): its reward is 1 - lambda times the number of its terms, and no valid program with at least as many coefficients (penalty below 1)
has a larger one. -/
theorem C175_exact_reward (fl : ℝ → Int) (hfl : Monotone fl) (T : Task) (hls : LeastSquares T.lstsq) (hc : T.cfg.addConst = false) (hlam : 0 ≤ T.lam)
    (hy : NonConstant T.lhs) (lib : Lib) (tokens : List Nat) (w : List ℝ) (h : Satisfies T lib tokens w) :
    (programScore fl T lib tokens).reward = some (fl (1 - T.lam * w.length)) ∧ (programScore fl T lib tokens).invalid = false ∧
    ∀ tokens' f', fitOf T lib tokens' = some f' → w.length ≤ f'.w.length → T.lam * f'.w.length ≤ 1 →
      fl (pdeReward T.lam T.lhs f'.yHat f'.w.length) ≤ fl (1 - T.lam * w.length) := by
  obtain ⟨f, h1, h2, h3⟩ := C175_exact_fit T hls hc lib tokens w h
  refine ⟨?_, ?_, ?_⟩
  · unfold programScore; rw [h1]; simp only; rw [h3, h2, reward_exact]
  · unfold programScore; rw [h1]
  · intro tokens' f' hf' hle hp
    apply hfl
    have hlen : T.lhs.length = f'.yHat.length := by
      unfold fitOf at hf'
      split at hf'
      · nomatch hf'
      · rename_i ts _
        split at hf'
        · rename_i g hg
          cases hf'
          obtain ⟨_, b2, _⟩ := C70_best T.small T.large T.lstsq hls T.cfg T.run _ ts T.lhs f' hg
          rw [b2]; simp
        · nomatch hf'
    have hr := (C72_range T.lam T.lhs f'.yHat f'.w.length hlen hy hp).2.1
    have : T.lam * (w.length : ℝ) ≤ T.lam * (f'.w.length : ℝ) := mul_le_mul_of_nonneg_left (by exact_mod_cast hle) hlam
    linarith

theorem summands_ne {isSum isSub : Nat → Bool} {t : Tree} {ss : List (Int × Tree)} (h : Summands isSum isSub t ss) : ss ≠ [] := by
  induction h with
  | leaf => simp
  | add t a b x y _ _ _ _ ih _ => simp [ih]
  | sub t a b x y _ _ _ _ ih _ => simp [ih]

/-- **C175** (terms): the terms of a program are the top-level summands of its expression, in order. -/
theorem C175_terms (lib : Lib) (har : ∀ i, isSumName (lib.name i) = true → lib.arity i = 2) (t : Tree) (hw : Tree.WF lib.arity t) :
    ∃ ss, Summands (fun i => isSumName (lib.name i)) (fun i => isSubName (lib.name i)) t ss ∧ ss ≠ [] ∧
      (∀ p ∈ ss, isSumName (lib.name p.2.root) = false) ∧
      termsOf lib t.preorder = some (ss.map fun p => p.2.preorder.map lib.name) := by
  obtain ⟨ts, ss, h1, h2, h3, h4, h5⟩ := Verif.Discover.Claims.C18_terms_partial (fun i => isSumName (lib.name i)) (fun i => isSubName (lib.name i)) lib.arity har t hw 1
  have hr := Verif.Discover.Claims.C02_rebuild_preorder lib.arity t hw [] t.preorder.length (by simp)
  rw [List.append_nil] at hr
  refine ⟨ss, h2, summands_ne h2, fun p hp => (h4 p hp).2, ?_⟩
  · unfold termsOf
    rw [hr]
    simp only [Option.bind_eq_bind, Option.bind_some, h1, Option.pure_def]
    have := congrArg (List.map fun t : Tree => t.preorder.map lib.name) h3
    simpa [Function.comp_def] using this

/-- **C175** (programs without a fit): a program that cannot be evaluated or fitted counts as invalid and has reward 0. -/
theorem C175_invalid (fl : ℝ → Int) (T : Task) (lib : Lib) (tokens : List Nat) (h : fitOf T lib tokens = none) :
    (programScore fl T lib tokens).reward = some 0 ∧ (programScore fl T lib tokens).invalid = true := by
  unfold programScore; rw [h]; exact ⟨rfl, rfl⟩

/-- **C175.** If in some iteration an expression is drawn whose terms satisfy the data exactly with `n` acceptable coefficients, the search reports a
valid program whose reward is at least that of this equation; if one more term costs more than rounding, the reported program has at most `n`
coefficients. -/
theorem C175_recovery (v : Searcher.Env) (hv : v.Ok) (lib : Lib) (ps : List Prior) (L : Nat) (hS : Setup lib ps L)
    (fl : ℝ → Int) (hfl : Monotone fl) (T : Task) (hls : LeastSquares T.lstsq) (hc : T.cfg.addConst = false) (hlam : 0 ≤ T.lam) (hy : NonConstant T.lhs)
    (hb : ∀ tokens f, tokens.length ≤ L → fitOf T lib tokens = some f → T.lam * f.w.length ≤ 1 ∧
      -v.bound ≤ fl (pdeReward T.lam T.lhs f.yHat f.w.length) ∧ fl (pdeReward T.lam T.lhs f.yHat f.w.length) ≤ v.bound) (hb0 : 0 ≤ v.bound)
    (dss : List (List Draw)) (hd : ∀ ds ∈ dss, ds ≠ [] ∧ ∀ d ∈ ds, Row lib ps L d) (c : Cache) (s : Searcher.St)
    (h : search v lib (programScore fl T lib) ({}, {}) dss = some (c, s))
    (t : Tree) (ht : Drawn lib dss t) (w : List ℝ) (hw : Satisfies T lib t.preorder w) (hpos : 0 < fl (1 - T.lam * w.length)) :
    ∃ (m : Int) (o : Nat) (t' : Tree) (f' : Fit.Fitted ℝ), s.bestP = some (m, o) ∧ c.objs[o]?.map (·.tokens) = some t'.preorder ∧ Drawn lib dss t' ∧
      fitOf T lib t'.preorder = some f' ∧ m = fl (pdeReward T.lam T.lhs f'.yHat f'.w.length) ∧ fl (1 - T.lam * w.length) ≤ m ∧
      (fl (1 - T.lam * (w.length + 1 : Nat)) < fl (1 - T.lam * w.length) → f'.w.length ≤ w.length) := by
  have hsc : ScoreOk L v.bound (programScore fl T lib) := by
    constructor
    · intro l hl
      unfold programScore at hl ⊢
      cases hf : fitOf T lib l with
      | none => exact ⟨0, rfl, le_refl _⟩
      | some f => rw [hf] at hl; nomatch hl
    · intro l hL x hx
      unfold programScore at hx
      cases hf : fitOf T lib l with
      | none => rw [hf] at hx; cases hx; constructor <;> omega
      | some f => rw [hf] at hx; cases hx; exact (hb l f hL hf).2
  obtain ⟨r1, r2, _⟩ := C175_exact_reward fl hfl T hls hc hlam hy lib t.preorder w hw
  cases hm : s.rBest with
  | none =>
    obtain ⟨ts, bs, e1, _, e3, _⟩ := run_of_search hS hsc hd h
    have hbp : s.bestP = none := ((Searcher.Claims.C17_best_is_max v hv bs (fun b hb => (e3 b hb).1) s e1).2.1).2 hm
    have := (C174_nothing v hv lib ps L hS _ hsc dss hd c s h).1 hbp t ht
    rw [r1] at this
    nomatch this
  | some m =>
    obtain ⟨o, t', g1, g2, g3, _, g5, g6⟩ := C174_reported v hv lib ps L hS _ hsc dss hd c s h m hm
    have hmle := g6 t ht _ r1
    have hshort : t'.preorder.length ≤ L := by
      obtain ⟨_, ds, h1, d, h2, h3⟩ := g3
      rw [← ((hd ds h1).2 d h2).full]
      exact h3.length_le
    cases hf : fitOf T lib t'.preorder with
    | none =>
      unfold programScore at g5
      rw [hf] at g5
      cases g5
      omega
    | some f' =>
      have hmv : m = fl (pdeReward T.lam T.lhs f'.yHat f'.w.length) := by
        unfold programScore at g5
        rw [hf] at g5
        cases g5
        rfl
      refine ⟨m, o, t', f', g1, g2, g3, hf, hmv, hmle, fun hlt => ?_⟩
      by_contra hn
      have hge : w.length + 1 ≤ f'.w.length := by omega
      have hp := (hb _ f' hshort hf).1
      have hlen : T.lhs.length = f'.yHat.length := by
        unfold fitOf at hf
        split at hf
        · nomatch hf
        · rename_i ts _
          split at hf
          · rename_i g hg
            cases hf
            obtain ⟨_, b2, _⟩ := C70_best T.small T.large T.lstsq hls T.cfg T.run _ ts T.lhs f' hg
            rw [b2]; simp
          · nomatch hf
      have hr := (C72_range T.lam T.lhs f'.yHat f'.w.length hlen hy hp).2.1
      have h1 : T.lam * ((w.length + 1 : Nat) : ℝ) ≤ T.lam * (f'.w.length : ℝ) := mul_le_mul_of_nonneg_left (by exact_mod_cast hge) hlam
      have h2 : fl (pdeReward T.lam T.lhs f'.yHat f'.w.length) ≤ fl (1 - T.lam * ((w.length + 1 : Nat) : ℝ)) := hfl (by linarith)
      omega

/-! ## A case

Library of C06; the data satisfy lhs = 2 du/dx exactly, with du/dx = (1, 2); lambda = 0.01; rewards are rounded down to hundredths. -/

noncomputable section
open Classical

def exT : Task where
  cfg := {}
  run := fun t => if t = ["diff", "u1", "x1"] then .col [1, 2] else .invalid "other"
  lstsq := fun cols y => if cols = [[1, 2]] ∧ y = [2, 4] then some [2] else none
  small := fun _ => false
  large := fun _ => false
  lhs := [2, 4]
  lam := 1 / 100

def exFl (x : ℝ) : Int := ⌊x * 100⌋

theorem exT_lstsq : LeastSquares exT.lstsq := by
  intro cols y w h
  simp only [exT] at h
  split at h
  · rename_i hc
    obtain ⟨rfl, rfl⟩ := hc
    cases h
    refine ⟨rfl, by simp, fun w' _ => ?_⟩
    have h0 : sse [[(1 : ℝ), 2]] [2] [2, 4] = 0 := by
      simp [sse, combo, List.range_succ]
      norm_num
    rw [h0]
    exact List.sum_nonneg (by intro x hx; obtain ⟨i, _, rfl⟩ := List.mem_map.1 hx; exact sq_nonneg _)
  · nomatch h

theorem ex_terms : termsOf Verif.Discover.Claims.exLib [1, 4, 3] = some [["diff", "u1", "x1"]] := by
  simp [termsOf, rebuild, rebuildN, splitSum, Verif.Discover.Claims.exLib, Lib.arity, Lib.name, isSumName, preorder, preorderL]

theorem exT_satisfies : Satisfies exT Verif.Discover.Claims.exLib [1, 4, 3] [2] := by
  refine ⟨⟨[["diff", "u1", "x1"]], [[1, 2]], ex_terms, by simp, by with_unfolding_all rfl, by simp [exT], by simp [exT], by simp [exT], rfl, ?_, ?_⟩,
    by simp [exT]⟩
  · intro i hi
    have : i = 0 ∨ i = 1 := by simp [exT] at hi; omega
    rcases this with rfl | rfl
    · simp [exT, combo]
    · simp [exT, combo]; norm_num
  · intro w' hl h
    match w', hl with
    | [a], _ =>
      have := h 0 (by simp [exT])
      simp [combo] at this
      rw [this]

/-- In this task every valid program has one coefficient, 2, and reproduces the data. -/
theorem exT_fit (lib : Lib) (tokens : List Nat) (f : Fit.Fitted ℝ) (h : fitOf exT lib tokens = some f) : f.w = [2] ∧ f.yHat = [2, 4] := by
  unfold fitOf at h
  split at h
  · nomatch h
  · rename_i ts _
    split at h
    · rename_i g hg
      cases h
      obtain ⟨b1, b2, b3⟩ := C70_best exT.small exT.large exT.lstsq exT_lstsq exT.cfg exT.run _ ts exT.lhs f hg
      obtain ⟨_, _, _, _, _, _, hw, _⟩ := C70_columns exT.small exT.large exT.lstsq exT.cfg exT.run _ ts exT.lhs f hg
      have hw' := hw
      simp only [exT] at hw'
      split at hw'
      · rename_i hc
        simp only [Option.some.injEq] at hw'
        refine ⟨hw'.symm, ?_⟩
        rw [b2, hc.1, ← hw']
        simp [exT, combo, List.range_succ]
        norm_num
      · nomatch hw'
    · nomatch h

example : NonConstant exT.lhs ∧ Monotone exFl ∧ 0 < exFl (1 - exT.lam * ([2] : List ℝ).length) ∧
    exFl (1 - exT.lam * (([2] : List ℝ).length + 1 : Nat)) < exFl (1 - exT.lam * ([2] : List ℝ).length) := by
  refine ⟨⟨2, by simp [exT], 4, by simp [exT], by norm_num⟩, fun a b h => Int.floor_mono (by linarith), ?_, ?_⟩
  · have : exFl (1 - exT.lam * ([2] : List ℝ).length) = 99 := by
      unfold exFl exT; rw [Int.floor_eq_iff]; norm_num
    omega
  · have h1 : exFl (1 - exT.lam * ([2] : List ℝ).length) = 99 := by
      unfold exFl exT; rw [Int.floor_eq_iff]; norm_num
    have h2 : exFl (1 - exT.lam * (([2] : List ℝ).length + 1 : Nat)) = 98 := by
      unfold exFl exT; rw [Int.floor_eq_iff]; norm_num
    omega

/-- The bounds on rewards hold in this task, for all programs. -/
example (lib : Lib) (tokens : List Nat) (f : Fit.Fitted ℝ) (h : fitOf exT lib tokens = some f) : exT.lam * f.w.length ≤ 1 ∧
    -100 ≤ exFl (pdeReward exT.lam exT.lhs f.yHat f.w.length) ∧ exFl (pdeReward exT.lam exT.lhs f.yHat f.w.length) ≤ 100 := by
  obtain ⟨h1, h2⟩ := exT_fit lib tokens f h
  have h3 : f.yHat = exT.lhs := by rw [h2]; rfl
  have h4 : exFl (1 - exT.lam * ([2] : List ℝ).length) = 99 := by
    unfold exFl exT; rw [Int.floor_eq_iff]; norm_num
  rw [h3, h1, reward_exact, h4]
  refine ⟨by simp [exT]; norm_num, by omega, by omega⟩

end

end Verif.Discover.Recover.Claims
