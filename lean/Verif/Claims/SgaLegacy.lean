import Mathlib.Tactic.FieldSimp
import Mathlib.Order.MinMax
import Verif.Viz.SgaLegacy
import Verif.Claims.SgaProblems
/-!
# C205: `KD_SGA.plot_results` shows the data and the residual of the known equation

## Specification
-/
namespace Verif.Viz.SgaLegacy.Claims
open Verif.Sga.Problems Verif.Sga.Problems.Claims Verif.Viz.SgaLegacy

/-- Relative position of node number `i` of `n` equidistant nodes: 0 at the left (first) end, 1 at the right (last) one. -/
def place (n i : Nat) : ℚ := (i : ℚ) / ((n : ℚ) - 1)

/-- A curve with one point per node: node `i` is drawn at `a` times its relative position with the height `f i`. -/
def Shows (cv : Curve) (a : ℚ) (n : Nat) (f : Nat → ℚ) : Prop := cv.length = n ∧ ∀ i < n, cv[i]? = some (a * place n i, f i)

/-- The files. -/
def files : List String :=
  ["metadata_field.png", "original_field.png", "ut_slice.png", "ux_slice.png", "uxx_slice.png", "u_slice.png", "rhs_slice.png", "residual_slice.png",
   "metadata_residual_heatmap.png", "original_residual_heatmap.png"]

/-- How far the given data are from the known equation at a point. -/
def residual : Builtin → Pt → ℚ
  | .chafee, p => p.ut - (p.uxx - p.u + p.u ^ 3)
  | .burgers, p => p.ut - (-(p.u * p.ux) + p.uxx / 10)
  | .kdv, p => p.ut - (-(p.u * p.ux) - p.uxxx / 400)

/-! ## Lemmas -/

theorem supported_iff (s : Name) : normalize s ∈ supported ↔ (builtin s).isSome := by
  unfold supported builtin
  generalize normalize s = x
  generalize "chafee-infante".toList = a
  generalize "burgers".toList = b
  generalize "kdv".toList = c
  simp only [List.mem_cons, List.not_mem_nil, or_false]
  by_cases h1 : x = a
  · simp [h1]
  · by_cases h2 : x = b
    · rw [if_neg h1, if_pos h2]; simp [h2]
    · by_cases h3 : x = c
      · rw [if_neg h1, if_neg h2, if_pos h3]; simp [h3]
      · simp [h1, h2, h3]

theorem curve_shows (a : ℚ) (n : Nat) (f : Nat → ℚ) : Shows (curve a n f) a n f := by
  refine ⟨by simp [curve], fun i hi => ?_⟩
  simp only [curve, place, List.getElem?_map, List.getElem?_range hi, Option.map_some, mul_div_assoc]

theorem right_residual (b : Builtin) (p : Pt) (h : b ≠ .chafee) : p.ut - right b p = residual b p := by
  cases b
  · exact absurd rfl h
  · simp only [right, residual]; ring
  · simp only [right, residual]; ring

theorem rightOrigin_residual (b : Builtin) (p : Pt) : p.ut - rightOrigin b p = residual b p := by
  cases b <;> simp only [rightOrigin, residual] <;> ring

theorem residual_zero (b : Builtin) (p : Pt) : residual b p = 0 ↔ Solves b p := by
  cases b <;> simp only [residual, Solves] <;> exact sub_eq_zero

theorem foldl_min_le (l : List ℚ) : ∀ a x, x = a ∨ x ∈ l → l.foldl min a ≤ x := by
  induction l with
  | nil => rintro a x (rfl | h); exacts [le_refl _, nomatch h]
  | cons b l ih =>
    rintro a x h
    rw [List.foldl_cons]
    rcases h with rfl | h
    · exact le_trans (ih _ _ (.inl rfl)) (min_le_left _ _)
    · rcases List.mem_cons.1 h with rfl | h
      · exact le_trans (ih _ _ (.inl rfl)) (min_le_right _ _)
      · exact ih _ _ (.inr h)

theorem foldl_min_mem (l : List ℚ) : ∀ a, l.foldl min a = a ∨ l.foldl min a ∈ l := by
  induction l with
  | nil => intro a; exact .inl rfl
  | cons b l ih =>
    intro a
    rw [List.foldl_cons]
    rcases ih (min a b) with h | h
    · rw [h]
      rcases min_choice a b with e | e <;> rw [e]
      · exact .inl rfl
      · exact .inr (List.mem_cons_self)
    · exact .inr (List.mem_cons_of_mem _ h)

theorem le_foldl_max (l : List ℚ) : ∀ a x, x = a ∨ x ∈ l → x ≤ l.foldl max a := by
  induction l with
  | nil => rintro a x (rfl | h); exacts [le_refl _, nomatch h]
  | cons b l ih =>
    rintro a x h
    rw [List.foldl_cons]
    rcases h with rfl | h
    · exact le_trans (le_max_left _ _) (ih _ _ (.inl rfl))
    · rcases List.mem_cons.1 h with rfl | h
      · exact le_trans (le_max_right _ _) (ih _ _ (.inl rfl))
      · exact ih _ _ (.inr h)

theorem foldl_max_mem (l : List ℚ) : ∀ a, l.foldl max a = a ∨ l.foldl max a ∈ l := by
  induction l with
  | nil => intro a; exact .inl rfl
  | cons b l ih =>
    intro a
    rw [List.foldl_cons]
    rcases ih (max a b) with h | h
    · rw [h]
      rcases max_choice a b with e | e <;> rw [e]
      · exact .inl rfl
      · exact .inr (List.mem_cons_self)
    · exact .inr (List.mem_cons_of_mem _ h)

theorem limits_ok (l : List ℚ) (h : l ≠ []) : (∀ x ∈ l, low l ≤ x ∧ x ≤ high l) ∧ low l ∈ l ∧ high l ∈ l := by
  cases l with
  | nil => exact absurd rfl h
  | cons a l =>
    refine ⟨fun x hx => ?_, ?_, ?_⟩
    · have hx := List.mem_cons.1 hx
      exact ⟨foldl_min_le l a x hx, le_foldl_max l a x hx⟩
    · rcases foldl_min_mem l a with e | e
      · show l.foldl min a ∈ _; rw [e]; exact List.mem_cons_self
      · exact List.mem_cons_of_mem _ e
    · rcases foldl_max_mem l a with e | e
      · show l.foldl max a ∈ _; rw [e]; exact List.mem_cons_self
      · exact List.mem_cons_of_mem _ e

theorem mem_values (g : Grid) (q : Pt → ℚ) (x : ℚ) : x ∈ values g q ↔ ∃ i < g.n, ∃ j < g.m, q (g.at_ i j) = x := by
  simp [values]

theorem middle_even (a : Nat) : place (2 * a) (2 * a / 2) = (a : ℚ) / (2 * a - 1) := by
  unfold place
  rw [Nat.mul_div_cancel_left a (by omega)]
  push_cast
  rfl

theorem middle_odd (a : Nat) (ha : 1 ≤ a) : place (2 * a + 1) ((2 * a + 1) / 2) = 1 / 2 := by
  unfold place
  rw [show (2 * a + 1) / 2 = a by omega]
  have : (a : ℚ) ≠ 0 := by exact_mod_cast (by omega : a ≠ 0)
  push_cast
  field_simp
  ring

/-! ## C205 -/

/-- **C205** (which): before a fit plot_results raises; after a fit to x–t data under a name of one of the three benchmarks it draws the ten figures, one file each, below the current directory;
after any other fit it draws nothing. -/
theorem C205_which {A : Type} (datafiles : Builtin → A × A × A) (c : Config A) (b : Option Builtin) (d : Data A) (hp : problem datafiles c = some (b, d)) (ctx : Ctx) :
    plotResults none = .runtimeError ∧
    ((∃ dir figs, plotResults (some (c.name, b, ctx)) = .drawn dir figs) ↔ (∃ u x t, d = .xt u x t) ∧ c.name ≠ [] ∧ ∃ k, ∃ n ∈ names k, slug c.name = n.toList) ∧
    ((¬ ∃ dir figs, plotResults (some (c.name, b, ctx)) = .drawn dir figs) → plotResults (some (c.name, b, ctx)) = .skipped) ∧
    ∀ dir figs, plotResults (some (c.name, b, ctx)) = .drawn dir figs →
      dir = ["artifacts".toList, "legacy_sga".toList, c.name] ∧ figs.map Prod.fst = files ∧ files.Nodup ∧ ∃ k, b = some k ∧ builtin c.name = some k ∧ figs = figures ctx k := by
  obtain ⟨h1, h2, -⟩ := C143_data datafiles c
  have hb : (∃ u x t, d = .xt u x t) → b = builtin c.name := by
    rintro ⟨u, x, t, rfl⟩
    exact (h2 b u x t hp).2.2.1
  have hg : (¬ ∃ u x t, d = .xt u x t) → b = none := by
    intro h
    cases d with
    | grid f k => exact (h1 b f k hp).2.2
    | xt u x t => exact absurd ⟨u, x, t, rfl⟩ h
  have hn : (builtin c.name).isSome ↔ c.name ≠ [] ∧ ∃ k, ∃ n ∈ names k, slug c.name = n.toList := by
    constructor
    · intro h
      obtain ⟨k, hk⟩ := Option.isSome_iff_exists.1 h
      exact ⟨((C143_names c.name k).1 hk).1, k, ((C143_names c.name k).1 hk).2⟩
    · rintro ⟨h0, k, h⟩
      rw [(C143_names c.name k).2 ⟨h0, h⟩]; rfl
  have hd : ∀ dir figs, plotResults (some (c.name, b, ctx)) = .drawn dir figs ↔
      ∃ k, b = some k ∧ builtin c.name = some k ∧ dir = ["artifacts".toList, "legacy_sga".toList, c.name] ∧ figs = figures ctx k := by
    intro dir figs
    simp only [plotResults, supported_iff]
    by_cases hx : ∃ u x t, d = .xt u x t
    · have e := hb hx
      rw [e]
      cases hk : builtin c.name with
      | none => simp
      | some k =>
        simp only [Option.isSome_some, not_true_eq_false, if_false, Result.drawn.injEq]
        constructor
        · rintro ⟨rfl, rfl⟩; exact ⟨k, rfl, rfl, rfl, rfl⟩
        · rintro ⟨k', h, -, rfl, rfl⟩; cases h; exact ⟨rfl, rfl⟩
    · rw [hg hx]
      split <;> simp
  refine ⟨rfl, ?_, ?_, ?_⟩
  · rw [← hn]
    constructor
    · rintro ⟨dir, figs, h⟩
      obtain ⟨k, hk, hk', -⟩ := (hd dir figs).1 h
      refine ⟨?_, by rw [hk']; rfl⟩
      by_contra hx
      rw [hg hx] at hk
      cases hk
    · rintro ⟨hx, hs⟩
      obtain ⟨k, hk⟩ := Option.isSome_iff_exists.1 hs
      exact ⟨_, _, (hd _ _).2 ⟨k, by rw [hb hx, hk], hk, rfl, rfl⟩⟩
  · intro h
    unfold plotResults at h ⊢
    simp only at h ⊢
    split
    · rfl
    · rename_i hs
      rw [if_neg hs] at h
      cases b with
      | none => rfl
      | some k => exact absurd ⟨_, _, rfl⟩ h
  · intro dir figs h
    obtain ⟨k, hk, hk', rfl, rfl⟩ := (hd dir figs).1 h
    exact ⟨rfl, rfl, by decide +kernel, k, hk, hk', rfl⟩

/-- **C205** (curves): each slice figure has one point per place with the value at the middle time; the refined data are drawn exactly if there are any. -/
theorem C205_curves (c : Ctx) (b : Builtin) :
    (∀ f a q, (f, a, q) ∈ [("ut_slice.png", (256 : ℚ), Pt.ut), ("ux_slice.png", 256, Pt.ux), ("uxx_slice.png", 100, Pt.uxx), ("u_slice.png", 100, Pt.u)] →
      ∃ md raw, (f, Fig.slice md raw) ∈ figures c b ∧ Shows raw a c.origin.n (fun i => q (c.origin.at_ i (c.origin.m / 2))) ∧ md.isSome = c.useMetadata ∧
        ∀ cv, md = some cv → Shows cv 100 c.used.n (fun i => q (c.used.at_ i (c.used.m / 2)))) ∧
    ∃ md raw, ("residual_slice.png", Fig.slice md raw) ∈ figures c b ∧ Shows raw 100 c.origin.n (fun i => residual b (c.origin.at_ i (c.origin.m / 2))) ∧
      md.isSome = c.useMetadata ∧ (b ≠ .chafee → ∀ cv, md = some cv → Shows cv 100 c.used.n (fun i => residual b (c.used.at_ i (c.used.m / 2)))) := by
  have key : ∀ a q r, ∃ md raw, slice c a q r = Fig.slice md raw ∧ Shows raw a c.origin.n (fun i => r (c.origin.at_ i (c.origin.m / 2))) ∧ md.isSome = c.useMetadata ∧
        ∀ cv, md = some cv → Shows cv 100 c.used.n (fun i => q (c.used.at_ i (c.used.m / 2))) := by
    intro a q r
    refine ⟨_, _, rfl, curve_shows _ _ _, by cases c.useMetadata <;> rfl, fun cv h => ?_⟩
    cases hm : c.useMetadata with
    | false => rw [hm] at h; cases h
    | true => rw [hm] at h; cases h; exact curve_shows _ _ _
  constructor
  · intro f a q h
    obtain ⟨md, raw, h1, h2⟩ := key a q q
    refine ⟨md, raw, ?_, h2⟩
    rw [← h1]
    simp only [List.mem_cons, Prod.mk.injEq, List.not_mem_nil, or_false] at h
    rcases h with ⟨rfl, rfl, rfl⟩ | ⟨rfl, rfl, rfl⟩ | ⟨rfl, rfl, rfl⟩ | ⟨rfl, rfl, rfl⟩ <;> simp [figures]
  · obtain ⟨md, raw, h1, h2, h3, h4⟩ := key 100 (fun p => p.ut - right b p) (fun p => p.ut - rightOrigin b p)
    refine ⟨md, raw, by rw [← h1]; simp [figures], ?_, h3, fun hb cv hcv => ?_⟩
    · simpa only [rightOrigin_residual] using h2
    · have := h4 cv hcv
      simpa only [right_residual b _ hb] using this

/-- **C205** (right-hand side): the slice of the right-hand side shows it from place ⌊n/10⌋ up to ⌊9n/10⌋, at the middle time. -/
theorem C205_rhs (c : Ctx) (b : Builtin) : ∃ md raw, ("rhs_slice.png", Fig.slice md raw) ∈ figures c b ∧
    Shows raw 100 (9 * c.origin.n / 10 - c.origin.n / 10) (fun i => (c.origin.at_ (c.origin.n / 10 + i) (c.origin.m / 2)).ut - residual b (c.origin.at_ (c.origin.n / 10 + i) (c.origin.m / 2))) ∧
    md.isSome = c.useMetadata ∧ (b ≠ .chafee → ∀ cv, md = some cv → Shows cv 100 (9 * c.used.n / 10 - c.used.n / 10)
      (fun i => (c.used.at_ (c.used.n / 10 + i) (c.used.m / 2)).ut - residual b (c.used.at_ (c.used.n / 10 + i) (c.used.m / 2)))) := by
  refine ⟨_, _, (show ("rhs_slice.png", rhsSlice c b) ∈ figures c b by simp [figures]), ?_, by cases c.useMetadata <;> rfl, fun hb cv h => ?_⟩
  · simp only [← rightOrigin_residual, sub_sub_cancel]
    exact curve_shows _ _ _
  · cases hm : c.useMetadata with
    | false => rw [hm] at h; cases h
    | true =>
      rw [hm] at h; cases h
      simp only [← right_residual b _ hb, sub_sub_cancel]
      exact curve_shows _ _ _

/-- **C205** (images): the four images show u and the residual node by node; each colour scale runs from the smallest to the largest value of the *given* data. -/
theorem C205_images (c : Ctx) (b : Builtin) (hn : 1 ≤ c.origin.n) (hm : 1 ≤ c.origin.m) :
    (∃ lo hi, ("metadata_field.png", Fig.image c.used.n c.used.m (fun i j => (c.used.at_ i j).u) lo hi) ∈ figures c b ∧
      ("original_field.png", Fig.image c.origin.n c.origin.m (fun i j => (c.origin.at_ i j).u) lo hi) ∈ figures c b ∧
      (∀ i < c.origin.n, ∀ j < c.origin.m, lo ≤ (c.origin.at_ i j).u ∧ (c.origin.at_ i j).u ≤ hi) ∧
      (∃ i < c.origin.n, ∃ j < c.origin.m, (c.origin.at_ i j).u = lo) ∧ ∃ i < c.origin.n, ∃ j < c.origin.m, (c.origin.at_ i j).u = hi) ∧
    ∃ lo hi, (b ≠ .chafee → ("metadata_residual_heatmap.png", Fig.image c.used.n c.used.m (fun i j => residual b (c.used.at_ i j)) lo hi) ∈ figures c b) ∧
      ("original_residual_heatmap.png", Fig.image c.origin.n c.origin.m (fun i j => residual b (c.origin.at_ i j)) lo hi) ∈ figures c b ∧
      (∀ i < c.origin.n, ∀ j < c.origin.m, lo ≤ residual b (c.origin.at_ i j) ∧ residual b (c.origin.at_ i j) ≤ hi) ∧
      (∃ i < c.origin.n, ∃ j < c.origin.m, residual b (c.origin.at_ i j) = lo) ∧ ∃ i < c.origin.n, ∃ j < c.origin.m, residual b (c.origin.at_ i j) = hi := by
  have lim : ∀ q, (∀ i < c.origin.n, ∀ j < c.origin.m, low (values c.origin q) ≤ q (c.origin.at_ i j) ∧ q (c.origin.at_ i j) ≤ high (values c.origin q)) ∧
      (∃ i < c.origin.n, ∃ j < c.origin.m, q (c.origin.at_ i j) = low (values c.origin q)) ∧ ∃ i < c.origin.n, ∃ j < c.origin.m, q (c.origin.at_ i j) = high (values c.origin q) := by
    intro q
    have hne : values c.origin q ≠ [] := List.ne_nil_of_mem ((mem_values _ _ _).2 ⟨0, hn, 0, hm, rfl⟩)
    obtain ⟨h1, h2, h3⟩ := limits_ok _ hne
    exact ⟨fun i hi j hj => h1 _ ((mem_values _ _ _).2 ⟨i, hi, j, hj, rfl⟩), (mem_values _ _ _).1 h2, (mem_values _ _ _).1 h3⟩
  refine ⟨⟨low (values c.origin Pt.u), high (values c.origin Pt.u), by simp [figures, image], by simp [figures, image], lim Pt.u⟩,
    low (values c.origin (residual b)), high (values c.origin (residual b)), fun hb => ?_, ?_, lim (residual b)⟩
  · simp only [figures, image, rightOrigin_residual, right_residual b _ hb]
    simp
  · simp only [figures, image, rightOrigin_residual]
    simp

/-- **C205** (residual): the given data are shown with the residual zero exactly where they satisfy the known equation. -/
theorem C205_zero (b : Builtin) (p : Pt) : residual b p = 0 ↔ Solves b p := residual_zero b p

/-- **C205** (places, part): in the figures of u, u_xx and the residual a point of the refined data is above a point of the given data exactly if both are at the same place. -/
theorem C205_places_partial (cv raw : Curve) (n k : Nat) (f g : Nat → ℚ) (hc : Shows cv 100 n f) (hr : Shows raw 100 k g) (i j : Nat) (hi : i < n) (hj : j < k) :
    ((cv[i]?).map Prod.fst = (raw[j]?).map Prod.fst ↔ place n i = place k j) := by
  rw [hc.2 i hi, hr.2 j hj]
  simp

/-- **C205 (violated).** In the figures of u_t and u_x the two curves have different scales: the same place is shown at the same abscissa only if it is the left end. -/
theorem C205_scale_counterexample (c : Ctx) (b : Builtin) (f : String) (hf : f = "ut_slice.png" ∨ f = "ux_slice.png") (cv raw : Curve) (h : (f, Fig.slice (some cv) raw) ∈ figures c b)
    (i j : Nat) (hi : i < c.used.n) (hj : j < c.origin.n) (hn : 2 ≤ c.used.n) (hp : place c.used.n i = place c.origin.n j) :
    ((cv[i]?).map Prod.fst = (raw[j]?).map Prod.fst ↔ i = 0) := by
  have hs : Shows cv 100 c.used.n (fun i => (cv[i]?.getD 0).2) ∧ Shows raw 256 c.origin.n (fun i => (raw[i]?.getD 0).2) := by
    have gen : ∀ q, (Fig.slice (some cv) raw) = slice c 256 q q → Shows cv 100 c.used.n (fun i => (cv[i]?.getD 0).2) ∧ Shows raw 256 c.origin.n (fun i => (raw[i]?.getD 0).2) := by
      intro q e
      simp only [slice, Fig.slice.injEq] at e
      obtain ⟨e1, e2⟩ := e
      have e1' : cv = curve 100 c.used.n fun i => q (c.used.at_ i (c.used.m / 2)) := by
        cases hm : c.useMetadata with
        | false => rw [hm] at e1; cases e1
        | true => rw [hm] at e1; exact Option.some.inj e1
      have s1 := curve_shows 100 c.used.n (fun i => q (c.used.at_ i (c.used.m / 2)))
      have s2 := curve_shows 256 c.origin.n (fun i => q (c.origin.at_ i (c.origin.m / 2)))
      rw [← e1'] at s1
      rw [← e2] at s2
      exact ⟨⟨s1.1, fun i hi => by simp only [s1.2 i hi, Option.getD_some]⟩, ⟨s2.1, fun i hi => by simp only [s2.2 i hi, Option.getD_some]⟩⟩
    simp only [figures, List.mem_cons, Prod.mk.injEq, List.not_mem_nil, or_false] at h
    rcases hf with rfl | rfl <;> simp at h
    · exact gen _ h
    · exact gen _ h
  rw [hs.1.2 i hi, hs.2.2 j hj, ← hp]
  simp only [Option.map_some, Option.some.injEq]
  have hden : ((c.used.n : ℚ) - 1) ≠ 0 := by
    have : (2 : ℚ) ≤ c.used.n := by exact_mod_cast hn
    intro e; linarith
  constructor
  · intro e
    have : place c.used.n i = 0 := by linarith
    unfold place at this
    rw [div_eq_zero_iff] at this
    rcases this with e | e
    · exact_mod_cast e
    · exact absurd e hden
  · rintro rfl
    simp [place]

/-- **C205 (violated).** The refined data have `ratio` times as many times; the two curves of a slice figure are at the same time only if both numbers of times are odd (or nothing was refined):
with the default ratio 2 never. -/
theorem C205_time_counterexample (ratio m : Nat) (hr : 1 ≤ ratio) (hm : 2 ≤ m) :
    place (ratio * m) (ratio * m / 2) = place m (m / 2) ↔ ratio = 1 ∨ (ratio % 2 = 1 ∧ m % 2 = 1) := by
  have val : ∀ k : Nat, 2 ≤ k → (k % 2 = 1 ∧ place k (k / 2) = 1 / 2) ∨ (k % 2 = 0 ∧ place k (k / 2) = (k : ℚ) / (2 * (k - 1)) ) := by
    intro k hk
    rcases Nat.even_or_odd' k with ⟨a, rfl | rfl⟩
    · right
      refine ⟨by omega, ?_⟩
      rw [middle_even a]
      have h1 : (2 * (a : ℚ) - 1) ≠ 0 := by
        have : (1 : ℚ) ≤ a := by exact_mod_cast (by omega : 1 ≤ a)
        intro e; linarith
      push_cast
      field_simp
    · left
      exact ⟨by omega, middle_odd a (by omega)⟩
  have pos : ∀ k : Nat, 2 ≤ k → (0 : ℚ) < (k : ℚ) - 1 := by
    intro k hk
    have : (2 : ℚ) ≤ k := by exact_mod_cast hk
    linarith
  have half : ∀ k : Nat, 2 ≤ k → (k : ℚ) / (2 * (k - 1)) ≠ 1 / 2 := by
    intro k hk e
    have := pos k hk
    rw [div_eq_div_iff (by positivity) (by norm_num)] at e
    linarith
  have inj : ∀ k l : Nat, 2 ≤ k → 2 ≤ l → (k : ℚ) / (2 * (k - 1)) = (l : ℚ) / (2 * (l - 1)) → k = l := by
    intro k l hk hl e
    have h1 := pos k hk
    have h2 := pos l hl
    rw [div_eq_div_iff (by positivity) (by positivity)] at e
    have : (k : ℚ) = l := by linarith
    exact_mod_cast this
  have hk : 2 ≤ ratio * m := by nlinarith
  constructor
  · intro e
    rcases val (ratio * m) hk with ⟨p1, v1⟩ | ⟨p1, v1⟩ <;> rcases val m hm with ⟨p2, v2⟩ | ⟨p2, v2⟩
    · right
      refine ⟨?_, p2⟩
      rw [Nat.mul_mod, p2] at p1
      omega
    · rw [v1, v2] at e
      exact absurd e.symm (half m hm)
    · rw [v1, v2] at e
      exact absurd e (half _ hk)
    · left
      rw [v1, v2] at e
      have := inj _ _ hk hm e
      nlinarith
  · rintro (rfl | ⟨h1, h2⟩)
    · rw [one_mul]
    · have h3 : (ratio * m) % 2 = 1 := by rw [Nat.mul_mod, h1, h2]
      rcases val (ratio * m) hk with ⟨-, v1⟩ | ⟨p1, -⟩
      · rcases val m hm with ⟨-, v2⟩ | ⟨p2, -⟩
        · rw [v1, v2]
        · omega
      · omega

/-- **C205 (violated).** For Chafee–Infante the residual of the refined data leaves out u_xx: data that solve the equation are shown with a residual of about u_xx. -/
theorem C205_residual_counterexample (c : Ctx) (h : ∀ i < c.used.n, ∀ j < c.used.m, Solves .chafee (c.used.at_ i j)) :
    ∃ v lo hi, ("metadata_residual_heatmap.png", Fig.image c.used.n c.used.m v lo hi) ∈ figures c .chafee ∧
      ∀ i < c.used.n, ∀ j < c.used.m, v i j = (c.used.at_ i j).uxx + 8 / 10000 * (c.used.at_ i j).u - 4 / 10000 * (c.used.at_ i j).u ^ 3 := by
  refine ⟨_, _, _, (show ("metadata_residual_heatmap.png", image c c.used (fun p => p.ut - right .chafee p) (fun p => p.ut - rightOrigin .chafee p)) ∈ figures c .chafee by simp [figures]), fun i hi j hj => ?_⟩
  have := h i hi j hj
  simp only [Solves] at this
  simp only [right]
  rw [this]
  ring

-- Burgers data u = x / (1 + t) at t = 1 have the residual zero; the 3 × 2 grid is drawn
example : Solves .burgers ⟨1 / 2, -1 / 4, 1 / 2, 0, 0⟩ ∧
    (∃ dir figs, plotResults (some ("Burgers2".toList, some .burgers, ⟨true, ⟨6, 4, fun i j => ⟨i, j, 0, 0, 0⟩⟩, ⟨3, 2, fun i j => ⟨i, j, 0, 0, 0⟩⟩⟩)) = .drawn dir figs) := by
  refine ⟨by simp only [Solves]; norm_num, ?_⟩
  unfold plotResults
  simp only
  rw [if_neg (by decide +kernel)]
  exact ⟨_, _, rfl⟩

end Verif.Viz.SgaLegacy.Claims
