import Verif.Viz.DlgaCompare
import Verif.Claims.VizDlgaOld
import Mathlib.Tactic.FieldSimp
/-!
# C201, C202: the field comparison of a DLGA estimator, and the remaining figures of kd/viz/dlga_viz.py

## Specification
-/
namespace Verif.Viz.DlgaCmp.Claims
open Verif.Viz.Data Verif.Viz.Data.Claims Verif.Viz.DlgaCmp

/-- A panel of the picture: the value at place `x[i]` and time `t[j]` is drawn there, and nothing else. -/
def Panel (p : List (List (Rat × Rat × Rat))) (x t : List Rat) (u : A) : Prop :=
  p.length = x.length ∧ ∀ (i : Nat) (xi : Rat), x[i]? = some xi → ∃ row, p[i]? = some row ∧ row.length = t.length ∧
    ∀ (j : Nat) (tj : Rat), t[j]? = some tj → row[j]? = some (tj, xi, u.get [i, j])

/-- The picture of a true and a predicted field; the colours of both panels run from the smallest to the largest of all values. -/
def Shows (fig : CmpFig) (x t : List Rat) (a b : A) : Prop :=
  Panel fig.truth x t a ∧ Panel fig.predicted x t b ∧
  (∀ i j : Nat, i < x.length → j < t.length → fig.lo ≤ a.get [i, j] ∧ a.get [i, j] ≤ fig.hi ∧ fig.lo ≤ b.get [i, j] ∧ b.get [i, j] ≤ fig.hi) ∧
  (∃ i j : Nat, i < x.length ∧ j < t.length ∧ (a.get [i, j] = fig.lo ∨ b.get [i, j] = fig.lo)) ∧
  ∃ i j : Nat, i < x.length ∧ j < t.length ∧ (a.get [i, j] = fig.hi ∨ b.get [i, j] = fig.hi)

/-- The options give a true field `a` and a predicted field `b` on the grid of `x` and `t` (under either name; a residual field, if given, of the same shape). -/
def Gives (o : Opts) (x t : List Rat) (a b : A) : Prop :=
  o.x = some x ∧ o.t = some t ∧ (o.trueField = some a ∨ o.trueField = none ∧ o.uTrue = some a) ∧
  (o.predictedField = some b ∨ o.predictedField = none ∧ o.uPred = some b) ∧ x ≠ [] ∧ t ≠ [] ∧
  a.shape = [x.length, t.length] ∧ b.shape = [x.length, t.length] ∧ ∀ r, o.residual = some r → r.shape = [x.length, t.length]

/-- A sequence of calls. -/
def calls (f : Files) (os : List Opts) : Files := os.foldl (fun f o => (fieldComparison f o).1) f

/-! ## Lemmas -/

theorem mem_ravel {u : A} {n m : Nat} (h : u.shape = [n, m]) (v : Rat) : v ∈ u.ravel ↔ ∃ i j : Nat, i < n ∧ j < m ∧ u.get [i, j] = v := by
  simp only [Verif.Data.Arr.ravel, h, Verif.Data.indices, List.mem_map, List.mem_flatMap, List.mem_range]
  constructor
  · rintro ⟨l, ⟨i, hi, l', ⟨j, hj, l'', hl'', rfl⟩, rfl⟩, rfl⟩
    simp at hl''
    subst hl''
    exact ⟨i, j, hi, hj, rfl⟩
  · rintro ⟨i, j, hi, hj, rfl⟩
    exact ⟨[i, j], ⟨i, hi, [j], ⟨j, hj, [], by simp, rfl⟩, rfl⟩, rfl⟩

theorem panel_nodes (x t : List Rat) (u : A) : Panel (nodes x t u) x t u := by
  refine ⟨by simp [nodes], fun i xi hi => ⟨t.zipIdx.map fun q => (q.1, xi, u.get [i, q.2]), ?_, by simp, ?_⟩⟩
  · simp [nodes, List.getElem?_map, List.getElem?_zipIdx, hi]
  · intro j tj hj
    simp [List.getElem?_map, List.getElem?_zipIdx, hj]

theorem comparison_ok {x t : List Rat} {a b : A} (hx : x ≠ []) (ht : t ≠ []) (ha : a.shape = [x.length, t.length]) (hb : b.shape = [x.length, t.length]) :
    ∃ fig, plotComparison x t a b = .ok fig ∧ Shows fig x t a b := by
  have hx' := List.length_pos_iff.2 hx
  have ht' := List.length_pos_iff.2 ht
  unfold plotComparison
  split
  · rename_i v r w s hv hw
    rw [if_pos ⟨ha, hb⟩]
    refine ⟨_, rfl, panel_nodes x t a, panel_nodes x t b, ?_, ?_, ?_⟩
    · intro i j hi hj
      have h1 : a.get [i, j] ∈ v :: r := by rw [← hv]; exact (mem_ravel ha _).2 ⟨i, j, hi, hj, rfl⟩
      have h2 : b.get [i, j] ∈ w :: s := by rw [← hw]; exact (mem_ravel hb _).2 ⟨i, j, hi, hj, rfl⟩
      exact ⟨le_trans (min_le_left _ _) ((DlgaOld.Claims.foldl_min r v).2 _ h1), le_trans ((DlgaOld.Claims.foldl_max r v).2 _ h1) (le_max_left _ _),
        le_trans (min_le_right _ _) ((DlgaOld.Claims.foldl_min s w).2 _ h2), le_trans ((DlgaOld.Claims.foldl_max s w).2 _ h2) (le_max_right _ _)⟩
    · simp only
      rcases min_choice (r.foldl min v) (s.foldl min w) with e | e
      · have := (DlgaOld.Claims.foldl_min r v).1
        rw [← hv] at this
        obtain ⟨i, j, hi, hj, h⟩ := (mem_ravel ha _).1 this
        exact ⟨i, j, hi, hj, .inl (by rw [e, h])⟩
      · have := (DlgaOld.Claims.foldl_min s w).1
        rw [← hw] at this
        obtain ⟨i, j, hi, hj, h⟩ := (mem_ravel hb _).1 this
        exact ⟨i, j, hi, hj, .inr (by rw [e, h])⟩
    · simp only
      rcases max_choice (r.foldl max v) (s.foldl max w) with e | e
      · have := (DlgaOld.Claims.foldl_max r v).1
        rw [← hv] at this
        obtain ⟨i, j, hi, hj, h⟩ := (mem_ravel ha _).1 this
        exact ⟨i, j, hi, hj, .inl (by rw [e, h])⟩
      · have := (DlgaOld.Claims.foldl_max s w).1
        rw [← hw] at this
        obtain ⟨i, j, hi, hj, h⟩ := (mem_ravel hb _).1 this
        exact ⟨i, j, hi, hj, .inr (by rw [e, h])⟩
  · rename_i hne
    exfalso
    have h1 : a.get [0, 0] ∈ a.ravel := (mem_ravel ha _).2 ⟨0, 0, hx', ht', rfl⟩
    have h2 : b.get [0, 0] ∈ b.ravel := (mem_ravel hb _).2 ⟨0, 0, hx', ht', rfl⟩
    cases e1 : a.ravel with
    | nil => rw [e1] at h1; simp at h1
    | cons v r =>
      cases e2 : b.ravel with
      | nil => rw [e2] at h2; simp at h2
      | cons w s => exact hne v r w s e1 e2

theorem sub_same {a b : A} (h : a.shape = b.shape) : ∃ r, sub a b = .ok r ∧ r.shape = a.shape := by
  have key : ∀ s : List Nat, bcast s s = some s := by
    intro s
    induction s with
    | nil => rfl
    | cons n s ih => simp [bcast, ih]
  refine ⟨⟨a.shape.reverse.reverse, fun i => a.get (bcastIdx a.shape i) - b.get (bcastIdx a.shape i)⟩, ?_, by simp⟩
  simp only [sub, ← h, key]

theorem or_given {α : Type} {p q : Option α} {a : α} (h : p = some a ∨ p = none ∧ q = some a) : p.or q = some a := by
  rcases h with h | ⟨h, h'⟩
  · simp [h]
  · simp [h, h']

theorem build_gives {o : Opts} {x t : List Rat} {a b : A} (h : Gives o x t a b) :
    ∃ d, build o = some (.ok d) ∧ d.coords = [x] ∧ d.t = t ∧ d.truth = a ∧ d.predicted = b := by
  obtain ⟨h1, h2, h3, h4, _, _, ha, hb, hr⟩ := h
  have e : expected [x] t = [x.length, t.length] := rfl
  obtain ⟨r, hs, hrs⟩ := sub_same (show a.shape = b.shape by rw [ha, hb])
  unfold build
  rw [h1, h2, or_given h3, or_given h4]
  simp only
  unfold mkField
  rw [if_neg (by rw [ha, hb]; simp), if_neg (by rw [ha, e]; simp)]
  cases ho : o.residual with
  | none => simp only [hs]; exact ⟨_, rfl, rfl, rfl, rfl, rfl⟩
  | some r' => simp only; rw [if_neg (by rw [hr r' ho, e]; simp)]; exact ⟨_, rfl, rfl, rfl, rfl, rfl⟩

theorem draw_gives {o : Opts} {x t : List Rat} {a b : A} (f : Files) (h : Gives o x t a b) :
    ∃ d fig, fieldComparison f o = (if (f o.dir "field_comparison.png").isNone then
        ((f.set o.dir "pde_comparison.png" (some fig)).set o.dir "field_comparison.png" (some fig)).set o.dir "pde_comparison.png" none
        else f.set o.dir "pde_comparison.png" (some fig), .ok (.result o.dir "field_comparison.png" d)) ∧
      d.coords = [x] ∧ d.t = t ∧ d.truth = a ∧ d.predicted = b ∧ Shows fig x t a b := by
  obtain ⟨d, hd, e1, e2, e3, e4⟩ := build_gives h
  obtain ⟨_, _, _, _, hx, ht, ha, hb, _⟩ := h
  obtain ⟨fig, hf, hs⟩ := comparison_ok hx ht ha hb
  refine ⟨d, fig, ?_, e1, e2, e3, e4, hs⟩
  unfold fieldComparison
  rw [hd]
  simp only
  unfold draw
  rw [e1, e2, e3, e4]
  simp only [List.headD_cons, hf]
  have : (f.set o.dir "pde_comparison.png" (some fig)) o.dir "field_comparison.png" = f o.dir "field_comparison.png" := by simp [Files.set]
  rw [this]

/-! ## C201 -/

/-- **C201** (part): the first comparison drawn into a directory.  The path named in the result holds the picture of the given fields, no other file is touched, and no `pde_comparison.png` is left. -/
theorem C201_first_partial (f : Files) (o : Opts) (x t : List Rat) (a b : A) (h : Gives o x t a b) (hn : f o.dir "field_comparison.png" = none) :
    ∃ f' d fig, fieldComparison f o = (f', .ok (.result o.dir "field_comparison.png" d)) ∧
      d.coords = [x] ∧ d.t = t ∧ d.truth = a ∧ d.predicted = b ∧
      f' o.dir "field_comparison.png" = some fig ∧ Shows fig x t a b ∧ f' o.dir "pde_comparison.png" = none ∧
      ∀ dir name, ¬ (dir = o.dir ∧ (name = "field_comparison.png" ∨ name = "pde_comparison.png")) → f' dir name = f dir name := by
  obtain ⟨d, fig, h1, h2, h3, h4, h5, h6⟩ := draw_gives f h
  rw [hn] at h1
  refine ⟨_, d, fig, h1, h2, h3, h4, h5, ?_, h6, ?_, ?_⟩
  · simp [Files.set]
  · simp [Files.set]
  · intro dir name hne
    have p : ¬ (dir = o.dir ∧ name = "field_comparison.png") := fun e => hne ⟨e.1, .inl e.2⟩
    have q : ¬ (dir = o.dir ∧ name = "pde_comparison.png") := fun e => hne ⟨e.1, .inr e.2⟩
    simp [Files.set, p, q]

/-- **C201 (violated).** With the file of an earlier call in the directory the result names that file and the *new* data, but the file still shows the earlier picture; the new one is
left as `pde_comparison.png`. -/
theorem C201_stale (f : Files) (o : Opts) (x t : List Rat) (a b : A) (old : CmpFig) (h : Gives o x t a b) (hn : f o.dir "field_comparison.png" = some old) :
    ∃ f' d fig, fieldComparison f o = (f', .ok (.result o.dir "field_comparison.png" d)) ∧
      d.coords = [x] ∧ d.t = t ∧ d.truth = a ∧ d.predicted = b ∧
      f' o.dir "field_comparison.png" = some old ∧ f' o.dir "pde_comparison.png" = some fig ∧ Shows fig x t a b ∧
      ∀ dir name, ¬ (dir = o.dir ∧ name = "pde_comparison.png") → f' dir name = f dir name := by
  obtain ⟨d, fig, h1, h2, h3, h4, h5, h6⟩ := draw_gives f h
  rw [hn] at h1
  refine ⟨_, d, fig, h1, h2, h3, h4, h5, ?_, ?_, h6, ?_⟩
  · simp [Files.set, hn]
  · simp [Files.set]
  · intro dir name hne
    simp [Files.set, hne]

/-- A call keeps a `field_comparison.png` that is there. -/
theorem kept (f : Files) (o : Opts) (dir : String) (old : CmpFig) (h : f dir "field_comparison.png" = some old) :
    (fieldComparison f o).1 dir "field_comparison.png" = some old := by
  unfold fieldComparison
  split
  · exact h
  · exact h
  · unfold draw
    split
    · exact h
    · rename_i d _ fig _
      by_cases hd : dir = o.dir
      · subst hd
        simp [Files.set, h]
      · simp only
        split
        · simp [Files.set, hd, h]
        · simp [Files.set, hd, h]

/-- **C201 (violated).** After the first comparison drawn into a directory every later call, whatever its data, leaves the picture of the first. -/
theorem C201_history_counterexample (f : Files) (o : Opts) (x t : List Rat) (a b : A) (os : List Opts) (h : Gives o x t a b)
    (hn : f o.dir "field_comparison.png" = none) : ∃ fig, Shows fig x t a b ∧ calls f (o :: os) o.dir "field_comparison.png" = some fig := by
  obtain ⟨f', d, fig, h1, -, -, -, -, h6, h7, -⟩ := C201_first_partial f o x t a b h hn
  refine ⟨fig, h7, ?_⟩
  have key : ∀ (os : List Opts) (g : Files), g o.dir "field_comparison.png" = some fig → calls g os o.dir "field_comparison.png" = some fig := by
    intro os
    induction os with
    | nil => intro g hg; exact hg
    | cons p os ih => intro g hg; exact ih _ (kept g p _ _ hg)
  show calls (fieldComparison f o).1 os o.dir _ = _
  rw [h1]
  exact key os f' h6

/-- **C201**: a path is answered exactly if the options give two fields of the shape of the grid; otherwise there is a warning (something missing) or an exception, and no file is touched. -/
theorem C201_refused (f : Files) (o : Opts) :
    ((∃ dir name d, (fieldComparison f o).2 = .ok (.result dir name d)) ↔ ∃ x t a b, Gives o x t a b) ∧
    ((¬ ∃ x t a b, Gives o x t a b) → (fieldComparison f o).1 = f) ∧
    ((fieldComparison f o).2 = .ok .warning ↔ o.x = none ∨ o.t = none ∨ (o.trueField = none ∧ o.uTrue = none) ∨ (o.predictedField = none ∧ o.uPred = none)) := by
  have fwd : ∀ f', (∃ dir name d, (fieldComparison f o).2 = .ok (.result dir name d)) ∨ (fieldComparison f o).1 = f' ∧ f' ≠ f → ∃ x t a b, Gives o x t a b := by
    intro f' hh
    unfold fieldComparison at hh
    cases hb : build o with
    | none => rw [hb] at hh; simp at hh; exact absurd hh.1.symm hh.2
    | some r =>
      rw [hb] at hh
      cases r with
      | error e => simp at hh; exact absurd hh.1.symm hh.2
      | ok d =>
        simp only at hh
        unfold draw at hh
        cases hp : plotComparison (d.coords.headD []) d.t d.truth d.predicted with
        | error e => rw [hp] at hh; simp at hh; exact absurd hh.1.symm hh.2
        | ok fig =>
          clear hh
          unfold build at hb
          split at hb
          · rename_i x t a b hx ht ha hb'
            simp only [Option.some.injEq] at hb
            unfold mkField at hb
            split at hb
            · simp at hb
            · rename_i hab
              split at hb
              · simp at hb
              · rename_i hs
                have hs' : a.shape = [x.length, t.length] := by simpa [expected] using hs
                have hb2 : b.shape = [x.length, t.length] := by rw [← hs']; simpa using (not_not.1 hab).symm
                have hd : d.coords = [x] ∧ d.t = t ∧ d.truth = a ∧ d.predicted = b ∧ ∀ r, o.residual = some r → r.shape = [x.length, t.length] := by
                  cases hr : o.residual with
                  | none =>
                    rw [hr] at hb
                    simp only at hb
                    split at hb
                    · simp at hb
                    · simp only [Except.ok.injEq] at hb; subst hb; exact ⟨rfl, rfl, rfl, rfl, fun r e => nomatch e⟩
                  | some r =>
                    rw [hr] at hb
                    simp only at hb
                    split at hb
                    · simp at hb
                    · rename_i hrs
                      simp only [Except.ok.injEq] at hb; subst hb
                      exact ⟨rfl, rfl, rfl, rfl, fun r' e => by simp only [Option.some.injEq] at e; subst e; simpa [expected] using hrs⟩
                obtain ⟨e1, e2, e3, e4, e5⟩ := hd
                rw [e1, e2, e3, e4] at hp
                simp only [List.headD_cons] at hp
                have hne : x ≠ [] ∧ t ≠ [] := by
                  unfold plotComparison at hp
                  split at hp
                  · rename_i v r w s hv hw
                    have : v ∈ a.ravel := by rw [hv]; simp
                    obtain ⟨i, j, hi, hj, -⟩ := (mem_ravel hs' v).1 this
                    constructor
                    · rintro rfl; simp at hi
                    · rintro rfl; simp at hj
                  · simp at hp
                refine ⟨x, t, a, b, hx, ht, ?_, ?_, hne.1, hne.2, hs', hb2, e5⟩
                · cases h : o.trueField with
                  | none => rw [h] at ha; simp at ha; exact .inr ⟨rfl, ha⟩
                  | some v => rw [h] at ha; simp at ha; exact .inl (by rw [ha])
                · cases h : o.predictedField with
                  | none => rw [h] at hb'; simp at hb'; exact .inr ⟨rfl, hb'⟩
                  | some v => rw [h] at hb'; simp at hb'; exact .inl (by rw [hb'])
          · simp at hb
  refine ⟨⟨fun h => fwd f (.inl h), ?_⟩, ?_, ?_⟩
  · rintro ⟨x, t, a, b, h⟩
    obtain ⟨d, fig, h1, -⟩ := draw_gives f h
    exact ⟨_, _, d, by rw [h1]⟩
  · intro hno
    by_contra hc
    exact hno (fwd _ (.inr ⟨rfl, hc⟩))
  · constructor
    · intro h
      unfold fieldComparison at h
      split at h
      · rename_i hb
        unfold build at hb
        split at hb
        · simp at hb
        · rename_i hne
          by_contra hcon
          simp only [not_or, not_and_or] at hcon
          obtain ⟨c1, c2, c3, c4⟩ := hcon
          obtain ⟨x, hx⟩ := Option.ne_none_iff_exists'.1 c1
          obtain ⟨t, ht⟩ := Option.ne_none_iff_exists'.1 c2
          have c3' : o.trueField.or o.uTrue ≠ none := by intro e; simp at e; rcases c3 with c | c; exacts [c e.1, c e.2]
          have c4' : o.predictedField.or o.uPred ≠ none := by intro e; simp at e; rcases c4 with c | c; exacts [c e.1, c e.2]
          obtain ⟨a, ha⟩ := Option.ne_none_iff_exists'.1 c3'
          obtain ⟨b, hb'⟩ := Option.ne_none_iff_exists'.1 c4'
          exact hne x t a b hx ht ha hb'
      · simp at h
      · unfold draw at h
        split at h <;> simp at h
    · intro h
      have : build o = none := by
        unfold build
        split
        · rename_i hx ht ha hb
          rcases h with h | h | ⟨h, h'⟩ | ⟨h, h'⟩
          · rw [h] at hx; simp at hx
          · rw [h] at ht; simp at ht
          · rw [h, h'] at ha; simp at ha
          · rw [h, h'] at hb; simp at hb
        · rfl
      unfold fieldComparison
      rw [this]

/-- Two calls: the fields are 1, then 2; the file answered by the second call still shows 1. -/
def demo (v : Rat) : Opts := ⟨"out", some [0, 1], some [5], none, some ⟨[2, 1], fun _ => v⟩, some ⟨[2, 1], fun _ => v⟩, none, none⟩

theorem C201_demo : Gives (demo 1) [0, 1] [5] ⟨[2, 1], fun _ => 1⟩ ⟨[2, 1], fun _ => 1⟩ ∧ Gives (demo 2) [0, 1] [5] ⟨[2, 1], fun _ => 2⟩ ⟨[2, 1], fun _ => 2⟩ ∧
    ((calls (fun _ _ => none) [demo 1, demo 2]) "out" "field_comparison.png").map CmpFig.truth = some [[(5, 0, 1)], [(5, 1, 1)]] ∧
    ((calls (fun _ _ => none) [demo 1, demo 2]) "out" "pde_comparison.png").map CmpFig.truth = some [[(5, 0, 2)], [(5, 1, 2)]] := by
  refine ⟨⟨rfl, rfl, .inr ⟨rfl, rfl⟩, .inl rfl, by simp, by simp, rfl, rfl, fun r e => nomatch e⟩,
    ⟨rfl, rfl, .inr ⟨rfl, rfl⟩, .inl rfl, by simp, by simp, rfl, rfl, fun r e => nomatch e⟩, ?_, ?_⟩ <;> decide +kernel

/-! ## C202: term relationships -/

/-- The stored values of a name (nothing stored: no values). -/
def stored (m : List (String × List Rat)) (v : String) (k : Nat) : Rat := (((m.lookup v).getD [])[k]?).getD 0

theorem prodOf_cols {m : List (String × List Rat)} {vs : List String} {n : Nat} (hne : vs ≠ [])
    (h : ∀ v ∈ vs, ∃ c, m.lookup v = some c ∧ c.length = n) :
    ∃ l, DlgaOld.prodOf (cols m vs) = .ok l ∧ l.length = n ∧ ∀ k : Nat, k < n → l[k]? = some ((vs.map fun v => stored m v k).prod) := by
  have hc : ∀ c ∈ cols m vs, c.length = n := by
    intro c hc
    simp only [cols, List.mem_map] at hc
    obtain ⟨v, hv, rfl⟩ := hc
    obtain ⟨c, e, hl⟩ := h v hv
    rw [e]; exact hl
  have hne' : cols m vs ≠ [] := by simpa [cols] using hne
  refine ⟨prodCol (cols m vs), ?_, prodCol_length _ hne' hc, fun k hk => ?_⟩
  · cases e : cols m vs with
    | nil => exact absurd e hne'
    | cons c r =>
      simp only [DlgaOld.prodOf]
      rw [if_pos]
      simp only [List.all_eq_true, beq_iff_eq]
      intro d hd
      rw [hc d (by rw [e]; simp [hd]), hc c (by rw [e]; simp)]
  · rw [prodCol_get _ hne' hc hk]
    simp [cols, stored, Function.comp_def]

/-- **C202** (term relationships): with all names stored (columns of one length) there is a figure with one point per stored value; it stands at the products of the values of the two
groups of names, and has the value of the colour variable, which is also what the histogram shows; the axes carry the given labels, else the names joined by dashes. -/
theorem C202_terms (m : List (String × List Rat)) (xs ys : List String) (xlabel ylabel color : Option String) (n : Nat) (hx : xs ≠ []) (hy : ys ≠ [])
    (h : ∀ v, v ∈ xs ∨ v ∈ ys ∨ color = some v → ∃ c, m.lookup v = some c ∧ c.length = n) :
    ∃ fig, plotTerms m xs ys xlabel ylabel color = .ok (some fig) ∧ fig.points.length = n ∧
      (∀ k : Nat, k < n → fig.points[k]? = some ((xs.map fun v => stored m v k).prod, (ys.map fun v => stored m v k).prod)) ∧
      (color = none → fig.colours = none ∧ fig.hist = none) ∧
      (∀ v c, color = some v → m.lookup v = some c → fig.colours = some c ∧ fig.hist = some c) ∧
      fig.xlabel = xlabel.getD ("-".intercalate xs) ∧ fig.ylabel = ylabel.getD ("-".intercalate ys) := by
  obtain ⟨a, ha, hal, hak⟩ := prodOf_cols hx (fun v hv => h v (.inl hv))
  obtain ⟨b, hb, hbl, hbk⟩ := prodOf_cols hy (fun v hv => h v (.inr (.inl hv)))
  have hmiss : missing m xs ys color = [] := by
    simp only [missing, List.filter_eq_nil_iff, List.mem_append, Option.mem_toList]
    intro v hv
    obtain ⟨c, e, -⟩ := h v (by rcases hv with (hv | hv) | hv; exacts [.inl hv, .inr (.inl hv), .inr (.inr hv)])
    simp [e]
  have hcol : ¬ ((color.bind fun v => m.lookup v).any fun l => l.length != a.length) = true := by
    cases hc : color with
    | none => simp
    | some v =>
      obtain ⟨c, e, hl⟩ := h v (.inr (.inr hc))
      simp [e, hl, hal]
  unfold plotTerms
  rw [if_neg (by simp [hx, hy]), if_neg (by simp [hmiss]), ha, hb]
  simp only
  rw [if_neg (by rw [hal, hbl]; simp), if_neg hcol]
  refine ⟨_, rfl, by simp [hal, hbl], ?_, ?_, ?_, rfl, rfl⟩
  · intro k hk
    exact List.getElem?_zip_eq_some.2 ⟨hak k hk, hbk k hk⟩
  · intro e; subst e; exact ⟨rfl, rfl⟩
  · intro v c e hc; subst e; exact ⟨hc, hc⟩

/-- **C202** (nothing drawn): there is a warning and no figure exactly if one group of names is empty or a name is not stored. -/
theorem C202_terms_missing (m : List (String × List Rat)) (xs ys : List String) (xlabel ylabel color : Option String) :
    plotTerms m xs ys xlabel ylabel color = .ok none ↔
      xs = [] ∨ ys = [] ∨ ∃ v, (v ∈ xs ∨ v ∈ ys ∨ color = some v) ∧ m.lookup v = none := by
  have hm : missing m xs ys color ≠ [] ↔ ∃ v, (v ∈ xs ∨ v ∈ ys ∨ color = some v) ∧ m.lookup v = none := by
    rw [ne_eq, List.eq_nil_iff_forall_not_mem, not_forall_not]
    simp only [missing, List.mem_filter, List.mem_append, Option.mem_toList, Option.isNone_iff_eq_none]
    constructor
    · rintro ⟨v, (hv | hv) | hv, e⟩
      exacts [⟨v, .inl hv, e⟩, ⟨v, .inr (.inl hv), e⟩, ⟨v, .inr (.inr hv), e⟩]
    · rintro ⟨v, hv | hv | hv, e⟩
      exacts [⟨v, .inl (.inl hv), e⟩, ⟨v, .inl (.inr hv), e⟩, ⟨v, .inr hv, e⟩]
  unfold plotTerms
  split
  · rename_i h; exact ⟨fun _ => by rcases h with h | h; exacts [.inl h, .inr (.inl h)], fun _ => rfl⟩
  · rename_i h
    rw [not_or] at h
    split
    · rename_i h'; exact ⟨fun _ => .inr (.inr (hm.1 h')), fun _ => rfl⟩
    · rename_i h'
      constructor
      · intro e
        split at e
        · simp only at e
          split at e
          · simp at e
          · split at e <;> simp at e
        · simp at e
        · simp at e
      · rintro (e | e | e)
        exacts [absurd e h.1, absurd e h.2, absurd (hm.2 e) h']

/-! ## C202: residuals -/

/-- **C202** (training points): with as many values as points, and two fields of one shape, there is a figure; every training point stands at its time and place with the colour
`value - network's value`. -/
theorem C202_residuals (net : Rat × Rat → Rat) (X : List (Rat × Rat)) (y : List Rat) (ut up : A) (hl : y.length = X.length) (hs : ut.shape = up.shape) :
    ∃ fig, plotResiduals net X y ut up = .ok fig ∧ fig.points.length = X.length ∧ fig.bars.length = 50 ∧
      ∀ (k : Nat) (x t v : Rat), X[k]? = some (x, t) → y[k]? = some v → fig.points[k]? = some (t, x, v - net (x, t)) := by
  obtain ⟨r, hr, -⟩ := sub_same hs
  unfold plotResiduals subFlat
  rw [if_pos (by simp [hl])]
  simp only
  rw [if_neg (by simp [hl]), hr]
  refine ⟨_, rfl, by simp [hl], by simp [bars], ?_⟩
  intro k x t v hX hy
  simp [List.getElem?_map, List.getElem?_zipWith, hX, hy, List.zip]

/-- **C202** (numbers of values): there is a figure only with as many values as training points, or with a single value, which is then used for all of them. -/
theorem C202_residual_sizes (net : Rat × Rat → Rat) (X : List (Rat × Rat)) (y : List Rat) (ut up : A) (fig : ResFig) (h : plotResiduals net X y ut up = .ok fig) :
    fig.points.length = X.length ∧ (y.length = X.length ∨ ∃ v, y = [v] ∧ ∀ (k : Nat) (x t : Rat), X[k]? = some (x, t) → fig.points[k]? = some (t, x, v - net (x, t))) := by
  unfold plotResiduals at h
  split at h
  · simp at h
  · rename_i c hc
    split at h
    · simp at h
    · rename_i hcl
      have hcl' : c.length = X.length := not_not.1 hcl
      split at h
      · simp at h
      · simp only [Except.ok.injEq] at h
        subst h
        refine ⟨by simp [hcl'], ?_⟩
        unfold subFlat at hc
        split at hc
        · rename_i e; exact .inl (by simpa using e)
        · rename_i hne
          split at hc
          · rename_i v
            simp only [Except.ok.injEq] at hc
            subst hc
            refine .inr ⟨v, rfl, fun k x t hk => ?_⟩
            simp [List.getElem?_map, hk, List.zip, List.getElem?_zipWith]
          · rename_i b hXb
            simp only [Except.ok.injEq] at hc
            subst hc
            left
            simpa using hcl'
          · simp at hc

/-! ## C202: the histogram -/

theorem range_spec (l : List Rat) : (histRange l).1 < (histRange l).2 ∧ ∀ v ∈ l, (histRange l).1 ≤ v ∧ v ≤ (histRange l).2 := by
  cases l with
  | nil => exact ⟨by norm_num [histRange], by simp⟩
  | cons a r =>
    have h1 := DlgaOld.Claims.foldl_min r a
    have h2 := DlgaOld.Claims.foldl_max r a
    unfold histRange
    simp only
    split
    · rename_i e
      refine ⟨by simp only; linarith, fun v hv => ?_⟩
      have := h1.2 v hv; have := h2.2 v hv
      simp only
      constructor <;> linarith
    · rename_i e
      refine ⟨lt_of_le_of_ne (h1.2 _ h2.1) e, fun v hv => ⟨h1.2 v hv, h2.2 v hv⟩⟩

/-- The value lies in the bar: between its ends, the right end belonging to the last bar only. -/
def InBar (b : Bar) (last : Bool) (v : Rat) : Prop := b.left ≤ v ∧ (v < b.right ∨ last = true ∧ v = b.right)

instance (b : Bar) (last : Bool) (v : Rat) : Decidable (InBar b last v) := by unfold InBar; infer_instance

theorem sum_one (j : Nat) : ∀ n : Nat, ((List.range n).map fun k => if j = k then 1 else 0).sum = if j < n then 1 else 0 := by
  intro n
  induction n with
  | zero => simp
  | succ n ih =>
    rw [List.range_succ, List.map_append, List.sum_append, ih]
    simp only [List.map_cons, List.map_nil, List.sum_cons, List.sum_nil, Nat.add_zero]
    by_cases h1 : j < n
    · rw [if_pos h1, if_neg (by omega), if_pos (by omega)]
    · by_cases h2 : j = n
      · rw [if_neg h1, if_pos h2, if_pos (by omega)]
      · rw [if_neg h1, if_neg h2, if_neg (by omega)]

theorem sum_add (f g : Nat → Nat) : ∀ l : List Nat, (l.map fun k => f k + g k).sum = (l.map f).sum + (l.map g).sum := by
  intro l
  induction l with
  | nil => rfl
  | cons a l ih => simp only [List.map_cons, List.sum_cons, ih]; omega

theorem sum_count (f : Rat → Nat) (n : Nat) : ∀ l : List Rat, (∀ v ∈ l, f v < n) →
    ((List.range n).map fun k => l.countP fun v => f v = k).sum = l.length := by
  intro l
  induction l with
  | nil => intro _; simp
  | cons v l ih =>
    intro h
    have e : ((List.range n).map fun k => (v :: l).countP fun v => f v = k) =
        (List.range n).map fun k => (l.countP fun v => f v = k) + if f v = k then 1 else 0 := by
      apply List.map_congr_left
      intro k _
      rw [List.countP_cons]
      simp
    rw [e, sum_add, ih (fun w hw => h w (by simp [hw])), sum_one, if_pos (h v (by simp))]
    rfl

theorem sum_div (g : Nat → Nat) (c : Rat) : ∀ ks : List Nat, (ks.map fun k => (g k : Rat) / c).sum = ((ks.map g).sum : Nat) / c := by
  intro ks
  induction ks with
  | nil => simp
  | cons k ks ih => simp only [List.map_cons, List.sum_cons, ih]; push_cast; ring

theorem binOf_iff {r : Rat × Rat} (hr : r.1 < r.2) {n : Nat} (hn : 0 < n) {v : Rat} (h1 : r.1 ≤ v) (h2 : v ≤ r.2) {k : Nat} (hk : k < n) :
    binOf r n v = k ↔ edge r n k ≤ v ∧ (v < edge r n (k + 1) ∨ k + 1 = n ∧ v = edge r n (k + 1)) := by
  have hw : (0 : Rat) < r.2 - r.1 := by linarith
  have hn' : (0 : Rat) < n := by exact_mod_cast hn
  set q : Rat := (v - r.1) * n / (r.2 - r.1) with hq
  have hv : v = r.1 + q * (r.2 - r.1) / n := by rw [hq]; field_simp; ring
  have q0 : 0 ≤ q := by rw [hq]; apply div_nonneg (mul_nonneg (by linarith) hn'.le) hw.le
  have qn : q ≤ n := by
    rw [hq, div_le_iff₀ hw]
    nlinarith
  have ele : ∀ c : Rat, r.1 + c * (r.2 - r.1) / n ≤ v ↔ c ≤ q := by
    intro c
    rw [hv]
    have : r.1 + c * (r.2 - r.1) / n ≤ r.1 + q * (r.2 - r.1) / n ↔ c * (r.2 - r.1) / n ≤ q * (r.2 - r.1) / n := by constructor <;> intro h <;> linarith
    rw [this, div_le_div_iff_of_pos_right hn', mul_le_mul_iff_of_pos_right hw]
  have elt : ∀ c : Rat, v < r.1 + c * (r.2 - r.1) / n ↔ q < c := by intro c; rw [← not_le, ele, not_le]
  have eeq : ∀ c : Rat, v = r.1 + c * (r.2 - r.1) / n ↔ q = c := by
    intro c
    constructor
    · intro e
      apply le_antisymm _ ((ele c).1 e.ge)
      by_contra hcon
      exact absurd ((elt (q)).2 (by
        have := not_le.1 hcon
        exact absurd e (by
          intro e'
          have h3 : ¬ v < r.1 + c * (r.2 - r.1) / n := by rw [← e']; exact lt_irrefl _
          have h4 : r.1 + q * (r.2 - r.1) / n = r.1 + c * (r.2 - r.1) / n := by rw [← hv, ← e']
          have h5 : q * (r.2 - r.1) / n = c * (r.2 - r.1) / n := by linarith
          rw [div_left_inj' hn'.ne'] at h5
          exact this.ne' (mul_right_cancel₀ hw.ne' h5)))) (by rw [← hv]; exact lt_irrefl _)
    · intro e; rw [hv, e]
  have hfl : ((⌊q⌋.toNat : Nat) : Rat) ≤ q ∧ q < (⌊q⌋.toNat : Nat) + 1 := by
    have h0 : 0 ≤ ⌊q⌋ := Int.floor_nonneg.2 q0
    obtain ⟨m, hm⟩ := Int.eq_ofNat_of_zero_le h0
    have a := Int.floor_le q
    have b := Int.lt_floor_add_one q
    rw [hm] at a b ⊢
    simp only [Int.toNat_natCast]
    exact ⟨by exact_mod_cast a, by exact_mod_cast b⟩
  have hb : binOf r n v = min (⌊q⌋.toNat) (n - 1) := rfl
  rw [hb]
  generalize ⌊q⌋.toNat = m at hfl
  unfold edge
  rw [ele, elt, eeq]
  obtain ⟨m1, m2⟩ := hfl
  have key : ∀ k : Nat, (k : Rat) ≤ q → k ≤ m := by
    intro k hk
    have : (k : Rat) < (m : Rat) + 1 := lt_of_le_of_lt hk m2
    have : k < m + 1 := by exact_mod_cast this
    omega
  have key2 : ∀ k : Nat, q < k → m < k := by
    intro k hk
    have : (m : Rat) < k := lt_of_le_of_lt m1 hk
    exact_mod_cast this
  constructor
  · intro h
    have hkm : k ≤ m := by omega
    refine ⟨le_trans (by exact_mod_cast hkm) m1, ?_⟩
    by_cases hmn : m ≤ n - 1
    · left
      have : m = k := by omega
      subst this
      push_cast
      exact m2
    · right
      have : k + 1 = n := by omega
      refine ⟨this, ?_⟩
      have h3 : n ≤ m := by omega
      have h4 : (n : Rat) ≤ m := by exact_mod_cast h3
      rw [this]
      linarith
  · rintro ⟨h3, h4 | ⟨h4, h5⟩⟩
    · have a := key k h3
      have b := key2 (k + 1) h4
      omega
    · have a := key (k + 1) (by rw [h5])
      omega

/-- **C202** (histogram): the right panel shows the residuals `true - predicted`, entry by entry, in fifty adjoining bars of one width that cover them; the area of a bar is the share of
the residuals in it, every residual is in exactly one bar, the areas add up to one, and the colours run evenly from 0 to 1. -/
theorem C202_histogram (net : Rat × Rat → Rat) (X : List (Rat × Rat)) (y : List Rat) (ut up : A) (fig : ResFig) (l : List Rat)
    (h : plotResiduals net X y ut up = .ok fig) (hs : ut.shape = up.shape) (hl : l = List.zipWith (· - ·) ut.ravel up.ravel) (hne : l ≠ []) :
    fig.bars.length = 50 ∧
    (∀ (k : Nat) (b : Bar), fig.bars[k]? = some b → b.left < b.right ∧ b.colour = k / 49 ∧
      (∀ b', fig.bars[k + 1]? = some b' → b.right = b'.left ∧ b'.right - b'.left = b.right - b.left) ∧
      b.height * (b.right - b.left) = (l.countP fun v => InBar b (k = 49) v : Nat) / (l.length : Rat)) ∧
    (∀ v ∈ l, ∃! k : Nat, ∃ b, fig.bars[k]? = some b ∧ InBar b (k = 49) v) ∧
    (fig.bars.map fun b => b.height * (b.right - b.left)).sum = 1 ∧
    ((∃ v ∈ l, ∃ w ∈ l, v ≠ w) → ∀ first last : Bar, fig.bars[0]? = some first → fig.bars[49]? = some last → first.left ∈ l ∧ last.right ∈ l) := by
  have hb : fig.bars = bars l := by
    unfold plotResiduals at h
    split at h
    · simp at h
    · split at h
      · simp at h
      · split at h
        · simp at h
        · rename_i r hr
          simp only [Except.ok.injEq] at h
          subst h
          obtain ⟨r', hr', hrs⟩ := sub_same hs
          rw [hr] at hr'
          simp only [Except.ok.injEq] at hr'
          subst hr'
          simp only
          rw [hl, sub_ravel hr (by rw [length_ravel, length_ravel, hs]) (by rw [length_ravel, length_ravel, hrs])]
  obtain ⟨hlt, hin⟩ := range_spec l
  have hN : (0 : Rat) < l.length := by exact_mod_cast List.length_pos_iff.2 hne
  have hw : ∀ k : Nat, edge (histRange l) 50 (k + 1) - edge (histRange l) 50 k = ((histRange l).2 - (histRange l).1) / 50 := by
    intro k; simp only [edge]; push_cast; ring
  have hwp : 0 < ((histRange l).2 - (histRange l).1) / 50 := div_pos (by linarith) (by norm_num)
  have hget : ∀ k : Nat, k < 50 → fig.bars[k]? = some ⟨edge (histRange l) 50 k, edge (histRange l) 50 (k + 1),
      ((l.filter fun v => binOf (histRange l) 50 v = k).length : Rat) / (l.length * (edge (histRange l) 50 (k + 1) - edge (histRange l) 50 k)), k / 49⟩ := by
    intro k hk
    rw [hb]
    simp only [bars, List.getElem?_map, List.getElem?_range hk, Option.map_some, Option.some.injEq, Bar.mk.injEq, true_and]
    have hd : (histRange l).2 - (histRange l).1 ≠ 0 := by linarith
    simp only [edge]
    push_cast
    rw [div_eq_div_iff (by intro e; apply hd; linarith) (by norm_num)]
    ring
  have hlen : fig.bars.length = 50 := by rw [hb]; simp [bars]
  have hin' : ∀ (k : Nat) (b : Bar), fig.bars[k]? = some b → ∀ v ∈ l, (InBar b (k = 49) v ↔ binOf (histRange l) 50 v = k) := by
    intro k b hkb v hv
    have hk : k < 50 := by have := (List.getElem?_eq_some_iff.1 hkb).1; omega
    rw [hget k hk] at hkb
    simp only [Option.some.injEq] at hkb
    subst hkb
    obtain ⟨a1, a2⟩ := hin v hv
    rw [binOf_iff hlt (by norm_num) a1 a2 hk]
    simp only [InBar, decide_eq_true_eq]
    have : k = 49 ↔ k + 1 = 50 := by omega
    rw [this]
  refine ⟨hlen, ?_, ?_, ?_, ?_⟩
  · intro k b hkb
    have hk : k < 50 := by have := (List.getElem?_eq_some_iff.1 hkb).1; omega
    have hkb' := hkb
    rw [hget k hk] at hkb
    simp only [Option.some.injEq] at hkb
    refine ⟨?_, ?_, ?_, ?_⟩
    · subst hkb; have := hw k; simp only; linarith
    · subst hkb; rfl
    · intro b' hb'
      have hk' : k + 1 < 50 := by have := (List.getElem?_eq_some_iff.1 hb').1; omega
      rw [hget (k + 1) hk'] at hb'
      simp only [Option.some.injEq] at hb'
      subst hb' hkb
      exact ⟨rfl, by simp only; rw [hw, hw]⟩
    · have hc : (l.countP fun v => InBar b (k = 49) v) = l.countP fun v => binOf (histRange l) 50 v = k := by
        apply List.countP_congr
        intro v hv
        simp only [decide_eq_true_eq]
        exact hin' k b hkb' v hv
      rw [hc]
      subst hkb
      simp only
      rw [hw, ← List.countP_eq_length_filter, div_mul_eq_mul_div, mul_div_mul_right _ _ hwp.ne']
  · intro v hv
    obtain ⟨a1, a2⟩ := hin v hv
    have hlt50 : binOf (histRange l) 50 v < 50 := by unfold binOf; omega
    refine ⟨binOf (histRange l) 50 v, ⟨_, hget _ hlt50, (hin' _ _ (hget _ hlt50) v hv).2 rfl⟩, ?_⟩
    rintro k ⟨b, hkb, hb'⟩
    exact ((hin' k b hkb v hv).1 hb').symm
  · have e : fig.bars.map (fun b => b.height * (b.right - b.left)) =
        (List.range 50).map fun k => ((l.countP fun v => binOf (histRange l) 50 v = k : Nat) : Rat) / l.length := by
      apply List.ext_getElem?
      intro k
      by_cases hk : k < 50
      · rw [List.getElem?_map, hget k hk, List.getElem?_map, List.getElem?_range hk]
        simp only [Option.map_some, Option.some.injEq]
        rw [hw, ← List.countP_eq_length_filter, div_mul_eq_mul_div, mul_div_mul_right _ _ hwp.ne']
      · rw [List.getElem?_eq_none (by simp [hlen]; omega), List.getElem?_eq_none (by simp; omega)]
    rw [e]
    rw [sum_div, sum_count _ _ _ (fun v _ => by unfold binOf; omega), div_self hN.ne']
  · rintro ⟨v, hv, w, hw', hvw⟩ first last h0 h49
    rw [hget 0 (by norm_num)] at h0
    rw [hget 49 (by norm_num)] at h49
    simp only [Option.some.injEq] at h0 h49
    subst h0 h49
    have e0 : edge (histRange l) 50 0 = (histRange l).1 := by simp [edge]
    have e1 : edge (histRange l) 50 (49 + 1) = (histRange l).2 := by simp only [edge]; push_cast; ring
    simp only
    rw [e0, e1]
    cases l with
    | nil => simp at hv
    | cons a r =>
      have m1 := DlgaOld.Claims.foldl_min r a
      have m2 := DlgaOld.Claims.foldl_max r a
      unfold histRange
      simp only
      rw [if_neg]
      · exact ⟨m1.1, m2.1⟩
      · intro e
        apply hvw
        have a1 := m1.2 v hv; have a2 := m2.2 v hv; have a3 := m1.2 w hw'; have a4 := m2.2 w hw'
        rw [e] at a1 a3
        exact (le_antisymm a2 a1).trans (le_antisymm a4 a3).symm

/-- The hypotheses of `C202_terms` and `C202_residuals` on a case. -/
theorem C202_demo :
    (∃ fig, plotTerms [("u", [1, 2]), ("u_x", [3, 4]), ("u_t", [5, 6])] ["u", "u_x"] ["u_t"] (some "a") (some "b") (some "u_t") = .ok (some fig) ∧
      fig.points = [(3, 5), (8, 6)] ∧ fig.hist = some [5, 6]) ∧
    (match plotTerms [("u", [1, 2])] ["u"] ["u_t"] none none none with | .ok none => true | _ => false) = true ∧
    ∃ fig, plotResiduals (fun p => p.1 + p.2) [(1, 2), (3, 4)] [10, 10] ⟨[2], fun _ => 3⟩ ⟨[2], fun _ => 1⟩ = .ok fig ∧ fig.points = [(2, 1, 7), (4, 3, 3)] := by
  refine ⟨⟨⟨[(3, 5), (8, 6)], some [5, 6], some [5, 6], "a", "b"⟩, DlgaOld.Claims.eq_ok_of _ _ (by decide +kernel), rfl, rfl⟩, by decide +kernel, ?_⟩
  obtain ⟨fig, h, -, -, hp⟩ := C202_residuals (fun p => p.1 + p.2) [(1, 2), (3, 4)] [10, 10] ⟨[2], fun _ => 3⟩ ⟨[2], fun _ => 1⟩ rfl rfl
  refine ⟨fig, h, ?_⟩
  have hl := (C202_residual_sizes _ _ _ _ _ fig h).1
  apply List.ext_getElem?
  intro k
  match k with
  | 0 => rw [hp 0 1 2 10 rfl rfl]; norm_num
  | 1 => rw [hp 1 3 4 10 rfl rfl]; norm_num
  | k + 2 => rw [List.getElem?_eq_none (by simp [hl]), List.getElem?_eq_none (by simp)]

end Verif.Viz.DlgaCmp.Claims
