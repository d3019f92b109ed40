import Verif.Claims.AdapterSparse
/-!
# C79 – the sparse adapter on legacy (x, t) data sets
-/
namespace Verif.Discover.Adapter.Claims
open Verif.Data Verif.Discover Verif.Discover.Adapter Verif.Claims

/-- Index `i` of an axis of `n` points survives the cut: not among the first or last `⌊n q⌋` – unless fewer than two points would remain, then
every index survives. -/
def Kept (cut : Option ℚ) (n i : Nat) : Prop :=
  i < n ∧ ∀ q, cut = some q → 2 + 2 * ((n : ℚ) * q).floor.toNat ≤ n → ((n : ℚ) * q).floor.toNat ≤ i ∧ i + ((n : ℚ) * q).floor.toNat < n

/-- One axis of `cutRanges`. -/
def axisRange (cut : Option ℚ) (n : Nat) : Nat × Nat := match cut with | none => (0, n) | some q => trimRange q n

theorem axisRange_le (cut : Option ℚ) (n : Nat) : (axisRange cut n).1 ≤ (axisRange cut n).2 ∧ (axisRange cut n).2 ≤ n := by
  unfold axisRange
  cases cut with
  | none => simp
  | some q =>
    simp only [trimRange]
    by_cases h : n - ((n : ℚ) * q).floor.toNat - ((n : ℚ) * q).floor.toNat < 2
    · rw [if_pos h]; simp
    · rw [if_neg h]; simp only; omega

theorem kept_iff (cut : Option ℚ) (n i : Nat) : Kept cut n i ↔ (axisRange cut n).1 ≤ i ∧ i < (axisRange cut n).2 := by
  unfold Kept axisRange
  cases cut with
  | none => simp
  | some q =>
    simp only [Option.some.injEq, forall_eq', trimRange]
    by_cases h : n - ((n : ℚ) * q).floor.toNat - ((n : ℚ) * q).floor.toNat < 2
    · rw [if_pos h]; simp only; constructor
      · intro g; omega
      · intro g; exact ⟨g.2, fun h' => by omega⟩
    · rw [if_neg h]; simp only; constructor
      · intro g; have := g.2 (by omega); omega
      · intro g; exact ⟨by omega, fun _ => by omega⟩

theorem cutRanges_ok (cut : Option ℚ) (nx nt : Nat) (p : (Nat × Nat) × (Nat × Nat)) (h : cutRanges cut nx nt = .ok p) :
    p = (axisRange cut nx, axisRange cut nt) := by
  unfold cutRanges at h
  cases cut with
  | none => cases h; rfl
  | some q =>
    simp only at h
    by_cases hq : ¬ (0 ≤ q ∧ q < 1 / 2)
    · rw [if_pos hq] at h; cases h
    · rw [if_neg hq] at h; cases h; rfl

theorem slice_get {α : Type} (l : List α) (a b i : Nat) (hi : a + i < b) : (slice l a b)[i]? = l[a + i]? := by
  unfold slice
  rw [List.getElem?_drop, List.getElem?_take_of_lt hi]

theorem slice_length {α : Type} (l : List α) (a b : Nat) (hb : b ≤ l.length) : (slice l a b).length = b - a := by
  simp [slice, Nat.min_eq_left hb]

/-- How many whole space columns `spline_sample` measures on an `nx × nt` grid: as many as fit into the requested number of points, or the
requested share of the columns; at least one and at most all. -/
def askedColumns (cfg : SparseCfg) (nx nt : Nat) : Nat :=
  min nx (max 1 (match cfg.sample with
    | some n => n.toNat / nt
    | none => ((nx : ℚ) * cfg.dataRatio.getD cfg.ratio).floor.toNat))

/-- The drawn positions are different positions of the grid. -/
theorem positions_spec (cfg : SparseCfg) (choice : Nat → Nat → List Nat) (hc : Draw choice) (nx nt : Nat) (pos : List (Nat × Nat))
    (h : positions cfg choice nx nt = .ok pos) :
    pos.Nodup ∧ (∀ p ∈ pos, p.1 < nx ∧ p.2 < nt) ∧ (cfg.spline = false → (pos.length : ℤ) = asked cfg (nx * nt)) ∧
    (cfg.spline = true → (∀ p ∈ pos, ∀ j < nt, (p.1, j) ∈ pos) ∧ pos.length = askedColumns cfg nx nt * nt) := by
  unfold positions at h
  cases hs : cfg.spline with
  | false =>
    rw [hs, if_neg (by simp)] at h
    cases hn : nSamples cfg (nx * nt) with
    | error e => rw [hn] at h; cases h
    | ok n =>
      rw [hn] at h
      simp only at h
      by_cases h2 : n < 0
      · rw [if_pos h2] at h; cases h
      rw [if_neg h2] at h
      cases h
      obtain ⟨g1, g2⟩ := nSamples_ok _ _ _ hn
      obtain ⟨d1, d2, d3⟩ := hc (nx * nt) n.toNat (by omega)
      refine ⟨?_, ?_, fun _ => ?_, fun h => absurd h (by simp)⟩
      · refine List.Nodup.map_on ?_ d2
        intro a ha b hb e
        simp only [Prod.mk.injEq] at e
        rw [← Nat.div_add_mod a nt, ← Nat.div_add_mod b nt, e.1, e.2]
      · intro p hp
        obtain ⟨k, hk, rfl⟩ := List.mem_map.1 hp
        have := d3 k hk
        have hnt : 0 < nt := Nat.pos_of_ne_zero fun e => by rw [e] at this; omega
        exact ⟨Nat.div_lt_of_lt_mul (by rw [Nat.mul_comm]; exact this), Nat.mod_lt _ hnt⟩
      · rw [List.length_map, d1, ← g1]; omega
  | true =>
    rw [hs, if_pos rfl] at h
    cases hn : splineCount cfg nx nt with
    | error e => rw [hn] at h; cases h
    | ok k =>
      rw [hn] at h
      cases h
      have hk' : k = askedColumns cfg nx nt := by
        unfold splineCount at hn
        simp only at hn
        by_cases hq : ¬ (0 < cfg.dataRatio.getD cfg.ratio ∧ cfg.dataRatio.getD cfg.ratio ≤ 1)
        · rw [if_pos hq] at hn; cases hn
        · rw [if_neg hq] at hn; cases hn; unfold askedColumns; cases cfg.sample <;> rfl
      have hk : k ≤ nx := by rw [hk']; exact Nat.min_le_left _ _
      obtain ⟨d1, d2, d3⟩ := hc nx k hk
      have hperm := List.perm_insertionSort (· ≤ ·) (choice nx k)
      refine ⟨?_, ?_, fun h => absurd h (by simp), fun _ => ?_⟩
      · rw [List.nodup_flatMap]
        refine ⟨fun i _ => ?_, ?_⟩
        · refine List.Nodup.map_on ?_ List.nodup_range
          intro a _ b _ e
          simpa using e
        · refine List.Pairwise.imp ?_ ((hperm.nodup_iff).2 d2)
          intro a b hab p hp hq
          simp only [List.mem_map] at hp hq
          obtain ⟨_, _, rfl⟩ := hp
          obtain ⟨_, _, e⟩ := hq
          simp only [Prod.mk.injEq] at e
          exact hab e.1.symm
      · intro p hp
        simp only [List.mem_flatMap, List.mem_map, List.mem_range] at hp
        obtain ⟨i, hi, j, hj, rfl⟩ := hp
        exact ⟨d3 i (hperm.mem_iff.1 hi), hj⟩
      · refine ⟨fun p hp j hj => ?_, ?_⟩
        · simp only [List.mem_flatMap, List.mem_map, List.mem_range] at hp ⊢
          obtain ⟨i, hi, j', hj', rfl⟩ := hp
          exact ⟨i, hi, j, hj, rfl⟩
        · rw [← hk']
          simp [List.length_flatMap, hperm.length_eq, d1]

/-- What the legacy path returns. -/
theorem sparse_legacy {d : DS ℚ ℚ} {x t : List ℚ} (hx : d.x = some x) (ht : d.t = some t) (hf : d.fields = none) (hc : d.coords = none)
    (fin : ℚ → Bool) (cfg : SparseCfg) (w : Draws) (r : Sparse) (hr : sparse fin cfg w d = .ok r) :
    let X := slice x (axisRange cfg.cut x.length).1 (axisRange cfg.cut x.length).2
    let T := slice t (axisRange cfg.cut t.length).1 (axisRange cfg.cut t.length).2
    let U : Arr ℚ := ⟨[X.length, T.length], shift2 d.usol.get (axisRange cfg.cut x.length).1 (axisRange cfg.cut t.length).1⟩
    ∃ (pos : List (Nat × Nat)) (P : List Sample × List Sample × List (List ℚ)),
      d.usol.shape = [x.length, t.length] ∧ positions cfg w.sample X.length T.length = .ok pos ∧
      r.measured = (pos.map fun p => [(X[p.1]?).getD 0, (T[p.2]?).getD 0]) ∧
      boundsOf [if cfg.cut.isSome then X else x, if cfg.cut.isSome then T else t] = .ok (r.lb, r.ub) ∧
      P = processData (r.measured.zip (addNoise w.noise (pos.map fun p => U.get [p.1, p.2]))) w.train (w.unit 2) r.lb r.ub ∧
      r.star = (X.flatMap fun a => T.map fun b => [a, b]).zip U.ravel ∧ r.shape = U.shape ∧ r.params = d.params ∧
      r.colloc = (w.unit 2).map (scaleRow r.lb r.ub) ++ r.train.map Prod.fst ∧
      (cfg.dataRatio = none → r.train = P.1 ∧ r.val = P.2.1) ∧
      (∀ q, cfg.dataRatio = some q → 0 < q ∧ q ≤ 1 ∧ r.train = subset q P.1 w.subTrain ∧ r.val = subset q P.2.1 w.subVal) := by
  unfold sparse at hr
  rw [hf, hc] at hr
  simp only [sparseLegacy, hx, ht] at hr
  by_cases hs : d.usol.shape ≠ [x.length, t.length]
  · rw [if_pos hs] at hr; cases hr
  rw [if_neg hs] at hr
  have hs' : d.usol.shape = [x.length, t.length] := by simpa using hs
  cases hcr : cutRanges cfg.cut x.length t.length with
  | error e => rw [hcr] at hr; cases hr
  | ok p =>
    rw [hcr, cutRanges_ok _ _ _ _ hcr] at hr
    simp only at hr
    intro X T U
    cases hpos : positions cfg w.sample X.length T.length with
    | error e => rw [hpos] at hr; cases hr
    | ok pos =>
      rw [hpos] at hr
      simp only at hr
      cases hb : boundsOf [if cfg.cut.isSome then X else x, if cfg.cut.isSome then T else t] with
      | error e => rw [hb] at hr; cases hr
      | ok q =>
        obtain ⟨lb, ub⟩ := q
        rw [hb] at hr
        simp only at hr
        cases hd : cfg.dataRatio with
        | none =>
          rw [hd] at hr
          cases hr
          exact ⟨pos, _, hs', rfl, rfl, rfl, rfl, rfl, rfl, rfl, rfl, fun _ => ⟨rfl, rfl⟩, fun q h => nomatch h⟩
        | some q =>
          rw [hd] at hr
          simp only at hr
          by_cases hq : ¬ (0 < q ∧ q ≤ 1)
          · rw [if_pos hq] at hr; cases hr
          rw [if_neg hq] at hr
          cases hr
          simp only [not_not] at hq
          exact ⟨pos, _, hs', rfl, rfl, rfl, rfl, rfl, rfl, rfl, rfl, fun h => (nomatch h), fun q' h => by
            cases h; exact ⟨hq.1, hq.2, rfl, rfl⟩⟩

theorem subset_spec {α : Type} (q : ℚ) (l : List α) (choice : Nat → Nat → List Nat) (hc : Draw choice) :
    (subset q l choice).Subperm l ∧ (subset q l choice).length = min l.length (max 1 ((l.length : ℚ) * q).floor.toNat) := by
  unfold subset
  simp only
  by_cases h : max 1 ((l.length : ℚ) * q).floor.toNat < l.length
  · rw [if_pos h]
    obtain ⟨d1, d2, d3⟩ := hc l.length _ h.le
    refine ⟨?_, ?_⟩
    · have := rows_sublist_perm l _ d2 d3
      exact (List.sublist_append_left _ _).subperm.trans this.subperm
    · rw [rows_length _ _ d3, d1, Nat.min_eq_right h.le]
  · rw [if_neg h]
    exact ⟨List.Subperm.refl _, by rw [Nat.min_eq_left (by omega)]⟩

theorem pointsSlice {x t : List ℚ} {cut : Option ℚ} {p : Nat × Nat}
    (h1 : p.1 < (slice x (axisRange cut x.length).1 (axisRange cut x.length).2).length)
    (h2 : p.2 < (slice t (axisRange cut t.length).1 (axisRange cut t.length).2).length) :
    Kept cut x.length ((axisRange cut x.length).1 + p.1) ∧ Kept cut t.length ((axisRange cut t.length).1 + p.2) ∧
    (slice x (axisRange cut x.length).1 (axisRange cut x.length).2)[p.1]? = x[(axisRange cut x.length).1 + p.1]? ∧
    (slice t (axisRange cut t.length).1 (axisRange cut t.length).2)[p.2]? = t[(axisRange cut t.length).1 + p.2]? := by
  rw [slice_length _ _ _ (axisRange_le _ _).2] at h1 h2
  exact ⟨(kept_iff _ _ _).2 (by omega), (kept_iff _ _ _).2 (by omega), slice_get _ _ _ _ (by omega), slice_get _ _ _ _ (by omega)⟩

/-- **C79** (measured points, legacy): the measured points are different grid points that survive the cut, as many as asked for (whole space
columns, as many as asked for, with `spline_sample`); without `data_ratio` training and validation data together are exactly the measured points, each with its own
value (plus its own noise), four fifths of them for training; with `data_ratio` they are a part of that, of the stated sizes. -/
theorem C79_measured_legacy {d : DS ℚ ℚ} {x t : List ℚ} (hx : d.x = some x) (ht : d.t = some t) (hf : d.fields = none) (hc : d.coords = none)
    (fin : ℚ → Bool) (cfg : SparseCfg) (w : Draws) (hw : Draws.Valid w) (r : Sparse) (hr : sparse fin cfg w d = .ok r) :
    ∃ ps : List (Nat × Nat), (∀ p ∈ ps, Kept cfg.cut x.length p.1 ∧ Kept cfg.cut t.length p.2) ∧ ps.Nodup ∧
      (cfg.spline = false → (ps.length : ℤ) = asked cfg r.star.length) ∧
      (cfg.spline = true → (∀ p ∈ ps, ∀ j, Kept cfg.cut t.length j → (p.1, j) ∈ ps) ∧
        ∀ nx nt, r.shape = [nx, nt] → ps.length = askedColumns cfg nx nt * nt) ∧
      r.measured = ps.map (fun p => [(x[p.1]?).getD 0, (t[p.2]?).getD 0]) ∧
      ∃ values : List ℚ, values = (match w.noise with
          | none => ps.map fun p => d.usol.get [p.1, p.2]
          | some e => List.zipWith (· + ·) (ps.map fun p => d.usol.get [p.1, p.2]) (e (ps.map fun p => d.usol.get [p.1, p.2]))) ∧
        (cfg.dataRatio = none → (r.train ++ r.val).Perm (r.measured.zip values) ∧ r.train.length = 4 * ps.length / 5) ∧
        (∀ q, cfg.dataRatio = some q → 0 < q ∧ q ≤ 1 ∧ (r.train ++ r.val).Subperm (r.measured.zip values) ∧
          r.train.length = min (4 * ps.length / 5) (max 1 (((4 * ps.length / 5 : ℕ) : ℚ) * q).floor.toNat) ∧
          r.val.length = min (ps.length - 4 * ps.length / 5) (max 1 (((ps.length - 4 * ps.length / 5 : ℕ) : ℚ) * q).floor.toNat)) := by
  obtain ⟨pos, P, hs, hpos, g1, g2, g3, g4, g5, g6, g7, g8, g9⟩ := sparse_legacy hx ht hf hc fin cfg w r hr
  obtain ⟨p1, p2, p3, p4⟩ := positions_spec cfg w.sample hw.sample _ _ _ hpos
  have hkept := fun p (hp : p ∈ pos) => pointsSlice (x := x) (t := t) (cut := cfg.cut) (p := p) (p2 p hp).1 (p2 p hp).2
  have hlx := slice_length x (axisRange cfg.cut x.length).1 _ (axisRange_le cfg.cut x.length).2
  have hlt := slice_length t (axisRange cfg.cut t.length).1 _ (axisRange_le cfg.cut t.length).2
  let f : Nat × Nat → Nat × Nat := fun p => ((axisRange cfg.cut x.length).1 + p.1, (axisRange cfg.cut t.length).1 + p.2)
  have hm : r.measured = (pos.map f).map (fun p => [(x[p.1]?).getD 0, (t[p.2]?).getD 0]) := by
    rw [g1, List.map_map]
    apply List.map_congr_left
    intro p hp
    obtain ⟨_, _, k3, k4⟩ := hkept p hp
    simp only [Function.comp, f]
    rw [k3, k4]
  have hv : (pos.map fun p => shift2 d.usol.get (axisRange cfg.cut x.length).1 (axisRange cfg.cut t.length).1 [p.1, p.2]) =
      (pos.map f).map fun p => d.usol.get [p.1, p.2] := by
    rw [List.map_map]
    apply List.map_congr_left
    intro p _
    rfl
  have hstar : r.star.length = (slice x (axisRange cfg.cut x.length).1 (axisRange cfg.cut x.length).2).length *
      (slice t (axisRange cfg.cut t.length).1 (axisRange cfg.cut t.length).2).length := by
    rw [g4, List.length_zip, Arr.ravel, List.length_map, length_indices]
    simp [List.length_flatMap]
  rw [hv] at g3
  have hva : addNoise w.noise ((pos.map f).map fun p => d.usol.get [p.1, p.2]) = (match w.noise with
          | none => (pos.map f).map fun p => d.usol.get [p.1, p.2]
          | some e => List.zipWith (· + ·) ((pos.map f).map fun p => d.usol.get [p.1, p.2])
            (e ((pos.map f).map fun p => d.usol.get [p.1, p.2]))) := by
    unfold addNoise; cases w.noise <;> rfl
  have hlen : (r.measured.zip (addNoise w.noise ((pos.map f).map fun p => d.usol.get [p.1, p.2]))).length = (pos.map f).length := by
    rw [List.length_zip, hm]
    have h2 : (addNoise w.noise ((pos.map f).map fun p => d.usol.get [p.1, p.2])).length = pos.length := by
      unfold addNoise
      cases hno : w.noise with
      | none => simp
      | some e => simp [hw.noise e hno]
    rw [h2]; simp
  obtain ⟨s1, s2, s3⟩ := process_spec (r.measured.zip (addNoise w.noise ((pos.map f).map fun p => d.usol.get [p.1, p.2]))) w.train hw.train
    (w.unit 2) r.lb r.ub
  rw [← g3] at s1 s2
  rw [hlen] at s2
  refine ⟨pos.map f, ?_, ?_, ?_, ?_, hm, _, rfl, ?_, ?_⟩
  · intro p hp
    obtain ⟨p', hp', rfl⟩ := List.mem_map.1 hp
    exact ⟨(hkept p' hp').1, (hkept p' hp').2.1⟩
  · refine List.Nodup.map_on ?_ p1
    intro a _ b _ e
    simp only [f, Prod.mk.injEq] at e
    exact Prod.ext (by omega) (by omega)
  · intro h
    rw [hstar, List.length_map]
    exact p3 h
  · intro h
    refine ⟨fun p hp j hj => ?_, fun nx nt hsh => ?_⟩
    · obtain ⟨p', hp', rfl⟩ := List.mem_map.1 hp
      have hj' := (kept_iff _ _ _).1 hj
      have := (p4 h).1 p' hp' (j - (axisRange cfg.cut t.length).1) (by rw [hlt]; omega)
      refine List.mem_map.2 ⟨_, this, ?_⟩
      simp only [f, Prod.mk.injEq, true_and]
      omega
    · rw [g5] at hsh
      simp only [List.cons.injEq, and_true] at hsh
      rw [List.length_map, (p4 h).2, hsh.1, hsh.2]
  · intro h
    obtain ⟨h1, h2⟩ := g8 h
    rw [h1, h2]
    rw [hva] at s1
    exact ⟨s1, s2⟩
  · intro q h
    obtain ⟨h0, h01, h1, h2⟩ := g9 q h
    rw [hva] at s1
    obtain ⟨a1, a2⟩ := subset_spec q P.1 w.subTrain hw.subTrain
    obtain ⟨b1, b2⟩ := subset_spec q P.2.1 w.subVal hw.subVal
    have hV : P.2.1.length = (pos.map f).length - 4 * (pos.map f).length / 5 := by
      have := s1.length_eq
      rw [← hva, hlen, List.length_append, s2] at this
      omega
    refine ⟨h0, h01, ?_, ?_, ?_⟩
    · rw [h1, h2]
      obtain ⟨l1, c1, c2⟩ := a1
      obtain ⟨l2, c3, c4⟩ := b1
      exact List.Subperm.trans ⟨l1 ++ l2, c1.append c3, c2.append c4⟩ s1.subperm
    · rw [h1, a2, s2]
    · rw [h2, b2, hV]

/-- **C79** (evaluation points, legacy): the evaluation set lists the surviving grid points in row-major order with their coordinates and values. -/
theorem C79_star_legacy {d : DS ℚ ℚ} {x t : List ℚ} (hx : d.x = some x) (ht : d.t = some t) (hf : d.fields = none) (hc : d.coords = none)
    (fin : ℚ → Bool) (cfg : SparseCfg) (w : Draws) (r : Sparse) (hr : sparse fin cfg w d = .ok r) :
    ∃ kx kt : List Nat, kx.Pairwise (· < ·) ∧ kt.Pairwise (· < ·) ∧ (∀ i, i ∈ kx ↔ Kept cfg.cut x.length i) ∧
      (∀ j, j ∈ kt ↔ Kept cfg.cut t.length j) ∧ r.shape = [kx.length, kt.length] ∧
      r.star = kx.flatMap fun i => kt.map fun j => ([(x[i]?).getD 0, (t[j]?).getD 0], d.usol.get [i, j]) := by
  obtain ⟨pos, P, hs, hpos, g1, g2, g3, g4, g5, g6, g7, g8, g9⟩ := sparse_legacy hx ht hf hc fin cfg w r hr
  have hlx := slice_length x (axisRange cfg.cut x.length).1 _ (axisRange_le cfg.cut x.length).2
  have hlt := slice_length t (axisRange cfg.cut t.length).1 _ (axisRange_le cfg.cut t.length).2
  have hlex := axisRange_le cfg.cut x.length
  have hlet := axisRange_le cfg.cut t.length
  have hsl : ∀ (l : List ℚ) (a b : Nat), b ≤ l.length → slice l a b = (List.range' a (b - a)).map fun i => (l[i]?).getD 0 := by
    intro l a b hb
    apply List.ext_getElem?
    intro i
    by_cases hi : a + i < b
    · rw [slice_get _ _ _ _ hi, List.getElem?_map, List.getElem?_range' (by omega)]
      simp [List.getElem?_eq_getElem (show a + i < l.length by omega)]
    · rw [List.getElem?_eq_none (by rw [slice_length _ _ _ hb]; omega), List.getElem?_eq_none (by simp; omega)]
  refine ⟨List.range' (axisRange cfg.cut x.length).1 ((axisRange cfg.cut x.length).2 - (axisRange cfg.cut x.length).1),
    List.range' (axisRange cfg.cut t.length).1 ((axisRange cfg.cut t.length).2 - (axisRange cfg.cut t.length).1), List.pairwise_lt_range', List.pairwise_lt_range', ?_, ?_, ?_, ?_⟩
  · intro i; rw [kept_iff, List.mem_range'_1]; omega
  · intro i; rw [kept_iff, List.mem_range'_1]; omega
  · rw [g5]; simp [hlx, hlt]
  · rw [g4]
    simp only [Arr.ravel, hlx, hlt, indices, List.map_cons, List.map_nil]
    rw [hsl x _ _ hlex.2, hsl t _ _ hlet.2]
    generalize (axisRange cfg.cut x.length).2 - (axisRange cfg.cut x.length).1 = m
    generalize (axisRange cfg.cut t.length).2 - (axisRange cfg.cut t.length).1 = n
    generalize (axisRange cfg.cut x.length).1 = a
    generalize (axisRange cfg.cut t.length).1 = b
    rw [List.range'_eq_map_range, List.range'_eq_map_range]
    generalize List.range m = M
    induction M with
    | nil => rfl
    | cons i M ih =>
      simp only [List.map_cons, List.flatMap_cons, List.map_append]
      rw [List.zip_append (by simp [List.length_flatMap]), ih]
      congr 1
      generalize List.range n = N
      clear ih
      induction N with
      | nil => rfl
      | cons j N ihN =>
        simp only [List.map_cons, List.flatMap_cons, List.cons_append, List.nil_append, List.zip_cons_cons]
        rw [ihN]
        rfl

/-- **C79** (collocation points, legacy): the box is spanned by the smallest and largest surviving coordinates; every collocation point lies in
it and the training points are the last ones. -/
theorem C79_colloc_legacy {d : DS ℚ ℚ} {x t : List ℚ} (hx : d.x = some x) (ht : d.t = some t) (hf : d.fields = none) (hc : d.coords = none)
    (fin : ℚ → Bool) (cfg : SparseCfg) (w : Draws) (hw : Draws.Valid w) (r : Sparse) (hr : sparse fin cfg w d = .ok r) :
    ∃ xa xb ta tb : ℚ, r.lb = [xa, ta] ∧ r.ub = [xb, tb] ∧
      (∃ i j, Kept cfg.cut x.length i ∧ Kept cfg.cut x.length j ∧ x[i]? = some xa ∧ x[j]? = some xb) ∧
      (∃ i j, Kept cfg.cut t.length i ∧ Kept cfg.cut t.length j ∧ t[i]? = some ta ∧ t[j]? = some tb) ∧
      (∀ i v, Kept cfg.cut x.length i → x[i]? = some v → xa ≤ v ∧ v ≤ xb) ∧
      (∀ i v, Kept cfg.cut t.length i → t[i]? = some v → ta ≤ v ∧ v ≤ tb) ∧
      (∀ p ∈ r.colloc, InBox r.lb r.ub p) ∧ r.colloc.drop (r.colloc.length - r.train.length) = r.train.map Prod.fst ∧
      r.colloc.length = (w.unit 2).length + r.train.length := by
  obtain ⟨ps, q1, _, _, _, q4, values, _, q5, q6⟩ := C79_measured_legacy hx ht hf hc fin cfg w hw r hr
  obtain ⟨pos, P, hs, hpos, g1, g2, g3, g4, g5, g6, g7, g8, g9⟩ := sparse_legacy hx ht hf hc fin cfg w r hr
  have hcase : ∀ l : List ℚ, (if cfg.cut.isSome = true then slice l (axisRange cfg.cut l.length).1 (axisRange cfg.cut l.length).2 else l) =
      slice l (axisRange cfg.cut l.length).1 (axisRange cfg.cut l.length).2 := by
    intro l
    by_cases h : cfg.cut.isSome = true
    · rw [if_pos h]
    · rw [if_neg h]
      have : cfg.cut = none := by simpa using h
      simp [this, axisRange, slice]
  rw [hcase x, hcase t] at g2
  have hmem : ∀ (l : List ℚ) (v : ℚ), v ∈ slice l (axisRange cfg.cut l.length).1 (axisRange cfg.cut l.length).2 ↔
      ∃ i, Kept cfg.cut l.length i ∧ l[i]? = some v := by
    intro l v
    have hle := axisRange_le cfg.cut l.length
    have hlen := slice_length l (axisRange cfg.cut l.length).1 _ hle.2
    rw [List.mem_iff_getElem?]
    constructor
    · rintro ⟨i, hi⟩
      have hlt : i < (slice l (axisRange cfg.cut l.length).1 (axisRange cfg.cut l.length).2).length := by
        by_contra hcc
        rw [List.getElem?_eq_none (by omega)] at hi
        cases hi
      rw [slice_get _ _ _ _ (by omega)] at hi
      exact ⟨_, (kept_iff _ _ _).2 (by omega), hi⟩
    · rintro ⟨i, hk, hi⟩
      have hk' := (kept_iff _ _ _).1 hk
      refine ⟨i - (axisRange cfg.cut l.length).1, ?_⟩
      rw [slice_get _ _ _ _ (by omega), show (axisRange cfg.cut l.length).1 + (i - (axisRange cfg.cut l.length).1) = i by omega]
      exact hi
  obtain ⟨b1, b2, b3⟩ := boundsOf_spec _ _ _ g2
  obtain ⟨xa, xb, hxa, hxb, ex⟩ := b3 0 _ rfl
  obtain ⟨ta, tb, hta, htb, et⟩ := b3 1 _ rfl
  have hlb : r.lb = [xa, ta] := by
    match hl : r.lb, b1, hxa, hta with
    | [a, b], _, h1, h2 => simp at h1 h2; rw [h1, h2]
  have hub : r.ub = [xb, tb] := by
    match hl : r.ub, b2, hxb, htb with
    | [a, b], _, h1, h2 => simp at h1 h2; rw [h1, h2]
  have mx : ∀ i v, Kept cfg.cut x.length i → x[i]? = some v → xa ≤ v ∧ v ≤ xb := fun i v hk hi => ex.2.2 v ((hmem x v).2 ⟨i, hk, hi⟩)
  have mt : ∀ i v, Kept cfg.cut t.length i → t[i]? = some v → ta ≤ v ∧ v ≤ tb := fun i v hk hi => et.2.2 v ((hmem t v).2 ⟨i, hk, hi⟩)
  obtain ⟨i1, hi1, hi1'⟩ := (hmem x xa).1 ex.1
  obtain ⟨i2, hi2, hi2'⟩ := (hmem x xb).1 ex.2.1
  obtain ⟨j1, hj1, hj1'⟩ := (hmem t ta).1 et.1
  obtain ⟨j2, hj2, hj2'⟩ := (hmem t tb).1 et.2.1
  have hxx := mx i1 xa hi1 hi1'
  have htt := mt j1 ta hj1 hj1'
  refine ⟨xa, xb, ta, tb, hlb, hub, ⟨i1, i2, hi1, hi2, hi1', hi2'⟩, ⟨j1, j2, hj1, hj2, hj1', hj2'⟩, mx, mt, ?_, ?_, ?_⟩
  · intro p hp
    rw [g7] at hp
    rcases List.mem_append.1 hp with hp | hp
    · obtain ⟨row, hrow, rfl⟩ := List.mem_map.1 hp
      obtain ⟨u1, u2⟩ := hw.unit _ row hrow
      refine scaleRow_inBox _ _ _ (by rw [hlb, u1]; rfl) (by rw [hub, u1]; rfl) u2 ?_
      intro k a b ha hb
      rw [hlb] at ha; rw [hub] at hb
      match k with
      | 0 => simp at ha hb; subst ha; subst hb; exact hxx.2
      | 1 => simp at ha hb; subst ha; subst hb; exact htt.2
      | k + 2 => simp at ha
    · obtain ⟨s, hs', rfl⟩ := List.mem_map.1 hp
      have hz : s ∈ r.measured.zip values := by
        cases hd : cfg.dataRatio with
        | none => exact ((q5 hd).1.mem_iff).1 (List.mem_append_left _ hs')
        | some q => exact (q6 q hd).2.2.1.subset (List.mem_append_left _ hs')
      have hm := (List.of_mem_zip (show (s.1, s.2) ∈ _ from hz)).1
      rw [q4] at hm
      obtain ⟨pp, hpp, e⟩ := List.mem_map.1 hm
      rw [← e]
      obtain ⟨k1, k2⟩ := q1 pp hpp
      obtain ⟨v1, hv1⟩ : ∃ v, x[pp.1]? = some v := ⟨_, List.getElem?_eq_getElem k1.1⟩
      obtain ⟨v2, hv2⟩ : ∃ v, t[pp.2]? = some v := ⟨_, List.getElem?_eq_getElem k2.1⟩
      rw [hv1, hv2, hlb, hub]
      refine ⟨rfl, fun k v hv => ?_⟩
      match k with
      | 0 => simp at hv; subst hv; exact ⟨xa, xb, rfl, rfl, mx _ _ k1 hv1⟩
      | 1 => simp at hv; subst hv; exact ⟨ta, tb, rfl, rfl, mt _ _ k2 hv2⟩
      | k + 2 => simp at hv
  · rw [g7, List.length_append, List.length_map, List.length_map, Nat.add_sub_cancel, List.drop_append_of_le_length (by simp)]
    simp
  · rw [g7]; simp

/-! ## Concrete cases -/

set_option synthInstance.maxSize 2000

/-- Draws that take the first numbers, with one row of the hypercube. -/
def firstDraws : Draws where
  sample := fun _ k => List.range k
  noise := none
  train := fun _ k => List.range k
  unit := fun n => [List.replicate n (1 / 2)]
  subTrain := fun _ k => List.range k
  subVal := fun _ k => List.range k

/-- They are possible outcomes. -/
theorem firstDraws_valid : Draws.Valid firstDraws := by
  have h : Draw fun _ k => List.range k := fun n k hk =>
    ⟨by simp, List.nodup_range, fun i hi => by simp at hi; omega⟩
  refine ⟨h, h, h, h, fun e he => (nomatch he), fun n r hr => ?_⟩
  simp [firstDraws] at hr
  subst hr
  exact ⟨by simp, fun a ha => by rw [List.eq_of_mem_replicate ha]; norm_num⟩

/-- A legacy data set of 5 × 5 points with one parameter field. -/
def legacySet : DS ℚ ℚ where
  x := some [0, 1, 2, 3, 4]
  t := some [0, 1, 2, 3, 4]
  usol := ⟨[5, 5], fun i => (((i[0]?).getD 0 : Nat) : ℚ) + 10 * (((i[1]?).getD 0 : Nat) : ℚ)⟩
  fields := none
  coords := none
  axisOrder := none
  target := none
  lhs := none
  params := [("k", ⟨[5, 5], fun _ => 1⟩)]

/-- An N-D data set stored with `t` between `x` and `y`. -/
def ndSet : DS ℚ ℚ where
  x := none
  t := none
  usol := ⟨[4, 3, 4], fun i => (((i[0]?).getD 0 : Nat) : ℚ) + 10 * (((i[1]?).getD 0 : Nat) : ℚ) + 100 * (((i[2]?).getD 0 : Nat) : ℚ)⟩
  fields := some [("u", ⟨[4, 3, 4], fun i => (((i[0]?).getD 0 : Nat) : ℚ) + 10 * (((i[1]?).getD 0 : Nat) : ℚ) + 100 * (((i[2]?).getD 0 : Nat) : ℚ)⟩)]
  coords := some [("x", [0, 1, 2, 3]), ("t", [0, 1, 2]), ("y", [5, 6, 7, 8])]
  axisOrder := some ["x", "t", "y"]
  target := some "u"
  lhs := some "t"
  params := []

/-- The hypotheses of the N-D theorems are met. -/
example : NdSet ndSet ["x", "t", "y"] "t" (fun a => ((([("x", [0, 1, 2, 3]), ("t", [0, 1, 2]), ("y", [5, 6, 7, 8])] :
    List (String × List ℚ)).lookup a).getD [])) ⟨[4, 3, 4], fun i => (((i[0]?).getD 0 : Nat) : ℚ) + 10 * (((i[1]?).getD 0 : Nat) : ℚ) + 100 * (((i[2]?).getD 0 : Nat) : ℚ)⟩ :=
  ⟨⟨_, _, _, rfl, rfl, rfl, rfl, fun _ _ => rfl⟩, rfl, rfl, by decide, by decide, by decide, fun p hp => by simp [ndSet] at hp⟩

/-- What a call returns, without the arrays' functions. -/
def brief (r : Except Err Sparse) : Option (List (List ℚ × ℚ) × List (List ℚ × ℚ) × List Nat × List (List ℚ)) :=
  match r with | .ok r => some (r.train, r.val, r.shape, [r.lb, r.ub]) | .error _ => none

/-- The regular adapter accepts it and measures times first. -/
example : (match regular (fun _ => true) true (some 2) ndSet with
    | .ok r => some (r.u.shape, r.X, r.u.get [1, 2, 3], r.ut.get [1, 2, 3]) | .error _ => none) =
    some ([3, 4, 4], [[0, 1, 2, 3], [5, 6, 7, 8]], 312, 10) := by decide +kernel

/-- The sparse adapter on it. -/
example : brief (sparse (fun _ => true) { sample := some 5 } firstDraws ndSet) =
    some ([([0, 5, 0], 0), ([0, 5, 1], 10), ([0, 5, 2], 20), ([0, 6, 0], 100)], [([0, 6, 1], 110)], [4, 4, 3], [[0, 5, 0], [3, 8, 2]]) := by
  decide +kernel

/-- The sparse adapter on a legacy data set with a cut. -/
example : brief (sparse (fun _ => true) { sample := some 5, cut := some (1 / 5) } firstDraws legacySet) =
    some ([([1, 1], 11), ([1, 2], 21), ([1, 3], 31), ([2, 1], 12)], [([2, 2], 22)], [3, 3], [[1, 1], [3, 3]]) := by decide +kernel

/-- With `spline_sample` and `data_ratio`. -/
example : brief (sparse (fun _ => true) { spline := true, dataRatio := some (1 / 2) } firstDraws legacySet) =
    some ([([0, 0], 0), ([0, 1], 10), ([0, 2], 20), ([0, 3], 30)], [([1, 3], 31)], [5, 5], [[0, 0], [4, 4]]) := by decide +kernel

/-- **C79**, a defect: with `cut_quantile` the parameter fields are handed over untrimmed – they have entries for 25 points, the evaluation
set has 9. -/
theorem C79_cut_params_counterexample : ∃ (d : DS ℚ ℚ) (cfg : SparseCfg) (w : Draws) (r : Sparse), Draws.Valid w ∧
    sparse (fun _ => true) cfg w d = .ok r ∧ r.shape = [3, 3] ∧ r.star.length = 9 ∧ r.params.map (fun p => p.2.shape) = [[5, 5]] := by
  cases h : sparse (fun _ => true) { sample := some 5, cut := some (1 / 5) } firstDraws legacySet with
  | error e =>
    have hs : (brief (sparse (fun _ => true) { sample := some 5, cut := some (1 / 5) } firstDraws legacySet)).isSome = true := by
      decide +kernel
    rw [h] at hs
    cases hs
  | ok r =>
    have e : (match sparse (fun _ => true) { sample := some 5, cut := some (1 / 5) } firstDraws legacySet with
      | .ok r => some (r.shape, r.star.length, r.params.map fun p => p.2.shape) | .error _ => none) = some ([3, 3], 9, [[5, 5]]) := by
      decide +kernel
    rw [h] at e
    simp only [Option.some.injEq, Prod.mk.injEq] at e
    exact ⟨_, _, _, r, firstDraws_valid, h, e.1, e.2.1, e.2.2⟩

/-- **C79**, a consequence: a single measured point leaves no training data. -/
theorem C79_one_point {d : DS ℚ ℚ} {ax : List String} {lhs : String} {c : String → List ℚ} {u : Arr ℚ} (h : NdSet d ax lhs c u)
    (fin : ℚ → Bool) (cfg : SparseCfg) (hs : cfg.sample = some 1) (w : Draws) (hw : Draws.Valid w) (r : Sparse)
    (hr : sparse fin cfg w d = .ok r) : r.train = [] ∧ r.measured.length = 1 := by
  obtain ⟨ps, _, _, h3, h4, _, h6⟩ := C79_measured_nd_partial h fin cfg w hw r hr
  rw [asked, hs] at h3
  have : ps.length = 1 := by simpa using h3
  rw [this] at h6
  exact ⟨List.eq_nil_of_length_eq_zero h6, by rw [h4]; simpa using this⟩

/-! ## What is accepted -/

/-- **C78** (legacy): the regular adapter accepts exactly finite data with at least three times, a first step that is not zero and (unless
switched off) equal to all other steps up to numpy's tolerance, and `n_input_dim` 1 if given.  Nothing is asked of the space axis. -/
theorem C78_accepted_legacy {d : DS ℚ ℚ} {x t : List ℚ} (hx : d.x = some x) (ht : d.t = some t) (hf : d.fields = none) (hc : d.coords = none)
    (hs : d.usol.shape = [x.length, t.length]) (fin : ℚ → Bool) (enforce : Bool) (nInput : Option Nat) :
    (∃ r, regular fin enforce nInput d = .ok r) ↔
      (∀ i ∈ indices d.usol.shape, fin (d.usol.get i) = true) ∧ (∀ n, nInput = some n → n = 1) ∧
      (3 ≤ t.length ∧ ∃ t0 t1 : ℚ, t[0]? = some t0 ∧ t[1]? = some t1 ∧ t1 ≠ t0 ∧
        (enforce = true → ∀ (k : Nat) (p q : ℚ), t[k]? = some p → t[k + 1]? = some q →
          |(q - p) - (t1 - t0)| ≤ 1 / 100000000 + 1 / 100000 * |t1 - t0|)) := by
  have hfin : allFinite fin d.usol = true ↔ ∀ i ∈ indices d.usol.shape, fin (d.usol.get i) = true := by simp [allFinite]
  constructor
  · rintro ⟨r, hr⟩
    obtain ⟨g1, g2, dt, g3, _⟩ := (regular_legacy hx ht hf hc hs fin enforce nInput r).1 hr
    exact ⟨hfin.1 g1, g2, (timeStep_grid enforce t).1 ⟨dt, g3⟩⟩
  · rintro ⟨g1, g2, g3⟩
    obtain ⟨dt, g4⟩ := (timeStep_grid enforce t).2 g3
    exact ⟨_, (regular_legacy hx ht hf hc hs fin enforce nInput _).2 ⟨hfin.2 g1, g2, dt, g4, rfl⟩⟩

/-- An N-D data set over given `t`, `x` coordinates (`y` is even) with values 0. -/
def zeroSet (x t : List ℚ) : DS ℚ ℚ where
  x := none
  t := none
  usol := ⟨[x.length, t.length, 4], fun _ => 0⟩
  fields := some [("u", ⟨[x.length, t.length, 4], fun _ => 0⟩)]
  coords := some [("x", x), ("t", t), ("y", [0, 1, 2, 3])]
  axisOrder := some ["x", "t", "y"]
  target := some "u"
  lhs := some "t"
  params := []

/-- Whether the regular adapter accepts. -/
def accepts (r : Except Err Regular) : Bool := match r with | .ok _ => true | .error _ => false

/-- **C78**, a defect: the check that the times are evenly spaced passes times whose steps differ by a factor of two (numpy's absolute
tolerance), and the check of the space axes rejects an evenly spaced axis with step `1e-9`, but accepts unevenly spaced axes, on which the
derivatives (C76) are wrong. -/
theorem C78_tolerance_counterexample :
    accepts (regular (fun _ => true) true none (zeroSet [0, 1, 2, 3] [0, 1 / 1000000000, 3 / 1000000000])) = true ∧
    accepts (regular (fun _ => true) true none (zeroSet [0, 1 / 1000000000, 2 / 1000000000, 3 / 1000000000] [0, 1, 2])) = false ∧
    accepts (regular (fun _ => true) true none (zeroSet [0, 1, 2, 4] [0, 1, 2])) = true ∧
    accepts (regular (fun _ => true) true none (zeroSet [0, 1, 2, 3] [0, 1, 3])) = false := by decide +kernel

/-- **C78**, a defect: the sparse adapter has no finiteness check for legacy data sets (it does for N-D data sets): non-finite entries (here
the entries marked by `fin`) are measured and handed over for training. -/
theorem C78_sparse_nonfinite_counterexample :
    (brief (sparse (fun v => v != 0) { sample := some 5 } firstDraws legacySet)).isSome = true ∧
    (brief (sparse (fun v => v != 0) { sample := some 5 } firstDraws ndSet)).isSome = false ∧
    legacySet.usol.get [0, 0] = 0 := by decide +kernel

end Verif.Discover.Adapter.Claims
