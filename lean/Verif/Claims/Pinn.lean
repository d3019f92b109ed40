import Mathlib.Tactic.Linarith
import Mathlib.Tactic.FieldSimp
import Mathlib.Tactic.Ring
import Mathlib.Algebra.Order.Field.Rat
import Verif.Discover.Pinn
import Verif.Claims.AdapterSparse
/-! C121–C124: the network of the sparse mode: observations, the two training loops, the residual. -/
namespace Verif.Discover.Pinn.Claims
open Verif.Discover.Adapter Verif.Discover.Pinn

/-! ## C121: every observation reaches the network -/

/-- A table of `w` columns. -/
def Table (w : Nat) (X : List (List ℚ)) : Prop := ∀ r ∈ X, r.length = w

theorem getElem_column (X : List (List ℚ)) (i k : Nat) : (column X i)[k]? = (X[k]?).map fun r => (r[i]?).getD 0 := by
  rw [column, List.getElem?_map]

theorem row_eq (w : Nat) (hw : 0 < w) (r : List ℚ) (h : r.length = w) :
    ((List.range (w - 1)).map fun i => (r[i]?).getD 0) ++ [(r[w - 1]?).getD 0] = r := by
  apply List.ext_getElem?
  intro i
  by_cases h1 : i < w - 1
  · rw [List.getElem?_append_left (by simpa using h1), List.getElem?_map, List.getElem?_range h1]
    have : i < r.length := by omega
    simp [List.getElem?_eq_getElem this]
  · by_cases h2 : i = w - 1
    · subst h2
      rw [List.getElem?_append_right (by simp)]
      have : w - 1 < r.length := by omega
      simp [List.getElem?_eq_getElem this]
    · rw [List.getElem?_eq_none (by simp; omega), List.getElem?_eq_none (by omega)]

theorem split_rows (w : Nat) (hw : 0 < w) (X : List (List ℚ)) (h : Table w X) : (split w X).rows = X := by
  unfold Cols.rows split
  apply List.ext_getElem?
  intro k
  by_cases hk : k < X.length
  · rw [List.getElem?_map, List.getElem?_range (by simpa [column] using hk), List.getElem?_eq_getElem hk]
    simp only [Option.map_some, List.map_map]
    have := row_eq w hw X[k] (h _ (List.getElem_mem hk))
    conv_rhs => rw [← this]
    congr 3
    · funext i
      simp [getElem_column, List.getElem?_eq_getElem hk]
    · simp [getElem_column, List.getElem?_eq_getElem hk]
  · rw [List.getElem?_eq_none (by simpa [column] using hk), List.getElem?_eq_none (by omega)]

theorem zip_proj {α β : Type} (l : List (α × β)) : (l.map Prod.fst).zip (l.map Prod.snd) = l := by
  induction l with
  | nil => rfl
  | cons a l ih => simp [ih]

/-- **C121.** The rows the network is given are the rows of the tables: training points, validation points and collocation points, with the
values at the training and validation points. -/
theorem C121_rows (w : Nat) (hw : 0 < w) (s : Sparse) (h1 : Table w (s.train.map Prod.fst)) (h2 : Table w (s.val.map Prod.fst))
    (h3 : Table w s.colloc) :
    (importData w s).xt.rows.zip (importData w s).u = s.train ∧ (importData w s).val.rows.zip (importData w s).uVal = s.val ∧
    (importData w s).f.rows = s.colloc := by
  simp only [importData]
  rw [split_rows w hw _ h1, split_rows w hw _ h2, split_rows w hw _ h3]
  exact ⟨zip_proj _, zip_proj _, rfl⟩

/-- After the validation points are added, the network is trained on all of them. -/
theorem merge_rows (w : Nat) (hw : 0 < w) (s : Sparse) (h1 : Table w (s.train.map Prod.fst)) (h2 : Table w (s.val.map Prod.fst)) :
    (merge (importData w s)).xt.rows = (s.train ++ s.val).map Prod.fst ∧ (merge (importData w s)).u = (s.train ++ s.val).map Prod.snd := by
  have hc : (merge (importData w s)).xt = split w ((s.train ++ s.val).map Prod.fst) := by
    simp only [merge, importData, split, List.map_append]
    congr 1
    · apply List.ext_getElem?
      intro i
      simp only [List.getElem?_zipWith, List.getElem?_map]
      by_cases hi : i < w - 1
      · simp [List.getElem?_range hi, column]
      · simp [List.getElem?_eq_none (l := List.range (w - 1)) (i := i) (by simpa using hi)]
    · simp [column]
  refine ⟨?_, by simp [merge, importData]⟩
  rw [hc, split_rows w hw]
  intro r hr
  rw [List.map_append, List.mem_append] at hr
  exact hr.elim (h1 r) (h2 r)

/-- **C121** (after pretraining): the network is trained on the training and the validation observations, each with its value. -/
theorem C121_merged {W O : Type} (m : Machine W O) (load : Option W) (limit duration w : Nat) (hw : 0 < w) (s : Sparse) (st : State W O)
    (hd : st.data = importData w s) (h1 : Table w (s.train.map Prod.fst)) (h2 : Table w (s.val.map Prod.fst)) :
    (pretrain m load limit duration st).1.data.xt.rows.zip (pretrain m load limit duration st).1.data.u = s.train ++ s.val := by
  have : (pretrain m load limit duration st).1.data = merge (importData w s) := by
    rw [← hd]; unfold pretrain; cases load <;> rfl
  rw [this, (merge_rows w hw s h1 h2).1, (merge_rows w hw s h1 h2).2, zip_proj]

/-- **C121** (from the samples): with the split of `SparseData`, the training set after pretraining is a rearrangement of the samples.
Partial, of the whole claim: Fails for a second pretraining (validation points twice) and a box without extent (counterexample). -/
theorem C121_all_samples_partial {W O : Type} (m : Machine W O) (load : Option W) (limit duration w : Nat) (hw : 0 < w) (samples : List Sample)
    (choice : Nat → Nat → List Nat) (hc : Adapter.Claims.Draw choice) (unit : List (List ℚ)) (s : Sparse) (hs : Table w (samples.map Prod.fst))
    (hp : (s.train, s.val, s.colloc) = processData samples choice unit s.lb s.ub) (st : State W O) (hd : st.data = importData w s) :
    ((pretrain m load limit duration st).1.data.xt.rows.zip (pretrain m load limit duration st).1.data.u).Perm samples := by
  have hperm := (Adapter.Claims.process_spec samples choice hc unit s.lb s.ub).1
  rw [← hp] at hperm
  have hmem : ∀ e ∈ s.train ++ s.val, e.1.length = w := fun e he => hs _ (List.mem_map_of_mem (hperm.mem_iff.1 he))
  rw [C121_merged m load limit duration w hw s st hd]
  · exact hperm
  · intro r hr; obtain ⟨e, he, rfl⟩ := List.mem_map.1 hr; exact hmem e (List.mem_append_left _ he)
  · intro r hr; obtain ⟨e, he, rfl⟩ := List.mem_map.1 hr; exact hmem e (List.mem_append_right _ he)

/-- **C121** (scaling): a point of the box is given to the network as a point of `[-1, 1]` on every axis, the lower corner as -1, the upper
corner as 1, and different points stay different. -/
theorem C121_scale (lb ub r : List ℚ) (hl : lb.length = r.length) (hu : ub.length = r.length)
    (hb : ∀ (i : Nat) a b x, lb[i]? = some a → ub[i]? = some b → r[i]? = some x → a < b ∧ a ≤ x ∧ x ≤ b) :
    (∀ (i : Nat) x, r[i]? = some x → ∃ h, (scale lb ub r)[i]? = some (some h) ∧ -1 ≤ h ∧ h ≤ 1 ∧
      (lb[i]? = some x → h = -1) ∧ (ub[i]? = some x → h = 1)) ∧
    ∀ r' : List ℚ, r'.length = r.length → scale lb ub r' = scale lb ub r → r' = r := by
  have key : ∀ (q : List ℚ) (i : Nat) a b x, lb[i]? = some a → ub[i]? = some b → q[i]? = some x →
      (scale lb ub q)[i]? = some (if b - a = 0 then none else some (2 * (x - a) / (b - a) - 1)) := by
    intro q i a b x ha hb' hx
    have hz : (lb.zip ub)[i]? = some (a, b) := by rw [List.getElem?_zip_eq_some]; exact ⟨ha, hb'⟩
    rw [scale, List.getElem?_zipWith, hz, hx]
  refine ⟨fun i x hx => ?_, fun r' hr' he => ?_⟩
  · have hi : i < r.length := (List.getElem?_eq_some_iff.1 hx).1
    have ha := List.getElem?_eq_getElem (l := lb) (i := i) (by omega)
    have hb' := List.getElem?_eq_getElem (l := ub) (i := i) (by omega)
    obtain ⟨h1, h2, h3⟩ := hb i _ _ x ha hb' hx
    have hpos : 0 < ub[i] - lb[i] := by linarith
    refine ⟨2 * (x - lb[i]) / (ub[i] - lb[i]) - 1, ?_, ?_, ?_, ?_, ?_⟩
    · rw [key r i _ _ x ha hb' hx, if_neg (ne_of_gt hpos)]
    · have : 0 ≤ 2 * (x - lb[i]) / (ub[i] - lb[i]) := div_nonneg (by linarith) hpos.le
      linarith
    · have : 2 * (x - lb[i]) / (ub[i] - lb[i]) ≤ 2 := by rw [div_le_iff₀ hpos]; linarith
      linarith
    · intro he; rw [ha] at he; have : lb[i] = x := Option.some.inj he
      rw [this, sub_self]; simp
    · intro he; rw [hb'] at he; have : ub[i] = x := Option.some.inj he
      rw [← this]; field_simp; norm_num
  · apply List.ext_getElem?
    intro i
    by_cases hi : i < r.length
    · have ha := List.getElem?_eq_getElem (l := lb) (i := i) (by omega)
      have hb' := List.getElem?_eq_getElem (l := ub) (i := i) (by omega)
      have hx := List.getElem?_eq_getElem (l := r) (i := i) hi
      have hx' := List.getElem?_eq_getElem (l := r') (i := i) (by omega)
      have h1 := key r i _ _ _ ha hb' hx
      have h2 := key r' i _ _ _ ha hb' hx'
      have hpos : 0 < ub[i] - lb[i] := by have := (hb i _ _ _ ha hb' hx).1; linarith
      rw [he, h1, if_neg (ne_of_gt hpos), if_neg (ne_of_gt hpos)] at h2
      have h3 := Option.some.inj (Option.some.inj h2)
      have h4 : 2 * (r[i] - lb[i]) = 2 * (r'[i] - lb[i]) := by
        have h5 : 2 * (r[i] - lb[i]) / (ub[i] - lb[i]) = 2 * (r'[i] - lb[i]) / (ub[i] - lb[i]) := by linarith
        exact (div_left_inj' (ne_of_gt hpos)).1 h5
      rw [hx, hx']; congr 1; linarith
    · rw [List.getElem?_eq_none (by omega), List.getElem?_eq_none (by omega)]

/-- **C121 (violated).** An axis of the box without extent makes the network's input useless at every point; and calling `pretrain` a second
time adds the validation points a second time. -/
theorem C121_counterexample :
    (∀ (x y : ℚ), scale [0, 1] [2, 1] [x, y] = [some (2 * x / 2 - 1), none]) ∧
    (∀ (W O : Type) (m : Machine W O) (w0 : W) (limit duration : Nat) (st : State W O),
      (pretrain m (some w0) limit duration (pretrain m (some w0) limit duration st).1).1.data.u = st.data.u ++ st.data.uVal ++ st.data.uVal) := by
  refine ⟨fun x y => ?_, fun W O m w0 limit duration st => rfl⟩
  simp [scale]

/-- A sample set meeting the hypotheses of `C121_scale`. -/
example : scale [0, -1] [2, 1] [1, 1] = [some 0, some 1] := by decide +kernel


/-! ## C122: training on the observations -/

/-- Weights and optimiser after `k` updates. -/
def after {W O : Type} (step : W → O → W × O) (w : W) (o : O) : Nat → W × O
  | 0 => (w, o)
  | k + 1 => step (after step w o k).1 (after step w o k).2

/-- Epoch `k` improves: its loss is a number below `1e8` and below the losses of all earlier epochs. -/
def Improves (loss : Nat → Fl) (k : Nat) : Prop :=
  ∃ v, loss k = some v ∧ v < 100000000 ∧ ∀ j < k, ∀ v', loss j = some v' → v < v'

/-- `k` is the last improving epoch before `n`. -/
def LastBefore (loss : Nat → Fl) (n k : Nat) : Prop := k < n ∧ Improves loss k ∧ ∀ j, k < j → j < n → ¬ Improves loss j

/-- The bookkeeping before epoch `i`. -/
structure PreInv {W O : Type} (loss : Nat → Fl) (traj : Nat → W × O) (file0 : Option W) (i : Nat) (s : Pre W O) : Prop where
  w : s.w = (traj i).1
  o : s.o = (traj i).2
  le : s.best ≤ 100000000
  lower : ∀ j < i, ∀ v, loss j = some v → s.best ≤ v
  rest : (s.best = 100000000 ∧ s.last = 0 ∧ s.file = file0 ∧ ∀ j < i, ¬ Improves loss j) ∨
    (LastBefore loss i s.last ∧ loss s.last = some s.best ∧ s.file = some (traj s.last).1)

theorem keep_inv {W O : Type} (vl : W → Fl) (step : W → O → W × O) (w0 : W) (o0 : O) (file0 : Option W) (i : Nat) (s : Pre W O)
    (h : PreInv (fun k => vl (after step w0 o0 k).1) (after step w0 o0) file0 i s) :
    PreInv (fun k => vl (after step w0 o0 k).1) (after step w0 o0) file0 (i + 1) (advance step (keep vl i s)) := by
  have hw : (keep vl i s).w = s.w := by unfold keep; split; rfl; split <;> rfl
  have ho : (keep vl i s).o = s.o := by unfold keep; split; rfl; split <;> rfl
  have hnot : (∀ v, vl s.w = some v → ¬ v < s.best) → ¬ Improves (fun k => vl (after step w0 o0 k).1) i := by
    rintro hv ⟨v, h1, h2, h3⟩
    have h1' : vl s.w = some v := by rw [h.w]; exact h1
    have := hv v h1'
    rcases h.rest with ⟨hb, -, -, -⟩ | ⟨⟨hk, -, -⟩, hb, -⟩
    · rw [hb] at this; exact this h2
    · exact this (h3 s.last hk s.best hb)
  by_cases hi : ∃ v, vl s.w = some v ∧ v < s.best
  · obtain ⟨v, hv, hlt⟩ := hi
    have hk : keep vl i s = { s with best := v, last := i, file := some s.w } := by
      unfold keep; rw [hv]; exact if_pos hlt
    have hle : v < 100000000 := lt_of_lt_of_le hlt h.le
    have himp : Improves (fun k => vl (after step w0 o0 k).1) i :=
      ⟨v, by simpa [← h.w] using hv, hle, fun j hj v' hv' => lt_of_lt_of_le hlt (h.lower j hj v' hv')⟩
    rw [hk]
    refine ⟨?_, ?_, ?_, ?_, Or.inr ⟨⟨Nat.lt_succ_self _, himp, fun j h1 h2 => ?_⟩, ?_, ?_⟩⟩
    · simp only [advance, after, h.w, h.o]
    · simp only [advance, after, h.w, h.o]
    · exact hle.le
    · intro j hj v' hv'
      show v ≤ v'
      rcases Nat.lt_succ_iff_lt_or_eq.1 hj with hj | rfl
      · exact (lt_of_lt_of_le hlt (h.lower j hj v' hv')).le
      · simp only [← h.w, hv] at hv'; exact le_of_eq (Option.some.inj hv')
    · have h3 : i < j := h1
      omega
    · show vl (after step w0 o0 i).1 = some v
      rw [← h.w]; exact hv
    · show some s.w = some (after step w0 o0 i).1
      rw [h.w]
  · have hk : keep vl i s = s := by
      unfold keep
      cases hv : vl s.w with
      | none => rfl
      | some v => exact if_neg (fun hlt => hi ⟨v, hv, hlt⟩)
    have hni := hnot (fun v hv hlt => hi ⟨v, hv, hlt⟩)
    rw [hk]
    refine ⟨?_, ?_, h.le, ?_, ?_⟩
    · simp only [advance, after, h.w, h.o]
    · simp only [advance, after, h.w, h.o]
    · intro j hj v' hv'
      rcases Nat.lt_succ_iff_lt_or_eq.1 hj with hj | rfl
      · exact h.lower j hj v' hv'
      · simp only [← h.w] at hv'
        exact not_lt.1 (fun hlt => hi ⟨v', hv', hlt⟩)
    · rcases h.rest with ⟨h1, h2, h3, h4⟩ | ⟨⟨h1, h2, h3⟩, h4, h5⟩
      · refine Or.inl ⟨h1, h2, h3, fun j hj => ?_⟩
        rcases Nat.lt_succ_iff_lt_or_eq.1 hj with hj | rfl
        · exact h4 j hj
        · exact hni
      · refine Or.inr ⟨⟨Nat.lt_succ_of_lt h1, h2, fun j hj hj' => ?_⟩, h4, h5⟩
        rcases Nat.lt_succ_iff_lt_or_eq.1 hj' with hj' | rfl
        · exact h3 j hj hj'
        · exact hni

/-- What a loop leaves: the trajectory, and whether it may stop after epoch `n - 1`. -/
theorem preLoop_spec {W O : Type} (vl : W → Fl) (step : W → O → W × O) (w0 : W) (o0 : O) (file0 : Option W) (duration : Nat) :
    ∀ (n i : Nat) (s : Pre W O), PreInv (fun k => vl (after step w0 o0 k).1) (after step w0 o0) file0 i s →
      (∀ j, j + 1 ≤ i → ∃ l, l ≤ j ∧ j ≤ l + duration ∧ (l = 0 ∨ Improves (fun k => vl (after step w0 o0 k).1) l)) →
      ∃ r k, preLoop vl step duration n i s = (r, k) ∧ i ≤ k ∧ k ≤ i + n ∧
        PreInv (fun k => vl (after step w0 o0 k).1) (after step w0 o0) file0 k r ∧
        (∀ j, j + 1 < k → ∃ l, l ≤ j ∧ j ≤ l + duration ∧ (l = 0 ∨ Improves (fun k => vl (after step w0 o0 k).1) l)) ∧
        (k < i + n → r.last + duration + 1 < k) := by
  intro n
  induction n with
  | zero => intro i s h hs; exact ⟨s, i, rfl, Nat.le_refl _, Nat.le_refl _, h, fun j hj => hs j (by omega), fun hk => absurd hk (by omega)⟩
  | succ n ih =>
    intro i s h hs
    have h' := keep_inv vl step w0 o0 file0 i s h
    rw [preLoop]
    by_cases hd : i - (advance step (keep vl i s)).last > duration
    · refine ⟨_, _, if_pos hd, Nat.le_succ _, by omega, h', fun j hj => hs j (by omega), fun _ => by omega⟩
    · rw [if_neg hd]
      have hs' : ∀ j, j + 1 ≤ i + 1 → ∃ l, l ≤ j ∧ j ≤ l + duration ∧ (l = 0 ∨ Improves (fun k => vl (after step w0 o0 k).1) l) := by
        intro j hj
        by_cases hji : j + 1 ≤ i
        · exact hs j hji
        · have : j = i := by omega
          subst this
          rcases h'.rest with ⟨-, h2, -, -⟩ | ⟨⟨h1, h2, -⟩, -, -⟩
          · exact ⟨0, Nat.zero_le _, by rw [h2] at hd; omega, Or.inl rfl⟩
          · exact ⟨_, by omega, by omega, Or.inr h2⟩
      obtain ⟨r, k, h1, h2, h3, h4, h5, h6⟩ := ih (i + 1) _ h' hs'
      exact ⟨r, k, h1, by omega, by omega, h4, h5, fun hk => h6 (by omega)⟩

/-- **C122.** Training on the observations: `n` updates on the training observations are made, at most `limit`; the validation observations
only decide when to stop and what is saved.  Afterwards the checkpoint file holds the network of the last improving epoch – the one with the
lowest validation loss – or is untouched if no epoch improved.  Training goes on as long as the last improvement (or the start) is at most
`duration` epochs ago, and stops before `limit` only when it is longer ago.
Partial, of the whole claim: The saved file is the best network, the network used afterwards is the last one (counterexample). -/
theorem C122_pretrain_partial {W O : Type} (m : Machine W O) (limit duration : Nat) (s : State W O) :
    let train := m.mse (pairs s.data.lb s.data.ub s.data.xt s.data.u)
    let net := fun k => (after (m.adam train) s.w s.oPre k).1
    let loss := fun k => m.mse (pairs s.data.lb s.data.ub s.data.val s.data.uVal) (net k)
    ∃ s' n, pretrain m none limit duration s = (s', n) ∧ n ≤ limit ∧ s'.w = net n ∧
      (∀ k, LastBefore loss n k → s'.pre = some (net k) ∧ ∀ j < n, ∀ v v', loss k = some v → loss j = some v' → v ≤ v') ∧
      ((∀ k < n, ¬ Improves loss k) → s'.pre = s.pre) ∧
      (∀ j, j + 1 < n → ∃ l, l ≤ j ∧ j ≤ l + duration ∧ (l = 0 ∨ Improves loss l)) ∧
      (n < limit → ∀ l, (l = 0 ∨ Improves loss l) → l < n → l + duration + 1 < n) := by
  intro train net loss
  obtain ⟨r, k, h1, -, h3, h4, h5, h6⟩ := preLoop_spec (m.mse (pairs s.data.lb s.data.ub s.data.val s.data.uVal)) (m.adam train) s.w s.oPre
    s.pre duration limit 0 ⟨s.w, s.oPre, 100000000, 0, s.pre⟩
    ⟨rfl, rfl, le_refl _, fun j hj => absurd hj (Nat.not_lt_zero _), Or.inl ⟨rfl, rfl, rfl, fun j hj => absurd hj (Nat.not_lt_zero _)⟩⟩
    (fun j hj => absurd hj (by omega))
  refine ⟨{ s with w := r.w, oPre := r.o, pre := r.file, data := merge s.data }, k, ?_, by omega, h4.w, ?_, ?_, h5, ?_⟩
  · unfold pretrain
    simp only
    rw [h1]
  · intro l hl
    rcases h4.rest with ⟨-, -, -, h7⟩ | ⟨⟨h7, h8, h9⟩, h10, h11⟩
    · exact absurd hl.2.1 (h7 l hl.1)
    · have : l = r.last := by
        rcases Nat.lt_trichotomy l r.last with h | h | h
        · exact absurd h8 (hl.2.2 _ h h7)
        · exact h
        · exact absurd hl.2.1 (h9 _ h hl.1)
      subst this
      refine ⟨h11, fun j hj v v' hv hv' => ?_⟩
      have : v = r.best := Option.some.inj (hv.symm.trans h10)
      rw [this]; exact h4.lower j hj v' hv'
  · intro hno
    rcases h4.rest with ⟨-, -, h7, -⟩ | ⟨⟨h7, h8, -⟩, -, -⟩
    · exact h7
    · exact absurd h8 (hno _ h7)
  · intro hk l hl hlk
    have h7 := h6 (by omega)
    have : l ≤ r.last := by
      rcases hl with rfl | hl
      · exact Nat.zero_le _
      · rcases h4.rest with ⟨-, -, -, h8⟩ | ⟨⟨-, -, h9⟩, -, -⟩
        · exact absurd hl (h8 l hlk)
        · exact Nat.le_of_not_lt fun h => h9 l h hlk hl
    omega

/-- **C122** (a configured file): its weights are used and nothing is trained. -/
theorem C122_load {W O : Type} (m : Machine W O) (w : W) (limit duration : Nat) (s : State W O) :
    (pretrain m (some w) limit duration s).1.w = w ∧ (pretrain m (some w) limit duration s).1.pre = s.pre ∧
    (pretrain m (some w) limit duration s).2 = 0 := ⟨rfl, rfl, rfl⟩

/-- A network with a whole number as weight that grows by one in each step; its error is its distance from `3`. -/
def toy : Machine ℕ Unit := ⟨fun _ w => some (((w : ℚ) - 3) ^ 2), fun _ w o => (w + 1, o)⟩

/-- **C122 (violated).** The network used after training is not the best one: with the checkpoint holding the network without error, the
search goes on with one that has error 49. -/
theorem C122_counterexample :
    let s : State ℕ Unit := ⟨0, (), (), ⟨⟨[], []⟩, [], ⟨[], []⟩, ⟨[], []⟩, [], [], []⟩, none, fun _ => none, fun _ => none⟩
    (pretrain toy none 10 20 s).1.pre = some 3 ∧ (pretrain toy none 10 20 s).1.w = 10 ∧
    toy.mse [] (pretrain toy none 10 20 s).1.w = some 49 ∧ (pretrain toy none 100 4 s).2 = 9 := by
  refine ⟨?_, ?_, ?_, ?_⟩ <;> decide +kernel


/-! ## C123: training with the equation -/

/-- The bookkeeping before epoch `i`. -/
structure RunInv {W O : Type} (loss : Nat → Fl) (traj : Nat → W × O) (i : Nat) (s : Run W O) : Prop where
  w : s.w = (traj i).1
  o : s.o = (traj i).2
  lower : ∀ j < i, ∀ v, loss j = some v → s.best ≤ v
  rest : ∃ l, s.last = some l ∧ LastBefore loss i l ∧ loss l = some s.best ∧ s.file = some (traj (l + 1)).1

/-- One epoch with the comparison. -/
def epoch {W O : Type} (loss : W → Fl) (step : W → O → W × O) (i : Nat) (s : Run W O) : Run W O :=
  record (loss s.w) i { s with w := (step s.w s.o).1, o := (step s.w s.o).2 }

theorem trainLoop_last {W O : Type} (loss : W → Fl) (step : W → O → W × O) (n i : Nat) (s : Run W O) :
    trainLoop loss step true (n + 1) i s =
      match (epoch loss step i s).last with
      | none => (epoch loss step i s, none)
      | some l => if i - l > 200 then (epoch loss step i s, some (i + 1)) else trainLoop loss step true n (i + 1) (epoch loss step i s) := rfl

theorem epoch_inv {W O : Type} (lf : W → Fl) (step : W → O → W × O) (w0 : W) (o0 : O) (i : Nat) (s : Run W O)
    (h : RunInv (fun k => lf (after step w0 o0 k).1) (after step w0 o0) i s) :
    RunInv (fun k => lf (after step w0 o0 k).1) (after step w0 o0) (i + 1) (epoch lf step i s) := by
  obtain ⟨l, h1, ⟨h2, h3, h4⟩, h5, h6⟩ := h.rest
  have hbest : s.best < 100000000 := by
    obtain ⟨v, hv, hv', -⟩ := h3
    have : v = s.best := Option.some.inj (hv.symm.trans h5)
    rw [← this]; exact hv'
  have hw' : (step s.w s.o).1 = (after step w0 o0 (i + 1)).1 := by rw [h.w, h.o]; rfl
  have ho' : (step s.w s.o).2 = (after step w0 o0 (i + 1)).2 := by rw [h.w, h.o]; rfl
  by_cases hi : ∃ v, lf s.w = some v ∧ v < s.best
  · obtain ⟨v, hv, hlt⟩ := hi
    have he : epoch lf step i s = ⟨(step s.w s.o).1, (step s.w s.o).2, v, some i, some (step s.w s.o).1⟩ := by
      unfold epoch record; rw [hv]; exact if_pos hlt
    have himp : Improves (fun k => lf (after step w0 o0 k).1) i :=
      ⟨v, by simpa [← h.w] using hv, lt_trans hlt hbest, fun j hj v' hv' => lt_of_lt_of_le hlt (h.lower j hj v' hv')⟩
    rw [he]
    refine ⟨hw', ho', ?_, i, rfl, ⟨Nat.lt_succ_self _, himp, fun j a b => absurd b (by omega)⟩, ?_, ?_⟩
    · intro j hj v' hv'
      show v ≤ v'
      rcases Nat.lt_succ_iff_lt_or_eq.1 hj with hj | rfl
      · exact (lt_of_lt_of_le hlt (h.lower j hj v' hv')).le
      · simp only [← h.w, hv] at hv'; exact le_of_eq (Option.some.inj hv')
    · show lf (after step w0 o0 i).1 = some v
      rw [← h.w]; exact hv
    · show some _ = some _
      rw [hw']
  · have he : epoch lf step i s = { s with w := (step s.w s.o).1, o := (step s.w s.o).2 } := by
      unfold epoch record
      cases hv : lf s.w with
      | none => rfl
      | some v => exact if_neg (fun hlt => hi ⟨v, hv, hlt⟩)
    have hni : ¬ Improves (fun k => lf (after step w0 o0 k).1) i := by
      rintro ⟨v, a, -, c⟩
      exact hi ⟨v, by rw [h.w]; exact a, c l h2 s.best h5⟩
    rw [he]
    refine ⟨hw', ho', ?_, l, h1, ⟨Nat.lt_succ_of_lt h2, h3, fun j a b => ?_⟩, h5, h6⟩
    · intro j hj v' hv'
      rcases Nat.lt_succ_iff_lt_or_eq.1 hj with hj | rfl
      · exact h.lower j hj v' hv'
      · simp only [← h.w] at hv'
        exact not_lt.1 (fun hlt => hi ⟨v', hv', hlt⟩)
    · rcases Nat.lt_succ_iff_lt_or_eq.1 b with b | rfl
      · exact h4 j a b
      · exact hni

theorem trainLoop_spec {W O : Type} (lf : W → Fl) (step : W → O → W × O) (w0 : W) (o0 : O) :
    ∀ (n i : Nat) (s : Run W O), RunInv (fun k => lf (after step w0 o0 k).1) (after step w0 o0) i s →
      (∀ j, j + 1 ≤ i → ∃ l, l ≤ j ∧ j ≤ l + 200 ∧ Improves (fun k => lf (after step w0 o0 k).1) l) →
      ∃ r k, trainLoop lf step true n i s = (r, some k) ∧ i ≤ k ∧ k ≤ i + n ∧
        RunInv (fun k => lf (after step w0 o0 k).1) (after step w0 o0) k r ∧
        (∀ j, j + 1 < k → ∃ l, l ≤ j ∧ j ≤ l + 200 ∧ Improves (fun k => lf (after step w0 o0 k).1) l) ∧
        (k < i + n → ∀ l, r.last = some l → l + 201 < k) := by
  intro n
  induction n with
  | zero => intro i s h hs; exact ⟨s, i, rfl, Nat.le_refl _, Nat.le_refl _, h, fun j hj => hs j (by omega), fun hk => absurd hk (by omega)⟩
  | succ n ih =>
    intro i s h hs
    have h' := epoch_inv lf step w0 o0 i s h
    obtain ⟨l, h1, ⟨h2, h3, h4⟩, h5, h6⟩ := h'.rest
    rw [trainLoop_last, h1]
    by_cases hd : i - l > 200
    · refine ⟨_, _, if_pos hd, Nat.le_succ _, by omega, h', fun j hj => hs j (by omega), fun _ l' hl' => ?_⟩
      have : l = l' := Option.some.inj (h1.symm.trans hl')
      omega
    · simp only [if_neg hd]
      have hs' : ∀ j, j + 1 ≤ i + 1 → ∃ l, l ≤ j ∧ j ≤ l + 200 ∧ Improves (fun k => lf (after step w0 o0 k).1) l := by
        intro j hj
        by_cases hji : j + 1 ≤ i
        · exact hs j hji
        · have : j = i := by omega
          subst this
          exact ⟨l, by omega, by omega, h3⟩
      obtain ⟨r, k, a1, a2, a3, a4, a5, a6⟩ := ih (i + 1) _ h' hs'
      exact ⟨r, k, a1, by omega, by omega, a4, a5, fun hk => a6 (by omega)⟩

theorem trainLoop_plain {W O : Type} (lf : W → Fl) (step : W → O → W × O) (w0 : W) (o0 : O) :
    ∀ (n i : Nat) (s : Run W O), s.w = (after step w0 o0 i).1 → s.o = (after step w0 o0 i).2 →
      trainLoop lf step false n i s =
        ({ s with w := (after step w0 o0 (i + n)).1, o := (after step w0 o0 (i + n)).2 }, some (i + n)) := by
  intro n
  induction n with
  | zero => intro i s h1 h2; rw [trainLoop]; simp only [Nat.add_zero]; rw [← h1, ← h2]
  | succ n ih =>
    intro i s h1 h2
    rw [trainLoop]
    simp only [Bool.false_eq_true, if_false]
    rw [ih (i + 1)]
    · rw [show i + 1 + n = i + (n + 1) by omega]
    · show (step s.w s.o).1 = _
      rw [h1, h2]; rfl
    · show (step s.w s.o).2 = _
      rw [h1, h2]; rfl

/-- **C123** (the loss, one equation): the network is trained on the error at the observations plus `coef` times the mean square residual of
the equation at the collocation points – and at the observed points if asked for; a residual that is NaN at the collocation points counts as zero. -/
theorem C123_loss_partial {W O : Type} (m : Machine W O) (es : Data → List (Equation W)) (coef : ℚ) (d : Data) (e : Equation W) (he : es d = [e]) (w : W)
    (a b c : ℚ) (ha : m.mse ((d.xt.rows.map (scale d.lb d.ub)).zip d.u) w = some a)
    (hb : e.res w = some b ∨ (e.res w = none ∧ b = 0)) (hc : e.loc w = some c) :
    lossOf m es coef true d w = some (a + coef * (b + c)) ∧ lossOf m es coef false d w = some (a + coef * b) := by
  have ha' : m.mse (pairs d.lb d.ub d.xt d.u) w = some a := ha
  rcases hb with hb | ⟨hb, rfl⟩
  · simp [lossOf, he, total, pdeLoss, eqLoss, hb, hc, ha', plus, scaled, add_comm]
  · simp [lossOf, he, total, pdeLoss, eqLoss, hb, hc, ha', plus, scaled, add_comm]

/-- **C123** (NaN): an error at the observations, or a residual at the observed points, that is NaN makes the loss NaN, whatever the other terms are. -/
theorem C123_nan {W O : Type} (m : Machine W O) (es : Data → List (Equation W)) (coef : ℚ) (d : Data) (e : Equation W) (he : es d = [e]) (w : W) :
    (m.mse ((d.xt.rows.map (scale d.lb d.ub)).zip d.u) w = none → ∀ l, lossOf m es coef l d w = none) ∧
    (e.loc w = none → lossOf m es coef true d w = none) := by
  constructor
  · intro ha l
    have ha' : m.mse (pairs d.lb d.ub d.xt d.u) w = none := ha
    simp only [lossOf, he, total, pdeLoss, List.foldl_cons, List.foldl_nil, Option.map_some, ha', Option.getD_some]
    cases scaled coef (eqLoss l e w) <;> rfl
  · intro hl
    have : eqLoss true e w = none := by
      simp only [eqLoss, hl, if_true]
      cases e.res w <;> rfl
    simp [lossOf, he, total, pdeLoss, this, scaled, plus]

/-- **C123** (a round that is not the last): `pinn_epoch` updates on that loss, starting from the present network, and the result is saved
under the number of the round and used afterwards; no other file changes. -/
theorem C123_round {W O : Type} (m : Machine W O) (es : Data → List (Equation W)) (count : Nat) (coef : ℚ) (local_ : Bool) (epochs : Nat)
    (s : State W O) (he : es s.data ≠ []) :
    let net := fun k => (after (m.adam (lossOf m es coef local_ s.data)) s.w s.o k).1
    ∃ s', trainPinn m es count coef local_ false epochs s = (s', true) ∧ s'.w = net epochs ∧ s'.final count = some s'.w ∧
      s'.data = s.data ∧ s'.pre = s.pre ∧ (∀ k, s'.best k = s.best k) ∧ (∀ k, k ≠ count → s'.final k = s.final k) := by
  intro net
  have hn : ¬ ((es s.data).length = 0 ∧ 0 < epochs) := fun h => he (List.length_eq_zero_iff.1 h.1)
  unfold trainPinn
  rw [if_neg hn, trainLoop_plain _ _ s.w s.o epochs 0 _ rfl rfl]
  simp only [finish, Nat.zero_add]
  refine ⟨_, rfl, rfl, by simp, rfl, rfl, fun k => ?_, fun k hk => by simp [hk]⟩
  by_cases hk : k = count
  · subst hk; simp
  · simp [hk]

/-- **C123** (the last round): if the loss of the first epoch is a number below `1e8`, training makes `n` updates and stops before
`pinn_epoch` only if the loss has not improved for more than 200 epochs; the final network is saved and used.  The file of the best network
holds the network *after the update* of the epoch with the lowest loss. -/
theorem C123_last {W O : Type} (m : Machine W O) (es : Data → List (Equation W)) (count : Nat) (coef : ℚ) (local_ : Bool) (epochs : Nat)
    (s : State W O) (he : es s.data ≠ []) (hp : 0 < epochs) :
    let net := fun k => (after (m.adam (lossOf m es coef local_ s.data)) s.w s.o k).1
    let loss := fun k => lossOf m es coef local_ s.data (net k)
    Improves loss 0 →
    ∃ s' n, trainPinn m es count coef local_ true epochs s = (s', true) ∧ 0 < n ∧ n ≤ epochs ∧ s'.w = net n ∧ s'.final count = some s'.w ∧
      (∃ k, LastBefore loss n k ∧ s'.best count = some (net (k + 1)) ∧ ∀ j < n, ∀ v v', loss k = some v → loss j = some v' → v ≤ v') ∧
      (∀ j, j + 1 < n → ∃ l, l ≤ j ∧ j ≤ l + 200 ∧ Improves loss l) ∧
      (n < epochs → ∀ l, Improves loss l → l < n → l + 201 < n) ∧
      s'.data = s.data ∧ s'.pre = s.pre ∧ (∀ k, k ≠ count → s'.best k = s.best k ∧ s'.final k = s.final k) := by
  intro net loss himp
  have hn : ¬ ((es s.data).length = 0 ∧ 0 < epochs) := fun h => he (List.length_eq_zero_iff.1 h.1)
  obtain ⟨e, rfl⟩ := Nat.exists_eq_succ_of_ne_zero (Nat.pos_iff_ne_zero.1 hp)
  set lf := lossOf m es coef local_ s.data with hlf
  obtain ⟨v, hv, hlt, -⟩ := id himp
  have hv' : lf s.w = some v := hv
  have he0 : epoch lf (m.adam lf) 0 (⟨s.w, s.o, 100000000, none, s.best count⟩ : Run W O) =
      ⟨(m.adam lf s.w s.o).1, (m.adam lf s.w s.o).2, v, some 0, some (m.adam lf s.w s.o).1⟩ := by
    unfold epoch record
    rw [show (⟨s.w, s.o, 100000000, none, s.best count⟩ : Run W O).w = s.w from rfl, hv']
    exact if_pos hlt
  have hinv : RunInv (fun k => lf (after (m.adam lf) s.w s.o k).1) (after (m.adam lf) s.w s.o) 1
      (⟨(m.adam lf s.w s.o).1, (m.adam lf s.w s.o).2, v, some 0, some (m.adam lf s.w s.o).1⟩ : Run W O) := by
    refine ⟨rfl, rfl, ?_, 0, rfl, ⟨Nat.zero_lt_one, himp, fun j a b => absurd b (by omega)⟩, hv, rfl⟩
    intro j hj v' hv'
    have : j = 0 := by omega
    subst this
    exact le_of_eq (Option.some.inj (hv.symm.trans hv'))
  obtain ⟨r, k, h1, h2, h3, h4, h5, h6⟩ := trainLoop_spec lf (m.adam lf) s.w s.o e 1 _ hinv (fun j hj => by
    have : j = 0 := by omega
    subst this
    exact ⟨0, Nat.le_refl _, Nat.zero_le _, himp⟩)
  obtain ⟨l, g1, g2, g3, g4⟩ := h4.rest
  refine ⟨(finish count s (r, some k)).1, k, ?_, by omega, by omega, h4.w, ?_, ⟨l, g2, ?_, ?_⟩, h5, ?_, rfl, rfl, ?_⟩
  · unfold trainPinn
    rw [if_neg hn, trainLoop_last, he0]
    simp only [Nat.zero_sub, show ¬ (0 > 200) by omega, if_false]
    rw [h1]
    rfl
  · simp [finish]
  · simp [finish, g4, net]; rfl
  · intro j hj a b ha hb
    have : a = r.best := Option.some.inj (ha.symm.trans g3)
    rw [this]; exact h4.lower j hj b hb
  · intro hk l' hl' hlk
    have := h6 (by omega) l g1
    have : l' ≤ l := Nat.le_of_not_lt fun h => g2.2.2 l' h hlk hl'
    omega
  · intro k' hk'
    simp [finish, hk']

/-- **C123 (violated).** If the loss of the first epoch is NaN or at least `1e8`, the last round ends in UnboundLocalError after the network has
been changed and before anything is saved. -/
theorem C123_unbound_counterexample {W O : Type} (m : Machine W O) (es : Data → List (Equation W)) (count : Nat) (coef : ℚ) (local_ : Bool)
    (epochs : Nat) (s : State W O) (he : es s.data ≠ []) (hp : 0 < epochs)
    (hl : ∀ v, lossOf m es coef local_ s.data s.w = some v → 100000000 ≤ v) :
    ∃ s', trainPinn m es count coef local_ true epochs s = (s', false) ∧
      s'.w = (m.adam (lossOf m es coef local_ s.data) s.w s.o).1 ∧ (∀ k, s'.best k = s.best k) ∧ s'.final = s.final := by
  have hn : ¬ ((es s.data).length = 0 ∧ 0 < epochs) := fun h => he (List.length_eq_zero_iff.1 h.1)
  obtain ⟨e, rfl⟩ := Nat.exists_eq_succ_of_ne_zero (Nat.pos_iff_ne_zero.1 hp)
  set lf := lossOf m es coef local_ s.data with hlf
  have he0 : epoch lf (m.adam lf) 0 (⟨s.w, s.o, 100000000, none, s.best count⟩ : Run W O) =
      ⟨(m.adam lf s.w s.o).1, (m.adam lf s.w s.o).2, 100000000, none, s.best count⟩ := by
    unfold epoch record
    rw [show (⟨s.w, s.o, 100000000, none, s.best count⟩ : Run W O).w = s.w from rfl]
    cases hv : lf s.w with
    | none => rfl
    | some v => exact if_neg (not_lt.2 (hl v hv))
  refine ⟨(finish count s (⟨(m.adam lf s.w s.o).1, (m.adam lf s.w s.o).2, 100000000, none, s.best count⟩, none)).1, ?_, rfl, fun k => ?_, rfl⟩
  · unfold trainPinn
    rw [if_neg hn, trainLoop_last, he0]
    rfl
  · by_cases hk : k = count
    · subst hk; simp [finish]
    · simp [finish, hk]

/-- **C123 (violated).** With several equations only the last one counts in the loss; without any the call fails; and the file of the best
network holds a network with a higher loss (here 1 instead of 0). -/
theorem C123_counterexample :
    (∀ (W : Type) (mse : W → Fl) (coef : ℚ) (l : Bool) (es : List (Equation W)) (e : Equation W) (w : W),
      total mse coef l (es ++ [e]) w = total mse coef l [e] w) ∧
    (∀ (W : Type) (mse : W → Fl) (coef : ℚ) (l : Bool) (w : W), total mse coef l [] w = none) ∧
    (∀ (W O : Type) (m : Machine W O) (count : Nat) (coef : ℚ) (l last_ : Bool) (epochs : Nat) (s : State W O), 0 < epochs →
      trainPinn m (fun _ => []) count coef l last_ epochs s = (s, false)) ∧
    (let s : State ℕ Unit := ⟨0, (), (), ⟨⟨[], []⟩, [], ⟨[], []⟩, ⟨[], []⟩, [], [], []⟩, none, fun _ => none, fun _ => none⟩
     let es : Data → List (Equation ℕ) := fun _ => [⟨fun _ => some 0, fun _ => some 0⟩]
     (trainPinn toy es 1 1 true true 10 s).1.best 1 = some 4 ∧ lossOf toy es 1 true s.data 4 = some 1 ∧
     lossOf toy es 1 true s.data 3 = some 0) := by
  refine ⟨fun W mse coef l es e w => ?_, fun W mse coef l w => rfl, fun W O m count coef l last_ epochs s h => ?_, ?_, ?_, ?_⟩
  · simp [total, pdeLoss, List.foldl_append]
  · unfold trainPinn; exact if_pos ⟨rfl, h⟩
  · decide +kernel
  · decide +kernel
  · decide +kernel

/-- The example run meets the hypothesis of `C123_last`. -/
example : Improves (fun k => lossOf toy (fun _ => [⟨fun _ => some 0, fun _ => some 0⟩]) 1 true
    ⟨⟨[], []⟩, [], ⟨[], []⟩, ⟨[], []⟩, [], [], []⟩ (after (toy.adam fun _ => none) 0 () k).1) 0 :=
  ⟨9, by decide +kernel, by norm_num, fun j hj => absurd hj (Nat.not_lt_zero _)⟩

/-! ## C124: the residual of the equation -/

theorem foldl_sum (l : List ℚ) : ∀ a : ℚ, l.foldl (· + ·) a = a + l.sum := by
  induction l with
  | nil => intro a; simp
  | cons b l ih => intro a; simp [ih, add_assoc]

theorem mapM_residual (points : List (ℚ × List ℚ)) (coefs : List ℚ) (h : ∀ p ∈ points, p.2.length = coefs.length) :
    points.mapM (fun p => residual p.1 p.2 coefs) = some (points.map fun p => p.1 - (List.zipWith (· * ·) p.2 coefs).sum) := by
  induction points with
  | nil => rfl
  | cons p ps ih =>
    have h1 : residual p.1 p.2 coefs = some (p.1 - (List.zipWith (· * ·) p.2 coefs).sum) := by
      unfold residual; rw [if_pos (le_of_eq (h p (List.mem_cons_self)).symm), foldl_sum, zero_add]
    rw [List.mapM_cons, h1, ih fun q hq => h q (List.mem_cons_of_mem _ hq)]
    rfl

/-- **C124.** With one coefficient per term, the loss of the equation is the mean over the points of the square of the left-hand side minus
the sum of coefficients times terms; so it is zero exactly if the equation holds at every point. -/
theorem C124_residual_partial (points : List (ℚ × List ℚ)) (coefs : List ℚ) (hne : points ≠ [])
    (h : ∀ p ∈ points, p.2.length = coefs.length) :
    ∃ v, pinnLoss points coefs = some (some v) ∧
      v = (points.map fun p => (p.1 - (List.zipWith (· * ·) p.2 coefs).sum) ^ 2).sum / points.length ∧
      0 ≤ v ∧ (v = 0 ↔ ∀ p ∈ points, p.1 = (List.zipWith (· * ·) p.2 coefs).sum) := by
  have hpos : (0 : ℚ) < points.length := by
    have : 0 < points.length := List.length_pos_of_ne_nil hne
    exact_mod_cast this
  have hnn : ∀ l : List (ℚ × List ℚ), 0 ≤ (l.map fun p => (p.1 - (List.zipWith (· * ·) p.2 coefs).sum) ^ 2).sum := by
    intro l
    induction l with
    | nil => simp
    | cons a l ih => rw [List.map_cons, List.sum_cons]; exact add_nonneg (sq_nonneg _) ih
  have hz : ∀ l : List (ℚ × List ℚ), (l.map fun p => (p.1 - (List.zipWith (· * ·) p.2 coefs).sum) ^ 2).sum = 0 ↔
      ∀ p ∈ l, p.1 = (List.zipWith (· * ·) p.2 coefs).sum := by
    intro l
    induction l with
    | nil => simp
    | cons a l ih =>
      rw [List.map_cons, List.sum_cons, add_eq_zero_iff_of_nonneg (sq_nonneg _) (hnn l), ih]
      simp [sub_eq_zero]
  refine ⟨_, ?_, rfl, div_nonneg (hnn points) hpos.le, ?_⟩
  · unfold pinnLoss
    rw [mapM_residual points coefs h]
    simp only [List.map_eq_nil_iff, hne, if_false, List.map_map, List.length_map]
    rfl
  · rw [div_eq_zero_iff, or_iff_left (ne_of_gt hpos), hz]

/-- **C124 (violated).** With a constant in the equation (`add_const`: one coefficient more than terms) the loss cannot be computed. -/
theorem C124_const_counterexample (p : ℚ × List ℚ) (ps : List (ℚ × List ℚ)) (coefs : List ℚ) (c : ℚ) (h : p.2.length = coefs.length) :
    pinnLoss (p :: ps) (coefs ++ [c]) = none := by
  have : residual p.1 p.2 (coefs ++ [c]) = none := by
    unfold residual; exact if_neg (by simp [h])
  unfold pinnLoss
  rw [List.mapM_cons, this]
  rfl

/-- Two points, one satisfying `u_t = 2 u`. -/
example : pinnLoss [(2, [1]), (5, [2])] [2] = some (some (1 / 2)) := by decide +kernel

end Verif.Discover.Pinn.Claims
