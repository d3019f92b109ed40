import Verif.Discover.Adapter
import Verif.Claims.Diff
import Verif.Claims.Dataset
/-!
# C77 – the regular adapter hands over the right numbers; C78 – what it accepts
-/
namespace Verif.Discover.Adapter.Claims
open Verif.Data Verif.Discover Verif.Discover.Adapter Verif.Discover.FD.Claims Verif.Claims

/-! ## N-D data sets -/

/-- An N-D data set: axes `ax` (no name twice), left-hand-side axis `lhs`, coordinates `c a` of every axis, solution `u`, all arrays with one
entry per grid point, the axes in the order `ax`. -/
structure NdSet (d : DS ℚ ℚ) (ax : List String) (lhs : String) (c : String → List ℚ) (u : Arr ℚ) : Prop where
  data : ∃ fs cs tg, d.fields = some fs ∧ d.coords = some cs ∧ d.target = some tg ∧ fs.lookup tg = some u ∧
    ∀ a ∈ ax, (cs.lookup a).getD [] = c a
  order : d.axisOrder = some ax
  lhsAxis : d.lhs = some lhs
  nodup : ax.Nodup
  mem : lhs ∈ ax
  shape : u.shape = ax.map fun a => (c a).length
  params : ∀ p ∈ d.params, p.2.shape = u.shape

/-- Every data set that the constructor returns for N-D arguments is one. -/
theorem constructed_nd (re : ℚ → ℚ) (fin : ℚ → Bool) (nan : ℚ) (a : Args ℚ ℚ) (d : DS ℚ ℚ) (h : construct re fin nan a = .ok d)
    (hnd : a.fields ≠ none ∨ a.coords ≠ none) :
    ∃ ax c u, NdSet d ax a.lhs c u ∧ a.axisOrder = some ax ∧ ∃ fs cs, a.fields = some fs ∧ fs.lookup a.target = some u ∧
      a.coords = some cs ∧ ∀ n ∈ ax, cs.lookup n = some (c n) := by
  unfold construct at h
  have hb : (a.fields.isSome || a.coords.isSome) = true := by
    rcases hnd with h | h
    · rcases Option.ne_none_iff_exists'.1 h with ⟨_, h⟩; simp [h]
    · rcases Option.ne_none_iff_exists'.1 h with ⟨_, h⟩; simp [h]
  rw [if_pos hb] at h
  cases hi : initNd a with
  | error e => rw [hi] at h; cases h
  | ok d0 =>
    rw [hi] at h
    obtain ⟨⟨fs, cs, ax, e1, e2, e3, v1, v2, v3, v4, v5, v6⟩, fs', cs', ax', u, f1, f2, f3, f4, rfl⟩ := (initNd_ok a d0).1 hi
    rw [e1] at f1; cases f1
    rw [e2] at f2; cases f2
    rw [e3] at f3; cases f3
    obtain ⟨hp, rfl⟩ := (addParams_ok fin _ _ _).1 h
    refine ⟨ax, fun n => (cs.lookup n).getD [], u, ⟨⟨fs, cs, a.target, rfl, rfl, rfl, f4, fun _ _ => rfl⟩, rfl, rfl, v2, v5, ?_, ?_⟩,
      e3, fs, cs, e1, f4, e2, ?_⟩
    · exact v6 _ (lookup_mem fs a.target u f4)
    · intro p hp'
      exact (hp p (by simpa using hp')).1
    · intro n hn
      obtain ⟨x, hx⟩ := lookup_isSome cs n ((v3 n).1 hn)
      simp [hx]

/-! ### Transposing -/

theorem idxOf_map_inj {α : Type} [DecidableEq α] (f : α → Nat) : ∀ (l : List α) (a : α), (∀ b ∈ l, f b = f a → b = a) →
    (l.map f).idxOf (f a) = l.idxOf a := by
  intro l
  induction l with
  | nil => intro a _; rfl
  | cons b l ih =>
    intro a h
    simp only [List.map_cons, List.idxOf_cons]
    by_cases hb : b = a
    · subst hb; simp
    · have : f b ≠ f a := fun e => hb (h b (by simp) e)
      have e1 : (f b == f a) = false := by simpa using this
      have e2 : (b == a) = false := by simpa using hb
      rw [e1, e2, ih a (fun c hc => h c (by simp [hc]))]

/-- The entry of the transposed array at the position `pos` (an index for every axis name), read in the new axis order, is the entry of
the array at that position, read in its own axis order. -/
theorem transpose_get {V : Type} (u : Arr V) (ax order : List String) (hn : ax.Nodup) (hl : u.shape.length = ax.length)
    (hm : ∀ a ∈ ax, a ∈ order) (ho : ∀ a ∈ order, a ∈ ax) (pos : String → Nat) :
    (transpose u (order.map fun a => ax.idxOf a)).get (order.map pos) = u.get (ax.map pos) := by
  simp only [transpose]
  congr 1
  apply List.ext_getElem
  · simp [hl]
  · intro k h1 h2
    have hk : k < ax.length := by simpa using h2
    simp only [List.getElem_map, List.getElem_range]
    have e : (order.map fun a => ax.idxOf a).idxOf k = order.idxOf ax[k] := by
      have hki : ax.idxOf ax[k] = k := hn.idxOf_getElem k hk
      conv_lhs => rw [← hki]
      apply idxOf_map_inj (fun a => ax.idxOf a)
      intro b hb he
      exact (List.idxOf_inj (ho b hb)).1 he
    rw [e]
    have hmem : ax[k] ∈ order := hm _ (List.getElem_mem hk)
    have hlt : order.idxOf ax[k] < order.length := List.idxOf_lt_length_of_mem hmem
    simp [List.getElem?_map, List.getElem?_eq_getElem hlt]

theorem transpose_shape {V : Type} (u : Arr V) (ax order : List String) (len : String → Nat) (hs : u.shape = ax.map len)
    (ho : ∀ a ∈ order, a ∈ ax) : (transpose u (order.map fun a => ax.idxOf a)).shape = order.map len := by
  simp only [transpose, List.map_map]
  apply List.map_congr_left
  intro a ha
  have hlt : ax.idxOf a < ax.length := List.idxOf_lt_length_of_mem (ho a ha)
  simp [hs, List.getElem?_eq_getElem hlt]

/-! ### What the adapter hands over -/

/-- The axes other than the left-hand side, in the order of the data set. -/
def spaceAxes (ax : List String) (lhs : String) : List String := ax.filter (· != lhs)

/-- `pos` names a grid point: an index for every axis. -/
def GridPoint (ax : List String) (c : String → List ℚ) (pos : String → Nat) : Prop := ∀ a ∈ ax, pos a < (c a).length

theorem order_mem {ax : List String} {lhs : String} (hm : lhs ∈ ax) :
    (∀ a ∈ ax, a ∈ lhs :: spaceAxes ax lhs) ∧ (∀ a ∈ lhs :: spaceAxes ax lhs, a ∈ ax) := by
  constructor
  · intro a ha
    by_cases h : a = lhs
    · simp [h]
    · simp [spaceAxes, ha, h]
  · intro a ha
    simp only [spaceAxes, List.mem_cons, List.mem_filter] at ha
    rcases ha with rfl | ha
    · exact hm
    · exact ha.1

/-- The conditions under which the adapter accepts the time coordinates. -/
def TimeOk (enforce : Bool) (t : List ℚ) : Prop :=
  3 ≤ t.length ∧ ∃ d, (diffs t).head? = some d ∧ d ≠ 0 ∧ (enforce = true → ∀ e ∈ diffs t, close e d = true)

theorem timeStep_ok (enforce : Bool) (t : List ℚ) (d : ℚ) :
    timeStep enforce t = .ok d ↔ 3 ≤ t.length ∧ (diffs t).head? = some d ∧ d ≠ 0 ∧ (enforce = true → ∀ e ∈ diffs t, close e d = true) := by
  unfold timeStep
  by_cases h : t.length < 3
  · rw [if_pos h]; simp; omega
  · rw [if_neg h]
    cases hd : diffs t with
    | nil => simp
    | cons e es =>
      simp only [List.head?_cons, Option.some.injEq]
      by_cases h1 : (enforce && !((e :: es).all fun a => close a e)) = true
      · rw [if_pos h1]
        simp only [reduceCtorEq, false_iff]
        rintro ⟨_, rfl, _, h2⟩
        simp only [Bool.and_eq_true, Bool.not_eq_true', List.all_eq_false] at h1
        obtain ⟨he, x, hx, hc⟩ := h1
        exact hc (h2 he x hx)
      · rw [if_neg h1]
        have h1' : enforce = true → ∀ x ∈ e :: es, close x e = true := by
          intro he x hx
          by_contra hc
          exact h1 (by simp only [he, Bool.true_and, Bool.not_eq_true', List.all_eq_false]; exact ⟨x, hx, hc⟩)
        by_cases h2 : e = 0
        · rw [if_pos h2]
          simp only [reduceCtorEq, false_iff]
          rintro ⟨_, rfl, h3, _⟩
          exact h3 h2
        · rw [if_neg h2]
          simp only [Except.ok.injEq]
          constructor
          · rintro rfl; exact ⟨by omega, rfl, h2, h1'⟩
          · rintro ⟨_, rfl, _⟩; rfl

theorem head_diffs {t : List ℚ} {d : ℚ} (h : (diffs t).head? = some d) :
    ∃ a b, t[0]? = some a ∧ t[1]? = some b ∧ d = b - a := by
  match t, h with
  | [], h => simp [diffs] at h
  | [a], h => simp [diffs] at h
  | a :: b :: r, h => simp [diffs] at h; exact ⟨a, b, rfl, rfl, h.symm⟩

theorem mem_diffs (l : List ℚ) (e : ℚ) : e ∈ diffs l ↔ ∃ (k : Nat) (p q : ℚ), l[k]? = some p ∧ l[k + 1]? = some q ∧ e = q - p := by
  unfold diffs
  rw [List.mem_iff_getElem?]
  constructor
  · rintro ⟨k, hk⟩
    rw [List.getElem?_zipWith] at hk
    cases hp : l[k]? with
    | none => simp [hp] at hk
    | some p =>
      cases hq : l.tail[k]? with
      | none => simp [hp, hq] at hk
      | some q =>
        rw [hp, hq] at hk
        simp at hk
        rw [List.getElem?_tail] at hq
        exact ⟨k, p, q, hp, hq, hk.symm⟩
  · rintro ⟨k, p, q, hp, hq, rfl⟩
    refine ⟨k, ?_⟩
    rw [List.getElem?_zipWith, hp, List.getElem?_tail, hq]

theorem timeStep_grid (enforce : Bool) (t : List ℚ) : (∃ dt, timeStep enforce t = .ok dt) ↔
    (3 ≤ t.length ∧ ∃ t0 t1 : ℚ, t[0]? = some t0 ∧ t[1]? = some t1 ∧ t1 ≠ t0 ∧
      (enforce = true → ∀ (k : Nat) (p q : ℚ), t[k]? = some p → t[k + 1]? = some q →
        |(q - p) - (t1 - t0)| ≤ 1 / 100000000 + 1 / 100000 * |t1 - t0|)) := by
  constructor
  · rintro ⟨dt, h⟩
    obtain ⟨t1, t2, t3, t4⟩ := (timeStep_ok enforce t dt).1 h
    obtain ⟨a, b, ha, hb, rfl⟩ := head_diffs t2
    refine ⟨t1, a, b, ha, hb, fun e => t3 (by rw [e]; ring), fun he k p q hp hq => ?_⟩
    have := t4 he (q - p) ((mem_diffs _ _).2 ⟨k, p, q, hp, hq, rfl⟩)
    simpa [close] using this
  · rintro ⟨g4, a, b, ha, hb, hne, g6⟩
    have hd : (diffs t).head? = some (b - a) := by
      match t, ha, hb with
      | x :: y :: r, ha, hb =>
        simp at ha hb
        subst ha; subst hb
        simp [diffs]
    refine ⟨b - a, (timeStep_ok enforce t _).2 ⟨g4, hd, fun e => hne (by linarith), fun he e hm => ?_⟩⟩
    obtain ⟨k, p, q, hp, hq, rfl⟩ := (mem_diffs _ _).1 hm
    have := g6 he k p q hp hq
    simpa [close] using this

/-- The result of the N-D path. -/
theorem regular_nd {d : DS ℚ ℚ} {ax : List String} {lhs : String} {c : String → List ℚ} {u : Arr ℚ} (h : NdSet d ax lhs c u)
    (fin : ℚ → Bool) (enforce : Bool) (nInput : Option Nat) (r : Regular) :
    regular fin enforce nInput d = .ok r ↔
      allFinite fin u = true ∧ 2 ≤ (spaceAxes ax lhs).length ∧ (spaceAxes ax lhs).length ≤ 3 ∧
      (∀ a ∈ spaceAxes ax lhs, 4 ≤ (c a).length ∧ ∀ e ∈ diffs (c a), close e 0 = false) ∧
      (∀ n, nInput = some n → n = (spaceAxes ax lhs).length) ∧
      ∃ dt, timeStep enforce (c lhs) = .ok dt ∧
        r = ⟨transpose u ((lhs :: spaceAxes ax lhs).map fun a => ax.idxOf a),
          FD.alongAxis (FD.d1 dt) 0 (transpose u ((lhs :: spaceAxes ax lhs).map fun a => ax.idxOf a)),
          (spaceAxes ax lhs).map c, (spaceAxes ax lhs).length,
          d.params.map fun p => (p.1, transpose p.2 ((lhs :: spaceAxes ax lhs).map fun a => ax.idxOf a))⟩ := by
  obtain ⟨fs, cs, tg, e1, e2, e3, e4, e5⟩ := h.data
  obtain ⟨hm1, hm2⟩ := order_mem h.mem
  have hsp : ∀ a ∈ spaceAxes ax lhs, a ∈ ax := fun a ha => hm2 a (by simp [ha])
  have hsh := transpose_shape u ax (lhs :: spaceAxes ax lhs) _ h.shape hm2
  have hX : (spaceAxes ax lhs).map (fun a => (cs.lookup a).getD []) = (spaceAxes ax lhs).map c :=
    List.map_congr_left fun a ha => e5 a (hsp a ha)
  unfold regular
  rw [e1, e2]
  simp only [regularNd, h.order, h.lhsAxis, e3, Option.getD_some, e4]
  rw [show (ax.filter fun x => x != lhs) = spaceAxes ax lhs from rfl]
  by_cases h1 : allFinite fin u = true
  · rw [if_neg (by simp [h1])]
    rw [if_neg (by simpa using h.mem)]
    by_cases h2 : (spaceAxes ax lhs).length < 2 ∨ (spaceAxes ax lhs).length > 3
    · rw [if_pos h2]
      simp only [reduceCtorEq, false_iff]
      rintro ⟨_, g1, g2, _⟩; omega
    · rw [if_neg h2]
      have h3 : ((spaceAxes ax lhs).zipIdx.all fun p => spatialOk
            (((transpose u ((lhs :: spaceAxes ax lhs).map fun a => ax.idxOf a)).shape[p.2 + 1]?).getD 0)
            ((cs.lookup p.1).getD [])) = true ↔
          ∀ a ∈ spaceAxes ax lhs, 4 ≤ (c a).length ∧ ∀ e ∈ diffs (c a), close e 0 = false := by
        rw [List.all_eq_true]
        constructor
        · intro H a ha
          obtain ⟨k, hk, rfl⟩ := List.getElem_of_mem ha
          have := H ((spaceAxes ax lhs)[k], k) (by simp [List.mem_iff_getElem?])
          simp only [hsh, e5 _ (hsp _ ha)] at this
          simp only [List.map_cons, List.getElem?_cons_succ, List.getElem?_map, List.getElem?_eq_getElem hk, Option.map_some,
            Option.getD_some, spatialOk, Bool.and_eq_true, Bool.not_eq_true', decide_eq_false_iff_not, List.all_eq_true] at this
          exact ⟨by omega, this.2⟩
        · rintro H ⟨a, k⟩ hp
          obtain ⟨hk, rfl⟩ : ∃ hk : k < (spaceAxes ax lhs).length, (spaceAxes ax lhs)[k] = a := by
            have := List.mem_zipIdx hp
            simp at this
            exact ⟨by omega, this.2.symm⟩
          have ha := List.getElem_mem hk
          obtain ⟨g1, g2⟩ := H _ ha
          simp only [hsh, e5 _ (hsp _ ha)]
          simp only [List.map_cons, List.getElem?_cons_succ, List.getElem?_map, List.getElem?_eq_getElem hk, Option.map_some,
            Option.getD_some, spatialOk, Bool.and_eq_true, Bool.not_eq_true', decide_eq_false_iff_not, List.all_eq_true]
          exact ⟨by omega, g2⟩
      by_cases h4 : ∀ a ∈ spaceAxes ax lhs, 4 ≤ (c a).length ∧ ∀ e ∈ diffs (c a), close e 0 = false
      · rw [if_neg (by rw [h3.2 h4]; simp)]
        rw [e5 lhs h.mem]
        cases ht : timeStep enforce (c lhs) with
        | error e =>
          simp only [reduceCtorEq, false_iff]
          rintro ⟨_, _, _, _, _, dt, g, _⟩
          cases g
        | ok dt =>
          simp only
          by_cases h5 : ∀ n, nInput = some n → n = (spaceAxes ax lhs).length
          · rw [if_neg (by cases nInput with | none => simp | some n => simp [h5 n rfl])]
            rw [hX]
            simp only [Except.ok.injEq]
            constructor
            · rintro rfl; exact ⟨h1, by omega, by omega, h4, h5, dt, rfl, rfl⟩
            · rintro ⟨_, _, _, _, _, dt', g1, g2⟩
              cases g1; exact g2.symm
          · rw [if_pos (by
              cases nInput with
              | none => exact absurd (by simp) h5
              | some n =>
                simp only [Option.any_some, bne_iff_ne]
                intro e; exact h5 (by rintro m rfl'; cases rfl'; exact e))]
            simp only [reduceCtorEq, false_iff]
            rintro ⟨_, _, _, _, g, _⟩; exact h5 g
      · rw [if_pos (by
          rw [Bool.not_eq_true', ← Bool.not_eq_true]
          exact fun g => h4 (h3.1 g))]
        simp only [reduceCtorEq, false_iff]
        rintro ⟨_, _, _, g, _⟩; exact h4 g
  · rw [if_pos (by simpa using h1)]
    simp only [reduceCtorEq, false_iff]
    rintro ⟨g, _⟩; exact h1 g

/-- **C77** (values, N-D): in the data handed to DISCOVER, time comes first and the space axes follow in the data set's order; at every grid
point (an index for every axis name) the entry is the data set's entry at that point – whatever the storage order – and so for every
parameter field; the coordinate lists are those of the space axes. -/
theorem C77_values_nd {d : DS ℚ ℚ} {ax : List String} {lhs : String} {c : String → List ℚ} {u : Arr ℚ} (h : NdSet d ax lhs c u)
    (fin : ℚ → Bool) (enforce : Bool) (nInput : Option Nat) (r : Regular) (hr : regular fin enforce nInput d = .ok r) :
    r.u.shape = (c lhs).length :: (spaceAxes ax lhs).map (fun a => (c a).length) ∧ r.ut.shape = r.u.shape ∧
    r.X = (spaceAxes ax lhs).map c ∧ r.nInput = (spaceAxes ax lhs).length ∧
    (∀ pos : String → Nat, r.u.get (pos lhs :: (spaceAxes ax lhs).map pos) = u.get (ax.map pos)) ∧
    List.Forall₂ (fun q p => q.1 = p.1 ∧ q.2.shape = r.u.shape ∧
      ∀ pos : String → Nat, q.2.get (pos lhs :: (spaceAxes ax lhs).map pos) = p.2.get (ax.map pos)) r.params d.params := by
  obtain ⟨_, _, _, _, _, dt, hdt, rfl⟩ := (regular_nd h fin enforce nInput r).1 hr
  obtain ⟨hm1, hm2⟩ := order_mem h.mem
  have hl : u.shape.length = ax.length := by rw [h.shape]; simp
  have hs := transpose_shape u ax (lhs :: spaceAxes ax lhs) _ h.shape hm2
  refine ⟨hs, rfl, rfl, rfl, fun pos => ?_, ?_⟩
  · exact transpose_get u ax (lhs :: spaceAxes ax lhs) h.nodup hl hm1 hm2 pos
  · have hp := h.params
    simp only
    generalize d.params = ps at hp
    induction ps with
    | nil => exact .nil
    | cons p ps ih =>
      refine .cons ⟨rfl, ?_, fun pos => ?_⟩ (ih fun q hq => hp q (by simp [hq]))
      · have e := hp p (by simp)
        rw [hs]
        exact transpose_shape p.2 ax (lhs :: spaceAxes ax lhs) _ (by rw [e, h.shape]) hm2
      · exact transpose_get p.2 ax (lhs :: spaceAxes ax lhs) h.nodup (by rw [hp p (by simp), hl]) hm1 hm2 pos

/-- **C77** (time derivative, N-D): if the left-hand-side axis is an even grid and the data are quadratic in it (with coefficients that
depend on the space point), the derivative handed over is exact at every grid point. -/
theorem C77_derivative_nd {d : DS ℚ ℚ} {ax : List String} {lhs : String} {c : String → List ℚ} {u : Arr ℚ} (h : NdSet d ax lhs c u)
    (fin : ℚ → Bool) (enforce : Bool) (nInput : Option Nat) (r : Regular) (hr : regular fin enforce nInput d = .ok r)
    (t0 dt : ℚ) (n : Nat) (hgrid : c lhs = grid t0 dt n) (A B C : (String → Nat) → ℚ)
    (hu : ∀ pos, GridPoint ax c pos → u.get (ax.map pos) = A (Function.update pos lhs 0) +
      B (Function.update pos lhs 0) * (t0 + pos lhs * dt) + C (Function.update pos lhs 0) * (t0 + pos lhs * dt) ^ 2)
    (pos : String → Nat) (hp : GridPoint ax c pos) :
    r.ut.get (pos lhs :: (spaceAxes ax lhs).map pos) =
      B (Function.update pos lhs 0) + 2 * C (Function.update pos lhs 0) * (t0 + pos lhs * dt) := by
  have hv := (C77_values_nd h fin enforce nInput r hr).2.2.2.2.1
  have hsh := (C77_values_nd h fin enforce nInput r hr).1
  obtain ⟨_, _, _, _, _, dt', hdt, rfl⟩ := (regular_nd h fin enforce nInput r).1 hr
  obtain ⟨hn, hd, hd0, _⟩ := (timeStep_ok enforce (c lhs) dt').1 hdt
  have hlen : (c lhs).length = n := by rw [hgrid]; simp [grid]
  have hdt' : dt' = dt := by
    obtain ⟨a, b, ha, hb, rfl⟩ := head_diffs hd
    rw [hgrid] at ha hb
    have e1 : (grid t0 dt n)[0]? = some (t0 + ((0 : Nat) : ℚ) * dt) := by simp [grid, show 0 < n by omega]
    have e2 : (grid t0 dt n)[1]? = some (t0 + ((1 : Nat) : ℚ) * dt) := by simp [grid, show 1 < n by omega]
    rw [e1] at ha; rw [e2] at hb
    cases ha; cases hb
    push_cast; ring
  subst hdt'
  simp only at hv hsh ⊢
  simp only [FD.alongAxis, hsh, List.getElem?_cons_zero, Option.getD_some, List.set_cons_zero, hlen]
  have key := d1_quadratic (K := ℚ) (by norm_num) (A (Function.update pos lhs 0)) (B (Function.update pos lhs 0))
    (C (Function.update pos lhs 0)) t0 dt' hd0 n (by omega)
    (fun j => (transpose u ((lhs :: spaceAxes ax lhs).map fun a => ax.idxOf a)).get (j :: (spaceAxes ax lhs).map pos))
    (fun j hj => by
      have e : (spaceAxes ax lhs).map pos = (spaceAxes ax lhs).map (Function.update pos lhs j) := by
        apply List.map_congr_left
        intro a ha
        have : a ≠ lhs := by simp [spaceAxes] at ha; exact ha.2
        simp [Function.update, this]
      have e2 := hv (Function.update pos lhs j)
      simp only [Function.update_self] at e2
      rw [e, e2, hu _ (fun a ha => ?_)]
      · simp
      · by_cases hal : a = lhs
        · subst hal; simp [hlen, hj]
        · simp [Function.update, hal]; exact hp a ha)
    (pos lhs) (by rw [← hlen]; exact hp lhs h.mem)
  exact key

/-- **C77**: the result does not depend on where the left-hand-side axis is stored: two data sets with the same coordinates, the same order of
the space axes and the same value at every grid point give the same numbers at every grid point. -/
theorem C77_storage_order {d d' : DS ℚ ℚ} {ax ax' : List String} {lhs : String} {c : String → List ℚ} {u u' : Arr ℚ}
    (h : NdSet d ax lhs c u) (h' : NdSet d' ax' lhs c u') (hsp : spaceAxes ax lhs = spaceAxes ax' lhs)
    (hu : ∀ pos, GridPoint ax c pos → u.get (ax.map pos) = u'.get (ax'.map pos))
    (fin : ℚ → Bool) (enforce : Bool) (nInput : Option Nat) (r r' : Regular)
    (hr : regular fin enforce nInput d = .ok r) (hr' : regular fin enforce nInput d' = .ok r') :
    r.u.shape = r'.u.shape ∧ r.X = r'.X ∧ ∀ pos, GridPoint ax c pos →
      r.u.get (pos lhs :: (spaceAxes ax lhs).map pos) = r'.u.get (pos lhs :: (spaceAxes ax lhs).map pos) := by
  obtain ⟨a1, _, a3, _, a5, _⟩ := C77_values_nd h fin enforce nInput r hr
  obtain ⟨b1, _, b3, _, b5, _⟩ := C77_values_nd h' fin enforce nInput r' hr'
  refine ⟨by rw [a1, b1, hsp], by rw [a3, b3, hsp], fun pos hp => ?_⟩
  rw [a5, hu pos hp, hsp, b5]

/-! ## Legacy data sets -/

theorem regular_legacy {d : DS ℚ ℚ} {x t : List ℚ} (hx : d.x = some x) (ht : d.t = some t) (hf : d.fields = none) (hc : d.coords = none)
    (hs : d.usol.shape = [x.length, t.length]) (fin : ℚ → Bool) (enforce : Bool) (nInput : Option Nat) (r : Regular) :
    regular fin enforce nInput d = .ok r ↔
      allFinite fin d.usol = true ∧ (∀ n, nInput = some n → n = 1) ∧
      ∃ dt, timeStep enforce t = .ok dt ∧ r = ⟨d.usol, FD.alongAxis (FD.d1 dt) 1 d.usol, [x], 1, d.params⟩ := by
  unfold regular
  rw [hf, hc]
  simp only [regularLegacy, hx, ht]
  rw [if_neg (by simpa using hs)]
  by_cases h1 : allFinite fin d.usol = true
  · rw [if_neg (by simp [h1])]
    cases hts : timeStep enforce t with
    | error e =>
      simp only [reduceCtorEq, false_iff]
      rintro ⟨_, _, dt, g, _⟩; cases g
    | ok dt =>
      simp only
      by_cases h5 : ∀ n, nInput = some n → n = 1
      · rw [if_neg (by cases nInput with | none => simp | some n => simp [h5 n rfl])]
        simp only [Except.ok.injEq]
        constructor
        · rintro rfl; exact ⟨h1, h5, dt, rfl, rfl⟩
        · rintro ⟨_, _, dt', g1, g2⟩
          cases g1; exact g2.symm
      · rw [if_pos (by
          cases nInput with
          | none => exact absurd (by simp) h5
          | some n =>
            simp only [Option.any_some, bne_iff_ne]
            intro e; exact h5 (by rintro m rfl'; cases rfl'; exact e))]
        simp only [reduceCtorEq, false_iff]
        rintro ⟨_, g, _⟩; exact h5 g
  · rw [if_pos (by simpa using h1)]
    simp only [reduceCtorEq, false_iff]
    rintro ⟨g, _⟩; exact h1 g

/-- **C77** (legacy): the solution and parameter fields are handed over unchanged with the coordinate `x`, and the derivative along `t` is exact at
every grid point for data quadratic in `t` on an even grid. -/
theorem C77_legacy {d : DS ℚ ℚ} {x t : List ℚ} (hx : d.x = some x) (ht : d.t = some t) (hf : d.fields = none) (hc : d.coords = none)
    (hs : d.usol.shape = [x.length, t.length]) (fin : ℚ → Bool) (enforce : Bool) (nInput : Option Nat) (r : Regular)
    (hr : regular fin enforce nInput d = .ok r) :
    r.u = d.usol ∧ r.X = [x] ∧ r.nInput = 1 ∧ r.params = d.params ∧ r.ut.shape = d.usol.shape ∧
    ∀ (t0 dt : ℚ), t = grid t0 dt t.length → ∀ A B C : Nat → ℚ,
      (∀ i j : Nat, i < x.length → j < t.length → d.usol.get [i, j] = A i + B i * (t0 + j * dt) + C i * (t0 + j * dt) ^ 2) →
      ∀ i j : Nat, i < x.length → j < t.length → r.ut.get [i, j] = B i + 2 * C i * (t0 + j * dt) := by
  obtain ⟨_, _, dt', hdt, rfl⟩ := (regular_legacy hx ht hf hc hs fin enforce nInput r).1 hr
  refine ⟨rfl, rfl, rfl, rfl, rfl, fun t0 dt hg A B C hu i j hi hj => ?_⟩
  obtain ⟨hn, hd, hd0, _⟩ := (timeStep_ok enforce t dt').1 hdt
  have hdt' : dt' = dt := by
    obtain ⟨a, b, ha, hb, rfl⟩ := head_diffs hd
    have e1 : (grid t0 dt t.length)[0]? = some (t0 + ((0 : Nat) : ℚ) * dt) := by simp [grid, show 0 < t.length by omega]
    have e2 : (grid t0 dt t.length)[1]? = some (t0 + ((1 : Nat) : ℚ) * dt) := by simp [grid, show 1 < t.length by omega]
    rw [← hg, ha] at e1; rw [← hg, hb] at e2
    rw [Option.some.injEq] at e1 e2
    rw [e1, e2]
    push_cast; ring
  subst hdt'
  simp only [FD.alongAxis, hs]
  simpa using d1_quadratic (K := ℚ) (by norm_num) (A i) (B i) (C i) t0 dt' hd0 t.length hn (fun k => d.usol.get [i, k])
    (fun k hk => hu i k hi hk) j hj

/-! ## What is accepted -/

/-- **C78** (N-D): the adapter accepts exactly the data sets with finite data, two or three space axes of at least four points each, no two
consecutive space coordinates within `1e-8`, at least three times with a first step that is not zero and (unless switched off) equal to all
other steps up to numpy's tolerance, and a matching `n_input_dim` if one is given.
Partial, of the whole claim: The accepted data sets are characterised exactly; they include unevenly spaced space axes and (below 1e-8) time axes, and the sparse adapter does not check legacy data (counterexamples). -/
theorem C78_accepted_nd_partial {d : DS ℚ ℚ} {ax : List String} {lhs : String} {c : String → List ℚ} {u : Arr ℚ} (h : NdSet d ax lhs c u)
    (fin : ℚ → Bool) (enforce : Bool) (nInput : Option Nat) :
    (∃ r, regular fin enforce nInput d = .ok r) ↔
      (∀ i ∈ indices u.shape, fin (u.get i) = true) ∧ (ax.length = 3 ∨ ax.length = 4) ∧
      (∀ a ∈ ax, a ≠ lhs → 4 ≤ (c a).length ∧ ∀ (k : Nat) (p q : ℚ), (c a)[k]? = some p → (c a)[k + 1]? = some q → 1 / 100000000 < |q - p|) ∧
      (3 ≤ (c lhs).length ∧ ∃ t0 t1 : ℚ, (c lhs)[0]? = some t0 ∧ (c lhs)[1]? = some t1 ∧ t1 ≠ t0 ∧
        (enforce = true → ∀ (k : Nat) (p q : ℚ), (c lhs)[k]? = some p → (c lhs)[k + 1]? = some q →
          |(q - p) - (t1 - t0)| ≤ 1 / 100000000 + 1 / 100000 * |t1 - t0|)) ∧
      (∀ n, nInput = some n → n + 1 = ax.length) := by
  have hlen : (spaceAxes ax lhs).length + 1 = ax.length := by
    have := List.length_eq_length_filter_add (l := ax) (· != lhs)
    have h1 : (ax.filter fun x => !(x != lhs)).length = 1 := by
      have e : (ax.filter fun x => !(x != lhs)) = ax.filter (· == lhs) := by
        apply List.filter_congr; intro x _; simp only [bne, Bool.not_not]
      rw [e]
      have := List.count_eq_one_of_mem h.nodup h.mem
      rw [List.count_eq_countP, List.countP_eq_length_filter] at this
      exact this
    unfold spaceAxes
    omega
  have hfin : allFinite fin u = true ↔ ∀ i ∈ indices u.shape, fin (u.get i) = true := by simp [allFinite]
  have hclose0 : ∀ e : ℚ, close e 0 = false ↔ 1 / 100000000 < |e| := by
    intro e; simp [close]
  constructor
  · rintro ⟨r, hr⟩
    obtain ⟨g1, g2, g3, g4, g5, dt, g6, _⟩ := (regular_nd h fin enforce nInput r).1 hr
    obtain ⟨t1, t2, t3, t4⟩ := (timeStep_ok enforce (c lhs) dt).1 g6
    obtain ⟨a, b, ha, hb, rfl⟩ := head_diffs t2
    refine ⟨hfin.1 g1, by omega, ?_, ⟨t1, a, b, ha, hb, fun e => t3 (by rw [e]; ring), ?_⟩, ?_⟩
    · intro x hx hne
      obtain ⟨k1, k2⟩ := g4 x (by simp [spaceAxes, hx, hne])
      refine ⟨k1, fun k p q hp hq => (hclose0 _).1 (k2 (q - p) ((mem_diffs _ _).2 ⟨k, p, q, hp, hq, rfl⟩))⟩
    · intro he k p q hp hq
      have := t4 he (q - p) ((mem_diffs _ _).2 ⟨k, p, q, hp, hq, rfl⟩)
      simpa [close] using this
    · intro n hn
      have := g5 n hn
      omega
  · rintro ⟨g1, g2, g3, ⟨g4, a, b, ha, hb, hne, g6⟩, g7⟩
    have hd : (diffs (c lhs)).head? = some (b - a) := by
      match hcl : c lhs, ha, hb with
      | x :: y :: r, ha, hb =>
        simp at ha hb
        subst ha; subst hb
        simp [diffs]
    refine ⟨_, (regular_nd h fin enforce nInput _).2 ⟨hfin.2 g1, by omega, by omega, ?_, ?_, b - a, ?_, rfl⟩⟩
    · intro x hx
      simp [spaceAxes] at hx
      obtain ⟨k1, k2⟩ := g3 x hx.1 hx.2
      refine ⟨k1, fun e he => ?_⟩
      obtain ⟨k, p, q, hp, hq, rfl⟩ := (mem_diffs _ _).1 he
      exact (hclose0 _).2 (k2 k p q hp hq)
    · intro n hn
      have := g7 n hn
      omega
    · refine (timeStep_ok enforce (c lhs) _).2 ⟨g4, hd, fun e => hne (by linarith), fun he e hm => ?_⟩
      obtain ⟨k, p, q, hp, hq, rfl⟩ := (mem_diffs _ _).1 hm
      have := g6 he k p q hp hq
      simpa [close] using this

end Verif.Discover.Adapter.Claims
