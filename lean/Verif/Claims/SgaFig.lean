import Verif.Viz.SgaFig
import Verif.Claims.VizNd
/-!
# C183: the field figures of SGA
-/
namespace Verif.Viz.SgaFig.Claims
open Verif.Data Verif.Viz.Data Verif.Viz.Nd Verif.Viz.Data.Claims Verif.Viz.SgaFig Verif.Claims.VizNd

/-! ## Specification -/

/-- The space axes. -/
def space (c : Context) : List String := c.order.filter fun a => a != c.lhs

/-- Both fields are given on the grid of the coordinates; no axis is empty. -/
structure Sound (c : Context) : Prop where
  nodup : c.order.Nodup
  lhs : c.lhs ∈ c.order
  used : c.u.shape = c.order.map fun a => (c.coords a).length
  original : c.uOrigin.shape = c.order.map fun a => (c.coords a).length
  nonempty : ∀ a ∈ c.order, c.coords a ≠ []

/-- Which section of the data is drawn: axis `v` upwards, axis `h` to the right; with more space axes, the axis asked for stands at the position asked
for, and the others at their middle. -/
def View (c : Context) (axis : Int) (index : Option Int) (v h : String) (pos : String → Nat) : Prop :=
  space c = [v, h] ∨
  2 < (space c).length ∧ ∃ s name rest, AxisIs (space c).length axis s ∧ (space c)[s]? = some name ∧ PositionIs (c.coords name).length index (pos name) ∧
    (space c).eraseIdx s = v :: h :: rest ∧ ∀ r ∈ rest, pos r = (c.coords r).length / 2

/-- The point of the data at row `a` and column `b` of the heat map of step `k`. -/
def point (c : Context) (v h : String) (pos : String → Nat) (a b k : Nat) : List Nat :=
  c.order.map fun n => if n = v then a else if n = h then b else if n = c.lhs then k else pos n

/-- A heat map of `field` at step `k`. -/
structure MapOf (c : Context) (v h : String) (pos : String → Nat) (field : A) (k : Nat) (p : Panel) : Prop where
  up : p.y = c.coords v
  right : p.x = c.coords h
  title : (c.coords c.lhs)[k]? = some p.t
  shape : p.grid.shape = [(c.coords v).length, (c.coords h).length]
  value : ∀ a < (c.coords v).length, ∀ b < (c.coords h).length, p.grid.get [a, b] = field.get (point c v h pos a b k)

/-- Every drawn value lies within the colour limits. -/
def InLimits (f : Figure) : Prop :=
  ∀ q ∈ f.cols, ∀ a b, (a < q.1.y.length → b < q.1.x.length → f.lo ≤ q.1.grid.get [a, b] ∧ q.1.grid.get [a, b] ≤ f.hi) ∧
    (a < q.2.y.length → b < q.2.x.length → f.lo ≤ q.2.grid.get [a, b] ∧ q.2.grid.get [a, b] ≤ f.hi)

/-- The colour limits are values of one of the fields on the section (at some step). -/
def Attained (c : Context) (v h : String) (pos : String → Nat) (f : Figure) : Prop :=
  ∀ z, z = f.lo ∨ z = f.hi → ∃ a b k, a < (c.coords v).length ∧ b < (c.coords h).length ∧ k < (c.coords c.lhs).length ∧
    (z = c.uOrigin.get (point c v h pos a b k) ∨ z = c.u.get (point c v h pos a b k))

/-- The steps of a time-slice figure: for every time asked for a step closest to it, and no others.  The times asked for are those given; the times of the
data if the list is empty; without a list, `count` equally spaced times over the data. -/
def Asked (t : List Rat) (times : Option (List Rat)) (count : Int) (ks : List Nat) : Prop :=
  ∃ req, (∀ l, times = some l → l ≠ [] → req = l) ∧ (times = some [] → req = t) ∧
    (times = none → ∃ lo hi, IsRange t lo hi ∧ Verif.Claims.EquallySpaced req lo hi (max 1 count).toNat) ∧
    (∀ v ∈ req, ∃ k ∈ ks, Closest t v k) ∧ ∀ k ∈ ks, ∃ v ∈ req, Closest t v k

/-! ## Colour limits -/

theorem inside_indices : ∀ {s i : List Nat}, Inside s i → i ∈ indices s := by
  intro s i h
  induction h with
  | nil => simp [indices]
  | cons hk _ ih =>
    simp only [indices, List.mem_flatMap, List.mem_range, List.mem_map]
    exact ⟨_, hk, _, ih, rfl⟩

theorem limits_ok (d : Field) (hw : WellShaped d) (hc : ∀ x ∈ d.coords, x ≠ []) (ht : d.t ≠ []) :
    ∃ l, limits d = .ok l ∧ (∀ i, Inside (d.coords.map List.length ++ [d.t.length]) i →
      l.1 ≤ d.truth.get i ∧ d.truth.get i ≤ l.2 ∧ l.1 ≤ d.predicted.get i ∧ d.predicted.get i ≤ l.2) ∧
      ∀ z, z = l.1 ∨ z = l.2 → ∃ i, Inside (d.coords.map List.length ++ [d.t.length]) i ∧ (z = d.truth.get i ∨ z = d.predicted.get i) := by
  have hz : Inside (d.coords.map List.length ++ [d.t.length]) (d.coords.map (fun _ => 0) ++ [0]) := by
    unfold Inside
    refine List.rel_append ?_ (.cons (List.length_pos_iff.2 ht) .nil)
    rw [List.forall₂_map_left_iff, List.forall₂_map_right_iff, List.forall₂_same]
    exact fun x hx => List.length_pos_iff.2 (hc x hx)
  have ma : ∀ i, Inside (d.coords.map List.length ++ [d.t.length]) i → d.truth.get i ∈ d.truth.ravel ∧ d.predicted.get i ∈ d.predicted.ravel := by
    intro i hi
    have := inside_indices hi
    constructor
    · unfold Arr.ravel
      rw [hw.1]
      exact List.mem_map.2 ⟨i, this, rfl⟩
    · unfold Arr.ravel
      rw [hw.2.1]
      exact List.mem_map.2 ⟨i, this, rfl⟩
  have mb : ∀ z, z ∈ d.truth.ravel ∨ z ∈ d.predicted.ravel →
      ∃ i, Inside (d.coords.map List.length ++ [d.t.length]) i ∧ (z = d.truth.get i ∨ z = d.predicted.get i) := by
    intro z hz
    unfold Arr.ravel at hz
    rw [hw.1, hw.2.1] at hz
    rcases hz with hz | hz <;> obtain ⟨i, hi, rfl⟩ := List.mem_map.1 hz
    · exact ⟨i, indices_inside _ i hi, .inl rfl⟩
    · exact ⟨i, indices_inside _ i hi, .inr rfl⟩
  unfold limits
  cases ha : d.truth.ravel with
  | nil => have := (ma _ hz).1; rw [ha] at this; nomatch this
  | cons a r =>
    cases hb : d.predicted.ravel with
    | nil => have := (ma _ hz).2; rw [hb] at this; nomatch this
    | cons b s =>
      refine ⟨_, rfl, fun i hi => ?_, fun z hz => mb z ?_⟩
      rotate_left
      · rw [ha, hb]
        rcases hz with rfl | rfl
        · rcases min_choice (minL a r) (minL b s) with e | e <;> simp only [e]
          · exact .inl (minL_spec r a).1
          · exact .inr (minL_spec s b).1
        · rcases max_choice (maxL a r) (maxL b s) with e | e <;> simp only [e]
          · exact .inl (maxL_spec r a).1
          · exact .inr (maxL_spec s b).1
      obtain ⟨h1, h2⟩ := ma i hi
      rw [ha] at h1
      rw [hb] at h2
      have p1 := (minL_spec r a).2 _ h1
      have p2 := (maxL_spec r a).2 _ h1
      have p3 := (minL_spec s b).2 _ h2
      have p4 := (maxL_spec s b).2 _ h2
      exact ⟨le_trans (min_le_left _ _) p1, le_trans p2 (le_max_left _ _), le_trans (min_le_right _ _) p3, le_trans p4 (le_max_right _ _)⟩

/-! ## The section -/

theorem mem_space {c : Context} {a : String} : a ∈ space c ↔ a ∈ c.order ∧ a ≠ c.lhs := by simp [space]

theorem space_nodup {c : Context} (hc : Sound c) : (space c).Nodup := List.Pairwise.filter _ hc.nodup

/-- The data cut down to two space axes. -/
theorem section_spec (c : Context) (hc : Sound c) (axis : Int) (index : Option Int) (h2 : 2 ≤ (space c).length) :
    ∃ d p v h pos, sgaField c.order c.coords c.lhs c.u c.uOrigin = .ok d ∧ d.t = c.coords c.lhs ∧ d.coords = (space c).map c.coords ∧
      slice d axis index = .ok p ∧ View c axis index v h pos ∧
      p.coords = [c.coords v, c.coords h] ∧ p.t = c.coords c.lhs ∧ WellShaped p ∧ v ∈ c.order ∧ h ∈ c.order ∧
      ∀ a b k, a < (c.coords v).length → b < (c.coords h).length → k < (c.coords c.lhs).length →
        p.truth.get [a, b, k] = c.uOrigin.get (point c v h pos a b k) ∧ p.predicted.get [a, b, k] = c.u.get (point c v h pos a b k) := by
  obtain ⟨d, hd, hw, hdc, hdt, hval⟩ := C115_field c.order c.coords c.lhs c.u c.uOrigin hc.nodup hc.lhs hc.used hc.original
  have hnd := space_nodup hc
  have hsp : (c.order.filter fun a => a != c.lhs) = space c := rfl
  rw [hsp] at hdc hval
  have hlen : d.coords.length = (space c).length := by rw [hdc, List.length_map]
  -- the value at a point
  have hv : ∀ (v h : String) (pos : String → Nat) (a b k : Nat), v ∈ space c → h ∈ space c → v ≠ h → a < (c.coords v).length →
      b < (c.coords h).length → k < (c.coords c.lhs).length → (∀ n ∈ space c, n ≠ v → n ≠ h → pos n < (c.coords n).length) →
      let f := fun n => if n = v then a else if n = h then b else if n = c.lhs then k else pos n
      d.truth.get ((space c).map f ++ [k]) = c.uOrigin.get (point c v h pos a b k) ∧
      d.predicted.get ((space c).map f ++ [k]) = c.u.get (point c v h pos a b k) := by
    intro v h pos a b k mv mh hne ha hb hk hpos f
    have hvl := (mem_space.1 mv).2
    have hhl := (mem_space.1 mh).2
    have fl : f c.lhs = k := by
      simp only [f]
      rw [if_neg (fun e => hvl e.symm), if_neg (fun e => hhl e.symm), if_pos trivial]
    have := hval f (by
      intro n hn
      simp only [f]
      by_cases e1 : n = v
      · rw [if_pos e1, e1]; exact ha
      · rw [if_neg e1]
        by_cases e2 : n = h
        · rw [if_pos e2, e2]; exact hb
        · rw [if_neg e2]
          by_cases e3 : n = c.lhs
          · rw [if_pos e3, e3]; exact hk
          · rw [if_neg e3]; exact hpos n (mem_space.2 ⟨hn, e3⟩) e1 e2)
    simp only [fl] at this
    exact ⟨this.1, this.2.1⟩
  rcases Nat.lt_or_ge 2 (space c).length with h3 | h3
  · have hne : ∀ x ∈ d.coords, x ≠ [] := by
      rw [hdc]
      intro x hx
      obtain ⟨n, hn, rfl⟩ := List.mem_map.1 hx
      exact hc.nonempty n (mem_space.1 hn).1
    obtain ⟨p, s, pc, x, hp, hs, hx, hpos, hpc, hpt, hpw, hpv⟩ := C113_slice d axis index hw (by omega) hne
    rw [hlen] at hs
    have hsl : s < (space c).length := hs.1
    obtain ⟨name, hname⟩ : ∃ n, (space c)[s]? = some n := ⟨_, List.getElem?_eq_getElem hsl⟩
    have hxn : x = c.coords name := by
      rw [hdc, List.getElem?_map, hname] at hx
      exact (Option.some.inj hx).symm
    have herase : d.coords.eraseIdx s = ((space c).eraseIdx s).map c.coords := by rw [hdc, List.eraseIdx_map]
    have hel : ((space c).eraseIdx s).length = (space c).length - 1 := List.length_eraseIdx_of_lt hsl
    obtain ⟨v, h, rest, hrest⟩ : ∃ v h rest, (space c).eraseIdx s = v :: h :: rest := by
      match hq : (space c).eraseIdx s with
      | [] => rw [hq] at hel; simp at hel; omega
      | [_] => rw [hq] at hel; simp at hel; omega
      | v :: h :: rest => exact ⟨v, h, rest, rfl⟩
    have hnd' : (v :: h :: rest).Nodup := hrest ▸ (List.eraseIdx_sublist _ _).nodup hnd
    have hsub : ∀ n ∈ v :: h :: rest, n ∈ space c := fun n hn => List.mem_of_mem_eraseIdx (hrest ▸ hn)
    have hnot : name ∉ v :: h :: rest := by
      rw [← hrest]
      intro hm
      obtain ⟨k, hk, he⟩ := List.mem_eraseIdx_iff_getElem?.1 hm
      exact hk ((List.getElem?_inj (List.getElem?_eq_some_iff.1 he).1 hnd).1 (he.trans hname.symm))
    let pos : String → Nat := fun n => if n = name then pc else (c.coords n).length / 2
    have posn : pos name = pc := if_pos rfl
    have posr : ∀ r ∈ v :: h :: rest, pos r = (c.coords r).length / 2 := by
      intro r hr
      exact if_neg (fun e : r = name => hnot (e ▸ hr))
    have hmem : ∀ n ∈ space c, n = name ∨ n ∈ v :: h :: rest := by
      intro n hn
      obtain ⟨k, hk⟩ := List.mem_iff_getElem?.1 hn
      by_cases e : k = s
      · subst e; rw [hname] at hk; exact .inl (Option.some.inj hk).symm
      · exact .inr (hrest ▸ List.mem_eraseIdx_iff_getElem?.2 ⟨k, e, hk⟩)
    have nevh : v ≠ h := by
      intro e
      have := hnd'
      simp [e] at this
    refine ⟨d, p, v, h, pos, hd, hdt, hdc, hp, .inr ⟨h3, s, name, rest, hs, hname, ?_, hrest, fun r hr => posr r (by simp [hr])⟩, ?_, hpt.trans hdt, hpw,
      (mem_space.1 (hsub v (by simp))).1, (mem_space.1 (hsub h (by simp))).1, ?_⟩
    · rw [posn, ← hxn]; exact hpos
    · rw [hpc, herase, hrest]; rfl
    · intro a b k ha hb hk
      let f := fun n => if n = v then a else if n = h then b else if n = c.lhs then k else pos n
      have hf := hv v h pos a b k (hsub v (by simp)) (hsub h (by simp)) nevh ha hb hk (by
        intro n hn n1 n2
        rcases hmem n hn with rfl | hr
        · rw [posn, ← hxn]; exact hpos.1
        · rw [posr n hr]
          have := List.length_pos_iff.2 (hc.nonempty n (mem_space.1 hn).1)
          omega)
      have key : ((space c).map f ++ [k])[s]? = some pc := by
        rw [List.getElem?_append_left (by simpa using hsl), List.getElem?_map, hname]
        simp only [Option.map_some, f]
        rw [if_neg (fun e => hnot (by simp [e])), if_neg (fun e => hnot (by simp [e])),
          if_neg (fun e => (mem_space.1 (List.mem_of_getElem? hname)).2 e), posn]
      have ker : ((space c).map f ++ [k]).eraseIdx s = [a, b] ++ ((d.coords.eraseIdx s).drop 2).map (fun c => c.length / 2) ++ [k] := by
        rw [List.eraseIdx_append_of_lt_length (by simpa using hsl), List.eraseIdx_map, hrest, herase, hrest]
        simp only [List.map_cons, List.drop_succ_cons, List.drop_zero, List.map_map]
        have e1 : f v = a := if_pos rfl
        have e2 : f h = b := by simp only [f]; rw [if_neg (Ne.symm nevh), if_pos trivial]
        have e3 : rest.map f = rest.map ((fun c => c.length / 2) ∘ c.coords) := by
          refine List.map_congr_left fun r hr => ?_
          have r1 : r ≠ v := by rintro rfl; simp [hr] at hnd'
          have r2 : r ≠ h := by rintro rfl; simp [hr] at hnd'
          simp only [f]
          rw [if_neg r1, if_neg r2, if_neg (mem_space.1 (hsub r (by simp [hr]))).2]
          exact posr r (by simp [hr])
        rw [e1, e2, e3]
        rfl
      obtain ⟨t1, t2, _⟩ := hpv _ a b k key ker
      exact ⟨t1.trans hf.1, t2.trans hf.2⟩
  · obtain ⟨v, h, hvh⟩ : ∃ v h, space c = [v, h] := by
      match hq : space c with
      | [] => rw [hq] at h2; simp at h2
      | [_] => rw [hq] at h2; simp at h2
      | [v, h] => exact ⟨v, h, rfl⟩
      | _ :: _ :: _ :: _ => rw [hq] at h3; simp at h3
    have hs := C113_small d axis index (by omega)
    have nevh : v ≠ h := by
      intro e
      rw [hvh] at hnd
      simp [e] at hnd
    have mv : v ∈ space c := by simp [hvh]
    have mh : h ∈ space c := by simp [hvh]
    refine ⟨d, d, v, h, fun _ => 0, hd, hdt, hdc, hs, .inl hvh, by rw [hdc, hvh]; rfl, hdt, hw, (mem_space.1 mv).1, (mem_space.1 mh).1, ?_⟩
    intro a b k ha hb hk
    have hf := hv v h (fun _ => 0) a b k mv mh nevh ha hb hk (by
      intro n hn n1 n2
      rw [hvh] at hn
      simp [n1, n2] at hn)
    have : (space c).map (fun n => if n = v then a else if n = h then b else if n = c.lhs then k else 0) ++ [k] = [a, b, k] := by
      rw [hvh]
      simp [Ne.symm nevh]
    simp only [this] at hf
    exact hf

/-! ## Heat maps -/

theorem heatMaps_ok (upper lower : A) (y x : List Rat) (cols : List (Nat × Rat)) (n : Nat) (hu : upper.shape = [y.length, x.length, n])
    (hl : lower.shape = [y.length, x.length, n]) :
    heatMaps upper lower y x cols = .ok (cols.map fun c => (⟨y, x, c.2, lastAt upper c.1⟩, ⟨y, x, c.2, lastAt lower c.1⟩)) := by
  simp only [heatMaps]
  rw [if_pos]
  rw [List.all_eq_true]
  intro q hq
  obtain ⟨c, _, rfl⟩ := List.mem_map.1 hq
  simp [drawable, lastAt, hu, hl]

/-- Both rows of a figure, for given steps. -/
theorem maps_spec {c : Context} {p : Field} {v h : String} {pos : String → Nat} (upper lower fu fl : A)
    (hup : upper.shape = [(c.coords v).length, (c.coords h).length, (c.coords c.lhs).length])
    (hlo : lower.shape = [(c.coords v).length, (c.coords h).length, (c.coords c.lhs).length])
    (hpt : p.t = c.coords c.lhs)
    (hval : ∀ a b k, a < (c.coords v).length → b < (c.coords h).length → k < (c.coords c.lhs).length →
      upper.get [a, b, k] = fu.get (point c v h pos a b k) ∧ lower.get [a, b, k] = fl.get (point c v h pos a b k))
    (lo hi : Rat) (hlim : ∀ a b k, a < (c.coords v).length → b < (c.coords h).length → k < (c.coords c.lhs).length →
      lo ≤ upper.get [a, b, k] ∧ upper.get [a, b, k] ≤ hi ∧ lo ≤ lower.get [a, b, k] ∧ lower.get [a, b, k] ≤ hi)
    (cols : List (Nat × Rat)) (hcols : ∀ q ∈ cols, (c.coords c.lhs)[q.1]? = some q.2) :
    ∃ ps, heatMaps upper lower (c.coords v) (c.coords h) cols = .ok ps ∧ InLimits ⟨ps, lo, hi⟩ ∧
      List.Forall₂ (fun k q => MapOf c v h pos fu k q.1 ∧ MapOf c v h pos fl k q.2) (cols.map Prod.fst) ps := by
  refine ⟨_, heatMaps_ok upper lower _ _ cols _ hup hlo, ?_, ?_⟩
  · intro q hq a b
    obtain ⟨k, hk, rfl⟩ := List.mem_map.1 hq
    have hk' := (List.getElem?_eq_some_iff.1 (hcols k hk)).1
    exact ⟨fun ha hb => ⟨(hlim a b k.1 ha hb hk').1, (hlim a b k.1 ha hb hk').2.1⟩, fun ha hb => (hlim a b k.1 ha hb hk').2.2⟩
  · rw [List.forall₂_map_left_iff, List.forall₂_map_right_iff, List.forall₂_same]
    intro k hk
    have hk' := (List.getElem?_eq_some_iff.1 (hcols k hk)).1
    refine ⟨⟨rfl, rfl, hcols k hk, by simp [lastAt, hup], fun a ha b hb => (hval a b k.1 ha hb hk').1⟩,
      ⟨rfl, rfl, hcols k hk, by simp [lastAt, hlo], fun a ha b hb => (hval a b k.1 ha hb hk').2⟩⟩

theorem inside3 {l m n a b k : Nat} (ha : a < l) (hb : b < m) (hk : k < n) : Inside [l, m, n] [a, b, k] := .cons ha (.cons hb (.cons hk .nil))

theorem attained_of {c : Context} {p : Field} {v h : String} {pos : String → Nat} {ps : List (Panel × Panel)} {l : Rat × Rat}
    (hval : ∀ a b k, a < (c.coords v).length → b < (c.coords h).length → k < (c.coords c.lhs).length →
      p.truth.get [a, b, k] = c.uOrigin.get (point c v h pos a b k) ∧ p.predicted.get [a, b, k] = c.u.get (point c v h pos a b k))
    (hatt : ∀ z, z = l.1 ∨ z = l.2 → ∃ i, Inside [(c.coords v).length, (c.coords h).length, (c.coords c.lhs).length] i ∧
      (z = p.truth.get i ∨ z = p.predicted.get i)) : Attained c v h pos ⟨ps, l.1, l.2⟩ := by
  intro z hz
  obtain ⟨i, hi, hzi⟩ := hatt z hz
  cases hi with
  | cons ha hi => cases hi with
    | cons hb hi => cases hi with
      | cons hk hi =>
        cases hi
        refine ⟨_, _, _, ha, hb, hk, ?_⟩
        rw [← (hval _ _ _ ha hb hk).1, ← (hval _ _ _ ha hb hk).2]
        exact hzi

/-- **C183**: the field comparison with two or more space axes.  There is a column for the first, the middle and the last step (all steps, if at most
three), titled with its time; its upper heat map shows the field used, the lower one the original field, each on the section asked for, over the
coordinates; every drawn value lies within the colour limits.
Partial, of the whole claim: Full when the field used and the original field have one grid; otherwise both figures raise ValueError (C183_grids_counterexample: after delete_edges and with use_metadata). Rational entries; what matplotlib draws is the data handed to it. -/
theorem C183_comparison_partial (c : Context) (hc : Sound c) (axis : Int) (index : Option Int) (h2 : 2 ≤ (space c).length) :
    let nt := (c.coords c.lhs).length
    ∃ f v h pos, fieldComparison c axis index = .ok f ∧ View c axis index v h pos ∧ InLimits f ∧ Attained c v h pos f ∧
      List.Forall₂ (fun k q => MapOf c v h pos c.u k q.1 ∧ MapOf c v h pos c.uOrigin k q.2)
        (if nt ≤ 3 then List.range nt else [0, nt / 2, nt - 1]) f.cols := by
  intro nt
  obtain ⟨d, p, v, h, pos, hd, hdt, hdc, hp, hview, hpc, hpt, hpw, mv, mh, hval⟩ := section_spec c hc axis index h2
  have htne : c.coords c.lhs ≠ [] := hc.nonempty _ hc.lhs
  have hnt : 0 < nt := List.length_pos_iff.2 htne
  obtain ⟨l, hl, hlim, hatt⟩ := limits_ok p hpw (by
    rw [hpc]
    intro x hx
    simp only [List.mem_cons, List.not_mem_nil, or_false] at hx
    rcases hx with rfl | rfl
    · exact hc.nonempty _ mv
    · exact hc.nonempty _ mh) (by rw [hpt]; exact htne)
  have hsh : p.coords.map List.length ++ [p.t.length] = [(c.coords v).length, (c.coords h).length, (c.coords c.lhs).length] := by rw [hpc, hpt]; rfl
  have hw1 := hpw.1
  have hw2 := hpw.2.1
  rw [hsh] at hlim hw1 hw2 hatt
  have hst := steps_spec nt hnt
  obtain ⟨ps, hps, hin, hall⟩ := maps_spec (p := p) p.predicted p.truth c.u c.uOrigin hw2 hw1 hpt
    (fun a b k ha hb hk => ⟨(hval a b k ha hb hk).2, (hval a b k ha hb hk).1⟩) l.1 l.2
    (fun a b k ha hb hk => ⟨(hlim _ (inside3 ha hb hk)).2.2.1, (hlim _ (inside3 ha hb hk)).2.2.2, (hlim _ (inside3 ha hb hk)).1, (hlim _ (inside3 ha hb hk)).2.1⟩)
    ((steps nt).map fun k => (k, (p.t[k]?).getD 0)) (by
      intro q hq
      obtain ⟨k, hk, rfl⟩ := List.mem_map.1 hq
      have := hst.2.2.2.1 k hk
      simp only [hpt]
      rw [List.getElem?_eq_getElem this]
      rfl)
  have hfig : comparisonNd p = .ok ⟨ps, l.1, l.2⟩ := by
    unfold comparisonNd
    rw [if_neg (by rw [hpt]; omega), hl, hpc]
    simp only []
    rw [show p.t.length = nt by rw [hpt]]
    rw [hps]
  refine ⟨⟨ps, l.1, l.2⟩, v, h, pos, ?_, hview, hin, attained_of hval hatt, ?_⟩
  · unfold fieldComparison
    rw [hd]
    simp only []
    match hq : d.coords with
    | [] => rw [hdc] at hq; simp at hq; rw [hq] at h2; simp at h2
    | [_] => rw [hdc] at hq; have := congrArg List.length hq; simp at this; omega
    | [y, x] =>
      simp only []
      have := C113_small d axis index (by rw [hq]; simp)
      rw [hp] at this
      cases this
      exact hfig
    | _ :: _ :: _ :: _ => simp only [hp]; exact hfig
  · have e : ((steps nt).map fun k => (k, (p.t[k]?).getD 0)).map Prod.fst = steps nt := by
      rw [List.map_map]
      exact List.map_id _
    rw [e] at hall
    exact hall

theorem asked_of (t : List Rat) (times : Option (List Rat)) (count : Int) (ht : t ≠ []) :
    ∃ p, sgaPanels t times count = .ok p ∧ Asked t times count p.index ∧ p.index.map (fun k => t[k]?) = p.label.map some := by
  obtain ⟨p, hp, h1, h2, h3, h4, h5, h6⟩ := C114_sga t times count ht
  exact ⟨p, hp, ⟨p.requested, h4, h5, h6, h2, h3⟩, h1⟩

theorem zip_titles (t : List Rat) : ∀ (is : List Nat) (ls : List Rat), is.map (fun k => t[k]?) = ls.map some →
    (is.zip ls).map Prod.fst = is ∧ ∀ q ∈ is.zip ls, t[q.1]? = some q.2 := by
  intro is
  induction is with
  | nil => intro ls _; simp
  | cons k is ih =>
    intro ls h
    cases ls with
    | nil => simp at h
    | cons l ls =>
      simp only [List.map_cons, List.cons.injEq] at h
      obtain ⟨h1, h2⟩ := ih ls h.2
      refine ⟨by simp [h1], fun q hq => ?_⟩
      simp only [List.zip_cons_cons, List.mem_cons] at hq
      rcases hq with rfl | hq
      · exact h.1
      · exact h2 q hq

/-- **C183**: the time slices with two or more space axes.  The steps are those asked for (`Asked`), each column is titled with its time; its upper heat
map shows the original field, the lower one the field used, on the section asked for; every drawn value lies within the colour limits. -/
theorem C183_slices (c : Context) (hc : Sound c) (axis : Int) (index : Option Int) (times : Option (List Rat)) (count : Int) (h2 : 2 ≤ (space c).length) :
    ∃ f v h pos ks, timeSlices c axis index times count = .ok (.maps f) ∧ View c axis index v h pos ∧ InLimits f ∧ Attained c v h pos f ∧
      Asked (c.coords c.lhs) times count ks ∧
      List.Forall₂ (fun k q => MapOf c v h pos c.uOrigin k q.1 ∧ MapOf c v h pos c.u k q.2) ks f.cols := by
  obtain ⟨d, p, v, h, pos, hd, hdt, hdc, hp, hview, hpc, hpt, hpw, mv, mh, hval⟩ := section_spec c hc axis index h2
  have htne : c.coords c.lhs ≠ [] := hc.nonempty _ hc.lhs
  obtain ⟨l, hl, hlim, hatt⟩ := limits_ok p hpw (by
    rw [hpc]
    intro x hx
    simp only [List.mem_cons, List.not_mem_nil, or_false] at hx
    rcases hx with rfl | rfl
    · exact hc.nonempty _ mv
    · exact hc.nonempty _ mh) (by rw [hpt]; exact htne)
  have hsh : p.coords.map List.length ++ [p.t.length] = [(c.coords v).length, (c.coords h).length, (c.coords c.lhs).length] := by rw [hpc, hpt]; rfl
  have hw1 := hpw.1
  have hw2 := hpw.2.1
  rw [hsh] at hlim hw1 hw2 hatt
  obtain ⟨pp, hpp, hask, htit⟩ := asked_of (c.coords c.lhs) times count htne
  obtain ⟨z1, z2⟩ := zip_titles _ _ _ htit
  obtain ⟨ps, hps, hin, hall⟩ := maps_spec (p := p) p.truth p.predicted c.uOrigin c.u hw1 hw2 hpt hval l.1 l.2
    (fun a b k ha hb hk => hlim _ (inside3 ha hb hk)) (pp.index.zip pp.label) z2
  rw [z1] at hall
  refine ⟨⟨ps, l.1, l.2⟩, v, h, pos, pp.index, ?_, hview, hin, attained_of hval hatt, hask, hall⟩
  have hcut : (if d.coords.length ≥ 3 then slice d axis index else .ok d) = .ok p := by
    by_cases h3 : d.coords.length ≥ 3
    · rw [if_pos h3, hp]
    · rw [if_neg h3]
      have := C113_small d axis index (by omega)
      rw [hp] at this
      exact this.symm
  have hnd : slicesNd d axis index times count = .ok (.maps ⟨ps, l.1, l.2⟩) := by
    unfold slicesNd
    rw [hdt, hpp]
    simp only []
    rw [hcut]
    simp only []
    rw [hl, hpc]
    simp only []
    rw [hps]
  unfold timeSlices
  rw [hd]
  simp only []
  match hq : d.coords with
  | [] => exact hnd
  | [_] => rw [hdc] at hq; have := congrArg List.length hq; simp at this; omega
  | _ :: _ :: _ => exact hnd

/-! ## One space axis -/

/-- The point of the data at position `i` of the space axis and step `k`. -/
def point1 (c : Context) (x : String) (i k : Nat) : List Nat := c.order.map fun n => if n = x then i else k

theorem one_spec (c : Context) (hc : Sound c) (x : String) (hx : space c = [x]) :
    ∃ d, sgaField c.order c.coords c.lhs c.u c.uOrigin = .ok d ∧ WellShaped d ∧ d.coords = [c.coords x] ∧ d.t = c.coords c.lhs ∧
      d.truth.shape = [(c.coords x).length, (c.coords c.lhs).length] ∧ d.predicted.shape = [(c.coords x).length, (c.coords c.lhs).length] ∧
      ∀ i k, i < (c.coords x).length → k < (c.coords c.lhs).length →
        d.truth.get [i, k] = c.uOrigin.get (point1 c x i k) ∧ d.predicted.get [i, k] = c.u.get (point1 c x i k) := by
  obtain ⟨d, hd, hw, hdc, hdt, hval⟩ := C115_field c.order c.coords c.lhs c.u c.uOrigin hc.nodup hc.lhs hc.used hc.original
  have hsp : (c.order.filter fun a => a != c.lhs) = [x] := hx
  rw [hsp] at hdc hval
  have mx : x ∈ space c := by simp [hx]
  have hdc' : d.coords = [c.coords x] := hdc
  refine ⟨d, hd, hw, hdc', hdt, by rw [hw.1, hdc', hdt]; rfl, by rw [hw.2.1, hdc', hdt]; rfl, fun i k hi hk => ?_⟩
  have := hval (fun n => if n = x then i else k) (by
    intro n hn
    by_cases e : n = x
    · simp only [e, if_true]; exact hi
    · simp only [if_neg e]
      have : n = c.lhs := by
        by_cases e2 : n = c.lhs
        · exact e2
        · have : n ∈ space c := mem_space.2 ⟨hn, e2⟩
          rw [hx] at this
          simp [e] at this
      rw [this]; exact hk)
  have hl : c.lhs ≠ x := fun e => (mem_space.1 mx).2 e.symm
  simp only [List.map_cons, List.map_nil, if_true, if_neg hl] at this
  exact ⟨this.1, this.2.1⟩

/-- **C183**: with one space axis the comparison shows the two whole fields over time and space. -/
theorem C183_comparison_one (c : Context) (hc : Sound c) (axis : Int) (index : Option Int) (x : String) (hx : space c = [x]) :
    ∃ f q, fieldComparison c axis index = .ok f ∧ f.cols = [q] ∧ InLimits f ∧
      q.1.y = c.coords x ∧ q.1.x = c.coords c.lhs ∧ q.2.y = c.coords x ∧ q.2.x = c.coords c.lhs ∧
      ∀ i k, i < (c.coords x).length → k < (c.coords c.lhs).length →
        q.1.grid.get [i, k] = c.u.get (point1 c x i k) ∧ q.2.grid.get [i, k] = c.uOrigin.get (point1 c x i k) := by
  obtain ⟨d, hd, hw, hdc, hdt, h1, h2, hval⟩ := one_spec c hc x hx
  have mx : x ∈ c.order := (mem_space.1 (show x ∈ space c by simp [hx])).1
  obtain ⟨l, hl, hlim, _⟩ := limits_ok d hw (by rw [hdc]; intro y hy; simp at hy; rw [hy]; exact hc.nonempty _ mx) (by rw [hdt]; exact hc.nonempty _ hc.lhs)
  have hsh : d.coords.map List.length ++ [d.t.length] = [(c.coords x).length, (c.coords c.lhs).length] := by rw [hdc, hdt]; rfl
  rw [hsh] at hlim
  refine ⟨⟨[(⟨c.coords x, c.coords c.lhs, 0, d.predicted⟩, ⟨c.coords x, c.coords c.lhs, 0, d.truth⟩)], l.1, l.2⟩, _, ?_, rfl, ?_, rfl, rfl, rfl, rfl,
    fun i k hi hk => ⟨(hval i k hi hk).2, (hval i k hi hk).1⟩⟩
  · unfold fieldComparison
    rw [hd]
    simp only []
    rw [hdc]
    simp only [comparison1d, hl, hdt]
    rw [if_pos (by simp [drawable, h1, h2])]
  · intro q hq a b
    simp only [List.mem_cons, List.not_mem_nil, or_false] at hq
    subst hq
    constructor
    · intro ha hb
      have := hlim [a, b] (.cons ha (.cons hb .nil))
      exact ⟨this.2.2.1, this.2.2.2⟩
    · intro ha hb
      have := hlim [a, b] (.cons ha (.cons hb .nil))
      exact ⟨this.1, this.2.1⟩

/-- **C183**: with one space axis the time slices are lines: for each step asked for, the original field and the field used at that step over the space
coordinates, titled with the time of the step. -/
theorem C183_slices_one (c : Context) (hc : Sound c) (axis : Int) (index : Option Int) (times : Option (List Rat)) (count : Int) (x : String)
    (hx : space c = [x]) :
    ∃ ps ks, timeSlices c axis index times count = .ok (.lines ps) ∧ Asked (c.coords c.lhs) times count ks ∧
      List.Forall₂ (fun k q => q.x = c.coords x ∧ (c.coords c.lhs)[k]? = some q.t ∧
        q.truth = (List.range (c.coords x).length).map (fun i => c.uOrigin.get (point1 c x i k)) ∧
        q.predicted = (List.range (c.coords x).length).map fun i => c.u.get (point1 c x i k)) ks ps := by
  obtain ⟨d, hd, hw, hdc, hdt, h1, h2, hval⟩ := one_spec c hc x hx
  obtain ⟨p, hp, hask, htit⟩ := asked_of (c.coords c.lhs) times count (hc.nonempty _ hc.lhs)
  obtain ⟨z1, z2⟩ := zip_titles _ _ _ htit
  refine ⟨(p.index.zip p.label).map fun q => ⟨c.coords x, q.2, column d.truth q.1, column d.predicted q.1⟩, p.index, ?_, hask, ?_⟩
  · unfold timeSlices
    rw [hd]
    simp only []
    rw [hdc]
    simp only [slices1d, hdt, hp]
    rw [if_pos]
    rw [List.all_eq_true]
    intro q hq
    obtain ⟨k, _, rfl⟩ := List.mem_map.1 hq
    simp [column, h1, h2]
  · conv => arg 2; rw [← z1]
    rw [List.forall₂_map_left_iff, List.forall₂_map_right_iff, List.forall₂_same]
    intro k hk
    have hkt := z2 k hk
    have hk' := (List.getElem?_eq_some_iff.1 hkt).1
    refine ⟨rfl, hkt, ?_, ?_⟩
    · simp only [column, h1, List.headD_cons]
      exact List.map_congr_left fun i hi => (hval i k.1 (List.mem_range.1 hi) hk').1
    · simp only [column, h2, List.headD_cons]
      exact List.map_congr_left fun i hi => (hval i k.1 (List.mem_range.1 hi) hk').2

/-! ## A defect -/

/-- **C183**, a defect: if the field used and the original field have different grids, both figures end with a ValueError, whatever the options.  So it is
after `delete_edges` (context.py:399-438 cuts the field used and the coordinates, not `u_origin`) and with `use_metadata` (the field used is refined). -/
theorem C183_grids_counterexample (c : Context) (hn : c.order.Nodup) (hl : c.lhs ∈ c.order) (hu : c.u.shape = c.order.map fun a => (c.coords a).length)
    (hlen : c.uOrigin.shape.length = c.order.length) (ho : c.uOrigin.shape ≠ c.u.shape) (axis : Int) (index : Option Int) (times : Option (List Rat))
    (count : Int) : fieldComparison c axis index = .error .value ∧ timeSlices c axis index times count = .error .value := by
  have hp := perm_lhs_last hn hl
  let size : String → Nat := fun a => (c.uOrigin.shape[c.order.idxOf a]?).getD 0
  have hos : c.uOrigin.shape = c.order.map size := by
    apply List.ext_getElem
    · simpa using hlen
    · intro i h1 h2
      have hi : i < c.order.length := by simpa using h2
      simp only [List.getElem_map, size]
      rw [hn.idxOf_getElem i hi, List.getElem?_eq_getElem h1]
      rfl
  have e1 := transpose_shape c.order ((c.order.filter fun a => a != c.lhs) ++ [c.lhs]) c.uOrigin size hos (fun a ha => hp.mem_iff.1 ha)
  have e2 := transpose_shape c.order ((c.order.filter fun a => a != c.lhs) ++ [c.lhs]) c.u _ hu (fun a ha => hp.mem_iff.1 ha)
  have hne : (transpose c.uOrigin (((c.order.filter fun a => a != c.lhs) ++ [c.lhs]).map c.order.idxOf)).shape ≠
      (transpose c.u (((c.order.filter fun a => a != c.lhs) ++ [c.lhs]).map c.order.idxOf)).shape := by
    rw [e1, e2]
    intro e
    apply ho
    rw [hos, hu]
    refine List.map_congr_left fun a ha => ?_
    exact List.map_inj_left.1 e a (hp.mem_iff.2 ha)
  have hf : sgaField c.order c.coords c.lhs c.u c.uOrigin = .error .value := by
    unfold sgaField
    rw [if_pos (by simpa using hl)]
    simp only []
    rw [show (c.order.filter fun a => a != c.lhs).map c.order.idxOf ++ [c.order.idxOf c.lhs] =
      ((c.order.filter fun a => a != c.lhs) ++ [c.lhs]).map c.order.idxOf by simp]
    unfold mkField
    rw [if_pos hne]
  constructor
  · unfold fieldComparison; rw [hf]
  · unfold timeSlices; rw [hf]

/-! ## Examples -/

/-- Three space axes stored around the time, and the same data with the edges of `x` cut. -/
def demoAxes : String → List Rat := fun a => if a = "x" then [0, 1, 2] else if a = "y" then [0, 1] else if a = "z" then [5, 6] else [0, 1, 2, 3]
def demoField : A := ⟨[3, 4, 2, 2], fun i => ((i.getD 0 0 * 1000 + i.getD 1 0 * 100 + i.getD 2 0 * 10 + i.getD 3 0 : Nat) : Rat)⟩
def demoContext : Context := ⟨["x", "t", "y", "z"], demoAxes, "t", demoField, demoField⟩

theorem C183_hypotheses : Sound demoContext ∧ space demoContext = ["x", "y", "z"] ∧
    Sound ⟨["x", "t"], demoAxes, "t", ⟨[3, 4], fun _ => 1⟩, ⟨[3, 4], fun _ => 1⟩⟩ ∧
    (∃ f, fieldComparison demoContext 0 (some 2) = .ok f ∧ f.cols.map (fun q => (q.1.t, q.1.grid.get [1, 0], q.2.y)) =
      [(0, 2010, [0, 1]), (2, 2210, [0, 1]), (3, 2310, [0, 1])] ∧ f.lo = 2000 ∧ f.hi = 2311) ∧
    fieldComparison ⟨["x", "t"], fun a => if a = "x" then [1, 2, 3] else [0, 1], "t", ⟨[3, 2], fun _ => 1⟩, ⟨[5, 2], fun _ => 1⟩⟩ (-1) none = .error .value := by
  refine ⟨⟨by decide, by decide, by decide, by decide, by decide⟩, by decide, ⟨by decide, by decide, by decide, by decide, by decide⟩, ⟨⟨_, _, _⟩, rfl, ?_⟩, rfl⟩
  decide +kernel

end Verif.Viz.SgaFig.Claims
