import Verif.Discover.Objects
/-!
# C211: programs of several expressions
-/
namespace Verif.Discover.Objects

/-! ## Specification -/

/-- `l` lists `k` expressions in preorder, one after the other. -/
inductive Exprs (ar : Nat → Nat) : Nat → List Nat → Prop
  | nil : Exprs ar 0 []
  | node (t k : Nat) (a b : List Nat) : Exprs ar (ar t) a → Exprs ar k b → Exprs ar (k + 1) (t :: (a ++ b))

/-- `l` is one expression. -/
def Whole (ar : Nat → Nat) (l : List Nat) : Prop := Exprs ar 1 l

/-- `l` begins an expression and does not end it. -/
def Begun (ar : Nat → Nat) (l : List Nat) : Prop := l ≠ [] ∧ ∃ r, r ≠ [] ∧ Whole ar (l ++ r)

/-- Open places gained by the tokens: 1 + this is `dangling` while an expression is being written (task.py:141-151). -/
def gain (ar : Nat → Nat) : List Nat → Int
  | [] => 0
  | t :: l => ((ar t : Int) - 1) + gain ar l

/-- An expression written token by token, each allowed after the ones before (`objs`: the expressions finished earlier). -/
def Sampled (ar : Nat → Nat) (n : Nat) (min max : Option Nat) (objs : List (List Nat)) (e : List Nat) : Prop :=
  Whole ar e ∧ ∀ a t b, e = a ++ t :: b →
    (a = [] → firstAllows (ar t) = true) ∧ (a ≠ [] → lengthAllows ar n min max (objs.flatten ++ a) (1 + gain ar a) (ar t) = some true)

/-! ## Proofs -/

private theorem gain_append (ar : Nat → Nat) : ∀ a b, gain ar (a ++ b) = gain ar a + gain ar b
  | [], b => by simp [gain]
  | t :: a, b => by simp only [List.cons_append, gain, gain_append ar a b]; omega

private theorem exprs_gain {ar : Nat → Nat} {k l} (h : Exprs ar k l) :
    gain ar l = -(k : Int) ∧ ∀ p r, l = p ++ r → r ≠ [] → -(k : Int) < gain ar p := by
  induction h with
  | nil =>
    refine ⟨rfl, fun p r h hr => ?_⟩
    rw [eq_comm, List.append_eq_nil_iff] at h
    exact absurd h.2 hr
  | node t k a b _ _ iha ihb =>
    refine ⟨by simp only [gain, gain_append, iha.1, ihb.1]; omega, fun p r h hr => ?_⟩
    cases p with
    | nil => simp only [gain]; omega
    | cons x p =>
      rw [List.cons_append, List.cons.injEq] at h
      obtain ⟨rfl, h⟩ := h
      rcases List.append_eq_append_iff.1 h with ⟨c, rfl, hb⟩ | ⟨c, rfl, hr'⟩
      · have := ihb.2 c r hb hr
        simp only [gain, gain_append, iha.1]
        omega
      · by_cases hc : c = []
        · subst hc
          have h2 := iha.1
          rw [List.append_nil] at h2
          have h3 := ihb.2 [] b rfl (by rw [List.nil_append] at hr'; rw [← hr']; exact hr)
          simp only [gain] at h3
          simp only [gain, h2]
          omega
        · have := iha.2 p c rfl hc
          simp only [gain]
          omega

private theorem steps_append (ar : Nat → Nat) : ∀ a b s, steps ar s (a ++ b) = (steps ar s a).bind fun s' => steps ar s' b
  | [], b, s => rfl
  | t :: a, b, s => by
    simp only [List.cons_append, steps]
    cases step ar s t with
    | none => rfl
    | some s' => exact steps_append ar a b s'

/-- Tokens that do not end an expression. -/
private theorem steps_open (ar : Nat → Nat) (m : Int) (ms : List Int) : ∀ (p : List Nat) (s : St), s.marks = m :: ms →
    (∀ a b, p = a ++ b → a ≠ [] → s.dangling + gain ar a ≠ m) →
    ∃ q, steps ar s p = some ⟨s.dangling + gain ar p, m :: ms, s.ctr + p.length, q, s.last, s.c + p.length⟩ ∧
      (p ≠ [] → q + 1 = s.ctr + p.length)
  | [], s, hm, _ => ⟨s.pos, by cases s; simp_all [steps, gain], fun h => absurd rfl h⟩
  | t :: p, s, hm, h => by
    have h1 : ¬ s.dangling + ((ar t : Int) - 1) = m := by
      have := h [t] p rfl (by simp)
      simpa [gain] using this
    have hs : step ar s t = some ⟨s.dangling + ((ar t : Int) - 1), m :: ms, s.ctr + 1, s.ctr, s.last, s.c + 1⟩ := by
      simp [step, hm, h1]
    obtain ⟨q, h2, h3⟩ := steps_open ar m ms p ⟨s.dangling + ((ar t : Int) - 1), m :: ms, s.ctr + 1, s.ctr, s.last, s.c + 1⟩ rfl
      (fun a b hab ha => by
        have := h (t :: a) b (by rw [hab]; rfl) (by simp)
        simp only [gain] at this
        simp only
        omega)
    by_cases hp : p = []
    · subst hp
      refine ⟨s.ctr, ?_, fun _ => by simp⟩
      simp [steps, hs, gain]
    · refine ⟨q, ?_, fun _ => by have := h3 hp; simp only [List.length_cons] at *; omega⟩
      simp only [steps, hs, h2, gain, List.length_cons, Option.some.injEq, St.mk.injEq]
      refine ⟨?_, trivial, ?_, trivial, trivial, ?_⟩ <;> omega

private theorem dl {e : List Nat} (h : e ≠ []) : e.dropLast ++ [e.getLast h] = e := List.dropLast_concat_getLast h

private theorem whole_split {ar : Nat → Nat} {e} (h : Whole ar e) : ∃ p t, e = p ++ [t] ∧ gain ar p + ((ar t : Int) - 1) = -1 ∧
    ∀ a b, p = a ++ b → 0 ≤ gain ar a := by
  obtain ⟨h1, h2⟩ := exprs_gain h
  have hne : e ≠ [] := by
    intro h'; rw [h'] at h1; simp [gain] at h1
  refine ⟨e.dropLast, e.getLast hne, (dl hne).symm, ?_, ?_⟩
  · rw [← dl hne, gain_append] at h1
    simp only [gain] at h1
    simp at h1
    omega
  · intro a b hab
    have := h2 a (b ++ [e.getLast hne]) (by rw [← List.append_assoc, ← hab, dl hne]) (by simp)
    simp at this
    omega

/-- A whole expression. -/
private theorem steps_whole {ar : Nat → Nat} {e} (h : Whole ar e) (s : St) (m : Int) (ms : List Int) (hm : s.marks = m :: ms)
    (hd : m = s.dangling - 1) (hc : s.ctr = 0) :
    steps ar s e = some ⟨m, ms, 0, e.length - 1, s.c + e.length - 1, s.c + e.length⟩ := by
  obtain ⟨p, t, rfl, hg, hp⟩ := whole_split h
  obtain ⟨q, h1, h2⟩ := steps_open ar m ms p s hm (fun a b hab _ => by have := hp a b hab; omega)
  rw [steps_append, h1]
  have he : s.dangling + gain ar p + ((ar t : Int) - 1) = m := by omega
  simp [steps, step, he, hc]
  omega

private theorem markers_drop (n k : Nat) (h : k < n) : (markers n).drop k = -((k : Int) + 1) :: (markers n).drop (k + 1) := by
  have hl : k < (markers n).length := by simp [markers, h]
  rw [List.drop_eq_getElem_cons hl]
  simp [markers]

private theorem steps_objs {ar : Nat → Nat} (n : Nat) : ∀ (objs : List (List Nat)) (k : Nat) (s : St), (∀ e ∈ objs, Whole ar e) → k + objs.length ≤ n →
    s.marks = (markers n).drop k → s.dangling = -(k : Int) → s.ctr = 0 →
    ∃ q, steps ar s objs.flatten = some ⟨-((k + objs.length : Nat) : Int), (markers n).drop (k + objs.length), 0, q,
      (if objs = [] then s.last else s.c + objs.flatten.length - 1), s.c + objs.flatten.length⟩
  | [], k, s, _, _, hm, hd, hc => ⟨s.pos, by cases s; simp_all [steps]⟩
  | e :: objs, k, s, hw, hk, hm, hd, hc => by
    simp only [List.length_cons] at hk
    have h1 := steps_whole (hw e List.mem_cons_self) s (-((k : Int) + 1)) ((markers n).drop (k + 1))
      (by rw [hm, markers_drop n k (by omega)]) (by omega) hc
    obtain ⟨q, h2⟩ := steps_objs n objs (k + 1) ⟨-((k : Int) + 1), (markers n).drop (k + 1), 0, e.length - 1, s.c + e.length - 1, s.c + e.length⟩
      (fun e' h' => hw e' (List.mem_cons_of_mem _ h')) (by omega) rfl (by simp only; omega) rfl
    have he : 0 < e.length := by
      obtain ⟨p, t, rfl, _⟩ := whole_split (hw e List.mem_cons_self); simp
    refine ⟨q, ?_⟩
    rw [List.flatten_cons, steps_append, h1]
    simp only [Option.bind_some, h2, Option.some.injEq, St.mk.injEq, List.length_append, List.length_cons]
    refine ⟨by omega, by congr 1; omega, trivial, trivial, ?_, by omega⟩
    by_cases ho : objs = []
    · subst ho; simp
    · simp [ho]; omega

private theorem position_begun (ar : Nat → Nat) (n : Nat) (objs : List (List Nat)) (hw : ∀ e ∈ objs, Whole ar e) (hn : objs.length < n)
    (cur : List Nat) (hc : Begun ar cur) :
    getPosition ar n (objs.flatten ++ cur) = some (cur.length - 1, objs.flatten.length - 1) := by
  obtain ⟨hne, r, hr, hwr⟩ := hc
  obtain ⟨q, h1⟩ := steps_objs (ar := ar) n objs 0 ⟨0, markers n, 0, 0, 0, 0⟩ hw (by omega) rfl rfl rfl
  obtain ⟨q2, h2, h3⟩ := steps_open ar (-((objs.length : Int) + 1)) ((markers n).drop (objs.length + 1)) cur
    ⟨-((0 + objs.length : Nat) : Int), (markers n).drop (0 + objs.length), 0, q,
      (if objs = [] then 0 else 0 + objs.flatten.length - 1), 0 + objs.flatten.length⟩
    (by rw [Nat.zero_add]; exact markers_drop n _ hn)
    (fun a b hab _ => by
      have := (exprs_gain hwr).2 a (b ++ r) (by rw [hab, List.append_assoc]) (by simp [hr])
      simp only
      omega)
  have h4 := h3 hne
  simp only [getPosition, steps_append, h1, Option.bind_some, h2, Option.map_some]
  have : (if objs = [] then 0 else 0 + objs.flatten.length - 1) = objs.flatten.length - 1 := by
    by_cases ho : objs = []
    · subst ho; simp
    · simp [ho]
  rw [this]
  have : q2 = cur.length - 1 := by simp only at h4; omega
  rw [this]

/-- While an expression is being written the position is the one within this expression, and the end reported is that of the last expression
finished (0 if there is none); when it has just been finished, both are those of its last token. -/
theorem C211_position (ar : Nat → Nat) (n : Nat) (objs : List (List Nat)) (hw : ∀ e ∈ objs, Whole ar e) (hn : objs.length < n) :
    (∀ cur, Begun ar cur → getPosition ar n (objs.flatten ++ cur) = some (cur.length - 1, objs.flatten.length - 1)) ∧
    (∀ cur, Whole ar cur → getPosition ar n (objs.flatten ++ cur) = some (cur.length - 1, (objs.flatten ++ cur).length - 1)) := by
  refine ⟨fun cur hc => position_begun ar n objs hw hn cur hc, fun cur hc => ?_⟩
  obtain ⟨q, h1⟩ := steps_objs (ar := ar) n objs 0 ⟨0, markers n, 0, 0, 0, 0⟩ hw (by omega) rfl rfl rfl
  have h2 := steps_whole hc
    ⟨-((0 + objs.length : Nat) : Int), (markers n).drop (0 + objs.length), 0, q,
      (if objs = [] then 0 else 0 + objs.flatten.length - 1), 0 + objs.flatten.length⟩
    (-((objs.length : Int) + 1)) ((markers n).drop (objs.length + 1))
    (by rw [Nat.zero_add]; exact markers_drop n _ hn) (by simp only; omega) rfl
  simp only [getPosition, steps_append, h1, Option.bind_some, h2, Option.map_some, List.length_append, Option.some.injEq, Prod.mk.injEq]
  exact ⟨trivial, by omega⟩

private theorem foldl_open (ar : Nat → Nat) : ∀ (p : List Nat) (s : Cut), (∀ a b, p = a ++ b → a ≠ [] → s.dangling + gain ar a ∉ s.marks) →
    p.foldl (cutStep ar) s = ⟨s.dangling + gain ar p, s.marks, s.cur ++ p, s.out⟩
  | [], s, _ => by cases s; simp [gain]
  | t :: p, s, h => by
    have h1 : s.dangling + ((ar t : Int) - 1) ∉ s.marks := by
      have := h [t] p rfl (by simp)
      simpa [gain] using this
    rw [List.foldl_cons, cutStep]
    simp only [if_neg h1]
    rw [foldl_open ar p]
    · simp only [gain, List.append_assoc, List.singleton_append, Cut.mk.injEq, and_true]
      omega
    · intro a b hab ha
      have := h (t :: a) b (by rw [hab]; rfl) (by simp)
      simp only [gain] at this
      rw [Int.add_assoc]
      exact this

private theorem mem_markers_drop {n k : Nat} {x : Int} (h : x ∈ (markers n).drop k) : x ≤ -((k : Int) + 1) := by
  obtain ⟨i, hi, rfl⟩ := List.mem_iff_getElem.1 h
  simp [markers]
  omega

private theorem filter_drop (n k : Nat) (h : k < n) :
    ((markers n).drop k).filter (fun m => decide (m ≠ -((k : Int) + 1))) = (markers n).drop (k + 1) := by
  rw [markers_drop n k h, List.filter_cons_of_neg (by simp), List.filter_eq_self]
  intro x hx
  have := mem_markers_drop hx
  simp only [ne_eq, decide_not, Bool.not_eq_eq_eq_not, Bool.not_true, decide_eq_false_iff_not]
  omega

private theorem cut_objs {ar : Nat → Nat} (n : Nat) : ∀ (objs : List (List Nat)) (k : Nat) (out : List (List Nat)), (∀ e ∈ objs, Whole ar e) →
    k + objs.length ≤ n →
    (objs.flatten.foldl (cutStep ar) ⟨-(k : Int), (markers n).drop k, [], out⟩).out = out ++ objs
  | [], k, out, _, _ => by simp
  | e :: objs, k, out, hw, hk => by
    simp only [List.length_cons] at hk
    obtain ⟨p, t, rfl, hg, hp⟩ := whole_split (hw e List.mem_cons_self)
    rw [List.flatten_cons, List.foldl_append, List.foldl_append, foldl_open ar p]
    · have hmem : -(k : Int) + gain ar p + ((ar t : Int) - 1) = -((k : Int) + 1) := by omega
      simp only [List.foldl_cons, List.foldl_nil, cutStep, hmem]
      rw [if_pos (by rw [markers_drop n k (by omega)]; simp), filter_drop n k (by omega)]
      have ih := cut_objs n objs (k + 1) (out ++ [p ++ [t]]) (fun e' h' => hw e' (List.mem_cons_of_mem _ h')) (by omega)
      have e1 : -((k + 1 : Nat) : Int) = -((k : Int) + 1) := by omega
      rw [e1] at ih
      simpa using ih
    · intro a b hab _ hmem
      have := mem_markers_drop hmem
      have := hp a b hab
      simp only at *
      omega

/-- A program of n expressions, one after the other, is cut into exactly these. -/
theorem C211_cut (ar : Nat → Nat) (n : Nat) (objs : List (List Nat)) (hw : ∀ e ∈ objs, Whole ar e) (hn : objs.length ≤ n) :
    traversals ar n objs.flatten = objs := by
  have := cut_objs (ar := ar) n objs 0 [] hw (by omega)
  simpa [traversals] using this

private theorem masked_count (targets : List Nat) : ∀ (l : List Nat) (p : Nat),
    (List.zipWith (fun t m => decide (m ≠ 0 ∧ t ∈ targets)) l (getMask p l.length)).countP id = (l.drop p).countP fun t => decide (t ∈ targets) := by
  intro l
  induction l with
  | nil => intro p; simp [getMask]
  | cons t l ih =>
    intro p
    have hmask : ∀ p d, getMask p (d + 1) = (if 0 < p then 0 else 1) :: getMask (p - 1) d := by
      intro p d
      simp only [getMask, List.range_succ_eq_map, List.map_cons, List.map_map, List.cons.injEq, true_and]
      apply List.map_congr_left
      intro j _
      simp only [Function.comp]
      by_cases h : j + 1 < p
      · rw [if_pos h, if_pos (by omega)]
      · rw [if_neg h, if_neg (by omega)]
    rw [List.length_cons, hmask]
    cases p with
    | zero =>
      have := ih 0
      simp only [List.drop_zero] at this
      simpa [List.countP_cons] using this
    | succ p =>
      simpa [List.countP_cons] using ih p

/-- While an expression is being written the count is taken over this expression and the last token of the one before; so no expression gets
more than the maximum.
Partial, of the whole claim: Cutting, positions and the bounds are proved for every number of expressions; the repeat bound counts the last token of the expression before as well (C211_previous_counterexample). -/
theorem C211_repeat_partial (ar : Nat → Nat) (n : Nat) (objs : List (List Nat)) (hw : ∀ e ∈ objs, Whole ar e) (hn : objs.length < n)
    (cur : List Nat) (hc : Begun ar cur) (targets : List Nat) (max : Nat) :
    repeatCount ar n targets (objs.flatten ++ cur) =
      some ((objs.flatten.getLast?.toList ++ cur).countP fun t => decide (t ∈ targets)) ∧
    (max ≤ cur.countP (fun t => decide (t ∈ targets)) → repeatForbids ar n max targets (objs.flatten ++ cur) = some true) := by
  have h1 : repeatCount ar n targets (objs.flatten ++ cur) =
      some ((objs.flatten.getLast?.toList ++ cur).countP fun t => decide (t ∈ targets)) := by
    rw [repeatCount, position_begun ar n objs hw hn cur hc]
    simp only [masked_count, Option.some.injEq]
    congr 1
    generalize objs.flatten = f
    cases hf : f.reverse with
    | nil =>
      have : f = [] := by simpa using hf
      subst this; simp
    | cons x g =>
      have : f = g.reverse ++ [x] := by rw [← List.reverse_reverse f, hf]; simp
      subst this
      simp
  refine ⟨h1, fun hm => ?_⟩
  rw [repeatForbids, h1]
  simp only [Option.map_some, List.countP_append, Option.some.injEq, decide_eq_true_eq]
  omega

private theorem begun_of {ar : Nat → Nat} {e a b t} (h : Whole ar e) (he : e = a ++ t :: b) (ha : a ≠ []) : Begun ar a :=
  ⟨ha, t :: b, by simp, by rw [← he]; exact h⟩

/-- Every expression has a length between the bounds. -/
theorem C211_length (ar : Nat → Nat) (har : ∀ t, ar t ≤ 2) (n : Nat) (objs : List (List Nat)) (hw : ∀ e ∈ objs, Whole ar e) (hn : objs.length < n)
    (min max : Nat) (h3 : 3 ≤ max) (e : List Nat) (hs : Sampled ar n (some min) (some max) objs e) :
    min ≤ e.length ∧ e.length ≤ max := by
  suffices hh : e.length ≤ max ∧ (2 ≤ e.length → min ≤ e.length) ∧ e.length ≠ 1 by
    have h0 : e ≠ [] := by
      intro h
      have := (exprs_gain hs.1).1
      rw [h] at this
      simp [gain] at this
    have := List.length_pos_iff.2 h0
    exact ⟨hh.2.1 (by have := hh.2.2; omega), hh.1⟩
  obtain ⟨hwh, hall⟩ := hs
  have key : ∀ a b, e = a ++ b → a ≠ [] → 1 + gain ar a ≤ (max : Int) - a.length := by
    intro a
    induction hk : a.length generalizing a with
    | zero => intro b _ ha; exact absurd (List.length_eq_zero_iff.1 hk) ha
    | succ k ih =>
      intro b hab ha
      have hsplit := (dl ha).symm
      generalize a.dropLast = a' at hsplit
      generalize a.getLast ha = t at hsplit
      subst hsplit
      have hlen : a'.length = k := by simpa using hk
      rw [List.append_assoc, List.singleton_append] at hab
      have hg : gain ar (a' ++ [t]) = gain ar a' + ((ar t : Int) - 1) := by rw [gain_append]; simp [gain]
      by_cases h0 : a' = []
      · subst h0
        have := har t
        simp only [List.length_nil] at hlen
        subst hlen
        rw [hg]
        simp only [gain]
        omega
      · have hi := ih a' hlen (t :: b) hab h0
        have hal := (hall a' t b hab).2 h0
        rw [lengthAllows, position_begun ar n objs hw hn a' (begun_of hwh hab h0)] at hal
        have hpos : 0 < a'.length := List.length_pos_iff.2 h0
        simp only [Option.some.injEq, Bool.and_eq_true, Bool.not_eq_true', Bool.and_eq_false_iff, decide_eq_false_iff_not] at hal
        obtain ⟨⟨h4, h5⟩, _⟩ := hal
        have := har t
        rw [hg]
        rw [hlen] at h4 h5 hpos
        omega
  obtain ⟨hg, _⟩ := exprs_gain hwh
  obtain ⟨p, t, he, hpt, hopen⟩ := whole_split hwh
  have hne : e ≠ [] := by rw [he]; simp
  have hk := key e [] (by simp) hne
  refine ⟨by rw [hg] at hk; omega, fun hl => ?_, fun hl => ?_⟩
  · have hp0 : p ≠ [] := by
      intro h; rw [h] at he; rw [he] at hl; simp at hl
    have hal := (hall p t [] he).2 hp0
    rw [lengthAllows, position_begun ar n objs hw hn p (begun_of hwh he hp0)] at hal
    simp only [Option.some.injEq, Bool.and_eq_true, Bool.not_eq_true', Bool.and_eq_false_iff, decide_eq_false_iff_not] at hal
    obtain ⟨_, h6⟩ := hal
    have hpos : 0 < p.length := List.length_pos_iff.2 hp0
    have := hopen p [] (by simp)
    have hel : e.length = p.length + 1 := by rw [he]; simp
    omega
  · have hp0 : p = [] := by
      rw [he] at hl
      simpa using hl
    have := (hall p t [] he).1 hp0
    simp only [firstAllows, decide_eq_true_eq] at this
    rw [hp0] at hpt
    simp only [gain] at hpt
    omega

private theorem obs_open (ar : Nat → Nat) : ∀ (p : List Nat) (s : Int × Bool), (∀ a b, p = a ++ b → a ≠ [] → s.1 + gain ar a ≠ 0) → p ≠ [] →
    p.foldl (obsStep ar) s = (s.1 + gain ar p, false)
  | [], _, _, h => absurd rfl h
  | [t], s, h, _ => by
    have h1 : ¬ s.1 + ((ar t : Int) - 1) = 0 := by
      have := h [t] [] rfl (by simp)
      simpa [gain] using this
    simp [obsStep, h1, gain]
  | t :: t' :: p, s, h, _ => by
    have h1 : ¬ s.1 + ((ar t : Int) - 1) = 0 := by
      have := h [t] (t' :: p) rfl (by simp)
      simpa [gain] using this
    rw [List.foldl_cons, obsStep]
    simp only [if_neg h1]
    rw [obs_open ar (t' :: p) _ (fun a b hab ha => by
      have := h (t :: a) b (by rw [hab]; rfl) (by simp)
      simp only [gain] at this
      simp only
      omega) (by simp)]
    simp only [gain, Prod.mk.injEq, and_true]
    omega

private theorem obs_whole {ar : Nat → Nat} {e} (h : Whole ar e) (b : Bool) : e.foldl (obsStep ar) (1, b) = (1, true) := by
  obtain ⟨p, t, rfl, hg, hp⟩ := whole_split h
  by_cases hp0 : p = []
  · subst hp0
    simp only [gain] at hg
    have : (1 : Int) + ((ar t : Int) - 1) = 0 := by omega
    simp [obsStep, this]
  · rw [List.foldl_append, obs_open ar p _ (fun a b hab _ => by have := hp a b hab; simp only; omega) hp0]
    have : (1 : Int) + gain ar p + ((ar t : Int) - 1) = 0 := by omega
    simp [obsStep, this]

/-- What the controller is told: while an expression is being written `dangling` counts the open places of this expression alone; when it has
been finished the row starts afresh, as at the very beginning (dangling 1, empty observation, initial prior). -/
theorem C211_observation (ar : Nat → Nat) (objs : List (List Nat)) (hw : ∀ e ∈ objs, Whole ar e) :
    objs.flatten.foldl (obsStep ar) (1, true) = (1, true) ∧
    ∀ cur, Begun ar cur → (objs.flatten ++ cur).foldl (obsStep ar) (1, true) = (1 + gain ar cur, false) := by
  have h1 : objs.flatten.foldl (obsStep ar) (1, true) = (1, true) := by
    induction objs with
    | nil => rfl
    | cons e objs ih =>
      rw [List.flatten_cons, List.foldl_append, obs_whole (hw e List.mem_cons_self)]
      exact ih fun e' h => hw e' (List.mem_cons_of_mem _ h)
  refine ⟨h1, fun cur hc => ?_⟩
  obtain ⟨hne, r, hr, hwr⟩ := hc
  rw [List.foldl_append, h1]
  exact obs_open ar cur _ (fun a b hab _ => by
    have := (exprs_gain hwr).2 a (b ++ r) (by rw [hab, List.append_assoc]) (by simp [hr])
    simp only
    omega) hne

/-- Arities of a small library: 0 multiplies, 1 squares, 2 is u, 3 is x. -/
def demoArity (t : Nat) : Nat := if t = 0 then 2 else if t = 1 then 1 else 0

private theorem w2 : Whole demoArity [2] := Exprs.node 2 0 [] [] Exprs.nil Exprs.nil
private theorem w3 : Whole demoArity [3] := Exprs.node 3 0 [] [] Exprs.nil Exprs.nil
private theorem w12 : Whole demoArity [1, 2] := Exprs.node 1 0 [2] [] w2 Exprs.nil
private theorem w032 : Whole demoArity [0, 3, 2] := Exprs.node 0 0 [3, 2] [] (Exprs.node 3 1 [] [2] Exprs.nil w2) Exprs.nil

/-- A case: the program u², x·u; the second expression is written with lengths between 2 and 3. -/
theorem C211_demo :
    Whole demoArity [1, 2] ∧ Whole demoArity [0, 3, 2] ∧ Begun demoArity [0, 3] ∧
    traversals demoArity 2 [1, 2, 0, 3, 2] = [[1, 2], [0, 3, 2]] ∧
    getPosition demoArity 2 [1, 2, 0, 3] = some (1, 1) ∧ getMask 1 4 = [0, 1, 1, 1] ∧
    repeatForbids demoArity 2 1 [1] [1, 2, 0, 3] = some false ∧ repeatForbids demoArity 2 1 [3] [1, 2, 0, 3] = some true ∧
    Sampled demoArity 2 (some 2) (some 3) [[1, 2]] [0, 3, 2] := by
  refine ⟨w12, w032, ⟨by simp, [2], by simp, w032⟩, by decide, by decide, by decide, by decide, by decide, w032, fun a t b h => ?_⟩
  match a, h with
  | [], h => cases h; exact ⟨fun _ => by decide, fun h => absurd rfl h⟩
  | [_], h => cases h; exact ⟨fun h => (nomatch h), fun _ => by decide⟩
  | [_, _], h => cases h; exact ⟨fun h => (nomatch h), fun _ => by decide⟩
  | _ :: _ :: _ :: a, h =>
    have := congrArg List.length h
    simp at this

/-- The last token of the expression before is counted in: after u², with u allowed once per expression, the second expression may not
contain u at all, although u² alone does not forbid it. -/
theorem C211_previous_counterexample :
    Whole demoArity [1, 2] ∧ Begun demoArity [0] ∧ [0].countP (fun t => decide (t ∈ [2])) = 0 ∧
    repeatForbids demoArity 2 1 [2] ([[1, 2]].flatten ++ [0]) = some true ∧ repeatForbids demoArity 2 1 [2] ([].flatten ++ [0]) = some false :=
  ⟨w12, ⟨by simp, [3, 2], by simp, w032⟩, by decide, by decide, by decide⟩

end Verif.Discover.Objects
