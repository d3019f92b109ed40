import Verif.Sga.Naming
/-!
# C23, C24, C48: derivative names and field renaming (kd/model/sga/sgapde/naming.py)
-/
namespace Verif.Claims
open Verif.Sga

/-! ## Helpers -/

theorem rep_length (a : Name) (n : Nat) : (rep a n).length = n * a.length := by
  induction n with
  | zero => simp [rep]
  | succ n ih => simp [rep, ih, Nat.succ_mul]; omega

theorem rep_mem {a : Name} {n : Nat} {c : Char} (h : c ∈ rep a n) : c ∈ a := by
  induction n with
  | zero => simp [rep] at h
  | succ n ih => simp [rep] at h; rcases h with h | h; exact h; exact ih h

theorem rsplitU_eq (f t : Name) (ht : '_' ∉ t) : rsplitU (f ++ '_' :: t) = some (f, t) := by
  have h1 : ∀ l : Name, '_' ∉ l → ∀ r, (l ++ '_' :: r).dropWhile (· != '_') = '_' :: r ∧
      (l ++ '_' :: r).takeWhile (· != '_') = l := by
    intro l
    induction l with
    | nil => intro _ r; simp
    | cons x l ih =>
      intro h r
      simp at h
      obtain ⟨a, b⟩ := ih h.2 r
      have hx : (x != '_') = true := by simp [Ne.symm h.1]
      simp only [List.cons_append, List.dropWhile_cons, List.takeWhile_cons, hx, if_true, a, b, and_self]
  obtain ⟨a, b⟩ := h1 t.reverse (by simpa using ht) f.reverse
  unfold rsplitU
  have e : (f ++ '_' :: t).reverse = t.reverse ++ '_' :: f.reverse := by simp
  rw [e, a, b]
  simp

theorem rsplitU_some {s f t : Name} (h : rsplitU s = some (f, t)) : s = f ++ '_' :: t ∧ '_' ∉ t := by
  unfold rsplitU at h
  have hsplit := List.takeWhile_append_dropWhile (p := (· != '_')) (l := s.reverse)
  cases hd : s.reverse.dropWhile (· != '_') with
  | nil => rw [hd] at h; simp at h
  | cons x a =>
    rw [hd] at h
    simp at h
    obtain ⟨h1, h2⟩ := h
    have hx : x = '_' := by
      have := List.head?_dropWhile_not (p := (· != '_')) s.reverse
      rw [hd] at this
      simpa using this
    rw [hd] at hsplit
    constructor
    · have := congrArg List.reverse hsplit
      simp at this
      rw [← this, hx, ← h1, ← h2]
    · rw [← h2]
      intro hm
      have hm' := List.mem_reverse.1 hm
      have : ∀ (l : Name), '_' ∉ l.takeWhile (· != '_') := by
        intro l
        induction l with
        | nil => simp
        | cons y l ih =>
          by_cases hy : y = '_'
          · simp [hy]
          · have hy' : (y != '_') = true := by simpa using hy
            rw [List.takeWhile_cons]
            simp only [hy', if_true, List.mem_cons, not_or]
            exact ⟨fun h => hy h.symm, ih⟩
      exact this _ hm'

theorem validAxis_spec {r : List Name} {a : Name} (h : validAxis r a = true) :
    validName r a = true ∧ '_' ∉ a ∧ 0 < a.length := by
  simp only [validAxis, Bool.and_eq_true, Bool.not_eq_true'] at h
  refine ⟨h.1, by simpa using h.2, ?_⟩
  have := h.1
  simp only [validName, Bool.and_eq_true, Bool.not_eq_true'] at this
  have h1 := this.1.1
  cases a with
  | nil => simp at h1
  | cons _ _ => simp

theorem buildKey_spec {f a key : Name} {n : Nat} : buildKey f a n = some key ↔
    validName [] f = true ∧ validAxis [] a = true ∧ 1 ≤ n ∧ key = f ++ '_' :: rep a n := by
  unfold buildKey
  constructor
  · intro h
    split at h
    · rename_i hc
      simp only [Bool.and_eq_true, decide_eq_true_eq] at hc
      simp at h
      exact ⟨hc.1.1, hc.1.2, hc.2, h.symm⟩
    · simp at h
  · rintro ⟨h1, h2, h3, rfl⟩
    simp [h1, h2, h3]

theorem rep_inj_order {a : Name} (ha : 0 < a.length) {n m : Nat} (h : rep a n = rep a m) : n = m := by
  have := congrArg List.length h
  rw [rep_length, rep_length] at this
  exact Nat.eq_of_mul_eq_mul_right ha this

theorem axisMatch_mem {tok a b : Name} {n : Nat} (ha : 0 < a.length) :
    (b, n) ∈ axisMatch tok a ↔ b = a ∧ 1 ≤ n ∧ tok = rep a n := by
  unfold axisMatch
  constructor
  · intro h
    split at h
    · simp at h
    · simp only [] at h
      split at h
      · rename_i h1 h2
        simp at h h2
        obtain ⟨rfl, rfl⟩ := h
        exact ⟨rfl, by omega, h2.2⟩
      · simp at h
  · rintro ⟨rfl, h1, rfl⟩
    have hl := rep_length b n
    have h2 : (rep b n).length % b.length = 0 := by rw [hl]; simp
    have h3 : (rep b n).length / b.length = n := by rw [hl]; exact Nat.mul_div_cancel _ ha
    simp [h2, h3, h1]

theorem axisMatch_cases (tok a : Name) :
    axisMatch tok a = [] ∨ ∃ n, axisMatch tok a = [(a, n)] := by
  unfold axisMatch
  split
  · exact Or.inl rfl
  · simp only []
    split
    · exact Or.inr ⟨_, rfl⟩
    · exact Or.inl rfl

/-! ## C23 -/

/-- **C23**: a derivative key built from a field, an axis and an order parses back to exactly these, for any list of
known axes that contains the axis (once) and in which no other axis spells the same token. -/
theorem C23_roundtrip {f a key : Name} {n : Nat} {known : List Name} (hb : buildKey f a n = some key)
    (hk : ∀ a' ∈ known, validAxis [] a' = true) (hnd : known.Nodup) (ha : a ∈ known)
    (huniq : ∀ a' ∈ known, ∀ m, rep a' m = rep a n → a' = a) :
    parseKey key known = some (f, a, n) := by
  obtain ⟨h1, h2, h3, rfl⟩ := buildKey_spec.1 hb
  obtain ⟨_, hu, hpos⟩ := validAxis_spec h2
  have hru : '_' ∉ rep a n := fun h => hu (rep_mem h)
  unfold parseKey
  rw [rsplitU_eq f _ hru]
  simp only [h1, Bool.not_true, Bool.false_eq_true, if_false]
  have hne : known.isEmpty = false := by cases known with
    | nil => simp at ha
    | cons _ _ => rfl
  have hall : known.all (validAxis []) = true := by simpa [List.all_eq_true] using hk
  have key : known.flatMap (axisMatch (rep a n)) = [(a, n)] := by
    clear hne hall
    induction known with
    | nil => simp at ha
    | cons b known ih =>
      simp only [List.flatMap_cons]
      have hposb := (validAxis_spec (hk b (by simp))).2.2
      have hnd' := List.nodup_cons.1 hnd
      by_cases hab : b = a
      · subst hab
        have hm : axisMatch (rep b n) b = [(b, n)] := by
          have hmem : (b, n) ∈ axisMatch (rep b n) b := (axisMatch_mem hposb).2 ⟨rfl, h3, rfl⟩
          rcases axisMatch_cases (rep b n) b with h | ⟨m, h⟩
          · rw [h] at hmem; simp at hmem
          · rw [h] at hmem ⊢; simp at hmem; rw [hmem]
        have hrest : known.flatMap (axisMatch (rep b n)) = [] := by
          rw [List.flatMap_eq_nil_iff]
          intro x hx
          have hposx := (validAxis_spec (hk x (by simp [hx]))).2.2
          rcases axisMatch_cases (rep b n) x with h | ⟨m, h⟩
          · exact h
          · exfalso
            have : (x, m) ∈ axisMatch (rep b n) x := by rw [h]; simp
            have := ((axisMatch_mem hposx).1 this).2.2
            have := huniq x (by simp [hx]) m this.symm
            subst this
            exact hnd'.1 hx
        rw [hm, hrest]; rfl
      · have hbn : axisMatch (rep a n) b = [] := by
          rcases axisMatch_cases (rep a n) b with h | ⟨m, h⟩
          · exact h
          · exfalso
            have : (b, m) ∈ axisMatch (rep a n) b := by rw [h]; simp
            have := ((axisMatch_mem hposb).1 this).2.2
            exact hab (huniq b (by simp) m this.symm)
        rw [hbn, List.nil_append]
        exact ih (fun x hx => hk x (by simp [hx])) hnd'.2 (by simp at ha; exact ha.resolve_left (fun h => hab h.symm))
          (fun x hx => huniq x (by simp [hx]))
  cases hr : rep a n with
  | nil =>
    have := congrArg List.length hr
    rw [rep_length] at this
    have h4 : 1 * 1 ≤ n * a.length := Nat.mul_le_mul h3 hpos
    simp only [List.length_nil] at this
    omega
  | cons c cs =>
    rw [hr] at key
    simp [hne, hall, key]

example : buildKey "u_1".toList "x".toList 2 = some "u_1_xx".toList ∧
    parseKey "u_1_xx".toList ["x".toList, "t".toList] = some ("u_1".toList, "x".toList, 2) := by decide

/-- **C23**, rejection: whatever is parsed against known axes is a key that rebuilds to the input, and no other
reading with a known axis rebuilds to it – ambiguous and malformed keys are refused, never misread. -/
theorem C23_parse_sound_partial {key f a : Name} {n : Nat} {known : List Name} (hne : known ≠ [])
    (h : parseKey key known = some (f, a, n)) :
    a ∈ known ∧ buildKey f a n = some key ∧
      ∀ f' a' n', a' ∈ known → buildKey f' a' n' = some key → f' = f ∧ a' = a ∧ n' = n := by
  unfold parseKey at h
  cases hs : rsplitU key with
  | none => rw [hs] at h; simp at h
  | some p =>
    obtain ⟨fld, tok⟩ := p
    rw [hs] at h
    obtain ⟨hkey, htok⟩ := rsplitU_some hs
    have hne' : known.isEmpty = false := by cases known with
      | nil => simp at hne
      | cons _ _ => rfl
    by_cases hv : validName [] fld = true
    · simp only [hv, Bool.not_true, Bool.false_eq_true, if_false, hne'] at h
      cases tok with
      | nil => simp at h
      | cons c cs =>
        simp only at h
        by_cases hall : known.all (validAxis []) = true
        · simp only [hall, if_true] at h
          have hk : ∀ a' ∈ known, validAxis [] a' = true := by simpa [List.all_eq_true] using hall
          match hm : known.flatMap (axisMatch (c :: cs)), h with
          | [(b, m)], h =>
            simp at h
            obtain ⟨rfl, rfl, rfl⟩ := h
            have hmem : ∀ q, q ∈ known.flatMap (axisMatch (c :: cs)) ↔ q = (b, m) := by rw [hm]; simp
            have := (hmem (b, m)).2 rfl
            rw [List.mem_flatMap] at this
            obtain ⟨x, hx, hxm⟩ := this
            obtain ⟨rfl, g1, g2⟩ := (axisMatch_mem (validAxis_spec (hk x hx)).2.2).1 hxm
            refine ⟨hx, buildKey_spec.2 ⟨hv, hk _ hx, g1, by rw [hkey, g2]⟩, ?_⟩
            intro f' a' n' ha' hb'
            obtain ⟨w1, w2, w3, w4⟩ := buildKey_spec.1 hb'
            have hu' : '_' ∉ rep a' n' := fun hh => (validAxis_spec w2).2.1 (rep_mem hh)
            have e1 := rsplitU_eq f' _ hu'
            rw [← w4, hs] at e1
            simp at e1
            obtain ⟨rfl, e2⟩ := e1
            have : (a', n') ∈ known.flatMap (axisMatch (c :: cs)) := by
              rw [List.mem_flatMap]
              exact ⟨a', ha', (axisMatch_mem (validAxis_spec w2).2.2).2 ⟨rfl, w3, e2⟩⟩
            have := (hmem _).1 this
            simp at this
            exact ⟨rfl, this.1, this.2⟩
          | [], h => simp at h
          | _ :: _ :: _, h => simp at h
        · simp [hall] at h
    · simp [hv] at h

/-- An ambiguous token (`xx`: once the axis `xx` or twice the axis `x`) is refused. -/
example : parseKey "u_xx".toList ["x".toList, "xx".toList] = none ∧
    buildKey "u".toList "xx".toList 1 = some "u_xx".toList := by decide

/-- **C23** without known axes: keys over one-character axes round-trip. -/
theorem C23_roundtrip_single {f key : Name} {c : Char} {n : Nat} (hb : buildKey f [c] n = some key) :
    parseKey key [] = some (f, [c], n) := by
  obtain ⟨h1, h2, h3, rfl⟩ := buildKey_spec.1 hb
  obtain ⟨_, hu, hpos⟩ := validAxis_spec h2
  have hru : '_' ∉ rep [c] n := fun h => hu (rep_mem h)
  unfold parseKey
  rw [rsplitU_eq f _ hru]
  simp only [h1, Bool.not_true, Bool.false_eq_true, if_false]
  have hl := rep_length [c] n
  simp at hl
  match n, h3 with
  | n + 1, _ =>
    have hr : rep [c] (n + 1) = c :: rep [c] n := by simp [rep]
    rw [hr] at hl ⊢
    simp only [List.isEmpty_nil, if_true]
    rw [hl, hr]
    simp

example : parseKey "u_xxx".toList [] = some ("u".toList, "x".toList, 3) := by decide

/-- Without known axes a key over a repeated-letter axis is misread (`xx` once becomes `x` twice), and a token that is
no axis name at all is accepted: the "never misread" part needs the list of axes. -/
theorem C23_unknown_axes_counterexample :
    buildKey "u".toList "xx".toList 1 = some "u_xx".toList ∧
    parseKey "u_xx".toList [] = some ("u".toList, "x".toList, 2) ∧
    validAxis [] "2".toList = false ∧ parseKey "u_2".toList [] = some ("u".toList, "2".toList, 1) := by decide

/-! ## C48: legacy keys -/

theorem legacyCands_mem {key f c : Name} {axes : List Name} (hax : ∀ a ∈ axes, validAxis [] a = true) :
    c ∈ legacyCands key axes f ↔ ∃ a ∈ axes, ∃ n, 1 ≤ n ∧ key = f ++ rep a n ∧ c = f ++ '_' :: rep a n := by
  unfold legacyCands
  constructor
  · intro h
    split at h
    · rename_i hp
      rw [List.isPrefixOf_iff_prefix] at hp
      obtain ⟨t, rfl⟩ := hp
      simp only [List.drop_left] at h
      split at h
      · simp at h
      · rw [List.mem_flatMap] at h
        obtain ⟨a, ha, h⟩ := h
        rw [List.mem_map] at h
        obtain ⟨⟨b, n⟩, hm, rfl⟩ := h
        obtain ⟨rfl, g1, g2⟩ := (axisMatch_mem (validAxis_spec (hax a ha)).2.2).1 hm
        exact ⟨_, ha, n, g1, by rw [g2], rfl⟩
    · simp at h
  · rintro ⟨a, ha, n, h1, rfl, rfl⟩
    have hpos := (validAxis_spec (hax a ha)).2.2
    have hp : f.isPrefixOf (f ++ rep a n) = true := by rw [List.isPrefixOf_iff_prefix]; exact ⟨_, rfl⟩
    have hne : (rep a n).isEmpty = false := by
      cases hr : rep a n with
      | nil =>
        have := congrArg List.length hr
        rw [rep_length] at this
        have h4 : 1 * 1 ≤ n * a.length := Nat.mul_le_mul h1 hpos
        simp only [List.length_nil] at this; omega
      | cons _ _ => rfl
    simp only [hp, if_true, List.drop_left, hne, Bool.false_eq_true, if_false]
    rw [List.mem_flatMap]
    refine ⟨a, ha, ?_⟩
    rw [List.mem_map]
    exact ⟨(a, n), (axisMatch_mem hpos).2 ⟨rfl, h1, rfl⟩, rfl⟩

/-- **C48**: normalising a legacy key (no underscore) either leaves it alone, when it is not a field name followed by
a repeated axis name, or inserts the underscore at the only place where such a reading exists; with two readings the
call raises. -/
theorem C48_unique_reading {key c : Name} {fields axes : List Name} (hu : '_' ∉ key)
    (h : normalizeLegacy key fields axes = some c) :
    (c = key ∧ ∀ f ∈ fields, ∀ a ∈ axes, ∀ n, 1 ≤ n → key ≠ f ++ rep a n) ∨
    (∃ f ∈ fields, ∃ a ∈ axes, ∃ n, 1 ≤ n ∧ key = f ++ rep a n ∧ buildKey f a n = some c ∧
      ∀ f' ∈ fields, ∀ a' ∈ axes, ∀ n', 1 ≤ n' → key = f' ++ rep a' n' → buildKey f' a' n' = some c) := by
  unfold normalizeLegacy at h
  have hu' : key.contains '_' = false := by simpa using hu
  simp only [hu', Bool.false_eq_true, if_false] at h
  split at h
  · rename_i hv
    simp only [Bool.and_eq_true, List.all_eq_true] at hv
    obtain ⟨hax, hfl⟩ := hv
    have hmem : ∀ x, x ∈ fields.flatMap (legacyCands key axes) ↔
        ∃ f ∈ fields, ∃ a ∈ axes, ∃ n, 1 ≤ n ∧ key = f ++ rep a n ∧ x = f ++ '_' :: rep a n := by
      intro x
      rw [List.mem_flatMap]
      constructor
      · rintro ⟨f, hf, hx⟩; exact ⟨f, hf, (legacyCands_mem hax).1 hx⟩
      · rintro ⟨f, hf, hx⟩; exact ⟨f, hf, (legacyCands_mem hax).2 hx⟩
    match hm : fields.flatMap (legacyCands key axes), h with
    | [], h =>
      simp at h
      refine Or.inl ⟨h.symm, ?_⟩
      intro f hf a ha n hn hk
      have := (hmem (f ++ '_' :: rep a n)).2 ⟨f, hf, a, ha, n, hn, hk, rfl⟩
      rw [hm] at this; simp at this
    | [x], h =>
      simp at h; subst h
      have := (hmem x).1 (by rw [hm]; simp)
      obtain ⟨f, hf, a, ha, n, hn, hk, hx⟩ := this
      refine Or.inr ⟨f, hf, a, ha, n, hn, hk, buildKey_spec.2 ⟨hfl f hf, hax a ha, hn, hx⟩, ?_⟩
      intro f' hf' a' ha' n' hn' hk'
      have := (hmem (f' ++ '_' :: rep a' n')).2 ⟨f', hf', a', ha', n', hn', hk', rfl⟩
      rw [hm] at this; simp at this
      exact buildKey_spec.2 ⟨hfl f' hf', hax a' ha', hn', this.symm⟩
    | _ :: _ :: _, h => simp at h
  · simp at h

/-- Two different readings of one key make the call raise. -/
theorem C48_ambiguous_rejected {key f f' a a' : Name} {n n' : Nat} {fields axes : List Name} (hu : '_' ∉ key)
    (hf : f ∈ fields) (ha : a ∈ axes) (hn : 1 ≤ n) (hk : key = f ++ rep a n)
    (hf' : f' ∈ fields) (ha' : a' ∈ axes) (hn' : 1 ≤ n') (hk' : key = f' ++ rep a' n')
    (hdiff : f ++ '_' :: rep a n ≠ f' ++ '_' :: rep a' n') : normalizeLegacy key fields axes = none := by
  cases h : normalizeLegacy key fields axes with
  | none => rfl
  | some c =>
    exfalso
    rcases C48_unique_reading hu h with ⟨_, h2⟩ | ⟨_, _, _, _, _, _, _, _, h2⟩
    · exact h2 f hf a ha n hn hk
    · have e1 := (buildKey_spec.1 (h2 f hf a ha n hn hk)).2.2.2
      have e2 := (buildKey_spec.1 (h2 f' hf' a' ha' n' hn' hk')).2.2.2
      exact hdiff (e1 ▸ e2)

example : normalizeLegacy "uxx".toList ["u".toList, "v".toList] ["x".toList, "t".toList] = some "u_xx".toList ∧
    normalizeLegacy "uxx".toList ["u".toList, "ux".toList] ["x".toList] = none ∧
    normalizeLegacy "rho".toList ["u".toList] ["x".toList] = some "rho".toList := by decide

/-! ## C24 -/

theorem digits_inj {n m : Nat} (h : digits n = digits m) : n = m := by
  have := congrArg (fun l => Nat.ofDigitChars 10 l 0) h
  simpa [digits, Nat.ofDigitChars_toDigits (b := 10)] using this

theorem freshLoop_some {used : List Name} {pref field : Name} : ∀ {fuel counter : Nat} {cand c : Name},
    freshLoop used pref field fuel counter cand = some c →
      c ∉ used ∧ (cand ∉ used → c = cand) ∧
      (c = cand ∨ ∃ k, c = pref ++ field ++ '_' :: digits k) := by
  intro fuel
  induction fuel with
  | zero =>
    intro counter cand c h
    simp only [freshLoop] at h
    split at h
    · simp at h
    · rename_i hc
      simp at h hc; subst h
      exact ⟨hc, fun _ => rfl, Or.inl rfl⟩
  | succ fuel ih =>
    intro counter cand c h
    simp only [freshLoop] at h
    split at h
    · rename_i hc
      simp at hc
      obtain ⟨a, b, d⟩ := ih h
      refine ⟨a, fun hn => absurd hc hn, Or.inr ?_⟩
      rcases d with d | d
      · exact ⟨counter, d⟩
      · exact d
    · rename_i hc
      simp at h hc; subst h
      exact ⟨hc, fun _ => rfl, Or.inl rfl⟩

/-- The loop bound is not a restriction: the counter loop of the code always ends within it. -/
theorem freshLoop_none {used : List Name} {pref field : Name} : ∀ {fuel counter : Nat} {cand : Name},
    freshLoop used pref field fuel counter cand = none →
      ∀ i, i < fuel → pref ++ field ++ '_' :: digits (counter + i) ∈ used := by
  intro fuel
  induction fuel with
  | zero => intro counter cand _ i hi; omega
  | succ fuel ih =>
    intro counter cand h i hi
    simp only [freshLoop] at h
    split at h
    · have h' := h
      cases i with
      | zero =>
        -- the next candidate is used, otherwise the loop would end
        cases fuel with
        | zero =>
          simp only [freshLoop] at h
          split at h
          · rename_i hc; simpa using hc
          · simp at h
        | succ fuel =>
          simp only [freshLoop] at h
          split at h
          · rename_i hc; simpa using hc
          · simp at h
      | succ i =>
        have := ih h' i (by omega)
        rw [show counter + (i + 1) = counter + 1 + i from by omega]
        exact this
    · simp at h

theorem nodup_subset_length {α : Type} [DecidableEq α] : ∀ (l m : List α), l.Nodup → (∀ x ∈ l, x ∈ m) → l.length ≤ m.length := by
  intro l
  induction l with
  | nil => intro m _ _; simp
  | cons x l ih =>
    intro m hnd hs
    have hx := hs x (by simp)
    have hnd' := List.nodup_cons.1 hnd
    have := ih (m.erase x) hnd'.2 (by
      intro y hy
      have hne : y ≠ x := by intro h; subst h; exact hnd'.1 hy
      exact (List.mem_erase_of_ne hne).2 (hs y (by simp [hy])))
    have hl := List.length_erase_of_mem hx
    have hpos : 0 < m.length := List.length_pos_of_mem hx
    simp only [List.length_cons]; omega

theorem nodup_map_range (mk : Nat → Name) (hinj : ∀ i j, mk i = mk j → i = j) (k : Nat) :
    ((List.range k).map mk).Nodup := by
  unfold List.Nodup
  rw [List.pairwise_map]
  exact List.Pairwise.imp (fun hne he => hne (hinj _ _ he)) List.nodup_range

theorem freshLoop_total (used : List Name) (pref field cand : Name) :
    ∃ c, freshLoop used pref field (used.length + 1) 1 cand = some c := by
  cases h : freshLoop used pref field (used.length + 1) 1 cand with
  | some c => exact ⟨c, rfl⟩
  | none =>
    exfalso
    have hall := freshLoop_none h
    have hnd : ((List.range (used.length + 1)).map fun i => pref ++ field ++ '_' :: digits (1 + i)).Nodup := by
      apply nodup_map_range
      intro i j hij
      have := List.append_cancel_left hij
      simp at this
      have := digits_inj this
      omega
    have := nodup_subset_length _ used hnd (by
      intro x hx
      simp only [List.mem_map, List.mem_range] at hx
      obtain ⟨i, hi, rfl⟩ := hx
      exact hall i hi)
    simp at this; omega

theorem resolveOne_some {reserved used : List Name} {pref f c : Name} (h : resolveOne reserved used pref f = some c) :
    c ∉ used ∧ validName reserved c = true ∧ (f ∉ used → c = f) ∧
      (c = f ∨ c = pref ++ f ∨ ∃ k, c = pref ++ f ++ '_' :: digits k) := by
  unfold resolveOne at h
  split at h
  · simp at h
  · split at h
    · simp at h
    · rename_i c' hc'
      split at h
      · rename_i hv
        simp at h; subst h
        obtain ⟨a, b, d⟩ := freshLoop_some hc'
        by_cases hf : f ∈ used
        · have hf' : used.contains f = true := by simpa using hf
          rw [hf'] at d
          simp only [if_true] at d
          exact ⟨a, hv, fun hn => absurd hf hn, Or.inr d⟩
        · have hf' : used.contains f = false := by simpa using hf
          rw [hf'] at b d
          simp only [Bool.false_eq_true, if_false] at b d
          exact ⟨a, hv, b, Or.inl (b hf)⟩
      · simp at h

theorem resolveFields_spec {reserved : List Name} {pref : Name} : ∀ {fields used : List Name} {r : List (Name × Name)},
    resolveFields reserved pref used fields = some r →
      r.map (·.1) = fields ∧ (r.map (·.2)).Nodup ∧ (∀ p ∈ r, p.2 ∉ used ∧ validName reserved p.2 = true ∧
        (p.2 = p.1 ∨ p.2 = pref ++ p.1 ∨ ∃ k, p.2 = pref ++ p.1 ++ '_' :: digits k)) ∧
      ∀ (i : Nat) (p : Name × Name), r[i]? = some p → p.1 ∉ used → (∀ q ∈ r.take i, q.2 ≠ p.1) → p.2 = p.1 := by
  intro fields
  induction fields with
  | nil =>
    intro used r h
    simp [resolveFields] at h; subst h
    simp
  | cons f fs ih =>
    intro used r h
    simp only [resolveFields] at h
    split at h
    · simp at h
    · rename_i c hc
      split at h
      · simp at h
      · rename_i rest hr
        simp at h; subst h
        obtain ⟨a1, a2, a3, a4⟩ := ih hr
        obtain ⟨b1, b2, b3, b4⟩ := resolveOne_some hc
        refine ⟨by simp [a1], ?_, ?_, ?_⟩
        · simp only [List.map_cons, List.nodup_cons]
          refine ⟨?_, a2⟩
          intro hm
          rw [List.mem_map] at hm
          obtain ⟨p, hp, hpc⟩ := hm
          have := (a3 p hp).1
          simp [hpc] at this
        · intro p hp
          simp at hp
          rcases hp with rfl | hp
          · exact ⟨b1, b2, b4⟩
          · obtain ⟨q1, q2, q3⟩ := a3 p hp
            simp at q1
            exact ⟨q1.2, q2, q3⟩
        · intro i p hi hu hpre
          cases i with
          | zero =>
            simp at hi; subst hi
            exact b3 hu
          | succ i =>
            simp at hi
            apply a4 i p hi
            · have := hpre (f, c) (by simp)
              simp only [List.mem_cons, not_or]
              exact ⟨fun he => this he.symm, hu⟩
            · intro q hq
              exact hpre q (by simp [hq])

/-- **C24**: resolving name conflicts returns one valid name per field, in order; the new names are pairwise distinct
and differ from every coordinate and reserved name; a field keeps its name when that name is not a coordinate, not
reserved and was not handed out to an earlier field; every other field gets its own name with the prefix and possibly
a counter. -/
theorem C24_no_collision_partial {fields coords reserved : List Name} {pref : Name} {r : List (Name × Name)}
    (h : resolveConflicts fields coords reserved pref = some r) :
    r.map (·.1) = fields ∧ (r.map (·.2)).Nodup ∧
      (∀ p ∈ r, p.2 ∉ coords ∧ p.2 ∉ reservedSet reserved ∧ validName reserved p.2 = true) ∧
      (∀ p ∈ r, p.2 = p.1 ∨ p.2 = pref ++ p.1 ∨ ∃ k, p.2 = pref ++ p.1 ++ '_' :: digits k) ∧
      ∀ (i : Nat) (p : Name × Name), r[i]? = some p → p.1 ∉ coords → p.1 ∉ reservedSet reserved →
        (∀ q ∈ r.take i, q.2 ≠ p.1) → p.2 = p.1 := by
  unfold resolveConflicts at h
  split at h
  · obtain ⟨a1, a2, a3, a4⟩ := resolveFields_spec h
    refine ⟨a1, a2, ?_, fun p hp => (a3 p hp).2.2, ?_⟩
    · intro p hp
      have := (a3 p hp).1
      simp only [List.mem_append, not_or] at this
      exact ⟨this.1, this.2, (a3 p hp).2.1⟩
    · intro i p hi h1 h2 h3
      exact a4 i p hi (by simp [h1, h2]) h3
  · simp at h

/-- **C24** (refusals): repeated field names, repeated coordinate names, a coordinate name that is empty, reserved or contains an underscore, and
a field name that is empty or reserved, are refused. -/
theorem C24_refused (fields coords reserved : List Name) (pref : Name)
    (h : ¬ fields.Nodup ∨ ¬ coords.Nodup ∨ (∃ c ∈ coords, c = [] ∨ c ∈ reservedSet reserved ∨ '_' ∈ c) ∨
      ∃ f ∈ fields, f = [] ∨ f ∈ reservedSet reserved) : resolveConflicts fields coords reserved pref = none := by
  unfold resolveConflicts
  rcases h with h | h | ⟨c, hc, h⟩ | ⟨f, hf, h⟩
  · simp [h]
  · simp [h]
  · have hv : validAxis reserved c = false := by
      rcases h with rfl | h | h
      · simp [validAxis, validName]
      · simp [validAxis, validName, h]
      · simp [validAxis, h]
    have : coords.all (validAxis reserved) = false := by
      rw [List.all_eq_false]; exact ⟨c, hc, by simp [hv]⟩
    simp [this]
  · have hv : validName reserved f = false := by
      rcases h with rfl | h
      · simp [validName]
      · simp [validName, h]
    split
    · generalize coords ++ reservedSet reserved = used
      induction fields generalizing used with
      | nil => simp at hf
      | cons g fs ih =>
        simp only [resolveFields]
        rcases List.mem_cons.1 hf with rfl | hm
        · have : resolveOne reserved used pref f = none := by simp [resolveOne, hv]
          simp [this]
        · cases hone : resolveOne reserved used pref g with
          | none => rfl
          | some c => 
            have hnd : fs.Nodup := by
              rename_i hcond
              simp only [Bool.and_eq_true, decide_eq_true_eq, List.nodup_cons] at hcond
              exact hcond.1.1.2
            rename_i hcond
            simp only [Bool.and_eq_true, decide_eq_true_eq] at hcond
            simp only [ih hm (by simp [hnd, hcond.1.2, hcond.2])]
    · rfl

/-- A name that conflicts with nothing in the input is still renamed if an earlier field took it: "leaves
non-conflicting names unchanged" fails in this corner. -/
theorem C24_chain_counterexample :
    resolveConflicts ["x".toList, "f_x".toList] ["x".toList] [] "f_".toList =
      some [("x".toList, "f_x".toList), ("f_x".toList, "f_f_x".toList)] := by decide

example : resolveConflicts ["u".toList, "x".toList] ["x".toList, "t".toList] [] "f_".toList =
    some [("u".toList, "u".toList), ("x".toList, "f_x".toList)] := by decide

/-- Ordinary names: the regular expression without Python's trailing-newline case. -/
def plainName (s : Name) : Prop := ∃ c cs, s = c :: cs ∧ c.isAlpha = true ∧ ∀ d ∈ cs, (d.isAlphanum || d == '_') = true

theorem getLast?_ne_newline {s : Name} (h : ∀ d ∈ s, (d.isAlphanum || d == '_') = true) : s.getLast? ≠ some '\n' := by
  intro hl
  have := h '\n' (List.mem_of_getLast? hl)
  revert this; decide

theorem plain_nameRe {s : Name} (h : plainName s) : nameRe s = true := by
  obtain ⟨c, cs, rfl, h1, h2⟩ := h
  have hall : ∀ d ∈ c :: cs, (d.isAlphanum || d == '_') = true := by
    intro d hd
    simp only [List.mem_cons] at hd
    rcases hd with rfl | hd
    · simp [Char.isAlphanum, h1]
    · exact h2 d hd
  have hl := getLast?_ne_newline hall
  unfold nameRe
  simp only [hl, if_false, h1, Bool.true_and, List.all_eq_true]
  exact h2

theorem digits_plain (n : Nat) : ∀ d ∈ digits n, d.isAlphanum = true := by
  intro d hd
  have := Nat.isDigit_of_mem_toDigits (by decide) (by decide) hd
  simp [Char.isAlphanum, this]

/-- **C24**, totality: with the default prefix, unique ordinary unreserved field names and valid coordinates the call
never raises. -/
theorem C24_total {fields coords reserved : List Name} (hf : fields.Nodup) (hc : coords.Nodup)
    (hcv : ∀ c ∈ coords, validAxis reserved c = true) (hfv : ∀ f ∈ fields, plainName f ∧ f ∉ reservedSet reserved) :
    ∃ r, resolveConflicts fields coords reserved "f_".toList = some r := by
  have hgen : ∀ (fs used : List Name), (∀ f ∈ fs, plainName f ∧ f ∉ reservedSet reserved) →
      (∀ x ∈ reservedSet reserved, x ∈ used) → ∃ r, resolveFields reserved "f_".toList used fs = some r := by
    intro fs
    induction fs with
    | nil => intro used _ _; exact ⟨[], rfl⟩
    | cons f fs ih =>
      intro used hv hu
      obtain ⟨hp, hr⟩ := hv f (by simp)
      have hne : f.isEmpty = false := by obtain ⟨c, cs, rfl, _⟩ := hp; rfl
      have hvf : validName reserved f = true := by
        unfold validName; simp [hne, plain_nameRe hp, hr]
      obtain ⟨c, hc'⟩ := freshLoop_total used "f_".toList f (if used.contains f then "f_".toList ++ f else f)
      obtain ⟨d1, _, d3⟩ := freshLoop_some hc'
      have hcp : plainName c := by
        obtain ⟨x, xs, rfl, x1, x2⟩ := hp
        have hx : (x.isAlphanum || x == '_') = true := by simp [Char.isAlphanum, x1]
        have hpre : plainName ("f_".toList ++ x :: xs) := by
          refine ⟨'f', '_' :: x :: xs, rfl, by decide, ?_⟩
          intro d hd
          simp only [List.mem_cons] at hd
          rcases hd with rfl | rfl | hd
          · decide
          · exact hx
          · exact x2 d hd
        rcases d3 with d3 | ⟨k, d3⟩
        · by_cases hcu : used.contains (x :: xs) = true
          · simp only [hcu, if_true] at d3; rw [d3]; exact hpre
          · simp only [hcu] at d3; rw [d3]; exact ⟨x, xs, rfl, x1, x2⟩
        · rw [d3]
          refine ⟨'f', '_' :: x :: xs ++ '_' :: digits k, by simp, by decide, ?_⟩
          intro d hd
          simp only [List.cons_append, List.mem_cons, List.mem_append] at hd
          rcases hd with rfl | rfl | hd | rfl | hd
          · decide
          · exact hx
          · exact x2 d hd
          · decide
          · simp [digits_plain k d hd]
      have hcne : c.isEmpty = false := by obtain ⟨y, ys, rfl, _⟩ := hcp; rfl
      have hvc : validName reserved c = true := by
        have : c ∉ reservedSet reserved := fun h => d1 (hu c h)
        unfold validName; simp [hcne, plain_nameRe hcp, this]
      have hone : resolveOne reserved used "f_".toList f = some c := by
        unfold resolveOne
        simp only [hvf, Bool.not_true, Bool.false_eq_true, if_false, hc', hvc, if_true]
      obtain ⟨r, hr'⟩ := ih (c :: used) (fun g hg => hv g (by simp [hg])) (fun x hx => by simp [hu x hx])
      exact ⟨(f, c) :: r, by simp only [resolveFields, hone, hr']⟩
  unfold resolveConflicts
  have : coords.all (validAxis reserved) = true := by simpa [List.all_eq_true] using hcv
  simp only [hf, hc, this, decide_true, Bool.and_self, if_true]
  exact hgen fields _ hfv (fun x hx => by simp [hx])

example : ["u".toList, "x".toList].Nodup ∧ (∀ c ∈ ["x".toList, "t".toList], validAxis [] c = true) := by decide

end Verif.Claims
