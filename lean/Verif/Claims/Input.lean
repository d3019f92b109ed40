import Verif.Discover.Input
import Verif.Claims.Episode
/-!
# C65 – what the policy network sees
-/
namespace Verif.Discover.Claims
open Verif.Discover Tree

theorem oneHot_length {n v : Int} {x : List Int} (h : oneHot n v = some x) : x.length = n.toNat := by
  unfold oneHot at h
  split at h
  · cases h; simp
  · cases h

theorem oneHot_get {n v : Int} {x : List Int} (h : oneHot n v = some x) :
    0 ≤ v ∧ v < n ∧ ∀ i : Nat, i < n.toNat → x[i]? = some (if (i : Int) = v then 1 else 0) := by
  unfold oneHot at h
  split at h
  · rename_i hv
    cases h
    refine ⟨hv.1, hv.2, fun i hi => ?_⟩
    simp [hi]
  · cases h

theorem oneHot_inj {n v w : Int} {x : List Int} (hv : oneHot n v = some x) (hw : oneHot n w = some x) : v = w := by
  obtain ⟨h0, h1, h2⟩ := oneHot_get hv
  obtain ⟨k0, k1, k2⟩ := oneHot_get hw
  have a := h2 v.toNat (by omega)
  have b := k2 v.toNat (by omega)
  rw [a] at b
  have hvv : ((v.toNat : Nat) : Int) = v := by omega
  rw [hvv] at b
  simp at b
  by_cases h : v = w
  · exact h
  · simp [h] at b

/-- The parent found by the scan is an operator of the list, and the sibling a token of the list. -/
theorem psScan_mem (ar : Nat → Nat) (h2 : ∀ t, ar t ≤ 2) : ∀ (xs : List Nat) (d : Int) (prev p s : Nat), d < 0 →
    psScan ar d prev xs = some (p, s) → p ∈ xs ∧ 0 < ar p ∧ (s = prev ∨ s ∈ xs) := by
  intro xs
  induction xs with
  | nil => intro d prev p s _ h; simp [psScan] at h
  | cons x xs ih =>
    intro d prev p s hd h
    simp only [psScan] at h
    by_cases h0 : d + ((ar x : Int) - 1) = 0
    · rw [if_pos h0] at h
      cases h
      exact ⟨List.mem_cons_self .., by omega, Or.inl rfl⟩
    · rw [if_neg h0] at h
      have := h2 x
      obtain ⟨h1, h2, h3⟩ := ih _ _ _ _ (by omega) h
      refine ⟨List.mem_cons_of_mem _ h1, h2, Or.inr ?_⟩
      rcases h3 with h3 | h3
      · rw [h3]; exact List.mem_cons_self ..
      · exact List.mem_cons_of_mem _ h3

theorem count_split (p : Nat → Bool) (n : Nat) :
    ((List.range n).filter p).length + ((List.range n).filter fun i => !p i).length = n := by
  induction n with
  | zero => rfl
  | succ n ih =>
    rw [List.range_succ, List.filter_append, List.filter_append, List.length_append, List.length_append]
    cases h : p n <;> simp [h] <;> omega

theorem terminal_count (lib : Lib) :
    ((List.range lib.L).filter fun i => decide (lib.arity i > 0)).length + lib.terminalTokens.length = lib.L := by
  have h : lib.terminalTokens = (List.range lib.L).filter fun i => !decide (lib.arity i > 0) := by
    unfold Lib.terminalTokens Lib.tokensOfArity Lib.indices
    apply List.filter_congr
    intro i hi
    simp only [List.mem_range, Lib.L] at hi
    simp [Lib.arity, List.getElem?_eq_getElem hi]
    cases lib.tokens[i].arity <;> simp
  rw [h]
  exact count_split _ _

theorem parentAdjust_range {lib : Lib} {p : Nat} (hp : 0 < lib.arity p) :
    0 ≤ lib.parentAdjust p ∧ lib.parentAdjust p < lib.nParentInputs - 1 := by
  have hL := Lib.arity_pos_lt hp
  have h1 := Lib.range_filter_lt_strict (fun i => decide (lib.arity i > 0)) hL (by simpa using hp)
  have h2 := terminal_count lib
  unfold Lib.parentAdjust Lib.nParentInputs
  rw [if_pos hp]
  omega

/-- The observation in force after any list of library tokens lies in the ranges the encoder expects. -/
theorem obsAfter_ranges (lib : Lib) (h2 : ∀ t, lib.arity t ≤ 2) (xs : List Nat) (hxs : ∀ x ∈ xs, x < lib.L) :
    (obsAfter lib xs).action ≤ lib.L ∧ (obsAfter lib xs).sibling ≤ lib.L ∧
    0 ≤ (obsAfter lib xs).parent ∧ (obsAfter lib xs).parent < lib.nParentInputs := by
  have hE : 0 ≤ lib.emptyParent ∧ lib.emptyParent < lib.nParentInputs := by
    have := terminal_count lib
    unfold Lib.emptyParent Lib.nParentInputs; omega
  cases hc : xs with
  | nil => simp [obsAfter, initialObs, Lib.emptyAction, Lib.emptySibling]; exact hE
  | cons y ys =>
    rw [← hc]
    have hne : xs ≠ [] := by simp [hc]
    have hob : obsAfter lib xs =
        ⟨xs.getLast?.getD lib.emptyAction, (psOf lib xs).1, (psOf lib xs).2, dang lib.arity 1 xs⟩ := by
      rw [hc]; rfl
    rw [hob]
    refine ⟨?_, ?_⟩
    · simp only
      rw [List.getLast?_eq_some_getLast hne]
      exact Nat.le_of_lt (hxs _ (List.getLast_mem hne))
    · simp only [psOf, parentsSiblings]
      cases hr : xs.reverse with
      | nil => simp at hr; exact absurd hr hne
      | cons x rest =>
        have hmem : ∀ z ∈ x :: rest, z < lib.L := by
          intro z hz; rw [← hr] at hz; exact hxs z (by simpa using hz)
        simp only
        by_cases hx : lib.arity x > 0
        · rw [if_pos hx]
          have := parentAdjust_range hx
          simp only [Option.getD_some, Lib.emptySibling]
          omega
        · rw [if_neg hx]
          cases hs : psScan lib.arity 0 lib.emptySibling (x :: rest) with
          | none => simp [Lib.emptySibling]; exact hE
          | some ps =>
            obtain ⟨p, s⟩ := ps
            simp only [psScan] at hs
            have hx0 : lib.arity x = 0 := by omega
            rw [hx0] at hs
            simp only [Int.ofNat_zero] at hs
            rw [if_neg (by omega)] at hs
            obtain ⟨h1, h3, h4⟩ := psScan_mem lib.arity h2 rest _ _ _ _ (by omega) hs
            have := parentAdjust_range h3
            simp only [Option.getD_some]
            refine ⟨?_, by omega, by omega⟩
            rcases h4 with rfl | h4
            · exact Nat.le_of_lt (hmem _ (List.mem_cons_self ..))
            · exact Nat.le_of_lt (hmem _ (List.mem_cons_of_mem _ h4))

/-! ## Specification: one-hot vectors -/

/-- `x` is the indicator vector of position `v` among `n` positions. -/
def IsOneHot (n : Nat) (v : Int) (x : List Int) : Prop :=
  x.length = n ∧ (∃ i : Nat, (i : Int) = v ∧ x[i]? = some 1) ∧ ∀ i : Nat, i < n → (i : Int) ≠ v → x[i]? = some 0

theorem oneHot_spec {n : Nat} {v : Int} (h0 : 0 ≤ v) (h1 : v < n) :
    ∃ x, oneHot n v = some x ∧ IsOneHot n v x := by
  have h : oneHot n v = some ((List.range n).map fun (i : Nat) => if (i : Int) = v then 1 else 0) := by
    unfold oneHot; rw [if_pos ⟨h0, h1⟩]; simp
  refine ⟨_, h, by simp, ⟨v.toNat, by omega, ?_⟩, ?_⟩
  · have hl : v.toNat < n := by omega
    have hv : ((v.toNat : Nat) : Int) = v := by omega
    rw [List.getElem?_map, List.getElem?_range hl]
    simp only [Option.map_some, hv, if_true]
  · intro i hi hne
    rw [List.getElem?_map, List.getElem?_range hi]
    simp [hne]

theorem sampled_tokens_lt {lib : Lib} {ps : List Prior} {xs : List Nat} {obs : Obs} {prior : Nat → Logit}
    (h : Sampled lib ps xs obs prior) : ∀ x ∈ xs, x < lib.L := by
  induction h with
  | start => simp
  | step h tok hL hp ih =>
    intro x hx
    rcases List.mem_append.1 hx with hx | hx
    · exact ih x hx
    · simp at hx; rw [hx]; exact hL

/-- **C65.** Whatever tokens have been drawn (arities at most two, dangling count not observed – the default), the
network input of the next step exists, and it is the concatenation, over the observed features in the order action,
parent, sibling, of the indicator vectors of: the token drawn last (position `L` when there is none), the parent's
number among the operators (last position when there is none), the sibling (position `L` when there is none). -/
theorem C65_network_input_partial (lib : Lib) (h2 : ∀ t, lib.arity t ≤ 2) (ps : List Prior) (f : ObsFlags)
    (hf : f.dangling = false) (isNumpy : Bool) {xs : List Nat} {obs : Obs} {prior : Nat → Logit}
    (h : Sampled lib ps xs obs prior) :
    ∃ a p s, encodeInput lib f isNumpy obs = some (a ++ p ++ s) ∧
      (if f.action then IsOneHot (lib.L + 1) obs.action a else a = []) ∧
      (if f.parent then IsOneHot (lib.nParentInputs.toNat) obs.parent p else p = []) ∧
      (if f.sibling then IsOneHot (lib.L + 1) obs.sibling s else s = []) := by
  have hin : ∀ x ∈ xs, x < lib.L := sampled_tokens_lt h
  have hobs : obs = obsAfter lib xs := by
    rw [← (C13_priors lib ps xs h).1, (Episode.run_obs lib ps xs).1]
  obtain ⟨r1, r2, r3, r4⟩ := obsAfter_ranges lib h2 xs hin
  rw [← hobs] at r1 r2 r3 r4
  obtain ⟨a, ha, ha'⟩ := oneHot_spec (n := lib.L + 1) (v := (obs.action : Int)) (by omega) (by omega)
  obtain ⟨p, hp, hp'⟩ := oneHot_spec (n := lib.nParentInputs.toNat) (v := obs.parent) r3 (by omega)
  obtain ⟨s, hs, hs'⟩ := oneHot_spec (n := lib.L + 1) (v := (obs.sibling : Int)) (by omega) (by omega)
  have hpn : ((lib.nParentInputs.toNat : Nat) : Int) = lib.nParentInputs := by omega
  rw [hpn] at hp
  have ha2 : oneHot lib.nActionInputs obs.action = some a := by simpa [Lib.nActionInputs] using ha
  have hs2 : oneHot lib.nSiblingInputs obs.sibling = some s := by simpa [Lib.nSiblingInputs] using hs
  refine ⟨if f.action then a else [], if f.parent then p else [], if f.sibling then s else [], ?_, ?_, ?_, ?_⟩
  · unfold encodeInput
    rw [hf]
    cases f.action <;> cases f.parent <;> cases f.sibling <;> simp [catRows, ha2, hp, hs2]
  · cases f.action <;> simp [ha']
  · cases f.parent <;> simp [hp']
  · cases f.sibling <;> simp [hs']

theorem encode_parts {lib : Lib} {f : ObsFlags} (hf : f.dangling = false) {b : Bool} {o : Obs} {r : List Int}
    (h : encodeInput lib f b o = some r) :
    ∃ a p s, r = a ++ (p ++ s) ∧
      (if f.action then oneHot lib.nActionInputs o.action = some a else a = []) ∧
      (if f.parent then oneHot lib.nParentInputs o.parent = some p else p = []) ∧
      (if f.sibling then oneHot lib.nSiblingInputs o.sibling = some s else s = []) := by
  obtain ⟨fa, fp, fs, fd⟩ := f
  simp only at hf
  subst hf
  unfold encodeInput at h
  generalize oneHot lib.nActionInputs o.action = A at *
  generalize oneHot lib.nParentInputs o.parent = P at *
  generalize oneHot lib.nSiblingInputs o.sibling = S at *
  cases A <;> cases P <;> cases S <;> cases fa <;> cases fp <;> cases fs <;>
    simp [catRows] at h ⊢ <;> refine ⟨_, _, _, ?_, rfl, rfl, rfl⟩ <;> simp [← h]

/-- **C65**, no information lost or invented: the network input of a step equals that of any other observation exactly when the two
agree on every observed feature. -/
theorem C65_input_iff_partial (lib : Lib) (h2 : ∀ t, lib.arity t ≤ 2) (ps : List Prior) (f : ObsFlags)
    (hf : f.dangling = false) (b b' : Bool) {xs : List Nat} {o : Obs} {pr : Nat → Logit}
    (h : Sampled lib ps xs o pr) (o' : Obs) :
    encodeInput lib f b o = encodeInput lib f b' o' ↔
      (f.action = true → o.action = o'.action) ∧ (f.parent = true → o.parent = o'.parent) ∧
      (f.sibling = true → o.sibling = o'.sibling) := by
  constructor
  · intro heq
    obtain ⟨a, p, s, he, _⟩ := C65_network_input_partial lib h2 ps f hf b h
    obtain ⟨a1, p1, s1, e1, x1, y1, z1⟩ := encode_parts hf he
    obtain ⟨a2, p2, s2, e2, x2, y2, z2⟩ := encode_parts hf (heq ▸ he)
    rw [e1] at e2
    have la : a1.length = a2.length := by
      cases hfa : f.action <;> simp only [hfa, if_true, Bool.false_eq_true, if_false] at x1 x2
      · rw [x1, x2]
      · rw [oneHot_length x1, oneHot_length x2]
    have lp : p1.length = p2.length := by
      cases hfa : f.parent <;> simp only [hfa, if_true, Bool.false_eq_true, if_false] at y1 y2
      · rw [y1, y2]
      · rw [oneHot_length y1, oneHot_length y2]
    obtain ⟨ea, e3⟩ := List.append_inj e2 la
    obtain ⟨ep, es⟩ := List.append_inj e3 lp
    subst ea ep es
    refine ⟨fun hh => ?_, fun hh => ?_, fun hh => ?_⟩
    · rw [hh] at x1 x2
      have := oneHot_inj x1 x2; omega
    · rw [hh] at y1 y2
      exact oneHot_inj y1 y2
    · rw [hh] at z1 z2
      have := oneHot_inj z1 z2; omega
  · rintro ⟨ha, hp, hs⟩
    obtain ⟨fa, fp, fs, fd⟩ := f
    simp only at hf ha hp hs
    subst hf
    unfold encodeInput
    cases fa <;> cases fp <;> cases fs <;> simp at ha hp hs ⊢ <;> simp [*]

/-- **C13**, consequence for training: as long as the dangling count is not an observed feature (the default),
the network input recomputed from the record is the input the policy acted on. -/
theorem C13_network_input (lib : Lib) (ps : List Prior) (xs : List Nat) (f : ObsFlags) (hf : f.dangling = false)
    (b b' : Bool) :
    (Episode.run lib ps xs).obsTa.map (encodeInput lib f b) =
      ((Episode.run lib ps xs).seen.take xs.length).map (encodeInput lib f b') := by
  obtain ⟨h1, h2⟩ := Episode.run_lists lib ps xs
  rw [h1, h2, ← List.map_take, List.take_range, List.map_map, List.map_map,
    Nat.min_eq_left (Nat.le_succ _)]
  apply List.map_congr_left
  intro t _
  simp [encodeInput, hf]

/-- Observing the dangling count makes the very first call fail: the initial observation is a numpy array, which
has no `unsqueeze` – for every library and every choice of the other features. -/
theorem C65_dangling_counterexample (lib : Lib) (f : ObsFlags) (hf : f.dangling = true) (o : Obs) :
    encodeInput lib f true o = none := by
  obtain ⟨fa, fp, fs, fd⟩ := f
  simp only at hf
  subst hf
  unfold encodeInput
  generalize oneHot lib.nActionInputs o.action = A
  generalize oneHot lib.nParentInputs o.parent = P
  generalize oneHot lib.nSiblingInputs o.sibling = S
  cases A <;> cases P <;> cases S <;> cases fa <;> cases fp <;> cases fs <;> simp [catRows]

/-- **C65** fails with `embedding=True`: whatever is observed, the first observation already raises. -/
theorem C65_embedding_counterexample (lib : Lib) (f : ObsFlags) (hf : f.action ∨ f.parent ∨ f.sibling ∨ f.dangling) (o : Obs) :
    encodeManager lib true f true o = none ∧ encodeManager lib false f true o = encodeInput lib f true o := by
  refine ⟨?_, rfl⟩
  obtain ⟨fa, fp, fs, fd⟩ := f
  cases fa <;> cases fp <;> cases fs <;> cases fd <;> simp_all [encodeManager, catRows]

/-- With an operator of three operands the scan may take a *terminal* for the parent, whose number is -1, and the
encoding raises: tokens `f3 x x` with `f3` ternary, after a first complete expression `x x`. -/
theorem C65_arity3_counterexample :
    let lib : Lib := ⟨[⟨"f3", 3, none, none, none⟩, ⟨"x1", 0, some 0, none, none⟩]⟩
    encodeInput lib ⟨false, true, false, false⟩ false (obsAfter lib [1, 0, 1]) = none := by
  decide +kernel

/-- The hypotheses of C65 are met by a real step, with a known answer: after `add` of the example library. -/
example : encodeInput exLib ⟨true, true, true, false⟩ false (obsAfter exLib [0]) =
    some ([1, 0, 0, 0, 0, 0, 0, 0] ++ [1, 0, 0, 0, 0, 0] ++ [0, 0, 0, 0, 0, 0, 0, 1]) := by decide +kernel

end Verif.Discover.Claims
