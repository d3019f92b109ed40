import Verif.Claims.SgaEvolve
import Verif.Claims.Equation
/-!
# C22 (usable columns), C68 (known candidates), C69 (crossover and mutation of candidates), C49 (data), C52 (label)
-/
namespace Verif.Claims
open Verif.Sga

/-! ## C22: only usable candidates have a finite score -/

/-- **C22**, usable: a candidate stored with a score below infinity has at least one term, the column of every term
exists and is finite everywhere, and the score is the regression's score of exactly these columns, in order. -/
theorem C22_usable {V S : Type} {env : Env V S} (he : EnvOk env) {p : Ind} {s : S} (h : Belongs env p s)
    (hs : env.ord.isInf s = false) : ∃ cols : List V, cols ≠ [] ∧ p.elements.map (termCol env.sem) = cols.map some ∧
      (∀ v ∈ cols, env.finite v = true) ∧ s = env.train cols := by
  have hne := h.nonempty he hs
  have hw := h.score
  rw [evaluate_eq he h.ok] at hw
  injection hw with hw
  have h1 := congrArg Prod.snd hw
  have h2 := congrArg (fun x => x.1.elements) hw
  simp only at h1 h2
  have hall : ∀ t ∈ p.elements, (termCol env.sem t).isSome = true := by
    intro t ht
    rw [← h2] at ht
    exact (List.mem_filter.1 ht).2
  have hmap : ∀ l : List Levels, (∀ t ∈ l, (termCol env.sem t).isSome = true) →
      l.map (termCol env.sem) = (l.filterMap (termCol env.sem)).map some := by
    intro l
    induction l with
    | nil => intro _; rfl
    | cons t l ih =>
      intro hl
      obtain ⟨v, hv⟩ := Option.isSome_iff_exists.1 (hl t (by simp))
      simp [hv, ih (fun t' ht' => hl t' (by simp [ht']))]
  refine ⟨p.elements.filterMap (termCol env.sem), ?_, hmap _ hall, ?_, ?_⟩
  · intro h0
    have := hmap _ hall
    rw [h0] at this
    simp at this
    exact hne this
  · intro v hv
    by_cases hf : env.finite v = true
    · exact hf
    · exfalso
      have : scoreOf env (p.elements.filterMap (termCol env.sem)) = env.ord.inf := by
        unfold scoreOf
        rw [if_pos]
        simp only [Bool.or_eq_true, List.any_eq_true]
        exact Or.inr ⟨v, hv, by simpa using hf⟩
      rw [this] at h1
      rw [← h1] at hs
      have := (he.ord.isInf env.ord.inf).2 ⟨he.ord.inf_num, by rcases he.ord.total env.ord.inf env.ord.inf with h | h <;> exact h⟩
      rw [this] at hs; simp at hs
  · by_cases hb : ((p.elements.filterMap (termCol env.sem)).isEmpty ||
        (p.elements.filterMap (termCol env.sem)).any (fun v => !env.finite v)) = true
    · exfalso
      have : scoreOf env (p.elements.filterMap (termCol env.sem)) = env.ord.inf := by
        unfold scoreOf; rw [if_pos hb]
      rw [this] at h1
      rw [← h1] at hs
      have := (he.ord.isInf env.ord.inf).2 ⟨he.ord.inf_num, by rcases he.ord.total env.ord.inf env.ord.inf with h | h <;> exact h⟩
      rw [this] at hs; simp at hs
    · rw [← h1]; unfold scoreOf; rw [if_neg hb]

/-! ## C68: known candidates -/

/-- Whatever the search does to its population after the constructor: it offers candidates and it sorts and cuts.
The text library is only ever changed by these. -/
inductive SearchSteps {V S : Type} (env : Env V S) : Pop S → Pop S → Prop
  | refl (st : Pop S) : SearchSteps env st st
  | offer {st st' st'' : Pop S} (p : Ind) : SearchSteps env st st' → Sga.offer env st' p = .ok st'' → SearchSteps env st st''
  | keep {st st' st'' : Pop S} (n : Nat) : SearchSteps env st st' → keepBest env n st' = .ok st'' → SearchSteps env st st''

theorem SearchSteps.trans {V S : Type} {env : Env V S} {a b c : Pop S} (h1 : SearchSteps env a b)
    (h2 : SearchSteps env b c) : SearchSteps env a c := by
  induction h2 with
  | refl => exact h1
  | offer p _ h ih => exact .offer p ih h
  | keep n _ h ih => exact .keep n ih h

theorem crossLoop_steps {V S : Type} {env : Env V S} (ix : Nat → Nat × Nat) : ∀ (ps : List (Ind × Ind)) (k : Nat)
    (st st' : Pop S), crossLoop env ix k ps st = .ok st' → SearchSteps env st st' := by
  intro ps
  induction ps with
  | nil => intro k st st' h; simp [crossLoop] at h; subst h; exact .refl _
  | cons ab ps ih =>
    intro k st st' h
    simp only [crossLoop] at h
    cases hc : crossPair ab.1 ab.2 (ix k) with
    | error f => rw [hc] at h; simp at h
    | ok r =>
      rw [hc] at h
      simp only at h
      cases h1 : offer env st r.1 with
      | error f => rw [h1] at h; simp at h
      | ok st1 =>
        rw [h1] at h
        simp only at h
        cases h2 : offer env st1 r.2 with
        | error f => rw [h2] at h; simp at h
        | ok st2 =>
          rw [h2] at h
          exact ((SearchSteps.refl st).offer _ h1 |>.offer _ h2).trans (ih _ _ _ h)

theorem changeLoop_steps {V S : Type} {env : Env V S} (copy : List Ind) (ds : Nat → ChangeDraw) : ∀ (c i : Nat)
    (st st' : Pop S), changeLoop env copy ds i c st = .ok st' → SearchSteps env st st' := by
  intro c
  induction c with
  | zero => intro i st st' h; simp [changeLoop] at h; subst h; exact .refl _
  | succ c ih =>
    intro i st st' h
    simp only [changeLoop] at h
    cases hp : copy[i]? with
    | none => rw [hp] at h; simp at h
    | some p =>
      rw [hp] at h
      simp only at h
      cases hv : vary env p (ds i) with
      | error f => rw [hv] at h; simp at h
      | ok p' =>
        rw [hv] at h
        simp only at h
        cases h1 : offer env st p' with
        | error f => rw [h1] at h; simp at h
        | ok st1 =>
          rw [h1] at h
          exact ((SearchSteps.refl st).offer _ h1).trans (ih _ _ _ h)

/-- The generations of the search consist of such steps. -/
theorem runGens_steps {V S : Type} {env : Env V S} (num numIx : Nat) : ∀ (gs : List GenRound) (st st' : Pop S),
    runGens env num numIx gs st = .ok st' → SearchSteps env st st' := by
  intro gs
  induction gs with
  | nil => intro st st' h; simp [runGens] at h; subst h; exact .refl _
  | cons g gs ih =>
    intro st st' h
    simp only [runGens] at h
    cases hc : crossOver env num numIx g.cross st with
    | error f => rw [hc] at h; simp at h
    | ok st1 =>
      rw [hc] at h
      simp only at h
      cases hch : change env num g.change st1 with
      | error f => rw [hch] at h; simp at h
      | ok st2 =>
        rw [hch] at h
        refine SearchSteps.trans ?_ ((ih _ _ h))
        have s1 : SearchSteps env st st1 := by
          simp only [crossOver] at hc
          cases hk : keepBest env st.mses.length st with
          | error f => rw [hk] at hc; simp at hc
          | ok sta =>
            rw [hk] at hc
            simp only at hc
            cases hg : gather (sta.eqs.take numIx) g.cross.shuf with
            | none => rw [hg] at hc; simp at hc
            | some reo =>
              rw [hg] at hc
              simp only at hc
              cases hl : crossLoop env g.cross.ix 0 ((sta.eqs.take numIx).zip reo) sta with
              | error f => rw [hl] at hc; simp at hc
              | ok stb =>
                rw [hl] at hc
                exact (((SearchSteps.refl st).keep _ hk).trans (crossLoop_steps _ _ _ _ _ hl)).keep _ hc
        have s2 : SearchSteps env st1 st2 := by
          simp only [change] at hch
          cases hk : keepBest env st1.mses.length st1 with
          | error f => rw [hk] at hch; simp at hch
          | ok sta =>
            rw [hk] at hch
            simp only at hch
            cases hl : changeLoop env sta.eqs g.change 1 (num - 1) sta with
            | error f => rw [hl] at hch; simp at hch
            | ok stb =>
              rw [hl] at hch
              exact (((SearchSteps.refl st1).keep _ hk).trans (changeLoop_steps _ _ _ _ _ _ hl)).keep _ hch
        exact s1.trans s2

theorem keepBest_mem {V S : Type} {env : Env V S} {n : Nat} {st st' : Pop S} (h : keepBest env n st = .ok st') :
    st'.lib = st.lib ∧ ∀ p ∈ st'.eqs, p ∈ st.eqs := by
  unfold keepBest at h
  split at h
  · rename_i e m he hm
    injection h with h; subst h
    refine ⟨rfl, ?_⟩
    intro p hp
    obtain ⟨g1, g2⟩ := gather_get he
    obtain ⟨i, hi⟩ := List.getElem?_of_mem hp
    have hlt : i < ((env.argsort st.mses).take n).length := by rw [← g1]; exact (List.getElem?_eq_some_iff.1 hi).1
    rw [g2 _ _ (List.getElem?_eq_getElem hlt)] at hi
    exact List.mem_of_getElem? hi
  · simp at h

/-- **C68**: texts are never forgotten, and every member of the population that was not there at the start has its text
in the library. -/
theorem C68_remembered {V S : Type} {env : Env V S} {st st' : Pop S} (h : SearchSteps env st st') :
    (∀ x ∈ st.lib, x ∈ st'.lib) ∧ ∀ p ∈ st'.eqs, p ∈ st.eqs ∨ visualize p ∈ st'.lib := by
  induction h with
  | refl => exact ⟨fun _ h => h, fun _ h => Or.inl h⟩
  | @offer s1 s2 p _ ho ih =>
    unfold Sga.offer at ho
    split at ho
    · injection ho with ho; subst ho; exact ih
    · split at ho
      · simp at ho
      · injection ho with ho; subst ho
        refine ⟨fun x hx => by simp [ih.1 x hx], ?_⟩
        intro q hq
        simp only [List.mem_append, List.mem_cons, List.not_mem_nil, or_false] at hq ⊢
        rcases hq with hq | rfl
        · rcases ih.2 q hq with h | h
          · exact Or.inl h
          · exact Or.inr (Or.inl h)
        · exact Or.inr (Or.inr rfl)
  | keep n _ hk ih =>
    obtain ⟨k1, k2⟩ := keepBest_mem hk
    rw [k1]
    exact ⟨ih.1, fun p hp => ih.2 p (k2 p hp)⟩

/-- **C68** (partial: for candidates that lost no term in their evaluation): once such a candidate has been offered by
crossover or mutation, offering it again, at any later time of the search, changes nothing: it is neither evaluated nor
added. -/
theorem C68_once_partial {V S : Type} {env : Env V S} {st st1 st2 : Pop S} {p : Ind} {s : S}
    (hp : evaluate env p = .ok (p, s)) (h1 : offer env st p = .ok st1) (h : SearchSteps env st1 st2) :
    offer env st2 p = .ok st2 := by
  have hm : visualize p ∈ st1.lib := by
    unfold offer at h1
    split at h1
    · rename_i hc
      injection h1 with h1; subst h1
      simpa using hc
    · rw [hp] at h1
      injection h1 with h1; subst h1
      simp
  have := (C68_remembered h).1 _ hm
  unfold offer
  rw [if_pos (by simpa using this)]

/-- **C68**: a candidate whose text is not known is evaluated, and what is left of it is added with its score. -/
theorem C68_new_evaluated {V S : Type} {env : Env V S} {st : Pop S} {p p' : Ind} {s : S}
    (hp : evaluate env p = .ok (p', s)) (hn : visualize p ∉ st.lib) :
    offer env st p = .ok ⟨st.eqs ++ [p'], st.mses ++ [s], st.lib ++ [visualize p']⟩ := by
  unfold offer
  rw [if_neg (by simpa using hn), hp]

/-- Two terms for the examples: `u * 0` (identically zero, so rejected) and `v d x`. -/
def exZeroTerm : Levels := genTree 4 opMul fun _ k => ⟨true, ⟨"x", 0, 1⟩, if k = 0 then ⟨"u", 0, 0⟩ else ⟨"0", 0, 3⟩, opD⟩
def exDxTerm : Levels := genTree 4 opD fun _ _ => ⟨true, ⟨"x", 0, 1⟩, ⟨"v", 0, 0⟩, opD⟩

/-- `C68_once_partial` is not vacuous: a candidate of one term that survives, offered to an empty population. -/
example : evaluate exEnvS ⟨1, [exDxTerm]⟩ = .ok (⟨1, [exDxTerm]⟩, some 100) ∧
    (match offer exEnvS ⟨[], [], []⟩ ⟨1, [exDxTerm]⟩ with
      | .ok st => some st.lib
      | .error _ => none) = some ["(v d x)"] := ⟨by rfl, by decide⟩

/-- **C68** fails for a candidate that loses a term: it is remembered under the text of what is left of it, so offering
it again evaluates it again and adds what is left a second time. -/
theorem C68_pruned_counterexample :
    (match offer exEnvS ⟨[], [], []⟩ ⟨2, [exDxTerm, exZeroTerm]⟩ with
      | .error _ => none
      | .ok st =>
        match offer exEnvS st ⟨2, [exDxTerm, exZeroTerm]⟩ with
        | .error _ => none
        | .ok st' => some (visualize ⟨2, [exDxTerm, exZeroTerm]⟩, st'.eqs.map visualize)) =
    some ("(v d x)+(u * 0)", ["(v d x)", "(v d x)"]) := by decide

/-- **C68** fails for the initial population: its texts are not in the library (the constructor stores the objects), so
a crossover that gives an initial candidate back adds it a second time. -/
theorem C68_initial_counterexample :
    (match initPop exEnvS exInit with
      | .error _ => none
      | .ok st =>
        match st.eqs with
        | [] => none
        | p :: _ =>
          match offer exEnvS st p with
          | .error _ => none
          | .ok st' => some (st'.eqs.map visualize)) =
    some ["(v d x)", "(u * ((u d^2 y) d y))", "(v d x)"] := by decide

/-! ## C69: crossover and mutation of candidates -/

/-- **C69**: crossover exchanges one term of the first parent for one term of the second: each child has its parent's
width and terms except at one position, where it has the term the other parent had at the other position. -/
theorem C69_crossover {a b na nb : Ind} {d : Nat × Nat} (h : crossPair a b d = .ok (na, nb)) :
    ∃ i j x y, a.elements[i]? = some x ∧ b.elements[j]? = some y ∧ na.W = a.W ∧ nb.W = b.W ∧
      na.elements.length = a.elements.length ∧ nb.elements.length = b.elements.length ∧
      na.elements[i]? = some y ∧ nb.elements[j]? = some x ∧
      (∀ k : Nat, k ≠ i → na.elements[k]? = a.elements[k]?) ∧ (∀ k : Nat, k ≠ j → nb.elements[k]? = b.elements[k]?) ∧
      (na.elements ++ nb.elements).Perm (a.elements ++ b.elements) := by
  unfold crossPair at h
  split at h
  · rename_i x y hx hy
    injection h with h
    injection h with h1 h2
    subst h1; subst h2
    have li := (List.getElem?_eq_some_iff.1 hx).1
    have lj := (List.getElem?_eq_some_iff.1 hy).1
    refine ⟨_, _, x, y, hx, hy, rfl, rfl, by simp, by simp, ?_, ?_, ?_, ?_, ?_⟩
    · simp [li]
    · simp [lj]
    · intro k hk; simp [Ne.symm hk]
    · intro k hk; simp [Ne.symm hk]
    · simp only
      have ea : a.elements = a.elements.take (d.1 % a.elements.length) ++ x :: a.elements.drop (d.1 % a.elements.length + 1) := by
        have := List.set_eq_take_append_cons_drop (l := a.elements) (i := d.1 % a.elements.length) (a := x)
        rw [if_pos li] at this
        rw [← this]
        apply List.ext_getElem?
        intro k
        by_cases hk : d.1 % a.elements.length = k
        · subst hk; rw [hx]; simp [li]
        · simp [hk]
      have eb : b.elements = b.elements.take (d.2 % b.elements.length) ++ y :: b.elements.drop (d.2 % b.elements.length + 1) := by
        have := List.set_eq_take_append_cons_drop (l := b.elements) (i := d.2 % b.elements.length) (a := y)
        rw [if_pos lj] at this
        rw [← this]
        apply List.ext_getElem?
        intro k
        by_cases hk : d.2 % b.elements.length = k
        · subst hk; rw [hy]; simp [lj]
        · simp [hk]
      rw [List.set_eq_take_append_cons_drop, List.set_eq_take_append_cons_drop, if_pos li, if_pos lj]
      generalize d.1 % a.elements.length = i at ea
      generalize d.2 % b.elements.length = j at eb
      generalize a.elements.take i = a1 at *
      generalize a.elements.drop (i + 1) = a2 at *
      generalize b.elements.take j = b1 at *
      generalize b.elements.drop (j + 1) = b2 at *
      rw [ea, eb]
      have pm : ∀ (l1 l2 : List Levels) (z : Levels), (l1 ++ z :: l2).Perm (z :: (l1 ++ l2)) :=
        fun l1 l2 z => List.perm_middle
      refine ((pm a1 a2 y).append (pm b1 b2 x)).trans ?_
      refine List.Perm.trans ?_ ((pm a1 a2 x).append (pm b1 b2 y)).symm
      simp only [List.cons_append]
      refine (List.Perm.cons y (List.perm_middle)).trans ?_
      refine (List.Perm.swap x y _).trans ?_
      exact List.Perm.cons x List.perm_middle.symm
  · simp at h

/-- **C69**: mutating a candidate keeps the number of its terms, and a term drawn anew replaces exactly one of the
mutated terms. -/
theorem C69_mutation {V S : Type} {env : Env V S} (he : EnvOk env) {p p' : Ind} {d : ChangeDraw} (hd : d.From env.ctx)
    (hp : IndOk env p) (h : vary env p d = .ok p') :
    p'.W = p.W ∧ p'.elements.length = p.elements.length ∧
    ∃ ts, ts.length = p.elements.length ∧
      (∀ (i : Nat) (t : Levels), p.elements[i]? = some t → ∃ t', mutTree env.ctx (d.muts i) t = .ok t' ∧ ts[i]? = some t') ∧
      (d.rep = false → p'.elements = ts) ∧
      (d.rep = true → ∃ i < ts.length, p'.elements[i]? = some (genTree env.depth d.root d.gen) ∧
        ∀ k : Nat, k ≠ i → p'.elements[k]? = ts[k]?) := by
  have hm : ∀ (ts : List Levels) (i w : Nat) (r : List Levels), w = ts.length →
      mutElems env.ctx d.muts i w ts = .ok r → r.length = ts.length ∧
      ∀ (k : Nat) (t : Levels), ts[k]? = some t → ∃ t', mutTree env.ctx (d.muts (i + k)) t = .ok t' ∧ r[k]? = some t' := by
    intro ts
    induction ts with
    | nil =>
      intro i w r hw h
      subst hw; simp [mutElems] at h; subst h
      exact ⟨rfl, by simp⟩
    | cons t ts ih =>
      intro i w r hw h
      subst hw
      simp only [List.length_cons, mutElems] at h
      cases h1 : mutTree env.ctx (d.muts i) t with
      | error f => rw [h1] at h; simp at h
      | ok t' =>
        rw [h1] at h
        simp only at h
        cases h2 : mutElems env.ctx d.muts (i + 1) ts.length ts with
        | error f => rw [h2] at h; simp at h
        | ok ts' =>
          rw [h2] at h
          injection h with h; subst h
          obtain ⟨a1, a2⟩ := ih (i + 1) _ ts' rfl h2
          refine ⟨by simp [a1], ?_⟩
          intro k u hk
          cases k with
          | zero => simp at hk; subst hk; exact ⟨t', h1, by simp⟩
          | succ k =>
            simp at hk
            obtain ⟨u', b1, b2⟩ := a2 k u hk
            exact ⟨u', by rw [← b1]; congr 2; omega, by simpa using b2⟩
  have hlen := (vary_ok he hd hp).2 p' h
  unfold vary at h
  cases hme : mutElems env.ctx d.muts 0 p.W p.elements with
  | error f => rw [hme] at h; simp at h
  | ok ts =>
    rw [hme] at h
    simp only at h
    obtain ⟨a1, a2⟩ := hm p.elements 0 p.W ts hp.width hme
    have a2' : ∀ (i : Nat) (t : Levels), p.elements[i]? = some t →
        ∃ t', mutTree env.ctx (d.muts i) t = .ok t' ∧ ts[i]? = some t' := by
      intro i t hi
      have := a2 i t hi
      rwa [Nat.zero_add] at this
    by_cases hrep : d.rep = true
    · rw [if_pos hrep] at h
      by_cases hc : p.W ≠ 0 ∧ d.ix % p.W < ts.length
      · rw [if_pos hc] at h
        injection h with h; subst h
        refine ⟨rfl, by simp [a1], ts, a1, a2', by simp [hrep], ?_⟩
        intro _
        refine ⟨d.ix % p.W, hc.2, by simp [hc.2], ?_⟩
        intro k hk; simp [Ne.symm hk]
      · rw [if_neg hc] at h; simp at h
    · rw [if_neg hrep] at h
      injection h with h; subst h
      exact ⟨rfl, a1, ts, a1, a2', fun _ => rfl, fun hr => absurd hr hrep⟩

/-! ## C49: a name stands for its own data -/

/-- **C49**, data: in a successfully built problem (no parameter fields, finite differences) a variable called like a
field carries the data of that field, one called like a coordinate axis carries that coordinate, `0` carries the zero
array, and `f_a` carries the derivative of field `f` along axis `a`; there are no other variables.  The denominators
carry the coordinates they are called after. -/
theorem C49_data {p : Prob} {w : Pays} {ctx : Ctx} (h : p.build w = some ctx) (hp : p.params = [])
    (hpre : p.pre = []) (e : Entry) :
    (e ∈ ctx.VARS ↔ (∃ f ∈ p.fields, e = ⟨f, 0, w.field f⟩) ∨ (∃ a ∈ p.axes, a ≠ p.lhs ∧ e = ⟨a, 0, w.coord a⟩) ∨
      e = ⟨"0", 0, w.zero⟩ ∨ ∃ f ∈ p.fields, ∃ a ∈ p.axes, a ≠ p.lhs ∧ e = ⟨dkey f a, 0, w.grad (dkey f a)⟩) ∧
    (e ∈ ctx.den ↔ ∃ a ∈ p.axes, a ≠ p.lhs ∧ e = ⟨a, 0, w.coord a⟩) := by
  obtain ⟨_, _, _, _, _, _, _, _, _, rfl⟩ := build_spec h
  have hgk : ∀ k, k ∈ p.gradKeys ↔ ∃ f ∈ p.fields, ∃ a ∈ p.axes, a ≠ p.lhs ∧ k = dkey f a := by
    intro k
    unfold Prob.gradKeys
    rw [mem_insertKeys, hpre]
    simp only [List.not_mem_nil, false_or, List.mem_flatMap, List.mem_map, List.mem_filter, bne_iff_ne]
    constructor
    · rintro ⟨f, hf, a, ⟨ha, hne⟩, rfl⟩; exact ⟨f, hf, a, ha, hne, rfl⟩
    · rintro ⟨f, hf, a, ha, hne, rfl⟩; exact ⟨f, hf, a, ⟨ha, hne⟩, rfl⟩
  constructor
  · simp only [Prob.tables, Prob.vars, hp, if_true, List.map_nil, List.append_nil, List.mem_append, List.mem_map,
      List.mem_filter, bne_iff_ne, List.mem_cons, List.not_mem_nil, or_false]
    constructor
    · rintro (((⟨f, hf, rfl⟩ | ⟨a, ha, rfl⟩) | rfl) | ⟨k, hk, rfl⟩)
      · exact Or.inl ⟨f, hf, rfl⟩
      · exact Or.inr (Or.inl ⟨a, ha.1, ha.2, rfl⟩)
      · exact Or.inr (Or.inr (Or.inl rfl))
      · obtain ⟨f, hf, a, ha, hne, rfl⟩ := (hgk k).1 hk
        exact Or.inr (Or.inr (Or.inr ⟨f, hf, a, ha, hne, rfl⟩))
    · rintro (⟨f, hf, rfl⟩ | ⟨a, ha, hne, rfl⟩ | rfl | ⟨f, hf, a, ha, hne, rfl⟩)
      · exact Or.inl (Or.inl (Or.inl ⟨f, hf, rfl⟩))
      · exact Or.inl (Or.inl (Or.inr ⟨a, ⟨ha, hne⟩, rfl⟩))
      · exact Or.inl (Or.inr rfl)
      · exact Or.inr ⟨dkey f a, (hgk _).2 ⟨f, hf, a, ha, hne, rfl⟩, rfl⟩
  · simp only [Prob.tables, Prob.denTable, List.mem_map, List.mem_filter, bne_iff_ne]
    constructor
    · rintro ⟨a, ⟨ha, hne⟩, rfl⟩; exact ⟨a, ha, hne, rfl⟩
    · rintro ⟨a, ha, hne, rfl⟩; exact ⟨a, ⟨ha, hne⟩, rfl⟩

/-! ## C52: the label -/

/-- `str.strip()`: the text between the first and the last character that is not white space. -/
def StripOf (r s : Name) : Prop :=
  ∃ pre suf : Name, r = pre ++ s ++ suf ∧ (∀ c ∈ pre ++ suf, c.isWhitespace = true) ∧
    (∀ c ∈ s.head?, c.isWhitespace = false) ∧ (∀ c ∈ s.getLast?, c.isWhitespace = false)

theorem head?_dropWhile {α : Type} (q : α → Bool) (l : List α) : ∀ c ∈ (l.dropWhile q).head?, q c = false := by
  induction l with
  | nil => simp
  | cons a l ih =>
    intro c hc
    by_cases ha : q a = true
    · rw [List.dropWhile_cons_of_pos ha] at hc; exact ih c hc
    · rw [List.dropWhile_cons_of_neg ha] at hc
      simp at hc; subst hc; simpa using ha

theorem takeWhile_all {α : Type} (q : α → Bool) (l : List α) : ∀ c ∈ l.takeWhile q, q c = true := by
  induction l with
  | nil => simp
  | cons a l ih =>
    intro c hc
    by_cases ha : q a = true
    · rw [List.takeWhile_cons_of_pos ha] at hc
      simp only [List.mem_cons] at hc
      rcases hc with rfl | hc
      · exact ha
      · exact ih c hc
    · rw [List.takeWhile_cons_of_neg ha] at hc; simp at hc

theorem stripOf_spec (r : Name) :
    StripOf r ((r.dropWhile Char.isWhitespace).reverse.dropWhile Char.isWhitespace).reverse := by
  refine ⟨r.takeWhile Char.isWhitespace, ((r.dropWhile Char.isWhitespace).reverse.takeWhile Char.isWhitespace).reverse, ?_, ?_, ?_, ?_⟩
  · rw [List.append_assoc, ← List.reverse_append, List.takeWhile_append_dropWhile, List.reverse_reverse,
      List.takeWhile_append_dropWhile]
  · intro c hc
    simp only [List.mem_append, List.mem_reverse] at hc
    rcases hc with hc | hc
    · exact takeWhile_all _ _ c hc
    · exact takeWhile_all _ _ c hc
  · intro c hc
    have h1 := head?_dropWhile Char.isWhitespace r
    generalize r.dropWhile Char.isWhitespace = m at *
    have h2 : m = (m.reverse.dropWhile Char.isWhitespace).reverse ++ (m.reverse.takeWhile Char.isWhitespace).reverse := by
      rw [← List.reverse_append, List.takeWhile_append_dropWhile, List.reverse_reverse]
    apply h1
    rw [h2, List.head?_append]
    cases h3 : ((m.reverse.dropWhile Char.isWhitespace).reverse).head? with
    | none => rw [h3] at hc; simp at hc
    | some d => rw [h3] at hc; simpa using hc
  · intro c hc
    rw [List.getLast?_reverse] at hc
    exact head?_dropWhile _ _ c hc

/-- **C52**, label: a configured left-hand side `name = label` is shown as the text after the first `=` without the
white space around it; without `=` and for an empty label it is `u_t`. -/
theorem C52_label (a r : Name) (ha : '=' ∉ a) :
    (inferLhs none = "u_t".toList ∧ inferLhs (some a) = "u_t".toList) ∧
    ∃ s, StripOf r s ∧ inferLhs (some (a ++ '=' :: r)) = if s = [] then "u_t".toList else s := by
  have hd : ∀ l : Name, '=' ∉ l → l.dropWhile (· != '=') = [] := by
    intro l
    induction l with
    | nil => intro _; rfl
    | cons c l ih =>
      intro hc
      simp only [List.mem_cons, not_or] at hc
      rw [List.dropWhile_cons_of_pos (by simp; exact fun h => hc.1 h.symm)]
      exact ih hc.2
  have hd2 : ∀ l : Name, '=' ∉ l → (l ++ '=' :: r).dropWhile (· != '=') = '=' :: r := by
    intro l
    induction l with
    | nil => intro _; simp
    | cons c l ih =>
      intro hc
      simp only [List.mem_cons, not_or] at hc
      rw [List.cons_append, List.dropWhile_cons_of_pos (by simp; exact fun h => hc.1 h.symm)]
      exact ih hc.2
  refine ⟨⟨rfl, by simp [inferLhs, hd a ha]⟩, _, stripOf_spec r, ?_⟩
  simp only [inferLhs, hd2 a ha, List.isEmpty_iff]

example : inferLhs (some "lhs = v_t ".toList) = "v_t".toList ∧ inferLhs (some "lhs =  ".toList) = "u_t".toList ∧
    inferLhs (some "v_t".toList) = "u_t".toList := by decide +kernel

end Verif.Claims
