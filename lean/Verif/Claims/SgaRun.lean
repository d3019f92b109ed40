import Verif.Sga.Run
import Verif.Claims.SgaSearch
import Verif.Claims.Regress
/-!
# C176: a whole SGA run
-/
namespace Verif.Claims
open Verif.Sga

/-- `a <= b` on floats: false with a NaN. -/
def pyLe {S : Type} (o : ScoreOrd S) (a b : S) : Bool := o.le a b && !o.nan b

/-- What is assumed of the regression: scores are compared as floats, one coefficient for `u` and one per column, and the dense fit of finite columns
has a score (not NaN). -/
structure RegOk {V T S : Type} (env : Env V S) (r : Reg V T S) : Prop where
  cmp : ∀ cols, (r.search cols).le = pyLe env.ord
  dense_len : ∀ cols, (r.search cols).dense.length = cols.length + 1
  str_len : ∀ cols tol, ((r.search cols).str tol).length = cols.length + 1
  dense_num : ∀ cols, (∀ v ∈ cols, env.finite v = true) → env.ord.nan ((r.search cols).score (r.search cols).dense) = false

theorem trainLoop_num {W T S : Type} {o : ScoreOrd S} (ho : o.Ok) (s : Search W T S) (hc : s.le = pyLe o) : ∀ (n it : Nat) (tol dtol : T) (wb : W),
    o.nan (s.score wb) = false →
    let r := trainLoop s it n tol dtol wb (s.score wb)
    (r.1 = wb ∨ r.1 ∈ r.2.2) ∧ r.2.1 = s.score r.1 ∧ o.nan r.2.1 = false ∧ o.le r.2.1 (s.score wb) = true ∧ (∀ w ∈ r.2.2, o.le r.2.1 (s.score w) = true) ∧
      ∀ w ∈ r.2.2, ∃ t, w = s.str t := by
  intro n
  induction n with
  | zero =>
    intro it tol dtol wb hb
    exact ⟨Or.inl rfl, rfl, hb, by rcases ho.total (s.score wb) (s.score wb) with h | h <;> exact h, by simp [trainLoop], by simp [trainLoop]⟩
  | succ n ih =>
    intro it tol dtol wb hb
    simp only [trainLoop]
    by_cases hl : s.le (s.score (s.str tol)) (s.score wb) = true
    · rw [if_pos hl]
      rw [hc] at hl
      simp only [pyLe, Bool.and_eq_true] at hl
      have hn : o.nan (s.score (s.str tol)) = false := by
        cases h : o.nan (s.score (s.str tol)) with
        | false => rfl
        | true => rw [ho.nan_top _ _ h hl.1] at hb; nomatch hb
      obtain ⟨a1, a2, a3, a4, a5, a6⟩ := ih (it + 1) (s.up tol dtol) dtol (s.str tol) hn
      refine ⟨?_, a2, a3, ho.trans _ _ _ a4 hl.1, ?_, ?_⟩
      · rcases a1 with h | h
        · right; simp [h]
        · right; simp [h]
      · intro w hw
        rcases List.mem_cons.1 hw with rfl | hw
        · exact a4
        · exact a5 w hw
      · intro w hw
        rcases List.mem_cons.1 hw with rfl | hw
        · exact ⟨_, rfl⟩
        · exact a6 w hw
    · rw [if_neg hl]
      obtain ⟨a1, a2, a3, a4, a5, a6⟩ := ih (it + 1) (s.down it tol dtol).1 (s.down it tol dtol).2 wb hb
      refine ⟨?_, a2, a3, a4, ?_, ?_⟩
      · rcases a1 with h | h
        · exact Or.inl h
        · right; simp [h]
      · intro w hw
        rcases List.mem_cons.1 hw with rfl | hw
        · rw [hc] at hl
          simp only [pyLe, hb, Bool.not_false, Bool.and_true] at hl
          rcases ho.total (s.score wb) (s.score (s.str tol)) with h | h
          · exact ho.trans _ _ _ a4 h
          · exact absurd h hl
        · exact a5 w hw
      · intro w hw
        rcases List.mem_cons.1 hw with rfl | hw
        · exact ⟨_, rfl⟩
        · exact a6 w hw

/-- **C31**, with float comparison: if the dense fit has a score, the returned coefficients were scored, the returned score is theirs and a number, and
it is the least of all scores (NaN counting as largest). -/
theorem C31_float {W T S : Type} {o : ScoreOrd S} (ho : o.Ok) (s : Search W T S) (hc : s.le = pyLe o) (hd : o.nan (s.score s.dense) = false)
    (maxit : Nat) (dtol : T) :
    let r := train s maxit dtol
    r.1 ∈ r.2.2 ∧ r.2.1 = s.score r.1 ∧ o.nan r.2.1 = false ∧ (∀ w ∈ r.2.2, o.le r.2.1 (s.score w) = true) ∧
      (∀ w ∈ r.2.2, w = s.dense ∨ ∃ t, w = s.str t) := by
  obtain ⟨a1, a2, a3, a4, a5, a6⟩ := trainLoop_num ho s hc maxit 0 dtol dtol s.dense hd
  refine ⟨?_, a2, a3, ?_, ?_⟩
  · rcases a1 with h | h
    · simp [train, h]
    · simp [train, h]
  · intro w hw
    rcases List.mem_cons.1 hw with rfl | hw
    · exact a4
    · exact a5 w hw
  · intro w hw
    rcases List.mem_cons.1 hw with rfl | hw
    · exact Or.inl rfl
    · exact Or.inr (a6 w hw)

/-! ## Every text in the library is that of a scored candidate, and the population has a score at least as good -/

def Covered {V S : Type} (env : Env V S) (st : Pop S) : Prop :=
  ∀ x ∈ st.lib, ∃ q s, visualize q = x ∧ Belongs env q s ∧ ∃ m ∈ st.mses, env.ord.le m s = true

theorem offer_covered {V S : Type} {env : Env V S} (he : EnvOk env) {st st' : Pop S} (hc : Covered env st) {p : Ind} (hp : IndOk env p)
    (h : offer env st p = .ok st') : Covered env st' := by
  unfold offer at h
  split at h
  · injection h with h; subst h; exact hc
  · obtain ⟨p', s, h1, h2⟩ := evaluate_belongs he hp
    rw [h1] at h
    injection h with h
    subst h
    intro x hx
    rcases List.mem_append.1 hx with hx | hx
    · obtain ⟨q, s', a1, a2, m, a3, a4⟩ := hc x hx
      exact ⟨q, s', a1, a2, m, List.mem_append_left _ a3, a4⟩
    · have : x = visualize p' := by simpa using hx
      subst this
      exact ⟨p', s, rfl, h2, s, by simp, by rcases he.ord.total s s with h | h <;> exact h⟩

theorem keep_covered {V S : Type} {env : Env V S} (he : EnvOk env) {n k : Nat} {st st' : Pop S} (hp : PopOk env n st) (hk : k ≤ n) (hk0 : 0 < k)
    (hc : Covered env st) (h : keepBest env k st = .ok st') : Covered env st' := by
  obtain ⟨st1, k1, p1, l1, rest, r1, r2⟩ := keepBest_ok he hp hk
  rw [k1] at h
  injection h with h; subst h
  have hnn : st1.mses ≠ [] := by intro h0; have := p1.mses; rw [h0] at this; simp at this; omega
  have hnw := sorted_notWorse he.ord r1 r2 hnn
  intro x hx
  rw [l1] at hx
  obtain ⟨q, s', a1, a2, m, a3, a4⟩ := hc x hx
  obtain ⟨m', b1, b2⟩ := hnw m a3
  exact ⟨q, s', a1, a2, m', b1, he.ord.trans _ _ _ b2 a4⟩

theorem crossLoop_covered {V S : Type} {env : Env V S} (he : EnvOk env) (ix : Nat → Nat × Nat) : ∀ (ps : List (Ind × Ind))
    (k : Nat) (st st' : Pop S), Covered env st → (∀ ab ∈ ps, IndOk env ab.1 ∧ IndOk env ab.2) → crossLoop env ix k ps st = .ok st' → Covered env st' := by
  intro ps
  induction ps with
  | nil => intro k st st' h _ h'; simp [crossLoop] at h'; subst h'; exact h
  | cons ab ps ih =>
    intro k st st' h hi h'
    simp only [crossLoop] at h'
    cases hx : crossPair ab.1 ab.2 (ix k) with
    | error f => rw [hx] at h'; nomatch h'
    | ok nn =>
      obtain ⟨na, nb⟩ := nn
      obtain ⟨i1, i2⟩ := crossPair_ok (hi ab (by simp)).1 (hi ab (by simp)).2 _ hx
      rw [hx] at h'
      simp only at h'
      cases h1 : offer env st na with
      | error f => rw [h1] at h'; nomatch h'
      | ok st1 =>
        rw [h1] at h'
        simp only at h'
        cases h2 : offer env st1 nb with
        | error f => rw [h2] at h'; nomatch h'
        | ok st2 =>
          rw [h2] at h'
          exact ih _ _ _ (offer_covered he (offer_covered he h i1 h1) i2 h2) (fun ab hab => hi ab (by simp [hab])) h'

theorem changeLoop_covered {V S : Type} {env : Env V S} (he : EnvOk env) (copy : List Ind) (hcopy : ∀ p ∈ copy, IndOk env p)
    (ds : Nat → ChangeDraw) (hd : ∀ i, (ds i).From env.ctx) : ∀ (c i : Nat) (st st' : Pop S), Covered env st →
    changeLoop env copy ds i c st = .ok st' → Covered env st' := by
  intro c
  induction c with
  | zero => intro i st st' h h'; simp [changeLoop] at h'; subst h'; exact h
  | succ c ih =>
    intro i st st' h h'
    simp only [changeLoop] at h'
    cases hp : copy[i]? with
    | none => rw [hp] at h'; nomatch h'
    | some p =>
      rw [hp] at h'
      simp only at h'
      cases hv : vary env p (ds i) with
      | error f => rw [hv] at h'; nomatch h'
      | ok p' =>
        rw [hv] at h'
        simp only at h'
        have hok := (vary_ok he (hd i) (hcopy p (List.mem_of_getElem? hp))).2 p' hv
        cases h1 : offer env st p' with
        | error f => rw [h1] at h'; nomatch h'
        | ok st1 =>
          rw [h1] at h'
          exact ih _ _ _ (offer_covered he h hok h1) h'

theorem crossOver_covered {V S : Type} {env : Env V S} (he : EnvOk env) (num numIx : Nat) (hn : 0 < num) (d : CrossDraw) {st st' : Pop S}
    (h : PopOk env num st) (hc : Covered env st) (hr : crossOver env num numIx d st = .ok st') : Covered env st' := by
  obtain ⟨st1, k1, p1, _⟩ := keepBest_ok he h (Nat.le_refl num)
  rw [← h.mses] at k1
  have c1 : Covered env st1 := keep_covered he h (by rw [h.mses]; exact Nat.le_refl _) (by rw [h.mses]; exact hn) hc k1
  simp only [crossOver, k1] at hr
  cases hg : gather (st1.eqs.take numIx) d.shuf with
  | none => rw [hg] at hr; nomatch hr
  | some reo =>
    rw [hg] at hr
    simp only at hr
    have hind : ∀ ab ∈ (st1.eqs.take numIx).zip reo, IndOk env ab.1 ∧ IndOk env ab.2 := by
      intro ab hab
      have hm := List.of_mem_zip hab
      refine ⟨pop_indOk p1 _ (List.mem_of_mem_take hm.1), pop_indOk p1 _ ?_⟩
      obtain ⟨g1, g2⟩ := gather_get hg
      obtain ⟨i, hi⟩ := List.getElem?_of_mem hm.2
      have hlt : i < d.shuf.length := by rw [← g1]; exact (List.getElem?_eq_some_iff.1 hi).1
      rw [g2 _ _ (List.getElem?_eq_getElem hlt)] at hi
      exact List.mem_of_mem_take (List.mem_of_getElem? hi)
    cases hl : crossLoop env d.ix 0 ((st1.eqs.take numIx).zip reo) st1 with
    | error f => rw [hl] at hr; nomatch hr
    | ok st2 =>
      rw [hl] at hr
      obtain ⟨m, p2, l2, q2⟩ := (crossLoop_ok he d.ix _ 0 num st1 p1 hind).1 st2 hl
      exact keep_covered he p2 l2 hn (crossLoop_covered he d.ix _ 0 _ _ c1 hind hl) hr

theorem change_covered {V S : Type} {env : Env V S} (he : EnvOk env) (num : Nat) (hn : 0 < num) (ds : Nat → ChangeDraw)
    (hd : ∀ i, (ds i).From env.ctx) {st st' : Pop S} (h : PopOk env num st) (hc : Covered env st) (hr : change env num ds st = .ok st') :
    Covered env st' := by
  obtain ⟨st1, k1, p1, _⟩ := keepBest_ok he h (Nat.le_refl num)
  rw [← h.mses] at k1
  have c1 : Covered env st1 := keep_covered he h (by rw [h.mses]; exact Nat.le_refl _) (by rw [h.mses]; exact hn) hc k1
  simp only [change, k1] at hr
  cases hl : changeLoop env st1.eqs ds 1 (num - 1) st1 with
  | error f => rw [hl] at hr; nomatch hr
  | ok st2 =>
    rw [hl] at hr
    obtain ⟨m, p2, l2, q2⟩ := (changeLoop_ok he st1.eqs (pop_indOk p1) ds hd (num - 1) 1 num st1 p1).1 st2 hl
    exact keep_covered he p2 l2 hn (changeLoop_covered he _ (pop_indOk p1) ds hd _ _ _ _ c1 hl) hr

theorem runGens_covered {V S : Type} {env : Env V S} (he : EnvOk env) (num numIx : Nat) (hn : 0 < num) :
    ∀ (gs : List GenRound) (st st' : Pop S), (∀ g ∈ gs, RoundFrom env num numIx g) → PopOk env num st → Covered env st →
      runGens env num numIx gs st = .ok st' → Covered env st' := by
  intro gs
  induction gs with
  | nil => intro st st' _ _ hc h; simp [runGens] at h; subst h; exact hc
  | cons g gs ih =>
    intro st st' hg hp hc h
    simp only [runGens] at h
    cases h1 : crossOver env num numIx g.cross st with
    | error f => rw [h1] at h; nomatch h
    | ok st1 =>
      rw [h1] at h
      simp only at h
      have p1 := ((crossOver_spec he num numIx hn g.cross hp).1 st1 h1).1
      cases h2 : change env num g.change st1 with
      | error f => rw [h2] at h; nomatch h
      | ok st2 =>
        rw [h2] at h
        have hgd := (hg g (by simp)).change
        have p2 := ((change_spec he num hn g.change hgd p1).1 st2 h2).1
        exact ih _ _ (fun g' hg' => hg g' (by simp [hg'])) p2
          (change_covered he num hn _ hgd p1 (crossOver_covered he num numIx hn _ hp hc h1) h2) h

theorem initAll_lib {V S : Type} {env : Env V S} : ∀ (ds : List (List NewDraw)) (st : Pop S), initAll env ds = .ok st → st.lib = [] := by
  intro ds
  induction ds with
  | nil => intro st h; simp [initAll] at h; subst h; rfl
  | cons d ds ih =>
    intro st h
    simp only [initAll] at h
    split at h
    · nomatch h
    · split at h
      · nomatch h
      · rename_i st1 h1
        injection h with h; subst h
        exact ih st1 h1

theorem initPop_lib {V S : Type} {env : Env V S} (ds : List (List NewDraw)) (st : Pop S) (h : initPop env ds = .ok st) : st.lib = [] := by
  unfold initPop at h
  split at h
  · nomatch h
  · rename_i st1 h1
    unfold keepBest at h
    split at h
    · injection h with h; subst h; exact initAll_lib ds st1 h1
    · nomatch h

theorem belongs_num {V T S : Type} {env : Env V S} {r : Reg V T S} (he : EnvOk (env.withReg r)) (hr : RegOk env r) {q : Ind} {s : S}
    (h : Belongs (env.withReg r) q s) : env.ord.nan s = false := by
  have hw := h.score
  rw [evaluate_eq he h.ok] at hw
  injection hw with hw
  have h1 := congrArg Prod.snd hw
  simp only at h1
  rw [← h1]
  unfold scoreOf
  split
  · exact he.ord.inf_num
  · rename_i hb
    simp only [Bool.not_eq_true, Bool.or_eq_false_iff] at hb
    exact (C31_float he.ord (r.search _) (hr.cmp _) (hr.dense_num _ (by
      intro v hv
      have := List.any_eq_false.1 hb.2 v hv
      have h2 : (env.withReg r).finite v = true := by simpa using this
      exact h2)) r.maxit r.dtol).2.2.1

/-- Nothing random goes wrong: draws from the tables, shuffles of the right size. -/
structure DrawsOk {V S : Type} (env : Env V S) (numIx : Nat) (ds : List (List NewDraw)) (gs : List GenRound) : Prop where
  init : ∀ c ∈ ds, ∀ d ∈ c, ∀ rd ∈ d, rd.1 ∈ env.ctx.ROOT ∧ ∀ l k, (rd.2 l k).From env.ctx
  gens : ∀ g ∈ gs, RoundFrom env ds.length numIx g

/-- The terms of an equation with their coefficients: the default term `u` and the given terms. -/
def library (ts : List Levels) : List (Name × Src) := (['u'], .dflt) :: ts.map fun t => (((inorder t).getD "").toList, .gen t)

/-- **C176.** A run with a population of at least one never raises an exception of its own.  If it ends, the answer belongs to one candidate `p`: its
text and score are reported; all its terms are terms of the problem, each with a finite, nonzero column; the reported score is that of the coefficients
fitted on exactly these columns, the least score of all coefficient vectors the regression tried; the reported details are the default term and the terms
of `p`, each with its own fitted coefficient, without those below the tolerance; and neither a candidate of the first population nor any
candidate scored later (the texts of all of them are kept) has a better score. -/
theorem C176_run {V T S : Type} {env : Env V S} {r : Reg V T S} (he : EnvOk (env.withReg r)) (hr : RegOk env r) (tol : Fl) (numIx : Nat)
    (ds : List (List NewDraw)) (gs : List GenRound) (hn : 0 < ds.length) (hd : DrawsOk env numIx ds gs) :
    solve env r tol numIx ds gs ≠ .error .raised ∧
    ∀ a, solve env r tol numIx ds gs = .ok a → ∃ (p : Ind) (cols : List V),
      a.text = visualize p ∧ (∀ t ∈ p.elements, Reach env.ctx env.depth t) ∧ cols ≠ [] ∧ p.elements.map (termCol env.sem) = cols.map some ∧
      (∀ v ∈ cols, env.finite v = true) ∧
      (r.run cols).1 ∈ (r.run cols).2.2 ∧ a.score = (r.search cols).score (r.run cols).1 ∧
      (∀ w ∈ (r.run cols).2.2, env.ord.le a.score ((r.search cols).score w) = true) ∧ (r.run cols).1.length = p.elements.length + 1 ∧
      a.details = some ((((library p.elements).zip (r.run cols).1).filter fun q => sig tol q.2).map fun q => ⟨q.1.1, q.1.2, q.2⟩) ∧
      (∀ st0, initPop (env.withReg r) ds = .ok st0 → ∀ m ∈ st0.mses, env.ord.le a.score m = true) ∧
      (∀ x ∈ a.last.lib, ∃ q s, visualize q = x ∧ Belongs (env.withReg r) q s ∧ env.ord.le a.score s = true) := by
  obtain ⟨i1, i2⟩ := C22_start he ds hd.init
  have hgens : ∀ g ∈ gs, RoundFrom (env.withReg r) ds.length numIx g := fun g hg => ⟨(hd.gens g hg).shuf, (hd.gens g hg).change⟩
  unfold solve
  cases h0 : initPop (env.withReg r) ds with
  | error f => rw [h0] at i1; exact ⟨by simpa using i1, fun _ h => nomatch h⟩
  | ok st0 =>
    obtain ⟨p0, hi0, _⟩ := i2 st0 h0
    have hfin : Finite (env.withReg r).ord st0.mses := by
      intro m hm
      refine ⟨?_, hi0 m hm⟩
      obtain ⟨i, hi⟩ := List.getElem?_of_mem hm
      have hlt : i < st0.eqs.length := by rw [p0.eqs, ← p0.mses]; exact (List.getElem?_eq_some_iff.1 hi).1
      exact belongs_num he hr (p0.each i _ m (List.getElem?_eq_getElem hlt) hi)
    obtain ⟨n1, n2⟩ := C22_never_raises he ds.length numIx hn gs st0 hgens p0 hfin
    simp only
    cases h1 : runGens (env.withReg r) ds.length numIx gs st0 with
    | error f => rw [h1] at n1; exact ⟨by simpa using n1, fun _ h => nomatch h⟩
    | ok st =>
      obtain ⟨pst, hnw⟩ := C22_elitist he ds.length numIx hn gs st0 st hgens p0 h1
      obtain ⟨p, s, b1, b2, b3, b4⟩ := C22_best he ds.length hn pst (n2 st h1)
      have b1 : theBest env.ord st = some (p, s) := b1
      simp only [b1]
      refine ⟨by simp, ?_⟩
      intro a ha
      injection ha with ha
      subst ha
      have hsinf : env.ord.isInf s = false := by
        obtain ⟨i, hi⟩ := List.getElem?_of_mem b2
        have hlt : i < st.mses.length := by rw [pst.mses, ← pst.eqs]; exact (List.getElem?_eq_some_iff.1 hi).1
        have hm := n2 st h1 _ (List.getElem_mem hlt)
        have hle := b4 _ (List.getElem_mem hlt)
        cases hb : env.ord.isInf s with
        | false => rfl
        | true =>
          have := bad_up he.ord _ _ hle (by simp only [badScore, Bool.or_eq_true]; exact Or.inr hb)
          simp only [badScore, hm.1, hm.2] at this
          nomatch this
      obtain ⟨cols, c1, c2, c3, c4⟩ := C22_usable he b3 hsinf
      have c2 : p.elements.map (termCol env.sem) = cols.map some := c2
      obtain ⟨f1, f2, f3, f4, f5⟩ := C31_float he.ord (r.search cols) (hr.cmp cols) (hr.dense_num cols c3) r.maxit r.dtol
      have hsc : s = (r.search cols).score (r.run cols).1 := by rw [c4]; exact f2
      have hlen : (r.run cols).1.length = p.elements.length + 1 := by
        have hcl : cols.length = p.elements.length := by simpa using (congrArg List.length c2).symm
        rcases f5 _ f1 with h | ⟨t, h⟩
        · show (train (r.search cols) r.maxit r.dtol).1.length = _
          rw [h, hr.dense_len, hcl]
        · show (train (r.search cols) r.maxit r.dtol).1.length = _
          rw [h, hr.str_len, hcl]
      refine ⟨p, cols, rfl, b3.terms, c1, c2, c3, f1, hsc, ?_, hlen, ?_, ?_, ?_⟩
      · intro w hw
        have := f4 w hw
        show env.ord.le s _ = true
        rw [c4]
        exact this
      · show detailsOf env r tol p = _
        unfold detailsOf
        have hal := C21_aligned env.sem env.ctx he.ctx he.xden env.depth he.depth he.den p.elements b3.terms
        rw [hal]
        have hall : (p.elements.filter fun t => (termCol env.sem t).isSome) = p.elements := by
          apply List.filter_eq_self.2
          intro t ht
          have : termCol env.sem t ∈ p.elements.map (termCol env.sem) := List.mem_map_of_mem ht
          rw [c2] at this
          obtain ⟨v, _, hv⟩ := List.mem_map.1 this
          rw [← hv]; rfl
        rw [hall]
        simp only [map_strip_fresh]
        have hcols : (p.elements.map (termCol env.sem)).filterMap id = cols := by
          rw [c2, List.filterMap_map]; simp
        rw [hcols]
        have hco : coefsOf env r cols = (r.run cols).1 := by
          unfold coefsOf
          rw [if_neg]
          simp only [Bool.or_eq_true, List.isEmpty_iff, List.any_eq_true, not_or]
          refine ⟨c1, ?_⟩
          rintro ⟨v, hv, hv'⟩
          rw [show env.finite v = true from c3 v hv] at hv'
          nomatch hv'
        rw [hco]
        exact congrArg some (C36_extract_partial tol [['u']] p.elements _ (by simp; omega))
      · intro st0' h0' m hm
        injection h0' with h0'
        subst h0'
        obtain ⟨m', hm', hle⟩ := hnw m hm
        exact he.ord.trans _ _ _ (b4 m' hm') hle
      · intro x hx
        have hc0 : Covered (env.withReg r) st0 := by
          intro y hy
          rw [initPop_lib ds st0 h0] at hy
          nomatch hy
        obtain ⟨q, s', a1, a2, m, a3, a4⟩ := runGens_covered he ds.length numIx hn gs st0 st hgens p0 hc0 h1 x hx
        exact ⟨q, s', a1, a2, he.ord.trans _ _ _ (b4 m a3) a4⟩

/-- **C176**, display: the equation shown for the answer reads as the default term and the terms of `p` whose coefficient is nonzero and
reaches the tolerance, each with its sign; `0` without such a term. -/
theorem C176_shown {V T S : Type} {env : Env V S} {r : Reg V T S} (he : EnvOk (env.withReg r)) (hr : RegOk env r) (htex : env.ctx.TexOk) (tol : Fl)
    (numIx : Nat) (ds : List (List NewDraw)) (gs : List GenRound) (hn : 0 < ds.length) (hd : DrawsOk env numIx ds gs) (a : Answer S)
    (h : solve env r tol numIx ds gs = .ok a) {fmt : Fl → Name} (hf : FmtOk fmt) (lo hi : Fl) (wc lz : Bool) (lhs : Name) :
    ∃ (p : Ind) (cols : List V) (ts : List EqTerm) (rhs : Name), a.text = visualize p ∧ p.elements.map (termCol env.sem) = cols.map some ∧ a.details = some ts ∧
      toLatex fmt lo hi wc lz lhs ts = sanitize lhs ++ " = ".toList ++ rhs ∧
      ((((['u'] :: p.elements.map (texOf lz)).zip (r.run cols).1).filter fun q => sig tol q.2 && !q.2.isZero) = [] → rhs = ['0']) ∧
      ((((['u'] :: p.elements.map (texOf lz)).zip (r.run cols).1).filter fun q => sig tol q.2 && !q.2.isZero) ≠ [] →
        All2 (ShownAs fmt lo hi wc) (((['u'] :: p.elements.map (texOf lz)).zip (r.run cols).1).filter fun q => sig tol q.2 && !q.2.isZero)
          (readRhs rhs)) := by
  obtain ⟨p, cols, h1, h2, _, h4, _, _, _, _, h9, h10, _⟩ := (C176_run he hr tol numIx ds gs hn hd).2 a h
  obtain ⟨rhs, r1, r2, r3⟩ := C36_shown env.ctx he.ctx he.xden htex env.depth he.depth p.elements h2 (r.run cols).1 h9 hf lo hi tol wc lz lhs
  refine ⟨p, cols, _, rhs, h1, h4, h10, ?_, r2, r3⟩
  rw [← r1]
  congr 1
  exact (C36_extract_partial tol [['u']] p.elements _ (by simp; omega)).symm

/-! ## C177: exact equations and the first population -/

theorem initOne_notTooGood {V S : Type} {env : Env V S} : ∀ (ds : List NewDraw) (p : Ind) (s : S), initOne env ds = .ok (p, s) → env.ord.tooGood s = false := by
  intro ds
  induction ds with
  | nil => intro p s h; nomatch h
  | cons d ds ih =>
    intro p s h
    simp only [initOne] at h
    split at h
    · nomatch h
    · split at h
      · exact ih p s h
      · rename_i p' s' _ hc
        injection h with h
        injection h with h1 h2
        subst h2
        cases ht : env.ord.tooGood s' with
        | false => rfl
        | true => rw [ht] at hc; simp at hc

/-- **C177** fails for the first population: a candidate with a score below -100 is thrown away, however often it is drawn. -/
theorem C177_first_discards {V S : Type} {env : Env V S} (ds : List (List NewDraw)) (st : Pop S) (h : initPop env ds = .ok st) :
    ∀ m ∈ st.mses, env.ord.tooGood m = false := by
  have main : ∀ (ds : List (List NewDraw)) (st : Pop S), initAll env ds = .ok st → ∀ m ∈ st.mses, env.ord.tooGood m = false := by
    intro ds
    induction ds with
    | nil => intro st h; simp [initAll] at h; subst h; simp
    | cons d ds ih =>
      intro st h
      simp only [initAll] at h
      split at h
      · nomatch h
      · rename_i p s h0
        split at h
        · nomatch h
        · rename_i st1 h1
          injection h with h; subst h
          intro m hm
          rcases List.mem_cons.1 hm with rfl | hm
          · exact initOne_notTooGood _ _ _ h0
          · exact ih st1 h1 m hm
  unfold initPop at h
  split at h
  · nomatch h
  · rename_i st1 h1
    unfold keepBest at h
    split at h
    · rename_i e m' _ hg
      injection h with h; subst h
      obtain ⟨g1, g2⟩ := gather_get hg
      intro m hm
      obtain ⟨i, hi⟩ := List.getElem?_of_mem hm
      have hlt : i < ((env.argsort st1.mses).take ds.length).length := by rw [← g1]; exact (List.getElem?_eq_some_iff.1 hi).1
      rw [g2 _ _ (List.getElem?_eq_getElem hlt)] at hi
      exact main ds st1 h1 m (List.mem_of_getElem? hi)
    · nomatch h

/-! ## A concrete run

The environment and the draws of C22; the regression tries the dense fit (ones) and one that drops `u`; the score is the sum of the columns plus the number of
nonzero coefficients. -/

def exRegSearch (cols : List Int) : Search (List Fl) Nat (Option Int) where
  dense := List.replicate (cols.length + 1) (.fin 1)
  str _ := .fin 0 :: List.replicate cols.length (.fin 1)
  score w := some (cols.sum + (w.countP fun c => !c.isZero))
  le := pyLe exOrd
  up a b := a + b
  down _ a b := (a, b)

def exReg : Reg Int Nat (Option Int) := ⟨exRegSearch, 2, 1⟩

theorem exReg_ok : RegOk exEnvS exReg :=
  ⟨fun _ => rfl, fun cols => by simp [exReg, exRegSearch], fun cols t => by simp [exReg, exRegSearch], fun _ _ => rfl⟩

theorem exRun_ok : EnvOk (exEnvS.withReg exReg) :=
  ⟨exEnvS_ok.ctx, exEnvS_ok.xden, exEnvS_ok.den, exEnvS_ok.depth, exEnvS_ok.ord, exEnvS_ok.sort⟩

theorem exDraws_ok : DrawsOk exEnvS 2 exInit [exRound] := by
  have hf : ∀ d k, (exDraw d k).From exCtx := by
    intro d k
    refine ⟨by simp only [exDraw]; decide, by simp only [exDraw]; decide, ?_⟩
    simp only [exDraw]
    split <;> decide
  have hf2 : ∀ d k, (exDraw2 d k).From exCtx := by
    intro d k
    refine ⟨by simp only [exDraw2]; decide, by simp only [exDraw2]; decide, by simp only [exDraw2]; decide⟩
  refine ⟨?_, fun g hg => ?_⟩
  · intro c hc d hd rd hrd
    simp [exInit] at hc
    rcases hc with rfl | rfl
    · simp at hd; subst hd; simp at hrd; subst hrd
      exact ⟨by decide, hf⟩
    · simp at hd; subst hd; simp at hrd
      rcases hrd with rfl | rfl
      · exact ⟨by decide, hf2⟩
      · exact ⟨by decide, hf2⟩
  · have : g = exRound := by simpa using hg
    subst this
    refine ⟨by decide, fun i => ⟨?_, by simp only [exRound]; decide, ?_⟩⟩
    · intro i l k
      refine ⟨?_, ?_, ?_⟩ <;> (simp only [exRound, exMut]; decide)
    · intro l k
      refine ⟨?_, ?_, ?_⟩ <;> (simp only [exRound]; decide)

/-- With scores lowered by 210 the candidate `v d x` has score -110: it is drawn first and thrown away, the worse second draw is kept. -/
theorem C177_concrete : let e : Env Int (Option Int) := { exEnvS with train := fun cols => some (cols.sum - 210) }
    (match evaluate e (newInd e [(opDiv, exDraw2), (opD, exDraw2)]) with
      | .ok (p, s) => (visualize p, s)
      | .error _ => ("", none)) = ("(v d x)", some (-110)) ∧
    (match initPop e [[[(opDiv, exDraw2), (opD, exDraw2)], [(opMul, exDraw)]]] with
      | .ok st => (st.eqs.map visualize, st.mses)
      | .error _ => ([], [])) = (["(u * ((u d^2 y) d y))"], [some 999]) := by
  decide

/-- The run ends with the square of `u` found by replacement, without the default term. -/
theorem C176_concrete : (match solve exEnvS exReg (.fin (1 / 100000)) 2 exInit [exRound] with
    | .ok a => (a.text, a.score, (a.details.getD []).map fun t => (String.ofList t.label, t.coef), a.last.lib)
    | .error _ => ("", none, [], [])) =
    ("( ^2 u)", some 10, [("( ^2 u)", .fin 1)], ["(u * ((u d^2 y) d y))", "(v d x)", "( ^2 u)"]) := by
  with_unfolding_all rfl

end Verif.Claims
