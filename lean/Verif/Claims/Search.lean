import Verif.Discover.Search
import Verif.Claims.Sampling
import Verif.Claims.Complete
import Verif.Claims.Cache
import Verif.Claims.Searcher
import Verif.Claims.Tokens
/-!
# C174: a whole search of DISCOVER
-/
namespace Verif.Discover.Search.Claims
open Verif.Discover Verif.Discover.Search Verif.Discover.Searcher Verif.Discover.Searcher.Claims Verif.Discover.Claims Tree

/-! ## Sampled expressions obey the constraints -/

/-- A relational constraint whose mask is complete: its tokens belong to the library, and a descendant constraint has unary effectors (C05). -/
def SoundRel (lib : Lib) (c : Relational) : Prop := c.InLib lib ∧ (c.rel = .descendant → ∀ e ∈ c.effectors, lib.arity e = 1)

/-- The constraints that are enforced during sampling of rows of length `L`. -/
def Sound (lib : Lib) (L : Nat) : Prior → Prop
  | .relational c => SoundRel lib c
  | .inverse cs => ∀ c ∈ cs, SoundRel lib c
  | .length mn mx => (∃ m, mn = some m) ∧ ∀ m, mx = some m → m = L
  | .repeat _ mx => 1 ≤ mx
  | .noInputs => True
  | .soft _ _ => True

theorem sampled_inverse {lib : Lib} {ps : List Prior} {cs : List Relational} {c : Relational} (hps : Prior.inverse cs ∈ ps) (hc : c ∈ cs)
    {xs : List Nat} {obs : Obs} {prior : Nat → Logit} (h : Sampled lib ps xs obs prior) :
    ∃ prior', Sampled lib (Prior.relational c :: ps) xs obs prior' ∧ ∀ t, prior' t = none ↔ prior t = none := by
  induction h with
  | start =>
    refine ⟨_, Sampled.start, fun t => ?_⟩
    rw [jointInitial_none, jointInitial_none]
    constructor
    · rintro ⟨p, hp, h⟩
      rcases List.mem_cons.1 hp with rfl | hp
      · nomatch h
      · exact ⟨p, hp, h⟩
    · rintro ⟨p, hp, h⟩; exact ⟨p, List.mem_cons_of_mem _ hp, h⟩
  | step h tok hL hp ih =>
    obtain ⟨prior', h', e⟩ := ih
    refine ⟨_, Sampled.step h' tok hL (fun hn => hp ((e tok).1 hn)), fun t => ?_⟩
    unfold nextPrior
    rw [jointCall_none, jointCall_none]
    constructor
    · rintro ⟨p, hp, h⟩
      rcases List.mem_cons.1 hp with rfl | hp
      · refine ⟨_, hps, ?_⟩
        simp only [Prior.call] at h ⊢
        rw [foldl_add_eq_none]
        exact Or.inr ⟨c, hc, h⟩
      · exact ⟨p, hp, h⟩
    · rintro ⟨p, hp, h⟩; exact ⟨p, List.mem_cons_of_mem _ hp, h⟩

theorem relational_obeyed (lib : Lib) (ps : List Prior) (h2 : ∀ t, lib.arity t ≤ 2) (c : Relational) (hc : Prior.relational c ∈ ps) (hs : SoundRel lib c)
    {xs : List Nat} {obs : Obs} {prior : Nat → Logit} (h : Sampled lib ps xs obs prior)
    (t : Tree) (hw : WF lib.arity t) (hpre : t.preorder <+: xs) : ¬ c.rel.Forbidden c.targets c.effectors t := by
  by_cases hr : c.rel = .descendant
  · rw [hr]; exact C06_descendant_unary lib ps h2 c hc hr (hs.2 hr) h t hw hpre
  · exact C06_relational lib ps h2 c hc hs.1 hr h t hw hpre

theorem root_operator {lib : Lib} {t : Tree} (hw : WF lib.arity t) (h : 2 ≤ t.preorder.length) : 0 < lib.arity t.root := by
  obtain ⟨k, cs⟩ := t
  rw [WF] at hw
  rw [root_node, ← hw.1]
  cases cs with
  | nil => simp [preorder, preorderL] at h
  | cons c cs => simp

/-- **C174** (soundness of the masks, all constraints together): the expression of a full row obeys every constraint of the list. -/
theorem C174_row_obeys (lib : Lib) (ps : List Prior) (h2 : ∀ t, lib.arity t ≤ 2) (mn L : Nat) (hL : 3 ≤ L) (hlen : Prior.length (some mn) (some L) ∈ ps)
    (hps : ∀ p ∈ ps, Sound lib L p) {xs : List Nat} {obs : Obs} {prior : Nat → Logit} (h : Sampled lib ps xs obs prior) (hx : xs.length = L)
    (choice : Nat → Nat) :
    ∃ t : Tree, WF lib.arity t ∧ finishTokens lib.arity 1 choice xs = some t.preorder ∧ t.preorder <+: xs ∧ ∀ p ∈ ps, Obeys lib t p := by
  obtain ⟨t, hw, hfin, hpre, hle⟩ := C08_max_length lib ps h2 (some mn) L hL hlen h hx choice
  have h2l := (C08_min_length lib ps mn (some L) hlen h t hw hpre).2
  refine ⟨t, hw, hfin, hpre, fun p hp => ?_⟩
  have hs := hps p hp
  cases p with
  | relational c => exact relational_obeyed lib ps h2 c hp hs h t hw hpre
  | length a b =>
    obtain ⟨⟨m, rfl⟩, hb⟩ := hs
    refine ⟨h2l, fun m' hm' => ?_, fun m' hm' => ?_⟩
    · cases hm'; exact (C08_min_length lib ps m b hp h t hw hpre).1
    · rw [hb m' hm']; exact hle
  | «repeat» toks mx =>
    have hr := C09_repeat lib ps toks mx hs hp h
    obtain ⟨q, rfl⟩ := hpre
    simp only [List.filter_append, List.length_append, List.contains_eq_mem] at hr
    simp only [Obeys]
    omega
  | noInputs =>
    obtain ⟨i, hi, tok, ht, k, hk⟩ := C10_mentions_state lib ps hp h t hw hpre (root_operator hw h2l)
    exact ⟨i, hi, Lib.mem_indices.2 ⟨tok, ht, by rw [hk]; rfl⟩⟩
  | inverse cs =>
    intro c hc
    obtain ⟨prior', h', _⟩ := sampled_inverse hp hc h
    exact relational_obeyed lib _ h2 c List.mem_cons_self (hs c hc) h' t hw hpre
  | soft a b => trivial

/-! ## The cache over the whole search -/

/-- The request of a sampled row with completed tokens `t`. -/
def req (t : List Nat) : Request := ⟨8, t, true, false⟩

theorem requests_append (c : Cache) (a b : List Request) :
    requests c (a ++ b) = ((requests (requests c a).1 b).1, (requests c a).2 ++ (requests (requests c a).1 b).2) := by
  induction a generalizing c with
  | nil => simp [requests]
  | cons r a ih => simp only [List.cons_append, requests, ih]

theorem fromRows_spec {lib : Lib} {ds : List Draw} {c c' : Cache} {os : List Nat} (h : fromRows lib c ds = some (c', os)) :
    ∃ ts : List (List Nat), ds.map (fun d => finishTokens lib.arity 1 d.filler d.tokens) = ts.map some ∧ requests c (ts.map req) = (c', os) := by
  induction ds generalizing c c' os with
  | nil =>
    simp only [fromRows, Option.some.injEq, Prod.mk.injEq] at h
    exact ⟨[], rfl, by simp [requests, h.1, h.2]⟩
  | cons d ds ih =>
    simp only [fromRows, Option.bind_eq_bind, Option.bind_eq_some_iff, Option.pure_def, Option.some.injEq, Prod.mk.injEq] at h
    obtain ⟨a, ha, b, hb, h1, h2⟩ := h
    unfold fromRow at ha
    obtain ⟨t, ht, rfl⟩ := Option.map_eq_some_iff.1 ha
    obtain ⟨ts, e1, e2⟩ := ih hb
    refine ⟨t :: ts, by simp [ht, e1], ?_⟩
    simp only [List.map_cons, requests]
    show ((requests (fromTokens c (req t)).1 (ts.map req)).1, (fromTokens c (req t)).2 :: (requests (fromTokens c (req t)).1 (ts.map req)).2) = _
    have e3 : requests (fromTokens c (req t)).1 (ts.map req) = (b.1, b.2) := e2
    rw [e3, ← h1, ← h2]
    rfl

/-- The object of the `j`-th request holds the tokens asked for. -/
theorem object_tokens (ar : Nat → Nat) (ts : List (List Nat)) (hg : ∀ t ∈ ts, GoodRequest ar (req t)) (j : Nat) (t : List Nat) (hj : ts[j]? = some t) :
    ∃ o, (requests {} (ts.map req)).2[j]? = some o ∧ ((requests {} (ts.map req)).1.objs[o]?.map (·.tokens)) = some t := by
  have hg' : ∀ r ∈ ts.map req, GoodRequest ar r := by
    intro r hr
    obtain ⟨t, ht, rfl⟩ := List.mem_map.1 hr
    exact hg t ht
  have hj' : (ts.map req)[j]? = some (req t) := by rw [List.getElem?_map, hj]; rfl
  obtain ⟨o, _, h1, _, h2, _⟩ := C16_same_object_partial ar (ts.map req) hg' j j _ _ hj' hj'
  exact ⟨o, h1, h2⟩

theorem requests_length (ar : Nat → Nat) (ts : List (List Nat)) (hg : ∀ t ∈ ts, GoodRequest ar (req t)) :
    (requests {} (ts.map req)).2.length = ts.length := by
  have hg' : ∀ r ∈ ts.map req, GoodRequest ar r := by
    intro r hr
    obtain ⟨t, ht, rfl⟩ := List.mem_map.1 hr
    exact hg t ht
  simpa using (requests_inv_nil ar (ts.map req) hg').1

/-- A sample of the searcher stands for the expression with tokens `t` in the object of request number `j`. -/
structure Stands (score : List Nat → Score) (ts : List (List Nat)) (j : Nat) (t : List Nat) (q : Sample) : Prop where
  tok : ts[j]? = some t
  obj : (requests {} (ts.map req)).2[j]? = some q.id
  reward : q.reward = (score t).reward
  invalid : q.invalid = (score t).invalid

theorem Stands.mono {score ts j t q} (h : Stands score ts j t q) (more : List (List Nat)) : Stands score (ts ++ more) j t q := by
  refine ⟨?_, ?_, h.reward, h.invalid⟩
  · rw [List.getElem?_append_left (List.getElem?_eq_some_iff.1 h.tok).1]; exact h.tok
  · rw [List.map_append, requests_append]
    simp only
    rw [List.getElem?_append_left (List.getElem?_eq_some_iff.1 h.obj).1]
    exact h.obj

/-- What the rows of an iteration become: one sample per row. -/
theorem rows_spec {lib : Lib} (score : List Nat → Score) {hist : List (List Nat)} {c c' : Cache} {os : List Nat} {ds : List Draw}
    (hc : c = (requests {} (hist.map req)).1) (hh : ∀ t ∈ hist, GoodRequest lib.arity (req t))
    (hd : ∀ d ∈ ds, ∀ t, finishTokens lib.arity 1 d.filler d.tokens = some t → GoodRequest lib.arity (req t))
    (h1 : fromRows lib c ds = some (c', os)) :
    ∃ (ts : List (List Nat)), ds.map (fun d => finishTokens lib.arity 1 d.filler d.tokens) = ts.map some ∧
      c' = (requests {} ((hist ++ ts).map req)).1 ∧ os.length = ds.length ∧
      (∀ t ∈ ts, GoodRequest lib.arity (req t)) ∧
      (∀ q ∈ os.map (sampleOf score c'), ∃ j t, t ∈ ts ∧ Stands score (hist ++ ts) j t q) ∧
      (∀ t ∈ ts, ∃ q ∈ os.map (sampleOf score c'), ∃ j, Stands score (hist ++ ts) j t q) := by
  obtain ⟨ts, e1, e2⟩ := fromRows_spec h1
  rw [hc] at e2
  have hts : ∀ t ∈ ts, GoodRequest lib.arity (req t) := by
    intro t ht
    have : some t ∈ ts.map some := List.mem_map_of_mem ht
    rw [← e1] at this
    obtain ⟨d, hdm, hf⟩ := List.mem_map.1 this
    exact hd d hdm t hf
  have hall : ∀ t ∈ hist ++ ts, GoodRequest lib.arity (req t) := by
    intro t ht
    rcases List.mem_append.1 ht with ht | ht
    · exact hh t ht
    · exact hts t ht
  have hR : requests {} ((hist ++ ts).map req) = (c', (requests {} (hist.map req)).2 ++ os) := by
    rw [List.map_append, requests_append, e2]
  have hlen0 := requests_length lib.arity hist hh
  have hlen : os.length = ts.length := by
    have := requests_length lib.arity (hist ++ ts) hall
    rw [hR] at this
    simp only [List.length_append] at this
    omega
  -- the sample of row i
  have key : ∀ i t, ts[i]? = some t → ∃ o, os[i]? = some o ∧ Stands score (hist ++ ts) (hist.length + i) t (sampleOf score c' o) := by
    intro i t hi
    have hj : (hist ++ ts)[hist.length + i]? = some t := by
      rw [List.getElem?_append_right (by omega)]
      simpa using hi
    obtain ⟨o, ho1, ho2⟩ := object_tokens lib.arity (hist ++ ts) hall _ t hj
    rw [hR] at ho1 ho2
    simp only at ho1 ho2
    rw [List.getElem?_append_right (by omega), hlen0] at ho1
    have ho : os[i]? = some o := by simpa using ho1
    refine ⟨o, ho, hj, ?_, ?_, ?_⟩
    · rw [hR]
      simp only
      rw [List.getElem?_append_right (by omega), hlen0]
      simpa [sampleOf] using ho
    · simp [sampleOf, ho2]
    · simp [sampleOf, ho2]
  have hdl : ds.length = ts.length := by simpa using congrArg List.length e1
  refine ⟨ts, e1, by rw [hR], by simp [hlen, hdl], hts, ?_, ?_⟩
  · intro q hq
    obtain ⟨o, ho, rfl⟩ := List.mem_map.1 hq
    obtain ⟨i, hi, hio⟩ := List.getElem_of_mem ho
    have hit : i < ts.length := by omega
    obtain ⟨o', h3, h4⟩ := key i ts[i] (List.getElem?_eq_getElem hit)
    rw [List.getElem?_eq_getElem hi, hio] at h3
    cases h3
    exact ⟨_, _, List.getElem_mem hit, h4⟩
  · intro t ht
    obtain ⟨i, hi, rfl⟩ := List.getElem_of_mem ht
    obtain ⟨o, h3, h4⟩ := key i ts[i] (List.getElem?_eq_getElem hi)
    exact ⟨_, List.mem_map_of_mem (List.mem_of_getElem? h3), _, h4⟩

/-- What an iteration does: the batch consists of one sample per row. -/
theorem oneStep_spec {v : Env} {lib : Lib} {score : List Nat → Score} {hist : List (List Nat)} {s s' : Cache × St} {ds : List Draw}
    (hc : s.1 = (requests {} (hist.map req)).1) (hh : ∀ t ∈ hist, GoodRequest lib.arity (req t))
    (hd : ∀ d ∈ ds, ∀ t, finishTokens lib.arity 1 d.filler d.tokens = some t → GoodRequest lib.arity (req t))
    (h : oneStep v lib score s ds = some s') :
    ∃ (ts : List (List Nat)) (b : Batch), ds.map (fun d => finishTokens lib.arity 1 d.filler d.tokens) = ts.map some ∧
      Searcher.step v s.2 b = some s'.2 ∧ s'.1 = (requests {} ((hist ++ ts).map req)).1 ∧ b.agg = [] ∧ b.samples.length = ds.length ∧
      (∀ t ∈ ts, GoodRequest lib.arity (req t)) ∧
      (∀ q ∈ b.samples, ∃ j t, t ∈ ts ∧ Stands score (hist ++ ts) j t q) ∧
      (∀ t ∈ ts, ∃ q ∈ b.samples, ∃ j, Stands score (hist ++ ts) j t q) := by
  simp only [oneStep, Option.bind_eq_bind, Option.bind_eq_some_iff, Option.pure_def, Option.some.injEq] at h
  obtain ⟨⟨c', os⟩, h1, st, h2, rfl⟩ := h
  obtain ⟨ts, a1, a2, a3, a4, a5, a6⟩ := rows_spec score hc hh hd h1
  exact ⟨ts, ⟨os.map (sampleOf score c'), []⟩, a1, h2, a2, rfl, by simp [a3], a4, a5, a6⟩

theorem search_spec {v : Env} {lib : Lib} {score : List Nat → Score} {dss : List (List Draw)} {hist : List (List Nat)} {s s' : Cache × St}
    (hc : s.1 = (requests {} (hist.map req)).1) (hh : ∀ t ∈ hist, GoodRequest lib.arity (req t))
    (hd : ∀ ds ∈ dss, ∀ d ∈ ds, ∀ t, finishTokens lib.arity 1 d.filler d.tokens = some t → GoodRequest lib.arity (req t))
    (h : search v lib score s dss = some s') :
    ∃ (ts : List (List Nat)) (bs : List Batch), dss.flatten.map (fun d => finishTokens lib.arity 1 d.filler d.tokens) = ts.map some ∧
      Searcher.run v s.2 bs = some s'.2 ∧ s'.1 = (requests {} ((hist ++ ts).map req)).1 ∧ (∀ t ∈ ts, GoodRequest lib.arity (req t)) ∧
      (∀ b ∈ bs, b.agg = [] ∧ ∃ ds ∈ dss, b.samples.length = ds.length) ∧
      (∀ b ∈ bs, ∀ q ∈ b.samples, ∃ j t, t ∈ ts ∧ Stands score (hist ++ ts) j t q) ∧
      (∀ t ∈ ts, ∃ b ∈ bs, ∃ q ∈ b.samples, ∃ j, Stands score (hist ++ ts) j t q) := by
  induction dss generalizing hist s with
  | nil =>
    simp [search] at h
    subst h
    exact ⟨[], [], rfl, rfl, by simpa using hc, by simp, by simp, by simp, by simp⟩
  | cons ds dss ih =>
    simp only [search, List.foldlM_cons, Option.bind_eq_bind, Option.bind_eq_some_iff] at h
    obtain ⟨m, hm, hrest⟩ := h
    obtain ⟨ts, b, e1, e2, e3, e4, e5, e6, e7, e8⟩ := oneStep_spec hc hh (hd ds List.mem_cons_self) hm
    obtain ⟨us, bs, f1, f2, f3, f4, f5, f6, f7⟩ := ih (hist := hist ++ ts) (s := m) e3
      (by intro t ht; rcases List.mem_append.1 ht with ht | ht
          · exact hh t ht
          · exact e6 t ht)
      (fun ds' h' => hd ds' (List.mem_cons_of_mem _ h')) hrest
    rw [List.append_assoc] at f3 f6 f7
    refine ⟨ts ++ us, b :: bs, ?_, ?_, f3, ?_, ?_, ?_, ?_⟩
    · rw [List.flatten_cons, List.map_append, e1, f1, List.map_append]
    · simp only [run, List.foldlM_cons, e2]
      exact f2
    · intro t ht
      rcases List.mem_append.1 ht with ht | ht
      · exact e6 t ht
      · exact f4 t ht
    · intro b' hb'
      rcases List.mem_cons.1 hb' with rfl | hb'
      · exact ⟨e4, ds, List.mem_cons_self, e5⟩
      · obtain ⟨g1, ds', g2, g3⟩ := f5 b' hb'
        exact ⟨g1, ds', List.mem_cons_of_mem _ g2, g3⟩
    · intro b' hb' q hq
      rcases List.mem_cons.1 hb' with rfl | hb'
      · obtain ⟨j, t, ht, hs⟩ := e7 q hq
        have := hs.mono us
        rw [List.append_assoc] at this
        exact ⟨j, t, List.mem_append_left _ ht, this⟩
      · obtain ⟨j, t, ht, hs⟩ := f6 b' hb' q hq
        exact ⟨j, t, List.mem_append_right _ ht, hs⟩
    · intro t ht
      rcases List.mem_append.1 ht with ht | ht
      · obtain ⟨q, hq, j, hs⟩ := e8 t ht
        have := hs.mono us
        rw [List.append_assoc] at this
        exact ⟨b, List.mem_cons_self, q, hq, j, this⟩
      · obtain ⟨b', hb', q, hq, j, hs⟩ := f7 t ht
        exact ⟨b', List.mem_cons_of_mem _ hb', q, hq, j, hs⟩

/-! ## The claims -/

/-- A row the sampler can produce: drawn under the masks of `ps`, of length `L`; a completion would use input variables. -/
structure Row (lib : Lib) (ps : List Prior) (L : Nat) (d : Draw) : Prop where
  sampled : ∃ obs prior, Sampled lib ps d.tokens obs prior
  full : d.tokens.length = L

/-- A set-up in which the configured constraints are enforced: operators with at most two operands, a length constraint up to the row length, and
sound constraints. -/
structure Setup (lib : Lib) (ps : List Prior) (L : Nat) : Prop where
  arity : ∀ t, lib.arity t ≤ 2
  size : lib.L ≤ 256 ^ 4
  long : 3 ≤ L
  length : ∃ mn, Prior.length (some mn) (some L) ∈ ps
  sound : ∀ p ∈ ps, Sound lib L p

/-- A reward as the shipped tasks give it: at most 0 for an invalid program, within the clip bound for expressions of at most `L` tokens. -/
structure ScoreOk (L : Nat) (M : Int) (score : List Nat → Score) : Prop where
  inv : ∀ t, (score t).invalid = true → ∃ x, (score t).reward = some x ∧ x ≤ 0
  bnd : ∀ t, t.length ≤ L → ∀ x, (score t).reward = some x → -M ≤ x ∧ x ≤ M

/-- An expression drawn in the run: the complete expression a row begins with. -/
def Drawn (lib : Lib) (dss : List (List Draw)) (t : Tree) : Prop := WF lib.arity t ∧ ∃ ds ∈ dss, ∃ d ∈ ds, t.preorder <+: d.tokens

theorem row_finish {lib : Lib} {ps : List Prior} {L : Nat} (hS : Setup lib ps L) {d : Draw} (hd : Row lib ps L d) :
    ∃ t : Tree, WF lib.arity t ∧ finishTokens lib.arity 1 d.filler d.tokens = some t.preorder ∧ t.preorder <+: d.tokens ∧
      (∀ p ∈ ps, Obeys lib t p) ∧ GoodRequest lib.arity (req t.preorder) ∧ ∀ t' : Tree, WF lib.arity t' → t'.preorder <+: d.tokens → t'.preorder = t.preorder := by
  obtain ⟨obs, prior, h⟩ := hd.sampled
  obtain ⟨mn, hlen⟩ := hS.length
  obtain ⟨t, h1, h2, h3, h4⟩ := C174_row_obeys lib ps hS.arity mn L hS.long hlen hS.sound h hd.full d.filler
  have hlt : ∀ x ∈ t.preorder, x < lib.L := by
    intro x hx
    obtain ⟨q, hq⟩ := h3
    have hm : x ∈ d.tokens := by rw [← hq]; exact List.mem_append_left _ hx
    obtain ⟨i, hi, rfl⟩ := List.getElem_of_mem hm
    exact (h.allowed i _ (List.getElem?_eq_getElem hi)).1
  refine ⟨t, h1, h2, h3, h4, ⟨Or.inr rfl, ⟨t, h1, rfl⟩, fun x hx => Nat.lt_of_lt_of_le (hlt x hx) hS.size⟩, ?_⟩
  intro t' hw' hp'
  obtain ⟨a, ha⟩ := hp'
  obtain ⟨b, hb⟩ := h3
  exact exact_prefix_unique lib.arity 1 (exact_preorder lib.arity t' hw') (exact_preorder lib.arity t h1) (ha.trans hb.symm)

/-- What a run does, in the terms of the searcher. -/
theorem run_of_search {v : Env} {lib : Lib} {ps : List Prior} {L : Nat} (hS : Setup lib ps L) {score : List Nat → Score} (hs : ScoreOk L v.bound score)
    {dss : List (List Draw)} (hd : ∀ ds ∈ dss, ds ≠ [] ∧ ∀ d ∈ ds, Row lib ps L d) {c : Cache} {s : St}
    (h : search v lib score ({}, {}) dss = some (c, s)) :
    ∃ (ts : List (List Nat)) (bs : List Batch), Searcher.run v {} bs = some s ∧ c = (requests {} (ts.map req)).1 ∧
      (∀ b ∈ bs, GoodBatch v.bound b ∧ b.agg = []) ∧ (∀ t ∈ ts, GoodRequest lib.arity (req t)) ∧
      (∀ l, l ∈ ts ↔ ∃ t : Tree, Drawn lib dss t ∧ t.preorder = l) ∧
      (∀ t : Tree, Drawn lib dss t → ∀ p ∈ ps, Obeys lib t p) ∧
      (∀ b ∈ bs, ∀ q ∈ b.samples, ∃ j t, t ∈ ts ∧ Stands score ts j t q) ∧
      (∀ t ∈ ts, ∃ b ∈ bs, ∃ q ∈ b.samples, ∃ j, Stands score ts j t q) := by
  obtain ⟨ts, bs, e1, e2, e3, e4, e5, e6, e7⟩ := search_spec (hist := []) (by simp [requests]) (by simp)
    (by
      intro ds hds d hdm t ht
      obtain ⟨t0, _, h2, _, _, h5, _⟩ := row_finish hS ((hd ds hds).2 d hdm)
      rw [h2] at ht
      cases ht
      exact h5) h
  simp only [List.nil_append] at e3 e6 e7
  have hshort : ∀ t ∈ ts, t.length ≤ L := by
    intro t ht
    have : some t ∈ ts.map some := List.mem_map_of_mem ht
    rw [← e1] at this
    obtain ⟨d, hdm, hf⟩ := List.mem_map.1 this
    obtain ⟨ds, h1, h2⟩ := List.mem_flatten.1 hdm
    have hrow := (hd ds h1).2 d h2
    obtain ⟨t0, _, g2, g3, _⟩ := row_finish hS hrow
    rw [g2] at hf
    cases hf
    rw [← hrow.full]
    exact g3.length_le
  refine ⟨ts, bs, e2, e3, ?_, e4, ?_, ?_, e6, e7⟩
  · intro b hb
    obtain ⟨h1, ds, h2, h3⟩ := e5 b hb
    refine ⟨⟨?_, ?_, ?_⟩, h1⟩
    · intro hn
      rw [hn] at h3
      exact (hd ds h2).1 (List.length_eq_zero_iff.1 h3.symm)
    · intro q hq hi
      obtain ⟨j, t, _, hst⟩ := e6 b hb q hq
      rw [hst.invalid] at hi
      rw [hst.reward]
      exact hs.inv t hi
    · intro q hq x hx
      obtain ⟨j, t, ht, hst⟩ := e6 b hb q hq
      rw [hst.reward] at hx
      exact hs.bnd t (hshort t ht) x hx
  · intro l
    have hmem : l ∈ ts ↔ ∃ ds ∈ dss, ∃ d ∈ ds, finishTokens lib.arity 1 d.filler d.tokens = some l := by
      have : l ∈ ts ↔ some l ∈ ts.map some := by simp
      rw [this, ← e1, List.mem_map]
      constructor
      · rintro ⟨d, hdm, hf⟩
        obtain ⟨ds, h1, h2⟩ := List.mem_flatten.1 hdm
        exact ⟨ds, h1, d, h2, hf⟩
      · rintro ⟨ds, h1, d, h2, hf⟩
        exact ⟨d, List.mem_flatten.2 ⟨ds, h1, h2⟩, hf⟩
    rw [hmem]
    constructor
    · rintro ⟨ds, h1, d, h2, hf⟩
      obtain ⟨t, g1, g2, g3, _⟩ := row_finish hS ((hd ds h1).2 d h2)
      rw [g2] at hf
      cases hf
      exact ⟨t, ⟨g1, ds, h1, d, h2, g3⟩, rfl⟩
    · rintro ⟨t, ⟨g1, ds, h1, d, h2, g3⟩, rfl⟩
      obtain ⟨t', _, f2, _, _, _, f6⟩ := row_finish hS ((hd ds h1).2 d h2)
      exact ⟨ds, h1, d, h2, by rw [f2, f6 t g1 g3]⟩
  · rintro t ⟨g1, ds, h1, d, h2, g3⟩ p hp
    obtain ⟨t', f1, _, f3, f4, _, f6⟩ := row_finish hS ((hd ds h1).2 d h2)
    have : t = t' := preorder_inj lib.arity g1 f1 (f6 t g1 g3)
    rw [this]
    exact f4 p hp

/-- **C174.** Whatever is drawn in any number of iterations: the best program a search reports is the object of an expression that was drawn, that is
complete, obeys every configured constraint and has the reported reward; no expression drawn in the whole run has a larger reward. -/
theorem C174_reported (v : Env) (hv : v.Ok) (lib : Lib) (ps : List Prior) (L : Nat) (hS : Setup lib ps L) (score : List Nat → Score)
    (hs : ScoreOk L v.bound score) (dss : List (List Draw)) (hd : ∀ ds ∈ dss, ds ≠ [] ∧ ∀ d ∈ ds, Row lib ps L d) (c : Cache) (s : St)
    (h : search v lib score ({}, {}) dss = some (c, s)) (m : Int) (hm : s.rBest = some m) :
    ∃ (o : Nat) (t : Tree), s.bestP = some (m, o) ∧ c.objs[o]?.map (·.tokens) = some t.preorder ∧ Drawn lib dss t ∧ (∀ p ∈ ps, Obeys lib t p) ∧
      (score t.preorder).reward = some m ∧
      ∀ t' : Tree, Drawn lib dss t' → ∀ r, (score t'.preorder).reward = some r → r ≤ m := by
  obtain ⟨ts, bs, e1, rfl, e3, e4, e5, e6, e7, e8⟩ := run_of_search hS hs hd h
  obtain ⟨_, _, hb⟩ := C17_best_is_max v hv bs (fun b hb => (e3 b hb).1) s e1
  obtain ⟨hmax, o, ho, hmem⟩ := hb m hm
  have hseen : ∀ q, q ∈ bs.flatMap (seenBy v) ↔ ∃ b ∈ bs, q ∈ finitePairs b.samples := by
    intro q
    rw [List.mem_flatMap]
    constructor
    · rintro ⟨b, hb, hq⟩
      refine ⟨b, hb, ?_⟩
      unfold seenBy at hq
      rw [(e3 b hb).2] at hq
      simpa using hq
    · rintro ⟨b, hb, hq⟩
      exact ⟨b, hb, List.mem_append_left _ hq⟩
  obtain ⟨b, hbm, hq⟩ := (hseen _).1 hmem
  obtain ⟨q, hqm, hqr, hqi⟩ := mem_finitePairs.1 hq
  obtain ⟨j, l, hl, hst⟩ := e7 b hbm q hqm
  obtain ⟨t, htd, rfl⟩ := (e5 l).1 hl
  obtain ⟨o', h1, h2⟩ := object_tokens lib.arity ts e4 j _ hst.tok
  rw [hst.obj] at h1
  cases h1
  refine ⟨o, t, ho, ?_, htd, e6 t htd, ?_, ?_⟩
  · have : q.id = o := hqi
    rw [← this]
    exact h2
  · rw [← hst.reward]; exact hqr
  · intro t' ht' r hr
    obtain ⟨b', hb', q', hq', j', hst'⟩ := e8 _ ((e5 _).2 ⟨t', ht', rfl⟩)
    have : (r, q'.id) ∈ bs.flatMap (seenBy v) := (hseen _).2 ⟨b', hb', mem_finitePairs.2 ⟨q', hq', by rw [hst'.reward]; exact hr, rfl⟩⟩
    exact hmax _ this

/-- **C174**: nothing is reported exactly if no expression drawn has a number as reward. -/
theorem C174_nothing (v : Env) (hv : v.Ok) (lib : Lib) (ps : List Prior) (L : Nat) (hS : Setup lib ps L) (score : List Nat → Score)
    (hs : ScoreOk L v.bound score) (dss : List (List Draw)) (hd : ∀ ds ∈ dss, ds ≠ [] ∧ ∀ d ∈ ds, Row lib ps L d) (c : Cache) (s : St)
    (h : search v lib score ({}, {}) dss = some (c, s)) :
    s.bestP = none ↔ ∀ t : Tree, Drawn lib dss t → (score t.preorder).reward = none := by
  obtain ⟨ts, bs, e1, rfl, e3, e4, e5, e6, e7, e8⟩ := run_of_search hS hs hd h
  obtain ⟨h1, h2, h3⟩ := C17_best_is_max v hv bs (fun b hb => (e3 b hb).1) s e1
  rw [h2, h1]
  constructor
  · intro hn t ht
    obtain ⟨b, hb, q, hq, j, hst⟩ := e8 _ ((e5 _).2 ⟨t, ht, rfl⟩)
    cases hr : (score t.preorder).reward with
    | none => rfl
    | some r =>
      have : (r, q.id) ∈ bs.flatMap (seenBy v) :=
        List.mem_flatMap.2 ⟨b, hb, List.mem_append_left _ (mem_finitePairs.2 ⟨q, hq, by rw [hst.reward]; exact hr, rfl⟩)⟩
      rw [hn] at this
      nomatch this
  · intro hn
    rw [List.flatMap_eq_nil_iff]
    intro b hb
    unfold seenBy
    rw [(e3 b hb).2]
    simp only [ite_self, List.append_nil]
    apply List.eq_nil_iff_forall_not_mem.2
    intro q hq
    obtain ⟨q', hq', hr, _⟩ := mem_finitePairs.1 hq
    obtain ⟨j, l, hl, hst⟩ := e7 b hb q' hq'
    obtain ⟨t, ht, rfl⟩ := (e5 l).1 hl
    rw [hst.reward, hn t ht] at hr
    nomatch hr

theorem fromRows_total {lib : Lib} (ds : List Draw) (h : ∀ d ∈ ds, (finishTokens lib.arity 1 d.filler d.tokens).isSome) :
    ∀ c, (fromRows lib c ds).isSome := by
  induction ds with
  | nil => intro c; rfl
  | cons d ds ih =>
    intro c
    obtain ⟨t, ht⟩ := Option.isSome_iff_exists.1 (h d List.mem_cons_self)
    obtain ⟨r, hr⟩ := Option.isSome_iff_exists.1 (ih (fun d' hd => h d' (List.mem_cons_of_mem _ hd)) (fromTokens c ⟨8, t, true, false⟩).1)
    simp [fromRows, fromRow, ht, hr]

/-- **C174** (the search runs through).  If every drawn expression that is valid has a positive reward, no iteration raises. -/
theorem C174_total (v : Env) (hv : v.Ok) (lib : Lib) (ps : List Prior) (L : Nat) (hS : Setup lib ps L) (score : List Nat → Score)
    (hs : ScoreOk L v.bound score) (dss : List (List Draw)) (hd : ∀ ds ∈ dss, ds ≠ [] ∧ ∀ d ∈ ds, Row lib ps L d)
    (hpos : ∀ t : Tree, Drawn lib dss t → (score t.preorder).invalid = false → ∃ x, (score t.preorder).reward = some x ∧ 0 < x) :
    (search v lib score ({}, {}) dss).isSome := by
  have gen : ∀ k ≤ dss.length, (search v lib score ({}, {}) (dss.take k)).isSome := by
    intro k
    induction k with
    | zero => intro _; simp [search]
    | succ k ih =>
      intro hk
      obtain ⟨⟨c, s⟩, hcs⟩ := Option.isSome_iff_exists.1 (ih (by omega))
      have hsub : ∀ ds ∈ dss.take k, ds ≠ [] ∧ ∀ d ∈ ds, Row lib ps L d := fun ds h => hd ds (List.mem_of_mem_take h)
      obtain ⟨ts, bs, e1, e2, e3, e4, _⟩ := run_of_search hS hs hsub hcs
      have hlt : k < dss.length := by omega
      have hmem : dss[k] ∈ dss := List.getElem_mem hlt
      have hrow := (hd _ hmem).2
      obtain ⟨⟨c', os⟩, hfr⟩ := Option.isSome_iff_exists.1 (fromRows_total dss[k] (fun d hdm => by
        obtain ⟨t0, _, h2, _⟩ := row_finish hS (hrow d hdm)
        rw [h2]; rfl) c)
      obtain ⟨us, u1, u2, u3, u4, u5, u6⟩ := rows_spec score e2 e4 (fun d hdm t ht => by
        obtain ⟨t0, _, h2, _, _, h5, _⟩ := row_finish hS (hrow d hdm)
        rw [h2] at ht
        cases ht
        exact h5) hfr
      have hstep : Searcher.step v s ⟨os.map (sampleOf score c'), []⟩ ≠ none := by
        intro hn
        obtain ⟨n1, n2⟩ := (C17_raises_iff v hv bs (fun b hb => (e3 b hb).1) s e1 _).1 hn
        obtain ⟨q, hq⟩ := List.exists_mem_of_ne_nil _ n1
        simp only [train, List.mem_filter, Bool.not_eq_true'] at hq
        have hle := n2 q hq.1.1 hq.2
        obtain ⟨j, t, ht, hst⟩ := u5 q hq.1.1
        have hm : some t ∈ us.map some := List.mem_map_of_mem ht
        rw [← u1] at hm
        obtain ⟨d, hdm, hf⟩ := List.mem_map.1 hm
        obtain ⟨t0, g1, g2, g3, _⟩ := row_finish hS (hrow d hdm)
        rw [g2] at hf
        cases hf
        obtain ⟨x, x1, x2⟩ := hpos t0 ⟨g1, _, hmem, d, hdm, g3⟩ (by rw [← hst.invalid]; exact hq.2)
        have := r0_some (hst.reward.trans x1)
        omega
      obtain ⟨s', hs'⟩ := Option.ne_none_iff_exists'.1 hstep
      rw [List.take_succ_eq_append_getElem hlt]
      unfold search at hcs ⊢
      rw [List.foldlM_append, hcs]
      simp [oneStep, hfr, hs']
  have := gen dss.length (Nat.le_refl _)
  rwa [List.take_length] at this

/-! ### One program object per expression -/

/-- The objects and the dictionary of the cache correspond to each other. -/
structure Bij (c : Cache) : Prop where
  look : ∀ (o : Nat) p, c.objs[o]? = some p → c.dict.lookup (tobytes 8 p.tokens) = some o
  back : ∀ k o, c.dict.lookup k = some o → ∃ p, c.objs[o]? = some p ∧ k = tobytes 8 p.tokens

theorem lookup_append_none {k k' : List Nat} {d : List (List Nat × Nat)} {o : Nat} :
    (d ++ [(k', o)]).lookup k = ((d.lookup k).or (if k = k' then some o else none)) := by
  induction d with
  | nil =>
    by_cases h : k = k'
    · subst h; simp [List.lookup]
    · have : (k == k') = false := by simpa using h
      simp [List.lookup, this, h]
  | cons e d ih =>
    obtain ⟨a, b⟩ := e
    simp only [List.cons_append, List.lookup_cons]
    cases k == a
    · exact ih
    · rfl

theorem count_tokens (p : Prog) (b : Bool) : (p.count b).tokens = p.tokens := by unfold Prog.count; split <;> rfl

theorem bij_step {c : Cache} (hb : Bij c) (t : List Nat) (ht : ∀ x ∈ t, x < 256 ^ 8) (hc : ∀ p ∈ c.objs, ∀ x ∈ p.tokens, x < 256 ^ 8) :
    Bij (fromTokens c (req t)).1 ∧ ∀ l, (∃ p ∈ (fromTokens c (req t)).1.objs, p.tokens = l) ↔ (∃ p ∈ c.objs, p.tokens = l) ∨ l = t := by
  unfold fromTokens
  simp only [req, Bool.false_eq_true, if_false]
  cases hl : c.dict.lookup (tobytes 8 t) with
  | some o =>
    obtain ⟨p0, hp0, hk⟩ := hb.back _ _ hl
    have ht0 : p0.tokens = t := tobytes_inj 8 (by omega) _ _ (hc p0 (List.mem_of_getElem? hp0)) ht hk.symm
    have hobj : ∀ (i : Nat) p, (c.objs.modify o (·.count true))[i]? = some p → ∃ p', c.objs[i]? = some p' ∧ p'.tokens = p.tokens := by
      intro i p hp
      rw [List.getElem?_modify] at hp
      obtain ⟨p', h1, h2⟩ := Option.map_eq_some_iff.1 hp
      refine ⟨p', h1, ?_⟩
      rw [← h2]
      split
      · exact (count_tokens _ _).symm
      · rfl
    have hobj' : ∀ (i : Nat) p, c.objs[i]? = some p → ∃ p', (c.objs.modify o (·.count true))[i]? = some p' ∧ p'.tokens = p.tokens := by
      intro i p hp
      rw [List.getElem?_modify, hp]
      refine ⟨_, rfl, ?_⟩
      simp only
      split
      · exact count_tokens _ _
      · rfl
    refine ⟨⟨?_, ?_⟩, ?_⟩
    · intro i p hp
      obtain ⟨p', h1, h2⟩ := hobj i p hp
      rw [← h2]
      exact hb.look i p' h1
    · intro k i hk
      obtain ⟨p, h1, h2⟩ := hb.back k i hk
      obtain ⟨p', h3, h4⟩ := hobj' i p h1
      exact ⟨p', h3, by rw [h4]; exact h2⟩
    · intro l
      constructor
      · rintro ⟨p, hp, rfl⟩
        obtain ⟨i, hi⟩ := List.getElem?_of_mem hp
        obtain ⟨p', h1, h2⟩ := hobj i p hi
        exact Or.inl ⟨p', List.mem_of_getElem? h1, h2⟩
      · rintro (⟨p, hp, rfl⟩ | rfl)
        · obtain ⟨i, hi⟩ := List.getElem?_of_mem hp
          obtain ⟨p', h1, h2⟩ := hobj' i p hi
          exact ⟨p', List.mem_of_getElem? h1, h2⟩
        · obtain ⟨p', h1, h2⟩ := hobj' o p0 hp0
          exact ⟨p', List.mem_of_getElem? h1, h2.trans ht0⟩
  | none =>
    refine ⟨⟨?_, ?_⟩, ?_⟩
    · intro o p hp
      rw [lookup_append_none]
      by_cases ho : o < c.objs.length
      · rw [List.getElem?_append_left ho] at hp
        rw [hb.look o p hp]; rfl
      · rw [List.getElem?_append_right (by omega)] at hp
        obtain ⟨h1, h2⟩ := List.getElem?_eq_some_iff.1 hp
        simp only [List.length_singleton] at h1
        have ho' : o = c.objs.length := by omega
        subst ho'
        have hp' : p.tokens = t := by rw [← h2]; simp [newProg]
        rw [hp', hl]
        simp
    · intro k o hk
      rw [lookup_append_none] at hk
      cases hk' : c.dict.lookup k with
      | some o' =>
        rw [hk'] at hk
        cases hk
        obtain ⟨p, h1, h2⟩ := hb.back k o hk'
        exact ⟨p, by rw [List.getElem?_append_left (List.getElem?_eq_some_iff.1 h1).1]; exact h1, h2⟩
      | none =>
        rw [hk'] at hk
        by_cases e : k = tobytes 8 t
        · rw [if_pos e] at hk
          cases hk
          exact ⟨newProg (req t), by simp [req], e⟩
        · rw [if_neg e] at hk
          nomatch hk
    · intro l
      simp only [List.mem_append, List.mem_singleton]
      constructor
      · rintro ⟨p, hp | rfl, rfl⟩
        · exact Or.inl ⟨p, hp, rfl⟩
        · exact Or.inr rfl
      · rintro (⟨p, hp, rfl⟩ | rfl)
        · exact ⟨p, Or.inl hp, rfl⟩
        · exact ⟨_, Or.inr rfl, rfl⟩

theorem bij_requests (ts : List (List Nat)) (ht : ∀ t ∈ ts, ∀ x ∈ t, x < 256 ^ 8) :
    Bij (requests {} (ts.map req)).1 ∧ ∀ l, (∃ p ∈ (requests {} (ts.map req)).1.objs, p.tokens = l) ↔ l ∈ ts := by
  suffices H : ∀ (ts : List (List Nat)) (c : Cache), (∀ t ∈ ts, ∀ x ∈ t, x < 256 ^ 8) → Bij c → (∀ p ∈ c.objs, ∀ x ∈ p.tokens, x < 256 ^ 8) →
      Bij (requests c (ts.map req)).1 ∧ ∀ l, (∃ p ∈ (requests c (ts.map req)).1.objs, p.tokens = l) ↔ (∃ p ∈ c.objs, p.tokens = l) ∨ l ∈ ts by
    have := H ts {} ht ⟨by simp, by simp [List.lookup]⟩ (by simp)
    simpa using this
  intro ts
  induction ts with
  | nil => intro c _ hb _; exact ⟨hb, by simp [requests]⟩
  | cons t ts ih =>
    intro c ht hb hc
    obtain ⟨h1, h2⟩ := bij_step hb t (ht t List.mem_cons_self) hc
    have hc' : ∀ p ∈ (fromTokens c (req t)).1.objs, ∀ x ∈ p.tokens, x < 256 ^ 8 := by
      intro p hp x hx
      rcases (h2 p.tokens).1 ⟨p, hp, rfl⟩ with ⟨p', hp', e⟩ | e
      · exact hc p' hp' x (by rw [e]; exact hx)
      · exact ht t List.mem_cons_self x (by rw [← e]; exact hx)
    obtain ⟨h3, h4⟩ := ih (fromTokens c (req t)).1 (fun t' h' => ht t' (List.mem_cons_of_mem _ h')) h1 hc'
    refine ⟨h3, fun l => ?_⟩
    show (∃ p ∈ (requests (fromTokens c (req t)).1 (ts.map req)).1.objs, p.tokens = l) ↔ _
    rw [h4 l, h2 l, List.mem_cons, or_assoc]

/-- **C174**: after a search there is exactly one program object for every expression drawn (so each expression is fitted once), and none besides. -/
theorem C174_objects (v : Env) (lib : Lib) (ps : List Prior) (L : Nat) (hS : Setup lib ps L) (score : List Nat → Score)
    (hs : ScoreOk L v.bound score) (dss : List (List Draw)) (hd : ∀ ds ∈ dss, ds ≠ [] ∧ ∀ d ∈ ds, Row lib ps L d) (c : Cache) (s : St)
    (h : search v lib score ({}, {}) dss = some (c, s)) :
    (c.objs.map (·.tokens)).Nodup ∧ ∀ l, l ∈ c.objs.map (·.tokens) ↔ ∃ t : Tree, Drawn lib dss t ∧ t.preorder = l := by
  obtain ⟨ts, bs, e1, rfl, e3, e4, e5, e6, e7, e8⟩ := run_of_search hS hs hd h
  obtain ⟨h1, h2⟩ := bij_requests ts fun t ht x hx => Nat.lt_of_lt_of_le ((e4 t ht).2.2 x hx) (by decide)
  constructor
  · rw [List.nodup_iff_pairwise_ne, List.pairwise_iff_getElem]
    intro i j hi hj hij heq
    simp only [List.length_map] at hi hj
    simp only [List.getElem_map] at heq
    have a := h1.look i _ (List.getElem?_eq_getElem hi)
    have b := h1.look j _ (List.getElem?_eq_getElem hj)
    rw [heq, b] at a
    cases a
    omega
  · intro l
    rw [← e5 l, ← h2 l, List.mem_map]

/-- **C174**: if a reward above 0 was found, the head of the memory has the best reward as well (memory of at least one place). -/
theorem C174_memory (v : Env) (hv : v.Ok) (hcap : v.cap ≠ some 0) (lib : Lib) (ps : List Prior) (L : Nat) (hS : Setup lib ps L) (score : List Nat → Score)
    (hs : ScoreOk L v.bound score) (dss : List (List Draw)) (hd : ∀ ds ∈ dss, ds ≠ [] ∧ ∀ d ∈ ds, Row lib ps L d) (c : Cache) (s : St)
    (h : search v lib score ({}, {}) dss = some (c, s)) (m : Int) (hm : s.rBest = some m) (hpos : 0 < m) :
    ∃ e t, Verif.Memory.pqMax s.pq = some e ∧ e.score = m ∧ Drawn lib dss t ∧ c.objs[e.id]?.map (·.tokens) = some t.preorder ∧
      (score t.preorder).reward = some m := by
  obtain ⟨ts, bs, e1, rfl, e3, e4, e5, e6, e7, e8⟩ := run_of_search hS hs hd h
  have hp : s.prev ≠ none := by
    obtain ⟨new, hi⟩ := run_inv v hv bs {} s [] [] [] (fun b hb => (e3 b hb).1) (inv_init v) e1
    intro hn
    have := (hi.prevN hn).2 m hm
    omega
  have htok : ∀ b ∈ bs, ∀ q ∈ b.samples, ∃ t : Tree, Drawn lib dss t ∧ (requests {} (ts.map req)).1.objs[q.id]?.map (·.tokens) = some t.preorder ∧
      q.reward = (score t.preorder).reward := by
    intro b hb q hq
    obtain ⟨j, l, hl, hst⟩ := e7 b hb q hq
    obtain ⟨t, ht, rfl⟩ := (e5 l).1 hl
    obtain ⟨o', h1, h2⟩ := object_tokens lib.arity ts e4 j _ hst.tok
    rw [hst.obj] at h1
    cases h1
    exact ⟨t, ht, h2, hst.reward⟩
  have hoff : ∀ p ∈ bs.flatMap offeredBy, ∃ b ∈ bs, ∃ q ∈ b.samples, p = (r0 q, q.id) := by
    intro p hp
    obtain ⟨b, hb, hp⟩ := List.mem_flatMap.1 hp
    unfold offeredBy at hp
    rw [(e3 b hb).2, List.append_nil] at hp
    obtain ⟨q, hq, rfl⟩ := List.mem_map.1 hp
    exact ⟨b, hb, q, hq, rfl⟩
  have hsame : ∀ p ∈ bs.flatMap offeredBy, ∀ q ∈ bs.flatMap offeredBy, p.2 = q.2 → p.1 = q.1 := by
    intro p hp q hq heq
    obtain ⟨b, hb, x, hx, rfl⟩ := hoff p hp
    obtain ⟨b', hb', y, hy, rfl⟩ := hoff q hq
    obtain ⟨t, _, a1, a2⟩ := htok b hb x hx
    obtain ⟨t', _, a3, a4⟩ := htok b' hb' y hy
    have heq' : x.id = y.id := heq
    rw [heq', a3] at a1
    simp only [Option.some.injEq] at a1
    simp only [r0]
    rw [a2, a4, a1]
  obtain ⟨e, g1, g2, g3⟩ := C17_best_expression v hv hcap bs (fun b hb => (e3 b hb).1) s e1 hp hsame
  obtain ⟨b, hb, hq⟩ := List.mem_flatMap.1 g3
  unfold seenBy at hq
  rw [(e3 b hb).2] at hq
  simp only [ite_self, List.append_nil] at hq
  obtain ⟨q, hq, hqr, hqi⟩ := mem_finitePairs.1 hq
  obtain ⟨t, ht, a1, a2⟩ := htok b hb q hq
  rw [hm] at g2
  have hqi' : q.id = e.id := hqi
  have hqr' : q.reward = some e.score := hqr
  have hme : m = e.score := by simpa using g2
  refine ⟨e, t, g1, hme.symm, ht, by rw [← hqi']; exact a1, by rw [← a2, hqr', hme]⟩

/-! ## A run

Library exLib of C06 (add, diff, sin, x1, u1, exp, log); two iterations with two rows each; the reward is 10 minus the length, 0 and invalid for sin. -/

def exScore (t : List Nat) : Score := if 2 ∈ t then ⟨some 0, true⟩ else ⟨some (10 - min t.length 10), false⟩

def exPs : List Prior := [.length (some 3) (some 8), .relational ⟨[3], [1], .lchild⟩, .repeat [0] 2, .noInputs, inverseConstraint exLib]

def exRows : List (List Draw) :=
  [[⟨[0, 1, 4, 3, 2, 4, 4, 4], fun _ => 3⟩, ⟨[0, 4, 1, 4, 3, 4, 4, 4], fun _ => 3⟩],
   [⟨[1, 4, 3, 4, 4, 4, 4, 4], fun _ => 3⟩, ⟨[0, 4, 1, 4, 3, 4, 4, 4], fun _ => 3⟩]]

example : ScoreOk 8 1000 exScore := by
  constructor
  · intro t h
    unfold exScore at h ⊢
    split at h
    · rename_i hm; rw [if_pos hm]; exact ⟨0, rfl, by decide⟩
    · nomatch h
  · intro t _ x h
    unfold exScore at h
    split at h <;> (cases h; omega)

example : Setup exLib exPs 8 := by
  refine ⟨exLib_arity, by decide, by decide, ⟨3, by simp [exPs]⟩, ?_⟩
  intro p hp
  simp only [exPs, List.mem_cons, List.not_mem_nil, or_false] at hp
  rcases hp with rfl | rfl | rfl | rfl | rfl
  · exact ⟨⟨3, rfl⟩, by intro m hm; cases hm; rfl⟩
  · exact ⟨by unfold Relational.InLib; decide, by intro h; nomatch h⟩
  · exact (by decide : 1 ≤ 2)
  · trivial
  · intro c hc
    simp only [List.mem_map] at hc
    obtain ⟨p, hp, rfl⟩ := hc
    refine ⟨?_, by intro h; nomatch h⟩
    revert p
    unfold Relational.InLib
    decide

example : ∀ ds ∈ exRows, ds ≠ [] ∧ ∀ d ∈ ds, Row exLib exPs 8 d := by
  intro ds hds
  simp only [exRows, List.mem_cons, List.not_mem_nil, or_false] at hds
  rcases hds with rfl | rfl
  · refine ⟨by simp, ?_⟩
    intro d hd
    simp only [List.mem_cons, List.not_mem_nil, or_false] at hd
    rcases hd with rfl | rfl
    · exact ⟨sampled_of_canDraw (by decide), rfl⟩
    · exact ⟨sampled_of_canDraw (by decide), rfl⟩
  · refine ⟨by simp, ?_⟩
    intro d hd
    simp only [List.mem_cons, List.not_mem_nil, or_false] at hd
    rcases hd with rfl | rfl
    · exact ⟨sampled_of_canDraw (by decide), rfl⟩
    · exact ⟨sampled_of_canDraw (by decide), rfl⟩

/-- The run: the derivative of `u1` (object 2, reward 7) is reported; four rows, three objects. -/
theorem C174_concrete : (search exEnv exLib exScore ({}, {}) exRows).map (fun r => (r.2.bestP, r.1.objs.map fun p => (p.tokens, p.onPolicy))) =
    some (some (7, 2), [([0, 1, 4, 3, 2, 4], 1), ([0, 4, 1, 4, 3], 2), ([1, 4, 3], 1)]) := by decide +kernel

end Verif.Discover.Search.Claims
