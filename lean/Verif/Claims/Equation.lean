import Verif.Sga.EquationLemmas
import Verif.Sga.EvalLemmas
import Verif.Claims.SgaTree
/-!
# C36, C50, C51: displayed equations
-/
namespace Verif.Claims
open Verif.Sga

/-! ## C36: which terms are shown -/

/-- A coefficient counts unless its magnitude is below the tolerance (a NaN counts). -/
def sig : Fl → Fl → Bool
  | .fin t, .fin q => decide (t ≤ q ∨ t ≤ -q)
  | .inf false, .fin _ => false
  | _, _ => true

/-- The magnitude of a coefficient. -/
def mag : Fl → Fl
  | .nan => .nan
  | .inf _ => .inf false
  | .fin q => .fin (if 0 ≤ q then q else -q)

theorem abs_eq_mag (x : Fl) : x.abs = mag x := by
  cases x with
  | nan => rfl
  | inf b => rfl
  | fin q => simp only [Fl.abs, mag, Rat.abs]

theorem sig_eq (tol c : Fl) : sig tol c = !c.abs.lt tol := by
  rw [abs_eq_mag]
  cases tol with
  | nan => cases c <;> rfl
  | inf b => cases b <;> cases c <;> rfl
  | fin t =>
    cases c with
    | nan => rfl
    | inf b => rfl
    | fin q =>
      simp only [sig, mag, Fl.lt]
      rw [Bool.eq_iff_iff]
      simp only [decide_eq_true_eq, Bool.not_eq_true', decide_eq_false_iff_not]
      split <;> grind

theorem defaultTerms_eq (tol : Fl) (names : List Name) (coefs : List Fl) : ∀ (k i : Nat), i + k ≤ coefs.length → i + k ≤ names.length →
    defaultTerms tol names coefs k i =
      ((((names.drop i).take k).zip ((coefs.drop i).take k)).filter fun p => sig tol p.2).map fun p => ⟨p.1, .dflt, p.2⟩ := by
  intro k
  induction k with
  | zero => intro i _ _; simp [defaultTerms]
  | succ k ih =>
    intro i h1 h2
    have g1 : i < coefs.length := by omega
    have g2 : i < names.length := by omega
    unfold defaultTerms
    rw [List.getElem?_eq_getElem g1, List.drop_eq_getElem_cons g1, List.drop_eq_getElem_cons g2]
    simp only [List.take_succ_cons, List.zip_cons_cons, List.filter_cons]
    rw [ih (i + 1) (by omega) (by omega)]
    by_cases hs : (coefs[i]).abs.lt tol = true
    · simp [sig_eq, hs]
    · simp [sig_eq, hs, List.getD_eq_getElem?_getD, List.getElem?_eq_getElem g2]

theorem generatedTerms_eq (tol : Fl) (coefs : List Fl) (off : Nat) : ∀ (ts : List Levels) (i : Nat),
    off + i + ts.length = coefs.length →
    generatedTerms tol coefs off i ts =
      ((ts.zip (coefs.drop (off + i))).filter fun p => sig tol p.2).map fun p => ⟨((inorder p.1).getD "").toList, .gen p.1, p.2⟩ := by
  intro ts
  induction ts with
  | nil => intro i _; simp [generatedTerms]
  | cons t ts ih =>
    intro i h
    simp at h
    have g1 : off + i < coefs.length := by omega
    unfold generatedTerms
    rw [List.getElem?_eq_getElem g1, List.drop_eq_getElem_cons g1]
    simp only [List.zip_cons_cons, List.filter_cons]
    rw [ih (i + 1) (by omega)]
    by_cases hs : (coefs[off + i]).abs.lt tol = true
    · simp [sig_eq, hs, Nat.add_assoc]
    · simp [sig_eq, hs, Nat.add_assoc]

/-- **C36**, extraction: with one coefficient per library term, the extracted terms are exactly the default names and
then the generated terms, in order, each with its own coefficient, whose coefficient reaches the tolerance.
Partial, of the whole claim: Proved for every coefficient vector, where a coefficient reaches the tolerance if it is not below it; a NaN coefficient counts as reaching it and is shown as 1 (C36_nan_counterexample). -/
theorem C36_extract_partial (tol : Fl) (names : List Name) (ts : List Levels) (coefs : List Fl)
    (h : coefs.length = names.length + ts.length) :
    extractDetails tol names.length names ts coefs =
      (((names.map (fun n => (n, Src.dflt)) ++ ts.map fun t => (((inorder t).getD "").toList, Src.gen t)).zip coefs).filter
        fun p => sig tol p.2).map fun p => ⟨p.1.1, p.1.2, p.2⟩ := by
  unfold extractDetails
  rw [Nat.min_eq_left (by omega), defaultTerms_eq _ _ _ _ _ (by omega) (by omega), generatedTerms_eq _ _ _ _ _ (by omega)]
  have hs : coefs = coefs.take names.length ++ coefs.drop names.length := by simp
  conv => rhs; rw [hs]
  rw [List.zip_append (by simp; omega)]
  simp only [List.drop_zero, List.take_length, Nat.add_zero, List.filter_append, List.map_append, List.zip_map_left]
  congr 1
  · rw [List.filter_map, List.map_map]; rfl
  · rw [List.filter_map, List.map_map]; rfl

/-- Number texts: what `{x:.6g}` of a magnitude looks like (no blanks, no parentheses, no leading sign). -/
structure FmtOk (fmt : Fl → Name) : Prop where
  chars : ∀ x, ∀ c ∈ fmt x, c ≠ ' ' ∧ c ≠ '(' ∧ c ≠ ')'
  head : ∀ x, ∃ c r, fmt x = c :: r ∧ c ≠ '+' ∧ c ≠ '-'

/-- How a term with text `name` and coefficient `c` must appear: with the sign of `c`; with coefficients shown, the
magnitude precedes the text unless it lies within the tolerance of one (a bare constant is just its magnitude). -/
def ShownAs (fmt : Fl → Name) (lo hi : Fl) (wc : Bool) (p : Name × Fl) (q : Bool × Name) : Prop :=
  q.1 = !(p.2.lt (.fin 0)) ∧
  (wc = false → q.2 = p.1) ∧
  (wc = true → p.1 = ['1'] → q.2 = fmt (mag p.2)) ∧
  (wc = true → p.1 ≠ ['1'] → (p.1 = ['0'] ∨ (mag p.2).lt lo = true ∨ hi.lt (mag p.2) = true) →
    q.2 = fmt (mag p.2) ++ ['\\', ','] ++ p.1) ∧
  (wc = true → p.1 ≠ ['1'] → p.1 ≠ ['0'] → (mag p.2).lt lo = false → hi.lt (mag p.2) = false → p.2.isZero = false → q.2 = p.1)

theorem clean_plain : ∀ s : Name, (∀ c ∈ s, c ≠ ' ' ∧ c ≠ '(' ∧ c ≠ ')') → clean 0 s = true := by
  intro s
  induction s with
  | nil => intro _; rfl
  | cons c r ih =>
    intro h
    have hc := h c (by simp)
    unfold clean
    rw [if_neg hc.2.1, if_neg hc.2.2, if_neg (by simp [hc.1])]
    exact ih fun x hx => h x (by simp [hx])

theorem FmtOk.cleanE {fmt : Fl → Name} (h : FmtOk fmt) (x : Fl) : CleanE (fmt x) := by
  refine ⟨clean_plain _ (h.chars x), ?_⟩
  obtain ⟨c, r, e, h1, h2⟩ := h.head x
  rw [e]; simp [headOk, h1, h2]

theorem formatTerm_ok {fmt : Fl → Name} (hf : FmtOk fmt) (lo hi : Fl) (wc lz : Bool) (t : EqTerm)
    (ht : CleanE (renderExpr lz t)) :
    ShownAs fmt lo hi wc (renderExpr lz t, t.coef) (formatTerm fmt lo hi wc lz t) ∧
      CleanE (formatTerm fmt lo hi wc lz t).2 := by
  have hne : renderExpr lz t ≠ [] := by
    intro e; rw [e] at ht; simp [CleanE, headOk] at ht
  have hE : (renderExpr lz t).isEmpty = false := by
    cases hq : renderExpr lz t with
    | nil => exact absurd hq hne
    | cons => rfl
  have hz : ∀ x : Fl, x.abs.isZero = x.isZero := by
    intro x
    cases x with
    | nan => rfl
    | inf => rfl
    | fin q =>
      simp only [Fl.abs, Fl.isZero]
      rw [Bool.eq_iff_iff, beq_iff_eq, beq_iff_eq]
      constructor
      · intro h
        simp only [Rat.abs] at h
        split at h
        · exact h
        · have := congrArg Neg.neg h; simpa using this
      · rintro rfl; rfl
  generalize he : renderExpr lz t = e at *
  have key : (formatTerm fmt lo hi wc lz t) = (!(t.coef.lt (.fin 0)),
      if wc then
        if !(hi.lt t.coef.abs || t.coef.abs.lt lo || (e == "1".toList || e == "0".toList)) && !t.coef.isZero then e
        else if e = "1".toList then fmt t.coef.abs
        else fmt t.coef.abs ++ "\\,".toList ++ e
      else e) := by
    unfold formatTerm
    simp only [he, hE, hz, Bool.false_eq_true, if_false]
  rw [key]
  simp only [abs_eq_mag]
  have c1 : "1".toList = ['1'] := rfl
  have c0 : "0".toList = ['0'] := rfl
  have cs : "\\,".toList = ['\\', ','] := rfl
  rw [c1, c0, cs]
  refine ⟨⟨rfl, ?_, ?_, ?_, ?_⟩, ?_⟩
  · intro h; simp [h]
  · intro h h1; simp only at h1; simp [h, h1]
  · intro h h1 h2
    simp only at h1 h2
    simp only [h, if_true, h1, if_false]
    rw [if_neg]
    rcases h2 with h2 | h2 | h2 <;> simp [h2]
  · intro h h1 h2 h3 h4 h5
    simp only at h1 h2 h3 h4 h5
    simp [h, h1, h2, h3, h4, h5]
  · cases wc with
    | false => simpa using ht
    | true =>
      simp only [if_true]
      split
      · exact ht
      · split
        · exact hf.cleanE _
        · exact cleanE_append (cleanE_append (hf.cleanE _) (by decide)) ht.1

/-- **C36, counterexample** A NaN coefficient is not shown: with any tolerance the term stays in the equation, and its text is the one of
a term with coefficient 1. -/
theorem C36_nan_counterexample (fmt : Fl → Name) (tol lo hi : Fl) (lz : Bool) (t : EqTerm) (hc : t.coef = .nan)
    (h : renderExpr lz t ≠ [] ∧ renderExpr lz t ≠ ['1'] ∧ renderExpr lz t ≠ ['0']) :
    sig tol t.coef = true ∧ formatTerm fmt lo hi true lz t = (true, renderExpr lz t) := by
  have c1 : "1".toList = ['1'] := rfl
  have c0 : "0".toList = ['0'] := rfl
  have hE : (renderExpr lz t).isEmpty = false := by
    cases hq : renderExpr lz t with
    | nil => exact absurd hq h.1
    | cons => rfl
  constructor
  · rw [sig_eq, hc]
    cases tol <;> rfl
  · have l1 : ∀ x : Fl, x.lt .nan = false := by intro x; cases x <;> rfl
    have l2 : ∀ x : Fl, Fl.lt .nan x = false := by intro x; cases x <;> rfl
    have ha : (Fl.nan).abs = .nan := rfl
    have hz : (Fl.nan).isZero = false := rfl
    unfold formatTerm
    simp only [hc, ha, hz, l1, l2, hE, c1, c0]
    simp [h.2.1, h.2.2]

/-- A case: the plain term `u`. -/
example : renderExpr false ⟨"u".toList, .dflt, .nan⟩ = ['u'] ∧ sig (.fin (1/1000000)) .nan = true := by
  decide +kernel

theorem readRhs_plus {b rest : Name} (h : CleanE b) : readRhs (b ++ rest) = readFrom 0 true [] (b ++ rest) := by
  cases b with
  | nil => simp [CleanE, headOk] at h
  | cons c r =>
    have : c ≠ '-' := by
      intro e; simp [CleanE, headOk, e] at h
    rw [readRhs]
    intro r' he
    simp at he
    exact this he.1

/-- **C36**, rendering: whatever the coefficients, the LaTeX text of a list of terms with readable texts is the left-hand
side, ` = `, and a right-hand side that is `0` if every coefficient is zero and otherwise reads as exactly the terms with
nonzero coefficient, in order, each with the sign of its coefficient and its own text. -/
theorem C36_latex {fmt : Fl → Name} (hf : FmtOk fmt) (lo hi : Fl) (wc lz : Bool) (lhs : Name) (ts : List EqTerm)
    (ht : ∀ t ∈ ts, CleanE (renderExpr lz t)) :
    ∃ rhs, toLatex fmt lo hi wc lz lhs ts = sanitize lhs ++ " = ".toList ++ rhs ∧
      ((ts.filter fun t => !t.coef.isZero) = [] → rhs = ['0']) ∧
      ((ts.filter fun t => !t.coef.isZero) ≠ [] →
        All2 (ShownAs fmt lo hi wc) ((ts.filter fun t => !t.coef.isZero).map fun t => (renderExpr lz t, t.coef)) (readRhs rhs)) := by
  unfold toLatex
  have hk : ∀ t ∈ ts.filter (fun t => !t.coef.isZero), CleanE (renderExpr lz t) := fun t h => ht t (List.mem_filter.1 h).1
  generalize ts.filter (fun t => !t.coef.isZero) = ks at hk
  cases ks with
  | nil => exact ⟨['0'], by simp, fun _ => rfl, fun h => absurd rfl h⟩
  | cons t ks =>
    have all : ∀ ks : List EqTerm, (∀ t ∈ ks, CleanE (renderExpr lz t)) →
        All2 (ShownAs fmt lo hi wc) (ks.map fun t => (renderExpr lz t, t.coef)) (ks.map (formatTerm fmt lo hi wc lz)) ∧
        ∀ p ∈ ks.map (formatTerm fmt lo hi wc lz), clean 0 p.2 = true := by
      intro ks
      induction ks with
      | nil => intro _; exact ⟨.nil, by simp⟩
      | cons t ks ih =>
        intro h
        obtain ⟨a1, a2⟩ := ih fun x hx => h x (by simp [hx])
        obtain ⟨b1, b2⟩ := formatTerm_ok hf lo hi wc lz t (h t (by simp))
        refine ⟨.cons b1 a1, ?_⟩
        intro p hp
        simp only [List.map_cons, List.mem_cons] at hp
        rcases hp with rfl | hp
        · exact b2.1
        · exact a2 p hp
    obtain ⟨a1, a2⟩ := all (t :: ks) hk
    obtain ⟨b1, b2⟩ := formatTerm_ok hf lo hi wc lz t (hk t (by simp))
    refine ⟨(if (formatTerm fmt lo hi wc lz t).1 then (formatTerm fmt lo hi wc lz t).2
      else "- ".toList ++ (formatTerm fmt lo hi wc lz t).2) ++ joinTerms (ks.map (formatTerm fmt lo hi wc lz)), ?_, ?_, ?_⟩
    · simp [List.append_assoc]
    · intro h; simp at h
    · intro _
      have hj := readFrom_join (ks.map (formatTerm fmt lo hi wc lz)) (formatTerm fmt lo hi wc lz t).1
        (formatTerm fmt lo hi wc lz t).2 b2.1 (fun p hp => a2 p (by simp at hp ⊢; right; exact hp))
      have e : readRhs ((if (formatTerm fmt lo hi wc lz t).1 then (formatTerm fmt lo hi wc lz t).2
          else "- ".toList ++ (formatTerm fmt lo hi wc lz t).2) ++ joinTerms (ks.map (formatTerm fmt lo hi wc lz))) =
          (t :: ks).map (formatTerm fmt lo hi wc lz) := by
        cases hs : (formatTerm fmt lo hi wc lz t).1 with
        | true =>
          rw [hs] at hj
          simp only [if_true]
          rw [readRhs_plus b2, hj]
          simp [← hs]
        | false =>
          rw [hs] at hj
          simp only [Bool.false_eq_true, if_false]
          show readFrom 0 false [] ((formatTerm fmt lo hi wc lz t).2 ++ joinTerms (ks.map (formatTerm fmt lo hi wc lz))) = _
          rw [hj]
          simp [← hs]
      rw [e]
      exact a1

/-- The LaTeX of a term tree: that of the expression it stands for. -/
def texOf (lz : Bool) (t : Levels) : Name := ((decode t 0).map (Expr.tex lz)).getD []

theorem reach_tex (lz : Bool) (ctx : Ctx) (hc : ctx.Ok) (hx : ctx.XDen) (htex : ctx.TexOk) (maxDepth : Nat) (hm : 2 ≤ maxDepth)
    {t : Levels} (h : Reach ctx maxDepth t) (l : Name) (c : Fl) :
    renderExpr lz ⟨l, .gen t, c⟩ = texOf lz t ∧ CleanE (texOf lz t) := by
  obtain ⟨root, ls, rfl, hr, hch, hlen⟩ := reach_chain ctx hc hx maxDepth hm h
  obtain ⟨e, h1, h2, _⟩ := decode_ok ctx hc _ _ hch 0 ⟨root, some 0, none⟩ rfl
  have h3 := renderAt_decode lz ctx hc _ _ hch 0 _ e rfl h1
  refine ⟨?_, ?_⟩
  · simp only [renderExpr, texOf, h1, h3]; simp
  · simp only [texOf, h1]; simpa using tex_clean lz htex e h2

/-- **C36**, end to end: for every candidate of the search (one coefficient for the default term `u` and one per term) the
displayed equation reads as exactly the terms, in order, whose coefficient is nonzero and reaches the tolerance, each
with the sign of its own coefficient and its own text; with no such term the right-hand side is `0`. -/
theorem C36_shown (ctx : Ctx) (hc : ctx.Ok) (hx : ctx.XDen) (htex : ctx.TexOk) (maxDepth : Nat) (hm : 2 ≤ maxDepth)
    (ts : List Levels) (h : ∀ t ∈ ts, Reach ctx maxDepth t) (coefs : List Fl) (hl : coefs.length = ts.length + 1)
    {fmt : Fl → Name} (hf : FmtOk fmt) (lo hi tol : Fl) (wc lz : Bool) (lhs : Name) :
    ∃ rhs, toLatex fmt lo hi wc lz lhs (extractDetails tol 1 [['u']] ts coefs) = sanitize lhs ++ " = ".toList ++ rhs ∧
      ((((['u'] :: ts.map (texOf lz)).zip coefs).filter fun p => sig tol p.2 && !p.2.isZero) = [] → rhs = ['0']) ∧
      ((((['u'] :: ts.map (texOf lz)).zip coefs).filter fun p => sig tol p.2 && !p.2.isZero) ≠ [] →
        All2 (ShownAs fmt lo hi wc) (((['u'] :: ts.map (texOf lz)).zip coefs).filter fun p => sig tol p.2 && !p.2.isZero)
          (readRhs rhs)) := by
  have hx1 := C36_extract_partial tol [['u']] ts coefs (by simp; omega)
  have hu : renderExpr lz ⟨['u'], .dflt, .nan⟩ = ['u'] := by cases lz <;> rfl
  have hmem : ∀ t ∈ extractDetails tol 1 [['u']] ts coefs, ∃ c, t = ⟨['u'], .dflt, c⟩ ∨
      ∃ s ∈ ts, t = ⟨((inorder s).getD "").toList, .gen s, c⟩ := by
    intro t ht
    rw [show (1 : Nat) = [['u']].length from rfl, hx1] at ht
    simp only [List.map_cons, List.map_nil, List.mem_map, List.mem_filter] at ht
    obtain ⟨p, ⟨hp, _⟩, rfl⟩ := ht
    have := (List.of_mem_zip hp).1
    simp at this
    rcases this with h0 | ⟨s, hs, h0⟩
    · exact ⟨p.2, Or.inl (by rw [h0])⟩
    · exact ⟨p.2, Or.inr ⟨s, hs, by rw [← h0]⟩⟩
  have hclean : ∀ t ∈ extractDetails tol 1 [['u']] ts coefs, CleanE (renderExpr lz t) := by
    intro t ht
    obtain ⟨c, rfl | ⟨s, hs, rfl⟩⟩ := hmem t ht
    · show CleanE (sanitize ['u']); exact ⟨by decide, by decide⟩
    · have := reach_tex lz ctx hc hx htex maxDepth hm (h s hs) (((inorder s).getD "").toList) c
      rw [this.1]; exact this.2
  have heq : ((extractDetails tol 1 [['u']] ts coefs).filter fun t => !t.coef.isZero).map (fun t => (renderExpr lz t, t.coef)) =
      ((['u'] :: ts.map (texOf lz)).zip coefs).filter fun p => sig tol p.2 && !p.2.isZero := by
    rw [show (1 : Nat) = [['u']].length from rfl, hx1]
    simp only [List.map_cons, List.map_nil, List.filter_map, List.map_map, List.filter_filter]
    have hz : (['u'] :: ts.map (texOf lz)).zip coefs =
        (((([['u']].map fun n => (n, Src.dflt)) ++ ts.map fun t => (((inorder t).getD "").toList, Src.gen t)).zip coefs).map
          fun p => (renderExpr lz ⟨p.1.1, p.1.2, p.2⟩, p.2)) := by
      cases coefs with
      | nil => simp at hl
      | cons c cs =>
        simp only [List.map_cons, List.map_nil, List.cons_append, List.nil_append, List.zip_cons_cons]
        have e0 : renderExpr lz ⟨['u'], .dflt, c⟩ = ['u'] := by cases lz <;> rfl
        rw [e0]
        congr 1
        clear hx1 hmem hclean hl
        induction ts generalizing cs with
        | nil => simp
        | cons t ts ih =>
          cases cs with
          | nil => simp
          | cons d cs =>
            simp only [List.map_cons, List.zip_cons_cons]
            rw [ih (fun s hs => h s (by simp [hs])) cs,
              (reach_tex lz ctx hc hx htex maxDepth hm (h t (by simp)) (((inorder t).getD "").toList) d).1]
    rw [hz, List.filter_map]
    simp only [List.map_cons, List.map_nil]
    congr 1
    apply List.filter_congr
    intro p _
    simp [Bool.and_comm]
  obtain ⟨rhs, h1, h2, h3⟩ := C36_latex hf lo hi wc lz lhs _ hclean
  refine ⟨rhs, h1, ?_, ?_⟩
  · intro h0
    apply h2
    rw [← heq] at h0
    simpa using h0
  · intro h0
    rw [← heq] at h0 ⊢
    apply h3
    intro e; apply h0; rw [e]; rfl

/-! ## C36: the plain-text form -/

theorem conciseLoop_eq (fmt : Fl → Name) (hne : ∀ x, fmt x ≠ []) (tol : Fl) (labels : List Name) :
    ∀ (cs : List Fl) (i : Nat) (name : Name), labels.length = i + cs.length → (i = 0 → name = []) →
    ∃ items, items = ((labels.drop i).zip cs).filter (fun p => sig tol p.2) ∧
      conciseLoop fmt tol labels i cs name = some (if name = [] then (" + ".toList).intercalate (items.map fun p => fmt p.2 ++ p.1)
        else name ++ (items.map fun p => " + ".toList ++ (fmt p.2 ++ p.1)).flatten) := by
  have inter : ∀ (a : Name) (l : List Name), (" + ".toList).intercalate (a :: l) = a ++ (l.map (" + ".toList ++ ·)).flatten := by
    intro a l
    induction l generalizing a with
    | nil => simp
    | cons b l ih =>
      rw [List.intercalate_cons_cons, ih b]
      simp
  intro cs
  induction cs with
  | nil =>
    intro i name _ _
    refine ⟨[], by simp, ?_⟩
    by_cases h : name = [] <;> simp [conciseLoop, h]
  | cons c cs ih =>
    intro i name hl h0
    simp only [List.length_cons] at hl
    have g : i < labels.length := by omega
    refine ⟨_, rfl, ?_⟩
    rw [List.drop_eq_getElem_cons g]
    simp only [List.zip_cons_cons, List.filter_cons]
    unfold conciseLoop
    by_cases hs : c.abs.lt tol = true
    · rw [if_pos hs]
      by_cases hi : name = []
      · obtain ⟨_, rfl, h2⟩ := ih (i + 1) name (by omega) (by omega)
        rw [h2]; simp [sig_eq, hs]
      · obtain ⟨_, rfl, h2⟩ := ih (i + 1) name (by omega) (by omega)
        rw [h2]; simp [sig_eq, hs]
    · rw [if_neg hs, List.getElem?_eq_getElem g]
      simp only
      have hb : name ++ (if i ≠ 0 ∧ name ≠ [] then " + ".toList else []) ++ fmt c ++ labels[i] ≠ [] := by
        simp [hne c]
      obtain ⟨_, rfl, h2⟩ := ih (i + 1) _ (by omega) (by omega)
      rw [h2, if_neg hb]
      by_cases hi : name = []
      · simp only [hi, if_true, ne_eq, not_true_eq_false, and_false, if_false, sig_eq, hs]
        simp only [Bool.not_false, if_true, List.map_cons]
        rw [inter]
        simp [Function.comp_def]
      · have : i ≠ 0 := fun e => hi (h0 e)
        simp [hi, this, sig_eq, hs]

/-- **C36**, plain text: `concise_visualize` prints exactly the terms whose coefficient reaches its tolerance, in order,
each as its (rounded) coefficient followed by its own label, separated by ` + `; it does not raise. -/
theorem C36_concise (fmt : Fl → Name) (hne : ∀ x, fmt x ≠ []) (tol : Fl) (labels : List Name) (coefs : List Fl)
    (h : labels.length = coefs.length) :
    conciseLoop fmt tol labels 0 coefs [] =
      some ((" + ".toList).intercalate (((labels.zip coefs).filter fun p => sig tol p.2).map fun p => fmt p.2 ++ p.1)) := by
  obtain ⟨_, rfl, h2⟩ := conciseLoop_eq fmt hne tol labels coefs 0 [] (by omega) (fun _ => rfl)
  simpa using h2

/-! ## Tables whose names can be read back -/

theorem nameRe_neutral {n : Name} (h : nameRe n = true) : NeutralName n := by
  have alnum : ∀ d : Char, d.isAlphanum = true ∨ d = '_' → neutral d = true := by
    intro d hd
    unfold neutral
    simp only [Bool.and_eq_true, bne_iff_ne, ne_eq]
    rcases hd with hd | hd
    · refine ⟨⟨⟨⟨?_, ?_⟩, ?_⟩, ?_⟩, ?_⟩ <;> (rintro rfl; revert hd; decide)
    · subst hd; decide
  have body : ∀ b : Name, (match b with | [] => false | c :: cs => c.isAlpha && cs.all fun d => d.isAlphanum || d == '_') = true →
      NeutralName b := by
    intro b hb
    cases b with
    | nil => simp at hb
    | cons c cs =>
      simp only [Bool.and_eq_true, List.all_eq_true, Bool.or_eq_true, beq_iff_eq] at hb
      refine ⟨by simp, ?_⟩
      intro d hd
      simp at hd
      rcases hd with rfl | hd
      · exact alnum _ (Or.inl (by simp [Char.isAlphanum, hb.1]))
      · exact alnum _ (hb.2 d hd)
  unfold nameRe at h
  by_cases hl : n.getLast? = some '\n'
  · simp only [if_pos hl] at h
    have hb := body _ h
    have hne : n ≠ [] := by intro e; simp [e] at hl
    have hlast : n.getLast hne = '\n' := by
      rw [List.getLast?_eq_some_getLast hne] at hl; simpa using hl
    refine ⟨hne, ?_⟩
    intro c hc
    rw [← List.dropLast_concat_getLast hne] at hc
    simp only [List.mem_append, List.mem_singleton] at hc
    rcases hc with hc | hc
    · exact hb.2 c hc
    · rw [hc, hlast]; decide
  · simp only [if_neg hl] at h
    exact body _ h

theorem validName_neutral {n : Name} (h : validName [] n = true) : NeutralName n := by
  simp only [validName, Bool.and_eq_true] at h
  exact nameRe_neutral h.1.2

/-- Every successfully built problem without parameter fields (finite differences) has tables whose terms read back. -/
theorem built_texOk {p : Prob} {w : Pays} {ctx : Ctx} (h : p.build w = some ctx) (hp : p.params = []) (hq : p.pre = []) :
    ctx.TexOk := by
  obtain ⟨h1, _, _, _, _, _, _, _, _, rfl⟩ := build_spec h
  obtain ⟨n1, n2, _, _⟩ := namesOk_spec h1
  have ax : ∀ a ∈ p.axes, NeutralName a.toList := by
    intro a ha
    have := n1 a ha
    simp only [validAxis, Bool.and_eq_true] at this
    exact validName_neutral this.1
  constructor
  · intro e he
    simp only [Prob.tables, List.mem_cons, List.not_mem_nil, or_false] at he
    rcases he with rfl | rfl | rfl | rfl | rfl | rfl | rfl | rfl <;> decide
  · intro e he
    rcases he with he | he
    · simp only [Prob.tables, Prob.vars, if_true, List.mem_append, List.mem_map, List.mem_cons, List.not_mem_nil, or_false] at he
      rcases he with ((((⟨g, hg, rfl⟩ | ⟨a, ha, rfl⟩) | ⟨q, hq', rfl⟩) | rfl) | ⟨k, hk, rfl⟩)
      · exact validName_neutral (n2 g hg)
      · exact ax a (List.mem_filter.1 ha).1
      · rw [hp] at hq'; simp at hq'
      · show NeutralName "0".toList
        exact ⟨by decide, by decide⟩
      · unfold Prob.gradKeys at hk
        rw [mem_insertKeys, hq] at hk
        simp only [List.not_mem_nil, false_or, List.mem_flatMap, List.mem_map] at hk
        obtain ⟨f, hf, a, ha, rfl⟩ := hk
        have q1 := validName_neutral (n2 f hf)
        have q2 := ax a (List.mem_filter.1 ha).1
        show NeutralName (dkey f a).toList
        rw [dkey_toList]
        refine ⟨by simp, ?_⟩
        intro c hc
        simp only [List.mem_append, List.mem_cons] at hc
        rcases hc with hc | rfl | hc
        · exact q1.2 c hc
        · decide
        · exact q2.2 c hc
    · simp only [Prob.tables, Prob.denTable, List.mem_map] at he
      obtain ⟨a, ha, rfl⟩ := he
      exact ax a (List.mem_filter.1 ha).1

def exDraw2E (_ _ : Nat) : GenDraw := ⟨true, ⟨"x", 0, 1⟩, ⟨"v", 0, 0⟩, opD⟩

/-- A toy data model (arrays of one integer). -/
def exSemE : Sem Int where
  var e := if e.name = "u" then 3 else if e.name = "x" then 2 else 0
  un e v := if e.name = "^2" then v * v else v * v * v
  bin e a b := if e.name = "+" then a + b else if e.name = "-" then a - b else if e.name = "*" then a * b else a / b
  der _ a ax := if ax = "x" then a + 100 else a + 200
  near0 b := b == 0
  perturb b := b + 1
  isZero v := v == 0
  lhs := "t"
  axes := ["x", "y", "t"]
  guard := true

def exFmt : Fl → Name
  | .fin q => if q.abs = 2 then ['2'] else if q.abs = 1 / 2 then ['0', '.', '5'] else ['1']
  | _ => ['n', 'a', 'n']

/-- A case: the default term and two terms, the default term below the tolerance. -/
example :
    let ts := [genTree 4 opMul exDraw, genTree 2 opD exDraw2E]
    exCtx.TexOk ∧ (∀ t ∈ ts, Reach exCtx 4 t ∨ Reach exCtx 2 t) ∧ FmtOk exFmt ∧
    toLatex exFmt (.fin (99999 / 100000)) (.fin (100001 / 100000)) true false "u_t".toList
      (extractDetails (.fin (1 / 100000)) 1 [['u']] ts [.fin 0, .fin (-1 / 2), .fin 2]) =
      "u_t = - 0.5\\,u \\cdot u_{yyy} + 2\\,v_{x}".toList := by
  refine ⟨built_texOk (p := exProb) (w := exPays) (by simp [exCtx]) rfl rfl, ?_, ?_, by decide +kernel⟩
  · have hf : ∀ d k, (exDraw d k).From exCtx := by
      intro d k
      refine ⟨by simp only [exDraw]; decide, by simp only [exDraw]; decide, ?_⟩
      simp only [exDraw]
      split <;> decide
    have hf2 : ∀ d k, (exDraw2E d k).From exCtx := by
      intro d k
      refine ⟨by simp only [exDraw2E]; decide, by simp only [exDraw2E]; decide, by simp only [exDraw2E]; decide⟩
    intro t ht
    simp at ht
    rcases ht with rfl | rfl
    · exact Or.inl (.gen _ _ (by decide) hf)
    · exact Or.inr (.gen _ _ (by decide) hf2)
  · constructor
    · intro x c hc
      unfold exFmt at hc
      split at hc
      · split at hc
        · simp at hc; subst hc; decide
        · split at hc
          · simp at hc; rcases hc with rfl | rfl | rfl <;> decide
          · simp at hc; subst hc; decide
      · simp at hc; rcases hc with rfl | rfl | rfl <;> decide
    · intro x
      unfold exFmt
      split
      · split
        · exact ⟨_, _, rfl, by decide, by decide⟩
        · split <;> exact ⟨_, _, rfl, by decide, by decide⟩
      · exact ⟨_, _, rfl, by decide, by decide⟩

/-! ## C50: the parenthesised text of a term determines the term -/

/-- The expression as far as names show it (payloads forgotten). -/
def named : Expr → Expr
  | .leaf e => .leaf ⟨e.name, 0, 0⟩
  | .un e c => .un ⟨e.name, 1, 0⟩ (named c)
  | .bin e l r => .bin ⟨e.name, 2, 0⟩ (named l) (named r)

/-- Symbol names without blanks and parentheses. -/
def blankFree (n : String) : Prop := n.toList ≠ [] ∧ ∀ c ∈ n.toList, c ≠ ' ' ∧ c ≠ '(' ∧ c ≠ ')'

def NamesOk : Expr → Prop
  | .leaf e => blankFree e.name
  | .un e c => blankFree e.name ∧ NamesOk c
  | .bin e l r => blankFree e.name ∧ NamesOk l ∧ NamesOk r

def endOk : Name → Prop
  | [] => True
  | c :: _ => c = ' ' ∨ c = '(' ∨ c = ')'

theorem span_unique : ∀ (a b r s : Name), (∀ c ∈ a, c ≠ ' ' ∧ c ≠ '(' ∧ c ≠ ')') → (∀ c ∈ b, c ≠ ' ' ∧ c ≠ '(' ∧ c ≠ ')') →
    endOk r → endOk s → a ++ r = b ++ s → a = b ∧ r = s := by
  intro a
  induction a with
  | nil =>
    intro b r s _ hb hr _ h
    cases b with
    | nil => exact ⟨rfl, h⟩
    | cons x b =>
      simp at h; subst h
      have := hb x (by simp)
      simp only [endOk] at hr
      rcases hr with h | h | h
      · exact absurd h this.1
      · exact absurd h this.2.1
      · exact absurd h this.2.2
  | cons x a ih =>
    intro b r s ha hb hr hs h
    cases b with
    | nil =>
      simp at h; subst h
      have := ha x (by simp)
      simp only [endOk] at hs
      rcases hs with h | h | h
      · exact absurd h this.1
      · exact absurd h this.2.1
      · exact absurd h this.2.2
    | cons y b =>
      simp at h
      obtain ⟨rfl, h⟩ := h
      obtain ⟨h1, h2⟩ := ih b r s (fun c hc => ha c (by simp [hc])) (fun c hc => hb c (by simp [hc])) hr hs h
      exact ⟨by rw [h1], h2⟩

theorem shown_head (e : Expr) (h : NamesOk e) : ∃ c r, e.shown.toList = c :: r ∧ c ≠ ' ' ∧ c ≠ ')' ∧
    (c = '(' ↔ ∀ x, e ≠ .leaf x) := by
  cases e with
  | leaf e =>
    obtain ⟨h1, h2⟩ := h
    cases hn : e.name.toList with
    | nil => exact absurd hn h1
    | cons c r =>
      have := h2 c (by rw [hn]; simp)
      exact ⟨c, r, hn, this.1, this.2.2, by simp [this.2.1]⟩
  | un e c => exact ⟨'(', _, by simp only [Expr.shown, String.toList_append]; rfl, by decide, by decide, by simp⟩
  | bin e l r => exact ⟨'(', _, by simp only [Expr.shown, String.toList_append]; rfl, by decide, by decide, by simp⟩

theorem shown_un (e : Entry) (c : Expr) : (Expr.un e c).shown.toList = '(' :: ' ' :: (e.name.toList ++ ' ' :: (c.shown.toList ++ [')'])) := by
  simp [Expr.shown, String.toList_append]
theorem shown_bin (e : Entry) (l r : Expr) : (Expr.bin e l r).shown.toList =
    '(' :: (l.shown.toList ++ ' ' :: (e.name.toList ++ ' ' :: (r.shown.toList ++ [')']))) := by
  simp [Expr.shown, String.toList_append]

theorem shown_parse : ∀ (e e' : Expr) (r r' : Name), NamesOk e → NamesOk e' → ((∃ x, e = .leaf x) → endOk r) →
    ((∃ x, e' = .leaf x) → endOk r') →
    e.shown.toList ++ r = e'.shown.toList ++ r' → named e = named e' ∧ r = r' := by
  intro e
  induction e with
  | leaf x =>
    intro e' r r' h h' hr hr' he
    cases e' with
    | leaf y =>
      obtain ⟨a, b⟩ := span_unique _ _ _ _ h.2 h'.2 (hr ⟨_, rfl⟩) (hr' ⟨_, rfl⟩) he
      refine ⟨?_, b⟩
      simp [named, String.toList_inj.1 a]
    | un y c =>
      exfalso
      obtain ⟨d, q, e1, _, _, e2⟩ := shown_head _ h
      rw [e1, shown_un] at he; simp at he
      exact e2.1 he.1 x rfl
    | bin y l s =>
      exfalso
      obtain ⟨d, q, e1, _, _, e2⟩ := shown_head _ h
      rw [e1, shown_bin] at he; simp at he
      exact e2.1 he.1 x rfl
  | un x c ih =>
    intro e' r r' h h' hr hr' he
    cases e' with
    | leaf y =>
      exfalso
      obtain ⟨d, q, e1, _, _, e2⟩ := shown_head _ h'
      rw [e1, shown_un] at he; simp at he
      exact e2.1 he.1.symm y rfl
    | un y c' =>
      rw [shown_un, shown_un] at he
      simp only [List.cons_append, List.append_assoc, List.cons.injEq, true_and] at he
      obtain ⟨a, b⟩ := span_unique _ _ _ _ h.1.2 h'.1.2 (by simp [endOk]) (by simp [endOk]) he
      simp only [List.cons.injEq, true_and] at b
      obtain ⟨a2, b2⟩ := ih c' _ _ h.2 h'.2 (fun _ => by simp [endOk]) (fun _ => by simp [endOk]) b
      refine ⟨by simp [named, String.toList_inj.1 a, a2], by simpa using b2⟩
    | bin y l s =>
      exfalso
      obtain ⟨d, q, e1, e2, _⟩ := shown_head _ h'.2.1
      rw [shown_un, shown_bin, e1] at he
      simp at he
      exact e2 he.1.symm
  | bin x l s ihl ihs =>
    intro e' r r' h h' hr hr' he
    cases e' with
    | leaf y =>
      exfalso
      obtain ⟨d, q, e1, _, _, e2⟩ := shown_head _ h'
      rw [e1, shown_bin] at he; simp at he
      exact e2.1 he.1.symm y rfl
    | un y c =>
      exfalso
      obtain ⟨d, q, e1, e2, _⟩ := shown_head _ h.2.1
      rw [shown_un, shown_bin, e1] at he
      simp at he
      exact e2 he.1
    | bin y l' s' =>
      rw [shown_bin, shown_bin] at he
      simp only [List.cons_append, List.append_assoc, List.cons.injEq, true_and] at he
      obtain ⟨a1, b1⟩ := ihl l' _ _ h.2.1 h'.2.1 (fun _ => by simp [endOk]) (fun _ => by simp [endOk]) he
      simp only [List.cons.injEq, true_and] at b1
      obtain ⟨a2, b2⟩ := span_unique _ _ _ _ h.1.2 h'.1.2 (by simp [endOk]) (by simp [endOk]) b1
      simp only [List.cons.injEq, true_and] at b2
      obtain ⟨a3, b3⟩ := ihs s' _ _ h.2.2 h'.2.2 (fun _ => by simp [endOk]) (fun _ => by simp [endOk]) b2
      refine ⟨by simp [named, String.toList_inj.1 a2, a1, a3], by simpa using b3⟩

/-- **C50**: the parenthesised text shown for a term determines it: two terms over blank-free names with the same text are
the same expression (up to the data behind equal names). -/
theorem C50_text_determines_term (e e' : Expr) (h : NamesOk e) (h' : NamesOk e') (he : e.shown = e'.shown) :
    named e = named e' := by
  have := shown_parse e e' [] [] h h' (fun _ => trivial) (fun _ => trivial) (by rw [he])
  exact this.1

/-- The text of a candidate (`PDE.visualize`) determines its list of terms: since the texts decide whether a candidate was
seen before, no two different candidates are ever taken for the same. -/
theorem C50_text_determines_candidate (es es' : List Expr) (h : ∀ e ∈ es, NamesOk e ∧ ∀ x, e ≠ .leaf x)
    (h' : ∀ e ∈ es', NamesOk e ∧ ∀ x, e ≠ .leaf x)
    (he : "+".intercalate (es.map Expr.shown) = "+".intercalate (es'.map Expr.shown)) : es.map named = es'.map named := by
  have inter : ∀ l : List Expr, ("+".intercalate (l.map Expr.shown)).toList =
      match l with
      | [] => []
      | e :: l => e.shown.toList ++ (l.map fun e => '+' :: e.shown.toList).flatten := by
    intro l
    rw [String.toList_intercalate]
    cases l with
    | nil => rfl
    | cons e l =>
      simp only [List.map_cons, List.map_map]
      induction l generalizing e with
      | nil => simp
      | cons b l ih => 
        have := ih b
        simp only [List.map_cons, List.intercalate_cons_cons, Function.comp_apply] at this ⊢
        rw [this]
        simp
  have tails : ∀ (l l' : List Expr), (∀ e ∈ l, NamesOk e ∧ ∀ x, e ≠ .leaf x) → (∀ e ∈ l', NamesOk e ∧ ∀ x, e ≠ .leaf x) →
      (l.map fun e => '+' :: e.shown.toList).flatten = (l'.map fun e => '+' :: e.shown.toList).flatten → l.map named = l'.map named := by
    intro l
    induction l with
    | nil => intro l' _ _ hh; cases l' with
      | nil => rfl
      | cons => simp at hh
    | cons e l ih =>
      intro l' h1 h2 hh
      cases l' with
      | nil => simp at hh
      | cons e' l' =>
        simp only [List.map_cons, List.flatten_cons, List.cons_append, List.cons.injEq, true_and] at hh
        have p1 := h1 e (by simp)
        have p2 := h2 e' (by simp)
        obtain ⟨a, b⟩ := shown_parse e e' _ _ p1.1 p2.1 (fun ⟨x, hx⟩ => absurd hx (p1.2 x)) (fun ⟨x, hx⟩ => absurd hx (p2.2 x)) hh
        simp [a, ih l' (fun x hx => h1 x (by simp [hx])) (fun x hx => h2 x (by simp [hx])) b]
  have he2 := congrArg String.toList he
  rw [inter, inter] at he2
  cases es with
  | nil =>
    cases es' with
    | nil => rfl
    | cons e' l' =>
      obtain ⟨c, r, e1, _⟩ := shown_head e' (h' e' (by simp)).1
      simp [e1] at he2
  | cons e l =>
    cases es' with
    | nil =>
      obtain ⟨c, r, e1, _⟩ := shown_head e (h e (by simp)).1
      simp [e1] at he2
    | cons e' l' =>
      simp only at he2
      have p1 := h e (by simp)
      have p2 := h' e' (by simp)
      obtain ⟨a, b⟩ := shown_parse e e' _ _ p1.1 p2.1 (fun ⟨x, hx⟩ => absurd hx (p1.2 x)) (fun ⟨x, hx⟩ => absurd hx (p2.2 x)) he2
      simp [a, tails l l' (fun x hx => h x (by simp [hx])) (fun x hx => h' x (by simp [hx])) b]

/-- Legal terms over the tables of a built problem (no parameter fields) have blank-free names. -/
theorem legal_namesOk {ctx : Ctx} (h : ctx.TexOk) : ∀ e, Legal ctx e → NamesOk e := by
  have op : ∀ x ∈ ctx.OPS, blankFree x.name := by
    intro x hx
    have := h.ops x hx
    have all : ∀ p ∈ stdOps, p.1.isEmpty = false ∧ p.1.all (fun c => c != ' ' && c != '(' && c != ')') = true := by decide
    have := all _ this
    simp only [List.isEmpty_eq_false_iff, List.all_eq_true, Bool.and_eq_true, bne_iff_ne, ne_eq] at this
    exact ⟨this.1, fun c hc => ⟨(this.2 c hc).1.1, (this.2 c hc).1.2, (this.2 c hc).2⟩⟩
  intro e
  induction e with
  | leaf x =>
    intro hl
    have := h.vars x hl
    refine ⟨this.1, fun c hc => ?_⟩
    have := this.2 c hc
    simp only [neutral, Bool.and_eq_true, bne_iff_ne, ne_eq] at this
    exact ⟨this.1.1.1.1, this.1.1.1.2, this.1.1.2⟩
  | un x c ih => intro hl; exact ⟨op x hl.1, ih hl.2.2⟩
  | bin x l r ihl ihr => intro hl; exact ⟨op x hl.1, ihl hl.2.2.1, ihr hl.2.2.2.1⟩

/-- **C50**, the terms of a search (generated and mutated any number of times, in a problem without parameter fields): two term trees printed as the same text
stand for the same expression. -/
theorem C50_search_terms (ctx : Ctx) (hc : ctx.Ok) (hx : ctx.XDen) (htex : ctx.TexOk) (maxDepth : Nat) (hm : 2 ≤ maxDepth)
    {t t' : Levels} (h : Reach ctx maxDepth t) (h' : Reach ctx maxDepth t') (hs : inorder t = inorder t') :
    ∃ e e', decode t 0 = some e ∧ decode t' 0 = some e' ∧ named e = named e' := by
  obtain ⟨e, d1, l1, _, _, _, _, s1⟩ := C20_wellformed_partial ctx hc hx maxDepth hm h
  obtain ⟨e', d2, l2, _, _, _, _, s2⟩ := C20_wellformed_partial ctx hc hx maxDepth hm h'
  refine ⟨e, e', d1, d2, C50_text_determines_term e e' (legal_namesOk htex e l1) (legal_namesOk htex e' l2) ?_⟩
  rw [s1, s2] at hs
  exact Option.some.inj hs

theorem root_not_leaf (ctx : Ctx) (hc : ctx.Ok) (e : Expr) (hl : Legal ctx e) (hr : e.root ∈ ctx.ROOT) (x : Entry) : e ≠ .leaf x := by
  rintro rfl
  have h1 := hc.ops _ (hc.root _ hr)
  have h2 : x.arity = 0 := hl.elim (hc.vars x) (hc.den x)
  have h3 : (Expr.leaf x).root = x := rfl
  rw [h3] at h1
  omega

/-- **C50**, the candidates of a search: if the text of a new candidate (its terms joined by `+`, what the duplicate check compares) equals that of an earlier
one, both consist of the same expressions in the same order. -/
theorem C50_search_candidates (ctx : Ctx) (hc : ctx.Ok) (hx : ctx.XDen) (htex : ctx.TexOk) (maxDepth : Nat) (hm : 2 ≤ maxDepth)
    (ts ts' : List Levels) (h : ∀ t ∈ ts, Reach ctx maxDepth t) (h' : ∀ t ∈ ts', Reach ctx maxDepth t)
    (hs : "+".intercalate (ts.map fun t => (inorder t).getD "") = "+".intercalate (ts'.map fun t => (inorder t).getD "")) :
    ts.map (fun t => (decode t 0).map named) = ts'.map (fun t => (decode t 0).map named) := by
  have key : ∀ l : List Levels, (∀ t ∈ l, Reach ctx maxDepth t) → ∃ es : List Expr,
      l.map (fun t => (decode t 0).map named) = es.map (fun e => some (named e)) ∧
      (l.map fun t => (inorder t).getD "") = es.map Expr.shown ∧ ∀ e ∈ es, NamesOk e ∧ ∀ x, e ≠ .leaf x := by
    intro l
    induction l with
    | nil => intro _; exact ⟨[], rfl, rfl, by simp⟩
    | cons t l ih =>
      intro hl
      obtain ⟨es, a1, a2, a3⟩ := ih (fun s hs => hl s (by simp [hs]))
      obtain ⟨e, d1, l1, r1, _, _, _, s1⟩ := C20_wellformed_partial ctx hc hx maxDepth hm (hl t (by simp))
      refine ⟨e :: es, by simp [a1, d1], by simp [a2, s1], ?_⟩
      intro f hf
      rcases List.mem_cons.1 hf with rfl | hf
      · exact ⟨legal_namesOk htex f l1, root_not_leaf ctx hc f l1 r1⟩
      · exact a3 f hf
  obtain ⟨es, a1, a2, a3⟩ := key ts h
  obtain ⟨es', b1, b2, b3⟩ := key ts' h'
  rw [a2, b2] at hs
  have := C50_text_determines_candidate es es' a3 b3 hs
  rw [a1, b1]
  have e1 := congrArg (List.map some) this
  simpa [Function.comp_def] using e1

example : NamesOk (.bin opMul (.leaf ⟨"u", 0, 0⟩) (.un opSq (.leaf ⟨"x", 0, 1⟩))) ∧
    (Expr.bin opMul (.leaf ⟨"u", 0, 0⟩) (.un opSq (.leaf ⟨"x", 0, 1⟩))).shown = "(u * ( ^2 x))" := by
  refine ⟨⟨⟨by decide, by decide⟩, ⟨by decide, by decide⟩, ⟨by decide, by decide⟩, by decide, by decide⟩, by decide⟩

/-! ## C51: the LaTeX text does not determine the term -/

def vU : Expr := .leaf ⟨"u", 0, 0⟩
def vX : Expr := .leaf ⟨"x", 0, 1⟩

/-- The letters of a name, without the marks LaTeX uses for subscripts and symbols. -/
def letters (n : Name) : Name := n.filter (fun c => !(c == '\\' || c == '{' || c == '}' || c == '_'))

/-- **C51**, the names: every variable is shown with its own letters, so two variables shown alike differ at most in subscript marks (`ux`, `u_x`). -/
theorem C51_leaf_letters (n : Name) : letters (renderLeaf n) = letters n := by
  unfold renderLeaf
  cases h : leafMap.lookup n with
  | none => rfl
  | some v =>
    have hall : ∀ p ∈ leafMap, letters p.2 = letters p.1 := by decide
    obtain ⟨l1, l2, heq, _⟩ := List.lookup_eq_some_iff.1 h
    exact hall (n, v) (by rw [heq]; simp)

theorem C51_leaf_injective (n m : Name) (h : renderLeaf n = renderLeaf m) : letters n = letters m := by
  rw [← C51_leaf_letters n, ← C51_leaf_letters m, h]

/-- **C51** fails, subscript notation: `∂(u·u)/∂x` and `u·(∂u/∂x)` are both shown as `u \\cdot u_{x}`, although their values
differ. -/
theorem C51_derivative_counterexample :
    let a := Expr.bin opD (.bin opMul vU vU) vX
    let b := Expr.bin opMul vU (.bin opD vU vX)
    Legal exCtx a ∧ Legal exCtx b ∧ a.tex false = b.tex false ∧ a.value exSemE ≠ b.value exSemE := by
  refine ⟨?_, ?_, by decide +kernel, by decide +kernel⟩
  · simp only [Legal]
    exact ⟨by decide, rfl, ⟨by decide, rfl, Or.inl (by decide), Or.inl (by decide), fun h => absurd h (by decide)⟩, Or.inl (by decide), fun _ => ⟨_, rfl, by decide⟩⟩
  · simp only [Legal]
    exact ⟨by decide, rfl, Or.inl (by decide), ⟨by decide, rfl, Or.inl (by decide), Or.inl (by decide), fun _ => ⟨_, rfl, by decide⟩⟩, fun h => absurd h (by decide)⟩

/-- **C51** fails in both notations: the square of a product of two bracketed factors is shown without brackets, exactly like
the product with only the second factor squared. -/
theorem C51_power_counterexample :
    let a := Expr.un opSq (.bin opMul (.bin opAdd vU vX) (.bin opSub vU vX))
    let b := Expr.bin opMul (.bin opAdd vU vX) (.un opSq (.bin opSub vU vX))
    Legal exCtx a ∧ Legal exCtx b ∧ (∀ lz, a.tex lz = b.tex lz) ∧ a.value exSemE ≠ b.value exSemE := by
  refine ⟨?_, ?_, ?_, by decide +kernel⟩
  · simp only [Legal]
    exact ⟨by decide, rfl, by decide, rfl, ⟨by decide, rfl, Or.inl (by decide), Or.inl (by decide), fun h => absurd h (by decide)⟩,
      ⟨by decide, rfl, Or.inl (by decide), Or.inl (by decide), fun h => absurd h (by decide)⟩, fun h => absurd h (by decide)⟩
  · simp only [Legal]
    exact ⟨by decide, rfl, ⟨by decide, rfl, Or.inl (by decide), Or.inl (by decide), fun h => absurd h (by decide)⟩,
      ⟨by decide, rfl, by decide, rfl, Or.inl (by decide), Or.inl (by decide), fun h => absurd h (by decide)⟩, fun h => absurd h (by decide)⟩
  · intro lz; cases lz <;> decide +kernel

/-! ## C52: the left-hand side and the default term -/

/-- **C52** (partial): for user-supplied data the equation is shown for `u_t` with default term `u`; this names the data that
was used when the target field is `u` and the left-hand-side axis is `t`. -/
theorem C52_lhs_partial : sanitize (inferLhs none) = "u_t".toList ∧
    ∀ p : Prob, p.target = "u" → p.lhs = "t" → sanitize (inferLhs none) = (dkey p.target p.lhs).toList := by
  refine ⟨by decide, ?_⟩
  intro p h1 h2
  rw [h1, h2]; decide

/-- How a default label is cleaned: products, squares and cubes. -/
example : sanitize " u^2 * ux^3 ".toList = "u^{2}\\cdotux^{3}".toList ∧ sanitize "  ".toList = "1".toList ∧ sanitize " u^4".toList = "u^4".toList := by
  decide +kernel

/-- **C52** fails otherwise: for a problem with fields `u`, `v`, target `v` and left-hand-side axis `y`, the displayed equation
still reads `u_t = … u`, where `u` stands for the data of `v` although a field `u` exists. -/
theorem C52_other_target_counterexample :
    let p : Prob := ⟨["u", "v"], ["x", "y"], ["x", "y"], "y", "v", none, [], [], true⟩
    (p.build exPays).isSome = true ∧ "u" ∈ p.fields ∧ p.target = "v" ∧
    toLatex exFmt (.fin (99999 / 100000)) (.fin (100001 / 100000)) true false (inferLhs none)
      (extractDetails (.fin (1 / 100000)) 1 [['u']] [] [.fin 2]) = "u_t = 2\\,u".toList := by
  refine ⟨by decide, by decide, rfl, by decide +kernel⟩

end Verif.Claims
