import Verif.Dlga.Run
import Verif.Claims.Dlga
import Verif.Claims.DlgaMeta
/-!
# C179: a whole run of DLGA
-/
namespace Verif.Dlga.Run.Claims
open Verif.Dlga Verif.Dlga.Meta Verif.Dlga.Run Verif.Dlga.Claims Verif.Claims Verif.Sga.Autograd Verif.Dlga.Meta.Claims

variable {V F : Type} [LinearOrder F]

/-- **C179**, for every way of scoring: every generation scores as many genomes as the population has, all legal, and none of those scored in any
generation is better than the returned one. -/
theorem C179_best (ev : Genome → Eval V F) (lib maxLen n gens : Nat) (hl : 0 < lib) (hm : 0 < maxLen) (hn : 2 ≤ n)
    (hg : 0 < gens) (hg2 : gens ≤ n) (s : Stream) :
    ∃ g rs s', evolution ev lib maxLen n gens s = .ok ((some (g, ev g), rs), s') ∧ rs.length = gens ∧ LegalGenome lib maxLen g ∧
      ∀ r ∈ rs, r.scored.length = n ∧ ∀ g' ∈ r.scored, LegalGenome lib maxLen g' ∧ (ev g).mse ≤ (ev g').mse := by
  obtain ⟨x, s', e, h1, ⟨p0, p, hh⟩, g, ee, r0, h2, h3, h4, h5⟩ := always_evolution ev lib maxLen n gens hl hm hn hg (by omega) s
  obtain ⟨out, rs⟩ := x
  simp only at h1 h2 h3 hh
  subst h2
  obtain ⟨i1, i2, i3⟩ := hh.facts (by omega)
  have hlegal : LegalGenome lib maxLen g := by
    obtain ⟨g', e', hl'⟩ := hh.ok.get (i := 0) (by omega)
    rw [i3 r0 h3, e'] at h4
    cases h4
    exact hl'.1
  obtain ⟨_, q, hs, _⟩ := i1 (rs.length - 1) r0 (by
    cases rs with
    | nil => cases h3
    | cons r' rs => simp at h3; subst h3; simp)
  obtain ⟨g', e', f1, f2, f3, _, _, f6⟩ := hs.first
  rw [h4] at f1; cases f1
  rw [h5] at f2; cases f2
  subst f3
  refine ⟨g, rs, s', e, h1, hlegal, fun r hr => ?_⟩
  obtain ⟨k, hk⟩ := List.getElem?_of_mem (List.mem_reverse.2 hr)
  obtain ⟨_, q', hs', hq'⟩ := i1 k r hk
  obtain ⟨gb, eb, _, _, b3, _, b5, b6⟩ := hs'.first
  have hle : (ev g).mse ≤ eb.mse := by
    cases rs with
    | nil => cases h3
    | cons ra rs =>
      simp only [List.head?_cons, Option.some.injEq] at h3
      subst h3
      rcases List.mem_cons.1 hr with rfl | hr'
      · rw [f6] at b6; exact le_of_eq (Option.some.inj b6)
      · exact (List.pairwise_cons.1 i2).1 r hr' _ _ f6 b6
  rw [hs'.scored]
  refine ⟨?_, fun g' hg' => ?_⟩
  · have : (List.range n).filterMap q'.at? = (List.range n).map fun i => (q'.at? i).getD [] := by
      rw [← List.filterMap_eq_map]
      apply List.filterMap_congr
      intro i hi
      obtain ⟨y, hy, _⟩ := hq'.get (List.mem_range.1 hi)
      simp [hy]
    rw [this]
    simp
  · obtain ⟨i, hi, hgi⟩ := List.mem_filterMap.1 hg'
    have hi := List.mem_range.1 hi
    obtain ⟨y, hy, hyl⟩ := hq'.get hi
    rw [hgi] at hy
    cases hy
    exact ⟨hyl.1, le_trans hle (b5 i g' hi hgi)⟩

/-- The mean over the points of the square of a function. -/
noncomputable def meanSq (X : List (List ℝ)) (f : List ℝ → ℝ) : ℝ := (X.map fun x => f x ^ 2).sum / X.length

/-- The columns of a genome, and what they predict: the right-hand side of the equation at every point. -/
theorem columns_meaning (S : Setup) (hops : ∀ o ∈ S.ops, (meaning S.net o).isSome) (g : Genome) (hg : ∀ m ∈ g, ∀ a ∈ m, a < S.ops.length) :
    ∃ cols, translate (thetaColumns (available S.net 2 S.X) S.ops) S.X.length g =
        some (cols, (g.map fun m => (displayed S.ops m).length).sum) ∧ cols.length = g.length ∧
      ∀ c : List ℝ, ∀ r (hr : r < S.X.length), predict cols c r = rhs S.net S.ops g c S.X[r] := by
  have hall : ∀ o ∈ S.ops, ∃ col, available S.net 2 S.X o = some col ∧ col.length = S.X.length := by
    intro o ho
    obtain ⟨f, hf⟩ := Option.isSome_iff_exists.1 (hops o ho)
    exact ⟨S.X.map f, by rw [C178_library_partial, hf]; rfl, by simp⟩
  obtain ⟨cols, t1, t2, t3⟩ := C60_columns (available S.net 2 S.X) S.ops S.X.length hall g hg
  refine ⟨cols, t1, t2, fun c r hr => ?_⟩
  have hx : S.X[r]? = some S.X[r] := List.getElem?_eq_getElem hr
  unfold predict rhs
  congr 1
  apply List.ext_getElem (by simp [t2])
  intro k h1 h2
  have hk : k < g.length := by simp at h2; omega
  obtain ⟨col, a1, a2, a3⟩ := t3 k g[k] (List.getElem?_eq_getElem hk)
  have hkc : k < cols.length := by omega
  have hcol : cols[k] = col := by
    rw [List.getElem?_eq_getElem hkc] at a1
    exact Option.some.inj a1
  simp only [List.getElem_zipWith]
  rw [hcol, a3 r hr]
  simp only [Option.getD_some]
  congr 2
  apply List.map_congr_left
  intro o ho
  have hmem : o ∈ S.ops := by
    simp only [displayed, List.mem_filterMap] at ho
    obtain ⟨i, _, hi⟩ := ho
    exact List.mem_of_getElem? hi
  obtain ⟨f, hf⟩ := Option.isSome_iff_exists.1 (hops o hmem)
  unfold polyValueAt
  rw [C178_library_partial, hf]
  simp [hx]

theorem mse_meanSq (X : List (List ℝ)) (L R : List ℝ → ℝ) (cols : List (List ℝ)) (c : List ℝ)
    (h : ∀ r (hr : r < X.length), predict cols c r = R X[r]) : mse (X.map L) cols c X.length = meanSq X fun x => L x - R x := by
  unfold mse meanSq
  congr 2
  apply List.ext_getElem (by simp)
  intro r h1 h2
  have hr : r < X.length := by simpa using h2
  simp [h r hr, List.getElem?_eq_getElem hr]

/-- **C179**: every legal genome has a score: coefficients, the left-hand side u_t or u_tt with the smaller mean squared difference to the fitted
right-hand side, and that difference plus `epi` for every operator of the equation. -/
theorem C179_total (S : Setup) (hops : ∀ o ∈ S.ops, (meaning S.net o).isSome) (g : Genome) (hg : ∀ m ∈ g, ∀ a ∈ m, a < S.ops.length) :
    ∃ (c : List ℝ) (lhs : String) (L : List ℝ → ℝ), (lhs = "u_t" ∨ lhs = "u_tt") ∧ meaning S.net lhs = some L ∧
      S.score g = some ⟨c, meanSq S.X (fun x => L x - rhs S.net S.ops g c x) + S.epi * ((g.map fun m => (displayed S.ops m).length).sum : ℕ), lhs⟩ := by
  obtain ⟨cols, t1, t2, t3⟩ := columns_meaning S hops g hg
  have hut : available S.net 2 S.X "u_t" = some (S.X.map (D 1 S.net)) := by rw [C178_library_partial]; rfl
  have hutt : available S.net 2 S.X "u_tt" = some (S.X.map (D 1 (D 1 S.net))) := by rw [C178_library_partial]; rfl
  obtain ⟨c, res, lhs, q1, q2, q3, q4⟩ := C59_fitness (svdSolve S.last) S.epi (S.X.map (D 1 S.net)) (S.X.map (D 1 (D 1 S.net))) S.X.length cols
    ((g.map fun m => (displayed S.ops m).length).sum)
  have hs : S.score g = some ⟨c, res + S.epi * ((g.map fun m => (displayed S.ops m).length).sum : ℕ), lhs⟩ := by
    unfold Setup.score
    rw [hut, hutt, t1]
    simp only [q1]
  rcases q2 with rfl | rfl
  · obtain ⟨_, e2, _⟩ := q3 rfl
    refine ⟨c, "u_t", D 1 S.net, Or.inl rfl, rfl, ?_⟩
    rw [hs, e2, mse_meanSq S.X (D 1 S.net) _ cols c (t3 c)]
  · obtain ⟨_, e2, _⟩ := q4 rfl
    refine ⟨c, "u_tt", D 1 (D 1 S.net), Or.inr rfl, rfl, ?_⟩
    rw [hs, e2, mse_meanSq S.X (D 1 (D 1 S.net)) _ cols c (t3 c)]

/-- **C179**: a run of DLGA on points (x, t) with known operators never fails on its own, whatever is drawn.  It reports a genome with legal
terms; the fitness is the mean squared difference between the left-hand side and the right-hand side of the reported equation on the
derivatives of the network, plus `epi` per operator; the text shows left-hand side, coefficients and terms of this genome; and no genome scored in any
generation has a smaller fitness. -/
theorem C179_run (S : Setup) (hne : S.ops ≠ []) (hops : ∀ o ∈ S.ops, (meaning S.net o).isSome) (maxLen n gens : Nat) (hm : 0 < maxLen)
    (hn : 2 ≤ n) (hg : 0 < gens) (hg2 : gens ≤ n) (s : Stream) :
    ∃ f rs s', fit S maxLen n gens s = .ok ((some f, rs), s') ∧ rs.length = gens ∧ LegalGenome S.ops.length maxLen f.chrom ∧
      S.score f.chrom = some f.eval ∧
      (∃ L, (f.eval.lhs = "u_t" ∨ f.eval.lhs = "u_tt") ∧ meaning S.net f.eval.lhs = some L ∧
        f.eval.mse = meanSq S.X (fun x => L x - rhs S.net S.ops f.chrom f.eval.coef x) +
          S.epi * ((f.chrom.map fun m => (displayed S.ops m).length).sum : ℕ)) ∧
      f.text = convertChrom (S.ops.map String.toList) f.chrom f.eval.lhs.toList (f.eval.coef.map S.shown) ∧
      ∀ r ∈ rs, r.scored.length = n ∧ ∀ g ∈ r.scored, ∃ e, S.score g = some e ∧ f.eval.mse ≤ e.mse := by
  have hl : 0 < librarySize S.ops := List.length_pos_iff.2 hne
  obtain ⟨g, rs, s', e, h1, h2, h3⟩ := C179_best S.ev (librarySize S.ops) maxLen n gens hl hm hn hg hg2 s
  have hsc : ∀ g, LegalGenome (librarySize S.ops) maxLen g → S.score g = some (S.ev g) := by
    intro g hg
    obtain ⟨c, l, L, _, _, h⟩ := C179_total S hops g (fun m hm' a ha => (hg.2 m hm').2.2 a ha)
    unfold Setup.ev
    rw [h]; rfl
  refine ⟨⟨g, S.ev g, convertChrom (S.ops.map String.toList) g (S.ev g).lhs.toList ((S.ev g).coef.map S.shown)⟩, rs, s', ?_, h1, h2, hsc g h2, ?_, rfl, fun r hr => ⟨(h3 r hr).1, fun g' hg' => ?_⟩⟩
  · unfold fit
    show Gen.bind _ _ s = _
    simp only [Gen.bind, e]
    rfl
  · obtain ⟨c, l, L, k1, k2, k3⟩ := C179_total S hops g (fun m hm' a ha => (h2.2 m hm').2.2 a ha)
    rw [hsc g h2] at k3
    have k3 := Option.some.inj k3
    refine ⟨L, ?_, ?_, ?_⟩
    · rw [k3]; exact k1
    · rw [k3]; exact k2
    · simp only [k3]
  · obtain ⟨k1, k2⟩ := (h3 r hr).2 g' hg'
    exact ⟨_, hsc g' k1, k2⟩

theorem tidy_prefix : ∀ (a b : Text), ¬ ['+', '-'] <:+: (a ++ ['-']) → '+' ∉ b → ¬ ['+', '-'] <:+: (a ++ '*' :: b) := by
  intro a
  induction a with
  | nil =>
    intro b _ hb h
    obtain ⟨l1, l2, e⟩ := h
    have : '+' ∈ [] ++ '*' :: b := by rw [← e]; simp
    simp at this
    exact hb this
  | cons c a ih =>
    intro b ha hb h
    rw [List.cons_append, List.infix_cons_iff] at h
    rw [List.cons_append, List.infix_cons_iff] at ha
    rcases h with h | h
    · apply ha
      left
      cases a with
      | nil =>
        simp at h
      | cons d a => simpa using h
    · exact ih b (fun h' => ha (Or.inr h')) hb h

theorem joinWith_mem {sep : Text} {x : Char} : ∀ {l : List Text}, x ∈ joinWith sep l → x ∈ sep ∨ ∃ t ∈ l, x ∈ t := by
  intro l
  induction l with
  | nil => intro h; simp [joinWith] at h
  | cons p l ih =>
    intro h
    cases l with
    | nil => exact Or.inr ⟨p, by simp, by simpa [joinWith] using h⟩
    | cons q r =>
      simp only [joinWith, List.mem_append] at h
      rcases h with (h | h) | h
      · exact Or.inr ⟨p, by simp, h⟩
      · exact Or.inl h
      · rcases ih h with h | ⟨t, ht, hx⟩
        · exact Or.inl h
        · exact Or.inr ⟨t, List.mem_cons_of_mem _ ht, hx⟩

theorem meaning_names {u : List ℝ → ℝ} {o : String} (h : (meaning u o).isSome) : o.toList ≠ [] ∧ '+' ∉ o.toList ∧ '-' ∉ o.toList := by
  unfold meaning at h
  split at h
  · decide
  · decide
  · decide
  · decide
  · decide
  · decide
  · simp at h

/-- **C179**, the text of a run: the left-hand side, `=`, and for every term of the reported genome its fitted coefficient (as printed) times the
operators of the term, joined by their signs.  (`shown` prints a number without `+-` inside and without `+` at the end; the singular vector has one entry per
column.) -/
theorem C179_text (S : Setup) (hne : S.ops ≠ []) (hops : ∀ o ∈ S.ops, (meaning S.net o).isSome) (hshow : ∀ c, Tidy (S.shown c))
    (hlen : ∀ M, (S.last M).length = M.length) (maxLen n gens : Nat) (hm : 0 < maxLen) (hn : 2 ≤ n) (hg : 0 < gens) (hg2 : gens ≤ n)
    (s : Stream) :
    ∃ f rs s', fit S maxLen n gens s = .ok ((some f, rs), s') ∧ f.eval.coef.length = f.chrom.length ∧
      f.text = f.eval.lhs.toList ++ '=' :: signedSum (List.zipWith (fun c m => S.shown c ++ '*' :: joinWith ['*'] ((displayed S.ops m).map
        String.toList)) f.eval.coef f.chrom) := by
  obtain ⟨f, rs, s', h1, h2, h3, h4, h5, h6, _⟩ := C179_run S hne hops maxLen n gens hm hn hg hg2 s
  refine ⟨f, rs, s', h1, ?_⟩
  have hcl : f.eval.coef.length = f.chrom.length := by
    obtain ⟨cols, t1, t2, _⟩ := columns_meaning S hops f.chrom (fun m hm' a ha => (h3.2 m hm').2.2 a ha)
    have hsv : ∀ t, (svdSolve S.last t cols).length = f.chrom.length := by
      intro t
      unfold svdSolve
      have := hlen (t :: cols)
      cases hv : S.last (t :: cols) with
      | nil => rw [hv] at this; simp at this
      | cons a w => rw [hv] at this; simp [coefOfVector] at this ⊢; omega
    unfold Setup.score at h4
    rw [t1] at h4
    cases hu : available S.net 2 S.X "u_t" with
    | none => rw [hu] at h4; cases h4
    | some ut =>
      cases hv : available S.net 2 S.X "u_tt" with
      | none => rw [hu, hv] at h4; cases h4
      | some utt =>
        rw [hu, hv] at h4
        have h4 := Option.some.inj h4
        rw [← h4]
        simp only [getFitness]
        split
        · exact hsv _
        · exact hsv _
  refine ⟨hcl, ?_⟩
  have hmod : ∀ m, moduleNames (S.ops.map String.toList) m = (displayed S.ops m).map String.toList := by
    intro m
    unfold moduleNames displayed
    rw [List.map_filterMap]
    apply List.filterMap_congr
    intro a _
    simp
  have hnames : ∀ x ∈ S.ops.map String.toList, x ≠ [] := by
    intro x hx
    obtain ⟨o, ho, rfl⟩ := List.mem_map.1 hx
    exact (meaning_names (hops o ho)).1
  have hterms := C60_terms (S.ops.map String.toList) hnames f.chrom
    (fun m hm' => ⟨by
      have := (h3.2 m hm').1
      intro e; simp [e] at this, fun a ha => by simpa using (h3.2 m hm').2.2 a ha⟩)
    (f.eval.coef.map S.shown) (by simpa using hcl)
  rw [h6, C60_text _ _ _ _ h3.1, hterms]
  · simp only [hmod, List.zipWith_map_left]
  · rw [hterms]
    intro t ht
    obtain ⟨k, hk⟩ := List.getElem?_of_mem ht
    obtain ⟨hk1, hk2⟩ := List.getElem?_eq_some_iff.1 hk
    rw [List.getElem_zipWith] at hk2
    subst hk2
    simp only [List.getElem_map]
    refine ⟨by simp, ?_⟩
    have := tidy_prefix (S.shown (f.eval.coef[k]'(by simpa using (by simp at hk1; omega : k < f.eval.coef.length))))
      (joinWith ['*'] (moduleNames (S.ops.map String.toList) (f.chrom[k]'(by simp at hk1; omega))) ++ ['-']) (hshow _).2 (by
        intro h
        rcases List.mem_append.1 h with h | h
        · rcases joinWith_mem h with h | ⟨t, ht, hx⟩
          · simp at h
          · rw [hmod] at ht
            obtain ⟨o, ho, rfl⟩ := List.mem_map.1 ht
            simp only [displayed, List.mem_filterMap] at ho
            obtain ⟨i, _, hi⟩ := ho
            exact (meaning_names (hops o (List.mem_of_getElem? hi))).2.1 hx
        · simp at h)
    simpa using this

/-- **C179**, recovery by a whole run: if the network satisfies an equation u_t = Σ coefficient · term of the library at all points, and a genome with
these terms is scored in some generation, the reported fitness is at most that of the true equation: a negligible residual plus `epi` per operator. -/
theorem C179_recovers (S : Setup) (hne : S.ops ≠ []) (hops : ∀ o ∈ S.ops, (meaning S.net o).isSome) (maxLen n gens : Nat) (hm : 0 < maxLen)
    (hn : 2 ≤ n) (hg : 0 < gens) (hg2 : gens ≤ n) (s : Stream) (g : Genome) (c : List ℝ) (hc : c.length = g.length)
    (heq : ∀ x ∈ S.X, D 1 S.net x = rhs S.net S.ops g c x)
    (hsvd : ∀ cols len, translate (thetaColumns (available S.net 2 S.X) S.ops) S.X.length g = some (cols, len) →
      LastVector (S.X.map (D 1 S.net) :: cols) S.X.length (S.last (S.X.map (D 1 S.net) :: cols)) ∧ Independent cols S.X.length) :
    ∃ f rs s', fit S maxLen n gens s = .ok ((some f, rs), s') ∧ ((∃ r ∈ rs, g ∈ r.scored) →
      ∃ σ : ℝ, σ ^ 2 * (1 + (c.map (· ^ 2)).sum) = 1 ∧ (σ + tiny ≠ 0 →
        f.eval.mse ≤ (tiny / (σ + tiny)) ^ 2 * meanSq S.X (D 1 S.net) + S.epi * ((g.map fun m => (displayed S.ops m).length).sum : ℕ))) := by
  have hl : 0 < librarySize S.ops := List.length_pos_iff.2 hne
  obtain ⟨gb, rs, s', e, h1, h2, h3⟩ := C179_best S.ev (librarySize S.ops) maxLen n gens hl hm hn hg hg2 s
  refine ⟨⟨gb, S.ev gb, convertChrom (S.ops.map String.toList) gb (S.ev gb).lhs.toList ((S.ev gb).coef.map S.shown)⟩, rs, s', ?_, ?_⟩
  · unfold fit
    show Gen.bind _ _ s = _
    simp only [Gen.bind, e]
    rfl
  · rintro ⟨r, hr, hgr⟩
    obtain ⟨hleg, hle⟩ := (h3 r hr).2 g hgr
    have hleg' : ∀ m ∈ g, ∀ a ∈ m, a < S.ops.length := fun m hm' a ha => (hleg.2 m hm').2.2 a ha
    obtain ⟨cols, t1, t2, t3⟩ := columns_meaning S hops g hleg'
    obtain ⟨hlast, hind⟩ := hsvd _ _ t1
    have hex : ∀ r, r < S.X.length → predict cols c r = ((S.X.map (D 1 S.net))[r]?).getD 0 := by
      intro r hr
      rw [t3 c r hr, ← heq _ (List.getElem_mem hr)]
      simp [List.getElem?_eq_getElem hr]
    obtain ⟨σ, k1, k2⟩ := C151_residual_partial S.last _ cols S.X.length hlast hind c (by omega) hex
    refine ⟨σ, k1, fun hσ => le_trans hle ?_⟩
    have k2 := k2 hσ
    have hut : available S.net 2 S.X "u_t" = some (S.X.map (D 1 S.net)) := by rw [C178_library_partial]; rfl
    have hutt : available S.net 2 S.X "u_tt" = some (S.X.map (D 1 (D 1 S.net))) := by rw [C178_library_partial]; rfl
    have hz : mse (S.X.map (D 1 S.net)) cols (cols.map fun _ => 0) S.X.length = meanSq S.X (D 1 S.net) := by
      rw [mse_meanSq S.X (D 1 S.net) (fun _ => 0) cols (cols.map fun _ => 0)]
      · simp
      · intro r _
        have := predict_scale cols 0 r (cols.map fun _ => (1 : ℝ)) (by simp)
        simpa using this
    rw [hz] at k2
    rw [← k2]
    unfold Setup.ev Setup.score
    rw [hut, hutt, t1]
    simp only [Option.getD_some]
    unfold getFitness
    simp only
    split
    · exact le_refl _
    · rename_i hcmp
      have := not_lt.1 hcmp
      simpa using this

theorem gen_bind_ok {α β : Type} {m : Gen α} {f : α → Gen β} {s : Stream} {x : β × Stream} (h : (m >>= f) s = .ok x) :
    ∃ a s1, m s = .ok (a, s1) ∧ f a s1 = .ok x := by
  change Gen.bind m f s = _ at h
  unfold Gen.bind at h
  cases hm : m s with
  | error e => rw [hm] at h; cases h
  | ok y =>
    rw [hm] at h
    exact ⟨y.1, y.2, rfl, h⟩

theorem select_scored (ev : Genome → Eval V F) {lib maxLen n : Nat} {p : Pop} {s s' : Stream} {r : Result V F}
    (h : select ev lib maxLen n p s = .ok (r, s')) : r.scored = (List.range n).filterMap p.at? := by
  unfold select at h
  obtain ⟨evs, s1, _, h⟩ := gen_bind_ok h
  obtain ⟨p', s2, _, h⟩ := gen_bind_ok h
  cases h
  rfl

theorem fit_of_evolution (S : Setup) {maxLen n gens : Nat} {s s' : Stream} {g : Genome} {e : Eval (List ℝ) ℝ} {rs : List (Result (List ℝ) ℝ)}
    (h : evolution S.ev (librarySize S.ops) maxLen n gens s = .ok ((some (g, e), rs), s')) :
    fit S maxLen n gens s =
      .ok ((some ⟨g, e, convertChrom (S.ops.map String.toList) g e.lhs.toList (e.coef.map S.shown)⟩, rs), s') := by
  unfold fit
  show Gen.bind _ _ _ = _
  unfold Gen.bind
  rw [h]
  rfl

/-- A run in which the true equation is scored, whatever the scores: one operator, two genomes, one generation, all draws 0. -/
theorem scored_example (ev : Genome → Eval V F) :
    ∃ g rs s', evolution ev 1 1 2 1 (fun _ => 0) = .ok ((some (g, ev g), rs), s') ∧ ∃ r ∈ rs, [[0]] ∈ r.scored := by
  obtain ⟨g, rs, s', e, h1, _, _⟩ := C179_best ev 1 1 2 1 (by omega) (by omega) (by omega) (by omega) (by omega) (fun _ => 0)
  refine ⟨g, rs, s', e, ?_⟩
  unfold evolution at e
  obtain ⟨p0, s0, e0, e⟩ := gen_bind_ok e
  have : (initial 1 1 2 { heap := [], chrom := [] } : Gen Pop) (fun _ => 0) = .ok (⟨[[[0]], [[0]]], [0, 1]⟩, fun _ => 0) := rfl
  rw [this] at e0
  cases e0
  obtain ⟨p1, s1, e1, e⟩ := gen_bind_ok e
  have : (deleteDuplicates 2 ⟨[[[0]], [[0]]], [0, 1]⟩ : Gen Pop) (fun _ => 0) = .ok (⟨[[[0]], [[0]], [[0]], [[0]]], [2, 3]⟩, fun _ => 0) := rfl
  rw [this] at e1
  cases e1
  obtain ⟨⟨rs', p⟩, s2, e2, e⟩ := gen_bind_ok e
  unfold generations at e2
  obtain ⟨⟨rs0, p2⟩, s3, e3, e2⟩ := gen_bind_ok e2
  have hrs0 : (generations ev 1 1 2 1 0 ⟨[[[0]], [[0]], [[0]], [[0]]], [2, 3]⟩) (fun _ => 0) =
    .ok (([], ⟨[[[0]], [[0]], [[0]], [[0]]], [2, 3]⟩), fun _ => 0) := rfl
  rw [hrs0] at e3
  cases e3
  obtain ⟨r, s4, e4, e2⟩ := gen_bind_ok e2
  cases e2
  unfold generation at e4
  obtain ⟨q1, t1, f1, e4⟩ := gen_bind_ok e4
  have : (crossOver 1 ⟨[[[0]], [[0]], [[0]], [[0]]], [2, 3]⟩ : Gen Pop) (fun _ => 0) = .ok (⟨[[[0]], [[0]], [[0]], [[0]]], [2, 3]⟩, fun _ => 0) := rfl
  rw [this] at f1
  cases f1
  obtain ⟨q2, t2, f2, e4⟩ := gen_bind_ok e4
  have : (mutation 1 1 2 ⟨[[[0]], [[0]], [[0]], [[0]]], [2, 3]⟩ : Gen Pop) (fun _ => 0) =
    .ok (⟨[[[0]], [[0]], [[0]], [[0]]], [2, 3]⟩, fun _ => 0) := rfl
  rw [this] at f2
  cases f2
  obtain ⟨q3, t3, f3, e4⟩ := gen_bind_ok e4
  have : (deleteDuplicates 2 ⟨[[[0]], [[0]], [[0]], [[0]]], [2, 3]⟩ : Gen Pop) (fun _ => 0) =
    .ok (⟨[[[0]], [[0]], [[0]], [[0]], [[0]], [[0]]], [4, 5]⟩, fun _ => 0) := rfl
  rw [this] at f3
  cases f3
  have hsc := select_scored ev e4
  have hr : r ∈ rs := by
    obtain ⟨y, hy⟩ : ∃ y, (⟨[r], r.pop⟩ : List (Result V F) × Pop).1 = y := ⟨_, rfl⟩
    simp only at e
    cases hp : r.pop.at? 0 with
    | none => rw [hp] at e; cases e
    | some g0 =>
      rw [hp] at e
      simp only at e
      cases hk : r.kept with
      | nil => rw [hk] at e; cases e
      | cons e0 ks =>
        rw [hk] at e
        cases e
        simp
  exact ⟨r, hr, by rw [hsc]; decide⟩

/-- The hypotheses of the C179 theorems are met: u = x + 2 t at (0, 0) and (1, 3), operator u_x, true equation u_t = 2 u_x, which is scored in the run of
`scored_example`. -/
theorem C179_concrete : ∃ S : Setup, S.ops = ["u_x"] ∧ (∀ o ∈ S.ops, (meaning S.net o).isSome) ∧ (∀ c, Tidy (S.shown c)) ∧
    (∀ x ∈ S.X, D 1 S.net x = rhs S.net S.ops [[0]] [2] x) ∧
    (∀ cols len, translate (thetaColumns (available S.net 2 S.X) S.ops) S.X.length [[0]] = some (cols, len) →
      LastVector (S.X.map (D 1 S.net) :: cols) S.X.length (S.last (S.X.map (D 1 S.net) :: cols)) ∧ Independent cols S.X.length) ∧
    ∃ f rs s', fit S 1 2 1 (fun _ => 0) = .ok ((some f, rs), s') ∧ ∃ r ∈ rs, [[0]] ∈ r.scored := by
  obtain ⟨h1, h2, h3, h4⟩ := C178_hypotheses
  have hut : ([[0, 0], [1, 3]] : List (List ℝ)).map (D 1 (fun z => z.getD 0 0 + 2 * z.getD 1 0)) = [2, 2] := by
    have e := C178_library_partial (fun z => z.getD 0 0 + 2 * z.getD 1 0) [[0, 0], [1, 3]] "u_x"
    rw [h3] at e
    simp only [meaning, Option.map_some, List.map_cons, List.map_nil, Option.some.injEq, List.cons.injEq, and_true] at e
    have hr : ∀ (u : List ℝ → ℝ) (x : List ℝ), rhs u ["u_x"] [[0]] [2] x = D 0 u x * 2 := by
      intro u x
      simp [rhs, displayed, meaning]
    simp only [List.map_cons, List.map_nil]
    rw [h2 [0, 0] (by simp), h2 [1, 3] (by simp), hr, hr, ← e.1, ← e.2]
    norm_num
  have hex : ∀ r, r < 2 → predict [[1, 1]] [2] r = (([2, 2] : List ℝ)[r]?).getD 0 := by
    intro r hr
    match r, hr with
    | 0, _ => simp [predict]
    | 1, _ => simp [predict]
  obtain ⟨w, k1, k2, k3⟩ := exact_vector [2, 2] [[1, 1]] [2] rfl 2 hex
  refine ⟨⟨fun z => z.getD 0 0 + 2 * z.getD 1 0, [[0, 0], [1, 3]], ["u_x"], 0, fun _ => w, fun _ => ['1']⟩, rfl, h1, fun _ => ?_, h2, ?_, ?_⟩
  · refine ⟨by simp, ?_⟩
    show ¬ ['+', '-'] <:+: ['1', '-']
    decide
  · intro cols len hcols
    have ht : thetaColumns (available (fun z => z.getD 0 0 + 2 * z.getD 1 0) 2 [[0, 0], [1, 3]]) ["u_x"] = [[1, 1]] := by
      simp only [thetaColumns, List.filterMap_cons, h3, List.filterMap_nil]
    simp only at hcols ⊢
    rw [ht] at hcols
    have hcols' : cols = [[1, 1]] := by
      simp [translate, moduleColumn] at hcols
      exact hcols.1.symm
    subst hcols'
    rw [hut]
    refine ⟨⟨k1, k2, fun w' _ _ => ?_⟩, h4⟩
    show sqNorm _ w 2 ≤ _
    rw [k3]
    apply List.sum_nonneg
    intro x hx; obtain ⟨k, _, rfl⟩ := List.mem_map.1 hx; exact sq_nonneg _
  · obtain ⟨g, rs, s', e, hr⟩ := scored_example (Setup.ev ⟨fun z => z.getD 0 0 + 2 * z.getD 1 0, [[0, 0], [1, 3]], ["u_x"], 0, fun _ => w, fun _ => ['1']⟩)
    exact ⟨_, rs, s', fit_of_evolution _ e, hr⟩

end Verif.Dlga.Run.Claims
