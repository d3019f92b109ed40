import Verif.Dlga.History
import Verif.Claims.Dlga
import Verif.Claims.DlgaFit
import Mathlib.Order.MinMax
/-!
# C200: the histories of a DLGA estimator and the figures drawn from them
-/
namespace Verif.Dlga.Hist.Claims
open Verif.Dlga Verif.Dlga.Hist Verif.Claims

variable {W V E F : Type} [LinearOrder E] [LinearOrder F]

/-! ## Specification -/

/-- What one fit has to add to the history: one entry per generation, numbered on from `before`, each with the size of the population, the least fitness among the genomes
scored in that generation, the number of terms of such a genome and the number of different modules in the population. -/
structure Faithful (ev : Genome → Eval V F) (popSize before : Nat) (gs : List (Result V F)) (new : List (Entry F)) : Prop where
  one_each : new.length = gs.length
  entry : ∀ (k : Nat) r e, gs[k]? = some r → new[k]? = some e →
    e.generation = before + k + 1 ∧ e.populationSize = popSize ∧
    (∃ g ∈ r.scored, e.fitness = (ev g).mse ∧ e.complexity = g.length) ∧
    (∀ g ∈ r.scored, e.fitness ≤ (ev g).mse) ∧
    ∃ ms : List Module, ms.Nodup ∧ ms.length = e.uniqueModules ∧ ∀ m, m ∈ ms ↔ ∃ g ∈ r.pop.values, ∃ m' ∈ g, m'.mergeSort = m
  never_rises : (new.map Entry.fitness).Pairwise fun older newer => newer ≤ older

/-! ## Lemmas -/

theorem completed_append (ev : Genome → Eval V F) (lib maxLen n gens : Nat) : ∀ (k j : Nat) (p p1 : Pop) (s s1 : Stream) (rs : List (Result V F)),
    generations ev lib maxLen n gens k p s = .ok ((rs, p1), s1) →
    completed ev lib maxLen n gens (k + j) p s = rs.reverse ++ completed ev lib maxLen n gens j p1 s1 := by
  intro k
  induction k with
  | zero =>
    intro j p p1 s s1 rs h
    cases h
    simp
  | succ k ih =>
    intro j p p1 s s1 rs h
    simp only [generations, Bind.bind, Gen.bind] at h
    split at h
    · cases h
    · next x s' hx =>
      split at h
      · cases h
      · next r s'' hr =>
        obtain ⟨rs', p'⟩ := x
        cases h
        rw [show k + 1 + j = k + (j + 1) from by omega, ih (j + 1) p p' s s' rs' hx]
        simp only at hr
        simp [completed, hr]

theorem results_of_evolution (ev : Genome → Eval V F) (c : Cfg) (s s' : Stream) (out : Option (Genome × Eval V F)) (rs : List (Result V F))
    (h : evolution ev c.lib c.maxLen c.popSize c.gens s = .ok ((out, rs), s')) : results ev c s = rs.reverse := by
  unfold evolution at h
  unfold results firstPop
  simp only [Bind.bind, Gen.bind] at h ⊢
  cases h0 : initial c.lib c.maxLen c.popSize { heap := [], chrom := [] } s with
  | error e => simp [h0] at h
  | ok x0 =>
    obtain ⟨p0, s0⟩ := x0
    simp only [h0] at h
    cases h1 : deleteDuplicates c.popSize p0 s0 with
    | error e => simp [h1] at h
    | ok x1 =>
      obtain ⟨p1, s1⟩ := x1
      simp only [h1] at h ⊢
      cases h2 : generations ev c.lib c.maxLen c.popSize c.gens c.gens p1 s1 with
      | error e => simp [h2] at h
      | ok x2 =>
        obtain ⟨⟨rs', p⟩, s2⟩ := x2
        simp only [h2] at h
        have hr : rs' = rs := by
          cases ha : p.at? 0 with
          | none => rw [ha] at h; cases h; rfl
          | some g =>
            rw [ha] at h
            cases rs' with
            | nil => cases h
            | cons r rs'' =>
              cases hk : r.kept with
              | nil => simp only [hk] at h; cases h
              | cons e es => simp only [hk] at h; cases h; rfl
        subst hr
        have := completed_append ev c.lib c.maxLen c.popSize c.gens c.gens 0 p1 p s1 s2 rs' h2
        simpa [completed] using this

theorem fold_record (n : Nat) : ∀ (gs : List (Result V F)) (h : List F × List (Entry F)), (∀ r ∈ gs, ∃ f, bestFitness r = some f) → (∀ r ∈ gs, r.pop.chrom ≠ []) →
    ∃ new : List (Entry F), gs.foldl (record n) h = (h.1 ++ new.map Entry.fitness, h.2 ++ new) ∧ new.length = gs.length ∧
      ∀ (k : Nat) r e, gs[k]? = some r → new[k]? = some e → e.generation = h.1.length + k + 1 ∧ e.populationSize = n ∧ bestFitness r = some e.fitness ∧
        e.complexity = ((r.pop.at? 0).getD []).length ∧ e.uniqueModules = uniqueModules r.pop := by
  intro gs
  induction gs with
  | nil => intro h _ _; exact ⟨[], by simp, rfl, fun k r e hr => by simp at hr⟩
  | cons r gs ih =>
    intro h hb hc
    obtain ⟨f, hf⟩ := hb r List.mem_cons_self
    have hr : record n h r = (h.1 ++ [f], h.2 ++ [⟨(h.1 ++ [f]).length, f, ((r.pop.at? 0).getD []).length, n, uniqueModules r.pop⟩]) := by
      simp [record, hf, hc r List.mem_cons_self]
    obtain ⟨new, e1, e2, e3⟩ := ih (record n h r) (fun r' h' => hb r' (List.mem_cons_of_mem _ h')) (fun r' h' => hc r' (List.mem_cons_of_mem _ h'))
    refine ⟨⟨(h.1 ++ [f]).length, f, ((r.pop.at? 0).getD []).length, n, uniqueModules r.pop⟩ :: new, ?_, by simp [e2], ?_⟩
    · rw [List.foldl_cons, e1, hr]; simp
    · intro k r' e h1 h2
      cases k with
      | zero =>
        simp only [List.getElem?_cons_zero, Option.some.injEq] at h1 h2
        subst h1 h2
        simp [hf]
      | succ k =>
        simp only [List.getElem?_cons_succ] at h1 h2
        obtain ⟨a1, a2⟩ := e3 k r' e h1 h2
        refine ⟨?_, a2⟩
        rw [a1, hr]
        simp only [List.length_append, List.length_cons, List.length_nil]
        omega

theorem sorted_eq_mergeSort (m : Module) : sorted m = m.mergeSort := by
  refine List.Perm.eq_of_pairwise (le := fun a b : Nat => a ≤ b) ?_ (List.pairwise_insertionSort _ _) ?_ ((List.perm_insertionSort _ _).trans (List.mergeSort_perm _ _).symm)
  · intro a b _ _ h1 h2; omega
  · have := List.pairwise_mergeSort (le := fun a b : Nat => decide (a ≤ b)) (fun a b c => by simp; omega) (fun a b => by simp; omega) m
    simpa using this

theorem unique_spec (p : Pop) : ∃ ms : List Module, ms.Nodup ∧ ms.length = uniqueModules p ∧ ∀ m, m ∈ ms ↔ ∃ g ∈ p.values, ∃ m' ∈ g, m'.mergeSort = m := by
  refine ⟨((p.values.flatMap id).map sorted).dedup, List.nodup_dedup _, rfl, fun m => ?_⟩
  simp only [List.mem_dedup, List.mem_map, List.mem_flatMap, id, sorted_eq_mergeSort]
  constructor
  · rintro ⟨m', ⟨g, hg, hm⟩, rfl⟩; exact ⟨g, hg, m', hm, rfl⟩
  · rintro ⟨g, hg, m', hm, rfl⟩; exact ⟨m', ⟨g, hg, hm⟩, rfl⟩

omit [LinearOrder E] in
theorem lossLoop_eq (te ve : W → E) (step : W → W) : ∀ (n : Nat) (w : W) (h : List E × List E),
    lossLoop te ve step n w h = (h.1 ++ (List.range n).map (fun i => te (step^[i] w)), h.2 ++ (List.range n).map (fun i => ve (step^[i] w))) := by
  intro n
  induction n with
  | zero => intro w h; simp [lossLoop]
  | succ n ih =>
    intro w h
    rw [lossLoop, ih]
    simp [List.range_succ_eq_map, List.map_map, Function.comp_def, Function.iterate_succ_apply]

/-! ## Theorems -/

/-- **C200** (every fit): whatever the histories before, a fit reports an equation and adds to the histories exactly a faithful account of its own generations, whose last entry
is the fitness and the number of terms of the reported equation. -/
theorem C200_fit (c : Cfg) (hl : 0 < c.lib) (hm : 0 < c.maxLen) (hn : 2 ≤ c.popSize) (hg : 0 < c.gens) (hg2 : c.gens ≤ c.popSize) (st : Est W E F) (x : Job W V E F) :
    ∃ g new last, (fit c st x).2 = some (g, x.ev (fit c st x).1.net g) ∧ (results (x.ev (fit c st x).1.net) c x.rnd).length = c.gens ∧
      Faithful (x.ev (fit c st x).1.net) c.popSize st.fitness.length (results (x.ev (fit c st x).1.net) c x.rnd) new ∧
      (fit c st x).1.evo = st.evo ++ new ∧ (fit c st x).1.fitness = st.fitness ++ new.map Entry.fitness ∧
      new.getLast? = some last ∧ last.fitness = (x.ev (fit c st x).1.net g).mse ∧ last.complexity = g.length := by
  have hnet : (fit c st x).1.net = trained c x st.net := rfl
  rw [hnet]
  generalize hev : x.ev (trained c x st.net) = ev
  obtain ⟨y, s', e, h1, ⟨p0, p, hh⟩, g, ee, r0, h2, h3, h4, h5⟩ := always_evolution ev c.lib c.maxLen c.popSize c.gens hl hm hn hg (by omega) x.rnd
  obtain ⟨out, rs⟩ := y
  simp only at h1 h2 h3 hh
  subst h2
  obtain ⟨i1, i2, i3⟩ := hh.facts (by omega)
  have hres := results_of_evolution ev c x.rnd s' _ rs e
  have hsel : ∀ r ∈ rs.reverse, ∃ q, Selected ev c.popSize q r := fun r hr => by
    obtain ⟨k, hk⟩ := List.getElem?_of_mem hr
    obtain ⟨_, q, hs, _⟩ := i1 k r hk
    exact ⟨q, hs⟩
  have hb : ∀ r ∈ rs.reverse, ∃ f, bestFitness r = some f := fun r hr => by
    obtain ⟨q, hs⟩ := hsel r hr
    obtain ⟨_, e, _, _, _, _, _, h⟩ := hs.first
    exact ⟨_, h⟩
  have hc : ∀ r ∈ rs.reverse, r.pop.chrom ≠ [] := fun r hr => by
    obtain ⟨q, hs⟩ := hsel r hr
    obtain ⟨g, e, h, _⟩ := hs.first
    intro h0
    simp [Pop.at?, h0] at h
  obtain ⟨new, e1, e2, e3⟩ := fold_record c.popSize rs.reverse (st.fitness, st.evo) hb hc
  have hget : ∀ (k : Nat) r, rs.reverse[k]? = some r → ∃ e, new[k]? = some e := fun k r hr => by
    have := (List.getElem?_eq_some_iff.1 hr).1
    exact ⟨new[k]'(by omega), List.getElem?_eq_getElem _⟩
  have hent : ∀ (k : Nat) r e, rs.reverse[k]? = some r → new[k]? = some e → ∃ g q, Selected ev c.popSize q r ∧ r.pop.at? 0 = some g ∧ r.kept.head? = some (ev g) ∧
      e.fitness = (ev g).mse ∧ e.complexity = g.length ∧ g ∈ r.scored ∧ ∀ g' ∈ r.scored, e.fitness ≤ (ev g').mse := by
    intro k r e hr he
    obtain ⟨_, _, a3, a4, _⟩ := e3 k r e hr he
    obtain ⟨q, hs⟩ := hsel r (List.mem_of_getElem? hr)
    obtain ⟨g, e', f1, f2, f3, ⟨i, hi, f4⟩, f5, f6⟩ := hs.first
    subst f3
    rw [f6] at a3
    have a3 := (Option.some.inj a3).symm
    refine ⟨g, q, hs, f1, f2, a3, by rw [a4, f1]; rfl, ?_, fun g' hg' => ?_⟩
    · rw [hs.scored]; exact List.mem_filterMap.2 ⟨i, List.mem_range.2 hi, f4⟩
    · rw [hs.scored] at hg'
      obtain ⟨i', hi', h'⟩ := List.mem_filterMap.1 hg'
      rw [a3]
      exact f5 i' g' (List.mem_range.1 hi') h'
  have hrl : rs.reverse[rs.length - 1]? = some r0 := by
    cases rs with
    | nil => cases h3
    | cons r' rs => simp at h3; subst h3; simp
  obtain ⟨last, hlast⟩ := hget _ _ hrl
  obtain ⟨g', q, _, l1, l2, l3, l4, _, _⟩ := hent _ _ _ hrl hlast
  rw [h4] at l1
  cases l1
  rw [h5] at l2
  have l2 := Option.some.inj l2
  subst l2
  refine ⟨g, new, last, ?_, ?_, ⟨by rw [hres, e2], ?_, ?_⟩, ?_, ?_, ?_, l3, l4⟩
  · simp only [fit, hev, reported, e]
  · rw [hres, List.length_reverse, h1]
  · intro k r e hr he
    rw [hres] at hr
    obtain ⟨a1, a2, a3, a4, a5⟩ := e3 k r e hr he
    obtain ⟨g', q, _, _, _, b3, b4, b5, b6⟩ := hent k r e hr he
    refine ⟨a1, a2, ⟨g', b5, b3, b4⟩, b6, ?_⟩
    rw [a5]
    exact unique_spec r.pop
  · have i2' : rs.reverse.Pairwise (fun old new => ∀ x y, bestFitness new = some x → bestFitness old = some y → x ≤ y) := by
      rw [List.pairwise_reverse]; exact i2
    rw [List.pairwise_map, List.pairwise_iff_getElem]
    rw [List.pairwise_iff_getElem] at i2'
    intro i j hi hj hij
    have hi' : i < rs.reverse.length := by omega
    have hj' : j < rs.reverse.length := by omega
    refine i2' i j hi' hj' hij _ _ ?_ ?_
    · exact (e3 j _ _ (List.getElem?_eq_getElem hj') (List.getElem?_eq_getElem hj)).2.2.1
    · exact (e3 i _ _ (List.getElem?_eq_getElem hi') (List.getElem?_eq_getElem hi)).2.2.1
  · simp only [fit, hev, hres, e1]
  · simp only [fit, hev, hres, e1]
  · rw [List.getLast?_eq_getElem?, e2, List.length_reverse]; exact hlast

/-- **C200** (loss curves): a fit adds one point per epoch to each loss curve: the loss of the weights after as many optimiser steps. -/
theorem C200_loss (c : Cfg) (st : Est W E F) (x : Job W V E F) :
    (fit c st x).1.trainLoss = st.trainLoss ++ (List.range c.maxIter).map (fun (i : Nat) => x.trainErr (x.step^[i] (x.optimiser st.net))) ∧
    (fit c st x).1.valLoss = st.valLoss ++ (List.range c.maxIter).map (fun (i : Nat) => x.valErr (x.step^[i] (x.optimiser st.net))) := by
  simp [fit, lossLoop_eq]

theorem weightsAt_iterate (step : W → W) (w : W) (k : Nat) : weightsAt step w k = step^[k] w := by
  induction k with
  | zero => rfl
  | succ k ih => rw [Function.iterate_succ_apply', ← ih]; rfl

/-- **C200** (the network searched with): it is the network after as many steps as a checkpoint says; among the points the validation curve of this fit has one epoch before the
checkpoints, the one before the chosen checkpoint is lowest.  Without a checkpoint it is the last network. -/
theorem C200_network (c : Cfg) (he : 0 < c.every) (st : Est W E F) (x : Job W V E F) :
    (c.maxIter < c.every → (fit c st x).1.net = x.step^[c.maxIter] (x.optimiser st.net)) ∧
    (c.every ≤ c.maxIter → ∃ k : Nat, (k + 1) * c.every ≤ c.maxIter ∧ (fit c st x).1.net = x.step^[(k + 1) * c.every] (x.optimiser st.net) ∧
      ∀ k' : Nat, (k' + 1) * c.every ≤ c.maxIter → ∃ a b, (fit c st x).1.valLoss[st.valLoss.length + (k + 1) * c.every - 1]? = some a ∧
        (fit c st x).1.valLoss[st.valLoss.length + (k' + 1) * c.every - 1]? = some b ∧ a ≤ b) := by
  obtain ⟨h1, h2, h3⟩ := C61_checkpoint_partial x.valErr x.step c.every he c.maxIter (x.optimiser st.net)
  have hnet : (fit c st x).1.net = x.step^[(trainNN x.valErr x.step c.every c.maxIter (x.optimiser st.net)).1] (x.optimiser st.net) := by
    show trained c x st.net = _
    rw [trained, h1, weightsAt_iterate]; rfl
  refine ⟨fun h => by rw [hnet, h2 h], fun h => ?_⟩
  obtain ⟨k, k1, k2, k3⟩ := h3 h
  refine ⟨k, k2, by rw [hnet, k1], fun k' hk' => ?_⟩
  have hv : ∀ j : Nat, (j + 1) * c.every ≤ c.maxIter →
      (fit c st x).1.valLoss[st.valLoss.length + (j + 1) * c.every - 1]? = some (x.valErr (x.step^[(j + 1) * c.every - 1] (x.optimiser st.net))) := by
    intro j hj
    have hpos : 0 < (j + 1) * c.every := Nat.mul_pos (by omega) he
    rw [(C200_loss c st x).2, List.getElem?_append_right (by omega), List.getElem?_map, List.getElem?_range (by omega)]
    simp only [Option.map_some]
    rw [show st.valLoss.length + (j + 1) * c.every - 1 - st.valLoss.length = (j + 1) * c.every - 1 from by omega]
  refine ⟨_, _, hv k k2, hv k' hk', ?_⟩
  have := k3 k' hk'
  rwa [weightsAt_iterate, weightsAt_iterate] at this

/-- **C200** (figures after the first fit of an estimator): the evolution figure has one point per generation and its fitness curve never rises; the optimisation figure shows the
same curve, and its final and its best objective are the fitness of the reported equation; the loss figures have one point per epoch. -/
theorem C200_figures_partial (c : Cfg) (hl : 0 < c.lib) (hm : 0 < c.maxLen) (hn : 2 ≤ c.popSize) (hg : 0 < c.gens) (hg2 : c.gens ≤ c.popSize) (hi : 0 < c.maxIter) (net : W)
    (x : Job W V E F) :
    ∃ g fs cs a, (fit c (new net) x).2 = some (g, x.ev (fit c (new net) x).1.net g) ∧
      evolutionFigure (fit c (new net) x).1 = some ((List.range c.gens).zip fs, (List.range c.gens).zip cs, c.gens) ∧
      fs.length = c.gens ∧ cs.length = c.gens ∧ fs.Pairwise (fun older newer => newer ≤ older) ∧ cs.getLast? = some g.length ∧
      optimizationFigure (fit c (new net) x).1 =
        some ((List.range c.gens).zip fs, ⟨a, (x.ev (fit c (new net) x).1.net g).mse, (x.ev (fit c (new net) x).1.net g).mse⟩) ∧
      lossFigure (fit c (new net) x).1.trainLoss =
        some ((List.range c.maxIter).map fun (i : Nat) => (i, x.trainErr (x.step^[i] (x.optimiser net)))) ∧
      lossFigure (fit c (new net) x).1.valLoss =
        some ((List.range c.maxIter).map fun (i : Nat) => (i, x.valErr (x.step^[i] (x.optimiser net)))) := by
  obtain ⟨g, en, last, h1, h2, h3, h4, h5, h6, h7, h8⟩ := C200_fit c hl hm hn hg hg2 (new net) x
  obtain ⟨l1, l2⟩ := C200_loss c (new net : Est W E F) x
  have hlen : en.length = c.gens := by rw [h3.one_each, h2]
  have hev : (fit c (new net) x).1.evo = en := by rw [h4]; rfl
  have hne : en ≠ [] := fun e => by rw [e] at hlen; simp at hlen; omega
  obtain ⟨e0, en', rfl⟩ := List.exists_cons_of_ne_nil hne
  have hmin : ((e0 :: en').map Entry.fitness).min? = some (x.ev (fit c (new net) x).1.net g).mse := by
    rw [List.min?_eq_some_iff]
    have hl' : ((e0 :: en').map Entry.fitness).getLast? = some (x.ev (fit c (new net) x).1.net g).mse := by
      rw [List.getLast?_map, h6, Option.map_some, h7]
    refine ⟨List.mem_of_getLast? hl', fun b hb => ?_⟩
    have hp := h3.never_rises
    generalize (e0 :: en').map Entry.fitness = fs at hl' hb hp
    rw [List.getLast?_eq_some_iff] at hl'
    obtain ⟨pre, rfl⟩ := hl'
    rcases List.mem_append.1 hb with hb | hb
    · exact (List.pairwise_append.1 hp).2.2 b hb _ (by simp)
    · simp at hb; rw [hb]
  have hfig : ∀ f : Nat → E, lossFigure ((List.range c.maxIter).map f) = some ((List.range c.maxIter).map fun (i : Nat) => (i, f i)) := fun f => by
    have : (List.range c.maxIter).map f ≠ [] := by simp; omega
    rw [lossFigure, if_neg this, points, List.length_map, List.length_range]
    congr 1
    apply List.ext_getElem
    · simp
    · intro i h1 h2; simp
  refine ⟨g, (e0 :: en').map Entry.fitness, (e0 :: en').map Entry.complexity, e0.fitness, h1, ?_, by simpa using hlen, by simpa using hlen, h3.never_rises, ?_, ?_, ?_, ?_⟩
  · rw [evolutionFigure, hev, if_neg hne, points, points, List.length_map, List.length_map, hlen]
  · rw [List.getLast?_map, h6, Option.map_some, h8]
  · have hl' : ((e0 :: en').map Entry.fitness).getLast? = some (x.ev (fit c (new net) x).1.net g).mse := by
      rw [List.getLast?_map, h6, Option.map_some, h7]
    simp only [optimizationFigure, hev, hmin, hl', points, List.length_map, hlen]
    simp
  · rw [l1]; exact hfig _
  · rw [l2]; exact hfig _

omit [LinearOrder E] in
/-- **C200, the figures before the first fit** draw nothing but a warning. -/
theorem C200_unfitted (net : W) : evolutionFigure (new net : Est W E F) = none ∧ optimizationFigure (new net : Est W E F) = none ∧
    lossFigure (new net : Est W E F).trainLoss = none ∧ lossFigure (new net : Est W E F).valLoss = none := ⟨rfl, rfl, rfl, rfl⟩

/-- **C200, counterexample** (fitting again): the histories of the second fit are put behind those of the first, so the figures show both runs as one with twice the generations and
epochs; if the first equation fitted its data better than the second one does, the fitness curve rises and "best objective" is not that of the equation reported. -/
theorem C200_refit_counterexample (c : Cfg) (hl : 0 < c.lib) (hm : 0 < c.maxLen) (hn : 2 ≤ c.popSize) (hg : 0 < c.gens) (hg2 : c.gens ≤ c.popSize) (net : W)
    (x y : Job W V E F) :
    ∃ g1 g2 e1 e2 fs sm, (fit c (new net) x).2 = some (g1, e1) ∧ (fit c (fit c (new net) x).1 y).2 = some (g2, e2) ∧
      optimizationFigure (fit c (fit c (new net) x).1 y).1 = some ((List.range (2 * c.gens)).zip fs, sm) ∧ fs.length = 2 * c.gens ∧
      sm.final = e2.mse ∧ sm.best = min e1.mse e2.mse ∧ (fit c (fit c (new net) x).1 y).1.trainLoss.length = 2 * c.maxIter ∧
      (e1.mse < e2.mse → sm.best ≠ e2.mse ∧ ¬ fs.Pairwise (fun older newer => newer ≤ older)) := by
  obtain ⟨g1, n1, l1, a1, a2, a3, a4, a5, a6, a7, a8⟩ := C200_fit c hl hm hn hg hg2 (new net) x
  generalize hst : (fit c (new net) x).1 = st at a1 a2 a3 a4 a5 a7
  obtain ⟨g2, n2, l2, b1, b2, b3, b4, b5, b6, b7, b8⟩ := C200_fit c hl hm hn hg hg2 st y
  have hlen1 : n1.length = c.gens := by rw [a3.one_each, a2]
  have hlen2 : n2.length = c.gens := by rw [b3.one_each, b2]
  have hev : (fit c st y).1.evo = n1 ++ n2 := by rw [b4, a4]; rfl
  have hle : ∀ (l : List (Entry F)) (last : Entry F), l.getLast? = some last → (l.map Entry.fitness).Pairwise (fun older newer => newer ≤ older) →
      last.fitness ∈ l.map Entry.fitness ∧ ∀ f ∈ l.map Entry.fitness, last.fitness ≤ f := by
    intro l last hlst hp
    rw [List.getLast?_eq_some_iff] at hlst
    obtain ⟨pre, rfl⟩ := hlst
    refine ⟨by simp, fun f hf => ?_⟩
    rw [List.map_append] at hf hp
    rcases List.mem_append.1 hf with hb | hb
    · exact (List.pairwise_append.1 hp).2.2 f hb _ (by simp)
    · simp at hb; rw [hb]
  obtain ⟨c1, c2⟩ := hle n1 l1 a6 a3.never_rises
  obtain ⟨d1, d2⟩ := hle n2 l2 b6 b3.never_rises
  rw [a7] at c1 c2
  rw [b7] at d1 d2
  generalize hE1 : x.ev st.net g1 = e1 at a1 c1 c2
  generalize hE2 : y.ev (fit c st y).1.net g2 = e2 at b1 b7 d1 d2
  have hmin : ((n1 ++ n2).map Entry.fitness).min? = some (min e1.mse e2.mse) := by
    rw [List.min?_eq_some_iff, List.map_append]
    refine ⟨?_, fun b hb => ?_⟩
    · rcases min_choice e1.mse e2.mse with h | h <;> rw [h]
      · exact List.mem_append_left _ c1
      · exact List.mem_append_right _ d1
    · rcases List.mem_append.1 hb with hb | hb
      · exact le_trans (min_le_left _ _) (c2 b hb)
      · exact le_trans (min_le_right _ _) (d2 b hb)
  have hlast : ((n1 ++ n2).map Entry.fitness).getLast? = some e2.mse := by
    rw [List.getLast?_map, List.getLast?_append, b6]
    simp [b7]
  have hhead : ∃ a, ((n1 ++ n2).map Entry.fitness).head? = some a := by
    cases n1 with
    | nil => simp at hlen1; omega
    | cons e n => exact ⟨e.fitness, rfl⟩
  obtain ⟨a, ha⟩ := hhead
  refine ⟨g1, g2, e1, e2, (n1 ++ n2).map Entry.fitness, ⟨a, e2.mse, min e1.mse e2.mse⟩, a1, b1, ?_, ?_, rfl, rfl, ?_, ?_⟩
  · simp only [optimizationFigure, hev, ha, hlast, hmin, points]
    rw [List.length_map, List.length_append, hlen1, hlen2, Nat.two_mul]
  · rw [List.length_map, List.length_append, hlen1, hlen2, Nat.two_mul]
  · rw [(C200_loss c st y).1, ← hst, (C200_loss c (new net) x).1]
    simp [new, Nat.two_mul]
  · intro hlt
    refine ⟨?_, fun hp => ?_⟩
    · simp only [min_eq_left (le_of_lt hlt)]
      exact ne_of_lt hlt
    · rw [List.map_append] at hp
      exact absurd ((List.pairwise_append.1 hp).2.2 _ c1 _ d1) (not_le.2 hlt)

/-- **C200** (a search that raises): with more generations than genomes (both even, say) every fit raises in its first generation; it adds nothing to the evolution history, so a later
figure shows the generations of earlier fits – and reports no equation. -/
theorem C200_failed (c : Cfg) (hl : 0 < c.lib) (hm : 0 < c.maxLen) (hn : 2 ≤ c.popSize) (hg : c.popSize < 2 * (c.gens / 2)) (st : Est W E F) (x : Job W V E F) :
    (fit c st x).2 = none ∧ (fit c st x).1.evo = st.evo ∧ (fit c st x).1.fitness = st.fitness := by
  have h0 : DlgaPopOk c.lib c.maxLen c.maxLen 0 { heap := [], chrom := [] } := ⟨rfl, by simp, by simp⟩
  have hres : results (x.ev (trained c x st.net)) c x.rnd = [] := by
    have ha : Always (firstPop c.lib c.maxLen c.popSize) (DlgaPopOk c.lib c.maxLen c.maxLen c.popSize) := by
      unfold firstPop
      refine always_bind (always_fill hl hm (Nat.le_refl _) c.popSize h0) (fun p0 hp0 => ?_)
      have hp0 := hp0.1
      rw [Nat.zero_add] at hp0
      exact always_deleteDuplicates hp0
    obtain ⟨p, s', e, hp⟩ := ha x.rnd
    have hf : generation (x.ev (trained c x st.net)) c.lib c.maxLen c.popSize c.gens p s' = .error .index :=
      fails_left (fails_crossLoop (c.gens / 2) 0 p hp (by omega) (by omega)) s'
    rw [results, e]
    simp only
    cases hk : c.gens with
    | zero => rfl
    | succ k => rw [hk] at hf; simp only [completed, hf]
  refine ⟨?_, ?_, ?_⟩
  · simp only [fit, reported, C34_generations_counterexample (x.ev (trained c x st.net)) c.lib c.maxLen c.popSize c.gens hl hm hn hg]
  · simp [fit, hres]
  · simp [fit, hres]

/-- A concrete case of the hypotheses, with a first equation that is better than the second: the curve rises. -/
example : ∃ (c : Cfg) (x y : Job Unit Unit Int Int), 0 < c.lib ∧ 0 < c.maxLen ∧ 2 ≤ c.popSize ∧ 0 < c.gens ∧ c.gens ≤ c.popSize ∧ 0 < c.maxIter ∧
    ∀ g1 g2 e1 e2, (fit c (new ()) x).2 = some (g1, e1) → (fit c (fit c (new ()) x).1 y).2 = some (g2, e2) → e1.mse < e2.mse := by
  let j (v : Int) : Job Unit Unit Int Int := ⟨fun _ => 1, fun _ => 2, id, id, fun _ _ => ⟨(), v, "u_t"⟩, fun n => n⟩
  refine ⟨⟨3, 2, 4, 4, 3, 500⟩, j 0, j 1, by decide, by decide, by decide, by decide, by decide, by decide, fun g1 g2 e1 e2 h1 h2 => ?_⟩
  obtain ⟨g, _, _, a, _⟩ := C200_fit ⟨3, 2, 4, 4, 3, 500⟩ (by decide) (by decide) (by decide) (by decide) (by decide) (new ()) (j 0)
  obtain ⟨g', _, _, b, _⟩ := C200_fit ⟨3, 2, 4, 4, 3, 500⟩ (by decide) (by decide) (by decide) (by decide) (by decide) (fit ⟨3, 2, 4, 4, 3, 500⟩ (new ()) (j 0)).1 (j 1)
  rw [a] at h1
  rw [b] at h2
  cases h1
  cases h2
  show (0 : Int) < 1
  decide

end Verif.Dlga.Hist.Claims
