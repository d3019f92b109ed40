import Verif.Sga.Eval
/-!
# Model of kd/model/sga/sgapde/solver.py (class `SGA`) and of class `PDE` in pde.py

Terms are kept without their caches: C47 shows that every term that survives an evaluation has its caches restored.
`copy.deepcopy` is value semantics; the only sharing the code creates (`new_pde1.elements[ix1] = pde2.elements[ix2]`)
is between the new individuals and copies that are dropped.
-/
namespace Verif.Sga

/-- The scores (floats) as `np.argsort` sees them: `le` is its order (NaN last). -/
structure ScoreOrd (S : Type) where
  le : S → S → Bool
  nan : S → Bool
  /-- `np.inf` -/
  inf : S
  /-- `a_err == np.inf` -/
  isInf : S → Bool
  /-- `a_err < -100` -/
  tooGood : S → Bool

/-- What floats guarantee. -/
structure ScoreOrd.Ok {S : Type} (o : ScoreOrd S) : Prop where
  total : ∀ a b, o.le a b = true ∨ o.le b a = true
  trans : ∀ a b c, o.le a b = true → o.le b c = true → o.le a c = true
  nan_last : ∀ a b, o.nan b = true → o.le a b = true
  nan_top : ∀ a b, o.nan a = true → o.le a b = true → o.nan b = true
  inf_top : ∀ a, o.nan a = false → o.le a o.inf = true
  isInf : ∀ a, o.isInf a = true ↔ o.nan a = false ∧ o.le o.inf a = true
  inf_num : o.nan o.inf = false

/-- The data of a run: kernels, tables, depth limit and the regression. -/
structure Env (V S : Type) where
  sem : Sem V
  ctx : Ctx
  depth : Nat
  ord : ScoreOrd S
  /-- `np.isfinite` of a whole column -/
  finite : V → Bool
  /-- the AIC `Train` returns for the default terms and these columns (PDE_find.py:77-154, deterministic) -/
  train : List V → S
  /-- `np.argsort` -/
  argsort : List S → List Nat

/-- pde.py:57-70 `PDE` -/
structure Ind where
  W : Nat
  elements : List Levels

/-- Forget the caches. -/
def strip {V : Type} (t : List (List (CNode V))) : Levels := t.map fun l => l.map (·.1)

/-- pde.py:252-272: infinite score without usable columns, otherwise the regression's AIC. -/
def scoreOf {V S : Type} (env : Env V S) (cols : List V) : S :=
  if cols.isEmpty || cols.any (fun v => !env.finite v) then env.ord.inf else env.train cols

/-- pde.py:110-282 `evaluate_mse(a_pde, context)`: the individual after deletion of its rejected terms, and its score. -/
def evaluate {V S : Type} (env : Env V S) (p : Ind) : Except Fail (Ind × S) :=
  match evalTerms env.sem p.W (p.elements.map fresh) with
  | .error f => .error f
  | .ok (ts, cols, w) => .ok (⟨w, ts.map strip⟩, scoreOf env (cols.filterMap id))

/-- pde.py:84-90 `visualize` (`inorder` always exists for terms of the search: C20). -/
def visualize (p : Ind) : String := String.intercalate "+" (p.elements.map fun t => (inorder t).getD "")

/-- solver.py:106-112: population, scores, and the strings in `pde_lib` (the `PDE` objects appended by the constructor
never equal a string). -/
structure Pop (S : Type) where
  eqs : List Ind
  mses : List S
  lib : List String

/-- `[l[i] for i in idx]` -/
def gather {α : Type} (l : List α) (idx : List Nat) : Option (List α) := idx.mapM fun i => l[i]?

/-- solver.py:200-207 (and 209-216, 250-257): evaluate and append an individual unless its printed form is known. -/
def offer {V S : Type} (env : Env V S) (st : Pop S) (p : Ind) : Except Fail (Pop S) :=
  if st.lib.contains (visualize p) then .ok st
  else
    match evaluate env p with
    | .error f => .error f
    | .ok (p', s) => .ok ⟨st.eqs ++ [p'], st.mses ++ [s], st.lib ++ [visualize p']⟩

/-- solver.py:224-226 (and 265-267): keep the first `n` in sorted order; with all indices: solver.py:187-190, 232-238. -/
def keepBest {V S : Type} (env : Env V S) (n : Nat) (st : Pop S) : Except Fail (Pop S) :=
  match gather st.eqs ((env.argsort st.mses).take n), gather st.mses ((env.argsort st.mses).take n) with
  | some e, some m => .ok ⟨e, m, st.lib⟩
  | _, _ => .error .raised

/-- solver.py:178-184 `cross_individual`; `randint(0)` raises. -/
def crossPair (a b : Ind) (d : Nat × Nat) : Except Fail (Ind × Ind) :=
  match a.elements[d.1 % a.elements.length]?, b.elements[d.2 % b.elements.length]? with
  | some x, some y =>
    .ok (⟨a.W, a.elements.set (d.1 % a.elements.length) y⟩, ⟨b.W, b.elements.set (d.2 % b.elements.length) x⟩)
  | _, _ => .error .raised

/-- solver.py:198-216: the pairs, with the drawn positions -/
def crossLoop {V S : Type} (env : Env V S) (ix : Nat → Nat × Nat) : Nat → List (Ind × Ind) → Pop S → Except Fail (Pop S)
  | _, [], st => .ok st
  | k, ab :: rest, st =>
    match crossPair ab.1 ab.2 (ix k) with
    | .error f => .error f
    | .ok (na, nb) =>
      match offer env st na with
      | .error f => .error f
      | .ok st1 =>
        match offer env st1 nb with
        | .error f => .error f
        | .ok st2 => crossLoop env ix (k + 1) rest st2

/-- The random outcomes of one crossover round: the shuffle of the copies and the two positions for every pair. -/
structure CrossDraw where
  shuf : List Nat
  ix : Nat → Nat × Nat

/-- solver.py:174-226 `cross_over`; `numIx = int(num * percentage)`. -/
def crossOver {V S : Type} (env : Env V S) (num numIx : Nat) (d : CrossDraw) (st : Pop S) : Except Fail (Pop S) :=
  match keepBest env st.mses.length st with
  | .error f => .error f
  | .ok st =>
    match gather (st.eqs.take numIx) d.shuf with
    | none => .error .raised
    | some reo =>
      match crossLoop env d.ix 0 ((st.eqs.take numIx).zip reo) st with
      | .error f => .error f
      | .ok st => keepBest env num st

/-- pde.py:72-74 `mutate`: `for i in range(W): elements[i].mutate(...)`. -/
def mutElems (ctx : Ctx) (dr : Nat → Nat → Nat → MutDraw) : Nat → Nat → List Levels → Except Fail (List Levels)
  | _, 0, ts => .ok ts
  | _, _ + 1, [] => .error .raised
  | i, w + 1, t :: ts =>
    match mutTree ctx (dr i) t with
    | .error f => .error f
    | .ok t' =>
      match mutElems ctx dr (i + 1) w ts with
      | .error f => .error f
      | .ok ts' => .ok (t' :: ts')

/-- The random outcomes for one individual in `change`. -/
structure ChangeDraw where
  muts : Nat → Nat → Nat → MutDraw
  rep : Bool
  ix : Nat
  root : Entry
  gen : Nat → Nat → GenDraw

/-- Random outcomes drawn from the tables of the context. -/
structure ChangeDraw.From (ctx : Ctx) (d : ChangeDraw) : Prop where
  muts : ∀ i l k, (d.muts i l k).From ctx
  root : d.root ∈ ctx.ROOT
  gen : ∀ l k, (d.gen l k).From ctx

/-- solver.py:245-248 with pde.py:71-81: mutate, then maybe replace one term by a new one. -/
def vary {V S : Type} (env : Env V S) (p : Ind) (d : ChangeDraw) : Except Fail Ind :=
  match mutElems env.ctx d.muts 0 p.W p.elements with
  | .error f => .error f
  | .ok ts =>
    if d.rep then
      if p.W ≠ 0 ∧ d.ix % p.W < ts.length then .ok ⟨p.W, ts.set (d.ix % p.W) (genTree env.depth d.root d.gen)⟩
      else .error .raised
    else .ok ⟨p.W, ts⟩

/-- solver.py:241-257: the individuals at positions `i, i+1, …` of the copy, `n` of them. -/
def changeLoop {V S : Type} (env : Env V S) (copy : List Ind) (ds : Nat → ChangeDraw) :
    Nat → Nat → Pop S → Except Fail (Pop S)
  | _, 0, st => .ok st
  | i, n + 1, st =>
    match copy[i]? with
    | none => .error .raised
    | some p =>
      match vary env p (ds i) with
      | .error f => .error f
      | .ok p' =>
        match offer env st p' with
        | .error f => .error f
        | .ok st' => changeLoop env copy ds (i + 1) n st'

/-- solver.py:228-267 `change`: position 0 of the sorted population is left alone. -/
def change {V S : Type} (env : Env V S) (num : Nat) (ds : Nat → ChangeDraw) (st : Pop S) : Except Fail (Pop S) :=
  match keepBest env st.mses.length st with
  | .error f => .error f
  | .ok st =>
    match changeLoop env st.eqs ds 1 (num - 1) st with
    | .error f => .error f
    | .ok st => keepBest env num st

/-- The random outcomes of `PDE.__init__` (pde.py:58-70): one root and one draw table per term. -/
abbrev NewDraw := List (Entry × (Nat → Nat → GenDraw))

def newInd {V S : Type} (env : Env V S) (d : NewDraw) : Ind :=
  ⟨d.length, d.map fun rd => genTree env.depth rd.1 rd.2⟩

/-- solver.py:116-126: draw until the score is neither below -100 nor infinite. -/
def initOne {V S : Type} (env : Env V S) : List NewDraw → Except Fail (Ind × S)
  | [] => .error .pending
  | d :: ds =>
    match evaluate env (newInd env d) with
    | .error f => .error f
    | .ok (p, s) => if env.ord.tooGood s || env.ord.isInf s then initOne env ds else .ok (p, s)

def initAll {V S : Type} (env : Env V S) : List (List NewDraw) → Except Fail (Pop S)
  | [] => .ok ⟨[], [], []⟩
  | d :: ds =>
    match initOne env d with
    | .error f => .error f
    | .ok (p, s) =>
      match initAll env ds with
      | .error f => .error f
      | .ok st => .ok ⟨p :: st.eqs, s :: st.mses, st.lib⟩

/-- solver.py:80-139 `SGA.__init__`: `num` individuals, sorted (`self.ratio` is 1). -/
def initPop {V S : Type} (env : Env V S) (ds : List (List NewDraw)) : Except Fail (Pop S) :=
  match initAll env ds with
  | .error f => .error f
  | .ok st => keepBest env ds.length st

/-- `np.argmin`: the first NaN if there is one, otherwise the first minimum. -/
def argminFrom {S : Type} (o : ScoreOrd S) : Nat → S → Nat → List S → Nat
  | best, _, _, [] => best
  | best, b, i, m :: ms =>
    if !o.nan b && (o.nan m || !o.le b m) then argminFrom o i m (i + 1) ms else argminFrom o best b (i + 1) ms

/-- solver.py:169-172 `the_best`; `argmin` of an empty sequence raises. -/
def theBest {S : Type} (o : ScoreOrd S) (st : Pop S) : Option (Ind × S) :=
  match st.mses with
  | [] => none
  | m :: ms =>
    match st.eqs[argminFrom o 0 m 1 ms]?, st.mses[argminFrom o 0 m 1 ms]? with
    | some p, some s => some (p, s)
    | _, _ => none

/-- The random outcomes of one generation. -/
structure GenRound where
  cross : CrossDraw
  change : Nat → ChangeDraw

/-- solver.py:141-167 `run`: the generations (printing omitted; `concise_visualize` works on a deep copy). -/
def runGens {V S : Type} (env : Env V S) (num numIx : Nat) : List GenRound → Pop S → Except Fail (Pop S)
  | [], st => .ok st
  | g :: gs, st =>
    match crossOver env num numIx g.cross st with
    | .error f => .error f
    | .ok st =>
      match change env num g.change st with
      | .error f => .error f
      | .ok st => runGens env num numIx gs st

end Verif.Sga
