import Verif.Discover.Select
/-!
# The aggregator (kd/model/discover/aggregator.py, ga_utils.py)
What one call of the aggregator returns, remembers and does to the list of programs it was given; and the terms that are added for symmetry
between the space directions.
-/
namespace Verif.Discover.Agg
open Verif.Discover

/-! ## `drop_duplicates` with its effect on the caller's lists -/

/-- ga_utils.py:202-229: as `dropOuter`, but returning also the caller's lists as they are left (`tokens[idx]=tokens[i]`, `values[idx]=values[i]`
write into the arguments). -/
def dropBoth {T V : Type} (same : V → V → Bool) :
    Nat → Nat → List (DEntry T V) → List (DEntry T V) → Option (List (DEntry T V) × List (DEntry T V))
  | 0, _, s, out => some (out, s)
  | n + 1, i, s, out =>
    match s[i]? with
    | none => some (out, s)
    | some cur =>
      match dropInner same cur (s.drop (i + 1)) s false with
      | none => none
      | some (s', dup) => dropBoth same n (i + 1) s' (if dup then out else out ++ [cur])

/-! ## The call -/

/-- A program as the aggregator sees it: name, reward `r_ridge`, `len_traversal`. -/
structure Prog where
  id : Nat
  r : Int
  len : Nat
deriving DecidableEq, Repr

/-- aggregator.py:32-36: what is kept between calls (`best_r` starts at 0, `best_p` at None). -/
structure State where
  best : Option Prog := none
  bestR : Int := 0
deriving DecidableEq, Repr

/-- What a call gives back. -/
structure Result where
  /-- the programs returned -/
  kept : List Prog
  /-- the memory of the aggregator -/
  state : State
  /-- the list the caller passed in, as it is afterwards -/
  caller : List Prog
deriving DecidableEq, Repr

/-- aggregator.py:139-140: the entries of the first `drop_duplicates`. -/
def entries (ps : List Prog) : List (DEntry Prog Int) := ps.map (fun p => ⟨p, p.r, p.len⟩)

/-- numpy's `max` of a non-empty list. -/
def maxR : List Int → Option Int
  | [] => none
  | r :: rs => some (rs.foldl max r)

/-- aggregator.py:161 `sorted(programs, key = r_ridge, reverse=True)[0]`: the first of the programs with the greatest reward (the sort is stable,
also with `reverse=True`). -/
def topOf : List Prog → Option Prog
  | [] => none
  | p :: ps => some (ps.foldl (fun b q => if b.r < q.r then q else b) p)

/-- aggregator.py:175-178: the record. -/
def remember (st : State) (p : Prog) : State := if st.bestR < p.r then ⟨some p, p.r⟩ else st

/-- aggregator.py:127-183 `__call__`.  `gp` are the programs of the genetic step that passed the filter and `drop_duplicates` (empty without one); `ps` the
programs built from `self.expressions` (lines 44-75).  Rewards are integers here; `same` is the comparison `|a - b| < 1e-5`.  `none` is an
exception: `np.min([])`, `ps[-1]` of an empty list.  The regression and the term bank enter only through `ps`. -/
def call (same : Int → Int → Bool) (st : State) (programs gp ps : List Prog) : Option Result := do
  let (uniq, after) ← dropBoth same programs.length 0 (entries programs) []
  let rMax ← maxR (uniq.map (·.val))
  let top ← topOf (uniq.map (·.tok) ++ st.best.toList ++ gp)
  let last ← ps.getLast?
  some ⟨ps.filter (fun p => decide (rMax < p.r)), remember st (if last.r < top.r then top else last), after.map (·.tok)⟩

/-! ## Terms added for symmetry -/

/-- A token of the library: its index, its number of operands, whether it is an input variable or a state variable. -/
structure Tok where
  idx : Nat
  arity : Nat
  isInput : Bool
  isState : Bool
deriving DecidableEq, Repr

/-- `itertools.permutations(l, k)` for a list without repetitions, in its order. -/
def perms : List Tok → Nat → List (List Tok)
  | _, 0 => [[]]
  | l, k + 1 => l.flatMap (fun x => (perms (l.erase x) k).map (x :: ·))

/-- ga_utils.py:367-376: the new term; `none` is an index out of range. -/
def substitute : List Tok → List Tok → List Tok → Option (List Tok)
  | [], _, _ => some []
  | t :: ts, ins, sts =>
    if t.isInput then
      match ins with
      | [] => none
      | i :: ins => (substitute ts ins sts).map (i :: ·)
    else if t.isState then
      match sts with
      | [] => none
      | s :: sts => (substitute ts ins sts).map (s :: ·)
    else (substitute ts ins sts).map (t :: ·)

/-- ga_utils.py:355: state permutations are only formed if there is more than one state token in the term. -/
def statePerms (states : List Tok) (n : Nat) : List (List Tok) := if 1 < n then perms states n else []

/-- ga_utils.py:333-379 `complete(term)`; `inputs`, `states` are the library's input and state tokens. -/
def complete (inputs states : List Tok) (term : List Tok) : Option (List (List Tok)) :=
  let ig := term.filter (·.isInput)
  let sg := term.filter (·.isState)
  ((sg :: statePerms states sg.length).flatMap fun sp =>
    ((perms inputs ig.length).filter (fun ip => ip ≠ ig)).map fun ip => substitute term ip sp).mapM id

/-- ga_utils.py:398-402 `include_input_tokens`. -/
def includesInput (term : List Tok) : Bool := term.any (·.isInput)

/-- ga_utils.py:307-330 (the supplementing part of `spatial_complete`, with the values left out): the terms in order are completed until more than ten
terms were added. -/
def supplement (inputs states : List Tok) : List (List Tok) → List (List Tok) → Option (List (List Tok))
  | [], new => some new
  | t :: ts, new =>
    if includesInput t then do
      let c ← complete inputs states t
      if 10 < (new ++ c).length then some (new ++ c) else supplement inputs states ts (new ++ c)
    else supplement inputs states ts new

/-- ga_utils.py:286-331 `spatial_complete(tokens, …, supplement=True)`, the terms returned: with one input token nothing is done. -/
def spatialComplete (inputs states : List Tok) (terms : List (List Tok)) : Option (List (List Tok)) :=
  if inputs.length = 1 then some terms
  else (supplement inputs states terms []).map (terms ++ ·)

end Verif.Discover.Agg
