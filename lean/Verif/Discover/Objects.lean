/-!
# Programs of several expressions (`Program.set_n_objects(n)`, n > 1)

kd/model/discover/dso/subroutines.py:205-288, kd/model/discover/dso/prior.py:790-806 and 855-876, kd/model/discover/program.py:265-283.
One row of the batch; tokens are library indices, `ar` gives the arities.  Positions are floats in the code (`np.zeros`), here numbers.
-/
namespace Verif.Discover.Objects

/-- `-np.arange(1, n + 1)` -/
def markers (n : Nat) : List Int := (List.range n).map fun (i : Nat) => -((i : Int) + 1)

/-- The variables of the loop of `get_position` (subroutines.py:233-251). -/
structure St where
  dangling : Int
  marks : List Int
  ctr : Nat
  pos : Nat
  last : Nat
  c : Nat
deriving DecidableEq, Repr

/-- subroutines.py:240-251: one token; `none`: `dangling_markers[0]` of an empty array (not checked by numba). -/
def step (ar : Nat → Nat) (s : St) (t : Nat) : Option St :=
  let d := s.dangling + ((ar t : Int) - 1)
  match s.marks with
  | [] => none
  | m :: ms =>
    if d = m then some ⟨d, ms, 0, s.ctr, s.c, s.c + 1⟩
    else some ⟨d, m :: ms, s.ctr + 1, s.ctr, s.last, s.c + 1⟩

/-- The loop over the tokens. -/
def steps (ar : Nat → Nat) : St → List Nat → Option St
  | s, [] => some s
  | s, t :: l => match step ar s t with
    | none => none
    | some s' => steps ar s' l

/-- subroutines.py:205-253 `get_position`, one row: position in the current expression, position where the last one ended. -/
def getPosition (ar : Nat → Nat) (n : Nat) (tokens : List Nat) : Option (Nat × Nat) :=
  (steps ar ⟨0, markers n, 0, 0, 0, 0⟩ tokens).map fun s => (s.pos, s.last)

/-- subroutines.py:256-288 `get_mask`, one row. -/
def getMask (pos depth : Nat) : List Nat := (List.range depth).map fun j => if j < pos then 0 else 1

/-- prior.py:790-798: how often the tokens occur, after the masked actions were set to -1. -/
def repeatCount (ar : Nat → Nat) (n : Nat) (targets tokens : List Nat) : Option Nat :=
  match getPosition ar n tokens with
  | none => none
  | some (_, last) =>
    some ((List.zipWith (fun t m => decide (m ≠ 0 ∧ t ∈ targets)) tokens (getMask last tokens.length)).countP id)

/-- prior.py:800-804: are the tokens forbidden now? -/
def repeatForbids (ar : Nat → Nat) (n : Nat) (max : Nat) (targets tokens : List Nat) : Option Bool :=
  (repeatCount ar n targets tokens).map fun k => decide (max ≤ k)

/-- prior.py:855-876 `LengthConstraint.__call__` with several expressions: is a token of arity `a` allowed next? -/
def lengthAllows (ar : Nat → Nat) (n : Nat) (min max : Option Nat) (tokens : List Nat) (dangling : Int) (a : Nat) : Option Bool :=
  match getPosition ar n tokens with
  | none => none
  | some (i, _) =>
    let okMax : Bool := match max with
      | none => true
      | some mx =>
        let remaining : Int := (mx : Int) - ((i : Int) + 1)
        !(decide (dangling ≥ remaining - 1) && decide (a = 2)) && !(decide (dangling = remaining) && decide (a = 1))
    let okMin : Bool := match min with
      | none => true
      | some mn => !(decide (i + 2 < mn) && decide (dangling = 1) && decide (a = 0))
    some (okMax && okMin)

/-- prior.py:849-853 `initial_prior`: the first token of an expression. -/
def firstAllows (a : Nat) : Bool := decide (a ≠ 0)

/-- task.py:138-153 `get_next_obs` with several expressions, what it does to `dangling` (first component) and whether the row gets the
empty observation and the initial prior (second component). -/
def obsStep (ar : Nat → Nat) (s : Int × Bool) (t : Nat) : Int × Bool :=
  let d := s.1 + ((ar t : Int) - 1)
  if d = 0 then (1, true) else (d, false)

/-- The variables of the loop that cuts a program (program.py:266-283). -/
structure Cut where
  dangling : Int
  marks : List Int
  cur : List Nat
  out : List (List Nat)
deriving DecidableEq, Repr

/-- program.py:271-283: one token. -/
def cutStep (ar : Nat → Nat) (s : Cut) (t : Nat) : Cut :=
  let d := s.dangling + ((ar t : Int) - 1)
  if d ∈ s.marks then ⟨d, s.marks.filter fun m => decide (m ≠ d), [], s.out ++ [s.cur ++ [t]]⟩
  else ⟨d, s.marks, s.cur ++ [t], s.out⟩

/-- program.py:265-283: `Program.traversals`. -/
def traversals (ar : Nat → Nat) (n : Nat) (tokens : List Nat) : List (List Nat) :=
  (tokens.foldl (cutStep ar) ⟨0, markers n, [], []⟩).out

end Verif.Discover.Objects
