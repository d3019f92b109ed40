import Mathlib.Data.Nat.Log
import Verif.Discover.Library
/-!
# Fitting the coefficients of a program (kd/model/discover/stridge.py, task/pde/pde.py)

Numbers are an arbitrary type `K`; only the two tests the code applies to coefficients (`|w| < 5e-5`, `|w| > 1e4`) are
named.  Numpy's `lstsq`, the executor and the data are parameters.
-/
namespace Verif.Discover.Fit

/-! ## The warning log (stridge.py:13-60) -/

/-- stridge.py:13-19 `InvalidLog`: the flag `new_entry` with the recorded type and node. -/
structure Log where
  newEntry : Bool := false
  errType : Option String := none
  errNode : Option String := none
deriving DecidableEq, Repr

/-- stridge.py:21-28 `write` (numpy's message split into the words 1 and -1): only the first warning is recorded. -/
def Log.write (l : Log) (ty node : String) : Log :=
  if l.newEntry then l else { newEntry := true, errType := some ty, errNode := some node }

/-- stridge.py:30-38 `update`: reports and clears the flag. -/
def Log.update (l : Log) : (Bool × Option String × Option String) × Log :=
  if l.newEntry then ((true, l.errType, l.errNode), { l with newEntry := false })
  else ((false, none, none), l)

/-- What one call of the executor does: the warnings numpy raises, in order, and then the value or an exception. -/
structure Run (V : Type) where
  warnings : List (String × String)
  value : Option V            -- `none`: python_execute raises

/-- stridge.py:45-54 `unsafe_execute`.  `none`: the exception of `python_execute` propagates (the log keeps the warnings
of the interrupted evaluation).  The two names are swapped, as in the code (line 54). -/
def unsafeExecute {V : Type} (l : Log) (r : Run V) : Option (V × Bool × Option String × Option String) × Log :=
  let l1 := r.warnings.foldl (fun l w => l.write w.1 w.2) l
  match r.value with
  | none => (none, l1)
  | some y => let (rep, l2) := l1.update; (some (y, rep.1, rep.2.1, rep.2.2), l2)

/-- stridge.py:56-66 `unsafe_execute_torch`: numpy's log is not consulted; a `None` value is invalid (and writes the log
without clearing it). -/
def unsafeExecuteTorch {V : Type} (l : Log) (r : Run (Option V)) :
    Option (Option V × Bool × Option String × Option String) × Log :=
  let l1 := r.warnings.foldl (fun l w => l.write w.1 w.2) l
  match r.value with
  | none => (none, l1)
  | some none => (some (none, true, some "bad_diff", some "bad_diff"), l1.write "bad_diff" "bad_diff")
  | some (some y) => (some (some y, false, none, none), l1)

/-! ## Regulations (stridge.py:214-265) -/

/-- Python's `repr` of a list of tokens: `[name0, name1, …]` (`Token.__repr__` is the name, library.py:58-59). -/
def reprTokens (names : List String) : List Char :=
  '[' :: (List.intercalate ", ".toList (names.map String.toList) ++ "]".toList)

/-- Python's `s.count(p)` (non-overlapping, from the left; `p` non-empty). -/
def countSub (p : List Char) : List Char → Nat
  | [] => 0
  | c :: cs => if p.isPrefixOf (c :: cs) then 1 + countSub p ((c :: cs).drop (max p.length 1)) else countSub p cs
termination_by s => s.length
decreasing_by all_goals simp <;> omega

/-- The name of the input variable number `i` (from 1): `f'x{i}'`. -/
def xName (i : Nat) : List Char := 'x' :: (toString i).toList

/-- stridge.py:234-249 `check_spatial_regulation`: `dim0 = len(x)`, `lastStr`: `type(x[-1]) == str`.  Returns the errors. -/
def spatialErrors (dim0 : Nat) (lastStr : Bool) (traversal : List String) : List String :=
  let dim := if dim0 > 0 && lastStr then dim0 - 1 else dim0
  let r := reprTokens traversal
  let num := countSub (xName 1) r
  ((List.range dim).drop 1).flatMap fun i =>
    let n := countSub (xName (i + 1)) r
    if i = dim - 1 && lastStr then (if n = 0 then ["spatial_error"] else [])
    else if n ≠ num then ["spatial_error"] else []

/-- stridge.py:372 `np.ceil(math.log(length, 2))` (floating-point rounding of the logarithm not modelled). -/
def depthOf (term : List String) : Nat := Nat.clog 2 term.length

/-- stridge.py:254-266, the body of the loop of `check_single_term` for one term: the errors it adds
(each error also adds the term's index to the omit list). -/
def termErrors (maxDepth : Nat) (term : List String) : List String :=
  let r := reprTokens term
  (if (hasSub "diff".toList r || hasSub "Diff".toList r) && !hasSub ", u".toList r then ["no_u"] else []) ++
  (if depthOf term > maxDepth then ["depth_limit"] else []) ++
  (if !hasSub "u".toList r then ["violate physical constraint"] else [])

/-- stridge.py:251-266 `check_single_term`: omit list and error list. -/
def checkTerms (maxDepth : Nat) (terms : List (List String)) : List Nat × List String :=
  (terms.zipIdx.flatMap (fun p => (termErrors maxDepth p.1).map fun _ => p.2),
   terms.flatMap (termErrors maxDepth))

/-- Settings of a fit: `Regulations.__init__` (219-221), the shape of `x`, and `const`. -/
structure Cfg where
  maxDepth : Nat := 4
  spatialError : Bool := false
  xDim : Nat := 1
  xLastStr : Bool := false
  addConst : Bool := false

/-- stridge.py:224-232 `apply_regulations`. -/
def regulations (c : Cfg) (traversal : List String) (terms : List (List String)) : List Nat × List String :=
  let e1 := if c.spatialError then spatialErrors c.xDim c.xLastStr traversal else []
  let p := checkTerms c.maxDepth terms
  (p.1, e1 ++ p.2)

/-! ## Evaluating the terms and fitting the coefficients (stridge.py:430-582) -/

/-- Result of executing one term: an invalid evaluation with its error name, `None`, or the flattened array. -/
inductive TermVal (K : Type) where
  | invalid (err : String)
  | none
  | col (xs : List K)

/-- The loop of stridge.py:488-511 over the terms: the first failing term ends it. -/
def runTerms {K : Type} (run : List String → TermVal K) : List (List String) → Except String (List (List K))
  | [] => .ok []
  | t :: ts =>
    match run t with
    | .invalid e => .error e
    | .none => .error "execute_returned_none"
    | .col xs => match runTerms run ts with
      | .error e => .error e
      | .ok cs => .ok (xs :: cs)

/-- stridge.py:479-541 `evaluate_terms` (`full_sized_terms`, which nothing reads, is not modelled). -/
def evaluateTerms {K : Type} (c : Cfg) (run : List String → TermVal K) (traversal : List String)
    (terms : List (List String)) : Except String (List (List K)) :=
  let p := regulations c traversal terms
  if p.2.length > 0 then .error (String.intercalate "+" p.2)
  else match runTerms run terms with
    | .error e => .error e
    | .ok [] => .error "dim_error"
    | .ok (r :: rs) =>
      if rs.any (fun x => x.length != r.length) then .error "dim_error"
      else .ok (((r :: rs).zipIdx.filter (fun q => !p.1.contains q.2)).map Prod.fst)

/-- A fitted program: prediction, coefficients, matrix (as columns). -/
structure Fitted (K : Type) where
  yHat : List K
  w : List K
  rhs : List (List K)
deriving DecidableEq

/-- stridge.py:568-579, the loop over the coefficients.  `rest`: the coefficients still to be checked (the loop range
is fixed on entry; the list is only replaced in its last round).  `.error`: the error name; `.ok none`: keep the fit;
`.ok (some ())`: the constant column is dropped. -/
def checkCoefs {K : Type} (small large : K → Bool) (addConst : Bool) : List K → Except String Bool
  | [] => .ok false
  | w :: ws =>
    if small w then
      if addConst && ws.isEmpty then .ok true else .error "small_coe"
    else if large w then .error "large_coe"
    else checkCoefs small large addConst ws

section
variable {K : Type} [Add K] [Mul K] [OfNat K 0] [OfNat K 1]

/-- `rhs.dot(w)` for a matrix of `n` rows given by its columns. -/
def dot (n : Nat) (cols : List (List K)) (w : List K) : List K :=
  (List.range n).map fun i => ((cols.zip w).map fun p => (p.1[i]?).getD 0 * p.2).foldr (· + ·) 0

/-- stridge.py:543-582 `coef_calculate` on `n` rows.  `lstsq`: `none` = it raises.  Outer `none`: the second `lstsq`
(line 583, outside the `try`) raises. -/
def coefCalculate (small large : K → Bool) (lstsq : List (List K) → List K → Option (List K)) (addConst : Bool)
    (n : Nat) (rhs : List (List K)) (lhs : List K) : Option (Except String (Fitted K)) :=
  match lstsq rhs lhs with
  | none => some (.error "bad_str")
  | some w =>
    match checkCoefs small large addConst w with
    | .error e => some (.error e)
    | .ok false => some (.ok { yHat := dot n rhs w, w := w, rhs := rhs })
    | .ok true =>
      match lstsq rhs.dropLast lhs with
      | none => none
      | some w' => some (.ok { yHat := dot n rhs.dropLast w', w := w', rhs := rhs.dropLast })

/-- stridge.py:439-458 `calculate` for a single data set (`ut` not a list).  `lhs` is the flattened left-hand side; `np.linalg.lstsq` raises
if the numbers of rows differ (part of `lstsq`). -/
def calculate (small large : K → Bool) (lstsq : List (List K) → List K → Option (List K)) (c : Cfg)
    (run : List String → TermVal K) (traversal : List String) (terms : List (List String)) (lhs : List K) :
    Option (Except String (Fitted K)) :=
  match evaluateTerms c run traversal terms with
  | .error e => some (.error e)
  | .ok cols =>
    let n := (cols.headD []).length
    let cols := if c.addConst then cols ++ [List.replicate n 1] else cols
    coefCalculate small large lstsq c.addConst n cols lhs

/-- stridge.py:430-437 `wf_calculate` (weak form: the terms on two data sets, subtracted; no constant column).  The error
tuple `(0, [0], True, name, name, None)` of the second evaluation is not recognised as an error: its entries are
subtracted from the first three columns (`True` counts as 1), a fourth term raises (`none`). -/
def wfCalculate [Sub K] (small large : K → Bool) (lstsq : List (List K) → List K → Option (List K)) (c : Cfg)
    (run1 run2 : List String → TermVal K) (traversal : List String) (terms : List (List String)) (lhs : List K) :
    Option (Except String (Fitted K)) :=
  match evaluateTerms c run1 traversal terms with
  | .error e => some (.error e)
  | .ok cols1 =>
    let cols2? : Option (List (List K)) := match evaluateTerms c run2 traversal terms with
      | .ok cols2 => some ((cols1.zip cols2).map fun p => List.zipWith (· - ·) p.1 p.2)
      | .error _ =>
        if cols1.length ≤ 3 then
          some (cols1.mapIdx fun i col => if i = 2 then col.map (· - 1) else col.map (· - 0))
        else none
    match cols2? with
    | none => none
    | some cols => coefCalculate small large lstsq c.addConst ((cols.headD []).length) cols lhs

end

/-! ## Displaying a program (program.py:688-706, stridge.py:74-93) -/

/-- Expression trees as the display sees them (`Node.val`, `Node.children`). -/
inductive Node where
  | mk (val : String) (children : List Node)

mutual
/-- stridge.py:87-93 `Node.__repr__`. -/
def Node.repr : Node → List Char
  | .mk v cs => match cs with
    | [] => v.toList
    | c :: cs => v.toList ++ '(' :: (Node.reprL (c :: cs) ++ [')'])
/-- The comma-joined texts of the children. -/
def Node.reprL : List Node → List Char
  | [] => []
  | c :: cs => match cs with
    | [] => Node.repr c
    | c' :: cs' => Node.repr c ++ ',' :: Node.reprL (c' :: cs')
end

/-- program.py:696-706: the loop over the coefficients and terms, and the constant. -/
def strBody {K : Type} (fmt : K → List Char) (ws : List K) (terms : List Node) : List Char :=
  let out := ((ws.zip terms).map fun p => fmt p.1 ++ " * ".toList ++ p.2.repr ++ " + ".toList).flatten
  let const := (if ws.length = terms.length + 1 then ws.getLast? else none).toList
  out ++ (const.map fun w => fmt w ++ " + ".toList).flatten

/-- program.py:688-706 `str_expression` (without cached terms); `fmt` is `"%.4f" %`. -/
def strExpression {K : Type} (fmt : K → List Char) (ws : List K) (terms : List Node) : List Char :=
  let out := strBody fmt ws terms
  out.take (out.length - 3)

end Verif.Discover.Fit
