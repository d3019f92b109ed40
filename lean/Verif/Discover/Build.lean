import Verif.Discover.Library
/-!
# Building the token library (kd/model/discover/functions.py, library.py)

A token is its attributes (`Token`) and the name of the Python callable behind it (`none` for variables).  `num` tells for a
text whether `float(text)` succeeds, and then how numpy prints the value as a 32-bit float.  The flag `torch_add` (never set by a
caller) and `decision_tree_threshold_set` (unused) are not modelled.
-/
namespace Verif.Discover.Build
open Verif.Discover

/-- A token of the library with its function. -/
structure FTok where
  tok : Token
  fn : Option String
deriving DecidableEq, Repr

/-- An operator of the tables. -/
def op (fn name : String) (arity : Nat) : FTok := ⟨{ name, arity }, some fn⟩

/-- functions.py:53-82 `add_ops` -/
def addOps : List FTok :=
  [op "Diff" "diff" 2, op "Diff2" "diff2" 2, op "Diff3" "diff3" 2, op "Diff4" "diff4" 2, op "Laplace" "lap" 1,
   op "Diff_2" "Diff" 2, op "Diff2_2" "Diff2" 2, op "Diff_3" "Diff_3" 2, op "Diff2_3" "Diff2_3" 2, op "Laplace_3" "lap_3" 1,
   op "torch_diff 1" "diff_t" 2, op "torch_diff 2" "diff2_t" 2, op "torch_diff 3" "diff3_t" 2, op "torch_diff 4" "diff4_t" 2,
   op "Laplacian_t" "lap_t" 1, op "torch.add" "add_t" 2, op "torch.subtract" "sub_t" 2, op "torch.multiply" "mul_t" 2,
   op "protected_div_torch" "div_t" 2, op "protected_n2_torch" "n2_t" 1, op "protected_n3_torch" "n3_t" 1]

/-- functions.py:84-94 `force_ops` -/
def forceOps : List FTok :=
  [op "ddx" "ddx" 1, op "ddy" "ddy" 1, op "laplacian" "laplacian" 1, op "adv" "adv" 1, op "ddx_t" "ddx_t" 1, op "ddy_t" "ddy_t" 1,
   op "laplacian_t" "laplacian_t" 1, op "adv_t" "adv_t" 1]

/-- functions.py:96-129 `unprotected_ops` -/
def unprotectedOps : List FTok :=
  [op "np.add" "add" 2, op "np.subtract" "sub" 2, op "np.multiply" "mul" 2, op "np.divide" "div" 2, op "np.sin" "sin" 1,
   op "np.cos" "cos" 1, op "np.tan" "tan" 1, op "np.exp" "exp" 1, op "np.log" "log" 1, op "np.sqrt" "sqrt" 1, op "np.square" "n2" 1,
   op "np.negative" "neg" 1, op "np.abs" "abs" 1, op "np.maximum" "max" 1, op "np.minimum" "min" 1, op "np.tanh" "tanh" 1,
   op "np.reciprocal" "inv" 1, op "logabs" "logabs" 1, op "expneg" "expneg" 1, op "n3" "n3" 1, op "n4" "n4" 1, op "n5" "n5" 1,
   op "sigmoid" "sigmoid" 1, op "harmonic" "harmonic" 1] ++ addOps ++ forceOps

/-- functions.py:174-190 `protected_ops` -/
def protectedOps : List FTok :=
  [op "protected_div" "div" 2, op "protected_exp" "exp" 1, op "protected_log" "log" 1, op "protected_log" "logabs" 1,
   op "protected_sqrt" "sqrt" 1, op "protected_inv" "inv" 1, op "protected_expneg" "expneg" 1, op "protected_n2" "n2" 1,
   op "protected_n3" "n3" 1, op "protected_n4" "n4" 1, op "protected_sigmoid" "sigmoid" 1]

/-- functions.py:192-199 `function_map` (all keys are distinct) -/
def functionMap : List (String × FTok) :=
  unprotectedOps.map (fun t => (t.tok.name, t)) ++ protectedOps.map fun t => ("protected_" ++ t.tok.name, t)

/-- `s.startswith(p)` -/
def starts (p s : String) : Bool := p.toList.isPrefixOf s.toList

/-- `"x{}".format(i + 1)` and the like -/
def numbered (p : String) (i : Nat) : String := p ++ toString (i + 1)

/-- The exceptions: ValueError, KeyError, IndexError. -/
inductive Exn where
  | value | key | index
deriving DecidableEq, Repr

/-- functions.py:236-250: input variables, and for PDE tasks state variables. -/
def variables_ (nIn nState : Nat) (pde : Bool) : List FTok :=
  (List.range nIn).map (fun i => ⟨{ name := numbered "x" i, arity := 0, inputVar := some i }, none⟩) ++
  if pde then (List.range nState).map fun i => ⟨{ name := numbered "u" i, arity := 0, stateVar := some i }, none⟩ else []

/-- functions.py:258: the name of parameter `i`. -/
def paramName (names : Option (List String)) (i : Nat) : String := ((names.getD [])[i]?).getD (numbered "p" i)

/-- functions.py:254-256: the names a parameter may not have. -/
def reserved (vars : List FTok) (n : String) : Bool :=
  (vars.map (·.tok.name)).contains n || (functionMap.lookup n).isSome || n == "const"

/-- functions.py:257-266: the parameter tokens. -/
def params (vars : List FTok) (names : Option (List String)) : List Nat → Except Exn (List FTok)
  | [] => .ok []
  | i :: r =>
    if reserved vars (paramName names i) then .error .value
    else match params vars names r with
      | .error e => .error e
      | .ok ts => .ok (⟨{ name := paramName names i, arity := 0, paramVar := some i }, none⟩ :: ts)

/-- functions.py:273-276: the key actually looked up. -/
def resolve (protected_ : Bool) (o : String) : String :=
  if protected_ && !(starts "protected_" o) && (functionMap.lookup ("protected_" ++ o)).isSome then "protected_" ++ o else o

/-- functions.py:268-291: one entry of the function set. -/
def opToken (num : String → Option String) (protected_ : Bool) (o : String) : Except Exn FTok :=
  if (functionMap.lookup o).isSome then
    match functionMap.lookup (resolve protected_ o) with
    | some t => .ok t
    | none => .error .key
  else match num o with
    | some shown => .ok ⟨{ name := shown, arity := 0 }, some ("value " ++ o)⟩
    | none => if o = "const" then .ok ⟨{ name := "const", arity := 0 }, some "placeholder"⟩ else .error .value

/-- functions.py:268-291: all of them. -/
def opTokens (num : String → Option String) (protected_ : Bool) : List String → Except Exn (List FTok)
  | [] => .ok []
  | o :: r => match opToken num protected_ o with
    | .error e => .error e
    | .ok t => match opTokens num protected_ r with
      | .error e => .error e
      | .ok ts => .ok (t :: ts)

/-- functions.py:206-295 `create_tokens` -/
def createTokens (num : String → Option String) (nIn : Nat) (functionSet : List String) (protected_ : Bool) (nState : Nat)
    (pde : Bool) (nParam : Nat) (names : Option (List String)) : Except Exn (List FTok) :=
  let vars := variables_ nIn nState pde
  match params vars names (List.range nParam) with
  | .error e => .error e
  | .ok ps => match opTokens num protected_ functionSet with
    | .error e => .error e
    | .ok os => .ok (vars ++ ps ++ os)

/-- The library of these tokens (library.py:130-137). -/
def lib (ts : List FTok) : Lib := ⟨ts.map (·.tok)⟩

/-! ## Looking up (library.py) -/

/-- library.py:225-242 `__getitem__` with a name: the first token of that name. -/
def getName (ts : List FTok) (n : String) : Option Nat := ts.findIdx? fun t => t.tok.name == n

/-- `s.split(',')` on characters: the pieces between commas (never empty). -/
def splitComma : List Char → List (List Char)
  | [] => [[]]
  | c :: cs => if c = ',' then [] :: splitComma cs else
    match splitComma cs with
    | [] => [[c]]
    | p :: ps => (c :: p) :: ps

/-- Looking up several names in order; `none`: `TokenNotFoundError`. -/
def getNames (ts : List FTok) : List String → Option (List Nat)
  | [] => some []
  | n :: r => match getName ts n, getNames ts r with
    | some i, some is => some (i :: is)
    | _, _ => none

/-- library.py:244-261 `tokenize` and `actionize` of a text (two equal tokens are the same object only if they are the same module
entry, so the position of the first equal one is meant). -/
def actionize (ts : List FTok) (text : List Char) : Option (List Nat) :=
  getNames ts ((splitComma text).map String.ofList)

/-! ## Switching to torch operators -/

/-- functions.py:297-316 `add_torch_tokens`: the dict of torch operators, keyed by their names (a repeated key gets the same value
again).  The first name with `_t` in it ends the loop with the empty dict. -/
def addTorch (protected_ : Bool) (acc : List (String × FTok)) : List String → Except Exn (List (String × FTok))
  | [] => .ok acc
  | o :: r =>
    if (functionMap.lookup o).isSome then
      if hasSub "_t".toList o.toList then .ok []
      else match functionMap.lookup (resolve protected_ (o ++ "_t")) with
        | none => .error .key
        | some t => addTorch protected_ (acc ++ [(resolve protected_ (o ++ "_t"), t)]) r
    else addTorch protected_ acc r

/-- library.py:137 `np_names` -/
def npNames (ts : List FTok) : List String :=
  (ts.filter fun t => t.tok.name != "const" && (!(t.tok.name.toList.contains 'u') || t.tok.name == "mul") &&
    t.tok.inputVar.isNone && t.tok.paramVar.isNone).map (·.tok.name)

/-- program.py:437-443: one token. -/
def switchToken (np : List String) (torch : List (String × FTok)) (t : FTok) : Except Exn FTok :=
  if np.contains t.tok.name then
    match torch.lookup (t.tok.name ++ "_t") with
    | some t' => .ok t'
    | none => .error .key
  else .ok t

/-- All tokens of a traversal. -/
def switchAll (np : List String) (torch : List (String × FTok)) : List FTok → Except Exn (List FTok)
  | [] => .ok []
  | t :: r => match switchToken np torch t with
    | .error e => .error e
    | .ok t' => match switchAll np torch r with
      | .error e => .error e
      | .ok r' => .ok (t' :: r')

/-- program.py:428-458 `switch_tokens` (the traversal; `ts` is the library). -/
def switchTokens (ts : List FTok) (torch : List (String × FTok)) (traversal : List FTok) : Except Exn (List FTok) :=
  if torch.isEmpty then .ok traversal
  else match npNames ts with
    | [] => .error .index
    | n :: _ => if hasSub "_t".toList n.toList then .ok traversal else switchAll (npNames ts) torch traversal

/-! ## The protected operators, exact arithmetic (functions.py:43-51, 132-172) -/

/-- `np.abs` -/
def absR (a : Rat) : Rat := if a < 0 then -a else a

/-- functions.py:132-134 `protected_div` -/
def protDiv (a b : Rat) : Rat := if 1 / 1000 < absR b then a / b else 1
/-- functions.py:149-152 `protected_inv` -/
def protInv (a : Rat) : Rat := if 1 / 1000 < absR a then 1 / a else 0
/-- functions.py:158-168 `protected_n2`, `protected_n3`, `protected_n4` -/
def protPow (k : Nat) (a : Rat) : Rat := if absR a < 1000000 then a ^ k else 0
/-- functions.py:43-45 `protected_div_torch` -/
def torchDiv (a b : Rat) : Rat := a / (if 1 / 100000000 < absR b then b else 1 / 100000000)

end Verif.Discover.Build
