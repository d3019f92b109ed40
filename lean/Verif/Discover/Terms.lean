import Verif.Discover.Exec
import Verif.Discover.Finish
/-!
# Splitting an expression into terms and assembling one from terms
(stridge.py:312-387 `split_forest`, aggregator.py `reconstruct_tokens`/`mutate_p`, ga_utils.py `tokens2index`,
`mutate_single`, `cross_over_p`)
-/
namespace Verif.Discover
open Tree

/-- stridge.py:324: `root.val not in ['add','sub','add_t','sub_t']`. -/
def isSumName (n : String) : Bool := n == "add" || n == "sub" || n == "add_t" || n == "sub_t"
/-- stridge.py:328: `'sub' in root.val`. -/
def isSubName (n : String) : Bool := hasSub "sub".toList n.toList

def Lib.name (lib : Lib) (t : Nat) : String := (lib.tokens[t]?.map Token.name).getD ""

/-- stridge.py:315-332 `split_sum` followed by `expand_list` (343-350): the terms in order, each with the final
value of its `symbol` attribute.  `s` is the `symbol` of the node when it is visited (nodes start with 1,
stridge.py:85; a node's symbol is only changed by its parent, before it is visited).
`none`: `root.children[1]` raises for a sum token with fewer than two children. -/
def splitSum (isSum isSub : Nat → Bool) (s : Int) : Tree → Option (List (Int × Tree))
  | node t [a, b] =>
    if isSum t then
      let sa : Int := if isSub t then (if s = 1 then 1 else -1) else 1
      let sb : Int := if isSub t then -1 else 1
      match splitSum isSum isSub sa a, splitSum isSum isSub sb b with
      | some x, some y => some (x ++ y)
      | _, _ => none
    else some [(s, node t [a, b])]
  | node t cs => if isSum t then none else some [(s, node t cs)]

/-- aggregator.py:246-264 `reconstruct_tokens` on the token lists of the terms (`add` is the add token):
`[add, t0, add, t1, …]`, delete the entry before the last, flatten.  `none`: `del new_tokens[-2]` on an empty
list raises. -/
def reconstruct (add : Nat) (terms : List (List Nat)) : Option (List Nat) :=
  let newTokens : List (List Nat) := terms.flatMap fun t => [[add], t]
  if newTokens.length < 2 then none
  else some (newTokens.eraseIdx (newTokens.length - 2)).flatten

/-- ga_utils.py:141-154 `tokens2index`: pad with zeros; a longer list does not fit (`none`: ValueError). -/
def tokens2index (tokens : List Nat) (maxLength : Nat) : Option (List Nat) :=
  if tokens.length ≤ maxLength then some (tokens ++ List.replicate (maxLength - tokens.length) 0) else none

/-- ga_utils.py:156-180 `mutate_single`: `choice` is the final value of the rejection loop (any candidate other
than the token itself).  `none`: `candidate` is unbound for a terminal that is neither state nor input variable
(UnboundLocalError), or the loop never ends because no candidate qualifies. -/
def mutateSingle (lib : Lib) (terminalOnly : Bool) (tok choice : Nat) : Option Nat :=
  match lib.tokens[tok]? with
  | none => none
  | some tk =>
    let go (cand : List Nat) : Option Nat :=
      if cand.length = 1 then some tok
      else if choice ∈ cand ∧ choice ≠ tok then some choice else none
    if tk.arity = 0 then
      if tk.stateVar.isSome then go lib.stateTokens
      else if tk.inputVar.isSome then go lib.inputTokens
      else none
    else if terminalOnly then some tok
    else go (lib.tokensOfArity tk.arity)

/-- aggregator.py:104-125 `mutate_p`, one term: terms of at least three tokens are mutated token by token
(`draw i`: `none` = leave token `i`, `some c` = mutate it to `c`), others are kept. -/
def mutateTerm (lib : Lib) (terminalOnly : Bool) (draw : Nat → Option Nat) (term : List Nat) : Option (List Nat) :=
  if term.length ≥ 3 then
    term.zipIdx.mapM fun (tok, i) =>
      match draw i with
      | none => some tok
      | some c => mutateSingle lib terminalOnly tok c
  else some term

/-- ga_utils.py:182-200 `cross_over_p` on the two term lists: swap two terms, or copy one over and delete it from
the second list unless it is the only one. -/
def crossOver {α : Type} (swap : Bool) (i j : Nat) (xs ys : List α) : Option (List α × List α) :=
  match xs[i]?, ys[j]? with
  | some x, some y =>
    if swap then some (xs.set i y, ys.set j x)
    else some (xs ++ [y], if ys.length > 1 then ys.eraseIdx j else ys)
  | _, _ => none

/-! ## Specification -/

/-- The top-level summands of an expression with their true signs. -/
inductive Summands (isSum isSub : Nat → Bool) : Tree → List (Int × Tree) → Prop
  | leaf (t : Nat) (cs : List Tree) (h : isSum t = false) : Summands isSum isSub (node t cs) [(1, node t cs)]
  | add (t : Nat) (a b : Tree) (x y : List (Int × Tree)) (h : isSum t = true) (h' : isSub t = false)
      (ha : Summands isSum isSub a x) (hb : Summands isSum isSub b y) :
      Summands isSum isSub (node t [a, b]) (x ++ y)
  | sub (t : Nat) (a b : Tree) (x y : List (Int × Tree)) (h : isSum t = true) (h' : isSub t = true)
      (ha : Summands isSum isSub a x) (hb : Summands isSum isSub b y) :
      Summands isSum isSub (node t [a, b]) (x ++ y.map fun p => (-p.1, p.2))

/-- The value of an expression whose non-sum subexpressions have value `v` (any integers; a data point). -/
def sumVal (isSum isSub : Nat → Bool) (v : Tree → Int) : Tree → Int
  | node t [a, b] =>
    if isSum t then
      if isSub t then sumVal isSum isSub v a - sumVal isSum isSub v b
      else sumVal isSum isSub v a + sumVal isSum isSub v b
    else v (node t [a, b])
  | node t cs => v (node t cs)

def signedSum (v : Tree → Int) (ts : List (Int × Tree)) : Int := (ts.map fun p => p.1 * v p.2).sum

/-- No sum or difference directly forms the subtrahend of a top-level difference. -/
inductive SimpleSubtrahends (isSum isSub : Nat → Bool) : Tree → Prop
  | leaf (t : Nat) (cs : List Tree) (h : isSum t = false) : SimpleSubtrahends isSum isSub (node t cs)
  | add (t : Nat) (a b : Tree) (h : isSum t = true) (h' : isSub t = false)
      (ha : SimpleSubtrahends isSum isSub a) (hb : SimpleSubtrahends isSum isSub b) :
      SimpleSubtrahends isSum isSub (node t [a, b])
  | sub (t : Nat) (a : Tree) (s : Nat) (cs : List Tree) (h : isSum t = true) (h' : isSub t = true)
      (ha : SimpleSubtrahends isSum isSub a) (hb : isSum s = false) :
      SimpleSubtrahends isSum isSub (node t [a, node s cs])

end Verif.Discover
