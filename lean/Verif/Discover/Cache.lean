import Verif.Discover.Basic
/-!
# The program cache (kd/model/discover/program.py:112-168 `from_tokens`)
-/
namespace Verif.Discover

/-- Little-endian bytes of a non-negative integer, as in the memory of a numpy integer array of item size `w`. -/
def leBytes (w : Nat) (x : Nat) : List Nat := (List.range w).map fun k => x / 256 ^ k % 256

/-- `tokens.tobytes()` for an array of item size `w`: sampled actions are int64 (torch, `w = 8`), token arrays built
by the genetic code and from strings are int32 (ga_utils.py:146, program.py:99, `w = 4`). -/
def tobytes (w : Nat) (tokens : List Nat) : List Nat := tokens.flatMap (leBytes w)

/-- The attributes of `Program` that matter here (program.py:258-266). -/
structure Prog where
  tokens : List Nat
  str : List Nat
  onPolicy : Nat
  offPolicy : Nat
deriving DecidableEq

/-- All program objects created so far (an object is its position in this list) and `Program.cache`. -/
structure Cache where
  objs : List Prog := []
  dict : List (List Nat × Nat) := []
deriving DecidableEq

/-- One call of `from_tokens`: item size, completed tokens (after `_finish_tokens`), `on_policy`, and whether the
cache is bypassed (`skip_cache or Program.task.stochastic`). -/
structure Request where
  w : Nat
  tokens : List Nat
  onPolicy : Bool
  bypass : Bool := false

/-- program.py:233-265 `Program.__init__`. -/
def newProg (r : Request) : Prog :=
  ⟨r.tokens, tobytes r.w r.tokens, if r.onPolicy then 1 else 0, if r.onPolicy then 0 else 1⟩

/-- program.py:160-163: count one more request. -/
def Prog.count (p : Prog) (onPolicy : Bool) : Prog :=
  if onPolicy then { p with onPolicy := p.onPolicy + 1 } else { p with offPolicy := p.offPolicy + 1 }

/-- program.py:150-168: the new state and the object returned. -/
def fromTokens (c : Cache) (r : Request) : Cache × Nat :=
  if r.bypass then (⟨c.objs ++ [newProg r], c.dict⟩, c.objs.length)
  else
    match c.dict.lookup (tobytes r.w r.tokens) with
    | some o => (⟨c.objs.modify o (·.count r.onPolicy), c.dict⟩, o)
    | none => (⟨c.objs ++ [newProg r], c.dict ++ [(tobytes r.w r.tokens, c.objs.length)]⟩, c.objs.length)

/-- A history of requests: the final state and the objects returned. -/
def requests (c : Cache) : List Request → Cache × List Nat
  | [] => (c, [])
  | r :: rs =>
    let s := fromTokens c r
    let t := requests s.1 rs
    (t.1, s.2 :: t.2)

end Verif.Discover
