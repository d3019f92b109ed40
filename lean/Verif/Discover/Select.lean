import Mathlib.Order.Basic
import Mathlib.Data.Fintype.Pi
import Mathlib.Algebra.Order.Group.Abs
/-!
# Selecting among scored programs: Pareto mask, near-equal scores, duplicate removal

Models `kd/model/discover/utils.py` (`filter_same`, `is_pareto_efficient`) and
`kd/model/discover/ga_utils.py` (`drop_duplicates`).

Floating-point numbers are an arbitrary linear order (resp. a linearly ordered additive group); NaN is not modelled.
-/
namespace Verif.Discover

section Pareto
variable {K : Type} [LinearOrder K] {m : Nat}

/-- A row of the cost matrix (`m` objectives). -/
abbrev CostRow (K : Type) (m : Nat) := Fin m → K

/-- utils.py:158 `np.any(costs<costs[next_point_index], axis=1)` for one row. -/
def anyLt (r cur : CostRow K m) : Bool := decide (∃ i, r i < cur i)

/-- utils.py:158-159: the mask, with the current row forced to `True`. -/
def paretoMask (items : List (Nat × CostRow K m)) (k : Nat) (cur : CostRow K m) : List Bool :=
  (items.map (fun x => anyLt x.2 cur)).set k true

/-- Boolean-mask indexing `a[mask]`. -/
def compress {α : Type} (a : List α) (mask : List Bool) : List α :=
  ((a.zip mask).filter (fun x => x.2)).map Prod.fst

/-- utils.py:157-162: the `while` loop.  `items` pairs `is_efficient[i]` with `costs[i]` (both are always indexed by the
same mask).  The first argument bounds the number of rounds (each round advances `next_point_index` past one more
surviving row, so the number of rows is enough). -/
def paretoLoop : Nat → List (Nat × CostRow K m) → Nat → List Nat
  | 0, items, _ => items.map Prod.fst
  | f + 1, items, k =>
    match items[k]? with
    | none => items.map Prod.fst
    | some cur =>
      let mask := paretoMask items k cur.2
      paretoLoop f (compress items mask) ((mask.take k).count true + 1)

/-- utils.py:138-166 `is_pareto_efficient`. -/
def isParetoEfficient (costs : List (CostRow K m)) : List Bool :=
  let eff := paretoLoop costs.length (costs.mapIdx (fun (i : Nat) r => (i, r))) 0
  (List.range costs.length).map (fun (i : Nat) => decide (i ∈ eff))

end Pareto

section FilterSame
variable {P K : Type} [LinearOrder K] [AddCommGroup K]

/-- utils.py:68-71: is `r_cur` within `1e-5` of one of the kept scores?  (`eps` is the constant `1e-5`.) -/
def nearSome (eps : K) (rs : List K) (r : K) : Bool := rs.any (fun r' => decide (|r - r'| < eps))

/-- utils.py:66-78: the loop of `filter_same`; `out`, `rs` are `filter_list`, `r_list`. -/
def filterSameLoop (eps : K) (score : P → K) : List P → List P → List K → List P
  | [], out, _ => out
  | p :: rest, out, rs =>
    if nearSome eps rs (score p) then filterSameLoop eps score rest out rs
    else filterSameLoop eps score rest (out ++ [p]) (rs ++ [score p])

/-- utils.py:61-80 `filter_same`. -/
def filterSame (eps : K) (score : P → K) (ps : List P) : List P := filterSameLoop eps score ps [] []

end FilterSame

section DropDuplicates
variable {T V : Type}

/-- One entry of the three parallel lists `tokens`, `values`, `token_len` of `drop_duplicates`
(the code always reads and writes them at the same index). -/
structure DEntry (T V : Type) where
  tok : T
  val : V
  len : Nat

/-- ga_utils.py:218-221: `idx = token_len.index(str_compare)` and the three assignments.  `none` is the `ValueError` of
`list.index`. -/
def overwriteFirst (s : List (DEntry T V)) (cmpLen : Nat) (cur : DEntry T V) : Option (List (DEntry T V)) :=
  match s.findIdx? (fun e => e.len == cmpLen) with
  | none => none
  | some idx => some (s.set idx cur)

/-- ga_utils.py:213-221: the inner loop over the copies `values[i+1:]`, `token_len[i+1:]`; `cur` holds `tokens[i]`,
`arr_current`, `str_current`.  The result is the updated lists and `duplicate_found`. -/
def dropInner (same : V → V → Bool) (cur : DEntry T V) :
    List (DEntry T V) → List (DEntry T V) → Bool → Option (List (DEntry T V) × Bool)
  | [], s, dup => some (s, dup)
  | c :: rest, s, dup =>
    if same c.val cur.val then
      if cur.len < c.len then
        match overwriteFirst s c.len cur with
        | none => none
        | some s' => dropInner same cur rest s' true
      else dropInner same cur rest s true
    else dropInner same cur rest s dup

/-- ga_utils.py:211-225: the outer loop.  Both `zip(values, token_len)` and `tokens[i]` read the lists as they are when
index `i` is reached, after earlier overwriting. -/
def dropOuter (same : V → V → Bool) : Nat → Nat → List (DEntry T V) → List (DEntry T V) → Option (List (DEntry T V))
  | 0, _, _, out => some out
  | n + 1, i, s, out =>
    match s[i]? with
    | none => some out
    | some cur =>
      match dropInner same cur (s.drop (i + 1)) s false with
      | none => none
      | some (s', dup) => dropOuter same n (i + 1) s' (if dup then out else out ++ [cur])

/-- ga_utils.py:202-229 `drop_duplicates(tokens, values)` as a function of the entries; `same a b` is
`np.abs(np.sum(a - b)) < 1e-5`.  (The caller's lists are also overwritten in place; that effect is not returned here.) -/
def dropDuplicates (same : V → V → Bool) (entries : List (DEntry T V)) : Option (List (DEntry T V)) :=
  dropOuter same entries.length 0 entries []

/-- ga_utils.py:209, 216: the entries of the call, `len` being `len(t)` or `t.len_traversal`. -/
def dEntries (len : T → Nat) (tokens : List T) (values : List V) : List (DEntry T V) :=
  (tokens.zip values).map (fun x => ⟨x.1, x.2, len x.1⟩)

end DropDuplicates
end Verif.Discover
