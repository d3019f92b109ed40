import Mathlib.Algebra.Order.Field.Rat
import Verif.EqGpt.Sentence

/-!
# EqGPT reward

Models `calculate_reward` and `delete_dulplicate_A_column` of
`kd/model/eqgpt/continue_train_GPT_all.py`.  Floating point values are exact rationals
plus one infinity and NaN: the two infinities are merged (rows holding either are
removed, and products and quotients treat them alike), signed zeros and overflow are
not modelled.
-/

namespace Verif.EqGpt

/-- A floating point value: a rational, an infinity of either sign, or NaN. -/
inductive Val where
  | fin (q : Rat)
  | inf
  | nan
deriving DecidableEq, Repr

/-- IEEE multiplication (`*=` of kd/model/eqgpt/continue_train_GPT_all.py:247). -/
def Val.mul : Val → Val → Val
  | .fin a, .fin b => .fin (a * b)
  | .nan, _ => .nan
  | _, .nan => .nan
  | .inf, .fin b => if b = 0 then .nan else .inf
  | .fin a, .inf => if a = 0 then .nan else .inf
  | .inf, .inf => .inf

/-- IEEE division (`/=` of kd/model/eqgpt/continue_train_GPT_all.py:249). -/
def Val.div : Val → Val → Val
  | .fin a, .fin b => if b = 0 then (if a = 0 then .nan else .inf) else .fin (a / b)
  | .nan, _ => .nan
  | _, .nan => .nan
  | .inf, .fin _ => .inf
  | .fin _, .inf => .fin 0
  | .inf, .inf => .nan

/-- IEEE equality: NaN differs from everything. -/
def Val.same : Val → Val → Bool
  | .nan, _ => false
  | _, .nan => false
  | a, b => a == b

/-- `A[:,i].tolist() == other` for two columns. -/
def sameCol (a b : List Val) : Bool :=
  a.length == b.length && (a.zip b).all (fun p => p.1.same p.2)

/-- The column loop (kd/model/eqgpt/continue_train_GPT_all.py:233-260): `col` is
`A_column`, `dv` is `divide_flag`, `A` the columns finished so far.  `value t` is the
flattened result of `calculate_terms` for word number `t`. -/
def colLoop (value : Nat → List Val) (n : Nat) :
    List (Nat × Nat) → List Val → Bool → List (List Val) → List (List Val)
  | [], _, _, A => A
  | (t, o) :: rest, col, dv, A =>
      let col' := if dv then List.zipWith Val.div col (value t)
                  else List.zipWith Val.mul col (value t)
      if o = tPlus then colLoop value n rest (List.replicate n (.fin 1)) false (A ++ [col'])
      else if o = tDiv then colLoop value n rest col' true A
      else if o = tE then colLoop value n rest col' false (A ++ [col'])
      else colLoop value n rest col' false A

/-- The columns of one case, before cleaning (continue_train_GPT_all.py:233-263). -/
def columns (value : Nat → List Val) (n : Nat) (s : List Nat) : List (List Val) :=
  colLoop value n ((evens s).zip (odds s)) (List.replicate n (.fin 1)) false []

/-- `delete_dulplicate_A_column` (continue_train_GPT_all.py:201-209). -/
def dedupCols : List (List Val) → List (List Val) → List (List Val)
  | [], kept => kept
  | c :: cs, kept =>
      if kept.any (fun k => sameCol c k) then dedupCols cs kept else dedupCols cs (kept ++ [c])

/-- The rows of the matrix with these columns. -/
def rows (n : Nat) (cols : List (List Val)) : List (List Val) :=
  (List.range n).map (fun i => cols.map (fun c => (c[i]?).getD .nan))

/-- Removing the rows holding an infinity (continue_train_GPT_all.py:265-270). -/
def dropInf (rs : List (List Val)) : List (List Val) := rs.filter (fun r => !r.contains .inf)

/-- `True in np.isnan(A)` (continue_train_GPT_all.py:274). -/
def hasNan (rs : List (List Val)) : Bool := rs.any (fun r => r.contains .nan)

/-- The rational in a finite value. -/
def Val.num : Val → Rat
  | .fin q => q
  | _ => 0

/-- `A[:,1:].dot(x)` for one row. -/
def dot (r x : List Rat) : Rat := ((r.zip x).map (fun p => p.1 * p.2)).sum

/-- Least-squares residual of coefficients `x`: `((LHS-RHS)**2).sum()`
(continue_train_GPT_all.py:292-296), row = first column followed by the others. -/
def sse (rs : List (List Rat)) (x : List Rat) : Rat :=
  (rs.map (fun r => (-(r.headD 0) - dot r.tail x) ^ 2)).sum

/-- `((LHS-LHS.mean())**2).sum()` (continue_train_GPT_all.py:293,296). -/
def sst (rs : List (List Rat)) : Rat :=
  let m := (rs.map (fun r => -(r.headD 0))).sum / (rs.length : Rat)
  (rs.map (fun r => (-(r.headD 0) - m) ^ 2)).sum

/-- `R2` (continue_train_GPT_all.py:296): the quotient is NaN or minus infinity when the
left-hand side is constant. -/
def r2 (rs : List (List Rat)) (x : List Rat) : Val :=
  if sst rs = 0 then (if sse rs x = 0 then .nan else .inf) else .fin (1 - sse rs x / sst rs)

/-- `np.linalg.lstsq(A[:,1:], -b)`: `none` is `LinAlgError`. -/
abbrev Solver := List (List Rat) → Option (List Rat)

/-- One case of `calculate_reward` (continue_train_GPT_all.py:229-311); `none` means that
nothing is appended to `all_reward`.  `pen n` is `0.02*log10(n)`.  (The line
`if reward>1e4: reward=0` has no effect, the value was already appended.) -/
def caseReward (solve : Solver) (pen : Nat → Rat) (n : Nat) (value : Nat → List Val)
    (s : List Nat) : Option Val :=
  let cols := dedupCols (columns value n s) []
  let rs := dropInf (rows n cols)
  if hasNan rs then none
  else
    let q := rs.map (fun r => r.map Val.num)
    match solve q with
    | none => none
    | some x =>
        some (match r2 q x with
          | .fin v => .fin ((1 - pen cols.length) * v)
          | w => w)

/-- Sum of rewards with NaN and (minus) infinity absorbing. -/
def sumVal : List Val → Val
  | [] => .fin 0
  | v :: vs =>
      match v, sumVal vs with
      | .fin a, .fin b => .fin (a + b)
      | .nan, _ => .nan
      | _, .nan => .nan
      | _, _ => .inf

/-- `np.mean` (continue_train_GPT_all.py:314): NaN for the empty list. -/
def meanVal (vs : List Val) : Val :=
  if vs = [] then .nan
  else match sumVal vs with
    | .fin a => .fin (a / (vs.length : Rat))
    | w => w

/-- One case of the data: number of grid points and the value of each word on them
(`calculate_terms` on the case's surrogate and coordinates). -/
structure Case where
  n : Nat
  value : Nat → List Val

/-- The pairs and triples of words that force a zero reward
(continue_train_GPT_all.py:315-319): `{u, sin(u)}`, `{u, sinh(u)}`, `{sin(u), sinh(u)}`,
`{u, u^2, u^3}`, `{x, sinx}`. -/
def forbidden (terms : List Nat) : Bool :=
  (terms.contains 7 && terms.contains 29) || (terms.contains 7 && terms.contains 30)
    || (terms.contains 29 && terms.contains 30)
    || (terms.contains 7 && terms.contains 19 && terms.contains 21)
    || (terms.contains 22 && terms.contains 46)

/-- The text searched for variable letters (continue_train_GPT_all.py:322-328). -/
def searchText (s : List Nat) : String :=
  String.join (s.map (fun i =>
    if word i = "sqrt(x)" then "sqr(x)" else if word i = "sqrt(u)" then "sqr(u)" else word i))

/-- Whether each variable letter occurs in the text (continue_train_GPT_all.py:330-334). -/
def mentionsAll (vars : List String) (s : List Nat) : Bool :=
  let t := (searchText s).toList
  vars.all (fun v => Verif.Discover.hasSub v.toList t || Verif.Discover.hasSub "Div".toList t
    || Verif.Discover.hasSub "Laplace".toList t)

/-- `calculate_reward` (continue_train_GPT_all.py:211-341), the returned reward.
`max(operators)` of an empty list (ValueError) is not modelled: sampled sentences have an
operator. -/
def calcReward (solve : Solver) (pen : Nat → Rat) (cases : List Case) (vars : List String)
    (sent : List Nat) : Val :=
  let s := deleteDuplicate sent
  let base :=
    if (odds s).any (fun o => decide (4 < o)) then .fin 0
    else if (odds s).length ≠ (evens s).length then .fin 0
    else meanVal (cases.filterMap (fun c => caseReward solve pen c.n c.value s))
  if forbidden (evens s) || !mentionsAll vars s then .fin 0 else base

/-- The update of `mask_invalid` by one call (continue_train_GPT_all.py:242-244): every
word of the sentence whose value holds a NaN in some case is switched off. -/
def maskAfter (cases : List Case) (mask : List Bool) (sent : List Nat) : List Bool :=
  let s := deleteDuplicate sent
  if (odds s).any (fun o => decide (4 < o)) || decide ((odds s).length ≠ (evens s).length) then mask
  else mask.mapIdx (fun i b =>
    b && !((evens s).contains i && cases.any (fun c => (c.value i).contains .nan)))

end Verif.EqGpt
