/-!
# Model of kd/base.py: `BaseEstimator.get_params` / `set_params`

Estimators are values (a tree): an estimator that is shared by two parameters is not modelled.  Names and keys are lists of
characters.  The recursion of Python is bounded by a `fuel` argument (the recursion limit).
-/
namespace Verif.Api

abbrev Key := List Char

/-- A parameter value: something without `get_params` (or a class), or an estimator given by the parameter names of its
constructor in sorted order (`none`: the constructor has `*args`, base.py:103-107 raises RuntimeError) and its attributes. -/
inductive Val (A : Type) where
  | atom (a : A)
  | est (names : Option (List Key)) (attrs : List (Key × Val A))

inductive PErr where
  | value | attribute | runtime | recursion
deriving DecidableEq, Repr

/-- `d[k] = v`: replace the value in place, or append. -/
def put {α : Type} (d : List (Key × α)) (k : Key) (v : α) : List (Key × α) :=
  match d with
  | [] => [(k, v)]
  | (k', v') :: r => if k' = k then (k, v) :: r else (k', v') :: put r k v

/-- `key.partition("__")` (`none`: no delimiter). -/
def partition : Key → Key × Option Key
  | [] => ([], none)
  | c :: r =>
    match c, r with
    | '_', '_' :: s => ([], some s)
    | c, r => (c :: (partition r).1, (partition r).2)

/-- The key of a nested parameter: `key + "__" + k`. -/
def joinKey (n k : Key) : Key := n ++ '_' :: '_' :: k

/-- base.py:33-50 `get_params(deep=True)`: the loop over the parameter names, given the function for nested estimators. -/
def getLoop {A : Type} (rec : Val A → Except PErr (List (Key × Val A))) (attrs : List (Key × Val A)) :
    List Key → List (Key × Val A) → Except PErr (List (Key × Val A))
  | [], out => .ok out
  | n :: r, out =>
    match attrs.lookup n with
    | none => .error .attribute
    | some (.atom a) => getLoop rec attrs r (put out n (.atom a))
    | some (.est ns at') =>
      match rec (.est ns at') with
      | .error e => .error e
      | .ok items =>
        getLoop rec attrs r (put (items.foldl (fun d p => put d (joinKey n p.1) p.2) out) n (.est ns at'))

/-- base.py:33-50 `get_params(deep=True)`. -/
def getParams {A : Type} : Nat → Val A → Except PErr (List (Key × Val A))
  | 0, _ => .error .recursion
  | _ + 1, .atom _ => .error .attribute
  | _ + 1, .est none _ => .error .runtime
  | f + 1, .est (some ns) attrs => getLoop (getParams f) attrs ns []

/-- base.py:69-78: the loop over the given parameters.  Attributes set so far, the nested parameters by head, and the
exception if any.  (`valid_params[key] = value` does not change the set of keys.) -/
def assignLoop {A : Type} (valid : List Key) : List (Key × Val A) → List (Key × Val A) → List (Key × List (Key × Val A)) →
    List (Key × Val A) × List (Key × List (Key × Val A)) × Option PErr
  | [], attrs, nested => (attrs, nested, none)
  | (k, v) :: r, attrs, nested =>
    match partition k with
    | (h, none) => if h ∈ valid then assignLoop valid r (put attrs h v) nested else (attrs, nested, some .value)
    | (h, some s) =>
      if h ∈ valid then assignLoop valid r attrs (put nested h (put ((nested.lookup h).getD []) s v))
      else (attrs, nested, some .value)

/-- base.py:80-81: `valid_params[key].set_params(**sub_params)` for every head with nested parameters.  The head is a name of the
estimator's own parameter, so `valid_params[key]` is the object held by that attribute; changing it is changing the attribute. -/
def nestLoop {A : Type} (rec : Val A → List (Key × Val A) → Val A × Option PErr) :
    List (Key × List (Key × Val A)) → List (Key × Val A) → List (Key × Val A) × Option PErr
  | [], attrs => (attrs, none)
  | (h, sub) :: r, attrs =>
    match attrs.lookup h with
    | none => (attrs, some .attribute)
    | some w =>
      match rec w sub with
      | (w', none) => nestLoop rec r (put attrs h w')
      | (w', some e) => (put attrs h w', some e)

/-- base.py:52-83 `set_params`: the estimator afterwards (also when an exception stops it half-way) and the exception. -/
def setParams {A : Type} : Nat → Val A → List (Key × Val A) → Val A × Option PErr
  | 0, v, _ => (v, some .recursion)
  | _ + 1, .atom a, _ => (.atom a, some .attribute)
  | f + 1, .est names attrs, ps =>
    if ps.isEmpty then (.est names attrs, none)
    else
      match getParams (f + 1) (.est names attrs) with
      | .error e => (.est names attrs, some e)
      | .ok valid =>
        match assignLoop (valid.map (·.1)) ps attrs [] with
        | (attrs1, _, some e) => (.est names attrs1, some e)
        | (attrs1, nested, none) =>
          match nestLoop (setParams f) nested attrs1 with
          | (attrs2, e) => (.est names attrs2, e)

end Verif.Api
