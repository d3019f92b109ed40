/-!
# Model of kd/model/sga/sgapde/naming.py

Names are lists of characters.  Every rejected input raises `ValueError` in the code; that is `none` here (non-string
arguments are out of scope).
-/
namespace Verif.Sga

abbrev Name := List Char

/-- naming.py:9 `_NAME_RE.match(name)` for `^[A-Za-z][A-Za-z0-9_]*$`; in Python `$` also matches before one final
newline, and `match` does not consume it. -/
def nameRe (s : Name) : Bool :=
  let body := if s.getLast? = some '\n' then s.dropLast else s
  match body with
  | [] => false
  | c :: cs => c.isAlpha && cs.all fun d => d.isAlphanum || d == '_'

/-- naming.py:10-20 -/
def defaultReserved : List Name :=
  [['0'], ['d'], ['d', '^', '2'], ['+'], ['-'], ['*'], ['/'], ['^', '2'], ['^', '3']]

/-- `reserved or DEFAULT_RESERVED` (naming.py:29, 132) -/
def reservedSet (reserved : List Name) : List Name := if reserved.isEmpty then defaultReserved else reserved

/-- naming.py:23-32 `validate_name` succeeds. -/
def validName (reserved : List Name) (s : Name) : Bool :=
  !s.isEmpty && nameRe s && !(reservedSet reserved).contains s

/-- naming.py:35-40 `validate_axis_name` succeeds. -/
def validAxis (reserved : List Name) (s : Name) : Bool := validName reserved s && !s.contains '_'

/-- `axis * order` -/
def rep (axis : Name) : Nat → Name
  | 0 => []
  | n + 1 => axis ++ rep axis n

/-- naming.py:43-49 `build_derivative_key`. -/
def buildKey (field axis : Name) (order : Nat) : Option Name :=
  if validName [] field && validAxis [] axis && decide (1 ≤ order) then some (field ++ '_' :: rep axis order) else none

/-- `key.rsplit("_", 1)` when the key contains an underscore. -/
def rsplitU (s : Name) : Option (Name × Name) :=
  match s.reverse.dropWhile (· != '_') with
  | [] => none
  | _ :: a => some (a.reverse, (s.reverse.takeWhile (· != '_')).reverse)

/-- naming.py:69-73: the `matches` of one axis. -/
def axisMatch (tok axis : Name) : List (Name × Nat) :=
  if tok.length % axis.length != 0 then []
  else
    let order := tok.length / axis.length
    if decide (order ≥ 1) && tok == rep axis order then [(axis, order)] else []

/-- naming.py:52-83 `parse_derivative_key`; `known = []` stands for `None` or an empty sequence. -/
def parseKey (key : Name) (known : List Name) : Option (Name × Name × Nat) :=
  match rsplitU key with
  | none => none
  | some (field, tok) =>
    if !validName [] field then none
    else
      match tok with
      | [] => none
      | c :: _ =>
        if known.isEmpty then
          if tok == rep [c] tok.length then some (field, [c], tok.length) else none
        else if known.all (validAxis []) then
          match known.flatMap (axisMatch tok) with
          | [(a, n)] => some (field, a, n)
          | _ => none
        else none

/-! `normalize_legacy_derivative_key` -/

/-- naming.py:105-115: the candidates contributed by one field. -/
def legacyCands (key : Name) (axes : List Name) (field : Name) : List Name :=
  if field.isPrefixOf key then
    let rest := key.drop field.length
    if rest.isEmpty then []
    else axes.flatMap fun a => (axisMatch rest a).map fun m => field ++ '_' :: rep m.1 m.2
  else []

/-- naming.py:86-121 `normalize_legacy_derivative_key` (the axes are first sorted by length; the order only affects
which of several candidates comes first, and several candidates raise). -/
def normalizeLegacy (key : Name) (fields axes : List Name) : Option Name :=
  if key.contains '_' then some key
  else if axes.all (validAxis []) && fields.all (validName []) then
    match fields.flatMap (legacyCands key axes) with
    | [] => some key
    | [c] => some c
    | _ => none
  else none

/-! `resolve_field_name_conflicts` -/

/-- Decimal digits of a counter (`f"{counter}"`). -/
def digits (n : Nat) : Name := Nat.toDigits 10 n

/-- naming.py:154-156: the counter loop, with a bound on the number of iterations. -/
def freshLoop (used : List Name) (pref field : Name) : Nat → Nat → Name → Option Name
  | 0, _, cand => if used.contains cand then none else some cand
  | fuel + 1, counter, cand =>
    if used.contains cand then freshLoop used pref field fuel (counter + 1) (pref ++ field ++ '_' :: digits counter)
    else some cand

/-- naming.py:149-159: one field; `used` already contains every resolved name.  The loop bound `used.length + 1` is
never reached (`freshLoop_total`). -/
def resolveOne (reserved used : List Name) (pref field : Name) : Option Name :=
  if !validName reserved field then none
  else
    match freshLoop used pref field (used.length + 1) 1 (if used.contains field then pref ++ field else field) with
    | none => none
    | some c => if validName reserved c then some c else none

def resolveFields (reserved : List Name) (pref : Name) : List Name → List Name → Option (List (Name × Name))
  | _, [] => some []
  | used, f :: fs =>
    match resolveOne reserved used pref f with
    | none => none
    | some c =>
      match resolveFields reserved pref (c :: used) fs with
      | none => none
      | some rest => some ((f, c) :: rest)

/-- naming.py:124-161 `resolve_field_name_conflicts`. -/
def resolveConflicts (fields coords reserved : List Name) (pref : Name) : Option (List (Name × Name)) :=
  if decide fields.Nodup && coords.all (validAxis reserved) && decide coords.Nodup then
    resolveFields reserved pref (coords ++ reservedSet reserved) fields
  else none

end Verif.Sga
