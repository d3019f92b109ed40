import Mathlib.Algebra.Order.Field.Rat
import Mathlib.Algebra.Order.Group.Abs
/-!
# The text of a regression result
(kd/model/kd_discover_regression.py:60-83, kd/model/discover/program.py:61-109)

Strings are lists of characters.  Constants are exact rational numbers: the rounding of binary floats is not modelled, nor are NaN and
infinity (for which `_format_constant` gives "nan.0" and "inf.0").
-/
namespace Verif.Discover.RegressionText

/-- An element of a program as far as its text is concerned. -/
inductive Sym where
  /-- the input variable `x{i+1}` -/
  | var (i : Nat)
  /-- an operator or hard-coded constant, by its name -/
  | tok (name : List Char)
  /-- a placeholder constant with a value -/
  | const (value : ℚ)
  deriving DecidableEq

/-- `"x{}".format(i + 1)` (functions.py:239-242). -/
def varName (i : Nat) : List Char := 'x' :: Nat.toDigits 10 (i + 1)

/-- Python's `round` to an integer: to the nearest, ties to even. -/
def roundEven (q : ℚ) : ℤ :=
  let f := q.floor
  if q - f < 1 / 2 then f
  else if q - f > 1 / 2 then f + 1
  else if f % 2 = 0 then f else f + 1

/-- Six digits of a number below `10^6`. -/
def frac6 (m : Nat) : List Char := List.replicate (6 - (Nat.toDigits 10 m).length) '0' ++ Nat.toDigits 10 m

/-- `str.rstrip(c)` for a single character. -/
def rstrip (c : Char) (s : List Char) : List Char := (s.reverse.dropWhile (· == c)).reverse

/-- kd_discover_regression.py:66-73 `_format_constant`: rounded to six digits, without trailing zeros. -/
def formatConstant (c : ℚ) : List Char :=
  let m := (roundEven (|c| * 10 ^ 6)).toNat
  let text := (if c < 0 then ['-'] else []) ++ Nat.toDigits 10 (m / 10 ^ 6) ++ '.' :: frac6 (m % 10 ^ 6)
  let text := rstrip '.' (rstrip '0' text)
  if '.' ∈ text then text else text ++ ".0".toList

/-- kd_discover_regression.py:75-82 `_serialize_program`: one element. -/
def Sym.text : Sym → List Char
  | .var i => varName i
  | .tok n => n
  | .const c => formatConstant c

/-- `",".join(parts)`. -/
def joinComma : List (List Char) → List Char
  | [] => []
  | [a] => a
  | a :: b :: r => a ++ ',' :: joinComma (b :: r)

/-- kd_discover_regression.py:75-82 `_serialize_program`. -/
def serialize (prog : List Sym) : List Char := joinComma (prog.map Sym.text)

/-- `s.replace(p, r)` for a non-empty `p`; the first argument counts the characters of an occurrence still to be skipped. -/
def replaceGo (p r : List Char) : Nat → List Char → List Char
  | _, [] => []
  | k + 1, _ :: cs => replaceGo p r k cs
  | 0, c :: cs => if p.isPrefixOf (c :: cs) then r ++ replaceGo p r (p.length - 1) cs else c :: replaceGo p r 0 cs

def replace (p r s : List Char) : List Char := replaceGo p r 0 s

/-- kd_discover_regression.py:59-64 `_render_named_expression`: the variables are replaced one after the other, the last first. -/
def renderNamed (s : List Char) (names : List (List Char)) : List Char :=
  (names.zipIdx.reverse).foldl (fun s p => replace (varName p.2) p.1 s) s

/-- `s.split(",")`. -/
def splitComma : List Char → List (List Char)
  | [] => [[]]
  | c :: cs => match splitComma cs with
    | [] => [[c]]       -- does not happen
    | a :: r => if c = ',' then [] :: a :: r else (c :: a) :: r

/-- `float(s)` for plain decimal numbers; other notations Python accepts are not modelled. -/
def parseU (s : List Char) : Option ℚ :=
  let a := s.takeWhile Char.isDigit
  match s.dropWhile Char.isDigit with
  | [] => if a = [] then none else some (Nat.ofDigitChars 10 a 0)
  | c :: f => if c = '.' ∧ f.all Char.isDigit ∧ (a ≠ [] ∨ f ≠ [])
    then some (Nat.ofDigitChars 10 a 0 + Nat.ofDigitChars 10 f 0 / 10 ^ f.length) else none

def parseDec : List Char → Option ℚ
  | '-' :: r => (parseU r).map (fun q => -q)
  | r => parseU r

inductive Err where
  | value | assertion
  deriving DecidableEq

/-- program.py:85-99: reading one token; `all` is the whole list. -/
def readToken (names : List (List Char)) (all : List (List Char)) (s : List Char) : Except Err Sym :=
  if s ∈ names then .ok (match (List.range names.length).find? (fun i => varName i == s) with
    | some i => .var i
    | none => .tok s)
  else match parseDec s with
    | some q => if "const".toList ∈ all then .error .assertion else .ok (.const q)
    | none => .error .value

def readAll (names all : List (List Char)) : List (List Char) → Except Err (List Sym)
  | [] => .ok []
  | s :: r => match readToken names all s, readAll names all r with
    | .ok a, .ok as => .ok (a :: as)
    | .error e, _ => .error e
    | _, .error e => .error e

/-- program.py:61-109 `from_str_tokens` for a string, as far as it determines the elements of the program; `names` are the names of
the library, which contains `const`.  (Completing the tokens with `from_tokens` does not change a complete program: C01.) -/
def fromStr (names : List (List Char)) (s : List Char) : Except Err (List Sym) :=
  let parts := splitComma s
  readAll names parts parts

end Verif.Discover.RegressionText
