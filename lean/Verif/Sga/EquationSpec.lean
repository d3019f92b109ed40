/-!
# Specification: how a displayed right-hand side is read

A reader of `a + b - c` splits at the signs outside all parentheses.
-/
namespace Verif.Sga

/-- Reading from parenthesis depth `d`: `sgn` is the sign of the term being read, `acc` its text so far (reversed). -/
def readFrom : Nat → Bool → List Char → List Char → List (Bool × List Char)
  | _, sgn, acc, [] => [(sgn, acc.reverse)]
  | 0, sgn, acc, ' ' :: '+' :: ' ' :: r => (sgn, acc.reverse) :: readFrom 0 true [] r
  | 0, sgn, acc, ' ' :: '-' :: ' ' :: r => (sgn, acc.reverse) :: readFrom 0 false [] r
  | d, sgn, acc, c :: r =>
    readFrom (if c = '(' then d + 1 else if c = ')' then d - 1 else d) sgn (c :: acc) r

/-- The signed terms of a right-hand side; a leading `- ` is the sign of the first term. -/
def readRhs : List Char → List (Bool × List Char)
  | '-' :: ' ' :: r => readFrom 0 false [] r
  | r => readFrom 0 true [] r

end Verif.Sga
