/-!
# The notation of displayed DISCOVER equations (kd/viz/discover_eq2latex.py)

SymPy's own printing of sums, products and powers is not modelled; `Func.compound` carries the text SymPy gives for the expression differentiated.
-/
namespace Verif.Discover.Notation

/-- discover_eq2latex.py:23-26 `_SYMBOL_DISPLAY` -/
def display : List (String × String) :=
  [("u1", "u"), ("x1", "x"), ("x2", "y"), ("x3", "z"), ("p1", "p_{1}"), ("p2", "p_{2}"), ("p3", "p_{3}")]

/-- `_SYMBOL_DISPLAY.get(name, name)` -/
def shown (name : String) : String := (display.lookup name).getD name

/-- The function differentiated (discover_eq2latex.py:42-50): a symbol, an applied function, or anything else with its printed text. -/
inductive Func where
  | symbol (name : String)
  | applied (name : String)
  | compound (latex : String)

/-- discover_eq2latex.py:43-50 -/
def Func.text : Func → String
  | .symbol n => shown n
  | .applied n => shown n
  | .compound s => "(" ++ s ++ ")"

/-- discover_eq2latex.py:52-57 `var_name * count`, joined. -/
def subscript (vs : List (String × Nat)) : String := String.join (vs.map fun v => String.join (List.replicate v.2 (shown v.1)))

/-- discover_eq2latex.py:41-58 `_print_Derivative` -/
def derivative (f : Func) (vs : List (String × Nat)) : String := f.text ++ "_{" ++ subscript vs ++ "}"

/-- discover_eq2latex.py:229-232: the left-hand side. -/
def lhsText : Option String → String
  | some a => "u_{" ++ a ++ "}"
  | none => "u_t"

/-- viz/_adapters/discover.py:219-221: the equation figure passes no axis. -/
def figureLhs : String := lhsText none

end Verif.Discover.Notation
