/-!
# Specification vocabulary for DISCOVER expressions

Independent of the code: an expression is a rose tree of library token indices, an arity function says how
many operands each token takes.  Nothing here mentions token *lists* except `preorder`.
-/
namespace Verif.Discover

/-- An expression tree; `tok` is an index into the token library. -/
inductive Tree where
  | node (tok : Nat) (children : List Tree)

namespace Tree

def root : Tree → Nat
  | node t _ => t

def children : Tree → List Tree
  | node _ cs => cs

@[simp] theorem root_node (t : Nat) (cs : List Tree) : (node t cs).root = t := rfl
@[simp] theorem children_node (t : Nat) (cs : List Tree) : (node t cs).children = cs := rfl

mutual
/-- Pre-order traversal (token, then operands left to right). -/
def preorder : Tree → List Nat
  | node t cs => t :: preorderL cs
def preorderL : List Tree → List Nat
  | [] => []
  | c :: cs => preorder c ++ preorderL cs
end

mutual
/-- Every operator has exactly as many operands as its arity. -/
def WF (ar : Nat → Nat) : Tree → Prop
  | node t cs => cs.length = ar t ∧ WFL ar cs
def WFL (ar : Nat → Nat) : List Tree → Prop
  | [] => True
  | c :: cs => WF ar c ∧ WFL ar cs
end

mutual
/-- All subexpressions, the expression itself included. -/
def subtrees : Tree → List Tree
  | node t cs => node t cs :: subtreesL cs
def subtreesL : List Tree → List Tree
  | [] => []
  | c :: cs => subtrees c ++ subtreesL cs
end

/-- Proper subexpressions (strict descendants). -/
def descendants (t : Tree) : List Tree := subtreesL t.children

end Tree

/-- Everything one may ask about one node of an expression:
`parent`: the operator it is an operand of; `elder`: the root of the first operand of that operator, if the
node is not itself the first operand; `anc`: its ancestors, innermost first, each with the (0-based) operand
position through which the node is reached. -/
structure NodeInfo where
  tok : Nat
  parent : Option Nat
  elder : Option Nat
  anc : List (Nat × Nat)
deriving DecidableEq, Repr

namespace Tree
mutual
/-- All nodes in pre-order with their position information. -/
def nodes (parent elder : Option Nat) (anc : List (Nat × Nat)) : Tree → List NodeInfo
  | node t cs => ⟨t, parent, elder, anc⟩ :: nodesL t none anc 0 cs
def nodesL (p : Nat) (elder : Option Nat) (anc : List (Nat × Nat)) (k : Nat) : List Tree → List NodeInfo
  | [] => []
  | c :: cs =>
      nodes (some p) elder ((p, k) :: anc) c ++ nodesL p (elder.or (some c.root)) anc (k + 1) cs
end

/-- The nodes of a whole expression, in pre-order. -/
def allNodes (t : Tree) : List NodeInfo := nodes none none [] t
end Tree

end Verif.Discover
