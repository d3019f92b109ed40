/-!
# The expression-tree figure of DISCOVER

`plotter.py:29-83` (`ExpressionTree`, `tree_visualization`, `Plotter.tree_plot`), drawn by `discover_viz.py:13-27` and `searcher.py:336-337`.  Names are lists of
characters.  A graphviz graph is its node statements and its edge statements in order.  Not modelled: rendering; that graphviz reads a colon inside a node name as
a port (no shipped token name has one).
-/
namespace Verif.Viz.TreeFig

abbrev Name := List Char

mutual
/-- plotter.py:43 `(node_value, *children)` -/
inductive Node where
  | mk (value : Name) (slots : Slots)
/-- The children of a node in order; `missing`: the `None` of plotter.py:36-37. -/
inductive Slots where
  | nil
  | missing (rest : Slots)
  | cons (n : Node) (rest : Slots)
end

/-- A child put before others. -/
def consSlot : Option Node → Slots → Slots
  | none, r => .missing r
  | some n, r => .cons n r

/-- plotter.py:42: `[self.build_tree() for _ in range(num_children)]`; `b` is `build_tree` as a function of the tokens that are left. -/
def slotsWith (b : List Name → Option Node × List Name) : Nat → List Name → Slots × List Name
  | 0, l => (.nil, l)
  | n + 1, l => (consSlot (b l).1 (slotsWith b n (b l).2).1, (slotsWith b n (b l).2).2)

/-- plotter.py:35-43 `build_tree` on the tokens from `self.index` on, with the tokens left behind it.  The number bounds the depth: every call consumes a token, so
the number of tokens is enough (`C195_short`). -/
def build (arity : Name → Nat) : Nat → List Name → Option Node × List Name
  | 0, l => (none, l)
  | _ + 1, [] => (none, [])
  | f + 1, v :: l => (some (.mk v (slotsWith (build arity f) (arity v) l).1), (slotsWith (build arity f) (arity v) l).2)

/-- library.py:135 `{t.name : t.arity for t in tokens}` (a repeated name: the last one), read by `self.arity.get(node_value, 0)` (plotter.py:41). -/
def arityOf (lib : List (Name × Nat)) (v : Name) : Nat := ((lib.reverse.find? fun t => t.1 == v).map Prod.snd).getD 0

/-- A graph: node statements (identity, label) and edge statements. -/
structure Graph where
  nodes : List (Name × Name)
  edges : List (Name × Name)
deriving DecidableEq

/-- plotter.py:49 `f"{node_value}_{counter[0]}"` -/
def nodeId (v : Name) (c : Nat) : Name := v ++ '_' :: Nat.toDigits 10 c

/-- plotter.py:51-54: the node, and the edge to it. -/
def addNode (g : Graph) (parent : Option Name) (v : Name) (c : Nat) : Graph :=
  ⟨g.nodes ++ [(nodeId v c, v)], match parent with
    | none => g.edges
    | some p => g.edges ++ [(p, nodeId v c)]⟩

mutual
/-- plotter.py:45-57 `draw_tree` with the graph and the counter -/
def draw : Node → Option Name → Graph × Nat → Graph × Nat
  | .mk v ss, parent, st => drawSlots ss (nodeId v st.2) (addNode st.1 parent v st.2, st.2 + 1)
/-- plotter.py:56-57; nothing is drawn for `None` (46-47) -/
def drawSlots : Slots → Name → Graph × Nat → Graph × Nat
  | .nil, _, st => st
  | .missing r, p, st => drawSlots r p st
  | .cons n r, p, st => drawSlots r p (draw n (some p) st)
end

/-- plotter.py:59-66 `tree_visualization`.  `c`: the counter, a default argument (plotter.py:45) that lives as long as the process; the new one is returned. -/
def figure (arity : Name → Nat) (preorder : List Name) (c : Nat) : Graph × Nat :=
  match (build arity preorder.length preorder).1 with
  | none => (⟨[], []⟩, c)
  | some n => draw n none (⟨[], []⟩, c)

/-- plotter.py:79-83 `tree_plot`: the tokens of the program's traversal by their text. -/
def treePlot (lib : List (Name × Nat)) (traversal : List Name) (c : Nat) : Graph × Nat := figure (arityOf lib) traversal c

/-- Figures drawn one after the other in a process. -/
def figures (lib : List (Name × Nat)) : List (List Name) → Nat → List Graph
  | [], _ => []
  | p :: ps, c => (treePlot lib p c).1 :: figures lib ps (treePlot lib p c).2

end Verif.Viz.TreeFig
