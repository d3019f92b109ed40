import Verif.Sga.Spec
/-!
# Model of kd/model/sga/sgapde/tree.py

A tree is a list of levels, a level a list of nodes; a node points to its children by the position `childSt` of its
first child in the next level.  The attributes `depth`, `idx`, `full`, `cache` and `status` of `Node` are not stored
(`depth`/`idx` are positions – `idx` is written but never read –, `full` is the symbol, `cache`/`status` are modelled
where they are used).
-/
namespace Verif.Sga

/-- tree.py:20-31 `Node.__init__`. -/
structure Node where
  sym : Entry
  childSt : Option Nat
  parentIdx : Option Nat
deriving DecidableEq, Repr

/-- `node.child_num` (`int(node[1])`). -/
def Node.arity (n : Node) : Nat := n.sym.arity
def Node.name (n : Node) : String := n.sym.name

abbrev Levels := List (List Node)

/-- The iteration order of the loops `for parent_idx in range(len(level)): for j in range(parent.child_num)`
(tree.py:55-59, 104-108): (parent index, parent, child number). -/
def slotsFrom : Nat → List Node → List (Nat × Node × Nat)
  | _, [] => []
  | i, p :: ps => (List.range p.arity).map (fun j => (i, p, j)) ++ slotsFrom (i + 1) ps
def slots (lvl : List Node) : List (Nat × Node × Nat) := slotsFrom 0 lvl

/-- The random draws for one child: `np.random.random() <= p_var` and the picks from `den`, `VARS`, `OPS`. -/
structure GenDraw where
  coin : Bool
  den : Entry
  var : Entry
  op : Entry

/-- tree.py:53-84: one level, slot by slot; `k` counts slots, `next` is `next_cnt`. -/
def genLevel (bottom : Bool) (dr : Nat → GenDraw) : List (Nat × Node × Nat) → Nat → Nat → List Node
  | [], _, _ => []
  | (i, p, j) :: ss, k, next =>
    if isD p.name && j == 1 then ⟨(dr k).den, none, some i⟩ :: genLevel bottom dr ss (k + 1) next
    else if bottom then ⟨(dr k).var, none, some i⟩ :: genLevel bottom dr ss (k + 1) next
    else if (dr k).coin then ⟨(dr k).var, none, some i⟩ :: genLevel bottom dr ss (k + 1) next
    else ⟨(dr k).op, some next, some i⟩ :: genLevel bottom dr ss (k + 1) (next + (dr k).op.arity)

/-- tree.py:51-85: the remaining levels; `n` of them are still to be made, the last one is the bottom. -/
def genRest (dr : Nat → Nat → GenDraw) : Nat → Nat → List Node → Levels
  | 0, _, _ => []
  | n + 1, depth, prev =>
    let l := genLevel (n == 0) (dr depth) (slots prev) 0 0
    l :: genRest dr n (depth + 1) l

/-- tree.py:41-85 `Tree.__init__` for `max_depth ≥ 1` and the root drawn from `ROOT`. -/
def genTree (maxDepth : Nat) (root : Entry) (dr : Nat → Nat → GenDraw) : Levels :=
  [⟨root, some 0, none⟩] :: genRest dr (maxDepth - 1) 1 [⟨root, some 0, none⟩]

/-- The random draws for one child in `mutate`: whether it mutates, and the successive picks from `VARS`, `OP1`, `OP2`
of the rejection loops (the part actually drawn). -/
structure MutDraw where
  mute : Bool
  vars : List Entry
  op1 : List Entry
  op2 : List Entry

/-- tree.py:120-124: the pick with which the loop for a leaf ends. -/
def leafExit (ctx : Ctx) (parent cur : String) (e : Entry) : Bool :=
  !(e.name == cur || (isD parent && !ctx.isDen e.name)) || (ctx.simple && isD parent && e.name == "x")

/-- tree.py:133-137 -/
def op2Exit (ctx : Ctx) (cur right : String) (e : Entry) : Bool :=
  !(e.name == cur || (isD e.name && !ctx.isDen right))

/-- How a call can fail to return: an exception, or a rejection loop the given draws do not end. -/
inductive Fail where
  | raised
  | pending
deriving DecidableEq, Repr

/-- tree.py:102-145: one level of `mutate`.  `raised`: `None + j`, IndexError or the NotImplementedError of
tree.py:138. -/
def mutLevel (ctx : Ctx) (dr : Nat → MutDraw) (below : List Node) :
    List (Nat × Node × Nat) → Nat → Nat → List Node → Except Fail (List Node)
  | [], _, _, cur => .ok cur
  | (i, p, j) :: ss, k, next, cur =>
    match p.childSt with
    | none => .error .raised
    | some st =>
      match cur[st + j]? with
      | none => .error .raised
      | some c =>
        if !(dr k).mute then mutLevel ctx dr below ss (k + 1) (next + c.arity) cur
        else if c.arity = 0 then
          match (dr k).vars.find? (leafExit ctx p.name c.name) with
          | none => .error .pending
          | some e => mutLevel ctx dr below ss (k + 1) next (cur.set (st + j) ⟨e, none, some i⟩)
        else if c.arity = 1 then
          match (dr k).op1.find? (fun e => !(e.name == c.name)) with
          | none => .error .pending
          | some e =>
            mutLevel ctx dr below ss (k + 1) (next + e.arity) (cur.set (st + j) ⟨e, some next, some i⟩)
        else if c.arity = 2 then
          match c.childSt.bind fun s => below[s + 1]? with
          | none => .error .raised
          | some right =>
            match (dr k).op2.find? (op2Exit ctx c.name right.name) with
            | none => .error .pending
            | some e =>
              mutLevel ctx dr below ss (k + 1) (next + e.arity) (cur.set (st + j) ⟨e, some next, some i⟩)
        else .error .raised

/-- tree.py:100-146: the levels below `prev`, top down. -/
def mutRest (ctx : Ctx) (dr : Nat → Nat → MutDraw) : Nat → List Node → Levels → Except Fail Levels
  | _, _, [] => .ok []
  | depth, prev, cur :: below =>
    match mutLevel ctx (dr depth) (below.headD []) (slots prev) 0 0 cur with
    | .error f => .error f
    | .ok cur' =>
      match mutRest ctx dr (depth + 1) cur' below with
      | .error f => .error f
      | .ok rest => .ok (cur' :: rest)

/-- tree.py:97-152 `Tree.mutate`: the root is never mutated. -/
def mutTree (ctx : Ctx) (dr : Nat → Nat → MutDraw) : Levels → Except Fail Levels
  | [] => .error .raised
  | r :: rest =>
    match mutRest ctx dr 1 r rest with
    | .error f => .error f
    | .ok rest' => .ok (r :: rest')

/-- tree.py:158-165 `dfs` from the node `idx` of the first of the given levels (`none`: IndexError). -/
def dfs : Levels → Nat → Option (List String)
  | [], _ => none
  | l :: rest, idx =>
    match l[idx]? with
    | none => none
    | some n =>
      match n.childSt with
      | none => some [n.name]
      | some st => ((List.range n.arity).mapM fun ix => dfs rest (st + ix)).map fun cs => n.name :: cs.flatten

/-- The working copy used by `tree2str_merge`: name and remaining children (`status`). -/
structure MNode where
  name : String
  status : Nat
  arity : Nat
  parentIdx : Option Nat

/-- tree.py:171-179: fold a finished node into its parent (in the level above). -/
def mergeInto (ps : List MNode) (node : MNode) : List MNode :=
  if node.status = 0 then
    match node.parentIdx with
    | none => ps
    | some i => ps.modify i fun p =>
        { p with
          name :=
            if p.status = 1 then
              if p.arity = 2 then p.name ++ " " ++ node.name ++ ")" else "( " ++ p.name ++ " " ++ node.name ++ ")"
            else if p.status > 1 then "(" ++ node.name ++ " " ++ p.name
            else p.name
          status := p.status - 1 }
  else ps

/-- tree.py:168-180 `tree2str_merge` (levels bottom up): the merged nodes of the first of the given levels. -/
def mergeUp : Levels → List MNode
  | [] => []
  | l :: rest => (mergeUp rest).foldl mergeInto (l.map fun n => ⟨n.name, n.arity, n.arity, n.parentIdx⟩)

/-- `self.inorder`: the name of the root after merging. -/
def inorder (t : Levels) : Option String := (mergeUp t).head?.map (·.name)

/-- The expression a level table stands for (specification): the node and, recursively, the children its pointers
name; `none` if a pointer is missing or dangling. -/
def decode : Levels → Nat → Option Expr
  | [], _ => none
  | l :: rest, idx =>
    match l[idx]? with
    | none => none
    | some n =>
      match n.arity, n.childSt with
      | 0, _ => some (.leaf n.sym)
      | 1, some st => (decode rest st).map (.un n.sym)
      | 2, some st =>
        match decode rest st, decode rest (st + 1) with
        | some a, some b => some (.bin n.sym a b)
        | _, _ => none
      | _, _ => none

end Verif.Sga
