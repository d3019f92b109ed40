import Verif.Memory.Heap
/-!
# The program memories (kd/model/discover/dso/memory.py)
-/
namespace Verif.Memory

/-- memory.py:117-125 `Queue.__init__`: the list `heap` and the set `unique_items` (as a duplicate-free list). -/
structure Q where
  heap : List Entry := []
  uniq : List Nat := []
deriving DecidableEq

/-- Python `set.add`. -/
def setAdd (s : List Nat) (x : Nat) : List Nat := if x ∈ s then s else x :: s
/-- Python `set.remove`; `none`: KeyError. -/
def setRemove (s : List Nat) (x : Nat) : Option (List Nat) := if x ∈ s then some (s.erase x) else none

/-- `len(self.heap) >= self.capacity`; `none` is the default capacity `np.inf`. -/
def full (cap : Option Nat) (h : List Entry) : Bool :=
  match cap with
  | none => false
  | some c => decide (h.length ≥ c)

/-- memory.py:209-234 `UniquePriorityQueue.push`. -/
def pqPush (cap : Option Nat) (s : Q) (e : Entry) : Option Q :=
  if e.id ∈ s.uniq then some s
  else if full cap s.heap then
    let r := heappushpop s.heap e
    (setRemove (setAdd s.uniq e.id) r.2.id).map fun u => ⟨r.1, u⟩
  else some ⟨heappush s.heap e, setAdd s.uniq e.id⟩

/-- memory.py:250-266 `same_rewards_long`: the first held item whose reward is within the tolerance (1e-5; `eps` in
the unit of the scores). -/
def firstSame (eps : Int) (h : List Entry) (e : Entry) : Option Nat :=
  h.findIdx? fun x => decide (x.score - e.score < eps ∧ e.score - x.score < eps)

/-- memory.py:262-268: the held item is shorter, so the newcomer is not wanted. -/
def sameLong (eps : Int) (h : List Entry) (e : Entry) : Bool :=
  match (firstSame eps h e).bind fun k => h[k]? with
  | some x => decide (x.len < e.len)
  | none => false

/-- memory.py:236-287 `UniquePriorityQueue.push_rm_same`. -/
def pqPushRmSame (eps : Int) (cap : Option Nat) (s : Q) (e : Entry) : Option Q :=
  if e.id ∈ s.uniq ∨ sameLong eps s.heap e = true then some s
  else if full cap s.heap then
    match (firstSame eps s.heap e).bind fun k => (s.heap[k]?).map fun x => (k, x) with
    | some (k, x) => (setRemove (setAdd s.uniq e.id) x.id).map fun u => ⟨s.heap.set k e, u⟩
    | none =>
      let r := heappushpop s.heap e
      (setRemove (setAdd s.uniq e.id) r.2.id).map fun u => ⟨r.1, u⟩
  else some ⟨heappush s.heap e, setAdd s.uniq e.id⟩

/-- memory.py:289-301 `UniquePriorityQueue.pop`: new state and the popped item (`none` for the empty tuple). -/
def pqPop (s : Q) : Option (Q × Option Entry) :=
  match heappop s.heap with
  | none => some (s, none)
  | some (h, e) => (setRemove s.uniq e.id).map fun u => (⟨h, u⟩, some e)

/-- memory.py:303-312 `get_max`: `heapq.nlargest(1, heap)` is `max`, i.e. the first largest item. -/
def pqMax (s : Q) : Option Entry :=
  match s.heap with
  | [] => none
  | x :: xs => some (xs.foldl (fun m y => if m.score < y.score then y else m) x)

/-- memory.py:325-333 `iter_in_order`: `heapq.nlargest(len, heap)` is `sorted(heap, reverse=True)` (stable). -/
def pqInOrder (s : Q) : List Entry := s.heap.mergeSort fun a b => decide (b.score ≤ a.score)

/-- memory.py:161-194 `UniqueQueue.pop` on a pair of heap and set. -/
def uqPop (s : Q) : Option Q :=
  match s.heap with
  | [] => some s
  | e :: h => (setRemove s.uniq e.id).map fun u => ⟨h, u⟩

/-- memory.py:167-189 `UniqueQueue.push`: `self.heap.remove(container)` deletes the first container with the same
item (`ItemContainer.__eq__`). -/
def uqPush (cap : Option Nat) (s : Q) (e : Entry) : Option Q :=
  if e.id ∈ s.uniq then some ⟨s.heap.eraseP (fun x => x.id == e.id) ++ [e], s.uniq⟩
  else
    (if full cap s.heap then uqPop s else some s).map fun s' => ⟨s'.heap ++ [e], setAdd s'.uniq e.id⟩

/-- The operations of the priority memory. -/
inductive PqOp where
  | push (e : Entry)
  | pushRmSame (e : Entry)
  | pop

def pqStep (eps : Int) (cap : Option Nat) (s : Q) : PqOp → Option Q
  | .push e => pqPush cap s e
  | .pushRmSame e => pqPushRmSame eps cap s e
  | .pop => (pqPop s).map Prod.fst

/-- memory.py:364-369 `push_batch`: push one after the other. -/
def pqRun (eps : Int) (cap : Option Nat) (s : Q) (ops : List PqOp) : Option Q := ops.foldlM (pqStep eps cap) s

def pqPushes (cap : Option Nat) (s : Q) (es : List Entry) : Option Q := es.foldlM (pqPush cap) s

def uqPushes (cap : Option Nat) (s : Q) (es : List Entry) : Option Q := es.foldlM (uqPush cap) s

end Verif.Memory
