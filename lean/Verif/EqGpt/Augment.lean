/-!
# EqGPT: the sentences the generator is trained on (kd/model/eqgpt/read_dataset.py)

Words are numbers: 1 is the end `E`, 2 is `+`, 3 is `*`, 4 is `/`, 5 is the start `S`.
-/
namespace Verif.EqGpt.Augment

/-- A row of the table of equations: name and words (read_dataset.py:33-40: the cell is split at commas). -/
structure Row where
  name : String
  words : List String
deriving DecidableEq

/-- read_dataset.py:33-40 `read_dataset` -/
def readDataset (table : List Row) (name : String) : List (List String) := (table.filter fun r => r.name != name).map Row.words

/-- The vocabulary: `word2id` as a list of pairs and `id2word`. -/
structure Vocab where
  word2id : List (String × Nat)
  id2word : List String

/-- read_dataset.py:43-45: the start. -/
def vocab0 : Vocab := ⟨[("<pad>", 0), ("E", 1), ("+", 2), ("*", 3), ("/", 4), ("S", 5)], ["<pad>", "E", "+", "*", "/", "S"]⟩

/-- read_dataset.py:47-53: one word; `id` and the dictionaries. -/
def addWord (s : Nat × Vocab) (w : String) : Nat × Vocab :=
  if (s.2.word2id.lookup w).isSome then s else (s.1 + 1, ⟨s.2.word2id ++ [(w, s.1)], s.2.id2word ++ [w]⟩)

/-- read_dataset.py:42-55 `get_words`; writing the file is left out. -/
def getWords (dataset : List (List String)) : Vocab := (dataset.foldl (fun s data => data.foldl addWord s) (6, vocab0)).2

/-- All ways to take one element out, in order. -/
def picks {α : Type} : List α → List (α × List α)
  | [] => []
  | a :: l => (a, l) :: (picks l).map fun p => (p.1, a :: p.2)

/-- `itertools.permutations` of a list of length `n`, in its order. -/
def permsN {α : Type} : Nat → List α → List (List α)
  | 0, _ => [[]]
  | n + 1, l => (picks l).flatMap fun p => (permsN n p.2).map fun q => p.1 :: q

/-- read_dataset.py:12-13 `permutation` -/
def perms {α : Type} (l : List α) : List (List α) := permsN l.length l

/-- read_dataset.py:15-32 `combine_permutation` (`v = 2`), `combine_permutation_multiply` (`v = 3`; its pieces are always lists): each
piece followed by the sign, without the last sign. -/
def join (v : Nat) (ls : List (List Nat)) : List Nat := (ls.flatMap fun l => l ++ [v]).dropLast

/-- read_dataset.py:94-104 `split_list`, and the same loop in read_dataset.py:78-85: the pieces between the signs `v`. -/
def split (v : Nat) : List Nat → List (List Nat)
  | [] => [[]]
  | c :: s => if c = v then [] :: split v s else
    match split v s with
    | h :: t => (c :: h) :: t
    | [] => [[c]]

/-- read_dataset.py:71-92 `data_augumentation_plus` -/
def plus (data : List Nat) : List (List Nat) := (perms (split 2 data)).map (join 2)

/-- read_dataset.py:122-130: the orders of the factors of a term. -/
def orders (term : List Nat) : List (List Nat) := (perms (split 3 term)).map (join 3)

/-- read_dataset.py:140-151: one turn of the second loop. `cur` is `all_slice` itself, which the loop changes (`augumented_data=all_slice` makes
no copy), `term` the term at place `i` (not changed before). -/
def mulStep (i : Nat) (term : List Nat) (s : List (List Nat) × List (List Nat)) : List (List Nat) × List (List Nat) :=
  if 3 ∈ term then (s.1.set i ((orders term).getLast?.getD []), s.2 ++ (orders term).map fun p => join 2 (s.1.set i p)) else s

/-- The second loop from place `i` on. -/
def mulLoop : Nat → List (List Nat) → List (List Nat) × List (List Nat) → List (List Nat) × List (List Nat)
  | _, [], s => s
  | i, term :: r, s => mulLoop (i + 1) r (mulStep i term s)

/-- read_dataset.py:108-153 `data_augumentation_multiply` -/
def multiply (data : List Nat) : List (List Nat) :=
  if 3 ∉ data then [data] else (mulLoop 0 (split 2 data) (split 2 data, [])).2

/-- read_dataset.py:155-158 `expand_to_wanted_size` -/
def expand {α : Type} (arr : List α) (n : Nat) : List α := ((List.replicate ((n + arr.length - 1) / arr.length) arr).flatten).take n

/-- read_dataset.py:169-180: all sentences made of one equation; the end word is put behind the last term before the factors are reordered. -/
def variants (data : List Nat) : List (List Nat) := ((plus data).map fun s => s ++ [1]).flatMap multiply

/-- read_dataset.py:182-185: `times` of them; `sample` is `random.sample`. -/
def chosen (sample : List (List Nat) → Nat → List (List Nat)) (times : Nat) (data : List Nat) : List (List Nat) :=
  if times < (variants data).length then sample (variants data) times else expand (variants data) times

/-- `[word2id[word] for word in data]`, `none` for KeyError. -/
def encode (v : Vocab) : List String → Option (List Nat)
  | [] => some []
  | w :: r => match v.word2id.lookup w with
    | none => none
    | some n => match encode v r with
      | none => none
      | some ns => some (n :: ns)

/-- The same for all equations. -/
def encodeAll (v : Vocab) : List (List String) → Option (List (List Nat))
  | [] => some []
  | d :: r => match encode v d with
    | none => none
    | some s => match encodeAll v r with
      | none => none
      | some ss => some (s :: ss)

/-- read_dataset.py:160-196 `get_train_dataset`: note that the name is not passed on. -/
def getTrain (v : Vocab) (table : List Row) (sample : List (List Nat) → Nat → List (List Nat)) (_name : String) (times : Nat) : Option (List (List Nat)) :=
  match encodeAll v (readDataset table "") with
  | none => none
  | some train => some ((train.flatMap (chosen sample times)).map fun s => 5 :: s)

end Verif.EqGpt.Augment
