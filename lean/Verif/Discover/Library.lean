import Verif.Discover.Positions
/-!
# Token library (kd/model/discover/library.py)
-/
namespace Verif.Discover

/-- library.py:11-59 `Token` (the callable and the complexity are not needed here). -/
structure Token where
  name : String
  arity : Nat
  inputVar : Option Nat := none
  stateVar : Option Nat := none
  paramVar : Option Nat := none
deriving DecidableEq, Repr

/-- library.py:49-50: the assertion in `Token.__init__` – variables have arity zero. -/
def Token.Valid (t : Token) : Prop :=
  (t.inputVar.isSome ∨ t.stateVar.isSome ∨ t.paramVar.isSome) → t.arity = 0

instance (t : Token) : Decidable t.Valid := by unfold Token.Valid; infer_instance

/-- library.py:113-223 `Library`. -/
structure Lib where
  tokens : List Token
deriving DecidableEq

/-- Python's `p in s` for strings. -/
def hasSub (p : List Char) : List Char → Bool
  | [] => p.isEmpty
  | c :: cs => p.isPrefixOf (c :: cs) || hasSub p cs

/-- `'diff' in name or 'Diff' in name` (library.py:190, 201 and prior.py, many places). -/
def isDiffName (n : String) : Bool := hasSub "diff".toList n.toList || hasSub "Diff".toList n.toList

/-- library.py:187-190: `trig_names` without the diff names. -/
def trigNames : List String :=
  ["sin", "cos", "tan", "csc", "sec", "cot", "arcsin", "arccos", "arctan", "arccsc", "arcsec", "arccot"]

/-- library.py:204-211. -/
def inverseNames : List (String × String) :=
  [("inv", "inv"), ("neg", "neg"), ("exp", "log"), ("log", "exp"), ("sqrt", "n2"), ("n2", "sqrt")]

namespace Lib

def L (lib : Lib) : Nat := lib.tokens.length

/-- library.py:139 `arities` (0 for indices outside the library, which the code never uses). -/
def arity (lib : Lib) (t : Nat) : Nat := (lib.tokens[t]?.map Token.arity).getD 0

/-- Indices of the tokens satisfying `p` (the list comprehensions of library.py:141-149, 159-162, 192-202). -/
def indices (lib : Lib) (p : Token → Bool) : List Nat :=
  (List.range lib.L).filter fun i => (lib.tokens[i]?.map p).getD false

/-- library.py:141-143 and 152-154: falls back to the state tokens. -/
def inputTokens (lib : Lib) : List Nat :=
  let xs := lib.indices (fun t => t.inputVar.isSome)
  if xs.isEmpty then lib.indices (fun t => t.stateVar.isSome) else xs

/-- library.py:144-146. -/
def stateTokens (lib : Lib) : List Nat := lib.indices (fun t => t.stateVar.isSome)

/-- library.py:159-172. -/
def tokensOfArity (lib : Lib) (a : Nat) : List Nat := lib.indices (fun t => t.arity == a)
def terminalTokens (lib : Lib) : List Nat := lib.tokensOfArity 0
def unaryTokens (lib : Lib) : List Nat := lib.tokensOfArity 1
def binaryTokens (lib : Lib) : List Nat := lib.tokensOfArity 2

/-- library.py:180-185: the loop assigning consecutive numbers to non-terminals, -1 to terminals. -/
def parentAdjust (lib : Lib) (t : Nat) : Int :=
  if lib.arity t > 0 then (((List.range t).filter fun i => lib.arity i > 0).length : Int) else -1

/-- library.py:192-194. -/
def nonStateTokens (lib : Lib) : List Nat := lib.indices (fun t => t.arity == 0 && t.stateVar.isNone)

/-- library.py:196-198. -/
def trigTokens (lib : Lib) : List Nat := lib.indices (fun t => trigNames.contains t.name || isDiffName t.name)

/-- library.py:200-202. -/
def diffTokens (lib : Lib) : List Nat := lib.indices (fun t => isDiffName t.name)

/-- `token_from_name[name]` (library.py:215): the dict comprehension keeps the *last* index of a name. -/
def tokenFromName (lib : Lib) (n : String) : Option Nat :=
  (lib.indices (fun t => t.name == n)).getLast?

/-- library.py:216 `inverse_tokens`: pairs (target, effector).  A dict: a later pair with the same key would
overwrite, but the keys of `inverseNames` are distinct names and hence distinct indices. -/
def inverseTokens (lib : Lib) : List (Nat × Nat) :=
  inverseNames.filterMap fun (k, v) =>
    match lib.tokenFromName k, lib.tokenFromName v with
    | some a, some b => some (a, b)
    | _, _ => none

/-- library.py:218-223. -/
def emptyAction (lib : Lib) : Nat := lib.L
def emptySibling (lib : Lib) : Nat := lib.L
def emptyParent (lib : Lib) : Int := (lib.L : Int) - lib.terminalTokens.length

/-- What `Token.__init__` guarantees for every token. -/
def Valid (lib : Lib) : Prop := ∀ t ∈ lib.tokens, t.Valid

/-! ### Lemmas -/

theorem mem_indices {lib : Lib} {p : Token → Bool} {i : Nat} :
    i ∈ lib.indices p ↔ ∃ t, lib.tokens[i]? = some t ∧ p t = true := by
  simp only [indices, List.mem_filter, List.mem_range, L]
  constructor
  · rintro ⟨h, hp⟩
    rw [List.getElem?_eq_getElem h] at hp
    exact ⟨_, List.getElem?_eq_getElem h, by simpa using hp⟩
  · rintro ⟨t, ht, hp⟩
    obtain ⟨h, rfl⟩ := List.getElem?_eq_some_iff.1 ht
    exact ⟨h, by rw [List.getElem?_eq_getElem h]; simpa using hp⟩

theorem mem_tokensOfArity {lib : Lib} {a i : Nat} :
    i ∈ lib.tokensOfArity a ↔ i < lib.L ∧ lib.arity i = a := by
  simp only [tokensOfArity, mem_indices, arity, L]
  constructor
  · rintro ⟨t, ht, hp⟩
    obtain ⟨h, rfl⟩ := List.getElem?_eq_some_iff.1 ht
    exact ⟨h, by rw [List.getElem?_eq_getElem h]; simpa using hp⟩
  · rintro ⟨h, hp⟩
    rw [List.getElem?_eq_getElem h] at hp
    exact ⟨_, List.getElem?_eq_getElem h, by simpa using hp⟩

theorem arity_pos_lt {lib : Lib} {t : Nat} (h : 0 < lib.arity t) : t < lib.L := by
  simp only [arity] at h
  by_cases hl : t < lib.L
  · exact hl
  · rw [List.getElem?_eq_none (by simpa [L] using hl)] at h
    simp at h

theorem range_filter_lt_mono (p : Nat → Bool) {a b : Nat} (h : a ≤ b) :
    ((List.range a).filter p).length ≤ ((List.range b).filter p).length := by
  induction b with
  | zero => have : a = 0 := by omega
            simp [this]
  | succ b ih =>
    by_cases hab : a = b + 1
    · simp [hab]
    · have := ih (by omega)
      rw [List.range_succ, List.filter_append, List.length_append]; omega

theorem range_filter_lt_strict (p : Nat → Bool) {a b : Nat} (h : a < b) (hp : p a = true) :
    ((List.range a).filter p).length < ((List.range b).filter p).length := by
  have h1 := range_filter_lt_mono p (Nat.succ_le_of_lt h)
  rw [Nat.succ_eq_add_one, List.range_succ, List.filter_append, List.length_append] at h1
  simp [hp] at h1; omega

theorem parentAdjust_inj {lib : Lib} {p e : Nat} (hp : 0 < lib.arity p)
    (h : lib.parentAdjust e = lib.parentAdjust p) : e = p := by
  unfold parentAdjust at h
  rw [if_pos hp] at h
  by_cases he : lib.arity e > 0
  · rw [if_pos he] at h
    rcases Nat.lt_trichotomy e p with hlt | heq | hlt
    · have := range_filter_lt_strict (fun i => decide (lib.arity i > 0)) hlt (by simpa using he)
      omega
    · exact heq
    · have := range_filter_lt_strict (fun i => decide (lib.arity i > 0)) hlt (by simpa using hp)
      omega
  · rw [if_neg he] at h; omega

theorem adj_mem_iff {lib : Lib} {p : Nat} (hp : 0 < lib.arity p) {E : List Nat} :
    lib.parentAdjust p ∈ E.map lib.parentAdjust ↔ p ∈ E := by
  rw [List.mem_map]
  constructor
  · rintro ⟨e, he, h⟩; rw [← parentAdjust_inj hp h]; exact he
  · intro h; exact ⟨p, h, rfl⟩

end Lib
end Verif.Discover
