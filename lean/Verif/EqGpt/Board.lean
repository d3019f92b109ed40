import Mathlib.Order.Defs.LinearOrder

/-!
# EqGPT leader board

Models `find_min_no_repeat` (kd/model/eqgpt/continue_train_GPT_all.py:375-389) and
`KD_EqGPT._update_top10` (kd/model/kd_eqgpt.py:453-489).  A reward is `none` for NaN or a
value of a linear order (finite rewards and minus infinity).
-/

namespace Verif.EqGpt

variable {α : Type} [LinearOrder α] {σ : Type}

/-- `a < b` on floats: false when either is NaN. -/
def rlt : Option α → Option α → Bool
  | some a, some b => decide (a < b)
  | _, _ => false

/-- `a == b` on floats: false when either is NaN. -/
def req : Option α → Option α → Bool
  | some a, some b => decide (a = b)
  | _, _ => false

/-- The loop of `find_min_no_repeat` (continue_train_GPT_all.py:378-389): `ord` lists the
indices in the order `torch.topk` returns them. -/
def fmLoop (all : List (Option α)) : List Nat → List Nat → List (Option α) →
    List Nat × List (Option α)
  | [], mi, ma => (mi, ma)
  | i :: is, mi, ma =>
      let a := (all[i]?).getD none
      let fresh := !ma.any (fun b => req a b)
      let mi' := if fresh then mi ++ [i] else mi
      let ma' := if fresh then ma ++ [a] else ma
      if ma'.length = 10 then (mi', ma') else fmLoop all is mi' ma'

/-- `find_min_no_repeat(all_reward, samples)` (continue_train_GPT_all.py:375-389) with
`samples = len(all_reward)`, as `fit_pretrained` calls it. -/
def findMin (all : List (Option α)) (ord : List Nat) : List Nat × List (Option α) :=
  fmLoop all ord [] []

/-- One epoch's candidates: their rewards, their sentences (after `calculate_reward`), and
the order `torch.topk` returns (ties in any order). -/
structure Epoch (α σ : Type) where
  rewards : List (Option α)
  sentences : List σ
  ord : List Nat

/-- The two parallel lists `best_award`, `best_sentence`. -/
structure Board (α σ : Type) where
  awards : List (Option α)
  sents : List σ

/-- Inserting one candidate (kd_eqgpt.py:474-487). -/
def insertOne (b : Board α σ) (a : Option α) (s : σ) : Board α σ :=
  match b.awards.findIdx? (fun x => rlt x a) with
  | none => b
  | some j =>
      if b.awards.any (fun x => req a x) then b
      else ⟨(b.awards.insertIdx j a).dropLast, (b.sents.insertIdx j s).dropLast⟩

/-- The candidates an epoch offers: `(second_award[p], all_sentence[second_index[p]])`. -/
def offers (e : Epoch α σ) : List (Option α × σ) :=
  let fm := findMin e.rewards e.ord
  (fm.2.zip fm.1).filterMap (fun p => (e.sentences[p.2]?).map (fun s => (p.1, s)))

/-- `_update_top10` (kd_eqgpt.py:453-489); `none` is the state before the first epoch. -/
def update (b : Option (Board α σ)) (e : Epoch α σ) : Board α σ :=
  match b with
  | none => ⟨(offers e).map Prod.fst, (offers e).map Prod.snd⟩
  | some b => (offers e).foldl (fun b p => insertOne b p.1 p.2) b

/-- The board after the epochs of `fit_pretrained` (kd_eqgpt.py:188-217). -/
def boardAfter (es : List (Epoch α σ)) : Option (Board α σ) :=
  es.foldl (fun b e => some (update b e)) none

end Verif.EqGpt
