/-!
# The input check of SGA's networks

kd/model/sga/sgapde/context.py:633-670 (`_infer_model_input_dim`, `_validate_model_input_dim`) and its place in the loop over the differentiated fields (877-880).
-/

namespace Verif.Sga.InputDim

/-- The value of an attribute of a network: absent, `None`, something `int` refuses with TypeError or ValueError, or a number. -/
inductive Attr where
  | absent
  | none
  | bad
  | num (n : Int)

/-- A network, as far as the check sees it: its attributes, the numbers of inputs of its linear layers in the order of `modules()`, and on how many features a
call succeeds. -/
structure Net where
  inFeatures : Attr
  inputDim : Attr
  nFeatures : Attr
  numFeatures : Attr
  linears : List Nat
  accepts : Nat → Bool

/-- context.py:640-647: the loop over `input_dim`, `n_features`, `num_features`. -/
def firstNum : List Attr → Option Int
  | [] => none
  | .num n :: _ => some n
  | _ :: r => firstNum r

/-- context.py:633-650 `_infer_model_input_dim` (`int(None)` for `in_features = None` is a TypeError, caught). -/
def infer (m : Net) : Option Int :=
  match m.inFeatures with
  | .num n => some n
  | _ => match firstNum [m.inputDim, m.nFeatures, m.numFeatures] with
    | some n => some n
    | none => match m.linears with
      | n :: _ => some (n : Int)
      | [] => none

/-- context.py:652-670 `_validate_model_input_dim` for `k` axes; `false`: ValueError. -/
def validate (k : Nat) (m : Net) : Bool :=
  match infer m with
  | some n => n == (k : Int)
  | none => m.accepts k

/-- context.py:877-880: the fields in order, each with its network, are differentiated until one is refused (`deriv`: what is computed from a network).
`.error f`: the ValueError names field `f`. -/
def loop {N D : Type} (view : N → Net) (deriv : N → D) (k : Nat) : List (String × N) → Except String (List (String × D))
  | [] => .ok []
  | (f, n) :: r =>
    if validate k (view n) then
      match loop view deriv k r with
      | .error e => .error e
      | .ok ds => .ok ((f, deriv n) :: ds)
    else .error f

end Verif.Sga.InputDim
