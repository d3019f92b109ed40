import Mathlib.Analysis.SpecialFunctions.Log.Basic
/-!
# Soft priors (kd/model/discover/dso/prior.py:916-1014)

Real numbers.  A token is its name and arity; a row of priors is a list with one entry per token; the controller draws a token with the softmax of
logits plus prior.  `n_objects = 1` (the only value the package sets).
-/
namespace Verif.Discover.Soft
noncomputable section

/-- A token. -/
structure Tok where
  name : String
  arity : Nat
deriving DecidableEq

/-- `tf.nn.softmax` of logits plus prior: the probability of every token. -/
def probs (logits prior : List ℝ) : List ℝ :=
  let w := (List.zipWith (· + ·) logits prior).map Real.exp
  w.map fun x => x / w.sum

/-- prior.py:916-944 `UniformArityPrior`: the same row at every position (also the initial one). -/
def uniformArity (lib : List Tok) : List ℝ :=
  lib.map fun k => -Real.log ((lib.filter fun k' => k'.arity == k.arity).length : ℝ)

/-- prior.py:965: the names of sums -/
def sums : List String := ["add", "add_t", "sub", "sub_t"]

/-- prior.py:947-1014 `SoftLengthPrior` at position `t ≥ 1` (the initial prior is zero, prior.py:247-258). -/
def softLength (lib : List Tok) (loc scale : ℝ) (t : Nat) : List ℝ :=
  if t = 0 then lib.map fun _ => 0
  else if (t : ℝ) < loc then
    if t < 3 then lib.map fun k => if sums.contains k.name then 0 else -((t : ℝ) - 3) ^ 2 / 10
    else lib.map fun _ => 0
  else lib.map fun k => if k.arity = 0 then 0 else -((t : ℝ) - loc) ^ 2 / (2 * scale)

end
end Verif.Discover.Soft
