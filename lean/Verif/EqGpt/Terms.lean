import Mathlib.Algebra.Ring.Basic

/-!
# EqGPT terms

Models `calculate_terms` (kd/model/eqgpt/calculate_terms.py:13-292), which turns a word of
the vocabulary into its values on the grid.  The values form a commutative ring `R` of
functions on the grid; `torch.autograd.grad(outputs=f.sum(), inputs=database)[0][:, i]` is
the partial derivative `d i f` with respect to the coordinate in column `i` of the
database.  The reshape and `.cpu().data.numpy()` calls are dropped.  `'env(u)'` (not in the
vocabulary) is not modelled.
-/

namespace Verif.EqGpt

/-- What `calculate_terms` is given: the surrogate's field `u`, the coordinate columns, and
torch's elementwise functions and derivatives. -/
structure Calc (R : Type) where
  u : R
  coord : Nat → R
  d : Nat → R → R
  inv : R → R
  sin : R → R
  sinh : R → R
  exp : R → R
  sqrt : R → R
  abs : R → R

variable {R : Type} [CommRing R]

/-- `calculate_terms(word, Net, database, variables, …)`
(kd/model/eqgpt/calculate_terms.py:13-283); `none` when Python raises (a variable the word
needs is missing, so its index is unbound) or falls through and returns `None`. -/
def calcTerm (A : Calc R) (vars : List String) (w : String) : Option R := do
  let ix ← vars.idxOf? "x"
  let it := vars.idxOf? "t"
  let iy := vars.idxOf? "y"
  let iz := vars.idxOf? "z"
  let u := A.u
  let Hx := A.d ix u
  let Ht := it.map (fun i => A.d i u)
  match w with
  | "ut" => Ht
  | "u" => some u
  | "ux" => some Hx
  | "uxx" => some (A.d ix Hx)
  | "uxxt" => it.map (fun t => A.d t (A.d ix Hx))
  | "ut^2" => Ht.map (fun h => h ^ 2)
  | "uxt" => it.map (fun t => A.d t Hx)
  | "ux^2" => some (Hx ^ 2)
  | "utt" => it.map (fun t => A.d t (A.d t u))
  | "uxxxx" => some (A.d ix (A.d ix (A.d ix Hx)))
  | "(u^2)xx" => some (A.d ix (A.d ix (Hx ^ 2)))
  | "(uux)x" => some (A.d ix (u * Hx))
  | "uxxtt" => it.map (fun t => A.d t (A.d t (A.d ix Hx)))
  | "(u^4)xx" => some (A.d ix (A.d ix (u ^ 4)))
  | "(u^3)x" => some (A.d ix (u ^ 3))
  | "uxxx" => some (A.d ix (A.d ix Hx))
  | "u^3" => some (u ^ 3)
  | "x" => some (A.coord ix)
  | "u^2" => some (u ^ 2)
  | "(1/u)xx" => some (A.d ix (A.d ix (A.inv u)))
  | "(u^-2*ux)x" => some (A.d ix (A.inv u ^ 2 * Hx))
  | "uxxxxx" => some (A.d ix (A.d ix (A.d ix (A.d ix Hx))))
  | "uyy" => iy.map (fun y => A.d y (A.d y u))
  | "ut^3" => Ht.map (fun h => h ^ 3)
  | "sqrt(u)" => some (A.sqrt (A.abs u))
  | "sin(u)" => some (A.sin u)
  | "sinh(u)" => some (A.sinh u)
  | "BiLaplace(u)" => iy.map (fun y =>
      A.d ix (A.d ix (A.d ix Hx)) + A.d y (A.d y (A.d y (A.d y u)))
        + 2 * A.d y (A.d y (A.d ix Hx)))
  | "uyyyy" => iy.map (fun y => A.d y (A.d y (A.d y (A.d y u))))
  | "uxxyy" => iy.map (fun y => A.d y (A.d y (A.d ix Hx)))
  | "uzzzz" => iz.map (fun z => A.d z (A.d z (A.d z (A.d z u))))
  | "uyyzz" => iy.bind (fun y => iz.map (fun z => A.d z (A.d z (A.d y (A.d y u)))))
  | "uxxzz" => iz.map (fun z => A.d z (A.d z (A.d ix Hx)))
  | "y" => iy.map A.coord
  | "uy" => iy.map (fun y => A.d y u)
  | "x^2" => some (A.coord ix ^ 2)
  | "y^2" => iy.map (fun y => A.coord y ^ 2)
  | "uy^2" => iy.map (fun y => A.d y u ^ 2)
  | "uxy" => iy.map (fun y => A.d y Hx)
  | "uz" => iz.map (fun z => A.d z u)
  | "Div(u)" => iy.map (fun y =>
      match iz with
      | none => Hx + A.d y u
      | some z => Hx + A.d y u + A.d z u)
  | "Laplace(u)" => iy.map (fun y =>
      match iz with
      | some z => A.d ix Hx + A.d y (A.d y u) + A.d z (A.d z u)
      | none => A.d ix Hx + A.d y (A.d y u))
  | "uzz" => iz.map (fun z => A.d z (A.d z u))
  | "Laplace(utt)" => it.bind (fun t => iy.map (fun y =>
      let utt := A.d t (A.d t u)
      match iz with
      | some z => A.d ix (A.d ix utt) + A.d y (A.d y utt) + A.d z (A.d z utt)
      | none => A.d ix (A.d ix utt) + A.d y (A.d y utt)))
  | "(x+y)" => iy.map (fun y => A.coord ix + A.coord y)
  | "exp(x)" => some (A.exp (A.coord ix))
  | "uyyt" => iy.map (fun y => A.d ix (A.d y (A.d 2 u)))
  | "sint" => some (A.sin (A.coord ix))
  | "sinx" => some (A.sin (A.coord ix))
  | "(uxx+ux/x)^2" => some ((A.d ix Hx + (1 * A.inv (A.coord ix)) * Hx) ^ 2)
  | "x^4" => some (A.coord ix ^ 4)
  | "sqrt(x)" => some (A.sqrt (A.coord ix))
  | "exp(-y)" => iy.map (fun y => A.exp (-A.coord y))
  | "t" => it.map A.coord
  | "uyyy" => iy.map (fun y => A.d y (A.d y (A.d y u)))
  | "(uux)t" => it.map (fun t => A.d t (u * Hx))
  | "(uux)xx" => some (A.d ix (A.d ix (u * Hx)))
  | "(u^3)xx" => some (A.d ix (A.d ix (u ^ 3)))
  | "(u(u^2)xx)xx" => some (A.d ix (A.d ix (u * A.d ix (A.d ix (u * Hx)))))
  | _ => none

end Verif.EqGpt
