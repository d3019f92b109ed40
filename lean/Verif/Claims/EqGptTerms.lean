import Mathlib.Algebra.Polynomial.Derivative
import Mathlib.Tactic.Ring
import Mathlib.Tactic.NormNum
import Verif.EqGpt.Sentence
import Verif.EqGpt.Terms
import Verif.Claims.EqGptSample

/-!
# C82: a word's values are what its name says
-/

namespace Verif.Claims.EqGpt

open Verif.EqGpt

/-! ## Specification: reading the names -/

/-- The expressions the names stand for. -/
inductive Form where
  | u
  | one
  | var (v : String)
  | paren (e : Form)
  | pow (e : Form) (k : Nat)
  | invpow (e : Form) (k : Nat)
  | deriv (e : Form) (v : String)
  | juxt (a b : Form)
  | star (a b : Form)
  | over (a b : Form)
  | add (a b : Form)
  | neg (e : Form)
  | fn (f : String) (e : Form)
  | fn0 (f : String) (e : Form)

/-- How an expression is written: derivatives as letters after the expression, powers with
`^`, products side by side or with `*`, functions with parentheses (`fn`) or before a
variable (`fn0`). -/
def Form.render : Form → String
  | .u => "u"
  | .one => "1"
  | .var v => v
  | .paren e => "(" ++ e.render ++ ")"
  | .pow e k => e.render ++ "^" ++ toString k
  | .invpow e k => e.render ++ "^-" ++ toString k
  | .deriv e v => e.render ++ v
  | .juxt a b => a.render ++ b.render
  | .star a b => a.render ++ "*" ++ b.render
  | .over a b => a.render ++ "/" ++ b.render
  | .add a b => a.render ++ "+" ++ b.render
  | .neg e => "-" ++ e.render
  | .fn f e => f ++ "(" ++ e.render ++ ")"
  | .fn0 f e => f ++ e.render

variable {R : Type} [CommRing R]

/-- `e_xx + e_yy`, plus `e_zz` when there is a `z`. -/
def laplace (A : Calc R) (vars : List String) (e : R) : Option R :=
  match vars.idxOf? "x", vars.idxOf? "y", vars.idxOf? "z" with
  | some x, some y, some z => some (A.d x (A.d x e) + A.d y (A.d y e) + A.d z (A.d z e))
  | some x, some y, none => some (A.d x (A.d x e) + A.d y (A.d y e))
  | _, _, _ => none

/-- A named function. -/
def applyFn (A : Calc R) (vars : List String) (f : String) (e : R) : Option R :=
  if f = "sin" then some (A.sin e)
  else if f = "sinh" then some (A.sinh e)
  else if f = "exp" then some (A.exp e)
  else if f = "sqrt" then some (A.sqrt e)
  else if f = "Laplace" then laplace A vars e
  else if f = "BiLaplace" then (laplace A vars e).bind (laplace A vars)
  else none

/-- What an expression means; `none` if it uses a variable that is not there. -/
def Form.denote (A : Calc R) (vars : List String) : Form → Option R
  | .u => some A.u
  | .one => some 1
  | .var v => (vars.idxOf? v).map A.coord
  | .paren e => e.denote A vars
  | .pow e k => (e.denote A vars).map (· ^ k)
  | .invpow e k => (e.denote A vars).map (fun r => A.inv r ^ k)
  | .deriv e v => (e.denote A vars).bind (fun r => (vars.idxOf? v).map (fun i => A.d i r))
  | .juxt a b => (a.denote A vars).bind (fun r => (b.denote A vars).map (fun s => r * s))
  | .star a b => (a.denote A vars).bind (fun r => (b.denote A vars).map (fun s => r * s))
  | .over a b => (a.denote A vars).bind (fun r => (b.denote A vars).map (fun s => r * A.inv s))
  | .add a b => (a.denote A vars).bind (fun r => (b.denote A vars).map (fun s => r + s))
  | .neg e => (e.denote A vars).map (fun r => -r)
  | .fn f e => (e.denote A vars).bind (applyFn A vars f)
  | .fn0 f e => (e.denote A vars).bind (applyFn A vars f)

/-- Several derivatives, in the order the letters are written. -/
def ds (e : Form) (vs : List String) : Form := vs.foldl .deriv e

/-- The reading of each name of the vocabulary. -/
def readings : List Form :=
  let ux := Form.deriv .u "x"
  [ds .u ["t"], .u, ux, ds .u ["x","x"], ds .u ["x","x","t"], .pow (ds .u ["t"]) 2,
   ds .u ["x","t"], ds .u ["t","t"], .pow ux 2, ds .u ["x","x","x","x"],
   ds (.paren (.juxt .u ux)) ["x"], ds .u ["x","x","t","t"], ds (.paren (.pow .u 4)) ["x","x"],
   .pow .u 2, ds .u ["x","x","x"], .pow .u 3, .var "x", ds .u ["y","y"],
   ds (.paren (.over .one .u)) ["x","x"], ds (.paren (.star (.invpow .u 2) ux)) ["x"],
   ds .u ["x","x","x","x","x"], .pow (ds .u ["t"]) 3, .fn "sqrt" .u, .fn "sin" .u, .fn "sinh" .u,
   .fn "BiLaplace" .u, ds .u ["y"], .fn "Laplace" .u, .var "y", .pow (.var "x") 2,
   .pow (.var "y") 2, .pow (ds .u ["y"]) 2, ds .u ["x","y"], ds .u ["z"], ds .u ["z","z"],
   .fn "Laplace" (ds .u ["t","t"]), .paren (.add (.var "x") (.var "y")), .fn "exp" (.var "x"),
   ds .u ["y","y","t"], .fn0 "sin" (.var "t"), .fn0 "sin" (.var "x"),
   .pow (.paren (.add (ds .u ["x","x"]) (.over ux (.var "x")))) 2, .pow (.var "x") 4,
   .fn "sqrt" (.var "x"), .fn "exp" (.neg (.var "y")), .var "t", ds .u ["y","y","y"],
   ds (.paren (.juxt .u ux)) ["t"], ds (.paren (.juxt .u ux)) ["x","x"],
   ds (.paren (.pow .u 3)) ["x","x"],
   ds (.paren (.juxt .u (ds (.paren (.pow .u 2)) ["x","x"]))) ["x","x"]]

/-- The readings are the names of the operands of the vocabulary, in order. -/
theorem readings_render : readings.map Form.render = id2word.drop 6 := by decide +kernel

/-- Derivatives behave: additive, and in any order. -/
structure Lawful (A : Calc R) : Prop where
  add : ∀ i a b, A.d i (a + b) = A.d i a + A.d i b
  comm : ∀ i j a, A.d i (A.d j a) = A.d j (A.d i a)

/-- The words whose values differ from their name. -/
def misread : List String := ["sqrt(u)", "uyyt", "sint", "(u(u^2)xx)xx"]

set_option maxHeartbeats 4000000 in
private theorem meaning_pairs (A : Calc R) (hA : Lawful A) (vars : List String) (ix : Nat)
    (hix : vars.idxOf? "x" = some ix) :
    ∀ p ∈ (id2word.drop 6).zip readings, p.1 ∉ misread →
      (p.1 = "BiLaplace(u)" → vars.idxOf? "z" = none) →
      calcTerm A vars p.1 = p.2.denote A vars := by
  intro p hp hm hz
  generalize hit : vars.idxOf? "t" = it
  generalize hiy : vars.idxOf? "y" = iy
  generalize hiz : vars.idxOf? "z" = iz at hz
  simp only [id2word, readings, List.drop_succ_cons, List.drop_zero, List.zip_cons_cons,
    List.zip_nil_right, List.mem_cons, List.not_mem_nil, or_false, ds, List.foldl_cons,
    List.foldl_nil] at hp
  simp only [misread, List.mem_cons, List.not_mem_nil, or_false, not_or] at hm
  rcases hp with h|h|h|h|h|h|h|h|h|h|h|h|h|h|h|h|h|h|h|h|h|h|h|h|h|h|h|h|h|h|h|h|h|h|h|h|h|h|h|h|h|h|h|h|h|h|h|h|h|h|h <;>
    subst h <;>
    first
      | (exfalso; simp at hm; done)
      | (simp [calcTerm, hix, Form.denote]; done)
      | (cases it <;> simp [calcTerm, hix, hit, Form.denote, applyFn]; done)
      | (cases iy <;> simp [calcTerm, hix, hiy, Form.denote, applyFn]; done)
      | (cases iz <;> simp [calcTerm, hix, hiz, Form.denote]; done)
      | (cases iy <;> cases iz <;>
          simp [calcTerm, hix, hiy, hiz, Form.denote, applyFn, laplace]; done)
      | (cases it <;> cases iy <;> cases iz <;>
          simp [calcTerm, hix, hit, hiy, hiz, Form.denote, applyFn, laplace]; done)
      | skip
  · have hz' : iz = none := hz rfl
    subst hz'
    cases iy with
    | none => simp [calcTerm, hix, hiy, hiz, Form.denote, applyFn, laplace]
    | some y =>
        simp only [calcTerm, hix, hiy, hiz, Form.denote, applyFn, laplace, Option.bind_some,
          Option.map_some, Option.bind_eq_bind, if_true]
        simp only [String.reduceEq, if_false, if_true, Option.some.injEq, hA.add]
        have k : ∀ v, A.d y (A.d ix (A.d ix v)) = A.d ix (A.d ix (A.d y v)) := fun v => by
          rw [hA.comm y ix (A.d ix v), hA.comm y ix v]
        rw [k, k]
        ring
  · simp [calcTerm, hix, Form.denote]
    ring

/-- **C82** (partial: every operand of the vocabulary except the four of `misread`, and
`BiLaplace(u)` only without a `z` variable).  For any field, coordinates and variables that
include `x`, the values computed for a word are the expression its name denotes; and when the
name uses a variable that is not there, no value is returned. -/
theorem C82_meaning_partial (A : Calc R) (hA : Lawful A) (vars : List String) (hx : "x" ∈ vars)
    (f : Form) (hf : f ∈ readings) (hm : f.render ∉ misread)
    (hz : f.render = "BiLaplace(u)" → "z" ∉ vars) :
    calcTerm A vars f.render = f.denote A vars := by
  obtain ⟨ix, hix⟩ : ∃ i, vars.idxOf? "x" = some i := by
    cases h : vars.idxOf? "x" with
    | some i => exact ⟨i, rfl⟩
    | none => rw [List.idxOf?_eq_none_iff] at h; exact absurd hx h
  have hmem : ∀ l : List Form, f ∈ l → (f.render, f) ∈ (l.map Form.render).zip l := by
    intro l
    induction l with
    | nil => simp
    | cons g l ih =>
        intro h
        rcases List.mem_cons.1 h with rfl | h
        · simp
        · simp [ih h]
  have hp := hmem readings hf
  rw [readings_render] at hp
  refine meaning_pairs A hA vars ix hix _ hp hm (fun h => ?_)
  rw [List.idxOf?_eq_none_iff]
  exact hz h

/-- **C82** The words `KD_EqGPT` can sample (variables `t`, `x`) all have a value, except that
one of them, `(u(u^2)xx)xx`, is not what its name says. -/
theorem C82_sampled_defined (A : Calc R) (hA : Lawful A) (w : Nat) (hw : Operand waveMask w) :
    ∃ f ∈ readings, f.render = word w ∧ (calcTerm A ["t", "x"] (word w)).isSome ∧
      (word w ≠ "(u(u^2)xx)xx" → calcTerm A ["t", "x"] (word w) = f.denote A ["t", "x"]) := by
  obtain ⟨h6, h57, hm⟩ := hw
  obtain ⟨f, hf, hfr⟩ : ∃ f ∈ readings, f.render = word w := by
    have : word w ∈ readings.map Form.render := by
      rw [readings_render]
      have hl : w < id2word.length := h57
      have he : word w = id2word[w] := by simp [word, List.getElem?_eq_getElem hl]
      rw [he, List.mem_drop_iff_getElem]
      exact ⟨w - 6, by omega, by congr 1; omega⟩
    exact List.mem_map.1 this
  have hok : ∀ v : Nat, v < 57 → waveMask[v]? = some true →
      word v ∉ ["sqrt(u)", "uyyt", "sint", "BiLaplace(u)"] := by decide +kernel
  have hnot := hok w h57 hm
  simp only [List.mem_cons, List.not_mem_nil, or_false, not_or] at hnot
  refine ⟨f, hf, hfr, ?_, fun hne => ?_⟩
  · have hsome : ∀ v : Nat, v < 57 → 6 ≤ v → waveMask[v]? = some true → word v ∈
        ["u", "ux", "uxx", "ux^2", "uxxxx", "(uux)x", "(u^4)xx", "u^2", "uxxx", "u^3", "x",
         "(1/u)xx", "(u^-2*ux)x", "uxxxxx", "sin(u)", "sinh(u)", "x^2", "exp(x)", "sinx",
         "(uxx+ux/x)^2", "x^4", "(uux)xx", "(u^3)xx", "(u(u^2)xx)xx"] := by decide +kernel
    have hin := hsome w h57 h6 hm
    have hx : List.idxOf? "x" ["t", "x"] = some 1 := by decide
    simp only [List.mem_cons, List.not_mem_nil, or_false] at hin
    rcases hin with h|h|h|h|h|h|h|h|h|h|h|h|h|h|h|h|h|h|h|h|h|h|h|h <;>
      rw [h] <;> simp [calcTerm, hx]
  · rw [← hfr]
    refine C82_meaning_partial A hA ["t", "x"] (by simp) f hf ?_ (fun _ => by simp)
    rw [hfr]
    simp only [misread, List.mem_cons, List.not_mem_nil, or_false, not_or]
    exact ⟨hnot.1, hnot.2.1, hnot.2.2.1, hne⟩

/-! ## Concrete cases -/

/-- Polynomials in `x`, `u = x^2`; `t` is variable 0, `x` variable 1. -/
noncomputable def polyCalc : Calc (Polynomial ℚ) where
  u := Polynomial.X ^ 2
  coord := fun i => if i = 1 then Polynomial.X else 0
  d := fun i p => if i = 1 then Polynomial.derivative p else 0
  inv := id
  sin := id
  sinh := id
  exp := id
  sqrt := id
  abs := id

theorem polyCalc_lawful : Lawful polyCalc := by
  constructor
  · intro i a b
    simp only [polyCalc]
    split <;> simp
  · intro i j a
    simp only [polyCalc]
    split <;> split <;> simp_all

example : calcTerm polyCalc ["t", "x"] "(u^4)xx"
    = (ds (.paren (.pow .u 4)) ["x","x"]).denote polyCalc ["t", "x"] :=
  C82_meaning_partial polyCalc polyCalc_lawful ["t", "x"] (by simp)
    (ds (.paren (.pow .u 4)) ["x","x"]) (by simp [readings]) (by decide +kernel)
    (fun _ => by simp)

/-- `(u(u^2)xx)xx` is computed as `(u (u ux)xx)xx`: for `u = x^2` the value at `x = 1` is 72
instead of 144. -/
theorem C82_nested_counterexample :
    (calcTerm polyCalc ["t", "x"] "(u(u^2)xx)xx").map (Polynomial.eval 1) = some 72 ∧
    ((ds (.paren (.juxt .u (ds (.paren (.pow .u 2)) ["x","x"]))) ["x","x"]).denote polyCalc
      ["t", "x"]).map (Polynomial.eval 1) = some 144 := by
  have hx : List.idxOf? "x" ["t", "x"] = some 1 := by decide
  constructor
  · simp [calcTerm, hx, polyCalc, Polynomial.derivative_mul, Polynomial.derivative_pow]
    norm_num
  · simp [Form.denote, ds, hx, polyCalc, Polynomial.derivative_mul, Polynomial.derivative_pow]
    norm_num

/-- `(u^2)xx`, a word outside the vocabulary that the calculation also accepts, is computed as `(ux^2)xx`: for `u = x^2` the value at `x = 1` is 8
instead of 12. -/
theorem C82_square_counterexample :
    (calcTerm polyCalc ["t", "x"] "(u^2)xx").map (Polynomial.eval 1) = some 8 ∧
    ((ds (.paren (.pow .u 2)) ["x","x"]).denote polyCalc ["t", "x"]).map (Polynomial.eval 1) = some 12 := by
  have hx : List.idxOf? "x" ["t", "x"] = some 1 := by decide
  constructor
  · simp [calcTerm, hx, polyCalc, Polynomial.derivative_mul, Polynomial.derivative_pow]
    norm_num
  · simp [Form.denote, ds, hx, polyCalc, Polynomial.derivative_mul, Polynomial.derivative_pow]
    norm_num

/-- `sint` is computed as `sin(x)`, with any variables. -/
theorem C82_sint_counterexample (A : Calc R) (vars : List String) :
    calcTerm A vars "sint" = calcTerm A vars "sinx" := by
  simp [calcTerm]

/-- `uyyt` differentiates with respect to `x`, not `t`: with variables `t, x, y` it is the
value of `u_yyx`. -/
theorem C82_uyyt_counterexample (A : Calc R) :
    calcTerm A ["t", "x", "y"] "uyyt"
      = (ds Form.u ["y", "y", "x"]).denote A ["t", "x", "y"] := by
  have hx : List.idxOf? "x" ["t", "x", "y"] = some 1 := by decide
  have hy : List.idxOf? "y" ["t", "x", "y"] = some 2 := by decide
  simp [calcTerm, Form.denote, ds, hx, hy]

/-- `sqrt(u)` is the root of `|u|`. -/
theorem C82_sqrt_counterexample (A : Calc R) (vars : List String) (hx : "x" ∈ vars) :
    calcTerm A vars "sqrt(u)" = some (A.sqrt (A.abs A.u)) := by
  cases h : vars.idxOf? "x" with
  | some i => simp [calcTerm, h]
  | none => rw [List.idxOf?_eq_none_iff] at h; exact absurd hx h

end Verif.Claims.EqGpt
