import Verif.Sga.Evolve
import Verif.Sga.Regress
import Verif.Sga.Equation
/-!
# A whole SGA run (kd/model/sga/sgapde/solver.py:17-78 `SGAPDE_Solver.run`, 141-172 `SGA.run`)

The models of the constructor, the generations (C22), the evaluation of terms (C47), the regression (C31) and the extraction of
the displayed terms (C36) one after the other.  Printing is left out (it works on copies).
-/
namespace Verif.Sga

/-- pde.py:266-272: the call of `Train` (PDE_find.py:77-154) for the default term and given columns. -/
structure Reg (V T S : Type) where
  search : List V → Search (List Fl) T S
  maxit : Nat
  dtol : T

/-- What `Train` returns: coefficients, score, and (ghost) every coefficient vector it scored. -/
def Reg.run {V T S : Type} (r : Reg V T S) (cols : List V) : List Fl × S × List (List Fl) := train (r.search cols) r.maxit r.dtol

/-- The run's data with this regression as the score. -/
def Env.withReg {V T S : Type} (env : Env V S) (r : Reg V T S) : Env V S := { env with train := fun cols => (r.run cols).2.1 }

/-- pde.py:252-272 for the coefficients: `w = 0` without usable columns (an array of one zero after `reshape(-1)`). -/
def coefsOf {V T S : Type} (env : Env V S) (r : Reg V T S) (cols : List V) : List Fl :=
  if cols.isEmpty || cols.any (fun v => !env.finite v) then [.fin 0] else (r.run cols).1

/-- solver.py:72-75 with equation.py:49-114: the terms are evaluated once more, on copies; an exception gives no details. -/
def detailsOf {V T S : Type} (env : Env V S) (r : Reg V T S) (tol : Fl) (p : Ind) : Option (List EqTerm) :=
  match evalTerms env.sem p.elements.length (p.elements.map fresh) with
  | .error _ => none
  | .ok (ts, cols, _) => some (extractDetails tol 1 [['u']] (ts.map strip) (coefsOf env r (cols.filterMap id)))

/-- What a user gets: text, score, details (and, ghost, the final population with the texts of all scored candidates). -/
structure Answer (S : Type) where
  text : String
  score : S
  details : Option (List EqTerm)
  last : Pop S

/-- solver.py:38-78 `SGAPDE_Solver.run`, 141-167 `SGA.run`: constructor, generations, best candidate, its details. -/
def solve {V T S : Type} (env : Env V S) (r : Reg V T S) (tol : Fl) (numIx : Nat) (ds : List (List NewDraw)) (gs : List GenRound) :
    Except Fail (Answer S) :=
  match initPop (env.withReg r) ds with
  | .error f => .error f
  | .ok st0 =>
    match runGens (env.withReg r) ds.length numIx gs st0 with
    | .error f => .error f
    | .ok st =>
      match theBest env.ord st with
      | none => .error .raised
      | some (p, s) => .ok ⟨visualize p, s, detailsOf env r tol p, st⟩

end Verif.Sga
