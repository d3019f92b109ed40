import Mathlib.Algebra.Order.Field.Basic

/-!
# Simulating a found equation

kd/model/eqgpt/posterial_solution.py (`update_u`, `get_posterial`) and the schemes of kd/model/eqgpt/posterial_solution_FD.py.
Arrays are lists, `at' u i` is `u[i]`; arithmetic is exact (a field `K`), the constants of the equations and `np.sqrt(x)`, `np.sin(t)`
are parameters.  `none` is an IndexError.  Plots, the network and the data files are not modelled.
-/

namespace Verif.EqGpt.Simulate

variable {K : Type} [Field K]

/-- `u[i]`, for an index inside the array. -/
def at' (u : List K) (i : Nat) : K := u.getD i 0

/-- An array of `n` entries given by index. -/
def build (n : Nat) (f : Nat → K) : List K := (List.range n).map f

/-- posterial_solution.py:16-47 `update_u`, mode 1, `lam = c * dt / dx`: inner points, then the left end (with `u[-1] := u[1]`), then the
right end.  Fewer than two points: `u[1]` raises. -/
def laxWendroff (lam : K) (u : List K) : Option (List K) :=
  let n := u.length
  if n < 2 then none else
  some (build n fun i =>
    if i = n - 1 then
      if 2 ≤ i then
        at' u i - lam / 2 * (at' u i - at' u (i - 2)) + lam ^ 2 / 2 * (at' u i - 2 * at' u (i - 1) + at' u (i - 2))
      else at' u i
    else if i = 0 then
      at' u 0 - lam / 2 * (at' u 1 - at' u 1) + lam ^ 2 / 2 * (at' u 1 - 2 * at' u 0 + at' u 1)
    else
      at' u i - lam / 2 * (at' u (i + 1) - at' u (i - 1)) + lam ^ 2 / 2 * (at' u (i + 1) - 2 * at' u i + at' u (i - 1)))

/-- posterial_solution.py:130-139 `get_posterial` (mode 1): the initial row and `k` further rows. -/
def posterior (lam : K) : Nat → List K → Option (List (List K))
  | 0, u => some [u]
  | k + 1, u =>
    match laxWendroff lam u with
    | none => none
    | some v => (posterior lam k v).map (u :: ·)

/-- posterial_solution.py:50-73, mode 2: the array `ux`.  Fewer than three points raise. -/
def ux2 (dx : K) (u : List K) : List K :=
  let n := u.length
  build n fun i =>
    if i = n - 1 then (at' u (n - 1) - at' u (n - 2)) / dx
    else if i = n - 2 then (at' u (n - 1) - at' u (n - 3)) / (2 * dx)
    else if i = 1 then (at' u 2 - at' u 0) / (2 * dx)
    else if i = 0 then (at' u 1 - at' u 0) / dx
    else (at' u (i - 2) - 8 * at' u (i - 1) + 8 * at' u (i + 1) - at' u (i + 2)) / (12 * dx)

/-- posterial_solution.py:50-73, mode 2: the array `uxx`; inside, the stencil is divided by `12 * dx` (line 60). -/
def uxx2 (dx : K) (u : List K) : List K :=
  let n := u.length
  build n fun i =>
    if i = n - 1 ∨ i = n - 2 then (at' u (n - 1) - 2 * at' u (n - 2) + at' u (n - 3)) / dx ^ 2
    else if i = 1 ∨ i = 0 then (at' u 2 - 2 * at' u 1 + at' u 0) / dx ^ 2
    else (-at' u (i - 2) + 16 * at' u (i - 1) - 30 * at' u i + 16 * at' u (i + 1) - at' u (i + 2)) / (12 * dx)

/-- posterial_solution.py:75-92, mode 2 `next_step`, with `c1, …, c4`, `np.sqrt(x)` and `np.sin(t)` given. -/
def nextStep (c1 c2 c3 c4 : K) (sqrtx : List K) (sint t dx dt : K) (u : List K) : Option (List K) :=
  if u.length < 3 then none else
  some (build u.length fun i =>
    at' u i + dt * ((-c1 * t * at' sqrtx i - c2 * at' u i * sint - c3 * at' (ux2 dx u) i * at' (uxx2 dx u) i) / (1 + c4 * t)))

/-- posterial_solution.py:98-107, mode 3: the array `ux`, zero at the two outermost points of each side. -/
def ux3 (dx : K) (u : List K) : List K :=
  build u.length fun i =>
    if 2 ≤ i ∧ i + 2 < u.length then (at' u (i - 2) - 8 * at' u (i - 1) + 8 * at' u (i + 1) - at' u (i + 2)) / (12 * dx) else 0

/-- posterial_solution.py:98-107, mode 3: the array `uxxx`. -/
def uxxx3 (dx : K) (u : List K) : List K :=
  build u.length fun i =>
    if 2 ≤ i ∧ i + 2 < u.length then (-at' u (i - 2) + 2 * at' u (i - 1) - 2 * at' u (i + 1) + at' u (i + 2)) / (2 * dx ^ 3) else 0

/-- posterial_solution.py:109-111 `L`. -/
def rhs3 (c1 c2 c3 dx : K) (u : List K) : List K :=
  build u.length fun i => -c1 * at' (uxxx3 dx u) i - c2 * at' (ux3 dx u) i - c3 * at' u i ^ 2 * at' (uxxx3 dx u) i

/-- posterial_solution.py:113-128 `RK3_TVD`, for a right-hand side `L`. -/
def rk3 (L : List K → List K) (dt : K) (u : List K) : List K :=
  let u1 := build u.length fun i => at' u i + dt * at' (L u) i
  let u2 := build u.length fun i => 3 / 4 * at' u i + 1 / 4 * (at' u1 i + dt * at' (L u1) i)
  build u.length fun i => 1 / 3 * at' u i + 2 / 3 * (at' u2 i + dt * at' (L u2) i)

section Tvd
variable [LinearOrder K]

/-- posterial_solution_FD.py:119-120 `minmod`: `np.sign(a) * min(|a|, |b|)` where the signs agree, else 0. -/
def minmod (a b : K) : K := if 0 < a * b then (if 0 < a then min |a| |b| else -min |a| |b|) else 0

/-- posterial_solution_FD.py:131-133: the limited slope at `i`; `np.roll` wraps around. -/
def slope (u : List K) (i : Nat) : K :=
  minmod (at' u ((i + 1) % u.length) - at' u i) (at' u i - at' u ((i + u.length - 1) % u.length))

/-- posterial_solution_FD.py:135-147: `flux_half[i]` for `1 ≤ i < N`. -/
def fluxHalf (c : K) (u : List K) (i : Nat) : K :=
  let l := at' u (i - 1) + slope u (i - 1) / 2
  let r := at' u i - slope u i / 2
  (c * l + c * r) / 2 - |c| / 2 * (r - l)

/-- One explicit stage: `u[1:-1] - dt / dx * (flux_half[2:-1] - flux_half[1:-2])` at the inner index `i` (`nu = dt / dx`). -/
def stage (nu c : K) (u : List K) (i : Nat) : K := at' u i - nu * (fluxHalf c u (i + 1) - fluxHalf c u i)

/-- posterial_solution_FD.py:125-181 `update_u_TVD`; an empty array raises. -/
def tvdStep (nu c : K) (u : List K) (uL uR : K) : Option (List K) :=
  let n := u.length
  if n = 0 then none else
  let u1 := build n fun i => if i = n - 1 then uR else if i = 0 then uL else stage nu c u i
  some (build n fun i => if i = n - 1 then uR else if i = 0 then uL else (at' u i + stage nu c u1 i) / 2)

/-- posterial_solution_FD.py:216-227 `get_posterial`: the initial row, then one step for every pair of observed end values. -/
def tvdPosterior (nu c : K) : List K → List (K × K) → Option (List (List K))
  | u, [] => some [u]
  | u, b :: bs =>
    match tvdStep nu c u b.1 b.2 with
    | none => none
    | some v => (tvdPosterior nu c v bs).map (u :: ·)

end Tvd

/-- posterial_solution_FD.py:241-244 the smoothness of the three stencils. -/
def beta (a b c d e : K) : K × K × K :=
  (13 / 12 * (a - 2 * b + c) ^ 2 + 1 / 4 * (a - 4 * b + 3 * c) ^ 2,
   13 / 12 * (b - 2 * c + d) ^ 2 + 1 / 4 * (b - d) ^ 2,
   13 / 12 * (c - 2 * d + e) ^ 2 + 1 / 4 * (3 * c - 4 * d + e) ^ 2)

/-- posterial_solution_FD.py:246-257: the flux right of the middle one of five values. -/
def wenoFlux (eps a b c d e : K) : K :=
  let bt := beta a b c d e
  let a0 := (1 / 10) / (eps + bt.1) ^ 2
  let a1 := (6 / 10) / (eps + bt.2.1) ^ 2
  let a2 := (3 / 10) / (eps + bt.2.2) ^ 2
  let s := a0 + a1 + a2
  (a0 / s * (2 * a - 7 * b + 11 * c) + a1 / s * (-b + 5 * c + 2 * d) + a2 / s * (2 * c + 5 * d - e)) / 6

/-- posterial_solution_FD.py:231-257: the array `flux`, zero outside `3 ≤ i < N - 3`. -/
def fluxArr (eps : K) (f : List K) : List K :=
  build f.length fun i =>
    if 3 ≤ i ∧ i + 3 < f.length then wenoFlux eps (at' f (i - 2)) (at' f (i - 1)) (at' f i) (at' f (i + 1)) (at' f (i + 2)) else 0

/-- posterial_solution_FD.py:230-262 `weno5_flux_derivative`: `dfdx[3:-3] = (flux[4:-2] - flux[3:-3]) / dx`. -/
def wenoDeriv (eps dx : K) (f : List K) : List K :=
  build f.length fun i =>
    if 3 ≤ i ∧ i + 3 < f.length then (at' (fluxArr eps f) (i + 1) - at' (fluxArr eps f) i) / dx else 0

end Verif.EqGpt.Simulate
