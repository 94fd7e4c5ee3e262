import Verif.Newton.Model
import Verif.Dg.Model

/-!
# `solvers/split/numeric.cpp`

An implicit solver for one ordinary differential equation: a polynomial of degree less than `N` over the step, tested with
the basis polynomials, found by the Newton-Krylov solver.
-/

namespace Verif.Stiff

open Verif.Newton Verif.Newton.Ext Verif.Dg

attribute [local instance] Classical.propDecidable

noncomputable section

variable {n : Nat} {σ : Type}

/-- `obj0`, numeric.cpp:5-13. -/
def obj0 (T : Tab n) (x : Fin n → ℝ) (x0 dt : ℝ) (f : ℝ → ℝ) : Fin n → ℝ := fun i =>
  (T.mat.mulVec x i - x0 * T.endvals 0 i) - dt * T.w i * f (x i)

/-- `obj_bound`, numeric.cpp:20, on vectors that may hold NaN or infinities; `bad` is its value on those. -/
def bound (T : Tab n) (x0 dt : ℝ) (f : ℝ → ℝ) (bad : Vec n → Vec n) (x : Vec n) : Vec n :=
  if h : ∀ i, ∃ y, x i = fin y then fun i => fin (obj0 T (fun i => (h i).choose) x0 dt f i) else bad x

/-- `res.dot(ENDVALS.row(1))`, numeric.cpp:24; `junk` is its value on vectors with NaN or infinities. -/
def out (T : Tab n) (junk : Vec n → Ext) (x : Vec n) : Ext :=
  if h : ∀ i, ∃ y, x i = fin y then fin (∑ i, (h i).choose * T.endvals 1 i) else junk x

/-- `stiff_ode_solve`, numeric.cpp:15-25, with the default tolerances of `nonlin_solve`; the flag tells whether the Newton
solver met its tolerance.  The rate `f` gives a number for every number. -/
def stiffOdeSolve (T : Tab n) (nm : Vec n → Ext) (tol : ℝ) (z : Ext → Bool) (fuel : Nat)
    (solve : σ → Vec n → Vec n → Ext → σ × Vec n) (jac : σ) (bad : Vec n → Vec n) (junk : Vec n → Ext)
    (x0 dt : ℝ) (f : ℝ → ℝ) : Option (Ext × Bool) :=
  (nonlinSolve nm (defaultTol tol) z fuel (bound T x0 dt f bad) solve jac fun _ => fin (x0 * 1)).map fun r =>
    (out T junk r.1, r.2)

end

end Verif.Stiff
