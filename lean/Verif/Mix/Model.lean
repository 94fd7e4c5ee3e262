import Verif.Sys.Model
import Verif.Newton.Model

/-!
# `system/energy/multi.cpp`: the mixture of two phases

`Sys.solveMulti` is the function `solve_multi` with the result of its nonlinear solve as the parameter `mix`.  Here is that
solve: the equations, the start and the call of the Newton-Krylov solver.
-/

namespace Verif.Mix

open Verif.Sys Verif.Newton Verif.Newton.Ext

attribute [local instance] Classical.propDecidable

noncomputable section

variable {σ : Type}

/-- `ρ2`, multi.cpp:13 and 59. -/
def second (ρ lam ρ1 : ℝ) : ℝ := (1 - lam) / (1 / ρ - lam / ρ1)

/-- `obj`, multi.cpp:7-24; `x = (p, ρ1)`. -/
def obj (P1 P2 : Params) (ρ e lam p ρ1 : ℝ) : Fin 2 → ℝ :=
  let ρ2 := second ρ lam ρ1
  ![e - lam * E1 P1 ρ1 p - (1 - lam) * E1 P2 ρ2 p, temperatureMG P1 ρ1 p - temperatureMG P2 ρ2 p]

/-- `average_pressure`, multi.cpp:26-30. -/
def averagePressure (P : Par) (ρ e lam : ℝ) : ℝ :=
  max (lam * pressureMG P.toParams ρ e + (1 - lam) * pressureMG P.mp2 ρ e) 0

/-- `x0`, multi.cpp:52-54. -/
def start (P : Par) (ρ e lam : ℝ) : Vec 2 := ![fin (averagePressure P ρ e lam), fin ρ]

/-- The exponents to which `p_ref`, `e_ref` and `φ` raise densities relative to `ρ0`, mg.cpp:31-161.  `φ` is evaluated, and
multiplied by `Tref`, even if `Tref` is zero. -/
def exponents (P : Params) : List ℝ :=
  match P.eos with
  | .stiffenedGas => [P.γ - 1]
  | .shockMG => []
  | .godunovRomenski => [P.α, P.γ]
  | .jwl => [P.Γ0]
  | .cochranChan => [-P.R1, -P.R2, 1 - P.R1, 1 - P.R2, P.Γ0]

/-- `E_1` and `temperature_mg` at density `r` are numbers: no quotient by zero, no power of a negative base to a fraction, and
not the pole of the Hugoniot curve.  The parameters are taken to be such that they do no harm by themselves. -/
structure Number (P : Params) (r : ℝ) : Prop where
  ne : r ≠ 0
  frac : r < 0 → ∀ x ∈ exponents P, ∃ k : ℤ, x = k
  pole : P.eos = .shockMG → P.ρ0 < r → 1 / P.ρ0 - P.s * (1 / P.ρ0 - 1 / r) ≠ 0

/-- Every term of `obj` is a number. -/
structure Sound (P1 P2 : Params) (ρ lam ρ1 : ℝ) : Prop where
  first : Number P1 ρ1
  rest : 1 / ρ - lam / ρ1 ≠ 0
  second : Number P2 (second ρ lam ρ1)

/-- `obj_bound`, multi.cpp:50.  Elsewhere, and for NaN or infinite arguments, its value is `bad`. -/
def bound (P : Par) (ρ e lam : ℝ) (bad : Vec 2 → Vec 2) (x : Vec 2) : Vec 2 :=
  if h : ∃ y : ℝ × ℝ, x = ![fin y.1, fin y.2] ∧ Sound P.toParams P.mp2 ρ lam y.2 then
    fun i => fin (obj P.toParams P.mp2 ρ e lam h.choose.1 h.choose.2 i)
  else bad x

/-- `nonlin_solve(obj_bound, x0)`, multi.cpp:56. -/
def run (P : Par) (ρ e lam : ℝ) (nm : Vec 2 → Ext) (tol : ℝ) (z : Ext → Bool) (fuel : Nat)
    (solve : σ → Vec 2 → Vec 2 → Ext → σ × Vec 2) (jac : σ) (bad : Vec 2 → Vec 2) : Option (Vec 2 × Bool) :=
  nonlinSolve nm (defaultTol tol) z fuel (bound P ρ e lam bad) solve jac (start P ρ e lam)

end

end Verif.Mix
