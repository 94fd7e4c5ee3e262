import Verif.Iter.Utils
import Mathlib.Analysis.SpecialFunctions.Trigonometric.Arctan

/-!
# Model of `src/system/relaxation`, `src/system/variables/sources.cpp`, `source` and `src/solvers/split/{ode,rk}.cpp`

NaN is `none`.  Infinities do not occur as values: where the code could divide by zero the model says so beside the
definition.
-/

namespace Verif.Relax

open Verif.Sys Verif.Iter Verif.Grid

noncomputable section

/-! ### `solvers/split/rk.cpp` -/

/-- `rk4`, rk.cpp:6-19.  If any stage is NaN so is the sum, whatever the later stages are. -/
def rk4 (f : ℝ → Option ℝ) (y dt : ℝ) : Option ℝ := do
  let k1 ← f y
  let dy1 := dt * k1
  let k2 ← f (y + dy1 / 2)
  let dy2 := dt * k2
  let k3 ← f (y + dy2 / 2)
  let dy3 := dt * k3
  let k4 ← f (y + dy3)
  let dy4 := dt * k4
  return (dy1 + 2 * dy2 + 2 * dy3 + dy4) / 6

/-- `runge_kutta`, rk.cpp:21-32. -/
def rungeKutta (f : ℝ → Option ℝ) (tf y : ℝ) (n : Nat) : Option ℝ :=
  (List.range n).foldl (fun y _ => y.bind fun y => (rk4 f y (tf / n)).map fun dy => y + dy) (some y)

/-- rk.cpp:40-49 with at most `fuel` rounds; the outer `none` is a loop that has not stopped. -/
def retry (f : ℝ → Option ℝ) (tf y : ℝ) : Nat → Nat → Option ℝ → Option (Option ℝ)
  | _, _, some y0 => some (some y0)
  | 0, _, none => none
  | fuel + 1, n, none =>
    let n := n * 2
    let y0 := rungeKutta f tf y n
    if n > 64 then some y0 else retry f tf y fuel n y0

/-- `runge_kutta_launcher`, rk.cpp:34-50. -/
def launcher (f : ℝ → Option ℝ) (tf y : ℝ) (fuel n : Nat) : Option (Option ℝ) :=
  retry f tf y fuel n (rungeKutta f tf y n)

/-! ### `variables/sources.cpp` -/

/-- `std::pow`: NaN for a negative base and an exponent that is not an integer.  `pow(0, e)` with negative `e` is
infinite in the code and not modelled. -/
def powN (b e : ℝ) : Option ℝ := by
  classical exact if b < 0 ∧ ¬ ∃ k : ℤ, e = k then none else some (b ^ e)

/-- `theta1inv`, sources.cpp:13-81.  `pow` of a negative determinant, division by a vanishing parameter and by `sn` in the
Bingham branch (where `sn > σY`) follow Lean's total functions; the theorems ask for positive parameters. -/
def theta1inv (P : Par) (Q : St) : ℝ :=
  let ρ := Q 0
  let A53 := (getA Q).det ^ (5 / 3 : ℝ)
  let cs := cs2 P.toParams ρ
  let frob (σ : M3) : ℝ := Real.sqrt (∑ i, ∑ j, σ i j * σ i j)
  if P.solid then
    if P.powerLaw then
      let sn := min (sigmaNorm (sigma P.toParams Q)) 1e8
      3 * A53 / (cs * P.τ0) * (sn / P.σY) ^ P.n
    else 0
  else if P.bingham then
    let sn := frob (sigma P.toParams Q) / Real.sqrt 2
    if sn > P.σY then A53 * P.ρ0 / (2 * P.μ) * (1 - P.σY / sn) else 0
  else
    let c := A53 * P.ρ0 / (2 * P.μ ^ (1 / P.n))
    if P.powerLaw then
      let sn := frob (sigma P.toParams Q) / Real.sqrt 2
      c * sn ^ ((1 - P.n) / P.n)
    else c

/-- `theta2inv`, sources.cpp:83-91. -/
def theta2inv (c : Cfg) (P : Par) (Q : St) : ℝ := temperature c P Q / (P.κ * Q 0)

/-- The ignition term, sources.cpp:121-122. -/
def ignition (P : Par) (ρ lam : ℝ) : Option ℝ :=
  if 1 - lam < P.φI then
    (powN lam P.b).bind fun a => (powN (ρ / P.ρ0 - 1 - P.a) P.x).map fun b => P.I * a * b
  else some 0

/-- The first growth term, sources.cpp:124-125. -/
def growth1 (P : Par) (p lam : ℝ) : Option ℝ :=
  if 1 - lam < P.φG1 then
    (powN lam P.c).bind fun a => (powN (1 - lam) P.d).bind fun b => (powN p P.y).map fun c => P.G1 * a * b * c
  else some 0

/-- The second growth term, sources.cpp:127-128. -/
def growth2 (P : Par) (p lam : ℝ) : Option ℝ :=
  if 1 - lam > P.φG2 then
    (powN lam P.e).bind fun a => (powN (1 - lam) P.g).bind fun b => (powN p P.z).map fun c => P.G2 * a * b * c
  else some 0

/-- The ignition and growth rate, sources.cpp:112-131.  `std::max(ret, 0.)` keeps NaN. -/
def ignitionGrowth (P : Par) (ρ p lam : ℝ) : Option ℝ :=
  let p := max p 0
  let lam := min lam 1
  (ignition P ρ lam).bind fun r1 => (growth1 P p lam).bind fun r2 => (growth2 P p lam).map fun r3 =>
    max (0 + r1 + r2 + r3) 0

/-- `reaction_rate`, sources.cpp:95-135, for the reactions 0, 1 and 2; any other value throws, which nothing catches. -/
def reactionRate (c : Cfg) (P : Par) (Q : St) : Option ℝ :=
  let lam := max 0 (Q c.mV / Q 0)
  if P.reaction = 0 then
    if temperature c P Q > P.Ti then some (P.Kc * lam) else some 0
  else if P.reaction = 1 then
    some (P.Bc * Real.exp (-P.Ea / (P.Rc * temperature c P Q)) * lam)
  else ignitionGrowth P (Q 0) (pressure c P Q) lam

/-- `source`, equations.cpp:50-67, without reactions that give NaN. -/
def source (c : Cfg) (P : Par) (rate : ℝ) (Q : St) : St :=
  let r : St := fun _ => 0
  let r := setSeg 2 P.δp r
  let r := if c.viscous then setA ((-dEdAs P.toParams Q) * (theta1inv P Q • (1 : M3))) r else r
  let r := if c.thermal then setSeg 14 (fun i => -Q 0 * dEdJ P.toParams Q i * theta2inv c P Q) r else r
  if P.reaction > -1 then setAt c.mV (-Q 0 * rate) r else r

/-! ### `relaxation/numerical.cpp` -/

/-- `func`, numerical.cpp:6-12. -/
def func (c : Cfg) (P : Par) (Q : St) (lam : ℝ) : Option ℝ :=
  (reactionRate c P (setAt c.mV (Q 0 * lam) Q)).map fun r => -r

/-- `std::max(0., λ)`: 0 for NaN. -/
def max0 : Option ℝ → ℝ
  | none => 0
  | some x => max 0 x

/-- `ode_stepper_numerical`, numerical.cpp:14-32; `steps` is `RK_STEPS`.  `none` is a loop that has not stopped or the
exception of `reaction_rate`. -/
def odeNumerical (c : Cfg) (P : Par) (steps fuel : Nat) (dt : ℝ) (Q : St) : Option St :=
  if P.reaction > -1 then
    let lam := Q c.mV / Q 0
    if lam > 0 then
      if P.reaction > 2 then none else
      (launcher (func c P Q) dt lam fuel steps).map fun y => setAt c.mV (Q 0 * max0 y) Q
    else some Q
  else some Q

/-! ### `relaxation/analytic.cpp` -/

/-- `pos`, analytic.cpp:11. -/
def pos (x : ℝ) : ℝ := max 0 x

/-- `analyticSolver_body_forces`, analytic.cpp:13-15. -/
def bodyForces (P : Par) (dt : ℝ) (Q : St) : St := addSeg 2 (fun i => P.δp i * dt) Q

/-- `c` of analytic.cpp:33-35. -/
def cSolid (a b : ℝ) : ℝ :=
  108 * a - 324 * b + 108 * a * a - 396 * a * b + 297 * b * b - 24 * (a * a * b - 2 * a * b * b + b * b * b) -
    4 * (a - b) ^ 4

/-- The denominator of `λ`, analytic.cpp:39-43. -/
def dSolid (a b : ℝ) : ℝ :=
  18 * a - 36 * b + 9 * a * a - 132 / 5 * a * b + 33 / 2 * b * b - 8 / 7 * a * a * b + 2 * a * b * b -
    8 / 9 * b * b * b - a ^ 4 / 6 + 16 / 27 * a * a * a * b - 4 / 5 * a * a * b * b + 16 / 33 * a * b * b * b - b ^ 4 / 9

/-- `c` of analytic.cpp:50-52. -/
def cFluid (a b : ℝ) : ℝ :=
  108 * a - 324 * b + 180 * a * a - 612 * a * b + 459 * b * b - 24 * (a * a * b - 2 * a * b * b + b * b * b) -
    4 * (a - b) ^ 4

/-- The denominator of `λ`, analytic.cpp:56-60. -/
def dFluid (a b : ℝ) : ℝ :=
  18 * a - 36 * b + 15 * a * a - 204 / 5 * a * b + 51 / 2 * b * b - 8 / 7 * a * a * b + 2 * a * b * b -
    8 / 9 * b * b * b - a ^ 4 / 6 + 16 / 27 * a * a * a * b - 4 / 5 * a * a * b * b + 16 / 33 * a * b * b * b - b ^ 4 / 9

/-- `nondimensionalized_time`, analytic.cpp:17-69; NaN if a denominator vanishes or a logarithm or square root has no
real value. -/
def nondimTime (P : Par) (ρ detA3 m0 u0 dt : ℝ) : Option ℝ :=
  if P.powerLaw then
    let cs := cs2 P.toParams ρ
    let a := 9 * m0 - u0 - 9
    let b := 6 * m0 - u0 - 6
    if P.solid then
      let c := cSolid a b
      if c ≤ 0 then some 0
      else if dSolid a b = 0 ∨ P.n = 0 ∨ P.τ0 = 0 ∨ P.σY = 0 then none
      else
        let lam := c / dSolid a b
        let tmp1 := P.n * lam / P.τ0 * detA3 ^ (4 * P.n + 7)
        match powN (Real.sqrt c * ρ * cs / (6 * P.σY)) P.n with
        | none => none
        | some tmp2 => if tmp1 * tmp2 * dt + 1 ≤ 0 then none
          else some (2 / (P.n * lam) * Real.log (tmp1 * tmp2 * dt + 1))
    else
      let k := (1 - P.n) / P.n
      let c := cFluid a b
      if c ≤ 0 then some 0
      else if dFluid a b = 0 ∨ P.n = 0 ∨ k = 0 ∨ P.μ ≤ 0 ∨ P.ρ0 * P.b02 = 0 then none
      else
        let lam := c / dFluid a b
        let τ1 := 6 * P.μ ^ (1 / P.n) / (P.ρ0 * P.b02)
        let tmp1 := k * lam / τ1 * detA3 ^ (4 * k + 7)
        match powN (Real.sqrt c * ρ * cs / (6 * Real.sqrt 3)) k with
        | none => none
        | some tmp2 => if tmp1 * tmp2 * dt + 1 ≤ 0 then none
          else some (2 / (k * lam) * Real.log (tmp1 * tmp2 * dt + 1))
  else if P.μ = 0 then none
  else some (P.ρ0 * P.b02 * detA3 ^ (7 : ℝ) / (3 * P.μ) * dt)

/-- `x1`, analytic.cpp:100-113. -/
def firstRoot (m u : ℝ) : ℝ :=
  let Δ := -2 * m * m * m + m * u + 2
  let arg1 := pos (6 * u * u * u - 81 * Δ * Δ)
  if |Δ| < 1e-12 then Real.sqrt (6 * u) / 3 * Real.cos (Real.pi / 6) + m
  else if arg1 = 0 then
    let tmp := cbrt (54 * Δ)
    tmp / 6 + u / tmp + m
  else
    let θ := Real.arctan (Real.sqrt arg1 / (9 * Δ))
    Real.sqrt (6 * u) / 3 * Real.cos (θ / 3) + m

/-- `x2`, analytic.cpp:114-116. -/
def secondRoot (m x1 : ℝ) : ℝ :=
  let tmp2 := 3 * m - x1
  let arg2 := pos (x1 * tmp2 * tmp2 - 4)
  0.5 * (Real.sqrt (arg2 / x1) + tmp2)

/-- `x[2]`, `x[1]`, `x[0]` after `std::sort`, analytic.cpp:119-120. -/
def sortDown (x1 x2 x3 : ℝ) : V3 :=
  ![max (max x1 x2) x3, max (min x1 x2) (min (max x1 x2) x3), min (min x1 x2) x3]

/-- The squares of the new singular values, analytic.cpp:100-120, from the mean `m` and the spread `u`; `none` if one of
them is not a number or its square root is not.  `x1 = 0` makes `arg2 / x1` NaN, `x2 = 0` makes `x3` infinite.  For
negative `x1` the quotient `arg2 / x1` is zero. -/
def squares (m u : ℝ) : Option V3 :=
  let x1 := firstRoot m u
  let x2 := secondRoot m x1
  let x3 := 1 / (x1 * x2)
  if x1 = 0 ∨ x2 = 0 then none
  else if x1 < 0 ∨ x2 < 0 ∨ x3 < 0 then none
  else some (sortDown x1 x2 x3)

/-- `m` after the nondimensional time `τ`, analytic.cpp:92-97. -/
def meanAt (m0 u0 τ : ℝ) : ℝ :=
  let a := 3 * m0 - u0 / 3 - 3
  let b := 2 * m0 - u0 / 3 - 2
  1 + a * Real.exp (-6 * τ) - b * Real.exp (-9 * τ)

/-- `u` after the nondimensional time `τ` before it is cut off at zero, analytic.cpp:98. -/
def spreadAt (m0 u0 τ : ℝ) : ℝ :=
  let a := 3 * m0 - u0 / 3 - 3
  let b := 2 * m0 - u0 / 3 - 2
  6 * a * Real.exp (-6 * τ) - 9 * b * Real.exp (-9 * τ)

/-- analytic.cpp:92-120. -/
def newSquares (m0 u0 τ : ℝ) : Option V3 := squares (meanAt m0 u0 τ) (pos (spreadAt m0 u0 τ))

/-- The invariants `m0` and `u0`, analytic.cpp:78-87.  For a singular distortion the code gets NaN and leaves the state
alone; here `u0` is then 0. -/
def invariants (s : V3) : ℝ × ℝ :=
  let detA1_3 := cbrt (s 0 * s 1 * s 2)
  let detA2_3 := detA1_3 * detA1_3
  let s0 := s 0 * s 0 / detA2_3
  let s1 := s 1 * s 1 / detA2_3
  let s2 := s 2 * s 2 / detA2_3
  ((s0 + s1 + s2) / 3, ((s0 - s1) * (s0 - s1) + (s1 - s2) * (s1 - s2) + (s2 - s0) * (s2 - s0)) / 3)

/-- `analyticSolver_distortion`, analytic.cpp:71-128, on the matrix; `(U, s, W)` is Eigen's decomposition. -/
def relaxA (P : Par) (U W : M3) (s : V3) (dt : ℝ) (A : M3) : Option M3 :=
  let detA := s 0 * s 1 * s 2
  let ρ := detA * P.ρ0
  let detA1_3 := cbrt detA
  let i := invariants s
  if i.2 ≥ 1e-12 then
    match nondimTime P ρ detA1_3 i.1 i.2 dt with
    | none => none
    | some τ => (newSquares i.1 i.2 τ).map fun x =>
        U * (Matrix.of fun j k => W.transpose j k * (detA1_3 * Real.sqrt (x j)))
  else some A

/-- `analyticSolver_distortion` on the state. -/
def relaxDistortion (P : Par) (svd : M3 → M3 × V3 × M3) (dt : ℝ) (Q : St) : Option St :=
  let d := svd (getA Q)
  (relaxA P d.1 d.2.2 d.2.1 dt (getA Q)).map fun A => setA A Q

/-- `analyticSolver_thermal`, analytic.cpp:130-150.  `κ`, `cv` and `c1` are assumed nonzero and `den` positive by the
theorems. -/
def relaxThermal (P : Par) (dt : ℝ) (Q : St) : St :=
  let ρ := Q 0
  let E := Q 1 / ρ
  let c1 := E - E2A P.toParams ρ (getA Q) - E3 (vel Q)
  let c2 := P.cα2 / 2
  let k := 2 * P.cα2 / (P.κ * ρ * P.cv)
  let c1 := c1 * k
  let c2 := c2 * k
  let ea := Real.exp (-c1 * dt / 2)
  let den := 1 - c2 / c1 * (1 - ea * ea) * sq3 (getRJ Q) / (ρ * ρ)
  setSeg 14 (fun i => getRJ Q i * (ea / Real.sqrt den)) Q

/-- `ode_stepper_analytic`, analytic.cpp:152-162. -/
def odeAnalytic (c : Cfg) (P : Par) (svd : M3 → M3 × V3 × M3) (dt : ℝ) (Q : St) : Option St := do
  let Q := bodyForces P dt Q
  let Q ← if c.viscous then relaxDistortion P svd dt Q else some Q
  return if c.thermal then relaxThermal P dt Q else Q

/-! ### `solvers/split/ode.cpp` -/

/-- One pass of the loop of `ode_launcher`, ode.cpp:8-9. -/
def odeCell (c : Cfg) (P : Par) (svd : M3 → M3 × V3 × M3) (steps fuel : Nat) (dt : ℝ) (Q : St) : Option St :=
  (odeAnalytic c P svd dt Q).bind fun Q => odeNumerical c P steps fuel dt Q

/-- `ode_launcher`, ode.cpp:5-11, on an array of `ncell` cells; `none` if some cell becomes NaN, throws or does not end. -/
def odeLauncher (c : Cfg) (P : Par) (svd : M3 → M3 × V3 × M3) (steps fuel : Nat) (dt : ℝ) (ncell : Nat) (u : Mem) :
    Option Mem :=
  (List.range ncell).foldlM (fun u (i : Nat) => (odeCell c P svd steps fuel dt (view c u i)).map fun Q =>
    fun k => if i * c.V ≤ k ∧ k < i * c.V + c.V then Q (k - i * c.V) else u k) u

end

end Verif.Relax
