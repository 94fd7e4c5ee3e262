import Verif.Eig.Model
import Verif.Rot.Model
import Verif.Relax.Model
import Mathlib.LinearAlgebra.Matrix.NonsingularInverse

/-!
# Model of `src/system/multi/{conditions,eigenvecs,riemann}.cpp`

Real arithmetic; `none` stands for a state with a NaN in it.  An inverse of a singular matrix, a root of a negative number
and a quotient by zero give NaN.  Only configurations with distortion are modelled.
-/

namespace Verif.Riemann

open Verif.Sys Verif.Eig Verif.Rot

noncomputable section

attribute [local instance] Classical.propDecidable

/-- `n1`, eigenvecs.h:7. -/
def n1 (c : Cfg) : Nat := 3 + (if c.thermal then 1 else 0)

theorem three_le (c : Cfg) : 3 ≤ n1 c := by unfold n1; omega

theorem n1_le (c : Cfg) : n1 c ≤ 4 := by unfold n1; split_ifs <;> omega

/-- Eigen's solvers: `colPivHouseholderQr().solve`, and the real parts of what `EigenSolver` returns. -/
structure Solvers where
  solve : Matrix (Fin 5) (Fin 5) ℝ → (Fin 5 → ℝ) → Fin 5 → ℝ
  evec : (k : Nat) → Matrix (Fin k) (Fin k) ℝ → Matrix (Fin k) (Fin k) ℝ
  eval : (k : Nat) → Matrix (Fin k) (Fin k) ℝ → Fin k → ℝ

/-- What they are documented to do: solve regular systems, and diagonalise matrices that can be diagonalised over the
reals. -/
structure Solvers.Ok (S : Solvers) : Prop where
  solve : ∀ (M : Matrix (Fin 5) (Fin 5) ℝ) b, M.det ≠ 0 → M.mulVec (S.solve M b) = b
  eigen : ∀ k (M : Matrix (Fin k) (Fin k) ℝ), (∃ (W : Matrix (Fin k) (Fin k) ℝ) (d : Fin k → ℝ), W.det ≠ 0 ∧
    M * W = W * Matrix.diagonal d) → (S.evec k M).det ≠ 0 ∧ M * S.evec k M = S.evec k M * Matrix.diagonal (S.eval k M)

/-- `Xi1` and `Xi2` of the size they are returned with, eig.cpp:8-53, along the first axis. -/
def X1 (c : Cfg) (P : Par) (Q : St) : Matrix (Fin (n1 c)) (Fin 5) ℝ := (xi1 c P Q 0).submatrix (Fin.castLE (n1_le c)) id

def X2 (c : Cfg) (P : Par) (Q : St) : Matrix (Fin 5) (Fin (n1 c)) ℝ := (xi2 c P Q 0).submatrix id (Fin.castLE (n1_le c))

/-- `B`, riemann.cpp:116-119. -/
def matB (c : Cfg) (P : Par) (Q : St) : Matrix (Fin 2) (Fin 3) ℝ :=
  Matrix.of ![fun j => if j = 0 then Q 0 else 0, fun j =>
    sigmaCol P.toParams Q 0 j - Q 0 * dsigmadrho P.toParams Q 0 j + if j = 0 then Q 0 * c0 c P Q * c0 c P Q else 0]

/-- `rhs`, riemann.cpp:121-122. -/
def rhs (P : Par) (Q : St) : Matrix (Fin 3) (Fin 2) ℝ :=
  Matrix.of fun i j => if j = 0 then -dsigmadrho P.toParams Q 0 i else if i = 0 then 1 else 0

/-- `Z`, riemann.cpp:123-128. -/
def matZ (c : Cfg) (P : Par) (Q : St) : Matrix (Fin 2) (Fin 2) ℝ :=
  1 - matB c P Q * (getA Q)⁻¹ * ((dsigmadAd P.toParams Q 0)⁻¹ * rhs P Q)

/-- `W`, riemann.cpp:129-130. -/
def matW (c : Cfg) (P : Par) (Q : St) : Matrix (Fin 2) (Fin 5) ℝ :=
  Matrix.of fun i j => if hj : 2 ≤ j.1 then -(matB c P Q * (getA Q)⁻¹) i ⟨j - 2, by omega⟩
    else if i.1 = j.1 then 1 else 0

/-- `tmp`, riemann.cpp:102-132. -/
def system (c : Cfg) (P : Par) (Q : St) : Matrix (Fin 5) (Fin 5) ℝ :=
  Matrix.of fun i j =>
    if hi : i.1 < 3 then
      if j = 0 then -dsigmadrho P.toParams Q 0 ⟨i, hi⟩
      else if hj : 2 ≤ j.1 then -dsigmadAd P.toParams Q 0 ⟨i, hi⟩ ⟨j - 2, by omega⟩
      else if i = 0 then 1 else 0
    else if c.thermal then
      if i = 3 then
        if j = 0 then dTdrho P.toParams (Q 0) (pressure c P Q) else if j = 1 then dTdp P.toParams (Q 0) else 0
      else if j = 0 then -1 / Q 0
      else if hj : 2 ≤ j.1 then (getA Q)⁻¹ 0 ⟨j - 2, by omega⟩ else 0
    else ((matZ c P Q)⁻¹ * matW c P Q) ⟨i - 3, by omega⟩ j

/-- The first `n1` columns of `Rhat`: rows 0-4 and rows 11 to `11 + n1`.  The other rows are zero, and the other columns are
only ever multiplied by zero. -/
structure Hat (c : Cfg) where
  top : Matrix (Fin 5) (Fin (n1 c)) ℝ
  vel : Matrix (Fin (n1 c)) (Fin (n1 c)) ℝ

/-- `Π1` of `eigen`, eigenvecs.cpp:21-32, which takes `b02` where the constraints take `c_s2`. -/
def pi1 (P : Par) (Q : St) : M3 := Matrix.of fun i j =>
  dsigmadA (Q 0) P.b02 (getA Q) ((getA Q).transpose * getA Q) (AdevG (getA Q)) 0 i j 0

/-- No NaN arises in `riemann_constraints` and `eigen`. -/
structure Defined (c : Cfg) (P : Par) (S : Solvers) (Q : St) : Prop where
  dens : Q 0 ≠ 0
  shear : cs2 P.toParams (Q 0) ≠ 0
  energy : dEdp c P Q ≠ 0
  sound : 0 ≤ (pressure c P Q / (Q 0 * Q 0) - dEdrho c P Q) / dEdp c P Q
  dist : (getA Q).det ≠ 0
  stress : (pi1 P Q).det ≠ 0
  plain : c.thermal = false → (dsigmadAd P.toParams Q 0).det ≠ 0 ∧ (matZ c P Q).det ≠ 0
  heat : c.thermal = true → P.cv ≠ 0 ∧ dTdp P.toParams (Q 0) ≠ 0 ∧
    0 ≤ P.cα2 * temperatureMG P.toParams (Q 0) (pressure c P Q) / P.cv ∧
    ((pi1 P Q * getA Q)⁻¹).mulVec (fun i => dTdp P.toParams (Q 0) * dsigmadrho P.toParams Q 0 i +
      if i = 0 then dTdrho P.toParams (Q 0) (pressure c P Q) else 0) 0 + dTdp P.toParams (Q 0) / Q 0 ≠ 0
  speeds : ∀ i, 0 < S.eval (n1 c) (X1 c P Q * X2 c P Q) i
  basis : (S.evec (n1 c) (X1 c P Q * X2 c P Q)).det ≠ 0

/-- `Y0`, riemann.cpp:141-146. -/
def Y0 (c : Cfg) (P : Par) (S : Solvers) (Q : St) : Matrix (Fin (n1 c)) (Fin (n1 c)) ℝ :=
  let Ξ := X1 c P Q * X2 c P Q
  S.evec (n1 c) Ξ * Matrix.diagonal (fun i => Real.sqrt (S.eval (n1 c) Ξ i)⁻¹) * (S.evec (n1 c) Ξ)⁻¹

/-- `X`, riemann.cpp:134-135. -/
def matX (c : Cfg) (P : Par) (S : Solvers) (Q : St) : Matrix (Fin 5) (Fin (n1 c)) ℝ :=
  Matrix.of fun i j => S.solve (system c P Q) (fun r => if r.1 = j.1 then 1 else 0) i

/-- `riemann_constraints`, riemann.cpp:79-154, and `eigen`, eigenvecs.cpp:10-83. -/
def constraints (c : Cfg) (P : Par) (S : Solvers) (sgn : ℝ) (Q : St) : Option (Hat c) :=
  if Defined c P S Q then
    some ⟨matX c P S Q, -sgn • (Y0 c P S Q * X1 c P Q * matX c P S Q)⟩
  else none

/-- `xL` and `xR`, riemann.cpp:163-166 and 171-174. -/
def tractions (c : Cfg) (P : Par) (Q : St) : Fin (n1 c) → ℝ := fun i =>
  if h : i.1 < 3 then SigmaCol c P Q 0 ⟨i, h⟩ else temperature c P Q

/-- `yL` and `yR` of `stick_bcs`, conditions.cpp:14-27. -/
def velocities (c : Cfg) (Q : St) : Fin (n1 c) → ℝ := fun i =>
  if h : i.1 < 3 then vel Q ⟨i, h⟩ else Q 14 / Q 0

/-- `stick_bcs`, conditions.cpp:7-29. -/
def stickBcs (c : Cfg) (RL RR : Hat c) (QL QR : St) (xL xR : Fin (n1 c) → ℝ) : Option (Fin (n1 c) → ℝ) :=
  if (RL.vel - RR.vel).det = 0 then none
  else some ((RL.vel - RR.vel)⁻¹.mulVec
    (velocities c QR - velocities c QL + RL.vel.mulVec xL - RR.vel.mulVec xR))

/-- The first row of the velocity block. -/
def row0 (c : Cfg) (R : Hat c) : Fin (n1 c) → ℝ := R.vel ⟨0, by have := three_le c; omega⟩

/-- The row of the thermal impulse, which is there if `THERMAL` is set. -/
def rowJ (c : Cfg) (R : Hat c) : Fin (n1 c) → ℝ := R.vel ⟨n1 c - 1, by have := three_le c; omega⟩

/-- `slip_bcs`, conditions.cpp:31-64.  With `THERMAL` both values are streamed into `YL`; `junk` is what the storage of `YR`
holds. -/
def slipBcs (c : Cfg) (junk : Fin 2 → Fin (n1 c) → ℝ) (RL RR : Hat c) (QL QR : St) (xL xR : Fin (n1 c) → ℝ) :
    Option (Fin (n1 c) → ℝ) :=
  if c.thermal then
    let YL : Matrix (Fin 2) (Fin (n1 c)) ℝ := Matrix.of ![row0 c RR, rowJ c RR]
    let YR : Matrix (Fin 2) (Fin (n1 c)) ℝ := Matrix.of junk
    let yL : Fin 2 → ℝ := ![QL 2 / QL 0, QL 14 / QL 0]
    let yR : Fin 2 → ℝ := ![QR 2 / QR 0, QR 14 / QR 0]
    let M : Matrix (Fin 2) (Fin 2) ℝ := Matrix.of fun i j =>
      let k : Fin (n1 c) := if j = 0 then ⟨0, by have := three_le c; omega⟩ else ⟨n1 c - 1, by have := three_le c; omega⟩
      YL i k - YR i k
    if M.det = 0 then none
    else
      let t := M⁻¹.mulVec (yR - yL + YL.mulVec xL - YR.mulVec xR)
      some fun i => if i.1 = 0 then t 0 else if i.1 = 3 then t 1 else 0
  else
    if row0 c RL ⟨0, by have := three_le c; omega⟩ - row0 c RR ⟨0, by have := three_le c; omega⟩ = 0 then none
    else some fun i => if i.1 = 0 then
        (QR 2 / QR 0 - QL 2 / QL 0 + dotProduct (row0 c RL) xL - dotProduct (row0 c RR) xR) /
          (row0 c RL ⟨0, by have := three_le c; omega⟩ - row0 c RR ⟨0, by have := three_le c; omega⟩)
      else 0

/-- `R * c + Pvec`, riemann.cpp:187-188 and 198-199. -/
def move (c : Cfg) (R : Hat c) (x : Fin (n1 c) → ℝ) (P : St) : St := fun i =>
  if h : i < 5 then P i + R.top.mulVec x ⟨i, h⟩
  else if h : 11 ≤ i ∧ i < 11 + n1 c then P i + R.vel.mulVec x ⟨i - 11, by omega⟩
  else P i

/-- The new state of one side, riemann.cpp:187-189 and 198-200.  If the new density is zero the C code stores a NaN as the
energy. -/
def shift (c : Cfg) (P : Par) (R : Hat c) (x : Fin (n1 c) → ℝ) (Q : St) : St :=
  pvecToCvec c P (move c R x (cvecToPvec c P Q))

/-- `cL` next to a vacuum, riemann.cpp:191-195. -/
def vacuumStep (c : Cfg) (R : Hat c) (Q : St) (xL : Fin (n1 c) → ℝ) : Option (Fin (n1 c) → ℝ) :=
  if c.thermal then
    if rowJ c R ⟨n1 c - 1, by have := three_le c; omega⟩ = 0 then none
    else some fun i => if i.1 < 3 then -xL i
      else (∑ j : Fin 3, rowJ c R (j.castLE (three_le c)) * xL (j.castLE (three_le c)) - Q 14 / Q 0) /
        rowJ c R ⟨n1 c - 1, by have := three_le c; omega⟩
  else some fun i => -xL i

/-- `star_stepper`, riemann.cpp:156-201.  `PR = none` is a vacuum on the right. -/
def starStepper (c : Cfg) (stick : Bool) (S : Solvers) (junk : Fin 2 → Fin (n1 c) → ℝ) (PL : Par) (PR : Option Par)
    (s : St × St) : Option (St × St) :=
  (constraints c PL S 1 s.1).bind fun RL =>
    match PR with
    | some PR =>
      (constraints c PR S (-1) s.2).bind fun RR =>
        (if stick then stickBcs c RL RR s.1 s.2 (tractions c PL s.1) (tractions c PR s.2)
          else slipBcs c junk RL RR s.1 s.2 (tractions c PL s.1) (tractions c PR s.2)).map fun x =>
        (shift c PL RL (x - tractions c PL s.1) s.1, shift c PR RR (x - tractions c PR s.2) s.2)
    | none => (vacuumStep c RL s.1 (tractions c PL s.1)).map fun x => (shift c PL RL x s.1, fun _ => 0)

/-- `q_dims`, riemann.cpp:17-24. -/
def qDims (P : Par) : ℝ := P.cα2 / P.ρ0 * P.T0 * Real.sqrt (P.T0 / P.cv)

/-- `a / b < STAR_TOL`; a quotient by zero is infinite or NaN. -/
def small (tol a b : ℝ) : Prop := b ≠ 0 ∧ a / b < tol

/-- `heat_flux` along the first axis, state.cpp. -/
def heatFlux0 (c : Cfg) (P : Par) (Q : St) : ℝ := P.cα2 * temperature c P Q * (Q 14 / Q 0)

/-- `check_star_convergence`, riemann.cpp:26-77.  A state without density has NaN for its pressure and its velocity, and a
comparison with NaN is false. -/
def converged (c : Cfg) (stick : Bool) (tol : ℝ) (PL : Par) (PR : Option Par) (s : St × St) : Prop :=
  (s.1 0 ≠ 0 ∧ (PR.isSome = true → s.2 0 ≠ 0)) ∧
  (match PR with
    | some PR =>
      let ρ0 := min PL.ρ0 PR.ρ0
      let b02 := min PL.b02 PR.b02
      if stick then (∀ i, small tol |SigmaCol c PL s.1 0 i - SigmaCol c PR s.2 0 i| (b02 * ρ0)) ∧
        ∀ i, small tol |vel s.1 i - vel s.2 i| (Real.sqrt b02)
      else small tol |SigmaCol c PL s.1 0 0 - SigmaCol c PR s.2 0 0| (b02 * ρ0) ∧
        small tol |vel s.1 0 - vel s.2 0| (Real.sqrt b02)
    | none => ∀ i, small tol |SigmaCol c PL s.1 0 i| (PL.b02 * PL.ρ0)) ∧
  (c.thermal = true → match PR with
    | some PR => small tol |heatFlux0 c PL s.1 - heatFlux0 c PR s.2| (min (qDims PL) (qDims PR)) ∧
        small tol |temperature c PL s.1 - temperature c PR s.2| (min PL.T0 PR.T0)
    | none => small tol |heatFlux0 c PL s.1| (qDims PL))

/-! ### `left_star_state` -/

/-- The loop of `left_star_state`, riemann.cpp:216-226, over any kind of states: how often the body ran, and the states at
the end; `none` if it did not end within `fuel` tests. -/
def starLoop {α : Type} (check : α → Prop) (body : α → α) : Nat → Nat → α → Option (Nat × α)
  | 0, _, _ => none
  | fuel + 1, count, s => if ¬ check s ∧ count < 10 then starLoop check body fuel (count + 1) (body s) else some (count, s)

/-- `left_star_state`, riemann.cpp:203-233, over any kind of states.  `rot` and `back` are the rotations, `nan` is the test of
line 227. -/
def leftStarOf {α : Type} (rot back : α → α) (nan : α → Prop) (check : α × α → Prop) (body : α × α → α × α) (fuel : Nat)
    (QL QR : α) : Option (Nat × α) :=
  (starLoop check body fuel 0 (rot QL, rot QR)).map fun r => (r.1, if nan r.2.1 then QL else back r.2.1)

/-- One pass of the loop, riemann.cpp:218-223. -/
def body (c : Cfg) (stick relax : Bool) (S : Solvers) (svd : M3 → M3 × V3 × M3) (junk : Fin 2 → Fin (n1 c) → ℝ)
    (PL : Par) (PR : Option Par) (dt : ℝ) (s : St × St) : Option (St × St) :=
  (if relax then
      (Relax.odeAnalytic c PL svd (dt / 2) s.1).bind fun QL =>
        (match PR with
          | some PR => Relax.odeAnalytic c PR svd (dt / 2) s.2
          | none => some s.2).map fun QR => (QL, QR)
    else some s).bind (starStepper c stick S junk PL PR)

/-- The real states behind a pair; a pair with a NaN stays one. -/
def pair (s : Option St × Option St) : Option (St × St) := s.1.bind fun a => s.2.map fun b => (a, b)

def unpair (s : Option (St × St)) : Option St × Option St := (s.map Prod.fst, s.map Prod.snd)

/-- `left_star_state`, riemann.cpp:203-233. -/
def leftStar (c : Cfg) (stick relax : Bool) (tol : ℝ) (S : Solvers) (svd : M3 → M3 × V3 × M3)
    (junk : Fin 2 → Fin (n1 c) → ℝ) (PL : Par) (PR : Option Par) (dt : ℝ) (n : List ℝ) (fuel : Nat) (QL QR : St) :
    Option (Nat × Option St) :=
  leftStarOf (fun Q : Option St => Q.map fun Q => rotateTensors c Q (rotationMatrix n))
    (fun Q => Q.map fun Q => rotateTensors c Q (rotationMatrix n).transpose) (fun Q => Q = none)
    (fun s => ∃ t, pair s = some t ∧ converged c stick tol PL PR t)
    (fun s => unpair ((pair s).bind (body c stick relax S svd junk PL PR dt))) fuel (some QL) (some QR)

end

end Verif.Riemann
