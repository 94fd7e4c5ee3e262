import Verif.Sys.Model
import Mathlib.LinearAlgebra.Matrix.Charpoly.Basic
import Mathlib.Analysis.Complex.Basic
import Mathlib.Data.Multiset.Lattice
import Mathlib.Algebra.Polynomial.Roots

/-!
# Model of `src/system/eig.cpp` and `src/system/waves/speeds.cpp`
-/

namespace Verif.Eig

open Verif.Sys

noncomputable section

/-- `c_0`, speeds.cpp:8-18.  The C square root of a negative number is NaN, here it is `0`; theorems ask for a
non-negative argument. -/
def c0 (c : Cfg) (P : Par) (Q : St) : ℝ :=
  Real.sqrt ((pressure c P Q / (Q 0 * Q 0) - dEdrho c P Q) / dEdp c P Q)

/-- `c_h`, speeds.cpp:20-25. -/
def ch (P : Params) (ρ T : ℝ) : ℝ := Real.sqrt (P.cα2 * T / P.cv) / ρ

/-- `Xi1`, eig.cpp:8-27, before its corner is taken. -/
def xi1 (c : Cfg) (P : Par) (Q : St) (d : Fin 3) : Matrix (Fin 4) (Fin 5) ℝ :=
  let ρ := Q 0
  let p := pressure c P Q
  let r : Matrix (Fin 4) (Fin 5) ℝ := Matrix.of fun i j => if i = 0 ∧ j = 1 then 1 / ρ else 0
  let r : Matrix (Fin 4) (Fin 5) ℝ := if c.viscous then
      Matrix.of fun i j =>
        if hi : i.1 < 3 then
          if j = 0 then -1 / ρ * dsigmadrho P.toParams Q d ⟨i, hi⟩
          else if hj : 2 ≤ j.1 then -1 / ρ * dsigmadAd P.toParams Q d ⟨i, hi⟩ ⟨j - 2, by omega⟩
          else r i j
        else r i j
    else r
  if c.thermal then
    Matrix.of fun i j =>
      if i = 3 ∧ j = 0 then dTdrho P.toParams ρ p / ρ
      else if i = 3 ∧ j = 1 then dTdp P.toParams ρ / ρ else r i j
  else r

/-- `Xi2`, eig.cpp:29-53, before its corner is taken. -/
def xi2 (c : Cfg) (P : Par) (Q : St) (d : Fin 3) : Matrix (Fin 5) (Fin 4) ℝ :=
  let ρ := Q 0
  let p := pressure c P Q
  let r : Matrix (Fin 5) (Fin 4) ℝ := Matrix.of fun i j =>
    if i = 1 ∧ j.1 = d.1 then ρ * c0 c P Q * c0 c P Q else if i = 0 ∧ j = 0 then ρ else 0
  let r : Matrix (Fin 5) (Fin 4) ℝ := if c.viscous then
      Matrix.of fun i j =>
        if hj : j.1 < 3 then
          if i = 1 then r i j + (sigmaCol P.toParams Q d ⟨j, hj⟩ - ρ * dsigmadrho P.toParams Q d ⟨j, hj⟩)
          else if hi : 2 ≤ i.1 then getA Q ⟨i - 2, by omega⟩ ⟨j, hj⟩
          else r i j
        else r i j
    else r
  if c.thermal then
    Matrix.of fun i j =>
      if i = 1 ∧ j = 3 then
        ρ * ch P.toParams ρ (temperatureMG P.toParams ρ p) * ch P.toParams ρ (temperatureMG P.toParams ρ p) /
          dTdp P.toParams ρ
      else r i j
  else r

/-- `Ξ.eigenvalues().array().abs().maxCoeff()`: Eigen's eigenvalues are the complex roots of the characteristic
polynomial. -/
def specMax {n : Type} [Fintype n] [DecidableEq n] (M : Matrix n n ℝ) : ℝ :=
  (((M.map (algebraMap ℝ ℂ)).charpoly.roots.map fun z => ‖z‖₊).sup : NNReal)

/-- `thermo_acoustic_tensor`, eig.cpp:55-64, with `THERMAL`. -/
def tensor4 (c : Cfg) (P : Par) (Q : St) (d : Fin 3) : Matrix (Fin 4) (Fin 4) ℝ := xi1 c P Q d * xi2 c P Q d

/-- `thermo_acoustic_tensor` without `THERMAL`: the factors are `topLeftCorner<3, 5>` and `topLeftCorner<5, 3>`. -/
def tensor3 (c : Cfg) (P : Par) (Q : St) (d : Fin 3) : Matrix (Fin 3) (Fin 3) ℝ :=
  (xi1 c P Q d).submatrix Fin.castSucc id * (xi2 c P Q d).submatrix id Fin.castSucc

/-- `max_abs_eigs`, eig.cpp:66-77. -/
def maxAbsEigs (c : Cfg) (P : Par) (Q : St) (d : Fin 3) : ℝ :=
  let vd := Q (2 + d) / Q 0
  let lam := Real.sqrt (if c.thermal then specMax (tensor4 c P Q d) else specMax (tensor3 c P Q d))
  if vd > 0 then vd + lam else lam - vd

end

end Verif.Eig
