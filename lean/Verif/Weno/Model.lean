import Verif.Basis.Model
import Mathlib.LinearAlgebra.Matrix.NonsingularInverse
import Mathlib.Data.Real.Basic

/-!
# Model of `src/solvers/weno/weno.cpp`, `weno_matrices.cpp` and the tables of `etc/globals.cpp`

Every step of the reconstruction treats the `V` variables independently (the weight of variable `i` is
computed from column `i`), so the model follows one variable: a row of a matrix is one real number.
`n` is the compile-time `N`.  Reals stand for doubles.  `0/0` in the last division (no stencil active)
is the explicit parameter `undef`.
-/

namespace Verif.Weno

open Verif.Poly

/-- `FN2`, globals.h:11. -/
def fn2 (n : Nat) : Nat := (n - 1) / 2

/-- `CN2`, globals.h:12 (the ceiling of `(N-1)/2`). -/
def cn2 (n : Nat) : Nat := (n - 1 + 1) / 2

/-- An entry of a coefficient matrix, weno_matrices.cpp:16-20: `Pj.eval(i-s+1) - Pj.eval(i-s)`, with
`s` = `N-1`, `0`, `CN2`, `FN2` for `mL`, `mR`, `mCL`, `mCR`. -/
noncomputable def coefMat {n : Nat} (basis : Fin n → List ℝ) (s : Nat) : Matrix (Fin n) (Fin n) ℝ := fun i j =>
  let Pj := integrate (basis j)
  evaluate Pj ((((i : Nat) : ℤ) - s + 1 : ℤ) : ℝ) - evaluate Pj ((((i : Nat) : ℤ) - s : ℤ) : ℝ)

/-- One pass of the inner loop of `oscillation_indicator`, weno_matrices.cpp:36-40. -/
noncomputable def oscStep {n : Nat} (basis : Fin n → List ℝ) (i j : Fin n) (ret : ℝ) (a : Nat) : Option ℝ := do
  let pi ← diff a (basis i)
  let pj ← diff a (basis j)
  let p ← multiply pi pj
  let P := integrate p
  some (ret + (evaluate P 1 - evaluate P 0))

/-- `oscillation_indicator`, weno_matrices.cpp:31-42.  `MatN_N ret;` is not initialised before `+=`:
`garbage` is what it holds. -/
noncomputable def oscillationIndicator {n : Nat} (garbage : Matrix (Fin n) (Fin n) ℝ) (basis : Fin n → List ℝ)
    (i j : Fin n) : Option ℝ :=
  ((List.range (n - 1)).map (· + 1)).foldlM (oscStep basis i j) (garbage i j)

/-- The global tables used by the reconstruction, and the constants of `options.h`. -/
structure Tables (n : Nat) where
  /-- `mLinv`, or the solver `ML` when `N > 4` (globals.cpp:31-39) -/
  mLinv : Matrix (Fin n) (Fin n) ℝ
  mRinv : Matrix (Fin n) (Fin n) ℝ
  mCLinv : Matrix (Fin n) (Fin n) ℝ
  mCRinv : Matrix (Fin n) (Fin n) ℝ
  /-- `SIG` -/
  sig : Matrix (Fin n) (Fin n) ℝ
  /-- `LAMS`, `LAMC`, `EPS` -/
  lamS : ℝ
  lamC : ℝ
  eps : ℝ

/-- The tables as `globals.cpp:19-40` builds them; Eigen's `inverse()`/`solve` are the exact inverse. -/
noncomputable def mkTables {n : Nat} (basis : Fin n → List ℝ) (sig : Matrix (Fin n) (Fin n) ℝ)
    (lamS lamC eps : ℝ) : Tables n where
  mLinv := (coefMat basis (n - 1))⁻¹
  mRinv := (coefMat basis 0)⁻¹
  mCLinv := (coefMat basis (cn2 n))⁻¹
  mCRinv := (coefMat basis (fn2 n))⁻¹
  sig := sig
  lamS := lamS
  lamC := lamC
  eps := eps

/-- `data.block<N, V>(b, 0)`. -/
def block {n : Nat} (data : Nat → ℝ) (b : Nat) : Fin n → ℝ := fun i => data (b + i)

/-- `weight`, weno.cpp:4-15. -/
noncomputable def weight {n : Nat} (T : Tables n) (w : Fin n → ℝ) (lam : ℝ) : ℝ :=
  let tmp := w ⬝ᵥ (T.sig.mulVec w) + T.eps
  let tmp2 := tmp * tmp
  let tmp4 := tmp2 * tmp2
  let den := tmp4 * tmp4
  lam / den

/-- `num += w * o; den += o` under a condition, weno.cpp:54-71. -/
def acc {n : Nat} (cond : Bool) (w : Fin n → ℝ) (o : ℝ) (s : (Fin n → ℝ) × ℝ) : (Fin n → ℝ) × ℝ :=
  if cond then (s.1 + o • w, s.2 + o) else s

/-- Numerator and denominator of `coeffs`, weno.cpp:17-71. -/
noncomputable def coeffsND {n : Nat} (T : Tables n) (data : Nat → ℝ) (nx gap ind : Int) :
    (Fin n → ℝ) × ℝ :=
  let wL := T.mLinv.mulVec (block data 0)
  let wR := T.mRinv.mulVec (block data (n - 1))
  let wCL := T.mCLinv.mulVec (block data (fn2 n))
  let wCR := T.mCRinv.mulVec (block data (cn2 n))
  let s := acc (decide (ind ≥ gap)) wL (weight T wL T.lamS) (0, 0)
  let s := acc (decide (ind ≤ nx - gap - 1)) wR (weight T wR T.lamS) s
  let s := acc (decide (n > 2) && decide (ind + fn2 n ≥ gap)) wCL (weight T wCL T.lamC) s
  acc (decide (n > 2) && (decide (n % 2 = 0) && decide (ind - fn2 n ≤ nx - gap - 1))) wCR
    (weight T wCR T.lamC) s

/-- `coeffs`, weno.cpp:17-73. -/
noncomputable def coeffs {n : Nat} (T : Tables n) (undef : ℝ) (data : Nat → ℝ) (nx gap ind : Int) :
    Fin n → ℝ :=
  let s := coeffsND T data nx gap ind
  if s.2 = 0 then fun _ => undef else fun k => s.1 k / s.2

/-- `weno1`, weno.cpp:75-81: row `i*N + k` of `wh`, `i < nx`. -/
noncomputable def weno1 {n : Nat} (T : Tables n) (undef : ℝ) (ub : Nat → ℝ) (nx : Nat) (gap : Int)
    (i : Nat) : Fin n → ℝ :=
  coeffs T undef (fun r => ub (i + r)) nx gap i

/-- First double loop of `weno2`, weno.cpp:88-105: writes to `ux`.  `ubMap` has rows
`j + r*(ny + 2(N-1))`; entry `(i, k)` of `tmp0Map` goes to `j*N + i*(ny + 2(N-1))*N + k`. -/
noncomputable def weno2x {n : Nat} (T : Tables n) (undef : ℝ) (noCorners : Bool) (ub : Nat → ℝ)
    (nx ny : Nat) (ux0 : Nat → ℝ) : Nat → ℝ :=
  ((List.range (ny + 2 * (n - 1))).flatMap fun j => (List.range nx).flatMap fun i =>
    (List.finRange n).map fun k => (j, i, k)).foldl
    (fun ux (t : Nat × Nat × Fin n) =>
      let gap : Int := if noCorners && (decide (t.1 < n) || decide (t.1 + n ≥ ny + 2 * (n - 1))) then n else 0
      Function.update ux (t.1 * n + t.2.1 * (ny + 2 * (n - 1)) * n + t.2.2)
        (weno1 T undef (fun r => ub (t.1 + r * (ny + 2 * (n - 1)))) nx gap t.2.1 t.2.2)) ux0

/-- Second double loop of `weno2`, weno.cpp:107-121: reads `ux` at `(i*(ny+2(N-1))*N + ii) + r*N` and
writes entry `(j, k)` of `tmp1Map` to `(i*ny*N + ii)*N + j*N*N + k` of `wh`. -/
noncomputable def weno2y {n : Nat} (T : Tables n) (undef : ℝ) (noCorners : Bool) (ux : Nat → ℝ)
    (nx ny : Nat) (wh0 : Nat → ℝ) : Nat → ℝ :=
  ((List.range nx).flatMap fun i => (List.finRange n).flatMap fun ii => (List.range ny).flatMap fun j =>
    (List.finRange n).map fun k => (i, ii, j, k)).foldl
    (fun wh (t : Nat × Fin n × Nat × Fin n) =>
      let gap : Int := if noCorners && (decide (t.1 = 0) || decide (t.1 + 1 = nx)) then 1 else 0
      Function.update wh ((t.1 * ny * n + t.2.1) * n + t.2.2.1 * n * n + t.2.2.2)
        (weno1 T undef (fun r => ux ((t.1 * (ny + 2 * (n - 1)) * n + t.2.1) + r * n)) ny gap
          t.2.2.1 t.2.2.2)) wh0

/-- `weno2`, weno.cpp:83-124 (`ux0` is the fresh storage of `ux`). -/
noncomputable def weno2 {n : Nat} (T : Tables n) (undef : ℝ) (noCorners : Bool) (ub : Nat → ℝ)
    (nx ny : Nat) (ux0 wh0 : Nat → ℝ) : Nat → ℝ :=
  weno2y T undef noCorners (weno2x T undef noCorners ub nx ny ux0) nx ny wh0

end Verif.Weno
