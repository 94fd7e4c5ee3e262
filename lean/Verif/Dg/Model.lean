import Verif.Basis.Model
import Verif.Dg.Kron
import Mathlib.Data.Real.Basic
import Mathlib.LinearAlgebra.Matrix.NonsingularInverse

/-!
# Model of the discontinuous Galerkin predictor: `src/solvers/dg/{dg_matrices,dg1,dg2,initial_guess}.cpp`

`n` is the compile-time `N`, `ι` the index type of the `V` components.  A matrix with one row per
space-time node is a function of the row number; a row is a state `ι → ℝ`.  The physics enters through
`source`, `flux` and `Bdot` only, taken as parameters here (modelled in `Verif.Sys`).  The writes of the
loops go to rows that are each written once per statement, so a row of the result is given by the
statement that writes it, in program order.
-/

namespace Verif.Dg


open Verif.Poly Verif.Basis

variable {n : Nat} {ι : Type}

/-- The functions of `system/equations.h` used by the predictor. -/
structure Sys (ι : Type) where
  flux : Nat → (ι → ℝ) → (ι → ℝ)
  source : (ι → ℝ) → (ι → ℝ)
  /-- `Bdot(ret, q, x, d)` -/
  bdot : Nat → (ι → ℝ) → (ι → ℝ) → (ι → ℝ)

/-- `end_value_products`, dg_matrices.cpp:30-38. -/
noncomputable def endValueProducts (psi : Fin n → List ℝ) : Matrix (Fin n) (Fin n) ℝ :=
  Matrix.of fun i j => evaluate (psi i) 1 * evaluate (psi j) 1

/-- `derivative_products`, dg_matrices.cpp:40-53. -/
noncomputable def derivativeProducts (psi : Fin n → List ℝ) (nodes wghts : Fin n → ℝ) (i j : Fin n) : Option ℝ :=
  if i = j then some ((evaluate (psi i) 1 ^ 2 - evaluate (psi i) 0 ^ 2) / 2)
  else (diff 1 (psi j)).map fun d => wghts i * evaluate d (nodes i)

/-- The global tables of `etc/globals.cpp:26-50` used by the predictor. -/
structure Tab (n : Nat) where
  nodes : Fin n → ℝ
  w : Fin n → ℝ
  psi : Fin n → List ℝ
  /-- `DERVALS` -/
  dervals : Matrix (Fin n) (Fin n) ℝ
  /-- `DG_DER` -/
  der : Matrix (Fin n) (Fin n) ℝ

/-- `ENDVALS`, globals.cpp:28. -/
noncomputable def Tab.endvals (T : Tab n) : Matrix (Fin 2) (Fin n) ℝ := endValues T.psi

/-- `DG_MAT`, globals.cpp:43. -/
noncomputable def Tab.mat (T : Tab n) : Matrix (Fin n) (Fin n) ℝ := endValueProducts T.psi - T.der.transpose

/-- `wghts` and `DG_MAT` as dynamic matrices (globals.cpp:45-48). -/
noncomputable def Tab.wMt (T : Tab n) : Mt ℝ :=
  ⟨n, n, fun i j => if h : i < n then if i = j then T.w ⟨i, h⟩ else 0 else 0⟩

noncomputable def Tab.matMt (T : Tab n) : Mt ℝ :=
  ⟨n, n, fun i j => if h : i < n ∧ j < n then T.mat ⟨i, h.1⟩ ⟨j, h.2⟩ else 0⟩

/-- `DG_U1`, `DG_U2`, globals.cpp:49-50. -/
noncomputable def Tab.u1 (T : Tab n) (junk : Nat → Nat → ℝ) : Option (Mt ℝ) := kron junk [T.matMt, T.wMt]
noncomputable def Tab.u2 (T : Tab n) (junk : Nat → Nat → ℝ) : Option (Mt ℝ) := kron junk [T.matMt, T.wMt, T.wMt]

/-- Contract of `U.solve(b)` for a decomposition of `U` (exact arithmetic). -/
noncomputable def Solves (U : Mt ℝ) (x b : Nat → ι → ℝ) : Prop :=
  ∀ r, r < U.rows → ∀ v, ∑ c ∈ Finset.range U.cols, U.e r c * x c v = b r v

/-! ### One space dimension, dg1.cpp.  Row `t*N + i`. -/

/-- `dq_dx`, dg1.cpp:14-15. -/
noncomputable def dqdx1 (T : Tab n) (q : Nat → ι → ℝ) (dx : ℝ) (t i : Fin n) : ι → ℝ := fun v =>
  (∑ j : Fin n, T.dervals i j * q (t * n + j) v) / dx

/-- `rhs1`, dg1.cpp:8-35, row `t*N + i`. -/
noncomputable def rhs1 (S : Sys ι) (T : Tab n) (q Ww : Nat → ι → ℝ) (dt dx : ℝ) (t i : Fin n) :
    ι → ℝ := fun v =>
  let ret := S.source (q (t * n + i)) v
  let ret := ret - S.bdot 0 (q (t * n + i)) (dqdx1 T q dx t i) v
  let ret := ret * (T.w t * T.w i)
  let ret := ret - T.w t * (∑ j : Fin n, T.der i j * S.flux 0 (q (t * n + j)) v) / dx
  let ret := ret * dt
  ret + Ww (t * n + i) v

/-- `obj1`, dg1.cpp:37-49. -/
noncomputable def obj1 (S : Sys ι) (T : Tab n) (q Ww : Nat → ι → ℝ) (dt dx : ℝ) (t i : Fin n) :
    ι → ℝ := fun v =>
  (List.finRange n).foldl (fun tmp k => tmp - T.mat t k * T.w i * q (k * n + i) v)
    (rhs1 S T q Ww dt dx t i v)

/-- `initial_condition1`, dg1.cpp:51-56 (rows outside the array are irrelevant). -/
noncomputable def initialCondition1 (T : Tab n) (w : Nat → ι → ℝ) : Nat → ι → ℝ := fun r v =>
  if h : r / n < n ∧ r % n < n then T.endvals 0 ⟨r / n, h.1⟩ * T.w ⟨r % n, h.2⟩ * w (r % n) v else 0

/-- `standard_initial_guess1`, initial_guess.cpp:4-8; also what `stiff_initial_guess` does (19-51: the rest
is commented out). -/
def standardInitialGuess1 (n : Nat) (w : Nat → ι → ℝ) : Nat → ι → ℝ := fun r => w (r % n)

/-! ### Two space dimensions, dg2.cpp.  Row `(t*N + i)*N + j`. -/

/-- `dq_dx`, `dq_dy`, dg2.cpp:17-25 (`derivs2d` on the block of time node `t`, then the division). -/
noncomputable def dq2 (T : Tab n) (q : Nat → ι → ℝ) (d : Nat) (h : ℝ) (t i j : Fin n) : ι → ℝ := fun v =>
  derivs2d T.dervals (fun _ => 0) (fun s => q (t * n * n + s) v) d (i * n + j) / h

/-- `rhs2`, dg2.cpp:8-70, row `(t*N + i)*N + j`. -/
noncomputable def rhs2 (S : Sys ι) (T : Tab n) (q Ww : Nat → ι → ℝ) (dt dx dy : ℝ) (t i j : Fin n) :
    ι → ℝ := fun v =>
  let r := (t * n + i) * n + j
  let ret := S.source (q r) v
  let ret := ret - (S.bdot 0 (q r) (dq2 T q 0 dx t i j) v + S.bdot 1 (q r) (dq2 T q 1 dy t i j) v)
  let ret := ret * (T.w t * T.w i * T.w j)
  -- F2.row(r) = WGHTS(r % N) * F.row(r); here row (t*N + k)*N + j
  let ret := (List.finRange n).foldl (fun ret (k : Fin n) =>
    ret - T.w t * T.der i k * (T.w j * S.flux 0 (q ((t * n + k) * n + j)) v) / dx) ret
  -- G2.block = DG_DER * G.block
  let ret := ret - T.w t * T.w i * (∑ k : Fin n, T.der j k * S.flux 1 (q ((t * n + i) * n + k)) v) / dy
  let ret := ret * dt
  ret + Ww r v

/-- `obj2`, dg2.cpp:72-91. -/
noncomputable def obj2 (S : Sys ι) (T : Tab n) (q Ww : Nat → ι → ℝ) (dt dx dy : ℝ) (t i j : Fin n) :
    ι → ℝ := fun v =>
  (List.finRange n).foldl (fun tmp k => tmp - (T.mat t k * T.w i * T.w j) * q ((k * n + i) * n + j) v)
    (rhs2 S T q Ww dt dx dy t i j v)

/-- `initial_condition2`, dg2.cpp:93-102. -/
noncomputable def initialCondition2 (T : Tab n) (w : Nat → ι → ℝ) : Nat → ι → ℝ := fun r v =>
  if h : r / n / n < n ∧ r / n % n < n ∧ r % n < n then
    T.endvals 0 ⟨r / n / n, h.1⟩ * T.w ⟨r / n % n, h.2.1⟩ * T.w ⟨r % n, h.2.2⟩ *
      w ((r / n % n) * n + r % n) v
  else 0

/-- `standard_initial_guess2`, initial_guess.cpp:9-13. -/
def standardInitialGuess2 (n : Nat) (w : Nat → ι → ℝ) : Nat → ι → ℝ := fun r => w (r % (n * n))

/-! ### The iteration of one cell, dg1.cpp:84-111 and dg2.cpp:130-164 -/

/-- What the cell's segment of `qh` holds afterwards: `none` is "never written". `step` is
`U.solve(rhs(·))`, `exceeds q1 q0` the test on line 92, `hasNaN` the test on line 95, `newton` the result
of the fall-back `nonlin_solve`. -/
def iterate {Q : Type} (step : Q → Q) (exceeds : Q → Q → Bool) (hasNaN : Q → Bool) (newton : Q) :
    Nat → Q → Option Q
  | 0, _ => none
  | count + 1, q0 =>
    let q1 := step q0
    if exceeds q1 q0 then iterate step exceeds hasNaN newton count q1
    else if hasNaN q1 then some newton
    else some q1

/-- `predictor1`/`predictor2` for one cell.  The first argument is the cell's mask, `old` the previous
content of `qh`. -/
def predictorCell {Q : Type} (mask stiff : Bool) (DG_IT : Nat) (step : Q → Q) (exceeds : Q → Q → Bool)
    (hasNaN : Q → Bool) (newton guess old : Q) : Q :=
  if mask then
    if stiff then newton else (iterate step exceeds hasNaN newton DG_IT guess).getD old
  else old

open Classical in
/-- The exit test over the reals, dg1.cpp:92: some entry differs by more than `DG_TOL*(1 + |q0|)`. -/
noncomputable def exceedsReal (rows : Nat) (tol : ℝ) (q1 q0 : Nat → ι → ℝ) : Bool :=
  decide (∃ r, r < rows ∧ ∃ v, |q1 r v - q0 r v| > tol * (1 + |q0 r v|))

/-- A double: a real number or NaN (infinities are not distinguished). -/
inductive Num where
  | nan
  | val (x : ℝ)

/-- `absDiff > DG_TOL*(1 + |q0|)` for one component: false if either is NaN. -/
noncomputable def Num.exceeds (tol : ℝ) : Num → Num → Bool
  | .val a, .val b => decide (|a - b| > tol * (1 + |b|))
  | _, _ => false

def Num.isNaN : Num → Bool
  | .nan => true
  | .val _ => false

open Classical in
/-- The exit test with NaN. -/
noncomputable def exceedsNum (rows : Nat) (tol : ℝ) (q1 q0 : Nat → ι → Num) : Bool :=
  decide (∃ r, r < rows ∧ ∃ v, Num.exceeds tol (q1 r v) (q0 r v) = true)

open Classical in
/-- `q1.array().isNaN().any()`, dg1.cpp:95. -/
noncomputable def hasNaN (rows : Nat) (q : Nat → ι → Num) : Bool :=
  decide (∃ r, r < rows ∧ ∃ v, (q r v).isNaN = true)

end Verif.Dg
