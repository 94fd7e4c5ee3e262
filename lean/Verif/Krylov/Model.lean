import Mathlib.Analysis.InnerProductSpace.Basic

/-!
# `scipy/lgmres.cpp`

Vectors are elements of a real inner product space, arithmetic is exact.  Eigen's decompositions are parameters with the
contract they are documented to satisfy.
-/

namespace Verif.Krylov

noncomputable section

attribute [local instance] Classical.propDecidable

open scoped RealInnerProductSpace

variable {E : Type*} [NormedAddCommGroup E] [InnerProductSpace ℝ E]

/-- The contract of `QR.compute(A)`, `QR.householderQ()` and `QR.matrixQR().triangularView<Upper>()` for a matrix with `m`
rows and `k` columns. -/
structure IsQR (qr : Nat → Nat → (Nat → Nat → ℝ) → (Nat → Nat → ℝ) × (Nat → Nat → ℝ)) : Prop where
  col : ∀ m k A a b, a < m → b < m →
    ∑ l ∈ Finset.range m, (qr m k A).1 l a * (qr m k A).1 l b = if a = b then 1 else 0
  row : ∀ m k A a b, a < m → b < m →
    ∑ l ∈ Finset.range m, (qr m k A).1 a l * (qr m k A).1 b l = if a = b then 1 else 0
  upper : ∀ m k A r c, c < r → (qr m k A).2 r c = 0
  prod : ∀ m k A r c, r < m → c < k → ∑ l ∈ Finset.range m, (qr m k A).1 r l * (qr m k A).2 l c = A r c

/-- The contract of `R.colPivHouseholderQr().solve(b)` for a square matrix of size `j`: a least-squares solution. -/
def IsLsq (lsq : Nat → (Nat → Nat → ℝ) → (Nat → ℝ) → Nat → ℝ) : Prop :=
  ∀ j (R : Nat → Nat → ℝ) (b y : Nat → ℝ), ∑ l ∈ Finset.range j, (∑ c ∈ Finset.range j, R l c * lsq j R b c - b l) ^ 2 ≤
    ∑ l ∈ Finset.range j, (∑ c ∈ Finset.range j, R l c * y c - b l) ^ 2

/-- The variables of the inner loop: `vs`, `ws`, `Q`, `R`. -/
structure Arn (E : Type*) where
  vs : Nat → E
  ws : Nat → E
  Q : Nat → Nat → ℝ
  R : Nat → Nat → ℝ

/-- The loop of lines 59-63: what is left of `v` and the coefficients `hcur`. -/
def gram (vs : Nat → E) (j : Nat) (v : E) : E × (Nat → ℝ) :=
  (List.range j).foldl (fun s i =>
    let alpha := ⟪vs i, s.1⟫
    (s.1 - alpha • vs i, fun k => if k = i then alpha else s.2 k)) (v, fun _ => 0)

/-- `z` of lines 46-51; `outer` is `outer_v`. -/
def direction (outer : List E) (s : Arn E) (j : Nat) : E :=
  if j < outer.length + 1 then outer.getD (j - 1) 0 else if j = outer.length + 1 then s.vs 0 else s.vs (j - 1)

/-- One pass of the inner loop, lines 44-84: the new variables and whether the loop ends.  `junk` is a vector divided by
zero. -/
def pass (qr : Nat → Nat → (Nat → Nat → ℝ) → (Nat → Nat → ℝ) × (Nat → Nat → ℝ)) (matvec psolve : E → E) (junk : E)
    (mEPS tol res0 : ℝ) (outer : List E) (j : Nat) (s : Arn E) : Arn E × Prop :=
  let z := direction outer s j
  let v := psolve (matvec z)
  let g := gram s.vs j v
  let hj := ‖g.1‖
  let hcur : Nat → ℝ := fun k => if k = j then hj else g.2 k
  let vnew := if hj = 0 then junk else hj⁻¹ • g.1
  let Q1 : Nat → Nat → ℝ := fun r c => if r = j ∧ c = j then 1 else s.Q r c
  let A : Nat → Nat → ℝ := fun r c =>
    if c = j - 1 then hcur r else ∑ k ∈ Finset.range (j + 1), Q1 r k * s.R k c
  let d := qr (j + 1) j A
  let Q2 : Nat → Nat → ℝ := fun r c => if r < j + 1 ∧ c < j + 1 then d.1 r c else s.Q r c
  let R2 : Nat → Nat → ℝ := fun r c => if r < j + 1 ∧ c < j then d.2 r c else s.R r c
  (⟨fun k => if k = j then vnew else s.vs k, fun k => if k = j - 1 then z else s.ws k, Q2, R2⟩,
    |Q2 0 j| * res0 ≤ tol * res0 ∨ hj ≤ mEPS * ‖v‖)

/-- The inner loop, lines 44-86: the final `j` and variables. -/
def inner (qr : Nat → Nat → (Nat → Nat → ℝ) → (Nat → Nat → ℝ) × (Nat → Nat → ℝ)) (matvec psolve : E → E) (junk : E)
    (mEPS tol res0 : ℝ) (outer : List E) : Nat → Nat → Arn E → Nat × Arn E
  | 0, j, s => (j - 1, s)
  | k + 1, j, s =>
    let p := pass qr matvec psolve junk mEPS tol res0 outer j s
    if p.2 then (j, p.1) else inner qr matvec psolve junk mEPS tol res0 outer k (j + 1) p.1

/-- The first line of the loop over `k_outer` and its body, lines 25-102, unless it breaks: the new `x` and `outer_v`.
`outer_k` is the number of vectors kept. -/
def outerPass (qr : Nat → Nat → (Nat → Nat → ℝ) → (Nat → Nat → ℝ) × (Nat → Nat → ℝ))
    (lsq : Nat → (Nat → Nat → ℝ) → (Nat → ℝ) → Nat → ℝ) (matvec psolve : E → E) (junk : E) (mEPS tol : ℝ)
    (innerM outerK : Nat) (b : E) (s : E × List E) : E × List E :=
  let r := matvec s.1 - b
  let v0 := -psolve r
  let res0 := ‖v0‖
  let vs0 := if res0 = 0 then junk else res0⁻¹ • v0
  let start : Arn E := ⟨fun _ => vs0, fun _ => 0, fun r c => if r = 0 ∧ c = 0 then 1 else 0, fun _ _ => 0⟩
  let e := inner qr matvec psolve junk mEPS tol res0 s.2 (innerM + s.2.length) 1 start
  let y := lsq e.1 e.2.R fun c => e.2.Q 0 c
  let dx := ∑ i ∈ Finset.range e.1, (y i * res0) • e.2.ws i
  let nx := ‖dx‖
  let outer := if 0 < nx then s.2 ++ [nx⁻¹ • dx] else s.2
  (s.1 + dx, outer.drop (outer.length - outerK))

/-- `lgmres`, lgmres.cpp:6-104. -/
def lgmres (qr : Nat → Nat → (Nat → Nat → ℝ) → (Nat → Nat → ℝ) × (Nat → Nat → ℝ))
    (lsq : Nat → (Nat → Nat → ℝ) → (Nat → ℝ) → Nat → ℝ) (matvec psolve : E → E) (junk : E) (mEPS tol : ℝ)
    (innerM outerK : Nat) (b : E) : Nat → E × List E → E × List E
  | 0, s => s
  | k + 1, s =>
    let bnorm := if ‖b‖ = 0 then 1 else ‖b‖
    let rnorm := ‖matvec s.1 - b‖
    if rnorm ≤ tol * bnorm ∨ rnorm ≤ tol then s
    else lgmres qr lsq matvec psolve junk mEPS tol innerM outerK b k
      (outerPass qr lsq matvec psolve junk mEPS tol innerM outerK b s)

/-- `KrylovJacobian::matvec`, newton_krylov.cpp:28-35. -/
def jacVec (F : E → E) (x0 f0 : E) (omega : ℝ) (v : E) : E :=
  if ‖v‖ = 0 then 0 else (omega / ‖v‖)⁻¹ • (F (x0 + (omega / ‖v‖) • v) - f0)

/-- `KrylovJacobian::solve`, newton_krylov.cpp:39-46, with the constants of the constructor (lines 15-26). -/
def jacSolve (qr : Nat → Nat → (Nat → Nat → ℝ) → (Nat → Nat → ℝ) × (Nat → Nat → ℝ))
    (lsq : Nat → (Nat → Nat → ℝ) → (Nat → ℝ) → Nat → ℝ) (F : E → E) (x0 f0 : E) (omega : ℝ) (junk : E) (mEPS tol : ℝ)
    (outer : List E) (rhs : E) : E × List E :=
  lgmres qr lsq (jacVec F x0 f0 omega) (fun v => v) junk mEPS tol 30 10 rhs 1 (0, outer)

end

end Verif.Krylov
