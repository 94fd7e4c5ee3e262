import Mathlib.Data.Matrix.Basic
import Mathlib.Analysis.Normed.Group.Constructions
import Mathlib.Analysis.Normed.Group.Real
import Mathlib.Analysis.Real.Sqrt
import Mathlib.LinearAlgebra.Matrix.Charpoly.Basic
import Mathlib.Logic.Function.Basic

/-!
# Model of `src/scipy/legendre.cpp` and of the node functions of `src/solvers/poly/basis.cpp`

A coefficient vector is its size and a function `Nat → K`; the argument `x` of `legval` is treated one
entry at a time (the code works entrywise).  Index errors are `none`.
-/

namespace Verif.Legendre

section series
variable {K : Type} [Field K]

/-- Body of the loop of `legval`, legendre.cpp:52-57; the state is `(c00, c11, nd)`. -/
def clenshaw (nc : Nat) (c : Nat → K) (x : K) (s : K × K × Nat) (i : Nat) : K × K × Nat :=
  let nd := s.2.2 - 1
  (c (nc - i) - (s.2.1 * ((nd : K) - 1)) / nd, s.1 + (s.2.1 * x * (2 * (nd : K) - 1)) / nd, nd)

/-- `legval`, legendre.cpp:5-62, at one point `x`.  With an empty `c` the code reads `c(-3)`. -/
def legval (nc : Nat) (c : Nat → K) (x : K) : Option K :=
  if nc = 0 then none
  else if nc = 1 then some (0 + c 0)
  else if nc = 2 then some (c 0 + c 1 * x)
  else
    let nd := nc - 1
    let c0 := c (nc - 3) - (c (nc - 1) * ((nd : K) - 1)) / nd
    let c10 := c (nc - 2) + (c (nc - 1) * x * (2 * (nd : K) - 1)) / nd
    if nc = 3 then some (c0 + c10 * x)
    else
      let nd := nd - 1
      let c00 := c (nc - 4) - (c10 * ((nd : K) - 1)) / nd
      let c11 := c0 + (c10 * x * (2 * (nd : K) - 1)) / nd
      let s := ((List.range (nc + 1 - 5)).map (· + 5)).foldl (clenshaw nc c x) (c00, c11, nd)
      some (s.1 + s.2.1 * x)

/-- Body of the loop of `legder`, legendre.cpp:125-128; the state is `(der, c)`. -/
def legderStep (s : (Nat → K) × (Nat → K)) (j : Nat) : (Nat → K) × (Nat → K) :=
  (Function.update s.1 (j - 1) ((2 * (j : K) - 1) * s.2 j),
    Function.update s.2 (j - 2) (s.2 (j - 2) + s.2 j))

/-- `legder`, legendre.cpp:97-134; `c` has `nc` entries, the result `nc - 1`.  With `nc = 0` the
constructor gets a negative size; with `nc = 1` the code accesses `der(0)` and `c(1)`. -/
def legder (nc : Nat) (c : Nat → K) : Option (Nat → K) :=
  if nc < 2 then none
  else
    let n := nc - 1
    let s := ((List.range (n - 2)).map (n - ·)).foldl legderStep (fun _ => 0, c)
    let der := if 1 < n then Function.update s.1 1 (3 * s.2 2) else s.1
    some (Function.update der 0 (s.2 1))

end series

/-- `legcompanion`, legendre.cpp:82-94: the storage of the `n × n` matrix, `n = c.size() - 1`, addressed
linearly as the code does. -/
noncomputable def companionFlat (n : Nat) : Nat → ℝ :=
  let scl := fun i : Nat => 1 / √(2 * (i : ℝ) + 1)
  (List.range (n - 1)).foldl (fun m (i : Nat) =>
    let tmp := ((i : ℝ) + 1) * scl i * scl (i + 1)
    Function.update (Function.update m (1 + i * (n + 1)) tmp) (n + i * (n + 1)) tmp) (fun _ => 0)

/-- The matrix stored (row-major, types.h). -/
noncomputable def legcompanion (n : Nat) : Matrix (Fin n) (Fin n) ℝ :=
  fun i j => companionFlat n (i * n + j)

/-- Contract of `Eigen::SelfAdjointEigenSolver::eigenvalues()`: all eigenvalues with multiplicity, in
increasing order (exact arithmetic). -/
def IsEigenvalues {n : Nat} (M : Matrix (Fin n) (Fin n) ℝ) (x : Fin n → ℝ) : Prop :=
  Monotone x ∧ M.charpoly = ∏ i, (Polynomial.X - Polynomial.C (x i))

/-- `w = (w + w.reverse()) / 2`, legendre.cpp:187: Eigen evaluates the expression entry by entry into
`w` itself (no temporary), so later entries see updated ones. -/
noncomputable def symPlus {n : Nat} (w : Fin n → ℝ) : Fin n → ℝ :=
  (List.finRange n).foldl (fun w i => Function.update w i ((w i + w i.rev) / 2)) w

/-- `x = (x - x.reverse()) / 2`, legendre.cpp:188, likewise in place. -/
noncomputable def symMinus {n : Nat} (x : Fin n → ℝ) : Fin n → ℝ :=
  (List.finRange n).foldl (fun x i => Function.update x i ((x i - x i.rev) / 2)) x

/-- `legval` of a vector; `none` if the entry computation fails. -/
noncomputable def legvals {n : Nat} (nc : Nat) (c : Nat → ℝ) (x : Fin n → ℝ) : Option (Fin n → ℝ) :=
  if nc = 0 then none else some fun i => (legval nc c (x i)).getD 0

/-- `leggauss`, legendre.cpp:136-197, from the eigenvalues on (`x` is `eigs.eigenvalues()`).  The sup
norm of `Fin n → ℝ` is `lpNorm<Infinity>`. -/
noncomputable def leggauss (deg : Nat) (x : Fin deg → ℝ) : Option ((Fin deg → ℝ) × (Fin deg → ℝ)) := do
  let c : Nat → ℝ := fun k => if k = deg then 1 else 0
  let dy ← legvals (deg + 1) c x
  let d ← legder (deg + 1) c
  let df ← legvals deg d x
  let x := x - dy / df
  let fm ← legvals deg (fun k => c (k + 1)) x
  let fm := fun i => fm i / ‖fm‖
  let df := fun i => df i / ‖df‖
  let w := fun i => 1 / (fm i * df i)
  let w := symPlus w
  let x := symMinus x
  let s := ∑ i, w i
  some (x, fun i => w i * (2 / s))

/-- `scaled_nodes`, basis.cpp:7-13. -/
noncomputable def scaledNodes {n : Nat} (x : Fin n → ℝ) : Fin n → ℝ := fun i => (x i + 1) / 2

/-- `scaled_weights`, basis.cpp:15-20. -/
noncomputable def scaledWeights {n : Nat} (w : Fin n → ℝ) : Fin n → ℝ := fun i => w i / 2

end Verif.Legendre
