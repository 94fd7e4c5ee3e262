import Verif.Poly.Model
import Mathlib.Data.Matrix.Basic
import Mathlib.Data.List.FinRange

/-!
# Model of `src/solvers/poly/basis.cpp` and `src/solvers/poly/evaluations.cpp`

`VecN` is a function on `Fin n` (the compile-time `N` is the parameter `n`), `poly` is the coefficient
list of `Verif.Poly`, `double` is a field.
-/

namespace Verif.Basis

open Verif.Poly

variable {K : Type} [Field K]

/-- One pass of the loop of `lagrange`, basis.cpp:38-42 (`continue` on `j == i`). -/
def lagrangeStep {n : Nat} (x : Fin n → K) (i : Fin n) (p : List K) (j : Fin n) : Option (List K) :=
  if j = i then some p
  else (multiply p [-x j, 1]).map fun r => divC r (x i - x j)

/-- `lagrange`, basis.cpp:22-44. -/
def lagrange {n : Nat} (x : Fin n → K) (i : Fin n) : Option (List K) :=
  (List.finRange n).foldlM (lagrangeStep x i) [1]

/-- `psi` is the value of `basis_polys()`, basis.cpp:46-53, for the given nodes. -/
def IsBasis {n : Nat} (nodes : Fin n → K) (psi : Fin n → List K) : Prop :=
  ∀ i, lagrange nodes i = some (psi i)

/-- `end_values`, basis.cpp:55-63; row 0 is the left end, row 1 the right end. -/
def endValues {n : Nat} (basis : Fin n → List K) : Matrix (Fin 2) (Fin n) K :=
  fun e j => if e = 0 then evaluate (basis j) 0 else evaluate (basis j) 1

/-- `derivative_values`, basis.cpp:65-72; `none` if some `diff(1)` fails. -/
def derivativeValues {n : Nat} (basis : Fin n → List K) (nodes : Fin n → K)
    (i j : Fin n) : Option K :=
  (diff 1 (basis j)).map fun d => evaluate d (nodes i)

/-! ### `evaluations.cpp`: the flat array of `n*n` rows (one variable at a time) -/

/-- `derivs2d`, evaluations.cpp:3-18.  Row `s` of the result; a row number is `i*n + j`. The view
with outer stride `N*V` starting at `j*V` has rows `j + k*n`, the one with stride `V` starting at
`i*N*V` has rows `i*n + k`.  Any other `d` leaves `ret` (here `old`) untouched. -/
def derivs2d {n : Nat} (D : Matrix (Fin n) (Fin n) K) (old qh : Nat → K) (d : Nat) (s : Nat) : K :=
  if d = 0 then
    if h : s / n < n then ∑ k : Fin n, D ⟨s / n, h⟩ k * qh (s % n + k * n) else old s
  else if d = 1 then
    if h : s % n < n ∧ s / n < n then ∑ k : Fin n, D ⟨s % n, h.1⟩ k * qh (s / n * n + k) else old s
  else old s

/-- `endpts2d`, evaluations.cpp:20-36; row `s < n` of the result. -/
def endpts2d {n : Nat} (E : Matrix (Fin 2) (Fin n) K) (old qh : Nat → K) (d : Nat) (e : Fin 2)
    (s : Nat) : K :=
  if s < n then
    if d = 0 then ∑ k : Fin n, E e k * qh (s + k * n)
    else if d = 1 then ∑ k : Fin n, E e k * qh (s * n + k)
    else old s
  else old s

end Verif.Basis
