import Mathlib.Algebra.Polynomial.Derivative
import Mathlib.Algebra.Polynomial.Eval.Degree

/-!
# Legendre polynomials, by Bonnet's recurrence
-/

namespace Verif.Legendre

open Polynomial

variable {K : Type} [Field K]

/-- `P 0 = 1`, `P 1 = X`, `(k+2) P (k+2) = (2k+3) X P (k+1) - (k+1) P k`. -/
noncomputable def P : Nat → K[X]
  | 0 => 1
  | 1 => X
  | k + 2 => C ((k : K) + 2)⁻¹ * (C (2 * (k : K) + 3) * X * P (k + 1) - C ((k : K) + 1) * P k)

/-- The series with coefficients `c 0 … c (nc-1)`. -/
noncomputable def series (nc : Nat) (c : Nat → K) : K[X] := ∑ k ∈ Finset.range nc, C (c k) * P k

end Verif.Legendre
