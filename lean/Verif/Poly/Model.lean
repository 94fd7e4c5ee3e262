import Mathlib.Algebra.Field.Basic

/-!
# Model of `src/scipy/poly.cpp`

`Vec` (a dynamically sized Eigen vector) is a list; `double` is a field.  A negative size in an
Eigen constructor (an assertion failure, undefined behaviour with `NDEBUG`) is the outcome `none`.
-/

namespace Verif.Poly

variable {K : Type} [Field K]

/-- `integrate`, poly.cpp:6-14. -/
def integrate (p : List K) : List K := 0 :: p.mapIdx fun i a => a / ((i : K) + 1)

/-- `differentiate`, poly.cpp:16-23; `Vec ret(n - 1)` with `n = 0` is an error. -/
def differentiate : List K → Option (List K)
  | [] => none
  | _ :: p => some (p.mapIdx fun i a => a * ((i : K) + 1))

/-- `evaluate`, poly.cpp:25-32. -/
def evaluate (p : List K) (x : K) : K :=
  (List.range p.length).foldl (fun ret i => ret + p.getD i 0 * x ^ i) 0

/-- Inner loop of `multiply`, poly.cpp:41-42. -/
def mulRow (p2 : List K) (i : Nat) (a : K) (ret : List K) : List K :=
  (List.range p2.length).foldl (fun ret j => ret.modify (i + j) (· + a * p2.getD j 0)) ret

/-- `multiply`, poly.cpp:34-44; `Vec ret(n1 + n2 - 1)` with both sizes 0 is an error. -/
def multiply (p1 p2 : List K) : Option (List K) :=
  if p1.length + p2.length = 0 then none
  else some ((List.range p1.length).foldl (fun ret i => mulRow p2 i (p1.getD i 0) ret)
    (List.replicate (p1.length + p2.length - 1) 0))

/-- `poly::diff`, poly.cpp:55-60. -/
def diff : Nat → List K → Option (List K)
  | 0, p => some p
  | n + 1, p => (differentiate p).bind (diff n)

/-- `poly::operator/`, poly.cpp:64. -/
def divC (p : List K) (c : K) : List K := p.map (· / c)

end Verif.Poly
