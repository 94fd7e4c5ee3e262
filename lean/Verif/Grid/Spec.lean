import Verif.Grid.Model

/-!
# Specification of the padding

`srcOf` says which interior row a padded row shows; `ghostOf` applies the wall map of the side it
lies on.  Padded row `k` has signed position `k - N` relative to the first interior row.
-/

namespace Verif.Grid

variable {K : Type} [Field K]

/-- Reflecting walls. -/
def BT.mirror : BT → Prop
  | .slip | .stick | .moving | .symmetric => True
  | _ => False

/-- Interior row shown by padded row `k`: nearest edge, wrapped, or mirrored. -/
def srcOf (N : Nat) (b0 b1 : BT) (nx k : Nat) : Nat :=
  if k < N then
    match b0 with
    | .transmissive => 0
    | .periodic => k + nx - N
    | _ => N - 1 - k
  else if k < N + nx then k - N
  else
    match b1 with
    | .transmissive => nx - 1
    | .periodic => k - N - nx
    | _ => nx - 1 - (k - N - nx)

/-- The map applied on the way: that of the wall on the side of the ghost, none inside. -/
def ghostOf (c : Cfg K) (d : Nat) (b0 b1 : BT) (nx k : Nat) (q : Cell K) : Cell K :=
  if k < c.N then wall c d b0 q q
  else if k < c.N + nx then q
  else wall c d b1 q q

/-- Row `k` is a ghost row. -/
def Ghost (N nx k : Nat) : Prop := k < N ∨ (nx + N ≤ k ∧ k < nx + 2 * N)

end Verif.Grid
