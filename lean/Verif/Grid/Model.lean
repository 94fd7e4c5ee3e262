import Mathlib.Algebra.Field.Basic
import Mathlib.Logic.Function.Basic

/-!
# Model of `src/etc/grid.cpp`: ghost-cell padding and mask extension

A cell is a vector of components `Nat → K` (density, energy, three momenta, nine distortion entries
from component 5 on, …; `VISCOUS = true`).  `double` is a field `K`.  The arrays `u` and `ub` are one
memory; `MatMap`s with their strides are *views*, functions from row numbers to locations, so the
aliasing of the second pass of `boundaries2` (it reads and writes `ub`) is kept.  Reading a row
outside `0..nx-1` of the source view is the distinct outcome `none`.
-/

namespace Verif.Grid

variable {K : Type} [Field K]

/-- A cell of the grid. -/
abbrev Cell (K : Type) := Nat → K

/-- A location: array (`false` is `u`, `true` is `ub`) and cell number. -/
abbrev Loc := Bool × Nat

/-- Contents of `u` and `ub`. -/
abbrev Mem (K : Type) := Loc → Cell K

/-- Boundary types, grid.cpp:5-10. -/
inductive BT
  | transmissive | periodic | slip | stick | moving | symmetric
  /-- any other integer: no `case` label matches -/
  | other
deriving DecidableEq, Repr

/-- The integer codes, grid.cpp:5-10. -/
def BT.ofInt (n : Int) : BT :=
  if n = 0 then .transmissive else if n = 1 then .periodic else if n = 2 then .slip
  else if n = 3 then .stick else if n = 4 then .moving else if n = 5 then .symmetric else .other

/-- `q(k) *= -1.` -/
def negAt (q : Cell K) (k : Nat) : Cell K := Function.update q k (q k * -1)

/-- `q.block<1,3>(i, 2) *= -1.` -/
def negMom (q : Cell K) : Cell K := negAt (negAt (negAt q 2) 3) 4

/-- Compile-time configuration: `N` and, when `DESTRESS` is set, the function `destress`
(matrices.cpp:44-53, an SVD, left abstract). -/
structure Cfg (K : Type) where
  N : Nat
  destress : Option (Cell K → Cell K)

/-- `if (DESTRESS) destress(ub.row(i));` -/
def Cfg.ds (c : Cfg K) (q : Cell K) : Cell K :=
  match c.destress with
  | none => q
  | some f => f q

/-- SLIP, grid.cpp:29-31 and 83-85. -/
def slip (c : Cfg K) (d : Nat) (q : Cell K) : Cell K := c.ds (negAt q (2 + d))

/-- STICK, grid.cpp:38-40 and 93-95. -/
def stick (c : Cfg K) (q : Cell K) : Cell K := c.ds (negMom q)

/-- MOVING, grid.cpp:47-52 and 103-109; `src` is the row of `u` read in the energy line. -/
def moving (c : Cfg K) (q src : Cell K) : Cell K :=
  let q1 := negMom q
  let q2 := Function.update q1 2 (q1 2 + 2 * q1 0)
  let q3 := Function.update q2 1 (q2 1 + (q2 2 * q2 2 - src 2 * src 2) / (2 * q2 0))
  c.ds q3

/-- SYMMETRIC, grid.cpp:59-62 and 116-119; `A(i,j)` is component `5 + 3i + j`. -/
def symmetric (d : Nat) (q : Cell K) : Cell K :=
  let q1 := negAt q (2 + d)
  let q2 := negAt (negAt (negAt q1 (5 + 3 * d)) (5 + 3 * d + 1)) (5 + 3 * d + 2)
  negAt (negAt (negAt q2 (5 + d)) (5 + 3 + d)) (5 + 6 + d)

/-- What a `case` does to the freshly copied row. -/
def wall (c : Cfg K) (d : Nat) : BT → Cell K → Cell K → Cell K
  | .slip, q, _ => slip c d q
  | .stick, q, _ => stick c q
  | .moving, q, src => moving c q src
  | .symmetric, q, _ => symmetric d q
  | _, q, _ => q

/-- One iteration of a `for` loop of `boundaries1`: copy row `src` of the view `vu` to row `dst` of
the view `vb`, then modify it in place.  `none`: `src` is not a row of the view. -/
def fillRow (c : Cfg K) (d : Nat) (bt : BT) (vu vb : Nat → Loc) (nx : Nat) (dst : Nat) (src : Int)
    (m : Mem K) : Option (Mem K) :=
  if 0 ≤ src ∧ src < nx then
    let s := vu src.toNat
    let m1 := Function.update m (vb dst) (m s)
    some (Function.update m1 (vb dst) (wall c d bt (m1 (vb dst)) (m1 s)))
  else none

/-- Source row of the left loops, grid.cpp:17-57. -/
def leftSrc (N : Nat) (bt : BT) (nx i : Nat) : Int :=
  match bt with
  | .transmissive => 0
  | .periodic => (nx : Int) - N + i
  | _ => (N : Int) - 1 - i

/-- Source row of the right loops, grid.cpp:71-114. -/
def rightSrc (bt : BT) (nx i : Nat) : Int :=
  match bt with
  | .transmissive => (nx : Int) - 1
  | .periodic => i
  | _ => (nx : Int) - 1 - i

/-- The first `switch` of `boundaries1`, grid.cpp:14-65. -/
def leftLoop (c : Cfg K) (d : Nat) (bt : BT) (vu vb : Nat → Loc) (nx : Nat) (m : Mem K) :
    Option (Mem K) :=
  match bt with
  | .other => some m
  | bt => (List.range c.N).foldlM
      (fun m i => fillRow c d bt vu vb nx i (leftSrc c.N bt nx i) m) m

/-- The second `switch` of `boundaries1`, grid.cpp:67-124. -/
def rightLoop (c : Cfg K) (d : Nat) (bt : BT) (vu vb : Nat → Loc) (nx : Nat) (m : Mem K) :
    Option (Mem K) :=
  match bt with
  | .other => some m
  | bt => (List.range c.N).foldlM
      (fun m i => fillRow c d bt vu vb nx (i + nx + c.N) (rightSrc bt nx i) m) m

/-- `boundaries1`, grid.cpp:12-125. -/
def boundaries1 (c : Cfg K) (vu vb : Nat → Loc) (nx : Nat) (b0 b1 : BT) (d : Nat) (m : Mem K) :
    Option (Mem K) := do
  let m1 ← leftLoop c d b0 vu vb nx m
  rightLoop c d b1 vu vb nx m1

/-- First loop of `boundaries2`, grid.cpp:132-137: columns `j` of the interior along x. -/
def pass1 (c : Cfg K) (nx ny : Nat) (b0 b1 : BT) (m : Mem K) : Option (Mem K) :=
  (List.range ny).foldlM (fun m j => boundaries1 c
    (fun k => (false, j + k * ny)) (fun k => (true, j + c.N + k * (ny + 2 * c.N))) nx b0 b1 0 m) m

/-- Second loop of `boundaries2`, grid.cpp:139-144: every row of the padded array along y; source
and target views are both into `ub`. -/
def pass2 (c : Cfg K) (nx ny : Nat) (b2 b3 : BT) (m : Mem K) : Option (Mem K) :=
  (List.range (nx + 2 * c.N)).foldlM (fun m i => boundaries1 c
    (fun k => (true, i * (ny + 2 * c.N) + c.N + k)) (fun k => (true, i * (ny + 2 * c.N) + k))
    ny b2 b3 1 m) m

/-- `ub.segment(dst*V, len*V) = u.segment(src*V, len*V)`. -/
def copySeg (dst src len : Nat) (m : Mem K) : Mem K := fun l =>
  if l.1 = true ∧ dst ≤ l.2 ∧ l.2 < dst + len then m (false, l.2 - dst + src) else m l

/-- `boundaries` with one dimension, grid.cpp:155-160. -/
def boundaries1D (c : Cfg K) (nx : Nat) (b0 b1 : BT) (m : Mem K) : Option (Mem K) :=
  boundaries1 c (fun k => (false, k)) (fun k => (true, k)) nx b0 b1 0 (copySeg c.N 0 nx m)

/-- `boundaries` with two dimensions, grid.cpp:162-168. -/
def boundaries2D (c : Cfg K) (nx ny : Nat) (b0 b1 b2 b3 : BT) (m : Mem K) : Option (Mem K) := do
  let m1 := (List.range nx).foldl
    (fun m i => copySeg ((i + c.N) * (ny + 2 * c.N) + c.N) (i * ny) ny m) m
  let m2 ← pass1 c nx ny b0 b1 m1
  pass2 c nx ny b2 b3 m2

/-! ### `extend_mask` -/

/-- `extend_mask`, one dimension, grid.cpp:184-193. -/
def extendMask1 (nx : Nat) (mask maskb : Nat → Bool) : Nat → Bool :=
  let m1 := (List.range nx).foldl (fun mb i => Function.update mb (i + 1)
    (mask i || (decide (0 < i) && mask (i - 1)) || (decide (i + 1 < nx) && mask (i + 1)))) maskb
  let m2 := Function.update m1 0 (m1 1)
  Function.update m2 (nx + 1) (m2 nx)

/-- The ghost-layer writes inside the double loop, grid.cpp:214-226. -/
def ghostMask2 (nx ny : Nat) (mask maskb : Nat → Bool) : Nat → Bool :=
  let m1 := (List.range nx).foldl (fun mb i =>
    Function.update (Function.update mb ((i + 1) * (ny + 2)) (mask (i * ny)))
      ((i + 1) * (ny + 2) + (ny + 1)) (mask (i * ny + (ny - 1)))) maskb
  let m2 := (List.range ny).foldl (fun mb j =>
    Function.update (Function.update mb (j + 1) (mask j))
      ((nx + 1) * (ny + 2) + (j + 1)) (mask ((nx - 1) * ny + j))) m1
  let m3 := Function.update m2 0 false
  let m4 := Function.update m3 (ny + 1) false
  let m5 := Function.update m4 ((nx + 1) * (ny + 2)) false
  Function.update m5 ((nx + 1) * (ny + 2) + (ny + 1)) false

/-- Body of the double loop, grid.cpp:199-227. -/
def maskCell2 (nx ny : Nat) (mask : Nat → Bool) (maskb : Nat → Bool) (t : Nat × Nat) :
    Nat → Bool :=
  let i := t.1
  let j := t.2
  let ind := i * ny + j
  let m1 := Function.update maskb ((i + 1) * (ny + 2) + (j + 1))
    (mask ind || (decide (0 < i) && mask ((i - 1) * ny + j)) ||
      (decide (i + 1 < nx) && mask ((i + 1) * ny + j)) ||
      (decide (0 < j) && mask (i * ny + (j - 1))) ||
      (decide (j + 1 < ny) && mask (i * ny + (j + 1))))
  ghostMask2 nx ny mask m1

/-- `extend_mask`, two dimensions, grid.cpp:195-228. -/
def extendMask2 (nx ny : Nat) (mask maskb : Nat → Bool) : Nat → Bool :=
  ((List.range nx).flatMap fun i => (List.range ny).map fun j => (i, j)).foldl
    (maskCell2 nx ny mask) maskb

/-- `extended_dimensions`, grid.cpp:172-174. -/
def extendedDimensions (nX : List Nat) (ext : Nat) : Nat := (nX.map (· + 2 * ext)).prod

end Verif.Grid
