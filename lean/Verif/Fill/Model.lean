import Verif.Iter.Cells

/-!
# Model of `src/multi/fill.cpp` and `src/multi/functions.cpp`

Cells are numbered row by row.  The grid of a material is a function from cells to state vectors, masks are functions
from cells to integers, and level-set fields are real.  Every read or write outside an array, and every conversion of
NaN to `int`, is the outcome `none`.  The two dimensional loop of `fill_boundary_cells` runs in parallel; its model
takes the order of the cells as a parameter and treats a cell as one atomic action.
-/

namespace Verif.Fill

open Verif.Sys Verif.Iter

abbrev Mask := Nat → Int

noncomputable section

/-! ### `functions.cpp` -/

/-- `sign`, functions.cpp:7-12. -/
def sign (x : ℝ) : Int := if x ≤ 0 then -1 else 1

/-- `normal`, functions.cpp:14; a zero gradient gives NaN. -/
def normal (g : List ℝ) : Option (List ℝ) :=
  let norm := Real.sqrt (g.map fun x => x * x).sum
  if norm = 0 then none else some (g.map fun x => x / norm)

/-- The rows of `tmp` filled by functions.cpp:25-28 and 39-43 for one line of `n` cells; `junk` is the uninitialised
storage and `scale` the divisor applied to the inner cells.  Fewer than two cells make Eigen fail and are not
modelled. -/
def lineDiff (n : Nat) (junk φ : Nat → ℝ) (scale : ℝ) : Nat → ℝ :=
  let t : Nat → ℝ := fun i => if 1 ≤ i ∧ i < 1 + (n - 2) then (φ (i + 1) - φ (i - 1)) / scale else junk i
  let t : Nat → ℝ := Function.update t 0 (t 1)
  Function.update t (n - 1) (t (n - 2))

/-- `finite_difference` in one dimension, functions.cpp:24-30. -/
def finiteDifference1 (n : Nat) (junk φ : Nat → ℝ) (dx : ℝ) : Nat → ℝ := fun i => lineDiff n junk φ 1 i / (2 * dx)

/-- `finite_difference` in two dimensions, functions.cpp:32-52: the derivative along axis `d` in cell `(i, j)`. -/
def finiteDifference2 (nx ny : Nat) (junk : Nat → Nat → ℝ) (φ : Nat → ℝ) (dx dy : ℝ) (d : Fin 2) (i j : Nat) : ℝ :=
  if d = 0 then lineDiff nx (fun a => junk a j) (fun a => φ (a * ny + j)) (2 * dx) i
  else lineDiff ny (fun b => junk i b) (fun b => φ (i * ny + b)) (2 * dy) j

/-- The value in one cell of the field that `material_indicator` passes to `distance`, functions.cpp:67-77; `lev i`
is level set `i` of the cell. -/
def indicator (lset : Nat) (lev : Nat → ℝ) (mat nmat : Nat) : ℝ :=
  let φ := if mat = 0 then lev 0 else -lev 0;
  if nmat > 2 then
    let φ := (List.range' 1 (mat - 1)).foldl (fun φ i => max φ (-lev i)) φ
    (List.range' mat (lset - mat)).foldl (fun φ i => max φ (lev i)) φ
  else φ

/-! ### `find_interface_cells` -/

/-- `update_interface_mask`, fill.cpp:11-18. -/
def updateMask (φ : Nat → ℝ) (l r : Nat) (m : Mask) : Mask :=
  if φ l * φ r ≤ 0 then Function.update (Function.update m l (sign (φ l))) r (sign (φ r)) else m

/-- `find_interface_cells` in one dimension, fill.cpp:23-34. -/
def find1 (n : Nat) (φ : Nat → ℝ) : Mask := (List.range (n - 1)).foldl (fun m i => updateMask φ i (i + 1) m) fun _ => 0

/-- fill.cpp:50-66. -/
def markAround (nx ny : Nat) (φ : Nat → ℝ) (i j : Nat) (m : Mask) : Mask :=
  let m := if 0 < i then updateMask φ (i * ny + j) ((i - 1) * ny + j) m else m
  let m := if i + 1 < nx then updateMask φ (i * ny + j) ((i + 1) * ny + j) m else m
  let m := if 0 < j then updateMask φ (i * ny + j) (i * ny + (j - 1)) m else m
  if j + 1 < ny then updateMask φ (i * ny + j) (i * ny + (j + 1)) m else m

/-- fill.cpp:41-70. -/
def findCell (nx ny : Nat) (φ : Nat → ℝ) (i j : Nat) (m : Mask) : Mask :=
  if φ (i * ny + j) ≤ 0 then
    if (0 < i ∧ φ ((i - 1) * ny + j) ≤ 0) ∨ (i + 1 < nx ∧ φ ((i + 1) * ny + j) ≤ 0) ∨
        (0 < j ∧ φ (i * ny + (j - 1)) ≤ 0) ∨ (j + 1 < ny ∧ φ (i * ny + (j + 1)) ≤ 0) then
      markAround nx ny φ i j m
    else Function.update m (i * ny + j) (-2)
  else m

/-- `find_interface_cells` in two dimensions, fill.cpp:36-72. -/
def find2 (nx ny : Nat) (φ : Nat → ℝ) : Mask :=
  (List.range nx).foldl (fun m i => (List.range ny).foldl (fun m j => findCell nx ny φ i j m) m) fun _ => 0

/-! ### `fill_neighbor_cells` -/

/-- `.cast<int>()`: rounds towards zero. -/
def trunc (x : ℝ) : Int := if 0 ≤ x then ⌊x⌋ else ⌈x⌉

/-- `iVec_to_ind` divided by `V`, fill.cpp:7-9. -/
def flat (nX : List Nat) (v : List Int) : Int :=
  match nX, v with
  | [_], [a] => a
  | [_, ny], [a, b] => a * ny + b
  | _, _ => -1

/-- `newInds` of `fill_neighbor_inner` along one axis, fill.cpp:244-247. -/
def sourceCoord (dx n : ℝ) (i : Nat) : Int := trunc ((((i : ℝ) + 0.5) * dx - dx * n) / dx)

/-- `newInd`, fill.cpp:244-259. -/
def source (nX : List Nat) (dX g : List ℝ) (inds : List Nat) : Option Int :=
  (normal g).map fun n => flat nX ((dX.zip (n.zip inds)).map fun x => sourceCoord x.1 x.2.1 x.2.2)

/-- fill.cpp:261-264: `src` is `newInd`, `ncell` the number of cells, and `α` the type of the part of a state that the
code copies, all but its level sets. -/
def copyCell {α : Type} (ncell : Nat) (src : Option Int) (mask : Mask) (grid : Nat → α) (ind indn : Nat) :
    Option (Nat → α) :=
  match src with
  | none => none
  | some s => if s < 0 ∨ (ncell : Int) ≤ s then none
    else some (Function.update grid ind (grid (if mask s.toNat < 1 then indn else s.toNat)))

/-- The variables of `fill_neighbor_cells`. -/
structure Layers (α : Type) where
  mask : Mask
  grid : Nat → α
  isolates : List Nat

/-- fill.cpp:280-296. -/
def visit1 {α : Type} (n : Nat) (src : Nat → Option Int) (N0 : Int) (s : Layers α) (i : Nat) : Option (Layers α) :=
  if s.mask i = 0 then
    let indn : Int := if 0 < i ∧ s.mask (i - 1) = N0 then ((i - 1 : Nat) : Int) else -1
    let indn : Int := if i + 1 < n ∧ s.mask (i + 1) = N0 then ((i + 1 : Nat) : Int) else indn
    if indn > -1 then
      let mask := Function.update s.mask i (N0 + 1)
      (copyCell n (src i) mask s.grid i indn.toNat).map fun g => ⟨mask, g, s.isolates⟩
    else some s
  else some s

/-- `neighbor_index`, fill.cpp:76-94. -/
def neighborIndex (mask : Mask) (i j nx ny : Nat) (N0 : Int) : Int :=
  let indn : Int := if 0 < i ∧ mask ((i - 1) * ny + j) = N0 then (((i - 1) * ny + j : Nat) : Int) else -1
  let indn : Int := if i + 1 < nx ∧ mask ((i + 1) * ny + j) = N0 then (((i + 1) * ny + j : Nat) : Int) else indn
  let indn : Int := if 0 < j ∧ mask (i * ny + (j - 1)) = N0 then ((i * ny + (j - 1) : Nat) : Int) else indn
  if j + 1 < ny ∧ mask (i * ny + (j + 1)) = N0 then ((i * ny + (j + 1) : Nat) : Int) else indn

/-- fill.cpp:306-322. -/
def visit2 {α : Type} (nx ny : Nat) (src : Nat → Option Int) (N0 : Int) (s : Layers α) (i j : Nat) :
    Option (Layers α) :=
  let ind := i * ny + j
  if s.mask ind = 0 ∨ s.mask ind = -2 then
    let indn := neighborIndex s.mask i j nx ny N0
    if indn > -1 then
      let isolates := if s.mask ind = -2 then s.isolates ++ [ind] else s.isolates
      let mask := Function.update s.mask ind (N0 + 1)
      (copyCell (nx * ny) (src ind) mask s.grid ind indn.toNat).map fun g => ⟨mask, g, isolates⟩
    else some s
  else some s

/-- fill.cpp:277-297. -/
def pass1 {α : Type} (n : Nat) (src : Nat → Option Int) (N0 : Int) (s : Layers α) : Option (Layers α) :=
  (List.range n).foldlM (visit1 n src N0) s

/-- fill.cpp:298-326: `isolates` starts empty in every pass. -/
def pass2 {α : Type} (nx ny : Nat) (src : Nat → Option Int) (N0 : Int) (s : Layers α) : Option (Layers α) :=
  ((List.range nx).foldlM (fun s i => (List.range ny).foldlM (fun s j => visit2 nx ny src N0 s i j) s)
    { s with isolates := [] }).map fun s =>
      { s with mask := s.isolates.foldl (fun m k => Function.update m k (-2)) s.mask }

/-- The body of the loop over `N0`, fill.cpp:277-326. -/
def passOf {α : Type} (nX : List Nat) (src : Nat → Option Int) (N0 : Int) (s : Layers α) : Option (Layers α) :=
  match nX with
  | [n] => pass1 n src N0 s
  | [nx, ny] => pass2 nx ny src N0 s
  | _ => some s

/-- `fill_neighbor_cells`, fill.cpp:267-328; `K` is `EXPANSION_FACTOR * N - 1`. -/
def fillNeighbors {α : Type} (nX : List Nat) (src : Nat → Option Int) (K : Nat) (mask : Mask) (grid : Nat → α) :
    Option (Layers α) :=
  (List.range K).foldlM (fun s (k : Nat) => passOf nX src ((k : Int) + 1) s) ⟨mask, grid, []⟩

/-! ### `fill_boundary_cells` -/

/-- A cell of the array, or nothing. -/
def inside (ncell : Nat) (k : Int) : Option Nat := if 0 ≤ k ∧ k < ncell then some k.toNat else none

/-- `xi / dX`, `xL / dX` and `xR / dX` along one axis for `off` = 0, -1, 1, fill.cpp:99-110. -/
def probeCoord (dx n φi off : ℝ) (i : Nat) : Int := trunc ((((i : ℝ) + 0.5) * dx - φi * n + off * dx * n) / dx)

/-- A probe of `boundary_inds`, fill.cpp:96-132. -/
def probe (nX : List Nat) (dX n : List ℝ) (φi off : ℝ) (inds : List Nat) : Int :=
  flat nX ((dX.zip (n.zip inds)).map fun x => probeCoord x.1 x.2.1 φi off x.2.2)

/-- `sgn`, etc/types.h. -/
def sgn (x : ℝ) : Int := if 0 < x then 1 else if x < 0 then -1 else 0

/-- fill.cpp:152-191: the left state and the normal used when neither probe lies in the material.  In one dimension
`n(1)` does not exist. -/
def fallback (c : Cfg) (nX : List Nat) (ncell mat : Nat) (grid : Nat → St) (inds : List Nat) (n : List ℝ)
    (indn : Int) : Option (St × List ℝ) :=
  match nX, inds, n with
  | [_, ny], [i, j], [n0, n1] =>
    let s0 := sgn n0
    let s1 := sgn n1
    let along0 : Int := ((i : Int) - s0) * ny + j
    let along1 : Int := (i : Int) * ny + ((j : Int) - s1)
    let first := if |n0| > |n1| then along0 else along1
    match inside ncell first with
    | none => none
    | some k1 =>
      let r : Int × List ℝ :=
        if materialIndex c (grid k1) = mat then (first, if |n0| > |n1| then [(s0 : ℝ), 0] else [0, (s1 : ℝ)])
        else if |n0| > |n1| then (along1, [0, (s1 : ℝ)]) else (along0, [(s0 : ℝ), 0])
      match inside ncell r.1 with
      | none => none
      | some k => if materialIndex c (grid k) = mat then some (grid k, r.2)
        else (inside ncell indn).map fun k => (grid k, r.2)
  | _, _, _ => none

/-- `grid.segment<V - LSET>(k) = Q.head<V - LSET>()` -/
def setHeadOf (c : Cfg) (Q : St) (old : St) : St := fun k => if k < c.V - c.lset then Q k else old k

/-- `fill_boundary_inner`, fill.cpp:134-198.  `star QL QR miR n` is `left_star_state`.  The
left probe is read only if the cell at the interface is not of the material. -/
def boundaryCell (c : Cfg) (nX : List Nat) (dX : List ℝ) (ncell mat nmat : Nat)
    (star : St → St → Nat → List ℝ → St) (φi : ℝ) (ind : Nat) (inds : List Nat) (n : List ℝ) (indn : Int)
    (grid : Nat → St) : Option (Nat → St) :=
  match inside ncell (probe nX dX n φi 0 inds), inside ncell (probe nX dX n φi 1 inds) with
  | some ki, some kR =>
    let miR := materialIndex c (grid kR)
    let left : Option (St × List ℝ) :=
      if materialIndex c (grid ki) = mat then some (grid ki, n)
      else match inside ncell (probe nX dX n φi (-1) inds) with
      | none => none
      | some kL => if materialIndex c (grid kL) = mat then some (grid kL, n) else fallback c nX ncell mat grid inds n indn
    match left with
    | none => none
    | some QL => if miR < nmat then
        let Q := star QL.1 (grid kR) miR QL.2
        let g1 := Function.update grid ind (setHeadOf c Q (grid ind))
        if materialIndex c (g1 ki) ≠ mat then some (Function.update g1 ki (setHeadOf c Q (g1 ki))) else some g1
      else none
  | _, _ => none

/-- Row and column of a cell. -/
def coords (nX : List Nat) (k : Nat) : List Nat :=
  match nX with
  | [_, ny] => [k / ny, k % ny]
  | _ => [k]

/-- fill.cpp:210-215 and 223-231. -/
def boundaryVisit (c : Cfg) (nX : List Nat) (dX : List ℝ) (ncell mat nmat : Nat)
    (star : St → St → Nat → List ℝ → St) (φ : Nat → ℝ) (Δφ : Nat → List ℝ) (mask : Mask) (grid : Nat → St) (k : Nat) :
    Option (Nat → St) :=
  if mask k = 1 then
    match normal (Δφ k) with
    | none => none
    | some n =>
      let indn : Int := match nX with
        | [nx, ny] => neighborIndex mask (k / ny) (k % ny) nx ny (-1)
        | _ => -1
      boundaryCell c nX dX ncell mat nmat star (φ k) k (coords nX k) n indn grid
  else some grid

/-- `fill_boundary_cells`, fill.cpp:200-235, visiting the cells in the given order. -/
def fillBoundary (c : Cfg) (nX : List Nat) (dX : List ℝ) (ncell mat nmat : Nat) (star : St → St → Nat → List ℝ → St)
    (φ : Nat → ℝ) (Δφ : Nat → List ℝ) (mask : Mask) (order : List Nat) (grid : Nat → St) : Option (Nat → St) :=
  order.foldlM (boundaryVisit c nX dX ncell mat nmat star φ Δφ mask) grid

/-! ### `fill_ghost_cells` -/

/-- `find_interface_cells`, fill.cpp:20-74. -/
def find (nX : List Nat) (φ : Nat → ℝ) : Mask :=
  match nX with
  | [n] => find1 n φ
  | [nx, ny] => find2 nx ny φ
  | _ => fun _ => 0

/-- fill.cpp:349-366 for one material that is not vacuum: its grid and its mask.  `φ` is the result of
`material_indicator` and `Δφ` that of `finite_difference`.  The level sets are restored at the end (fill.cpp:364-366),
so it does not matter that the copies of `fillNeighbors` carry them along. -/
def ghostCells (c : Cfg) (nX : List Nat) (dX : List ℝ) (mat nmat K : Nat) (star : St → St → Nat → List ℝ → St)
    (φ : Nat → ℝ) (Δφ : Nat → List ℝ) (order : List Nat) (u : Nat → St) : Option ((Nat → St) × (Nat → Bool)) :=
  let ncell := nX.prod
  let mask := find nX φ
  match fillBoundary c nX dX ncell mat nmat star φ Δφ mask order u with
  | none => none
  | some grid =>
    (fillNeighbors nX (fun k => source nX dX (Δφ k) (coords nX k)) K mask
        (fun k => (grid k : St))).map fun s =>
      (fun k => fun a => if a < c.V - c.lset then s.grid k a else u k a,
        fun k => decide ((φ k ≤ 0 ∧ s.mask k ≠ -2) ∨ s.mask k = 1))

end

end Verif.Fill
