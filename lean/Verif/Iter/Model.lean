import Verif.Sys.Model

/-!
# Model of `src/solvers/iterator.cpp` and `src/solvers/utils.cpp`

Grids are flat vectors: cell `i` starts at position `i * V`.  A material is `none` when its `EOS` is `-1` (vacuum)
and carries its parameters otherwise.  An index past the end of the list of materials is the outcome `none` of a
function that returns an `Option`.  Real arithmetic; NaN wave speeds are explicit in `timestep`.
-/

namespace Verif.Iter

open Verif.Sys

/-- A flat vector. -/
abbrev Mem := Nat → ℝ

noncomputable section

/-- `u.segment<V>(i * V)`, without its end: functions that read past a cell read the next one. -/
def view (c : Cfg) (u : Mem) (i : Nat) : St := fun k => u (i * c.V + k)

/-- `get_material_index`, system/functions/vectors.cpp:24-31. -/
def materialIndex (c : Cfg) (Q : St) : Nat :=
  (List.range c.lset).foldl (fun ret k => if 0 ≤ Q (c.V - c.lset + k) then ret + 1 else ret) 0

/-- The C function. -/
def cbrt (x : ℝ) : ℝ := if 0 ≤ x then x ^ (1 / 3 : ℝ) else -(-x) ^ (1 / 3 : ℝ)

/-! ### `make_u` -/

/-- The materials whose mask holds in cell `i`, iterator.cpp:26-27. -/
def active (n : Nat) (masks : List (Nat → Bool)) (i : Nat) : List Nat :=
  (List.range n).filter fun m => (masks.getD m fun _ => false) i

/-- iterator.cpp:24-33: the level sets of cell `i` become the mean of those of the active materials, if any. -/
def averageLevels (c : Cfg) (grids : List Mem) (masks : List (Nat → Bool)) (u : Mem) (i : Nat) : Mem :=
  let act := active grids.length masks i
  fun k => if act.length > 0 ∧ i * c.V + (c.V - c.lset) ≤ k ∧ k < i * c.V + c.V then
      (act.map fun m => (grids.getD m fun _ => 0) k).sum / act.length
    else u k

/-- `u.segment<V - LSET>(i * V) = g` -/
def setHead (c : Cfg) (i : Nat) (g u : Mem) : Mem := fun k =>
  if i * c.V ≤ k ∧ k < i * c.V + (c.V - c.lset) then g k else u k

/-- One pass of the loop of `make_u`, iterator.cpp:22-40. -/
def makeCell (c : Cfg) (grids : List Mem) (masks : List (Nat → Bool)) (MPs : List (Option Par)) (u : Mem) (i : Nat) :
    Option Mem :=
  let u1 := averageLevels c grids masks u i
  let mi := materialIndex c (view c u1 i)
  match MPs[mi]? with
  | none => none
  | some none => some (setHead c i (fun _ => 0) u1)
  | some (some _) =>
    match grids[mi]? with
    | none => none
    | some g => some (setHead c i g u1)

/-- `make_u`, iterator.cpp:12-42. -/
def makeU (c : Cfg) (ncell : Nat) (grids : List Mem) (masks : List (Nat → Bool)) (MPs : List (Option Par)) (u : Mem) :
    Option Mem :=
  (List.range ncell).foldlM (makeCell c grids masks MPs) u

/-! ### `limit_concentration` -/

/-- `std::min` and `std::max`. -/
def stdMin (a b : ℝ) : ℝ := if b < a then b else a
def stdMax (a b : ℝ) : ℝ := if a < b then b else a

/-- One pass of the loop of `limit_concentration`, iterator.cpp:47-50. -/
def limitCell (c : Cfg) (u : Mem) (i : Nat) : Mem :=
  let u1 := Function.update u (i * c.V + c.mV) (stdMin (u (i * c.V + c.mV)) (u (i * c.V)))
  Function.update u1 (i * c.V + c.mV) (stdMax (u1 (i * c.V + c.mV)) 0)

/-- `limit_concentration`, iterator.cpp:44-52. -/
def limitConcentration (c : Cfg) (ncell : Nat) (u : Mem) : Mem :=
  if c.multi then (List.range ncell).foldl (limitCell c) u else u

/-! ### `timestep` -/

/-- What the comparisons of `timestep` distinguish in a double. -/
inductive Ext
  | fin (x : ℝ)
  | posInf
  | negInf
  | nan

/-- `std::max(MAX, tmp)`: a NaN on the right is ignored. -/
def maxNan (a : ℝ) : Option ℝ → ℝ
  | none => a
  | some b => if a < b then b else a

/-- `tmp`, iterator.cpp:67-70.  `mae` is `max_abs_eigs`, `none` when it is NaN. -/
def cellSpeed (mae : Par → St → Nat → Option ℝ) (dX : List ℝ) (P : Par) (Q : St) : Option ℝ :=
  (List.range dX.length).foldl (fun tmp d => match tmp, mae P Q d with
    | some a, some b => some (a + b / dX.getD d 0)
    | _, _ => none) (some 0)

/-- `MAX`, iterator.cpp:58-72. -/
def maxSpeed (c : Cfg) (mae : Par → St → Nat → Option ℝ) (grids : List Mem) (masks : List (Nat → Bool))
    (dX : List ℝ) (MPs : List (Option Par)) (nmat ncell : Nat) : ℝ :=
  (List.range nmat).foldl (fun MAX mat => match (MPs.getD mat none) with
    | none => MAX
    | some P => (List.range ncell).foldl (fun MAX ind =>
        if (masks.getD mat fun _ => false) ind then
          maxNan MAX (cellSpeed mae dX P (view c (grids.getD mat fun _ => 0) ind))
        else MAX) MAX) 0

/-- `dt = CFL / MAX`, iterator.cpp:74. -/
def quotient (CFL MAX : ℝ) : Ext :=
  if MAX = 0 then (if 0 < CFL then .posInf else if CFL < 0 then .negInf else .nan) else .fin (CFL / MAX)

/-- iterator.cpp:76-82. -/
def clip (t tf : ℝ) (count : Nat) (dt : Ext) : Ext :=
  let dt : Ext := match dt with
    | .fin x => .fin (if count ≤ 5 then x * 0.2 else x)
    | e => e
  match dt with
  | .fin x => if t + x > tf then .fin (tf - t) else .fin x
  | .posInf => .fin (tf - t)
  | .negInf => .negInf
  | .nan => .nan

/-- `timestep`, iterator.cpp:54-83. -/
def timestep (c : Cfg) (mae : Par → St → Nat → Option ℝ) (grids : List Mem) (masks : List (Nat → Bool))
    (dX : List ℝ) (CFL t tf : ℝ) (count : Nat) (MPs : List (Option Par)) (nmat ncell : Nat) : Ext :=
  clip t tf count (quotient CFL (maxSpeed c mae grids masks dX MPs nmat ncell))

/-! ### `utils.cpp` -/

/-- A pass that leaves vacuum alone, utils.cpp:11-12, 29-30 and 48-49. -/
def matterCell (c : Cfg) (MPs : List (Option Par)) (g : Par → Mem → Nat → Mem) (u : Mem) (i : Nat) : Option Mem :=
  match MPs[materialIndex c (view c u i)]? with
  | none => none
  | some none => some u
  | some (some P) => some (g P u i)

/-- utils.cpp:14-20. -/
def renormCell (c : Cfg) (P : Par) (u : Mem) (i : Nat) : Mem :=
  let ρ := u (i * c.V)
  if ρ > 0 then
    let f := cbrt (ρ / (P.ρ0 * (getA (view c u i)).det))
    fun k => if i * c.V + 5 ≤ k ∧ k < i * c.V + 5 + 9 then u k * f else u k
  else u

/-- `renorm_distortion`, utils.cpp:6-23. -/
def renormDistortion (c : Cfg) (ncell : Nat) (MPs : List (Option Par)) (u : Mem) : Option Mem :=
  (List.range ncell).foldlM (matterCell c MPs (renormCell c)) u

/-- utils.cpp:32-39.  `svd` gives the singular values and `V`. -/
def rotateCell (c : Cfg) (svd : M3 → V3 × M3) (_P : Par) (u : Mem) (i : Nat) : Mem :=
  let d := svd (getA (view c u i))
  (List.finRange 3).foldl (fun (u : Mem) (j : Fin 3) => setSeg (i * c.V + 5 + 3 * j) (fun a => d.1 j * d.2 a j) u) u

/-- `rotate_distortion`, utils.cpp:25-42. -/
def rotateDistortion (c : Cfg) (svd : M3 → V3 × M3) (ncell : Nat) (MPs : List (Option Par)) (u : Mem) : Option Mem :=
  (List.range ncell).foldlM (matterCell c MPs (rotateCell c svd)) u

/-- utils.cpp:51-60. -/
def resetCell (c : Cfg) (P : Par) (u : Mem) (i : Nat) : Mem :=
  let ρ := u (i * c.V)
  let f := cbrt (ρ / P.ρ0)
  let u1 := setAt (i * c.V + 1) (u (i * c.V + 1) - ρ * E2A P.toParams ρ (getA (view c u i))) u
  let u2 : Mem := fun k => if i * c.V + 5 ≤ k ∧ k < i * c.V + 5 + 9 then 0 else u1 k
  setAt (i * c.V + 13) f (setAt (i * c.V + 9) f (setAt (i * c.V + 5) f u2))

/-- `reset_distortion`, utils.cpp:44-63. -/
def resetDistortion (c : Cfg) (ncell : Nat) (MPs : List (Option Par)) (u : Mem) : Option Mem :=
  (List.range ncell).foldlM (matterCell c MPs (resetCell c)) u

/-- `m0`, utils.cpp:72-80, from the singular values.  A vanishing product makes the last quotient `0/0`, so `m0` is
NaN: the outcome `none`. -/
def anisotropy (s : V3) : Option ℝ :=
  let detA := s 0 * s 1 * s 2
  if detA = 0 then none
  else
    let detA13 := cbrt detA
    let detA23 := detA13 * detA13
    some ((s 0 * s 0 / detA23 + s 1 * s 1 / detA23 + s 2 * s 2 / detA23) / 3)

/-- `contorted`, utils.cpp:65-85: there is no test for vacuum. -/
def contorted (c : Cfg) (sv : M3 → V3) (ncell : Nat) (u : Mem) (tol : ℝ) : Bool :=
  (List.range ncell).any fun i => match anisotropy (sv (getA (view c u i))) with
    | none => false
    | some m0 => decide (m0 - 1 > tol)

end

end Verif.Iter
