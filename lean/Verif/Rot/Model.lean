import Verif.Sys.Model

/-!
# Model of `src/system/multi/rotations.cpp`
-/

namespace Verif.Rot

open Verif.Sys

noncomputable section

/-- rotations.cpp:9-11: `n` has as many entries as the grid has dimensions; the others are `0`. -/
def pad (n : List ℝ) : V3 := fun i => n.getD i 0

/-- `den`, rotations.cpp:16-29. -/
def den (e : V3) : ℝ :=
  if |e 1 + e 2| ≤ |e 1 - e 2| then Real.sqrt (2 * (1 - e 0 * e 1 - e 1 * e 2 - e 2 * e 0))
  else Real.sqrt (2 * (1 + e 0 * e 1 + e 1 * e 2 - e 2 * e 0))

/-- `e2` before the division, rotations.cpp:19, 26. -/
def raw2 (e : V3) : V3 :=
  if |e 1 + e 2| ≤ |e 1 - e 2| then ![e 1 - e 2, e 2 - e 0, e 0 - e 1]
  else ![e 1 + e 2, e 2 - e 0, -e 0 - e 1]

/-- `e3` before the division, rotations.cpp:20-21, 27-28. -/
def raw3 (e : V3) : V3 :=
  let sq := e 0 * e 0 + e 1 * e 1 + e 2 * e 2
  if |e 1 + e 2| ≤ |e 1 - e 2| then
    let s := e 0 + e 1 + e 2
    fun i => e i * s - sq
  else
    let s := e 0 - e 1 + e 2
    ![e 0 * s - sq, e 1 * s + sq, e 2 * s - sq]

/-- `rotation_matrix`, rotations.cpp:5-35: the rows of the result are `e1`, `e2`, `e3`. -/
def rotationMatrix (n : List ℝ) : M3 :=
  let e := pad n
  Matrix.of ![e, fun i => raw2 e i / den e, fun i => raw3 e i / den e]

/-- `rotate_tensors`, rotations.cpp:37-47.  The distortion is written whether or not `VISCOUS` is set. -/
def rotateTensors (c : Cfg) (Q : St) (R : M3) : St :=
  let Q1 := setSeg 2 (R.mulVec (getRv Q)) Q
  let Q2 := setA (R * getA Q1 * R.transpose) Q1
  if c.thermal then setSeg 14 (R.mulVec (getRJ Q2)) Q2 else Q2

end

end Verif.Rot
