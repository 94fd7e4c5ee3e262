import Verif.Iter.Loop
import Verif.Iter.Utils
import Verif.Iter.Props

/-!
# The passes of `iterator` put together

`src/solvers/iterator.cpp:110-151`: the functions of the other areas in the order in which `iterator` calls them.
-/

namespace Verif.Run

open Verif.Sys Verif.Iter

noncomputable section

/-- What the end of a pass depends on: the materials, `ROTATE_DISTORTION`, Eigen's decompositions and `contorted_tol`. -/
structure Tail (c : Cfg) where
  ncell : Nat
  MPs : List (Option Par)
  rot : Bool
  svd : M3 → V3 × M3
  sv : M3 → V3
  tol : ℝ

/-- `if (count % 10 == 0 and ROTATE_DISTORTION) rotate_distortion(u, MPs);`, iterator.cpp:147-148. -/
def rotateSome {c : Cfg} (F : Tail c) (count : Nat) (u : Mem) : Option Mem :=
  if count % 10 = 0 ∧ F.rot = true then rotateDistortion c F.svd F.ncell F.MPs u else some u

/-- `if (contorted(u, contorted_tol)) reset_distortion(u, MPs);`, iterator.cpp:150-151. -/
def resetSome {c : Cfg} (F : Tail c) (u : Mem) : Option Mem :=
  if contorted c F.sv F.ncell u F.tol then resetDistortion c F.ncell F.MPs u else some u

/-- The end of a pass, iterator.cpp:140-151; `count` is the number of passes including this one. -/
def finish {c : Cfg} (F : Tail c) (count : Nat) (u : Mem) : Option Mem := do
  let u1 ← renormDistortion c F.ncell F.MPs (limitConcentration c F.ncell u)
  let u2 ← rotateSome F count u1
  resetSome F u2

end

end Verif.Run
