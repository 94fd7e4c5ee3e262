import Verif.Heap.Model
import Mathlib.Analysis.Real.Sqrt
import Mathlib.Data.Finset.Card
import Mathlib.Data.Finset.Filter
import Mathlib.Data.Finset.Range

/-!
# Model of the fast marching code

`skfmm/base_marcher.{h,cpp}`, `skfmm/distance_marcher.cpp` and `src/multi/pfmm.cpp`, with the
constants `pfmm.cpp:14-17` passes: order 1, no narrow band limit, not periodic, no self test.

Simplifications: `double` is `ℝ`; the sentinel `maxDouble` is `none` (every real is smaller);
`finalizePoint` (a no-op hook, base_marcher.h:67) appends the accepted address to the ghost field
`log`.  `heapptr_` and the heap arrays start with arbitrary content.
-/

namespace Verif.March

open Verif

/-- `flag_` values, base_marcher.h:4-7. -/
inductive Flag
  | far | narrow | frozen | mask
deriving DecidableEq, Repr

/-- The neighbour structure the algorithm sees: `nb i dim dir` is the address one step along `dim`
(`dir = true` is `+1`) or `none` at the edge of the grid. -/
structure Grid where
  ndim : Nat
  size : Nat
  nb : Nat → Nat → Bool → Option Nat

/-- `shift_[dim]`, base_marcher.cpp:35-40: product of the later extents. -/
def shift (shape : List Nat) (dim : Nat) : Nat := (shape.drop (dim + 1)).prod

/-- `_setIndex`, base_marcher.h:33-41: coordinates of a flat address. -/
def setIndex : List Nat → Nat → List Nat
  | [], _ => []
  | _ :: ns, rem => (rem / ns.prod) :: setIndex ns (rem - rem / ns.prod * ns.prod)

/-- Non-periodic part of `_getN`, base_marcher.h:69-91, without the flag test. -/
def nbAddr (shape : List Nat) (current dim : Nat) (dir : Bool) : Option Nat :=
  let c := (setIndex shape current).getD dim 0
  let n := shape.getD dim 0
  if dir then
    if c + 1 ≥ n then none else some (current + shift shape dim)
  else
    if c = 0 ∨ c - 1 ≥ n then none else some (current - shift shape dim)

/-- The grid of the constructor, base_marcher.cpp:13-41. -/
def gridOf (shape : List Nat) : Grid where
  ndim := shape.length
  size := shape.prod
  nb := nbAddr shape

/-- `_getN`, base_marcher.h:69-91: neighbour address unless out of range or flagged `fl`. -/
def getN (G : Grid) (flag : Nat → Flag) (i dim : Nat) (dir : Bool) (fl : Flag) : Option Nat :=
  match G.nb i dim dir with
  | none => none
  | some a => if flag a = fl then none else some a

/-- Problem data: grid, spacings, level set and machine epsilon. -/
structure Prob where
  G : Grid
  dx : Nat → ℝ
  phi : Nat → ℝ
  eps : ℝ

/-- `idx2_[dim]`, base_marcher.cpp:33. -/
noncomputable def Prob.idx2 (P : Prob) (dim : Nat) : ℝ := 1 / P.dx dim / P.dx dim

/-- The two directions in loop order (`for (int j = -1; j < 2; j += 2)`). -/
def dirs : List Bool := [false, true]

/-- One direction of the neighbour scan, distance_marcher.cpp:11-19. -/
noncomputable def scanStep (P : Prob) (flag : Nat → Flag) (dist : Nat → ℝ) (i dim : Nat)
    (value : Option ℝ) (dir : Bool) : Option ℝ :=
  match getN P.G flag i dim dir .mask with
  | none => value
  | some a =>
    if flag a = .frozen then
      match value with
      | none => some (dist a)
      | some v => if |dist a| < |v| then some (dist a) else some v
    else value

/-- `value` after the scan of dimension `dim`, distance_marcher.cpp:10-19. -/
noncomputable def scan (P : Prob) (flag : Nat → Flag) (dist : Nat → ℝ) (i dim : Nat) : Option ℝ :=
  dirs.foldl (scanStep P flag dist i dim) none

/-- Accumulation of the quadratic's coefficients, distance_marcher.cpp:20-24. -/
noncomputable def accum (P : Prob) (flag : Nat → Flag) (dist : Nat → ℝ) (i : Nat)
    (abc : ℝ × ℝ × ℝ) (dim : Nat) : ℝ × ℝ × ℝ :=
  match scan P flag dist i dim with
  | none => abc
  | some v => (abc.1 + P.idx2 dim, abc.2.1 - P.idx2 dim * 2 * v, abc.2.2 + P.idx2 dim * v ^ 2)

/-- `solveQuadratic`, distance_marcher.cpp:72-88. -/
noncomputable def solveQuadratic (P : Prob) (i : Nat) (a b c : ℝ) : ℝ :=
  let c' := c - 1
  let det := b ^ 2 - 4 * a * c'
  if 0 < det then
    if P.eps < P.phi i then (-b + Real.sqrt det) / 2 / a else (-b - Real.sqrt det) / 2 / a
  else 0

/-- `updatePointOrderOne`, distance_marcher.cpp:5-28. -/
noncomputable def update (P : Prob) (flag : Nat → Flag) (dist : Nat → ℝ) (i : Nat) : ℝ :=
  let abc := (List.range P.G.ndim).foldl (accum P flag dist i) (0, 0, 0)
  solveQuadratic P i abc.1 abc.2.1 abc.2.2

/-- First loop of `initalizeFrozen`, distance_marcher.cpp:93-98. -/
noncomputable def zeroStep (P : Prob) (st : (Nat → Flag) × (Nat → ℝ)) (i : Nat) :
    (Nat → Flag) × (Nat → ℝ) :=
  if st.1 i ≠ .mask ∧ P.phi i = 0 then
    (Function.update st.1 i .frozen, Function.update st.2 i 0)
  else st

/-- One direction of the crossing scan, distance_marcher.cpp:109-121; the pair is
(`borders`, `ldistance[dim]`). -/
noncomputable def crossStep (P : Prob) (flag : Nat → Flag) (i dim : Nat) (s : Bool × ℝ)
    (dir : Bool) : Bool × ℝ :=
  match getN P.G flag i dim dir .mask with
  | none => s
  | some a =>
    if P.phi i * P.phi a < 0 then
      let d := P.dx dim * P.phi i / (P.phi i - P.phi a)
      (true, if s.2 = 0 ∨ s.2 > d then d else s.2)
    else s

/-- The scan of one dimension, distance_marcher.cpp:107-122; `ldistance[dim]` starts at 0. -/
noncomputable def crossDim (P : Prob) (flag : Nat → Flag) (i dim : Nat) : Bool × ℝ :=
  dirs.foldl (crossStep P flag i dim) (false, 0)

/-- `minDist`, distance_marcher.cpp:126-131 (`none` is `maxDouble`). -/
noncomputable def minDist (P : Prob) (flag : Nat → Flag) (i : Nat) : Option ℝ :=
  (List.range P.G.ndim).foldl (fun m dim =>
    let dist := |(crossDim P flag i dim).2|
    if 0 < dist then
      match m with
      | none => some dist
      | some m => some (min m dist)
    else m) none

/-- One iteration of the second loop of `initalizeFrozen`, distance_marcher.cpp:103-150. -/
noncomputable def borderStep (P : Prob) (st : (Nat → Flag) × (Nat → ℝ)) (i : Nat) :
    (Nat → Flag) × (Nat → ℝ) :=
  if st.1 i = .far then
    if (List.range P.G.ndim).any (fun dim => (crossDim P st.1 i dim).1) then
      match minDist P st.1 i with
      | none => st -- `maxDouble` would be stored; shown unreachable
      | some m => (Function.update st.1 i .frozen,
          Function.update st.2 i (if P.phi i < 0 then -m else m))
    else st
  else st

/-- `initalizeFrozen`, distance_marcher.cpp:90-151, on `FLAG`, `dist` all zero
(pfmm.cpp:8-12). -/
noncomputable def initFrozen (P : Prob) : (Nat → Flag) × (Nat → ℝ) :=
  (List.range P.G.size).foldl (borderStep P)
    ((List.range P.G.size).foldl (zeroStep P) (fun _ => .far, fun _ => 0))

/-- Working state of `march`. -/
structure St where
  flag : Nat → Flag
  dist : Nat → ℝ
  ptr : Nat → Nat
  heap : Heap.State ℝ
  log : List Nat

/-- Failures: those of the heap, or a loop that has not ended within the fuel. -/
inductive MErr
  | heap (e : Heap.Err)
  | fuel
deriving DecidableEq

/-- Lift a heap call. -/
def hp {β : Type} : Except Heap.Err β → Except MErr β
  | .ok b => .ok b
  | .error e => .error (.heap e)

/-- One (dim, direction) of `initalizeNarrow`, base_marcher.cpp:67-84. -/
noncomputable def narrowStep (P : Prob) (i : Nat) (st : St) (t : Nat × Bool) : Except MErr St :=
  match getN P.G st.flag i t.1 t.2 .mask with
  | none => .ok st
  | some a =>
    if st.flag a = .frozen ∧ st.flag i = .far then do
      let flag := Function.update st.flag i .narrow
      let d := update P flag st.dist i
      let r ← hp (Heap.push st.heap i |d|)
      .ok { st with flag := flag, dist := Function.update st.dist i d,
                    ptr := Function.update st.ptr i r.2, heap := r.1 }
    else .ok st

/-- All (dim, direction) pairs in loop order. -/
def dimDirs (G : Grid) : List (Nat × Bool) :=
  (List.range G.ndim).flatMap fun dim => dirs.map fun dir => (dim, dir)

/-- One cell of `initalizeNarrow`, base_marcher.cpp:65-86. -/
noncomputable def narrowCell (P : Prob) (st : St) (i : Nat) : Except MErr St :=
  if st.flag i = .far then (dimDirs P.G).foldlM (narrowStep P i) st else .ok st

/-- `initalizeNarrow`, base_marcher.cpp:62-87. -/
noncomputable def initNarrow (P : Prob) (st : St) : Except MErr St :=
  (List.range P.G.size).foldlM (narrowCell P) st

/-- `flag_[addr] = Frozen; finalizePoint(addr, value); toFreeze.push_back(addr)`,
base_marcher.cpp:120-122 and 130-132. -/
def freeze (st : St) (addr : Nat) : St :=
  { st with flag := Function.update st.flag addr .frozen, log := st.log ++ [addr] }

/-- The inner `while (!done)` loop, base_marcher.cpp:124-135. -/
noncomputable def popEqual (value : ℝ) : Nat → St → List Nat → Except MErr (St × List Nat)
  | 0, _, _ => .error .fuel
  | fuel + 1, st, acc =>
    if Heap.empty st.heap then .ok (st, acc)
    else do
      let top ← hp (Heap.peek st.heap)
      if value = top then do
        let r ← hp (Heap.pop st.heap)
        popEqual value fuel (freeze { st with heap := r.1 } r.2.1.toNat) (acc ++ [r.2.1.toNat])
      else .ok (st, acc)

/-- Update of one neighbour of a newly frozen point, base_marcher.cpp:143-167. -/
noncomputable def relax (P : Prob) (st : St) (t : Nat × Nat × Bool) : Except MErr St :=
  match getN P.G st.flag t.1 t.2.1 t.2.2 .frozen with
  | none => .ok st
  | some n =>
    match st.flag n with
    | .narrow =>
      let d := update P st.flag st.dist n
      if d ≠ 0 then do
        let h ← hp (Heap.set st.heap (st.ptr n) |d|)
        .ok { st with heap := h, dist := Function.update st.dist n d }
      else .ok st
    | .far =>
      let d := update P st.flag st.dist n
      if d ≠ 0 then do
        let r ← hp (Heap.push st.heap n |d|)
        .ok { st with dist := Function.update st.dist n d,
                      flag := Function.update st.flag n .narrow,
                      ptr := Function.update st.ptr n r.2, heap := r.1 }
      else .ok st
    | _ => .ok st

/-- The loops over `toFreeze`, dimensions and directions in order, base_marcher.cpp:137-187. -/
def tasks (G : Grid) (toFreeze : List Nat) : List (Nat × Nat × Bool) :=
  toFreeze.flatMap fun a => (dimDirs G).map fun t => (a, t.1, t.2)

/-- One iteration of the outer loop, base_marcher.cpp:110-188. -/
noncomputable def marchStep (P : Prob) (fuel : Nat) (st : St) : Except MErr St := do
  let r ← hp (Heap.pop st.heap)
  let addr := r.2.1.toNat
  let q ← popEqual r.2.2 fuel (freeze { st with heap := r.1 } addr) [addr]
  (tasks P.G q.2).foldlM (relax P) q.1

/-- The outer loop, base_marcher.cpp:110-188. -/
noncomputable def marchLoop (P : Prob) (fuel : Nat) : Nat → St → Except MErr St
  | 0, _ => .error .fuel
  | k + 1, st =>
    if Heap.empty st.heap then .ok st
    else do
      let st' ← marchStep P fuel st
      marchLoop P fuel k st'

/-- Result of `distance`: field values (`none` is `maxDouble`), error code and acceptance log. -/
structure Res where
  dist : Nat → Option ℝ
  error : Nat
  log : List Nat
  flag0 : Nat → Flag

/-- Uninitialised memory handed to the constructor of the heap and to `heapptr_`. -/
structure Garbage where
  d : Nat → ℝ
  h : Nat → Nat
  a : Nat → Int
  b : Nat → Nat
  ptr : Nat → Nat

/-- `march` (base_marcher.cpp:43-55) with `solve` (98-198), as called by `distance`
(src/multi/pfmm.cpp:4-26). `flag0` is the flag array after `initalizeFrozen` (ghost). -/
noncomputable def distance (P : Prob) (g : Garbage) (fuel : Nat) : Except MErr Res := do
  let init := initFrozen P
  let maxHeap := ((Finset.range P.G.size).filter fun i => init.1 i = .far).card
  let st0 : St := ⟨init.1, init.2, g.ptr, Heap.init maxHeap g.d g.h g.a g.b, []⟩
  let st1 ← initNarrow P st0
  if ((Finset.range P.G.size).filter fun i => st1.flag i = .frozen).card = 0 then
    .ok ⟨fun i => some (st1.dist i), 2, [], init.1⟩
  else do
    let st2 ← marchLoop P fuel fuel st1
    .ok ⟨fun i => if st2.flag i = .frozen then some (st2.dist i) else none, 0, st2.log, init.1⟩

/-- `renormalize_levelsets`, src/multi/functions.cpp:56-63: every level-set column is replaced by
its distance function.  Each call gets its own uninitialised memory. -/
noncomputable def renormalize (P : Prob) (fuel : Nat) :
    List ((Nat → ℝ) × Garbage) → Except MErr (List (Nat → Option ℝ))
  | [] => .ok []
  | c :: cs => do
    let r ← distance { P with phi := c.1 } c.2 fuel
    let rs ← renormalize P fuel cs
    .ok (r.dist :: rs)

/-- The test `Q(i) >= 0.` of `get_material_index` on a stored value (`none` is `maxDouble`). -/
def Nonneg : Option ℝ → Prop
  | none => True
  | some v => 0 ≤ v

open Classical in
/-- `get_material_index`, src/system/functions/vectors.cpp:24-31: number of non-negative level
sets of cell `i`. -/
noncomputable def materialIndex (cols : List (Nat → Option ℝ)) (i : Nat) : Nat :=
  cols.countP fun c => decide (Nonneg (c i))

end Verif.March
