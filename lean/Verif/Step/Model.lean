import Verif.Fv.Model

/-!
# Model of `src/solvers/steppers.cpp`

The steppers are written for any arithmetic: `E` is the state of a cell, `R` a block of nodal values, and
the floating-point work is done by black boxes.  Only control flow, indexing and data flow are modelled
here, so equalities proved about these functions are bitwise equalities.

What a stepper writes to `u` is a list of writes `(cell, amount)`, see `Verif.Fv.Model`.
-/

namespace Verif.Step

open Verif.Fv

variable {E D R : Type}

/-- The reconstruction of one cell, weno.cpp:17-73: the four Booleans say which of the left, right, central
left and central right stencils take part; the data are the `2N-1` rows of the block; `wh` rows are returned. -/
abbrev Coef (n : Nat) (E : Type) := Bool → Bool → Bool → Bool → (Fin (2 * n - 1) → E) → Fin n → E

/-- `weno1`, weno.cpp:75-81, with the stencil conditions of weno.cpp:54-71. -/
def weno1G {n : Nat} (coef : Coef n E) (ub : Nat → E) (nx gap : Int) (i : Nat) : Fin n → E :=
  let ind : Int := i
  let fn2 : Int := ((n - 1) / 2 : Nat)
  coef (decide (ind ≥ gap)) (decide (ind ≤ nx - gap - 1)) (decide (n > 2) && decide (ind + fn2 ≥ gap))
    (decide (n > 2) && (decide (n % 2 = 0) && decide (ind - fn2 ≤ nx - gap - 1))) fun r => ub (i + r)

/-- `weno2`, weno.cpp:83-124: `ub` is read in rows of `ny + 2(N-1)`; the result is row `ii*N + jj` of the
block of cell `(i, j)`. -/
def weno2G {n : Nat} (coef : Coef n E) (noCorners : Bool) (ub : Nat → E) (nx ny : Nat) (i j : Nat) :
    Fin n → Fin n → E := fun ii jj =>
  let ux : Nat → E := fun J =>
    let gap : Int := if noCorners && (decide (J < n) || decide (J + n ≥ ny + 2 * (n - 1))) then n else 0
    weno1G coef (fun r => ub (r * (ny + 2 * (n - 1)) + J)) nx gap i ii
  let gap : Int := if noCorners && (decide (i = 0) || decide (i + 1 = nx)) then 1 else 0
  weno1G coef ux ny gap j jj

/-- The predictor's result for a cell: `qh` holds what `predictor` wrote, or `gar`bage from the fresh
allocation (steppers.cpp:15) if it wrote nothing. -/
def orGarbage {α : Type} (m : Bool) (r : Option α) (gar : α) : α := if m then r.getD gar else gar

/-- `ader_stepper`, steppers.cpp:10-22, one dimension: writes to `u`. -/
def ader1 {n : Nat} (coef : Coef n E) (pred : (Fin n → E) → Option (Nat → R)) (K : Kern E D R)
    (ub : Nat → E) (nx : Nat) (mask : Nat → Bool) (gar : Nat → Nat → R) : List (Nat × D) :=
  let wh := fun i => weno1G coef ub ((nx + 2 : Nat) : Int) 0 i
  let qh := fun i => orGarbage (mask i) (pred (wh i)) (gar i)
  fv1 K (fun b => qh (b / n) (b % n)) nx n mask

/-- The same, two dimensions. -/
def ader2 {n : Nat} (coef : Coef n E) (noCorners : Bool) (pred : (Fin n → Fin n → E) → Option (Nat → R))
    (K : Kern E D R) (ub : Nat → E) (nx ny : Nat) (mask : Nat → Bool) (gar : Nat → Nat → R) :
    List (Nat × D) :=
  let wh := fun c => weno2G coef noCorners ub (nx + 2) (ny + 2) (c / (ny + 2)) (c % (ny + 2))
  let qh := fun c => orGarbage (mask c) (pred (wh c)) (gar c)
  fv2 K (fun b => qh (b / n) (b % n)) nx ny n mask

/-- A write of the split stepper: `none` is the action of `ode_launcher` on the cell. -/
def withOde (ode : E → E) (app : E → D → E) : E → Option D → E := fun e d =>
  match d with
  | none => ode e
  | some d => app e d

/-- `ode_launcher(u, ·)`, split/ode.cpp:5-11. -/
def odeOps (cells : Nat) : List (Nat × Option D) := (List.range cells).map fun c => (c, none)

def someOps (l : List (Nat × D)) : List (Nat × Option D) := l.map fun op => (op.1, some op.2)

/-- `split_stepper`, steppers.cpp:50-66, one dimension.  `mid` is `midstepper` on one block
(split/homogeneous.cpp:5-33), `toR` the block of one cell as `fv_launcher` reads it. -/
def split1 {n : Nat} (coef : Coef n E) (ode : E → E) (halfStep : Bool) (mid : (Fin n → E) → (Fin n → E))
    (toR : (Fin n → E) → R) (K : Kern E D R) (ub : Nat → E) (nx : Nat) (mask : Nat → Bool) :
    List (Nat × Option D) :=
  let ub := fun r => ode (ub r)
  let wh := fun i => weno1G coef ub ((nx + 2 : Nat) : Int) 0 i
  let wh := fun i => if halfStep && mask i then mid (wh i) else wh i
  odeOps nx ++ someOps (fv1 K (fun b => toR (wh b)) nx 1 mask) ++ odeOps nx

/-- The same, two dimensions. -/
def split2 {n : Nat} (coef : Coef n E) (noCorners : Bool) (ode : E → E) (halfStep : Bool)
    (mid : (Fin n → Fin n → E) → (Fin n → Fin n → E)) (toR : (Fin n → Fin n → E) → R) (K : Kern E D R)
    (ub : Nat → E) (nx ny : Nat) (mask : Nat → Bool) : List (Nat × Option D) :=
  let ub := fun r => ode (ub r)
  let wh := fun c => weno2G coef noCorners ub (nx + 2) (ny + 2) (c / (ny + 2)) (c % (ny + 2))
  let wh := fun c => if halfStep && mask c then mid (wh c) else wh c
  odeOps (nx * ny) ++ someOps (fv2 K (fun b => toR (wh b)) nx ny 1 mask) ++ odeOps (nx * ny)

/-! ### Workers -/

/-- `start` of worker `w` of `nthreads`, steppers.cpp:36 and 80 (`finish` of `w` is `start` of `w + 1`). -/
def start (nx nthreads w : Nat) : Nat := w * nx / nthreads

/-- Writes of worker `w` of `ader_stepper_para`, steppers.cpp:24-48, as writes to the whole field: `u`, `ub`
and `mask` are handed over as segments beginning at row `start`. -/
def aderWorker1 {n : Nat} (coef : Coef n E) (pred : (Fin n → E) → Option (Nat → R)) (K : Kern E D R)
    (ub : Nat → E) (nx : Nat) (mask : Nat → Bool) (nthreads : Nat) (gar : Nat → Nat → R) (w : Nat) :
    List (Nat × D) :=
  let s := start nx nthreads w
  (ader1 coef pred K (fun r => ub (s + r)) (start nx nthreads (w + 1) - s) (fun i => mask (s + i)) gar).map
    fun op => (s + op.1, op.2)

def aderWorker2 {n : Nat} (coef : Coef n E) (noCorners : Bool)
    (pred : (Fin n → Fin n → E) → Option (Nat → R)) (K : Kern E D R)
    (ub : Nat → E) (nx ny : Nat) (mask : Nat → Bool) (nthreads : Nat) (gar : Nat → Nat → R) (w : Nat) :
    List (Nat × D) :=
  let s := start nx nthreads w
  (ader2 coef noCorners pred K (fun r => ub (s * (ny + 2 * n) + r)) (start nx nthreads (w + 1) - s) ny
    (fun i => mask (s * (ny + 2) + i)) gar).map fun op => (s * ny + op.1, op.2)

/-- Writes of worker `w` of `split_stepper_para`, steppers.cpp:68-94. -/
def splitWorker1 {n : Nat} (coef : Coef n E) (ode : E → E) (halfStep : Bool)
    (mid : (Fin n → E) → (Fin n → E)) (toR : (Fin n → E) → R) (K : Kern E D R) (ub : Nat → E) (nx : Nat)
    (mask : Nat → Bool) (nthreads w : Nat) : List (Nat × Option D) :=
  let s := start nx nthreads w
  (split1 coef ode halfStep mid toR K (fun r => ub (s + r)) (start nx nthreads (w + 1) - s)
    (fun i => mask (s + i))).map fun op => (s + op.1, op.2)

def splitWorker2 {n : Nat} (coef : Coef n E) (noCorners : Bool) (ode : E → E) (halfStep : Bool)
    (mid : (Fin n → Fin n → E) → (Fin n → Fin n → E)) (toR : (Fin n → Fin n → E) → R) (K : Kern E D R)
    (ub : Nat → E) (nx ny : Nat) (mask : Nat → Bool) (nthreads w : Nat) : List (Nat × Option D) :=
  let s := start nx nthreads w
  (split2 coef noCorners ode halfStep mid toR K (fun r => ub (s * (ny + 2 * n) + r))
    (start nx nthreads (w + 1) - s) ny (fun i => mask (s * (ny + 2) + i))).map
    fun op => (s * ny + op.1, op.2)

/-- A schedule: the writes of all workers in some global order, each tagged with its worker, such that every
worker's writes appear in its own order. -/
def IsSchedule (nthreads : Nat) (work : Nat → List (Nat × D)) (l : List (Nat × Nat × D)) : Prop :=
  (∀ x ∈ l, x.1 < nthreads) ∧ ∀ w, w < nthreads → (l.filter fun x => x.1 == w).map Prod.snd = work w

end Verif.Step
