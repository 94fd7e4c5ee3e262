import Verif.Dg.Model

/-!
# Model of `src/solvers/fv/fv.cpp` and `Bint` of `src/solvers/fv/fluxes.cpp`

Everything `fv_launcher` adds to `u` is computed from the reconstruction only, so an update is a list of
increments `(cell, amount)` in program order.  The loop structure (masks, indices, order) is written for
any kernel: `E` is the type of a cell's state, `D` of an increment, `R` of the block of nodal values of one
cell at one time node; `app` is `+=`.  `-=` is `+=` of the negated amount.
-/

namespace Verif.Fv

/-- The arithmetic of one cell centre and of one face, as a black box. -/
structure Kern (E D R : Type) where
  app : E → D → E
  /-- increments of a cell centre at time node `t`, one per space node -/
  cen : Nat → R → List D
  /-- increments of the cells left and right of a face normal to axis `d` at time node `t` -/
  face : Nat → Nat → R → R → D × D

variable {E D R : Type}

/-- `ind(i, t, nt)`, fv.cpp:7. -/
def ind2 (i t nt : Nat) : Nat := i * nt + t

/-- `ind(i, j, t, ny, nt)`, fv.cpp:9. -/
def ind3 (i j t ny nt : Nat) : Nat := (i * ny + j) * nt + t

/-- `centers1_inner`, fv.cpp:11-44. -/
def centers1Inner (K : Kern E D R) (rec : Nat → R) (nx nt t : Nat) (mask : Nat → Bool) : List (Nat × D) :=
  (List.range nx).flatMap fun i =>
    if mask (i + 1) then (K.cen t (rec (ind2 (i + 1) t nt))).map fun d => (i, d) else []

/-- `interfs1_inner`, fv.cpp:111-149. -/
def interfs1Inner (K : Kern E D R) (rec : Nat → R) (nx nt t : Nat) (mask : Nat → Bool) : List (Nat × D) :=
  (List.range (nx + 1)).flatMap fun i =>
    if mask i && mask (i + 1) then
      let d := K.face 0 t (rec (ind2 i t nt)) (rec (ind2 (i + 1) t nt))
      (if i > 0 then [(i - 1, d.1)] else []) ++ (if i < nx then [(i, d.2)] else [])
    else []

/-- `ind(i, j, n)` of `functions/vectors.h`: row-major cell number. -/
def cell (i j ny : Nat) : Nat := i * ny + j

/-- `centers2_inner`, fv.cpp:56-97. -/
def centers2Inner (K : Kern E D R) (rec : Nat → R) (nx ny nt t : Nat) (mask : Nat → Bool) : List (Nat × D) :=
  (List.range nx).flatMap fun i => (List.range ny).flatMap fun j =>
    if mask (cell (i + 1) (j + 1) (ny + 2)) then
      (K.cen t (rec (ind3 (i + 1) (j + 1) t (ny + 2) nt))).map fun d => (cell i j ny, d)
    else []

/-- The face between `(i, j)` and `(i+1, j)`, fv.cpp:186-224. -/
def faceX (K : Kern E D R) (rec : Nat → R) (nx ny nt t : Nat) (mask : Nat → Bool) (i j : Nat) :
    List (Nat × D) :=
  if mask (cell (i + 1) j (ny + 2)) && decide (j > 0) then
    let d := K.face 0 t (rec (ind3 i j t (ny + 2) nt)) (rec (ind3 (i + 1) j t (ny + 2) nt))
    (if i > 0 then [(cell (i - 1) (j - 1) ny, d.1)] else []) ++
      (if i < nx then [(cell i (j - 1) ny, d.2)] else [])
  else []

/-- The face between `(i, j)` and `(i, j+1)`, fv.cpp:225-263. -/
def faceY (K : Kern E D R) (rec : Nat → R) (_nx ny nt t : Nat) (mask : Nat → Bool) (i j : Nat) :
    List (Nat × D) :=
  if mask (cell i (j + 1) (ny + 2)) && decide (i > 0) then
    let d := K.face 1 t (rec (ind3 i j t (ny + 2) nt)) (rec (ind3 i (j + 1) t (ny + 2) nt))
    (if j > 0 then [(cell (i - 1) (j - 1) ny, d.1)] else []) ++
      (if j < ny then [(cell (i - 1) j ny, d.2)] else [])
  else []

/-- `interfs2_inner`, fv.cpp:162-268. -/
def interfs2Inner (K : Kern E D R) (rec : Nat → R) (nx ny nt t : Nat) (mask : Nat → Bool) : List (Nat × D) :=
  (List.range (nx + 1)).flatMap fun i => (List.range (ny + 1)).flatMap fun j =>
    if mask (cell i j (ny + 2)) then
      faceX K rec nx ny nt t mask i j ++ faceY K rec nx ny nt t mask i j
    else []

/-- `centers1; interfs1` of `fv_launcher`, fv.cpp:46-54, 151-160, 281-291.  `nt` is `N` with the time
loop and 1 without it (`TIME`); both loops run over the same `t`. -/
def fv1 (K : Kern E D R) (rec : Nat → R) (nx nt : Nat) (mask : Nat → Bool) : List (Nat × D) :=
  ((List.range nt).flatMap fun t => centers1Inner K rec nx nt t mask) ++
    (List.range nt).flatMap fun t => interfs1Inner K rec nx nt t mask

/-- `centers2; interfs2` of `fv_launcher`, fv.cpp:99-109, 270-279, 292-295. -/
def fv2 (K : Kern E D R) (rec : Nat → R) (nx ny nt : Nat) (mask : Nat → Bool) : List (Nat × D) :=
  ((List.range nt).flatMap fun t => centers2Inner K rec nx ny nt t mask) ++
    (List.range nt).flatMap fun t => interfs2Inner K rec nx ny nt t mask

/-- Perform the increments on `u`. -/
def apply (app : E → D → E) (ops : List (Nat × D)) (u : Nat → E) : Nat → E :=
  ops.foldl (fun u op => Function.update u op.1 (app (u op.1) op.2)) u

/-! ### The kernel over the reals -/

open Verif.Dg Verif.Basis

variable {n : Nat} {ι : Type}

/-- `Bint`, fluxes.cpp:9-20. -/
noncomputable def bint (S : Sys ι) (T : Tab n) (d : Nat) (ql qr : ι → ℝ) : ι → ℝ :=
  (List.finRange n).foldl (fun ret i => ret + T.w i • S.bdot d (ql + T.nodes i • (qr - ql)) (qr - ql)) 0

/-- The increments computed at one face node: `(k*(b + f), k*(b - f))`. -/
noncomputable def faceNode (S : Sys ι) (T : Tab n) (fl : Nat → (ι → ℝ) → (ι → ℝ) → (ι → ℝ)) (d : Nat)
    (k : ℝ) (ql qr : ι → ℝ) : (ι → ℝ) × (ι → ℝ) :=
  let f := fl d ql qr
  let b := bint S T d ql qr
  (k • (b + f), k • (b - f))

/-- One dimension, fv.cpp:11-44 and 119-147.  `fl d qL qR` is the interface function selected by `FLUX`;
`wt t` is the time weight (`dt*WGHTS(t)`, or `dt` without the time loop). -/
noncomputable def kern1 (S : Sys ι) (T : Tab n) (fl : Nat → (ι → ℝ) → (ι → ℝ) → (ι → ℝ))
    (wt : Nat → ℝ) (dx : ℝ) (sources : Bool) : Kern (ι → ℝ) (ι → ℝ) (Fin n → ι → ℝ) where
  app := fun u d => u + d
  cen := fun t qh => (List.finRange n).map fun s =>
    let dq : ι → ℝ := fun v => ∑ k, T.dervals s k * qh k v
    let src := if sources then S.source (qh s) else 0
    (wt t * T.w s) • (src - (1 / dx) • S.bdot 0 (qh s) dq)
  face := fun d t qhl qhr =>
    let ql : ι → ℝ := fun v => ∑ k, T.endvals 1 k * qhl k v
    let qr : ι → ℝ := fun v => ∑ k, T.endvals 0 k * qhr k v
    let r := faceNode S T fl d (wt t / (2 * dx)) ql qr
    (-r.1, -r.2)

/-- Two dimensions, fv.cpp:56-97 and 166-262; a block has `N*N` rows. -/
noncomputable def kern2 (S : Sys ι) (T : Tab n) (fl : Nat → (ι → ℝ) → (ι → ℝ) → (ι → ℝ))
    (wt : Nat → ℝ) (dx dy : ℝ) (sources : Bool) : Kern (ι → ℝ) (ι → ℝ) (Nat → ι → ℝ) where
  app := fun u d => u + d
  cen := fun t qh => (List.finRange n).flatMap fun (a : Fin n) => (List.finRange n).map fun (b : Fin n) =>
    let s : Nat := a * n + b
    let dqx : ι → ℝ := fun v => derivs2d T.dervals (fun _ => 0) (fun r => qh r v) 0 s
    let dqy : ι → ℝ := fun v => derivs2d T.dervals (fun _ => 0) (fun r => qh r v) 1 s
    let src := if sources then S.source (qh s) else 0
    (wt t * T.w a * T.w b) •
      (src - (1 / dx) • S.bdot 0 (qh s) dqx - (1 / dy) • S.bdot 1 (qh s) dqy)
  face := fun d t qh0 qh1 =>
    let h := if d = 0 then dx else dy
    let q0 : Nat → ι → ℝ := fun s v => endpts2d T.endvals (fun _ => 0) (fun r => qh0 r v) d 1 s
    let q1 : Nat → ι → ℝ := fun s v => endpts2d T.endvals (fun _ => 0) (fun r => qh1 r v) d 0 s
    let u0 := (List.finRange n).foldl
      (fun a (s : Fin n) => a + (faceNode S T fl d (wt t / (2 * h) * T.w s) (q0 s) (q1 s)).1) 0
    let u1 := (List.finRange n).foldl
      (fun a (s : Fin n) => a + (faceNode S T fl d (wt t / (2 * h) * T.w s) (q0 s) (q1 s)).2) 0
    (-u0, -u1)

end Verif.Fv
