import Verif.Run.Dense
import Verif.Run.FirstCorners

/-! # Densities stay positive in first order -/

namespace Verif.Run

open Verif.Sys Verif.Iter Verif.Dg Verif.Fv Verif.Step Verif.Grid Verif.Rot

noncomputable section

variable {c : Sys.Cfg} (E : Env c 1)

/-! ### Tables with one node -/

section one

variable {T : Tab 1} {ι : Type} (h : T.Ok)

include h

theorem one_w : T.w 0 = 1 := by simpa using weights_one h

theorem one_endvals (e : Fin 2) : T.endvals e 0 = 1 := by simpa using endvals_sum h e

theorem one_der : T.der 0 0 = 0 := by simpa using der_const h 0

theorem one_psi : Poly.evaluate (T.psi 0) 0 = 1 := one_endvals h 0

theorem one_mat : T.mat 0 0 = 1 := by
  have := mat_const h 0
  rw [one_psi h] at this
  simpa using this

theorem one_trace (e : Fin 2) (q : Fin 1 → ι → ℝ) : trace T e q = q 0 := by
  funext v
  simp [trace, one_endvals h]

theorem one_trace2 (d : Nat) (e : Fin 2) (q : Nat → ι → ℝ) (s : Fin 1) : trace2 T d e q s = q 0 := by
  funext v
  fin_cases s
  simp [trace2, one_endvals h]

/-- The predictor keeps a component without source terms and without non-conservative products. -/
theorem one_pred1 (S : Dg.Sys ι) (v : ι) (hs : ∀ q, S.source q v = 0) (hB : ∀ d q x, S.bdot d q x v = 0) (dt dx tol : ℝ) (it : Nat)
    (step : (Fin 1 → ι → ℝ) → (Nat → ι → ℝ) → (Nat → ι → ℝ)) (hstep : ∀ w, IsStep1 T S (initialCondition1 T (rows1 w)) dt dx (step w))
    (nw : (Fin 1 → ι → ℝ) → (Nat → ι → ℝ)) (w : Fin 1 → ι → ℝ) (a : Nat → Fin 1 → ι → ℝ)
    (ha : Step.pred1 false it tol step nw w = some a) : a 0 0 v = w 0 v := by
  unfold Step.pred1 at ha
  simp only [Bool.false_eq_true, if_false, Option.map_eq_some_iff] at ha
  obtain ⟨q, hq, rfl⟩ := ha
  obtain ⟨q', -, e⟩ := predictor1_accepts S _ dt dx tol (step w) (hstep w) _ _ q it hq
  have := e 0 0 v
  have r := initialCondition1_row T (rows1 w) 0 0 v
  simp only [rhs1, hs, hB, r] at this
  simp only [Finset.univ_unique, Fin.default_eq_zero, Finset.sum_singleton, one_mat h, one_w h, one_der h, one_psi h, rows1] at this
  simpa using this

theorem one_pred2 (S : Dg.Sys ι) (v : ι) (hs : ∀ q, S.source q v = 0) (hB : ∀ d q x, S.bdot d q x v = 0) (dt dx dy tol : ℝ) (it : Nat)
    (step : (Fin 1 → Fin 1 → ι → ℝ) → (Nat → ι → ℝ) → (Nat → ι → ℝ))
    (hstep : ∀ w, IsStep2 T S (initialCondition2 T (rows2 w)) dt dx dy (step w))
    (nw : (Fin 1 → Fin 1 → ι → ℝ) → (Nat → ι → ℝ)) (w : Fin 1 → Fin 1 → ι → ℝ) (a : Nat → Nat → ι → ℝ)
    (ha : Step.pred2 false it tol step nw w = some a) : a 0 0 v = w 0 0 v := by
  unfold Step.pred2 at ha
  simp only [Bool.false_eq_true, if_false, Option.map_eq_some_iff] at ha
  obtain ⟨q, hq, rfl⟩ := ha
  obtain ⟨k, -, -, hc⟩ := iterate_written (step w) _ _ _ it _ q hq
  rcases hc with ⟨hn, -⟩ | ⟨-, rfl⟩
  · simp at hn
  rw [Function.iterate_succ_apply']
  generalize (step w)^[k] _ = q'
  obtain ⟨U, hU, hr, hcl, hent⟩ := u2_entry T (fun _ _ => 0)
  have := (solves2_iff hr hcl hent _ _).1 (hstep w _ U hU q' (fun r v => rhs2 S T q' (initialCondition2 T (rows2 w)) dt dx dy 0 0 0 v)
    (fun t i j => by fin_cases t; fin_cases i; fin_cases j; rfl)) 0 0 0 v
  have r := initialCondition2_row T (rows2 w) 0 0 0 v
  simp only [rhs2, hs, hB, r] at this
  simp only [Finset.univ_unique, Fin.default_eq_zero, Finset.sum_singleton, one_mat h, one_w h, one_der h, one_psi h, rows2] at this
  simpa [List.finRange_succ, one_der h] using this

omit h in
theorem one_weno1 (W : Weno.Setup 1) (undef : ℝ) (ub : Nat → ι → ℝ) (nx i : Nat) :
    weno1G (realCoef W.T undef) ub nx 0 i = fun _ => ub i := by
  funext k
  exact weno1G_const W undef ub nx 0 i (Weno.active_zero 1 nx i) _ (fun r hr => by rw [show r = 0 by omega]; rfl) k

omit h in
theorem one_weno2 (W : Weno.Setup 1) (undef : ℝ) (ub : Nat → ι → ℝ) (nx ny i j : Nat) :
    weno2G (realCoef W.T undef) false ub nx ny i j = fun _ _ => ub (i * ny + j) := by
  funext a b
  unfold weno2G
  simp only [Bool.false_and, Bool.false_eq_true, if_false]
  rw [one_weno1 W undef _ ny j]
  simp only
  rw [one_weno1 W undef _ nx i]
  rfl

end one

/-! ### Ends -/

/-- Ghost cells have the densities of the cells they are copied from. -/
theorem ghost_mass (ds : Option (Grid.Cell ℝ → Grid.Cell ℝ)) (hds : ∀ f, ds = some f → ∀ q, f q 0 = q 0) (d : Nat) (b0 b1 : BT)
    (nx k : Nat) (q : Grid.Cell ℝ) : ghostOf ⟨1, ds⟩ d b0 b1 nx k q 0 = q 0 := by
  have hd : ∀ q, Grid.Cfg.ds ⟨1, ds⟩ q 0 = q 0 := fun q => by
    unfold Grid.Cfg.ds
    cases hs : ds with
    | none => rfl
    | some f => exact hds f hs q
  have hn : ∀ (q : Grid.Cell ℝ) j, j ≠ 0 → negAt q j 0 = q 0 := fun q j hj => by
    simp [negAt, hj.symm]
  have hw : ∀ b, wall ⟨1, ds⟩ d b q q 0 = q 0 := fun b => by
    cases b
    · rfl
    · rfl
    · simp only [wall, slip]; rw [hd, hn _ _ (by omega)]
    · simp only [wall, stick, negMom]; rw [hd, hn _ _ (by omega), hn _ _ (by omega), hn _ _ (by omega)]
    · simp only [wall, moving, negMom]
      rw [hd]
      simp only [Function.update_apply]
      simp [hn]
    · simp only [wall, symmetric]
      rw [hn _ _ (by omega), hn _ _ (by omega), hn _ _ (by omega), hn _ _ (by omega), hn _ _ (by omega), hn _ _ (by omega),
        hn _ _ (by omega)]
    · rfl
  unfold ghostOf
  split_ifs
  · exact hw b0
  · rfl
  · exact hw b1

/-- `destress` keeps the density, as the theorems below ask for. -/
theorem destress_mass (svd : M3 → M3 × V3 × M3) (q : St) : Grid.destress svd q 0 = q 0 := by
  simp [Grid.destress, setA, setSeg, setAt]

/-- Every cell of the grid has a positive density. -/
def Dense (c : Sys.Cfg) (ncell : Nat) (u : Iter.Mem) : Prop := ∀ i < ncell, 0 < u (i * c.V)

theorem pads1_dense (hE : E.Ok) (hds : ∀ f, E.destress = some f → ∀ q, f q 0 = q 0) (b : Nat → BT)
    (h0 : b 0 ≠ .other) (h1 : b 1 ≠ .other) (u : Iter.Mem) (hu : Dense c E.nx u) (ub : Nat → Fin c.V → ℝ) (hp : Pads1 E b u ub)
    (v : Fin c.V) (hv : v.1 = 0) (r : Nat) (hr : r < E.nx + 2) : 0 < ub r v := by
  obtain ⟨old, m', hm, hub⟩ := hp
  obtain ⟨m'', e, a, -⟩ := Grid.boundaries_1d ⟨1, E.destress⟩ E.nx (b 0) (b 1) (memOf c u old) hE.wide.1 h0 h1
  rw [hm] at e
  cases e
  rw [hub, a r (by simpa using hr), hv, ghost_mass E.destress hds]
  exact hu _ (srcOf_lt hE.wide.1 (by have := hE.wide.1; omega) (by simpa using hr))

theorem pads2_dense (hE : E.Ok) (hds : ∀ f, E.destress = some f → ∀ q, f q 0 = q 0) (b : Nat → BT)
    (hb : ∀ k < 4, b k ≠ .other) (u : Iter.Mem) (hu : Dense c (E.nx * E.ny) u) (ub : Nat → Fin c.V → ℝ) (hp : Pads2 E b u ub)
    (v : Fin c.V) (hv : v.1 = 0) (r s : Nat) (hr : r < E.nx + 2) (hs : s < E.ny + 2) : 0 < ub (r * (E.ny + 2) + s) v := by
  obtain ⟨old, m', hm, hub⟩ := hp
  obtain ⟨hx, hy⟩ := hE.wide
  obtain ⟨m'', e, a, -⟩ := Grid.boundaries_2d ⟨1, E.destress⟩ E.nx E.ny (b 0) (b 1) (b 2) (b 3) (memOf c u old) hx hy
    (hb 0 (by omega)) (hb 1 (by omega)) (hb 2 (by omega)) (hb 3 (by omega))
  rw [hm] at e
  cases e
  have := a r (by simpa using hr) s (by simpa using hs)
  rw [hub]
  simp only [mul_one] at this
  rw [this, hv, ghost_mass E.destress hds, ghost_mass E.destress hds]
  exact hu _ (Grid.flat_lt (srcOf_lt hx (by omega) (by simpa using hr)) (srcOf_lt hy (by omega) (by simpa using hs)))

/-- The padded array holds the grid. -/
theorem pads1_grid (hE : E.Ok) (b : Nat → BT) (h0 : b 0 ≠ .other) (h1 : b 1 ≠ .other) (u : Iter.Mem) (ub : Nat → Fin c.V → ℝ)
    (hp : Pads1 E b u ub) (i : Nat) (hi : i < E.nx) : ub (i + 1) = cellsOf c u i := by
  obtain ⟨old, m', hm, hub⟩ := hp
  obtain ⟨m'', e, a, -⟩ := Grid.boundaries_1d ⟨1, E.destress⟩ E.nx (b 0) (b 1) (memOf c u old) hE.wide.1 h0 h1
  rw [hm] at e
  cases e
  funext v
  rw [hub, a (i + 1) (by simp only; omega)]
  unfold ghostOf srcOf
  simp only [show ¬ i + 1 < 1 by omega, if_false, show i + 1 < 1 + E.nx by omega, if_true, Nat.add_sub_cancel]
  rfl

theorem pads2_grid (hE : E.Ok) (b : Nat → BT) (hb : ∀ k < 4, b k ≠ .other) (u : Iter.Mem) (ub : Nat → Fin c.V → ℝ)
    (hp : Pads2 E b u ub) (x y : Nat) (hx : x < E.nx) (hy : y < E.ny) :
    ub (cell (x + 1) (y + 1) (E.ny + 2)) = cellsOf c u (cell x y E.ny) := by
  obtain ⟨old, m', hm, hub⟩ := hp
  obtain ⟨m'', e, a, -⟩ := Grid.boundaries_2d ⟨1, E.destress⟩ E.nx E.ny (b 0) (b 1) (b 2) (b 3) (memOf c u old) hE.wide.1 hE.wide.2
    (hb 0 (by omega)) (hb 1 (by omega)) (hb 2 (by omega)) (hb 3 (by omega))
  rw [hm] at e
  cases e
  funext v
  have := a (x + 1) (by simp only; omega) (y + 1) (by simp only; omega)
  simp only [mul_one] at this
  rw [hub]
  unfold cell
  rw [this]
  unfold ghostOf srcOf
  simp only [show ¬ x + 1 < 1 by omega, show ¬ y + 1 < 1 by omega, if_false, show x + 1 < 1 + E.nx by omega,
    show y + 1 < 1 + E.ny by omega, if_true, Nat.add_sub_cancel]
  rfl

/-! ### One step -/

section kernel

variable {T : Tab 1} (h : T.Ok) (S : Dg.Sys (Fin c.V)) (P : Sys.Par) (wt : Nat → ℝ)

include h

/-- In first order a cell gives away less than it holds, if no wave crosses a cell during the step. -/
theorem line_keeps (dt : ℝ) (hwt : wt 0 = dt) (hw : ∀ t, 0 ≤ wt t) (dx : ℝ) (hdx : 0 < dx) (sources : Bool)
    (rec : Nat → Fin 1 → Fin c.V → ℝ) (nx : Nat) (mask : Nat → Bool) (u : Nat → Fin c.V → ℝ) (i : Nat) (hi : i < nx) (v : Fin c.V)
    (hv : v.1 = 0) (m : Fin c.V) (hm : m.1 = 2) (hB : ∀ d q x, S.bdot d q x v = 0) (hs : ∀ q, S.source q v = 0)
    (hpos : ∀ g, i ≤ g → g ≤ i + 2 → 0 < rec g 0 v) (hcfl : ∀ g, i ≤ g → g ≤ i + 2 → dt * speed c P (rec g 0) 0 < dx)
    (hu : u i v = rec (i + 1) 0 v) :
    0 < apply (kern1 S T (rusanov c P) wt dx sources).app (fv1 (kern1 S T (rusanov c P) wt dx sources) rec nx 1 mask) u i v := by
  have key := line_loss S T P wt hw dx hdx sources rec nx 1 mask u i hi v hv m hm hB hs (fun g g1 g2 t ht e => by
    rw [show g * 1 + t = g by omega, one_trace h]; exact hpos g g1 g2)
  refine lt_of_lt_of_le ?_ key
  have r := hpos (i + 1) (by omega) (by omega)
  have d0 : 0 ≤ dt := hwt ▸ hw 0
  have hmax : ∀ g g', i ≤ g → g ≤ i + 2 → i ≤ g' → g' ≤ i + 2 → dt * max (speed c P (rec g 0) 0) (speed c P (rec g' 0) 0) < dx :=
    fun g g' a1 a2 a3 a4 => by
      rcases le_total (speed c P (rec g 0) 0) (speed c P (rec g' 0) 0) with hle | hle
      · rw [max_eq_right hle]; exact hcfl g' a3 a4
      · rw [max_eq_left hle]; exact hcfl g a1 a2
  have m1 := hmax (i + 1) (i + 2) (by omega) (by omega) (by omega) (by omega)
  have m2 := hmax i (i + 1) (by omega) (by omega) (by omega) (by omega)
  simp only [Finset.sum_range_one, mul_one, Nat.add_zero, one_trace h, goesRight, goesLeft, hwt, hu]
  generalize max (speed c P (rec (i + 1) 0) 0) (speed c P (rec (i + 2) 0) 0) = s1 at *
  generalize max (speed c P (rec i 0) 0) (speed c P (rec (i + 1) 0) 0) = s2 at *
  have e : rec (i + 1) 0 v - dt / (2 * dx) * (s1 * rec (i + 1) 0 v + rec (i + 1) 0 m + (s2 * rec (i + 1) 0 v - rec (i + 1) 0 m)) =
      rec (i + 1) 0 v * ((dx - dt * s1) + (dx - dt * s2)) / (2 * dx) := by field_simp; ring
  rw [e]
  exact div_pos (mul_pos r (by linarith)) (by positivity)

/-- The same on a plane, where the shares `a` and `b` of the axes add up to one. -/
theorem plane_keeps (dt : ℝ) (hwt : wt 0 = dt) (hw : ∀ t, 0 ≤ wt t) (dx dy : ℝ) (hdx : 0 < dx) (hdy : 0 < dy) (sources : Bool)
    (rec : Nat → Nat → Fin c.V → ℝ) (nx ny : Nat) (mask : Nat → Bool) (u : Nat → Fin c.V → ℝ) (x y : Nat) (hx : x < nx)
    (hy : y < ny) (v : Fin c.V) (hv : v.1 = 0) (mx my : Fin c.V) (hmx : mx.1 = 2) (hmy : my.1 = 3)
    (hB : ∀ d q x, S.bdot d q x v = 0) (hs : ∀ q, S.source q v = 0)
    (hpos : ∀ p q, p ≤ 2 → q ≤ 2 → p = 1 ∨ q = 1 → 0 < rec (cell (x + p) (y + q) (ny + 2)) 0 v) (a b : ℝ) (hab : a + b ≤ 1)
    (hcfl : ∀ p q, p ≤ 2 → q ≤ 2 → p = 1 ∨ q = 1 → dt * speed c P (rec (cell (x + p) (y + q) (ny + 2)) 0) 0 < a * dx ∧
      dt * speed c P (rec (cell (x + p) (y + q) (ny + 2)) 0) 1 < b * dy)
    (hu : u (cell x y ny) v = rec (cell (x + 1) (y + 1) (ny + 2)) 0 v) :
    0 < apply (kern2 S T (rusanov c P) wt dx dy sources).app (fv2 (kern2 S T (rusanov c P) wt dx dy sources) rec nx ny 1 mask) u
        (cell x y ny) v := by
  have key := plane_loss S T P wt h.wpos hw dx dy hdx hdy sources rec nx ny 1 mask u x y hx hy v hv mx my hmx hmy hB hs
    (fun p q p1 q1 pq t ht d e s => by
      obtain rfl : t = 0 := by omega
      rw [mul_one, one_trace2 h]; exact hpos p q p1 q1 pq)
  refine lt_of_lt_of_le ?_ key
  have r := hpos 1 1 (by omega) (by omega) (by omega)
  have hmax : ∀ (d : Nat) (B : ℝ) (q q' : Fin c.V → ℝ), dt * speed c P q d < B → dt * speed c P q' d < B →
      dt * max (speed c P q d) (speed c P q' d) < B := fun d B q q' h1 h2 => by
    rcases le_total (speed c P q d) (speed c P q' d) with hle | hle
    · rw [max_eq_right hle]; exact h2
    · rw [max_eq_left hle]; exact h1
  have n11 := hcfl 1 1 (by omega) (by omega) (by omega)
  have n21 := hcfl 2 1 (by omega) (by omega) (by omega)
  have n01 := hcfl 0 1 (by omega) (by omega) (by omega)
  have n12 := hcfl 1 2 (by omega) (by omega) (by omega)
  have n10 := hcfl 1 0 (by omega) (by omega) (by omega)
  have m1 := hmax 0 _ _ _ n11.1 n21.1
  have m2 := hmax 0 _ _ _ n01.1 n11.1
  have m3 := hmax 1 _ _ _ n11.2 n12.2
  have m4 := hmax 1 _ _ _ n10.2 n11.2
  simp only [Finset.sum_range_one, Finset.univ_unique, Fin.default_eq_zero, Finset.sum_singleton, mul_one, Nat.add_zero, one_trace2 h,
    goesRight, goesLeft, hwt, hu, one_w h]
  simp only [Nat.add_zero] at m1 m2 m3 m4
  generalize max (speed c P (rec (cell (x + 1) (y + 1) (ny + 2)) 0) 0) (speed c P (rec (cell (x + 2) (y + 1) (ny + 2)) 0) 0) = s1 at *
  generalize max (speed c P (rec (cell x (y + 1) (ny + 2)) 0) 0) (speed c P (rec (cell (x + 1) (y + 1) (ny + 2)) 0) 0) = s2 at *
  generalize max (speed c P (rec (cell (x + 1) (y + 1) (ny + 2)) 0) 1) (speed c P (rec (cell (x + 1) (y + 2) (ny + 2)) 0) 1) = s3 at *
  generalize max (speed c P (rec (cell (x + 1) y (ny + 2)) 0) 1) (speed c P (rec (cell (x + 1) (y + 1) (ny + 2)) 0) 1) = s4 at *
  generalize rec (cell (x + 1) (y + 1) (ny + 2)) 0 = q at *
  have e : q v - (dt / (2 * dx) * (s1 * q v + q mx + (s2 * q v - q mx)) + dt / (2 * dy) * (s3 * q v + q my + (s4 * q v - q my))) =
      q v * ((1 - a - b) + ((a * dx - dt * s1) + (a * dx - dt * s2)) / (2 * dx) +
        ((b * dy - dt * s3) + (b * dy - dt * s4)) / (2 * dy)) := by field_simp; ring
  rw [e]
  have p1 : 0 < ((a * dx - dt * s1) + (a * dx - dt * s2)) / (2 * dx) := div_pos (by linarith) (by positivity)
  have p2 : 0 < ((b * dy - dt * s3) + (b * dy - dt * s4)) / (2 * dy) := div_pos (by linarith) (by positivity)
  exact mul_pos r (by linarith)

end kernel

/-- A state the interface function is evaluated at: with `split_stepper` a cell of the padded array after the first half step of
the source terms, with `ader_stepper` what the predictor makes of it. -/
def LineState (b : Nat → BT) (split : Bool) (dt : ℝ) (u : Iter.Mem) (q : Fin c.V → ℝ) : Prop :=
  ∃ ub r, Pads1 E b u ub ∧ r < E.nx + 2 ∧
    if split then q = E.ode dt (ub r) else ∃ a, E.pred1 dt (fun _ => ub r) = some a ∧ q = a 0 0

def PlaneState (b : Nat → BT) (split : Bool) (dt : ℝ) (u : Iter.Mem) (q : Fin c.V → ℝ) : Prop :=
  ∃ ub r s, Pads2 E b u ub ∧ r < E.nx + 2 ∧ s < E.ny + 2 ∧
    if split then q = E.ode dt (ub (cell r s (E.ny + 2))) else
      ∃ a, E.pred2 dt (fun _ _ => ub (cell r s (E.ny + 2))) = some a ∧ q = a 0 0

/-- With `split_stepper` the source terms give numbers; with `ader_stepper` the predictor comes to an end within `DG_IT`
iterations. -/
def LineRuns (b : Nat → BT) (split : Bool) (dt : ℝ) (u : Iter.Mem) : Prop := ∀ ub, Pads1 E b u ub →
  if split then (∀ r < E.nx + 2, E.Number dt (ub r)) ∧ ∀ maskb, ∀ i < E.nx,
    E.Number dt (before1 E.coef (E.ode dt) E.half (E.mid1 dt) (kern1 E.sys E.T E.fl (fun _ => dt) E.dx false) ub E.nx
      (Grid.extendMask1 E.nx (fun _ => true) maskb) (cellsOf c u) i)
  else ∀ r < E.nx + 2, (E.pred1 dt (fun _ => ub r)).isSome

def PlaneRuns (b : Nat → BT) (split : Bool) (dt : ℝ) (u : Iter.Mem) : Prop := ∀ ub, Pads2 E b u ub →
  if split then (∀ r < E.nx + 2, ∀ s < E.ny + 2, E.Number dt (ub (cell r s (E.ny + 2)))) ∧ ∀ maskb, ∀ i < E.nx * E.ny,
    E.Number dt (before2 E.coef false (E.ode dt) E.half (E.mid2 dt) E.block
      (kern2 E.sys E.T E.fl (fun _ => dt) E.dx E.dy false) ub E.nx E.ny (Grid.extendMask2 E.nx E.ny (fun _ => true) maskb)
      (cellsOf c u) i)
  else ∀ r < E.nx + 2, ∀ s < E.ny + 2, (E.pred2 dt (fun _ _ => ub (cell r s (E.ny + 2)))).isSome

/-- **In first order no step empties a cell of a line**, for any number and schedule of threads, with `ader_stepper` and with
`split_stepper`, between any ends. -/
theorem line_dense (W : Weno.Setup 1) (undef : ℝ) (it : Nat) (tol : ℝ) (hv : c.viscous = true) (hE : E.Ok)
    (hX : E.Explicit W undef it tol) (hfl : E.fl = rusanov c E.P) (hds : ∀ f, E.destress = some f → ∀ q, f q 0 = q 0)
    (b : Nat → BT) (h0 : b 0 ≠ .other) (h1 : b 1 ≠ .other) (split : Bool) (threads : Nat) (hT : 0 < threads) (dt : ℝ) (hdt : 0 ≤ dt)
    (hdx : 0 < E.dx) (u u' : Iter.Mem) (hu : Dense c E.nx u) (hrun : LineRuns E b split dt u)
    (hcfl : ∀ q, LineState E b split dt u q → dt * speed c E.P q 0 < E.dx) (hm : MovesLine E b split threads dt u u') :
    Dense c E.nx u' := by
  have hV := Iter.V_ge c hv
  let v : Fin c.V := ⟨0, by omega⟩
  let m : Fin c.V := ⟨2, by omega⟩
  have hx0 : 0 < E.nx := hE.wide.1
  have hB : ∀ d q x, E.sys.bdot d q x v = 0 := fun d q x => gpr_conservative_components c hv E.P E.src E.junk v (show (0 : Nat) < 5 by omega) d q x
  have hf : force E.P v = 0 := by simp [force, v]
  have hs : ∀ q, E.sys.source q v = 0 := fun q => by rw [src_force E hv hE v (show (0 : Nat) < 5 by omega), hf]
  have ho : ∀ q, E.Number dt q → E.ode dt q v = q v := fun q hq => by
    rw [ode_force E hv hE dt q hq v (show (0 : Nat) < 5 by omega), hf]; ring
  obtain ⟨ub, maskb, hp, hm⟩ := hm
  have hM := mask1_true E.nx hx0 maskb
  have hpos := pads1_dense E hE hds b h0 h1 u hu ub hp v rfl
  have hgrid := pads1_grid E hE b h0 h1 u ub hp
  have hr := hrun ub hp
  intro i hi
  change 0 < u' (i * c.V + v)
  cases split
  · obtain ⟨l, gar, hl, e⟩ := hm
    simp only [Bool.false_eq_true, if_false] at hr
    obtain ⟨step, nw, i1, p1⟩ := hX.pred1 dt
    have hset : ∀ j < E.nx + 2, (E.pred1 dt (weno1G E.coef ub ((E.nx + 2 : Nat) : Int) 0 j)).isSome := fun j hj => by
      rw [hX.coef, one_weno1]; exact hr j hj
    rw [e i hi v, ader_para1 _ (E.pred1 dt) _ ub E.nx _ threads hT (gar 0) gar (fun j hj _ => hset j hj) l hl, hfl]
    unfold ader1
    have hrec : ∀ g < E.nx + 2, ∃ a, E.pred1 dt (fun _ => ub g) = some a ∧ a 0 0 v = ub g v := fun g hg => by
      obtain ⟨a, ha⟩ := Option.isSome_iff_exists.1 (hr g hg)
      refine ⟨a, ha, ?_⟩
      rw [p1] at ha
      exact one_pred1 hE.tab E.sys v hs hB dt E.dx tol it step i1 nw _ a ha
    have hget : ∀ g < E.nx + 2, ∀ a, E.pred1 dt (fun _ => ub g) = some a →
        orGarbage (Grid.extendMask1 E.nx (fun _ => true) maskb (g / 1))
          (E.pred1 dt (weno1G E.coef ub ((E.nx + 2 : Nat) : Int) 0 (g / 1))) (gar 0 (g / 1)) (g % 1) = a 0 := by
      intro g hg a ha
      rw [Nat.div_one, Nat.mod_one, hM g hg, hX.coef, one_weno1, ha]
      rfl
    refine line_keeps hE.tab E.sys E.P (E.wt dt) dt ?_ ?_ E.dx hdx true _ E.nx _ _ i hi v rfl m rfl hB hs ?_ ?_ ?_
    · simp [Env.wt, one_w hE.tab]
    · intro t
      unfold Env.wt
      split_ifs
      · exact mul_nonneg hdt (hE.tab.wpos _).le
      · exact le_rfl
    · intro g g1 g2
      obtain ⟨a, ha, ea⟩ := hrec g (by omega)
      simp only
      rw [hget g (by omega) a ha, ea]
      exact hpos g (by omega)
    · intro g g1 g2
      obtain ⟨a, ha, ea⟩ := hrec g (by omega)
      simp only
      rw [hget g (by omega) a ha]
      exact hcfl _ ⟨ub, g, hp, by omega, a, ha, rfl⟩
    · obtain ⟨a, ha, ea⟩ := hrec (i + 1) (by omega)
      simp only
      rw [hget (i + 1) (by omega) a ha, ea, hgrid i hi]
  · obtain ⟨l, hl, e⟩ := hm
    simp only [if_true] at hr
    obtain ⟨hr, hr2⟩ := hr
    have hb : ∀ q, E.sys.bdot 0 q 0 = 0 := fun q => gpr_bdot_zero c hv E.P E.src E.junk 0 q
    rw [e i hi v, split_para1 _ (E.ode dt) E.half (E.mid1 dt) (fun q => q) _ ub E.nx _ threads hT l hl]
    unfold split1
    rw [split_get _ _ _ _ _ _ hi]
    have hh := ho _ (hr2 maskb i hi)
    unfold before1 at hh
    refine lt_of_lt_of_eq ?_ hh.symm
    rw [hfl]
    have hget : ∀ g, (if (E.half && Grid.extendMask1 E.nx (fun _ => true) maskb g) = true
        then E.mid1 dt (weno1G E.coef (fun r => E.ode dt (ub r)) ((E.nx + 2 : Nat) : Int) 0 g)
        else weno1G E.coef (fun r => E.ode dt (ub r)) ((E.nx + 2 : Nat) : Int) 0 g) = fun _ => E.ode dt (ub g) := by
      intro g
      rw [hX.coef, one_weno1, hX.mid1, mid1_const hE.tab _ (hb _), ite_self]
    simp only [hget]
    refine line_keeps hE.tab E.sys E.P (fun _ => dt) dt rfl (fun _ => hdt) E.dx hdx false _ E.nx _ _ i hi v rfl m rfl hB hs ?_ ?_ ?_
    · intro g g1 g2
      rw [ho _ (hr g (by omega))]
      exact hpos g (by omega)
    · intro g g1 g2
      exact hcfl _ ⟨ub, g, hp, by omega, rfl⟩
    · rw [hgrid i hi]

/-- **In first order no step empties a cell of a plane.** -/
theorem plane_dense (W : Weno.Setup 1) (undef : ℝ) (it : Nat) (tol : ℝ) (hv : c.viscous = true) (hE : E.Ok)
    (hX : E.Explicit W undef it tol) (hfl : E.fl = rusanov c E.P) (hds : ∀ f, E.destress = some f → ∀ q, f q 0 = q 0)
    (b : Nat → BT) (hb : ∀ k < 4, b k ≠ .other) (nc split : Bool) (threads : Nat) (hT : 0 < threads) (dt : ℝ) (hdt : 0 ≤ dt)
    (hdx : 0 < E.dx) (hdy : 0 < E.dy) (u u' : Iter.Mem) (hu : Dense c (E.nx * E.ny) u) (hrun : PlaneRuns E b split dt u) (a₁ a₂ : ℝ)
    (h12 : a₁ + a₂ ≤ 1) (hcfl : ∀ q, PlaneState E b split dt u q → dt * speed c E.P q 0 < a₁ * E.dx ∧ dt * speed c E.P q 1 < a₂ * E.dy)
    (hm : MovesPlane E b nc split threads dt u u') : Dense c (E.nx * E.ny) u' := by
  rw [corners_first] at hm
  have hV := Iter.V_ge c hv
  let v : Fin c.V := ⟨0, by omega⟩
  let mx : Fin c.V := ⟨2, by omega⟩
  let my : Fin c.V := ⟨3, by omega⟩
  have hx0 : 0 < E.nx := hE.wide.1
  have hy0 : 0 < E.ny := hE.wide.2
  have hB : ∀ d q x, E.sys.bdot d q x v = 0 := fun d q x => gpr_conservative_components c hv E.P E.src E.junk v (show (0 : Nat) < 5 by omega) d q x
  have hf : force E.P v = 0 := by simp [force, v]
  have hs : ∀ q, E.sys.source q v = 0 := fun q => by rw [src_force E hv hE v (show (0 : Nat) < 5 by omega), hf]
  have ho : ∀ q, E.Number dt q → E.ode dt q v = q v := fun q hq => by
    rw [ode_force E hv hE dt q hq v (show (0 : Nat) < 5 by omega), hf]; ring
  obtain ⟨ub, maskb, hp, hm⟩ := hm
  have hM := mask2_true E.nx E.ny hx0 hy0 maskb
  have hpos := pads2_dense E hE hds b hb u hu ub hp v rfl
  have hgrid := pads2_grid E hE b hb u ub hp
  have hr := hrun ub hp
  intro i hi
  obtain ⟨x, y, hx, hy, rfl⟩ : ∃ x y, x < E.nx ∧ y < E.ny ∧ i = cell x y E.ny :=
    ⟨i / E.ny, i % E.ny, (Nat.div_lt_iff_lt_mul hy0).2 hi, Nat.mod_lt _ hy0, by unfold cell; rw [Nat.div_add_mod']⟩
  change 0 < u' (cell x y E.ny * c.V + v)
  have hcd := fun g s (hs : s < E.ny + 2) => cell_div (E.ny + 2) g s hs
  cases split
  · obtain ⟨l, gar, hl, e⟩ := hm
    simp only [Bool.false_eq_true, if_false] at hr
    obtain ⟨step, nw, i1, p1⟩ := hX.pred2 dt
    have hset : ∀ j k, j < E.nx + 2 → k < E.ny + 2 → (E.pred2 dt (weno2G E.coef false ub (E.nx + 2) (E.ny + 2) j k)).isSome :=
      fun j k hj hk => by rw [hX.coef, one_weno2]; exact hr j hj k hk
    rw [e _ (cell_lt hx hy) v,
      ader_para2_partial Nat.one_pos _ (E.pred2 dt) _ ub E.nx E.ny _ threads hT (gar 0) gar (fun j k hj hk _ => hset j k hj hk) l hl, hfl]
    unfold ader2
    have hrec : ∀ g < E.nx + 2, ∀ s < E.ny + 2, ∃ a, E.pred2 dt (fun _ _ => ub (cell g s (E.ny + 2))) = some a ∧
        a 0 0 v = ub (cell g s (E.ny + 2)) v := fun g hg s hs' => by
      obtain ⟨a, ha⟩ := Option.isSome_iff_exists.1 (hr g hg s hs')
      refine ⟨a, ha, ?_⟩
      rw [p1] at ha
      exact one_pred2 hE.tab E.sys v hs hB dt E.dx E.dy tol it step i1 nw _ a ha
    have hget : ∀ p q, p ≤ 2 → q ≤ 2 → p = 1 ∨ q = 1 → ∀ a, E.pred2 dt (fun _ _ => ub (cell (x + p) (y + q) (E.ny + 2))) = some a →
        orGarbage (Grid.extendMask2 E.nx E.ny (fun _ => true) maskb (cell (x + p) (y + q) (E.ny + 2) / 1))
          (E.pred2 dt (weno2G E.coef false ub (E.nx + 2) (E.ny + 2) (cell (x + p) (y + q) (E.ny + 2) / 1 / (E.ny + 2))
            (cell (x + p) (y + q) (E.ny + 2) / 1 % (E.ny + 2)))) (gar 0 (cell (x + p) (y + q) (E.ny + 2) / 1))
          (cell (x + p) (y + q) (E.ny + 2) % 1) = a 0 := by
      intro p q p1 q1 pq a ha
      rw [Nat.div_one, Nat.mod_one, (hcd _ _ (by omega)).1, (hcd _ _ (by omega)).2, hM _ _ ⟨by omega, by omega, by omega⟩, hX.coef,
        one_weno2]
      unfold cell at ha
      rw [ha]
      rfl
    refine plane_keeps hE.tab E.sys E.P (E.wt dt) dt ?_ ?_ E.dx E.dy hdx hdy true _ E.nx E.ny _ _ x y hx hy v rfl mx my rfl rfl hB hs ?_
      a₁ a₂ h12 ?_ ?_
    · simp [Env.wt, one_w hE.tab]
    · intro t
      unfold Env.wt
      split_ifs
      · exact mul_nonneg hdt (hE.tab.wpos _).le
      · exact le_rfl
    · intro p q p1 q1 pq
      obtain ⟨a, ha, ea⟩ := hrec (x + p) (by omega) (y + q) (by omega)
      simp only
      rw [hget p q p1 q1 pq a ha, ea]
      exact hpos (x + p) (y + q) (by omega) (by omega)
    · intro p q p1 q1 pq
      obtain ⟨a, ha, ea⟩ := hrec (x + p) (by omega) (y + q) (by omega)
      simp only
      rw [hget p q p1 q1 pq a ha]
      exact hcfl _ ⟨ub, x + p, y + q, hp, by omega, by omega, a, ha, rfl⟩
    · obtain ⟨a, ha, ea⟩ := hrec (x + 1) (by omega) (y + 1) (by omega)
      simp only
      rw [hget 1 1 (by omega) (by omega) (by omega) a ha, ea, hgrid x y hx hy]
  · obtain ⟨l, hl, e⟩ := hm
    simp only [if_true] at hr
    obtain ⟨hr, hr2⟩ := hr
    have hb : ∀ q d, E.sys.bdot d q 0 = 0 := fun q d => gpr_bdot_zero c hv E.P E.src E.junk d q
    rw [e _ (cell_lt hx hy) v, split_para2_partial Nat.one_pos _ (E.ode dt) E.half (E.mid2 dt) E.block _ ub E.nx E.ny _ threads hT l hl]
    unfold split2
    rw [split_get _ _ _ _ _ _ (cell_lt hx hy)]
    have hh := ho _ (hr2 maskb _ (cell_lt hx hy))
    unfold before2 at hh
    refine lt_of_lt_of_eq ?_ hh.symm
    rw [hfl]
    have hget : ∀ p q, p ≤ 2 → q ≤ 2 → p = 1 ∨ q = 1 →
        E.block (if (E.half && Grid.extendMask2 E.nx E.ny (fun _ => true) maskb (cell (x + p) (y + q) (E.ny + 2))) = true
        then E.mid2 dt (weno2G E.coef false (fun r => E.ode dt (ub r)) (E.nx + 2) (E.ny + 2)
          (cell (x + p) (y + q) (E.ny + 2) / (E.ny + 2)) (cell (x + p) (y + q) (E.ny + 2) % (E.ny + 2)))
        else weno2G E.coef false (fun r => E.ode dt (ub r)) (E.nx + 2) (E.ny + 2)
          (cell (x + p) (y + q) (E.ny + 2) / (E.ny + 2)) (cell (x + p) (y + q) (E.ny + 2) % (E.ny + 2))) 0 =
          E.ode dt (ub (cell (x + p) (y + q) (E.ny + 2))) := by
      intro p q p1 q1 pq
      rw [hX.coef, one_weno2, hX.mid2, mid2_const hE.tab _ (hb _), ite_self, hX.block, (hcd _ _ (by omega)).1,
        (hcd _ _ (by omega)).2]
      exact rows2_get (fun _ _ : Fin 1 => E.ode dt (ub _)) 0 0
    refine plane_keeps hE.tab E.sys E.P (fun _ => dt) dt rfl (fun _ => hdt) E.dx E.dy hdx hdy false _ E.nx E.ny _ _ x y hx hy v rfl
      mx my rfl rfl hB hs ?_ a₁ a₂ h12 ?_ ?_
    · intro p q p1 q1 pq
      simp only
      rw [hget p q p1 q1 pq, ho _ (hr _ (by omega) _ (by omega))]
      exact hpos _ _ (by omega) (by omega)
    · intro p q p1 q1 pq
      simp only
      rw [hget p q p1 q1 pq]
      exact hcfl _ ⟨ub, x + p, y + q, hp, by omega, by omega, rfl⟩
    · simp only
      rw [hget 1 1 (by omega) (by omega) (by omega), hgrid x y hx hy]

/-! ### Whole runs -/

/-- The end of a pass keeps densities. -/
theorem finish_dense (F : Tail c) (hv : c.viscous = true) (hF : F.Ok) (count : Nat) (u u' : Iter.Mem)
    (h : finish F count u = some u') (hu : Dense c F.ncell u) : Dense c F.ncell u' := by
  have hV := Iter.V_ge c hv
  have h14 := Relax.mV_ge' c hv
  obtain ⟨w, hw, a1, -⟩ := finish_spec F hv hF count u
  rw [h] at hw
  cases hw
  intro i hi
  have := a1 i hi 0 (by omega) (Or.inl rfl) fun _ => by omega
  rw [Nat.add_zero] at this
  rw [this]
  exact hu i hi

/-- **Runs on a line keep densities positive** in first order, if no wave crosses a cell during a step: after any number of passes,
and in every snapshot. -/
theorem run_line_dense {W' : Type} (F : Tail c) (W : Weno.Setup 1) (undef : ℝ) (it : Nat) (tol : ℝ) (hv : c.viscous = true)
    (hE : E.Ok) (hF : F.Ok) (hX : E.Explicit W undef it tol) (hfl : E.fl = rusanov c E.P)
    (hds : ∀ f, E.destress = some f → ∀ q, f q 0 = q 0) (bt : Nat → BT) (h0 : bt 0 ≠ .other) (h1 : bt 1 ≠ .other) (split : Bool)
    (threads : Nat) (hT : 0 < threads) (hdx : 0 < E.dx) (hn : F.ncell = E.nx) (b : Body Iter.Mem W') (tf : ℝ) (u0 : Iter.Mem) (w0 : W')
    (hu0 : Dense c E.nx u0) (hb : FollowsLine E F bt split threads b tf u0 w0)
    (hok : ∀ m s, Reach b tf u0 w0 m s → s.t < tf → 0 ≤ (b.step s.u s.w s.t s.count).2.2 ∧
      LineRuns E bt split (b.step s.u s.w s.t s.count).2.2 s.u ∧
      ∀ q, LineState E bt split (b.step s.u s.w s.t s.count).2.2 s.u q →
        (b.step s.u s.w s.t s.count).2.2 * speed c E.P q 0 < E.dx) {m : Nat} {s : Vars Iter.Mem W'} (hs : Reach b tf u0 w0 m s) :
    Dense c E.nx s.u ∧ ∀ k x, s.ret k = some x → Dense c E.nx x := by
  have main : ∀ {m s}, Reach b tf u0 w0 m s → Dense c E.nx s.u := by
    intro m s hs
    induction hs with
    | start => exact hu0
    | @step m s s' hs hp ih =>
      obtain ⟨ht, -, eu, -⟩ := pass_next b tf hp
      obtain ⟨u1, g1, g2⟩ := hb m s hs ht
      obtain ⟨k1, k2, k3⟩ := hok m s hs ht
      rw [eu, ← hn]
      refine finish_dense F hv hF _ u1 _ g2 ?_
      rw [hn]
      exact line_dense E W undef it tol hv hE hX hfl hds bt h0 h1 split threads hT _ k1 hdx s.u u1 ih k2 k3 g1
  refine ⟨main hs, fun k x hx => ?_⟩
  obtain ⟨m', s', -, -, hr, rfl⟩ := snapshot_reached b tf u0 w0 hs k x hx
  exact main hr

/-- **Runs on a plane keep densities positive** in first order. -/
theorem run_plane_dense {W' : Type} (F : Tail c) (W : Weno.Setup 1) (undef : ℝ) (it : Nat) (tol : ℝ) (hv : c.viscous = true)
    (hE : E.Ok) (hF : F.Ok) (hX : E.Explicit W undef it tol) (hfl : E.fl = rusanov c E.P)
    (hds : ∀ f, E.destress = some f → ∀ q, f q 0 = q 0) (bt : Nat → BT) (hbt : ∀ k < 4, bt k ≠ .other) (nc split : Bool)
    (threads : Nat) (hT : 0 < threads) (hdx : 0 < E.dx) (hdy : 0 < E.dy) (hn : F.ncell = E.nx * E.ny) (b : Body Iter.Mem W') (tf : ℝ)
    (u0 : Iter.Mem) (w0 : W') (hu0 : Dense c (E.nx * E.ny) u0) (hb : FollowsPlane E F bt nc split threads b tf u0 w0)
    (hok : ∀ m s, Reach b tf u0 w0 m s → s.t < tf → 0 ≤ (b.step s.u s.w s.t s.count).2.2 ∧
      PlaneRuns E bt split (b.step s.u s.w s.t s.count).2.2 s.u ∧
      ∃ a₁ a₂ : ℝ, a₁ + a₂ ≤ 1 ∧ ∀ q, PlaneState E bt split (b.step s.u s.w s.t s.count).2.2 s.u q →
        (b.step s.u s.w s.t s.count).2.2 * speed c E.P q 0 < a₁ * E.dx ∧
        (b.step s.u s.w s.t s.count).2.2 * speed c E.P q 1 < a₂ * E.dy) {m : Nat} {s : Vars Iter.Mem W'}
    (hs : Reach b tf u0 w0 m s) :
    Dense c (E.nx * E.ny) s.u ∧ ∀ k x, s.ret k = some x → Dense c (E.nx * E.ny) x := by
  have main : ∀ {m s}, Reach b tf u0 w0 m s → Dense c (E.nx * E.ny) s.u := by
    intro m s hs
    induction hs with
    | start => exact hu0
    | @step m s s' hs hp ih =>
      obtain ⟨ht, -, eu, -⟩ := pass_next b tf hp
      obtain ⟨u1, g1, g2⟩ := hb m s hs ht
      obtain ⟨k1, k2, a₁, a₂, k3, k4⟩ := hok m s hs ht
      rw [eu, ← hn]
      refine finish_dense F hv hF _ u1 _ g2 ?_
      rw [hn]
      exact plane_dense E W undef it tol hv hE hX hfl hds bt hbt nc split threads hT _ k1 hdx hdy s.u u1 ih k2 a₁ a₂ k3 k4 g1
  refine ⟨main hs, fun k x hx => ?_⟩
  obtain ⟨m', s', -, -, hr, rfl⟩ := snapshot_reached b tf u0 w0 hs k x hx
  exact main hr

/-- **What the time step of the code has to do with it.**  Where the states the interface function sees are no faster than the
cells of the grid, `timestep` with `CFL < 1` meets the condition on a line, and with `CFL < 1 / 2` on a plane. -/
theorem timestep_line_ok (mae : Sys.Par → St → Nat → Option ℝ) (P : Sys.Par) (u : Iter.Mem) (nx : Nat) (dx : ℝ) (hdx : 0 < dx)
    (hmae : ∀ q d, mae P q d = some (Eig.maxAbsEigs c P q (dir d))) (CFL t tf : ℝ) (count : Nat) (hC : 0 < CFL) (hC1 : CFL < 1)
    (ht : t < tf) : ∃ dt, timestep c mae [u] [fun _ => true] [dx] CFL t tf count [some P] 1 nx = .fin dt ∧ 0 < dt ∧
      ∀ q : Fin c.V → ℝ, (∃ i < nx, speed c P q 0 ≤ Eig.maxAbsEigs c P (view c u i) (dir 0)) → dt * speed c P q 0 < dx := by
  obtain ⟨dt, e, d0, -, b, -⟩ := timestep_spec c mae [u] [fun _ => true] [dx] [some P] CFL t tf count 1 nx hC ht
  refine ⟨dt, e, d0, fun q ⟨i, hi, hq⟩ => ?_⟩
  have := b 0 i P ⟨Nat.one_pos, hi, rfl, rfl⟩ (Eig.maxAbsEigs c P (view c u i) (dir 0) / dx) (by simp [cellSpeed, hmae])
  have h5 : (if count ≤ 5 then CFL / 5 else CFL) < 1 := by split_ifs <;> linarith
  rw [mul_div_assoc', div_le_iff₀ hdx] at this
  nlinarith [mul_le_mul_of_nonneg_left hq d0.le]

theorem timestep_plane_ok (mae : Sys.Par → St → Nat → Option ℝ) (P : Sys.Par) (u : Iter.Mem) (ncell : Nat) (dx dy : ℝ) (hdx : 0 < dx)
    (hdy : 0 < dy) (hmae : ∀ q d, mae P q d = some (Eig.maxAbsEigs c P q (dir d))) (CFL t tf : ℝ) (count : Nat) (hC : 0 < CFL)
    (hC1 : CFL < 1 / 2) (ht : t < tf) :
    ∃ dt, timestep c mae [u] [fun _ => true] [dx, dy] CFL t tf count [some P] 1 ncell = .fin dt ∧ 0 < dt ∧
      ∀ q : Fin c.V → ℝ, (∃ i < ncell, ∀ d, speed c P q d ≤ Eig.maxAbsEigs c P (view c u i) (dir d)) →
        dt * speed c P q 0 < 1 / 2 * dx ∧ dt * speed c P q 1 < 1 / 2 * dy := by
  obtain ⟨dt, e, d0, -, b, -⟩ := timestep_spec c mae [u] [fun _ => true] [dx, dy] [some P] CFL t tf count 1 ncell hC ht
  refine ⟨dt, e, d0, fun q ⟨i, hi, hq⟩ => ?_⟩
  have := b 0 i P ⟨Nat.one_pos, hi, rfl, rfl⟩
    (Eig.maxAbsEigs c P (view c u i) (dir 0) / dx + Eig.maxAbsEigs c P (view c u i) (dir 1) / dy)
    (by simp [cellSpeed, hmae, List.range_succ])
  have h5 : (if count ≤ 5 then CFL / 5 else CFL) < 1 / 2 := by split_ifs <;> linarith
  have n0 : ∀ d, 0 ≤ Eig.maxAbsEigs c P (view c u i) (dir d) := fun d => (abs_nonneg _).trans (speed_ge P _ _)
  have p0 := mul_le_mul_of_nonneg_left (hq 0) d0.le
  have p1 := mul_le_mul_of_nonneg_left (hq 1) d0.le
  have q0 := mul_nonneg d0.le (div_nonneg (n0 0) hdx.le)
  have q1 := mul_nonneg d0.le (div_nonneg (n0 1) hdy.le)
  rw [mul_add] at this
  constructor
  · have : dt * (Eig.maxAbsEigs c P (view c u i) (dir 0) / dx) < 1 / 2 := by linarith
    rw [mul_div_assoc', div_lt_iff₀ hdx] at this
    linarith
  · have : dt * (Eig.maxAbsEigs c P (view c u i) (dir 1) / dy) < 1 / 2 := by linarith
    rw [mul_div_assoc', div_lt_iff₀ hdy] at this
    linarith

/-! ### An example -/

/-- The unsplit stepper runs on every line. -/
theorem movesLine_ader_exists (hV : 0 < c.V) (hE : E.Ok) (bt : Nat → BT) (h0 : bt 0 ≠ .other) (h1 : bt 1 ≠ .other) (threads : Nat)
    (dt : ℝ) (u : Iter.Mem) : ∃ u', MovesLine E bt false threads dt u u' := by
  obtain ⟨m', hm, -⟩ := Grid.boundaries_1d ⟨1, E.destress⟩ E.nx (bt 0) (bt 1) (memOf c u fun _ _ => 0) hE.wide.1 h0 h1
  obtain ⟨l, hl⟩ := schedule_exists threads (fun w => aderWorker1 E.coef (E.pred1 dt)
    (kern1 E.sys E.T E.fl (E.wt dt) E.dx true) (fun k v => m' (true, k) v) E.nx
    (Grid.extendMask1 E.nx (fun _ => true) fun _ => false) threads (fun _ _ _ _ => 0) w)
  refine ⟨memOfCells c hV (apply (kern1 E.sys E.T E.fl (E.wt dt) E.dx true).app (l.map Prod.snd) (cellsOf c u)),
    fun k v => m' (true, k) v, fun _ => false, ⟨fun _ _ => 0, m', hm, fun _ _ => rfl⟩, ?_⟩
  simp only [Bool.false_eq_true, if_false]
  exact ⟨l, fun _ _ _ _ _ => 0, hl, fun i _ v => memOfCells_get hV _ i v⟩

/-- A line of four cells in first order, with the predictor of the code. -/
def firstEnv (T : Tab 1) (h : T.Ok) (W : Weno.Setup 1) : Env lineCfg 1 :=
  { lineEnv T W (rusanov lineCfg (samplePar sample)) with
    pred1 := fun dt => Step.pred1 false 4 0 (fun w => (isStep1_exists h boxSys (initialCondition1 T (rows1 w)) dt (1 / 10)).choose)
      fun w => standardInitialGuess1 1 (rows1 w)
    pred2 := fun dt => Step.pred2 false 4 0
      (fun w => (isStep2_exists h boxSys (initialCondition2 T (rows2 w)) dt (1 / 10) 1).choose)
      fun w => standardInitialGuess2 1 (rows2 w)
    mid1 := fun dt => Step.mid1 boxSys T dt (1 / 10)
    mid2 := fun dt => Step.mid2 boxSys T dt (1 / 10) 1
    block := rows2 }

theorem nice_ease {q : Fin lineCfg.V → ℝ} (h : Nice q) : Newton.AtEase lineCfg (samplePar sample) (ofVec lineCfg q) := by
  refine ⟨?_, by simp [lineCfg], rfl, by norm_num [samplePar]⟩
  have : getA (ofVec lineCfg q) = 1 := by
    ext i j
    fin_cases i <;> fin_cases j <;> simp [getA, nice_get h, base]
  rw [this]
  ext i j
  fin_cases i <;> fin_cases j <;> simp [AdevG] <;> norm_num

/-- Gas of densities 2, 3, 1, 1 with open ends: the hypotheses hold for every small time step, the step exists for any number of
threads, and the densities after it are positive. -/
example (T : Tab 1) (h : T.Ok) (W : Weno.Setup 1) :
    ∃ τ > 0, ∀ dt, 0 ≤ dt → dt ≤ τ → ∀ threads > 0,
      (∃ u', MovesLine (firstEnv T h W) (fun _ => .transmissive) false threads dt (fun k => cellQ (k / 14) ⟨k % 14, Nat.mod_lt _ (by omega)⟩) u') ∧
      ∀ u', MovesLine (firstEnv T h W) (fun _ => .transmissive) false threads dt
        (fun k => cellQ (k / 14) ⟨k % 14, Nat.mod_lt _ (by omega)⟩) u' → Dense lineCfg 4 u' := by
  let E := firstEnv T h W
  have hE : E.Ok := ⟨h, ⟨by simp [E, firstEnv, lineEnv], by simp [E, firstEnv, lineEnv]⟩, fun _ => ⟨0, rfl⟩,
    fun A => (Grid.svd_exists A).choose_spec.choose_spec.choose_spec.1⟩
  have hX : E.Explicit W 0 4 0 := ⟨rfl, fun dt => ⟨_, _, fun w => (isStep1_exists h boxSys _ dt (1 / 10)).choose_spec, rfl⟩,
     fun dt => ⟨_, _, fun w => (isStep2_exists h boxSys _ dt (1 / 10) 1).choose_spec, rfl⟩, fun _ => rfl, fun _ => rfl, rfl⟩
  let u : Iter.Mem := fun k => cellQ (k / 14) ⟨k % 14, Nat.mod_lt _ (by omega)⟩
  have hpad : ∀ ub, Pads1 E (fun _ => .transmissive) u ub → ∀ r < 4 + 2, ∃ j < 4, ub r = cellQ j := by
    rintro ub ⟨old, m', hm, hub⟩ r hr
    obtain ⟨m'', e, a, -⟩ := Grid.boundaries_1d ⟨1, E.destress⟩ E.nx .transmissive .transmissive (memOf lineCfg u old) hE.wide.1
      (by decide) (by decide)
    rw [hm] at e
    cases e
    refine ⟨_, srcOf_lt (N := 1) (nx := 4) (b0 := .transmissive) (b1 := .transmissive) (by omega) (by omega) (show r < 4 + 2 * 1 by omega), ?_⟩
    funext v
    rw [hub, a r hr, ghost_open _ _ _ _ (Or.inl rfl) (Or.inl rfl)]
    change u (srcOf 1 .transmissive .transmissive 4 r * 14 + v) = _
    have hv : v.1 < 14 := v.2
    simp only [u]
    have e1 : (srcOf 1 BT.transmissive .transmissive 4 r * 14 + v) / 14 = srcOf 1 .transmissive .transmissive 4 r := by omega
    have e2 : (srcOf 1 BT.transmissive .transmissive 4 r * 14 + v) % 14 = v := by omega
    simp only [e1, e2]
  have hpred : ∀ dt j, ∃ a, E.pred1 dt (fun _ => cellQ j) = some a ∧ a 0 0 = cellQ j := fun dt j => by
    obtain ⟨a, ha, hc⟩ := pred1_constant h boxSys (cellQ j)
      (funext fun v => Newton.source_atEase lineCfg (samplePar sample) 0 _ rfl (nice_ease (cellQ_nice j)) v)
      (gpr_bdot_zero lineCfg rfl _ _ _ 0 _) dt (1 / 10) 0 le_rfl false 4 (by norm_num)
      (fun w => (isStep1_exists h boxSys (initialCondition1 T (rows1 w)) dt (1 / 10)).choose)
      (fun w => (isStep1_exists h boxSys _ dt (1 / 10)).choose_spec)
      (fun w => standardInitialGuess1 1 (rows1 w)) (fun _ _ => rfl)
    exact ⟨a, ha, hc 0 (by omega) 0⟩
  have s0 : ∀ j, 0 ≤ speed lineCfg E.P (cellQ j) 0 := fun j => (abs_nonneg _).trans (speed_ge E.P _ _)
  have hS : 0 ≤ ∑ j ∈ Finset.range 4, speed lineCfg E.P (cellQ j) 0 := Finset.sum_nonneg fun j _ => s0 j
  refine ⟨1 / 20 / (1 + ∑ j ∈ Finset.range 4, speed lineCfg E.P (cellQ j) 0), by positivity, fun dt d0 d1 threads hT =>
    ⟨movesLine_ader_exists E (by decide) hE _ (by decide) (by decide) threads dt _, fun u' hm => ?_⟩⟩
  refine line_dense E W 0 4 0 rfl hE hX rfl (fun f hf => (nomatch hf)) _ (by decide) (by decide) false threads hT dt d0
    (show (0 : ℝ) < 1 / 10 by norm_num) u u' ?_ ?_ ?_ hm
  · intro i hi
    have hi : i < 4 := hi
    change 0 < u (i * 14)
    simp only [u, Nat.mul_div_cancel _ (show 0 < 14 by omega), Nat.mul_mod_left, cellQ, if_true]
    unfold dens
    split_ifs <;> norm_num
  · intro ub hp
    simp only [Bool.false_eq_true, if_false]
    intro r hr
    obtain ⟨j, -, e⟩ := hpad ub hp r hr
    obtain ⟨a, ha, -⟩ := hpred dt j
    rw [e, ha]
    rfl
  · rintro q ⟨ub, r, hp, hr, a, ha, rfl⟩
    obtain ⟨j, hj, e⟩ := hpad ub hp r hr
    obtain ⟨a', ha', hc⟩ := hpred dt j
    rw [e, ha'] at ha
    cases ha
    rw [hc]
    change dt * _ < 1 / 10
    have := Finset.single_le_sum (f := fun j => speed lineCfg E.P (cellQ j) 0) (fun j _ => s0 j) (Finset.mem_range.2 hj)
    rw [le_div_iff₀ (by positivity)] at d1
    nlinarith

end

end Verif.Run
