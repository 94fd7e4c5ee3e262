import Verif.Run.Column
import Verif.Run.Shift

/-! # In first order the option `NO_CORNERS` changes nothing

`NO_CORNERS` leaves out the reconstruction in the corners of the padded grid of every thread.  With one node per cell nothing is
computed from what is left out. -/

namespace Verif.Run

open Verif.Sys Verif.Iter Verif.Dg Verif.Fv Verif.Step Verif.Grid

section lists

variable {E' D R : Type}

/-- Not one of the four corners of a padded grid of `nx + 2` by `ny + 2` cells. -/
def OffCorner (nx ny i j : Nat) : Prop := i ≤ nx + 1 ∧ j ≤ ny + 1 ∧ (1 ≤ i ∧ i ≤ nx ∨ 1 ≤ j ∧ j ≤ ny)

/-- The finite volume step reads no corner. -/
theorem fv2_off (K : Kern E' D R) (rec rec' : Nat → R) (nx ny nt : Nat) (mask : Nat → Bool)
    (h : ∀ i j, OffCorner nx ny i j → ∀ t < nt, rec (ind3 i j t (ny + 2) nt) = rec' (ind3 i j t (ny + 2) nt)) :
    fv2 K rec nx ny nt mask = fv2 K rec' nx ny nt mask := by
  unfold fv2 centers2Inner interfs2Inner
  congr 1
  · refine flatMap_congr' _ _ _ fun t ht => flatMap_congr' _ _ _ fun i hi => flatMap_congr' _ _ _ fun j hj => ?_
    rw [List.mem_range] at ht hi hj
    rw [h (i + 1) (j + 1) (by unfold OffCorner; omega) t ht]
  · refine flatMap_congr' _ _ _ fun t ht => flatMap_congr' _ _ _ fun i hi => flatMap_congr' _ _ _ fun j hj => ?_
    rw [List.mem_range] at ht hi hj
    have hX : faceX K rec nx ny nt t mask i j = faceX K rec' nx ny nt t mask i j := by
      unfold faceX
      by_cases h0 : 0 < j
      · rw [h i j (by unfold OffCorner; omega) t ht, h (i + 1) j (by unfold OffCorner; omega) t ht]
      · simp only [show ¬ j > 0 from h0, decide_false, Bool.and_false, Bool.false_eq_true, if_false]
    have hY : faceY K rec nx ny nt t mask i j = faceY K rec' nx ny nt t mask i j := by
      unfold faceY
      by_cases h0 : 0 < i
      · rw [h i j (by unfold OffCorner; omega) t ht, h i (j + 1) (by unfold OffCorner; omega) t ht]
      · simp only [show ¬ i > 0 from h0, decide_false, Bool.and_false, Bool.false_eq_true, if_false]
    rw [hX, hY]

/-- With one node a cell is its own reconstruction stencil. -/
theorem weno1G_gap (coef : Coef 1 E') (ub : Nat → E') (nx i : Nat) (gap : Int) (hi : i ≤ nx + 1)
    (h : gap = 0 ∨ gap = 1 ∧ 1 ≤ i ∧ i ≤ nx) :
    weno1G coef ub ((nx + 2 : Nat) : Int) gap i = weno1G coef (fun _ => ub i) ((nx + 2 : Nat) : Int) 0 0 := by
  unfold weno1G
  have e : (fun r : Fin (2 * 1 - 1) => ub (i + r)) = fun _ => ub i := by
    funext r
    congr 1
    omega
  have d : ∀ (p : Prop) [Decidable p], p → decide p = true := fun p _ hp => decide_eq_true hp
  simp only [gt_iff_lt, show ¬ 2 < 1 by omega, decide_false, Bool.false_and, e]
  rw [d ((i : Int) ≥ gap) (by omega), d ((i : Int) ≤ ((nx + 2 : Nat) : Int) - gap - 1) (by push_cast; omega),
    d (((0 : Nat) : Int) ≥ 0) (by omega), d (((0 : Nat) : Int) ≤ ((nx + 2 : Nat) : Int) - 0 - 1) (by push_cast; omega)]

/-- With one node the reconstruction is the same outside of the corners. -/
theorem weno2G_off (coef : Coef 1 E') (nc : Bool) (ub : Nat → E') (nx ny i j : Nat) (h : OffCorner nx ny i j) :
    weno2G coef nc ub (nx + 2) (ny + 2) i j = weno2G coef false ub (nx + 2) (ny + 2) i j := by
  obtain ⟨hi, hj, h⟩ := h
  funext ii jj
  have key : ∀ b : Bool, weno2G coef b ub (nx + 2) (ny + 2) i j ii jj =
      weno1G coef (fun _ => weno1G coef (fun _ => ub (i * (ny + 2) + j)) ((nx + 2 : Nat) : Int) 0 0 ii) ((ny + 2 : Nat) : Int) 0 0 jj := by
    intro b
    unfold weno2G
    simp only
    rw [weno1G_gap coef _ ny j _ hj, weno1G_gap coef _ nx i _ hi]
    · split_ifs with hc
      · refine Or.inr ⟨rfl, ?_⟩
        simp only [Bool.and_eq_true, Bool.or_eq_true, decide_eq_true_eq] at hc
        omega
      · exact Or.inl rfl
    · split_ifs with hc
      · refine Or.inr ⟨rfl, ?_⟩
        simp only [Bool.and_eq_true, Bool.or_eq_true, decide_eq_true_eq] at hc
        omega
      · exact Or.inl rfl
  rw [key, key]

/-- **`ader_stepper` of first order writes the same with and without `NO_CORNERS`.** -/
theorem ader2_corners (coef : Coef 1 E') (nc : Bool) (pred : (Fin 1 → Fin 1 → E') → Option (Nat → R)) (K : Kern E' D R) (ub : Nat → E')
    (nx ny : Nat) (mask : Nat → Bool) (gar : Nat → Nat → R) :
    ader2 coef nc pred K ub nx ny mask gar = ader2 coef false pred K ub nx ny mask gar := by
  unfold ader2
  refine fv2_off K _ _ nx ny 1 mask fun i j hij t ht => ?_
  obtain rfl : t = 0 := by omega
  have e : ind3 i j 0 (ny + 2) 1 / 1 = cell i j (ny + 2) := by unfold ind3 cell; omega
  have hj : j < ny + 2 := by have := hij.2.1; omega
  have d := cell_div (ny + 2) i j hj
  simp only [e, d.1, d.2]
  rw [weno2G_off coef nc ub nx ny i j hij]

/-- **So does `split_stepper`.** -/
theorem split2_corners (coef : Coef 1 E') (nc : Bool) (ode : E' → E') (half : Bool) (mid : (Fin 1 → Fin 1 → E') → (Fin 1 → Fin 1 → E'))
    (toR : (Fin 1 → Fin 1 → E') → R) (K : Kern E' D R) (ub : Nat → E') (nx ny : Nat) (mask : Nat → Bool) :
    split2 coef nc ode half mid toR K ub nx ny mask = split2 coef false ode half mid toR K ub nx ny mask := by
  unfold split2
  simp only
  rw [fv2_off K _ (fun b => toR (if (half && mask b) = true
      then mid (weno2G coef false (fun r => ode (ub r)) (nx + 2) (ny + 2) (b / (ny + 2)) (b % (ny + 2)))
      else weno2G coef false (fun r => ode (ub r)) (nx + 2) (ny + 2) (b / (ny + 2)) (b % (ny + 2)))) nx ny 1 mask fun i j hij t ht => ?_]
  obtain rfl : t = 0 := by omega
  have e : ind3 i j 0 (ny + 2) 1 = cell i j (ny + 2) := by unfold ind3 cell; omega
  have hj : j < ny + 2 := by have := hij.2.1; omega
  have d := cell_div (ny + 2) i j hj
  simp only [e, d.1, d.2]
  rw [weno2G_off coef nc _ nx ny i j hij]

end lists

variable {c : Sys.Cfg} (E : Env c 1)

/-- **In first order steps with and without `NO_CORNERS` are the same steps**, for every number of threads. -/
theorem corners_first (b : Nat → BT) (nc split : Bool) (threads : Nat) (dt : ℝ) (u u' : Iter.Mem) :
    MovesPlane E b nc split threads dt u u' ↔ MovesPlane E b false split threads dt u u' := by
  unfold MovesPlane aderWorker2 splitWorker2
  simp only [ader2_corners _ nc, split2_corners _ nc]

/-- So are whole runs. -/
theorem corners_follow {W' : Type} (F : Tail c) (bt : Nat → BT) (nc split : Bool) (threads : Nat) (b : Body Iter.Mem W') (tf : ℝ)
    (u0 : Iter.Mem) (w0 : W') : FollowsPlane E F bt nc split threads b tf u0 w0 ↔ FollowsPlane E F bt false split threads b tf u0 w0 := by
  unfold FollowsPlane
  simp only [corners_first E bt nc]

/-- In first order planes without variation along y move like lines with `NO_CORNERS` as well. -/
theorem columns_first (W : Weno.Setup 1) (undef : ℝ) (it : Nat) (tol : ℝ) (hv : c.viscous = true) (hE : E.Ok)
    (hX : E.Explicit W undef it tol) (hds : ∀ f, E.destress = some f → OneCell c f) (b : Nat → BT)
    (h0 : b 0 ≠ .other) (h1 : b 1 ≠ .other) (h2 : Open (b 2)) (h3 : Open (b 3)) (nc split : Bool) (threads threads' : Nat)
    (hT : 0 < threads) (hT' : 0 < threads') (dt : ℝ) (u w u' w' : Iter.Mem) (h : Columns c E.nx E.ny u w)
    (hset : split = false → Settles E b dt w)
    (hu : MovesPlane E b nc split threads dt u u') (hw : MovesLine E b split threads' dt w w') : Columns c E.nx E.ny u' w' :=
  moves_columns E W undef it tol hv hE hX hds b h0 h1 h2 h3 split threads threads' hT hT' dt u w u' w' h hset
    ((corners_first E b nc split threads dt u u').1 hu) hw

/-- In first order steps on periodic planes commute with shifts with `NO_CORNERS` as well, whatever the numbers of threads. -/
theorem shift_first (hE : E.Ok) (k l : Nat) (nc nc' split : Bool) (threads threads' : Nat) (hT : 0 < threads) (hT' : 0 < threads')
    (dt : ℝ) (u w u' w' : Iter.Mem) (h : Copies c (E.nx * E.ny) (shift2 E.nx E.ny k l) u w)
    (hset : split = false → Settles2 E allPeriodic dt w) (hu : MovesPlane E allPeriodic nc split threads dt u u')
    (hw : MovesPlane E allPeriodic nc' split threads' dt w w') : Copies c (E.nx * E.ny) (shift2 E.nx E.ny k l) u' w' :=
  moves_shift2 E hE k l split threads threads' hT hT' dt u w u' w' h hset ((corners_first E _ nc split threads dt u u').1 hu)
    ((corners_first E _ nc' split threads' dt w w').1 hw)

/-- Steps with the option exist: the split scheme on any data, with any number of threads.  They are steps without it. -/
example (hV : 0 < c.V) (hE : E.Ok) (threads : Nat) (dt : ℝ) (u : Iter.Mem) :
    ∃ u', MovesPlane E allPeriodic true true threads dt u u' ∧ MovesPlane E allPeriodic false true threads dt u u' := by
  obtain ⟨u', h⟩ := movesPlane_exists E hV hE allPeriodic (by decide) (by decide) (by decide) (by decide) true threads dt u
  exact ⟨u', h, (corners_first E _ true true threads dt u u').1 h⟩

end Verif.Run
