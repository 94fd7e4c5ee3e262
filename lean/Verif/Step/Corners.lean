import Verif.Step.Real

/-!
# C14 fails in two dimensions with `NO_CORNERS = true` (the shipped configuration)

With the option on, rows next to the ends of the array use fewer stencils in the edge columns
(weno.cpp:96-99).  A worker's chunk has its own ends, so the reconstruction depends on the number of workers.
-/

namespace Verif.Step

open Verif.Fv Verif.Dg Verif.Basis Polynomial

/-- Data that jump between the rows 4 and 5. -/
noncomputable def stepRows : Nat → ℝ := fun r => if r = 5 then 1 else 0

theorem right_only (W : Weno.Setup 2) (undef : ℝ) (k : Fin 2) :
    Weno.coeffs W.T undef (fun r => stepRows (3 + r)) 4 2 1 k = W.x k - 1 / 2 := by
  obtain ⟨sig, lamS, lamC, eps, hT⟩ := W.tables
  have hst := Weno.stencil_poly W.basis W.inj (fun r => (r : ℝ) - 1) 1 0 (by norm_num)
    (X - C (1 / 2)) (by rw [degree_X_sub_C]; norm_num) (by
      intro r hr
      simp only [eval_sub, eval_X, eval_C]
      rw [intervalIntegral.integral_sub (by simp) (by simp), integral_id, intervalIntegral.integral_const]
      norm_num
      ring)
  have hbl : Weno.block (n := 2) (fun r => stepRows (3 + r)) 1 = Weno.block (fun r => (r : ℝ) - 1) 1 := by
    funext i
    fin_cases i <;> norm_num [Weno.block, stepRows]
  have hw : W.T.mRinv.mulVec (Weno.block (fun r => stepRows (3 + r)) 1) = fun j => W.x j - 1 / 2 := by
    rw [hbl, hT]
    refine Eq.trans hst ?_
    funext j; simp
  have hpos := Weno.weight_pos W.T W.ok (fun j => W.x j - 1 / 2) W.T.lamS W.ok.lamS
  unfold Weno.coeffs Weno.coeffsND
  set oR := Weno.weight W.T (fun j => W.x j - 1 / 2) W.T.lamS with hoR
  have hnd : ∀ w0 w1 wL : Fin 2 → ℝ, ∀ a b c : ℝ, Weno.acc (decide ((2 : Nat) > 2) && (decide ((2 : Nat) % 2 = 0) &&
      decide ((1 : Int) - Weno.fn2 2 ≤ 4 - 2 - 1))) w1 b (Weno.acc (decide ((2 : Nat) > 2) &&
        decide ((1 : Int) + Weno.fn2 2 ≥ 2)) w0 a
      (Weno.acc (decide ((1 : Int) ≤ 4 - 2 - 1)) (fun j => W.x j - 1 / 2) oR
        (Weno.acc (decide ((1 : Int) ≥ 2)) wL c (0, 0)))) =
      (oR • (fun j => W.x j - 1 / 2), oR) := by
    intro w0 w1 wL a b c
    simp [Weno.acc]
  simp only [show (2 : Nat) - 1 = 1 from rfl, hw, ← hoR]
  erw [hnd]
  rw [if_neg hpos.ne']
  simp only [Pi.smul_apply, smul_eq_mul]
  field_simp

theorem both_stencils (W : Weno.Setup 2) (undef : ℝ) (k : Fin 2) :
    ∃ θ : ℝ, θ < 1 ∧ Weno.coeffs W.T undef (fun r => stepRows (3 + r)) 6 2 3 k = θ * (W.x k - 1 / 2) := by
  obtain ⟨sig, lamS, lamC, eps, hT⟩ := W.tables
  have hst := Weno.stencil_poly W.basis W.inj (fun r => (r : ℝ) - 1) 1 0 (by norm_num)
    (X - C (1 / 2)) (by rw [degree_X_sub_C]; norm_num) (by
      intro r hr
      simp only [eval_sub, eval_X, eval_C]
      rw [intervalIntegral.integral_sub (by simp) (by simp), integral_id, intervalIntegral.integral_const]
      norm_num
      ring)
  have hbl : Weno.block (n := 2) (fun r => stepRows (3 + r)) 1 = Weno.block (fun r => (r : ℝ) - 1) 1 := by
    funext i
    fin_cases i <;> norm_num [Weno.block, stepRows]
  have hw : W.T.mRinv.mulVec (Weno.block (fun r => stepRows (3 + r)) 1) = fun j => W.x j - 1 / 2 := by
    rw [hbl, hT]
    refine Eq.trans hst ?_
    funext j; simp
  have hb0 : Weno.block (n := 2) (fun r => stepRows (3 + r)) 0 = 0 := by
    funext i
    fin_cases i <;> simp [Weno.block, stepRows]
  have hwL : W.T.mLinv.mulVec (Weno.block (fun r => stepRows (3 + r)) 0) = 0 := by
    rw [hb0, Matrix.mulVec_zero]
  have hR := Weno.weight_pos W.T W.ok (fun j => W.x j - 1 / 2) W.T.lamS W.ok.lamS
  have hL := Weno.weight_pos W.T W.ok 0 W.T.lamS W.ok.lamS
  set oR := Weno.weight W.T (fun j => W.x j - 1 / 2) W.T.lamS with hoR
  set oL := Weno.weight W.T 0 W.T.lamS with hoL
  refine ⟨oR / (oL + oR), (div_lt_one (by positivity)).mpr (by linarith), ?_⟩
  have hne : oL + oR ≠ 0 := by positivity
  unfold Weno.coeffs Weno.coeffsND
  simp only [show (2 : Nat) - 1 = 1 from rfl, hw, hwL, ← hoR, ← hoL]
  have hnd : ∀ w0 w1 : Fin 2 → ℝ, ∀ a b : ℝ, Weno.acc (decide ((2 : Nat) > 2) && (decide ((2 : Nat) % 2 = 0) &&
      decide ((3 : Int) - Weno.fn2 2 ≤ 6 - 2 - 1))) w1 b (Weno.acc (decide ((2 : Nat) > 2) &&
        decide ((3 : Int) + Weno.fn2 2 ≥ 2)) w0 a
      (Weno.acc (decide ((3 : Int) ≤ 6 - 2 - 1)) (fun j => W.x j - 1 / 2) oR
        (Weno.acc (decide ((3 : Int) ≥ 2)) 0 oL (0, 0)))) =
      (oR • (fun j => W.x j - 1 / 2), oL + oR) := by
    intro w0 w1 a b
    simp [Weno.acc]
  erw [hnd]
  rw [if_neg hne]
  simp only [Pi.smul_apply, smul_eq_mul]
  ring

/-- The padded field: every column holds `stepRows`. -/
noncomputable def stepField (width : Nat) : Nat → Unit → ℝ := fun r _ => stepRows (r / width)

theorem stepField_row (width r J : Nat) (h : J < width) (v : Unit) :
    stepField width (r * width + J) v = stepRows r := by
  unfold stepField
  rw [Nat.mul_comm, Nat.mul_add_div (by omega), Nat.div_eq_of_lt h, Nat.add_zero]

/-- A grid of four rows split between two workers: the second worker reconstructs its first row differently
from the serial program. -/
theorem chunk_reconstruction_differs (W : Weno.Setup 2) (undef : ℝ) (ny : Nat) :
    ∃ ii jj : Fin 2,
      weno2G (realCoef W.T undef) true (fun r => stepField (ny + 4) (2 * (ny + 4) + r)) 4 (ny + 2) 1 0 ii jj ≠
      weno2G (realCoef W.T undef) true (stepField (ny + 4)) 6 (ny + 2) 3 0 ii jj := by
  obtain ⟨ii, hii⟩ : ∃ ii : Fin 2, W.x ii ≠ 1 / 2 := by
    by_contra hc
    push Not at hc
    exact absurd (W.inj ((hc 0).trans (hc 1).symm)) (by decide)
  by_contra hc
  push Not at hc
  have hw : ny + 2 + 2 * (2 - 1) = ny + 4 := by omega
  -- first pass at the node `ii`
  have loc : ∀ J, J = 1 → weno1G (realCoef W.T undef)
      (fun r => stepField (ny + 4) (2 * (ny + 4) + (r * (ny + 2 + 2 * (2 - 1)) + J))) ((4 : Nat) : Int)
      2 1 ii () = W.x ii - 1 / 2 := by
    intro J hJ
    rw [weno1G_real, ← right_only W undef ii]
    unfold Weno.weno1
    congr 1
    funext r
    show stepField (ny + 4) (2 * (ny + 4) + ((1 + r) * (ny + 2 + 2 * (2 - 1)) + J)) () = _
    rw [hw, show 2 * (ny + 4) + ((1 + r) * (ny + 4) + J) = (3 + r) * (ny + 4) + J by ring]
    exact stepField_row _ _ _ (by omega) ()
  have ser : ∀ J, J = 1 → ∃ θ : ℝ, θ < 1 ∧ weno1G (realCoef W.T undef)
      (fun r => stepField (ny + 4) (r * (ny + 2 + 2 * (2 - 1)) + J)) ((6 : Nat) : Int) 2 3 ii () =
        θ * (W.x ii - 1 / 2) := by
    intro J hJ
    obtain ⟨θ, h1, h2⟩ := both_stencils W undef ii
    refine ⟨θ, h1, ?_⟩
    rw [weno1G_real, ← h2]
    unfold Weno.weno1
    congr 1
    funext r
    rw [hw]
    exact stepField_row _ _ _ (by omega) ()
  -- equal blocks have equal means, which are the values of the first pass in column 1
  have mean : ∀ (f : Nat → Unit → ℝ) (g : Fin 2 → ℝ) (gap : Int), gap = 0 →
      (∀ jj, g jj = weno1G (realCoef W.T undef) f ((ny + 2 : Nat) : Int) gap 0 jj ()) →
      ∫ t in (0 : ℝ)..1, (W.recon g).eval t = f 1 () := by
    intro f g gap hgap hg
    have : g = Weno.weno1 W.T undef (fun r => f r ()) (ny + 2) gap 0 := by
      funext jj; rw [hg, weno1G_real]
    rw [this, hgap]
    exact Weno.weno1_conservative W undef (fun r => f r ()) (ny + 2) 0
  obtain ⟨θ, hθ, hser⟩ := ser 1 rfl
  have hloc := loc 1 rfl
  have m1 := mean (fun J v => weno1G (realCoef W.T undef)
      (fun r => stepField (ny + 4) (2 * (ny + 4) + (r * (ny + 2 + 2 * (2 - 1)) + J))) ((4 : Nat) : Int)
      (if true && (decide (J < 2) || decide (J + 2 ≥ ny + 2 + 2 * (2 - 1))) then (2 : Nat) else 0) 1 ii v)
      (fun jj => weno2G (realCoef W.T undef) true (fun r => stepField (ny + 4) (2 * (ny + 4) + r)) 4 (ny + 2)
        1 0 ii jj ()) 0 rfl (fun jj => rfl)
  have m2 := mean (fun J v => weno1G (realCoef W.T undef)
      (fun r => stepField (ny + 4) (r * (ny + 2 + 2 * (2 - 1)) + J)) ((6 : Nat) : Int)
      (if true && (decide (J < 2) || decide (J + 2 ≥ ny + 2 + 2 * (2 - 1))) then (2 : Nat) else 0) 3 ii v)
      (fun jj => weno2G (realCoef W.T undef) true (stepField (ny + 4)) 6 (ny + 2)
        3 0 ii jj ()) 0 rfl (fun jj => rfl)
  have heq : (fun jj => weno2G (realCoef W.T undef) true (fun r => stepField (ny + 4) (2 * (ny + 4) + r)) 4
      (ny + 2) 1 0 ii jj ()) = fun jj => weno2G (realCoef W.T undef) true (stepField (ny + 4)) 6 (ny + 2)
        3 0 ii jj () := by
    funext jj; rw [hc ii jj]
  rw [heq, m2] at m1
  have c1 : (if true && (decide ((1 : Nat) < 2) || decide (1 + 2 ≥ ny + 2 + 2 * (2 - 1))) then
      (((2 : Nat) : Int)) else 0) = 2 := by simp
  simp only [c1] at m1
  rw [hloc, hser] at m1
  have hne : W.x ii - 1 / 2 ≠ 0 := sub_ne_zero.mpr hii
  have : (θ - 1) * (W.x ii - 1 / 2) = 0 := by linear_combination m1
  rcases mul_eq_zero.mp this with h | h
  · linarith
  · exact hne h

/-- **C14 is false in two dimensions for the shipped `NO_CORNERS = true`.**  Four rows, two workers, `N = 2`:
for a suitable predictor and kernel every schedule of `ader_stepper_para` leaves a field different from the
one `ader_stepper` leaves.  (The predictor writes every cell, so this is not about garbage.) -/
theorem ader_para2_corners_false (W : Weno.Setup 2) (undef : ℝ) (ny : Nat) (hny : 0 < ny) :
    ∃ (R : Type) (pred : (Fin 2 → Fin 2 → Unit → ℝ) → Option (Nat → R)) (K : Kern (Unit → ℝ) (Unit → ℝ) R),
      (∀ w, (pred w).isSome) ∧ ∀ (gar0 : Nat → Nat → R) (gar : Nat → Nat → Nat → R) u l,
      IsSchedule 2 (fun w => aderWorker2 (realCoef W.T undef) true pred K (stepField (ny + 4)) 4 ny
        (fun _ => true) 2 (gar w) w) l →
      apply K.app (l.map Prod.snd) u ≠
        apply K.app (ader2 (realCoef W.T undef) true pred K (stepField (ny + 4)) 4 ny (fun _ => true) gar0) u := by
  obtain ⟨ii, jj, hne⟩ := chunk_reconstruction_differs W undef ny
  let K : Kern (Unit → ℝ) (Unit → ℝ) (Fin 2 → Fin 2 → Unit → ℝ) :=
    { app := fun u d => u + d
      cen := fun _ _ => []
      face := fun d _ a _ => if d = 1 then (0, a ii jj) else (0, 0) }
  refine ⟨Fin 2 → Fin 2 → Unit → ℝ, fun w => some fun _ => w, K, fun _ => rfl, ?_⟩
  intro gar0 gar u l hl h
  have h2 := congrFun h (cell 2 0 ny)
  rw [apply_get, apply_get] at h2
  have s1 : start 4 2 1 = 2 := by decide
  have s2 : start 4 2 2 = 4 := by decide
  have s0 : start 4 2 0 = 0 := by decide
  -- only worker 1 touches the cell
  have hw1 : at' (cell 2 0 ny) (l.map Prod.snd) =
      at' (cell 0 0 ny) (ader2 (realCoef W.T undef) true (fun w => some fun _ => w) K
        (fun r => stepField (ny + 4) (2 * (ny + 4) + r)) 2 ny (fun _ => true) (gar 1)) := by
    rw [schedule_at hl (cell 2 0 ny) 1 (by norm_num)]
    · simp only [aderWorker2, s1, s2]
      rw [show cell 2 0 ny = 2 * ny + cell 0 0 ny by simp [cell]]
      exact at'_shift (2 * ny) (cell 0 0 ny) _
    · intro w hw hne1
      obtain rfl : w = 0 := by omega
      refine at'_bound _ (2 * ny) (fun op hop => ?_) _ (by simp [cell])
      simp only [aderWorker2, s0, s1, Nat.zero_mul, Nat.zero_add, Prod.mk.eta, List.map_id'] at hop
      exact fv2_bound K _ _ _ _ _ op hop
  have key : ∀ (rec : Nat → Fin 2 → Fin 2 → Unit → ℝ) (nx x : Nat), x < nx → ∀ a : Unit → ℝ,
      (∀ t, t < 2 → rec (ind3 (x + 1) 0 t (ny + 2) 2) ii jj = a) → ∀ e : Unit → ℝ,
      (at' (cell x 0 ny) (fv2 K rec nx ny 2 fun _ => true)).foldl K.app e = e + a + a := by
    intro rec nx x hx a ha e
    rw [fv2_at K rec nx ny 2 _ x 0 hx hny]
    have a0 := ha 0 (by norm_num)
    have a1 := ha 1 (by norm_num)
    simp [K, List.range_succ, a0, a1]
  rw [hw1] at h2
  have d : ∀ x t, t < 2 → ind3 x 0 t (ny + 2) 2 / 2 = x * (ny + 2) ∧
      x * (ny + 2) / (ny + 2) = x ∧ x * (ny + 2) % (ny + 2) = 0 := fun x t ht => by
    unfold ind3
    refine ⟨by omega, Nat.mul_div_cancel _ (by omega), Nat.mul_mod_left _ _⟩
  have k1 := key (fun b => orGarbage true (some fun _ => weno2G (realCoef W.T undef) true
    (fun r => stepField (ny + 4) (2 * (ny + 4) + r)) (2 + 2) (ny + 2) (b / 2 / (ny + 2)) (b / 2 % (ny + 2)))
    (gar 1 (b / 2)) (b % 2)) 2 0 (by norm_num)
    (weno2G (realCoef W.T undef) true (fun r => stepField (ny + 4) (2 * (ny + 4) + r)) 4 (ny + 2) 1 0 ii jj)
    (by
      intro t ht
      obtain ⟨d1, d2, d3⟩ := d 1 t ht
      simp only [Nat.zero_add, d1, d2, d3, orGarbage, if_true, Option.getD_some]) (u (cell 2 0 ny))
  have k2 := key (fun b => orGarbage true (some fun _ => weno2G (realCoef W.T undef) true
    (stepField (ny + 4)) (4 + 2) (ny + 2) (b / 2 / (ny + 2)) (b / 2 % (ny + 2)))
    (gar0 (b / 2)) (b % 2)) 4 2 (by norm_num)
    (weno2G (realCoef W.T undef) true (stepField (ny + 4)) 6 (ny + 2) 3 0 ii jj)
    (by
      intro t ht
      obtain ⟨d1, d2, d3⟩ := d 3 t ht
      simp only [show 2 + 1 = 3 from rfl, d1, d2, d3, orGarbage, if_true, Option.getD_some]) (u (cell 2 0 ny))
  have h3 := (k1.symm.trans h2).trans k2
  apply hne
  funext v
  have := congrFun h3 v
  simp only [Pi.add_apply] at this
  linarith

end Verif.Step
