import Verif.Weno.Props

/-! # The reconstruction for `N = 2`

The two stencils are straight lines; their slopes are averaged with weights that fall with the slope. -/

namespace Verif.Weno

open Verif.Poly Verif.Basis Polynomial

/-- The mean of two slopes with the weights of weno.cpp:4-15. -/
noncomputable def mix (eps p q : ℝ) : ℝ :=
  (p / (p ^ 2 + eps) ^ 8 + q / (q ^ 2 + eps) ^ 8) / (1 / (p ^ 2 + eps) ^ 8 + 1 / (q ^ 2 + eps) ^ 8)

/-- The share of a slope that is averaged with zero. -/
noncomputable def share (eps q : ℝ) : ℝ := eps ^ 8 / (eps ^ 8 + (q ^ 2 + eps) ^ 8)

theorem mix_self (eps p : ℝ) (he : 0 < eps) : mix eps p p = p := by
  have h : 0 < p ^ 2 + eps := by positivity
  unfold mix
  field_simp

theorem mix_zero_left (eps q : ℝ) (he : 0 < eps) : mix eps 0 q = q * share eps q := by
  have h : 0 < q ^ 2 + eps := by positivity
  unfold mix share
  have e : (0 : ℝ) ^ 2 + eps = eps := by ring
  rw [e]
  field_simp
  ring

theorem mix_zero_right (eps q : ℝ) (he : 0 < eps) : mix eps q 0 = q * share eps q := by
  have h : 0 < q ^ 2 + eps := by positivity
  unfold mix share
  have e : (0 : ℝ) ^ 2 + eps = eps := by ring
  rw [e]
  field_simp
  ring

/-- `SIG` is what `oscillation_indicator` is meant to compute: `ret` starts from zero. -/
def Setup.Clean {n : Nat} (W : Setup n) : Prop := ∀ i j, oscillationIndicator 0 W.psi i j = some (W.T.sig i j)

variable (W : Setup 2)

theorem line_degree (a s : ℝ) : (C a + C s * (X - C (1 / 2)) : ℝ[X]).degree < 2 := by
  refine lt_of_le_of_lt (degree_add_le _ _) (max_lt (lt_of_le_of_lt degree_C_le (by norm_num)) ?_)
  refine lt_of_le_of_lt (degree_mul_le _ _) ?_
  rw [degree_X_sub_C]
  refine lt_of_le_of_lt (add_le_add degree_C_le le_rfl) (by norm_num)

theorem line_sig (hW : W.Clean) (a s : ℝ) :
    (fun k => a + s * (W.x k - 1 / 2)) ⬝ᵥ W.T.sig.mulVec (fun k => a + s * (W.x k - 1 / 2)) = s ^ 2 := by
  have h := (oscillation_form W.basis W.pos W.T.sig hW (fun k => a + s * (W.x k - 1 / 2))).1
  have hi := W.basis.interp W.inj (C a + C s * (X - C (1 / 2)) : ℝ[X]) (line_degree a s)
  have e : ∀ j, (C a + C s * (X - C (1 / 2)) : ℝ[X]).eval (W.x j) = a + s * (W.x j - 1 / 2) := fun j => by simp
  simp only [e] at hi
  rw [h, hi]
  simp

theorem line_weight (hW : W.Clean) (a s : ℝ) :
    weight W.T (fun k => a + s * (W.x k - 1 / 2)) W.T.lamS = W.T.lamS / (s ^ 2 + W.T.eps) ^ 8 := by
  unfold weight
  simp only [line_sig W hW]
  congr 1
  ring

/-- A stencil gives the line through two cell means. -/
theorem line_left (d : Nat → ℝ) :
    W.T.mLinv.mulVec (block d 0) = fun k => d 1 + (d 1 - d 0) * (W.x k - 1 / 2) := by
  obtain ⟨sig, lamS, lamC, eps, hT⟩ := W.tables
  have hst := stencil_poly W.basis W.inj (fun r => d 1 + (d 1 - d 0) * ((r : ℝ) - 1)) 0 1 (by norm_num)
    (C (d 1) + C (d 1 - d 0) * (X - C (1 / 2))) (line_degree _ _) (by
      intro r hr
      simp only [eval_sub, eval_X, eval_C, eval_add, eval_mul]
      rw [intervalIntegral.integral_add (by simp) (by
          apply Continuous.intervalIntegrable; fun_prop), intervalIntegral.integral_const,
        intervalIntegral.integral_const_mul,
        intervalIntegral.integral_sub (by simp) (by simp), integral_id, intervalIntegral.integral_const]
      push_cast
      simp only [smul_eq_mul]
      ring)
  have hbl : block (n := 2) d 0 = block (fun r => d 1 + (d 1 - d 0) * ((r : ℝ) - 1)) 0 := by
    funext i
    fin_cases i <;> norm_num [block]
  rw [hbl, hT]
  refine Eq.trans hst ?_
  funext k; simp

theorem line_right (d : Nat → ℝ) :
    W.T.mRinv.mulVec (block d 1) = fun k => d 1 + (d 2 - d 1) * (W.x k - 1 / 2) := by
  obtain ⟨sig, lamS, lamC, eps, hT⟩ := W.tables
  have hst := stencil_poly W.basis W.inj (fun r => d 1 + (d 2 - d 1) * ((r : ℝ) - 1)) 1 0 (by norm_num)
    (C (d 1) + C (d 2 - d 1) * (X - C (1 / 2))) (line_degree _ _) (by
      intro r hr
      simp only [eval_sub, eval_X, eval_C, eval_add, eval_mul]
      rw [intervalIntegral.integral_add (by simp) (by
          apply Continuous.intervalIntegrable; fun_prop), intervalIntegral.integral_const,
        intervalIntegral.integral_const_mul,
        intervalIntegral.integral_sub (by simp) (by simp), integral_id, intervalIntegral.integral_const]
      push_cast
      simp only [smul_eq_mul]
      ring)
  have hbl : block (n := 2) d 1 = block (fun r => d 1 + (d 2 - d 1) * ((r : ℝ) - 1)) 1 := by
    funext i
    fin_cases i <;> norm_num [block]
  rw [hbl, hT]
  refine Eq.trans hst ?_
  funext k; simp

/-- Both stencils in use. -/
theorem coeffs_both (hW : W.Clean) (undef : ℝ) (d : Nat → ℝ) (nx gap ind : Int) (h1 : ind ≥ gap)
    (h2 : ind ≤ nx - gap - 1) (k : Fin 2) :
    coeffs W.T undef d nx gap ind k = d 1 + mix W.T.eps (d 1 - d 0) (d 2 - d 1) * (W.x k - 1 / 2) := by
  have he := W.ok.eps
  have hl := W.ok.lamS
  have p1 : 0 < (d 1 - d 0) ^ 2 + W.T.eps := by positivity
  have p2 : 0 < (d 2 - d 1) ^ 2 + W.T.eps := by positivity
  unfold coeffs coeffsND
  simp only [show (2 : Nat) - 1 = 1 from rfl, line_left W d, line_right W d, line_weight W hW]
  simp only [acc, decide_eq_true h1, decide_eq_true h2, if_true, gt_iff_lt, lt_self_iff_false, decide_false,
    Bool.false_and, Bool.false_eq_true, if_false, zero_add]
  rw [if_neg (by positivity)]
  simp only [Pi.add_apply, Pi.smul_apply, smul_eq_mul]
  unfold mix
  field_simp
  ring

/-- Only the right stencil in use. -/
theorem coeffs_right (hW : W.Clean) (undef : ℝ) (d : Nat → ℝ) (nx gap ind : Int) (h1 : ¬ ind ≥ gap)
    (h2 : ind ≤ nx - gap - 1) (k : Fin 2) :
    coeffs W.T undef d nx gap ind k = d 1 + (d 2 - d 1) * (W.x k - 1 / 2) := by
  have he := W.ok.eps
  have hl := W.ok.lamS
  have p2 : 0 < (d 2 - d 1) ^ 2 + W.T.eps := by positivity
  unfold coeffs coeffsND
  simp only [show (2 : Nat) - 1 = 1 from rfl, line_left W d, line_right W d, line_weight W hW]
  simp only [acc, decide_eq_false h1, decide_eq_true h2, if_true, gt_iff_lt, lt_self_iff_false, decide_false,
    Bool.false_and, Bool.false_eq_true, if_false, zero_add]
  rw [if_neg (by positivity)]
  simp only [Pi.smul_apply, smul_eq_mul]
  field_simp

/-- Only the left stencil in use. -/
theorem coeffs_left (hW : W.Clean) (undef : ℝ) (d : Nat → ℝ) (nx gap ind : Int) (h1 : ind ≥ gap)
    (h2 : ¬ ind ≤ nx - gap - 1) (k : Fin 2) :
    coeffs W.T undef d nx gap ind k = d 1 + (d 1 - d 0) * (W.x k - 1 / 2) := by
  have he := W.ok.eps
  have hl := W.ok.lamS
  have p1 : 0 < (d 1 - d 0) ^ 2 + W.T.eps := by positivity
  unfold coeffs coeffsND
  simp only [show (2 : Nat) - 1 = 1 from rfl, line_left W d, line_right W d, line_weight W hW]
  simp only [acc, decide_eq_true h1, decide_eq_false h2, if_true, gt_iff_lt, lt_self_iff_false, decide_false,
    Bool.false_and, Bool.false_eq_true, if_false, zero_add]
  rw [if_neg (by positivity)]
  simp only [Pi.smul_apply, smul_eq_mul]
  field_simp

end Verif.Weno
