import Verif.Weno.Two

/-! # What the reconstruction for `N = 2` does to positive data

The slope lies between the two one-sided differences, so positive data whose neighbours differ by less than a factor of three
give a positive reconstruction.  Larger factors do not. -/

namespace Verif.Weno

open Verif.Poly Verif.Basis Polynomial

/-- The slope is a mean of the two differences. -/
theorem mix_mem (eps p q : ℝ) (he : 0 < eps) : min p q ≤ mix eps p q ∧ mix eps p q ≤ max p q := by
  have hp : 0 < p ^ 2 + eps := by positivity
  have hq : 0 < q ^ 2 + eps := by positivity
  unfold mix
  have a : 0 < 1 / (p ^ 2 + eps) ^ 8 := by positivity
  have b : 0 < 1 / (q ^ 2 + eps) ^ 8 := by positivity
  rw [div_eq_mul_one_div p, div_eq_mul_one_div q, le_div_iff₀ (by positivity), div_le_iff₀ (by positivity)]
  generalize 1 / (p ^ 2 + eps) ^ 8 = α at *
  generalize 1 / (q ^ 2 + eps) ^ 8 = β at *
  constructor
  · have := mul_le_mul_of_nonneg_right (min_le_left p q) a.le
    have := mul_le_mul_of_nonneg_right (min_le_right p q) b.le
    linarith
  · have := mul_le_mul_of_nonneg_right (le_max_left p q) a.le
    have := mul_le_mul_of_nonneg_right (le_max_right p q) b.le
    linarith

/-- Far steeper stencils have no say: the slope exceeds the flatter one by less than any amount. -/
theorem mix_flat (eps p q : ℝ) (he : 0 < eps) (h1 : 1 ≤ q) (hp : -p ≤ q) : mix eps p q ≤ p + 2 * (p ^ 2 + eps) ^ 8 / q := by
  have hp' : 0 < p ^ 2 + eps := by positivity
  have hq : 0 < q ^ 2 + eps := by positivity
  have q0 : 0 < q := by linarith
  have e : mix eps p q = p + (q - p) * (p ^ 2 + eps) ^ 8 / ((p ^ 2 + eps) ^ 8 + (q ^ 2 + eps) ^ 8) := by
    unfold mix
    field_simp
    ring
  rw [e]
  have k : 0 < (p ^ 2 + eps) ^ 8 := by positivity
  generalize (p ^ 2 + eps) ^ 8 = K at *
  have big : q ^ 2 ≤ (q ^ 2 + eps) ^ 8 := by
    have h2 : 1 ≤ q ^ 2 := by nlinarith
    calc q ^ 2 ≤ q ^ 2 + eps := by linarith
      _ = (q ^ 2 + eps) ^ 1 := (pow_one _).symm
      _ ≤ (q ^ 2 + eps) ^ 8 := pow_le_pow_right₀ (by linarith) (by norm_num)
  generalize (q ^ 2 + eps) ^ 8 = L at *
  have hL : 0 < L := lt_of_lt_of_le (by positivity) big
  have : (q - p) * K / (K + L) ≤ 2 * K / q := by
    rw [div_le_div_iff₀ (by positivity) q0]
    have h3 : (q - p) * q ≤ 2 * (K + L) := by nlinarith
    nlinarith
  linarith

variable (W : Setup 2)

/-- The polynomial of a straight line of nodal values. -/
theorem recon_line (a s : ℝ) (w : Fin 2 → ℝ) (hw : ∀ k, w k = a + s * (W.x k - 1 / 2)) (t : ℝ) :
    (W.recon w).eval t = a + s * (t - 1 / 2) := by
  have hi := W.basis.interp W.inj (C a + C s * (X - C (1 / 2)) : ℝ[X]) (line_degree a s)
  have e : ∀ j, (C a + C s * (X - C (1 / 2)) : ℝ[X]).eval (W.x j) = w j := fun j => by rw [hw]; simp
  simp only [e] at hi
  unfold Setup.recon
  rw [hi]
  simp

/-- The reconstruction on a line in closed form. -/
theorem weno1_line (hW : W.Clean) (undef : ℝ) (ub : Nat → ℝ) (nx i : Nat) (hi : i < nx) (t : ℝ) :
    (W.recon (weno1 W.T undef ub nx 0 i)).eval t =
      ub (i + 1) + mix W.T.eps (ub (i + 1) - ub i) (ub (i + 2) - ub (i + 1)) * (t - 1 / 2) := by
  refine recon_line W _ _ _ (fun k => ?_) t
  exact coeffs_both W hW undef (fun r => ub (i + r)) nx 0 i (by omega) (by omega) k

/-- **Where neighbours differ by less than a factor of three the reconstruction of positive data is positive everywhere in the
cell.** -/
theorem weno1_positive (hW : W.Clean) (undef : ℝ) (ub : Nat → ℝ) (nx i : Nat) (hi : i < nx) (h0 : 0 < ub i) (h1 : 0 < ub (i + 1))
    (h2 : 0 < ub (i + 2)) (hl : ub i < 3 * ub (i + 1)) (hr : ub (i + 2) < 3 * ub (i + 1)) (t : ℝ) (t0 : 0 ≤ t) (t1 : t ≤ 1) :
    0 < (W.recon (weno1 W.T undef ub nx 0 i)).eval t := by
  rw [weno1_line W hW undef ub nx i hi]
  obtain ⟨a, b⟩ := mix_mem W.T.eps (ub (i + 1) - ub i) (ub (i + 2) - ub (i + 1)) W.ok.eps
  have a' : -(2 * ub (i + 1)) < mix W.T.eps (ub (i + 1) - ub i) (ub (i + 2) - ub (i + 1)) :=
    lt_of_lt_of_le (lt_min (by linarith) (by linarith)) a
  have b' : mix W.T.eps (ub (i + 1) - ub i) (ub (i + 2) - ub (i + 1)) < 2 * ub (i + 1) :=
    lt_of_le_of_lt b (max_lt (by linarith) (by linarith))
  generalize mix _ _ _ = s at *
  have : |s * (t - 1 / 2)| < ub (i + 1) := by
    rw [abs_mul]
    have h1 : |s| < 2 * ub (i + 1) := abs_lt.2 ⟨a', b'⟩
    have h2 : |t - 1 / 2| ≤ 1 / 2 := abs_le.2 ⟨by linarith, by linarith⟩
    have := mul_le_mul_of_nonneg_left h2 (abs_nonneg s)
    linarith
  linarith [(abs_lt.1 this).1]

/-- **Nowhere does it leave the cell average by more than half of the larger difference.** -/
theorem weno1_near (hW : W.Clean) (undef : ℝ) (ub : Nat → ℝ) (nx i : Nat) (hi : i < nx) (t : ℝ) (t0 : 0 ≤ t) (t1 : t ≤ 1) :
    |(W.recon (weno1 W.T undef ub nx 0 i)).eval t - ub (i + 1)| ≤
      1 / 2 * max |ub (i + 1) - ub i| |ub (i + 2) - ub (i + 1)| := by
  rw [weno1_line W hW undef ub nx i hi]
  obtain ⟨a, b⟩ := mix_mem W.T.eps (ub (i + 1) - ub i) (ub (i + 2) - ub (i + 1)) W.ok.eps
  have hs : |mix W.T.eps (ub (i + 1) - ub i) (ub (i + 2) - ub (i + 1))| ≤ max |ub (i + 1) - ub i| |ub (i + 2) - ub (i + 1)| := by
    refine abs_le.2 ⟨le_trans ?_ a, b.trans ?_⟩
    · refine le_min ?_ ?_
      · have := (abs_le.1 (le_max_left |ub (i + 1) - ub i| |ub (i + 2) - ub (i + 1)|)).1; exact this
      · have := (abs_le.1 (le_max_right |ub (i + 1) - ub i| |ub (i + 2) - ub (i + 1)|)).1; exact this
    · exact max_le_max (le_abs_self _) (le_abs_self _)
  generalize mix _ _ _ = s at *
  rw [add_sub_cancel_left, abs_mul, mul_comm]
  have h2 : |t - 1 / 2| ≤ 1 / 2 := abs_le.2 ⟨by linarith, by linarith⟩
  exact mul_le_mul h2 hs (abs_nonneg s) (by norm_num)

/-- **Larger factors make it negative**: next to a cell that holds more than three times as much on one side and far more on the
other, the reconstruction of positive data is negative at the far end. -/
theorem weno1_negative (hW : W.Clean) (l a : ℝ) (ha : 0 < a) (hl : 3 * a < l) :
    ∃ R : ℝ, ∀ (undef : ℝ) (ub : Nat → ℝ) (nx i : Nat), i < nx → ub i = l → ub (i + 1) = a → R ≤ ub (i + 2) →
      (W.recon (weno1 W.T undef ub nx 0 i)).eval 1 < 0 := by
  have he := W.ok.eps
  let K := ((a - l) ^ 2 + W.T.eps) ^ 8
  have hK : 0 < K := by positivity
  have hd : 0 < l - 3 * a := by linarith
  refine ⟨a + 1 + (l - a) + 4 * K / (l - 3 * a), fun undef ub nx i hi h0 h1 h2 => ?_⟩
  have hf : 0 < 4 * K / (l - 3 * a) := by positivity
  rw [weno1_line W hW undef ub nx i hi, h0, h1]
  have q1 : 1 + (l - a) + 4 * K / (l - 3 * a) ≤ ub (i + 2) - a := by linarith
  generalize ub (i + 2) - a = q at *
  have := mix_flat W.T.eps (a - l) q he (by linarith) (by linarith)
  have q0 : 0 < q := by linarith
  have h3 : 2 * K / q < l - 3 * a := by
    rw [div_lt_iff₀ q0]
    have : 4 * K / (l - 3 * a) ≤ q := by linarith
    rw [div_le_iff₀ hd] at this
    linarith
  change _ ≤ a - l + 2 * K / q at this
  linarith

/-- **At the end of a slope it overshoots**: where the data stop rising the reconstruction is above all of them. -/
theorem weno1_overshoot (hW : W.Clean) (undef : ℝ) (ub : Nat → ℝ) (nx i : Nat) (hi : i < nx) (h0 : ub i < ub (i + 1))
    (h1 : ub (i + 2) = ub (i + 1)) :
    ub (i + 1) < (W.recon (weno1 W.T undef ub nx 0 i)).eval 1 := by
  have he := W.ok.eps
  rw [weno1_line W hW undef ub nx i hi, h1, sub_self, mix_zero_right _ _ he]
  have : 0 < share W.T.eps (ub (i + 1) - ub i) := by unfold share; positivity
  have : 0 < (ub (i + 1) - ub i) * share W.T.eps (ub (i + 1) - ub i) := mul_pos (by linarith) this
  linarith

/-- There are set-ups as the theorems ask for.  The data 1, 2, 5 are reconstructed above zero and the data 1, 2, 2 above two;
the data 4, 1, `R` are positive for some `R`, and their reconstruction is negative at the right end of the cell. -/
example : ∃ W : Setup 2, W.Clean ∧
    (∀ t, 0 ≤ t → t ≤ 1 → 0 < (W.recon (weno1 W.T 0 (fun r => if r = 0 then 1 else if r = 1 then 2 else 5) 1 0 0)).eval t) ∧
    2 < (W.recon (weno1 W.T 0 (fun r => if r = 0 then 1 else 2) 1 0 0)).eval 1 ∧
    ∃ R > 0, (W.recon (weno1 W.T 0 (fun r => if r = 0 then 4 else if r = 1 then 1 else R) 1 0 0)).eval 1 < 0 := by
  obtain ⟨W, -, hW, -⟩ := setup_exists 2 (by norm_num) ![0, 1] (by
    intro a b h
    fin_cases a <;> fin_cases b <;> simp_all)
  refine ⟨W, hW, fun t t0 t1 => weno1_positive W hW 0 _ 1 0 (by norm_num) (by norm_num) (by norm_num) (by norm_num) (by norm_num)
    (by norm_num) t t0 t1, ?_, ?_⟩
  · have := weno1_overshoot W hW 0 (fun r => if r = 0 then 1 else 2) 1 0 (by norm_num) (by norm_num) (by norm_num)
    simpa using this
  · obtain ⟨R, h⟩ := weno1_negative W hW 4 1 (by norm_num) (by norm_num)
    exact ⟨max R 1, by positivity, h 0 _ 1 0 (by norm_num) (by norm_num) (by norm_num) (by norm_num)⟩

end Verif.Weno
