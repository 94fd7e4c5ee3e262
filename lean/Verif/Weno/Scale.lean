import Verif.Weno.Face

/-! # The reconstruction depends on the units of the data -/

namespace Verif.Weno

variable (W : Setup 2)

/-- **`weno.cpp` adds the constant `eps` to the square of a difference of data**: in other units the reconstruction is another one, as
soon as the slopes on the two sides differ. -/
theorem weno1_units_false (hW : W.Clean) (undef : ℝ) (s : ℝ) (hs : 0 < s) (hs1 : s ≠ 1) (ub : Nat → ℝ) (nx i : Nat) (hi : i < nx)
    (h0 : ub i ≠ ub (i + 1)) (h1 : ub (i + 2) = ub (i + 1)) :
    (W.recon (weno1 W.T undef (fun r => s * ub r) nx 0 i)).eval 1 ≠ s * (W.recon (weno1 W.T undef ub nx 0 i)).eval 1 := by
  have he := W.ok.eps
  rw [weno1_line W hW undef ub nx i hi, weno1_line W hW undef (fun r => s * ub r) nx i hi]
  simp only [h1]
  rw [← mul_sub, sub_self, sub_self, mix_zero_right _ _ he, mix_zero_right _ _ he]
  have hd : ub (i + 1) - ub i ≠ 0 := sub_ne_zero.2 h0.symm
  generalize ub (i + 1) - ub i = d at hd
  intro h
  have hsh : share W.T.eps (s * d) = share W.T.eps d := by
    have : s * d * (share W.T.eps (s * d) - share W.T.eps d) = 0 := by linarith
    rcases mul_eq_zero.1 this with h | h
    · exact absurd h (mul_ne_zero hs.ne' hd)
    · linarith
  unfold share at hsh
  have p1 : 0 < (s * d) ^ 2 + W.T.eps := by positivity
  have p2 : 0 < d ^ 2 + W.T.eps := by positivity
  rw [div_eq_div_iff (by positivity) (by positivity)] at hsh
  have hsh := mul_left_cancel₀ (pow_pos he 8).ne' hsh
  have h8 : ((s * d) ^ 2 + W.T.eps) ^ 8 = (d ^ 2 + W.T.eps) ^ 8 := by linarith
  have := (pow_left_inj₀ p1.le p2.le (by norm_num)).1 h8
  have d2 : 0 < d ^ 2 := by positivity
  have : (s ^ 2 - 1) * d ^ 2 = 0 := by linarith [mul_pow s d 2]
  rcases mul_eq_zero.1 this with h | h
  · have : (s - 1) * (s + 1) = 0 := by linarith [sq s]
    rcases mul_eq_zero.1 this with h | h
    · exact hs1 (by linarith)
    · linarith
  · exact d2.ne' h

/-- The data 1, 2, 2 in units a thousand times as small. -/
example : ∃ W : Setup 2, W.Clean ∧ (W.recon (weno1 W.T 0 (fun r => 1000 * if r = 0 then 1 else 2) 1 0 0)).eval 1 ≠
    1000 * (W.recon (weno1 W.T 0 (fun r => if r = 0 then 1 else 2) 1 0 0)).eval 1 := by
  obtain ⟨W, -, hW, -⟩ := setup_exists 2 (by norm_num) ![0, 1] (by
    intro a b h
    fin_cases a <;> fin_cases b <;> simp_all)
  exact ⟨W, hW, weno1_units_false W hW 0 1000 (by norm_num) (by norm_num) _ 1 0 (by norm_num) (by norm_num) (by norm_num)⟩

end Verif.Weno
