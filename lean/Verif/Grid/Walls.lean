import Verif.Grid.Props
import Verif.Rot.Props

/-!
# C11: the pressure of wall ghosts, and `DESTRESS`
-/

namespace Verif.Grid

open Verif.Sys (St M3 V3)

theorem distortion_getA (q : St) : distortion q = Verif.Sys.getA q := by
  ext i j
  simp only [distortion, Verif.Sys.getA, Matrix.of_apply, Nat.add_assoc]

theorem restEnergy_eq (q : St) (hρ : q 0 ≠ 0) : restEnergy q / q 0 = q 1 / q 0 - Verif.Sys.E3 (Verif.Sys.vel q) := by
  simp only [restEnergy, Verif.Sys.E3, Verif.Sys.sq3, Verif.Sys.vel, Verif.Sys.getRv]
  simp
  field_simp

/-- **C11** for the pressure, for every wall type, direction, equation of state and mixture (`DESTRESS` off). -/
theorem wall_pressure (c : Cfg ℝ) (hds : c.destress = none) (d : Nat) (hd : d < 3) (bt : BT) (q : St) (hρ : q 0 ≠ 0)
    (s : Verif.Sys.Cfg) (hv : s.viscous = true) (P : Verif.Sys.Par) :
    Verif.Sys.pressure s P (wall c d bt q q) = Verif.Sys.pressure s P q := by
  obtain ⟨h0, h1, _, h3, h4, h5⟩ := wall_preserves c hds d hd bt q hρ two_ne_zero
  have hV := Verif.Sys.mV_ge s hv
  have hdev : Verif.Sys.devGsq (Verif.Sys.getA (wall c d bt q q)) = Verif.Sys.devGsq (Verif.Sys.getA q) := by
    rw [← distortion_getA, ← distortion_getA]
    by_cases hb : bt = .symmetric
    · rw [h4 hb]
      set D : M3 := Matrix.diagonal (fun i : Fin 3 => if i.val = d then -1 else 1) with hD
      have ht : D.transpose = D := Matrix.diagonal_transpose _
      have hDD : D.transpose * D = 1 := by
        rw [ht, hD, Matrix.diagonal_mul_diagonal, ← Matrix.diagonal_one]
        congr 1
        funext i
        split_ifs <;> norm_num
      have := Verif.Rot.devGsq_rotate D (distortion q) hDD
      rwa [ht] at this
    · rw [h3 hb]
  have hE : Verif.Sys.internalEnergy s P (wall c d bt q q) = Verif.Sys.internalEnergy s P q := by
    unfold Verif.Sys.internalEnergy
    rw [← restEnergy_eq _ (by rw [h0]; exact hρ), ← restEnergy_eq _ hρ, h1, h0, h5 _ hV]
    simp only [Verif.Sys.E2A, Verif.Sys.E2J, Verif.Sys.sq3, Verif.Sys.getRJ, hdev]
    have e : ∀ i : Fin 3, wall c d bt q q (14 + i) = q (14 + i) := fun i => h5 _ (by omega)
    simp only [e]
  unfold Verif.Sys.pressure Verif.Sys.solveMulti
  rw [hE, h0, h5 _ hV]

/-! ### `DESTRESS` -/

/-- `(U, s, V)` is a singular value decomposition of `A`. -/
def IsSVD (A U V : M3) (s : V3) : Prop :=
  U.transpose * U = 1 ∧ V.transpose * V = 1 ∧ (∀ i, 0 ≤ s i) ∧ A = U * Matrix.diagonal s * V.transpose

/-- `destress`, matrices.cpp:43-51; `svd` is Eigen's decomposition.  `pow(detA, 1/3)` is NaN for a negative
determinant; `Real.rpow` agrees with it otherwise. -/
noncomputable def destress (svd : M3 → M3 × V3 × M3) (q : St) : St :=
  let A := Verif.Sys.getA q
  let r := svd A
  Verif.Sys.setA ((2 * A.det ^ (1 / 3 : ℝ)) • (r.1 * r.2.2.transpose) - A) q

theorem orth_det_sq (U : M3) (h : U.transpose * U = 1) : U.det * U.det = 1 := by
  have := congrArg Matrix.det h
  rwa [Matrix.det_mul, Matrix.det_transpose, Matrix.det_one] at this

/-- The singular values satisfy the characteristic equation. -/
theorem svd_char (A U V : M3) (s : V3) (h : IsSVD A U V s) (x : ℝ) :
    (A.transpose * A - x • (1 : M3)).det = (s 0 * s 0 - x) * (s 1 * s 1 - x) * (s 2 * s 2 - x) := by
  obtain ⟨hU, hV, _, hA⟩ := h
  have hVV : V * V.transpose = 1 := mul_eq_one_comm.mp hV
  have e : A.transpose * A - x • (1 : M3) = V * Matrix.diagonal (fun i => s i * s i - x) * V.transpose := by
    have e1 : A.transpose * A = V * Matrix.diagonal (fun i => s i * s i) * V.transpose := by
      rw [hA, Matrix.transpose_mul, Matrix.transpose_mul, Matrix.transpose_transpose, Matrix.diagonal_transpose]
      calc V * (Matrix.diagonal s * U.transpose) * (U * Matrix.diagonal s * V.transpose)
          = V * (Matrix.diagonal s * ((U.transpose * U) * (Matrix.diagonal s * V.transpose))) := by
            simp only [Matrix.mul_assoc]
        _ = _ := by rw [hU, Matrix.one_mul, ← Matrix.mul_assoc (Matrix.diagonal s), Matrix.diagonal_mul_diagonal,
              ← Matrix.mul_assoc]
    have e2 : Matrix.diagonal (fun i => s i * s i - x) = Matrix.diagonal (fun i => s i * s i) - x • (1 : M3) := by
      ext i j
      by_cases hij : i = j
      · subst hij; simp
      · simp [hij]
    rw [e1, e2, Matrix.mul_sub, Matrix.sub_mul, Matrix.mul_smul, Matrix.smul_mul, Matrix.mul_one, hVV]
  rw [e, Matrix.det_mul, Matrix.det_mul, Matrix.det_transpose, Matrix.det_diagonal, Fin.prod_univ_three]
  linear_combination ((s 0 * s 0 - x) * (s 1 * s 1 - x) * (s 2 * s 2 - x)) * orth_det_sq V hV

/-- A state with density 1, distortion `diag(4, 1, 1/4)` and everything else `0`. -/
noncomputable def stretched : St := fun i => if i = 0 then 1 else if i = 5 then 4 else if i = 9 then 1 else if i = 13 then 1 / 4 else 0

theorem stretched_A : Verif.Sys.getA stretched = Matrix.diagonal ![4, 1, 1 / 4] := by
  ext i j
  fin_cases i <;> fin_cases j <;> simp [Verif.Sys.getA, stretched]

/-- The singular values of `diag(4, 1, 1/4)`, in any order. -/
theorem stretched_svd (U V : M3) (s : V3) (h : IsSVD (Matrix.diagonal ![4, 1, 1 / 4]) U V s) :
    (2 - s 0) * (2 - s 1) * (2 - s 2) = -7 / 2 := by
  have hc := svd_char _ _ _ _ h
  have hd : ∀ x : ℝ, (s 0 * s 0 - x) * (s 1 * s 1 - x) * (s 2 * s 2 - x) = (16 - x) * (1 - x) * (1 / 16 - x) := by
    intro x
    rw [← hc x, Matrix.det_fin_three]
    simp
    ring
  have hs := h.2.2.1
  have mem : ∀ i, s i = 4 ∨ s i = 1 ∨ s i = 1 / 4 := by
    intro i
    have h0 := hd (s i * s i)
    have hz : (s 0 * s 0 - s i * s i) * (s 1 * s 1 - s i * s i) * (s 2 * s 2 - s i * s i) = 0 := by
      fin_cases i <;> simp
    rw [hz] at h0
    have hi := hs i
    rcases mul_eq_zero.mp h0.symm with h1 | h1
    · rcases mul_eq_zero.mp h1 with h2 | h2
      · left; nlinarith
      · right; left; nlinarith
    · right; right; nlinarith
  have t0 := hd 0
  have t1 := hd 4
  rcases mem 0 with a | a | a <;> rcases mem 1 with b | b | b <;> rcases mem 2 with c | c | c <;>
    rw [a, b, c] at t0 t1 ⊢ <;> first | (norm_num; done) | (exfalso; norm_num at t0; done) | (exfalso; norm_num at t1)

/-- **C11 fails with `DESTRESS`**: whichever decomposition the library returns, a slip wall next to a cell with
distortion `diag(4, 1, 1/4)` puts a distortion of determinant ±7/2 in the ghost cell, whereas the cell has 1. -/
theorem destress_wall_false (N : Nat) (svd : M3 → M3 × V3 × M3)
    (hsvd : ∀ A, A = Matrix.diagonal ![4, 1, 1 / 4] → IsSVD A (svd A).1 (svd A).2.2 (svd A).2.1) (d : Nat) (hd : d < 3) :
    (distortion stretched).det = 1 ∧
      |(distortion (wall ⟨N, some (destress svd)⟩ d .slip stretched stretched)).det| = 7 / 2 := by
  have e1 : Verif.Sys.getA (negAt stretched (2 + d)) = Verif.Sys.getA stretched :=
    Verif.Rot.getA_congr fun j h1 _ => by
      unfold negAt
      rw [Function.update_of_ne (by omega)]
  have hdet : (Matrix.diagonal ![(4 : ℝ), 1, 1 / 4]).det = 1 := by
    rw [Matrix.det_diagonal, Fin.prod_univ_three]; simp
  constructor
  · rw [distortion_getA, stretched_A, hdet]
  · have h := hsvd (Matrix.diagonal ![4, 1, 1 / 4]) rfl
    have hp := stretched_svd _ _ _ h
    rw [distortion_getA]
    simp only [wall, slip, Cfg.ds, destress, Verif.Rot.setA_getA, e1, stretched_A, hdet, Real.one_rpow, mul_one]
    obtain ⟨hU, hV, _, hA⟩ := h
    generalize (svd (Matrix.diagonal ![(4 : ℝ), 1, 1 / 4])).1 = U at *
    generalize (svd (Matrix.diagonal ![(4 : ℝ), 1, 1 / 4])).2.2 = V at *
    generalize (svd (Matrix.diagonal ![(4 : ℝ), 1, 1 / 4])).2.1 = s at *
    have e : (2 : ℝ) • (U * V.transpose) - Matrix.diagonal ![4, 1, 1 / 4] =
        U * Matrix.diagonal (fun i => 2 - s i) * V.transpose := by
      have e2 : Matrix.diagonal (fun i => 2 - s i) = (2 : ℝ) • (1 : M3) - Matrix.diagonal s := by
        ext i j
        by_cases hij : i = j
        · subst hij; simp
        · simp [hij]
      rw [e2, Matrix.mul_sub, Matrix.sub_mul, ← hA, Matrix.mul_smul, Matrix.smul_mul, Matrix.mul_one]
    rw [e, Matrix.det_mul, Matrix.det_mul, Matrix.det_transpose, Matrix.det_diagonal, Fin.prod_univ_three, hp,
      abs_mul, abs_mul]
    have a1 : |U.det| = 1 := by
      have := orth_det_sq U hU
      rw [← abs_mul_abs_self] at this
      nlinarith [abs_nonneg U.det]
    have a2 : |V.det| = 1 := by
      have := orth_det_sq V hV
      rw [← abs_mul_abs_self] at this
      nlinarith [abs_nonneg V.det]
    rw [a1, a2]
    norm_num [abs_of_neg]

example : IsSVD (Matrix.diagonal ![4, 1, 1 / 4]) 1 1 ![4, 1, 1 / 4] := by
  refine ⟨by simp, by simp, fun i => by fin_cases i <;> norm_num, by simp⟩

/-- The hypotheses hold for a moving sheared state at every kind of wall. -/
example (bt : BT) : Verif.Sys.pressure (Verif.Sys.cfgOf false) (Verif.Sys.samplePar Verif.Sys.sample)
    (wall ⟨2, none⟩ 1 bt (fun i => (i : ℝ) + 1) (fun i => (i : ℝ) + 1)) =
    Verif.Sys.pressure (Verif.Sys.cfgOf false) (Verif.Sys.samplePar Verif.Sys.sample) (fun i => (i : ℝ) + 1) :=
  wall_pressure _ rfl 1 (by omega) bt _ (by norm_num) _ rfl _

end Verif.Grid
