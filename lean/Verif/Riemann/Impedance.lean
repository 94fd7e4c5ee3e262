import Verif.Riemann.Symm

/-!
# The linear systems of `stick_bcs` and `slip_bcs` are regular
-/

namespace Verif.Riemann

open Verif.Sys Verif.Eig Verif.Rot

section
variable (c : Cfg) (P : Par) (S : Solvers) (Q : St)

theorem symm_tensor (hv : c.viscous = true) (ht : c.thermal = false) : (X1 c P Q * X2 c P Q).transpose = X1 c P Q * X2 c P Q := by
  have := tensor3_symm c P Q hv ht
  obtain ⟨v, t, m, l, x⟩ := c
  simp only at ht
  subst ht
  exact this

/-- Without heat conduction `ρ Ξ1` is the derivative of the traction. -/
theorem X1_system (hv : c.viscous = true) (ht : c.thermal = false) (u : Fin 5 → ℝ) (i : Fin (n1 c)) :
    (X1 c P Q).mulVec u i = 1 / Q 0 * (system c P Q).mulVec u ⟨i, by have := n1_le c; omega⟩ := by
  obtain ⟨v, t, m, l, x⟩ := c
  simp only at ht hv
  subst ht hv
  change Fin 3 at i
  have e : (X1 ⟨true, false, m, l, x⟩ P Q).mulVec u i = ∑ j : Fin 5, xi1 ⟨true, false, m, l, x⟩ P Q 0 i.castSucc j * u j := rfl
  rw [e]
  simp only [Matrix.mulVec, dotProduct, Fin.sum_univ_five]
  fin_cases i <;> simp [xi1, system] <;> ring

theorem vel_plain (hv : c.viscous = true) (ht : c.thermal = false) (hS : S.Ok) (sgn : ℝ) (R : Hat c)
    (hR : constraints c P S sgn Q = some R) : R.vel = (-sgn / Q 0) • Y0 c P S Q := by
  unfold constraints at hR
  split_ifs at hR with hD
  simp only [Option.some.injEq] at hR
  have hreg := system_regular c P Q ht (hD.plain ht).1 (hD.plain ht).2
  have e : X1 c P Q * matX c P S Q = (1 / Q 0) • (1 : Matrix (Fin (n1 c)) (Fin (n1 c)) ℝ) := by
    ext i j
    have := X1_system c P Q hv ht ((matX c P S Q).mulVec (Pi.single j 1)) i
    rw [matX_spec c P S Q hS hreg, Matrix.mulVec_mulVec] at this
    dsimp only at this
    rw [dif_pos i.2] at this
    simp only [Matrix.mulVec_single_one, Matrix.col_apply, Fin.eta] at this
    rw [this, Matrix.smul_apply, smul_eq_mul, Matrix.one_apply, Pi.single_apply]
  rw [← hR]
  simp only
  rw [Matrix.mul_assoc, e, Matrix.mul_smul, Matrix.mul_one, smul_smul]
  congr 1
  ring

/-- The inverse root of a symmetric matrix is positive definite, whatever basis of eigenvectors it is computed from. -/
theorem root_pos {n : Nat} (M V : Matrix (Fin n) (Fin n) ℝ) (d : Fin n → ℝ) (hM : M.transpose = M) (hV : V.det ≠ 0)
    (h : M * V = V * Matrix.diagonal d) (hd : ∀ i, 0 < d i) (w : Fin n → ℝ) (hw : w ≠ 0) :
    0 < dotProduct w ((V * Matrix.diagonal (fun i => Real.sqrt (d i)⁻¹) * V⁻¹).mulVec w) := by
  have hU := isUnit_iff_ne_zero.2 hV
  set K := V.transpose * V with hK
  have hcomm : K * Matrix.diagonal d = Matrix.diagonal d * K := by
    have e1 : K * Matrix.diagonal d = V.transpose * M * V := by rw [hK, Matrix.mul_assoc, ← h, Matrix.mul_assoc]
    have e2 : V.transpose * M = Matrix.diagonal d * V.transpose := by
      have := congrArg Matrix.transpose h
      rw [Matrix.transpose_mul, Matrix.transpose_mul, hM, Matrix.diagonal_transpose] at this
      exact this
    rw [e1, e2, Matrix.mul_assoc]
  have hKd : ∀ (f : ℝ → ℝ) i j, K i j * f (d j) = f (d i) * K i j := by
    intro f i j
    have := congrFun (congrFun hcomm i) j
    rw [Matrix.mul_diagonal, Matrix.diagonal_mul] at this
    by_cases hij : d i = d j
    · rw [hij, mul_comm]
    · have : K i j = 0 := by
        have e : K i j * (d j - d i) = 0 := by linear_combination this
        rcases mul_eq_zero.1 e with e | e
        · exact e
        · exact absurd (sub_eq_zero.1 e).symm hij
      rw [this]; ring
  set a := V⁻¹.mulVec w with ha
  have hwa : w = V.mulVec a := by rw [ha, Matrix.mulVec_mulVec, Matrix.mul_nonsing_inv _ hU, Matrix.one_mulVec]
  let g : ℝ → ℝ := fun t => Real.sqrt (Real.sqrt t⁻¹)
  let b : Fin n → ℝ := fun i => g (d i) * a i
  have hb : b ≠ 0 := by
    intro e
    apply hw
    have : a = 0 := by
      funext i
      have := congrFun e i
      have hg : g (d i) ≠ 0 := (Real.sqrt_pos.2 (Real.sqrt_pos.2 (inv_pos.2 (hd i)))).ne'
      exact (mul_eq_zero.1 this).resolve_left hg
    rw [hwa, this, Matrix.mulVec_zero]
  have key : dotProduct w ((V * Matrix.diagonal (fun i => Real.sqrt (d i)⁻¹) * V⁻¹).mulVec w) =
      dotProduct (V.mulVec b) (V.mulVec b) := by
    have e1 : (V * Matrix.diagonal (fun i => Real.sqrt (d i)⁻¹) * V⁻¹).mulVec w =
        V.mulVec (fun i => Real.sqrt (d i)⁻¹ * a i) := by
      rw [← Matrix.mulVec_mulVec, ← ha, ← Matrix.mulVec_mulVec]
      congr 1
      funext i
      rw [Matrix.mulVec_diagonal]
    have e2 : ∀ x y : Fin n → ℝ, dotProduct (V.mulVec x) (V.mulVec y) = ∑ i, ∑ j, x i * K i j * y j := by
      intro x y
      have : dotProduct (V.mulVec x) (V.mulVec y) = dotProduct x (K.mulVec y) := by
        rw [hK, ← Matrix.mulVec_mulVec, Matrix.dotProduct_mulVec x, Matrix.vecMul_transpose]
      rw [this]
      simp only [dotProduct, Matrix.mulVec, Finset.mul_sum]
      exact Finset.sum_congr rfl fun i _ => Finset.sum_congr rfl fun j _ => by ring
    rw [e1, hwa, e2, e2]
    refine Finset.sum_congr rfl fun i _ => Finset.sum_congr rfl fun j _ => ?_
    have h1 := hKd g i j
    have h2 : g (d j) * g (d j) = Real.sqrt (d j)⁻¹ := Real.mul_self_sqrt (Real.sqrt_nonneg _)
    simp only [b]
    linear_combination (a i * a j * g (d j)) * h1 - a i * a j * K i j * h2
  rw [key]
  have hVb : V.mulVec b ≠ 0 := by
    intro e
    apply hb
    have := congrArg V⁻¹.mulVec e
    rwa [Matrix.mulVec_mulVec, Matrix.nonsing_inv_mul _ hU, Matrix.one_mulVec, Matrix.mulVec_zero] at this
  exact lt_of_le_of_ne (Finset.sum_nonneg fun i _ => mul_self_nonneg _)
    (fun e => hVb (dotProduct_self_eq_zero.1 e.symm))

theorem Y0_pos (hv : c.viscous = true) (ht : c.thermal = false) (hS : S.Ok) (hD : Defined c P S Q) (w : Fin (n1 c) → ℝ)
    (hw : w ≠ 0) : 0 < dotProduct w ((Y0 c P S Q).mulVec w) :=
  root_pos _ _ _ (symm_tensor c P Q hv ht) hD.basis (hS.eigen _ _ (tensor_real c P Q hv ht)).2 hD.speeds w hw

end

/-- The solvers of the interface conditions of sticking and of slipping materials never meet a singular system. -/
theorem bcs_some (c : Cfg) (S : Solvers) (junk : Fin 2 → Fin (n1 c) → ℝ) (PL PR : Par) (stick : Bool) (s : St × St)
    (hv : c.viscous = true) (ht : c.thermal = false) (hS : S.Ok) (hDL : Defined c PL S s.1) (hDR : Defined c PR S s.2)
    (hL : 0 < s.1 0) (hR : 0 < s.2 0) : ∃ s', starStepper c stick S junk PL (some PR) s = some s' := by
  obtain ⟨RL, eL⟩ : ∃ R, constraints c PL S 1 s.1 = some R := ⟨_, if_pos hDL⟩
  obtain ⟨RR, eR⟩ : ∃ R, constraints c PR S (-1) s.2 = some R := ⟨_, if_pos hDR⟩
  have vL := vel_plain c PL S s.1 hv ht hS 1 RL eL
  have vR := vel_plain c PR S s.2 hv ht hS (-1) RR eR
  have hneg : ∀ w : Fin (n1 c) → ℝ, w ≠ 0 → dotProduct w ((RL.vel - RR.vel).mulVec w) < 0 := by
    intro w hw
    have h1 := Y0_pos c PL S s.1 hv ht hS hDL w hw
    have h2 := Y0_pos c PR S s.2 hv ht hS hDR w hw
    rw [vL, vR, Matrix.sub_mulVec, Matrix.smul_mulVec, Matrix.smul_mulVec, dotProduct_sub, dotProduct_smul,
      dotProduct_smul, smul_eq_mul, smul_eq_mul]
    have h3 := mul_pos (one_div_pos.2 hL) h1
    have h4 := mul_pos (one_div_pos.2 hR) h2
    have e : -1 / s.1 0 * dotProduct w ((Y0 c PL S s.1).mulVec w) - - -1 / s.2 0 * dotProduct w ((Y0 c PR S s.2).mulVec w) =
      -(1 / s.1 0 * dotProduct w ((Y0 c PL S s.1).mulVec w)) - 1 / s.2 0 * dotProduct w ((Y0 c PR S s.2).mulVec w) := by ring
    rw [e]
    linarith
  unfold starStepper
  rw [eL, Option.bind_some]
  simp only [eR, Option.bind_some]
  cases stick
  · rw [if_neg (by simp)]
    unfold slipBcs
    rw [if_neg (by simp [ht]), if_neg]
    · exact ⟨_, rfl⟩
    · have h3 := three_le c
      have := hneg (Pi.single ⟨0, by omega⟩ 1) (by simp)
      simp only [Matrix.mulVec_single_one, single_dotProduct, one_mul, Matrix.col_apply] at this
      exact ne_of_lt this
  · rw [if_pos rfl]
    unfold stickBcs
    rw [if_neg]
    · exact ⟨_, rfl⟩
    · intro h0
      obtain ⟨w, hw, e⟩ := Matrix.exists_mulVec_eq_zero_iff.2 h0
      have := hneg w hw
      rw [e, dotProduct_zero] at this
      exact lt_irrefl _ this

end Verif.Riemann
