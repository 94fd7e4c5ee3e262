import Verif.Riemann.Rest
import Mathlib.Analysis.Matrix.PosDef

/-!
# Hyperbolicity with heat conduction
-/

namespace Verif.Riemann

open Verif.Sys Verif.Eig Verif.Rot

section
variable (c : Cfg) (P : Par) (Q : St)

/-- The rate of temperature with density when material is compressed along the first axis without heat flow. -/
noncomputable def rise (c : Cfg) (P : Par) (Q : St) : ℝ :=
  dTdrho P.toParams (Q 0) (pressure c P Q) +
    dTdp P.toParams (Q 0) * (c0 c P Q * c0 c P Q - P.β * sigmaCol P.toParams Q 0 0 / Q 0)

theorem tensor3_entry (hv : c.viscous = true) (i j : Fin 3) : tensor3 c P Q 0 i j = 1 / Q 0 * ((if i = 0 then
      (sigmaCol P.toParams Q 0 j - Q 0 * dsigmadrho P.toParams Q 0 j +
        if j = 0 then Q 0 * c0 c P Q * c0 c P Q else 0) else 0) -
      (if j = 0 then dsigmadrho P.toParams Q 0 i * Q 0 else 0) - (dsigmadAd P.toParams Q 0 * getA Q) i j) := by
  simp only [tensor3, Matrix.mul_apply, Fin.sum_univ_five, Fin.sum_univ_three, xi1, xi2, hv, Matrix.submatrix_apply]
  generalize c0 c P Q = k
  generalize dsigmadrho P.toParams Q 0 = l
  generalize sigmaCol P.toParams Q 0 = e
  generalize dsigmadAd P.toParams Q 0 = B
  generalize getA Q = A
  cases c.thermal <;> fin_cases i <;> fin_cases j <;> simp <;> ring

theorem tensor3_symm' (hv : c.viscous = true) (i j : Fin 3) : tensor3 c P Q 0 i j = tensor3 c P Q 0 j i := by
  have h := stress_skew P Q i j
  rw [tensor3_entry c P Q hv, tensor3_entry c P Q hv]
  simp only [dsigmadrho, Pi.smul_apply, smul_eq_mul]
  congr 1
  fin_cases i <;> fin_cases j <;> simp at h ⊢ <;> first | linear_combination -h | linear_combination h

/-- The tensor with heat conduction. -/
theorem tensor4_entry (hv : c.viscous = true) (ht : c.thermal = true) (hρ : Q 0 ≠ 0) (hcs : cs2 P.toParams (Q 0) ≠ 0)
    (hT : dTdp P.toParams (Q 0) ≠ 0) (hσ : ∀ j, j ≠ 0 → P.β * sigmaCol P.toParams Q 0 j = 0) :
    (∀ i j : Fin 3, tensor4 c P Q 0 i.castSucc j.castSucc = tensor3 c P Q 0 i j) ∧
    (∀ j : Fin 3, tensor4 c P Q 0 3 j.castSucc = if j = 0 then rise c P Q else 0) ∧
    (∀ i : Fin 3, tensor4 c P Q 0 i.castSucc 3 = if i = 0 then
      ch P.toParams (Q 0) (temperatureMG P.toParams (Q 0) (pressure c P Q)) ^ 2 / dTdp P.toParams (Q 0) else 0) ∧
    tensor4 c P Q 0 3 3 = ch P.toParams (Q 0) (temperatureMG P.toParams (Q 0) (pressure c P Q)) ^ 2 := by
  refine ⟨fun i j => rfl, fun j => ?_, fun i => ?_, ?_⟩
  · have hd : ∀ j, sigmaCol P.toParams Q 0 j - Q 0 * dsigmadrho P.toParams Q 0 j = -(P.β * sigmaCol P.toParams Q 0 j) := by
      intro j
      simp only [dsigmadrho, Pi.smul_apply, smul_eq_mul, dcs2]
      field_simp
      ring
    have hr : tensor4 c P Q 0 3 j.castSucc = (if j = 0 then dTdrho P.toParams (Q 0) (pressure c P Q) else 0) +
        dTdp P.toParams (Q 0) / Q 0 * ((if j = 0 then Q 0 * c0 c P Q * c0 c P Q else 0) +
          (sigmaCol P.toParams Q 0 j - Q 0 * dsigmadrho P.toParams Q 0 j)) := by
      simp only [tensor4, Matrix.mul_apply, Fin.sum_univ_five, xi1, xi2, hv, ht]
      fin_cases j <;> simp <;> field_simp
    rw [hr, hd]
    by_cases h : j = 0
    · subst h
      simp only [if_true, rise]
      field_simp
      ring
    · rw [if_neg h, if_neg h, if_neg h, hσ j h]
      ring
  · simp only [tensor4, Matrix.mul_apply, Fin.sum_univ_five, xi1, xi2, hv, ht]
    fin_cases i <;> simp <;> field_simp
  · simp only [tensor4, Matrix.mul_apply, Fin.sum_univ_five, xi1, xi2, hv, ht]
    simp
    field_simp

/-- The quadratic form of the tensor at constant temperature. -/
noncomputable def isothermal (c : Cfg) (P : Par) (Q : St) (w : Fin 3 → ℝ) : ℝ :=
  dotProduct w ((tensor3 c P Q 0).mulVec w) - rise c P Q / dTdp P.toParams (Q 0) * w 0 ^ 2

theorem tensor4_real (hv : c.viscous = true) (ht : c.thermal = true) (hρ : Q 0 ≠ 0) (hcs : cs2 P.toParams (Q 0) ≠ 0)
    (hT : 0 < dTdp P.toParams (Q 0)) (hσ : ∀ j, j ≠ 0 → P.β * sigmaCol P.toParams Q 0 j = 0)
    (hh : 0 < ch P.toParams (Q 0) (temperatureMG P.toParams (Q 0) (pressure c P Q)) ^ 2) (hr : 0 < rise c P Q)
    (hpos : ∀ w : Fin 3 → ℝ, w ≠ 0 → 0 < isothermal c P Q w) :
    ∃ (W : Matrix (Fin 4) (Fin 4) ℝ) (d : Fin 4 → ℝ), W.det ≠ 0 ∧ (∀ i, 0 < d i) ∧
      tensor4 c P Q 0 * W = W * Matrix.diagonal d := by
  obtain ⟨h1, h2, h3, h4⟩ := tensor4_entry c P Q hv ht hρ hcs hT.ne' hσ
  set h := ch P.toParams (Q 0) (temperatureMG P.toParams (Q 0) (pressure c P Q)) ^ 2 with hhd
  set T := dTdp P.toParams (Q 0) with hTd
  set r := rise c P Q with hrd
  have hs2 : 0 < h / T / r := by positivity
  set s := Real.sqrt (h / T / r) with hs
  have hsp : 0 < s := Real.sqrt_pos.2 hs2
  have hss : s * s = h / T / r := Real.mul_self_sqrt hs2.le
  set Ξ := tensor4 c P Q 0 with hΞ
  set δ : Fin 4 → ℝ := ![1, 1, 1, s] with hδ
  set M : Matrix (Fin 4) (Fin 4) ℝ := Matrix.of fun i j => δ i * Ξ i j / δ j with hM
  have hδp : ∀ i, 0 < δ i := by intro i; fin_cases i <;> simp [hδ, hsp]
  have hsr : s * r = h / T / s := by
    rw [eq_div_iff hsp.ne', mul_right_comm, hss]
    field_simp
  have e03 : Ξ 0 3 = h / T := by have := h3 0; simpa using this
  have e13 : Ξ 1 3 = 0 := by have := h3 1; simpa using this
  have e23 : Ξ 2 3 = 0 := by have := h3 2; simpa using this
  have e30 : Ξ 3 0 = r := by have := h2 0; simpa using this
  have e31 : Ξ 3 1 = 0 := by have := h2 1; simpa using this
  have e32 : Ξ 3 2 = 0 := by have := h2 2; simpa using this
  have hsym : ∀ i j, M i j = M j i := by
    have t01 : Ξ 0 1 = Ξ 1 0 := (h1 0 1).trans ((tensor3_symm' c P Q hv 0 1).trans (h1 1 0).symm)
    have t02 : Ξ 0 2 = Ξ 2 0 := (h1 0 2).trans ((tensor3_symm' c P Q hv 0 2).trans (h1 2 0).symm)
    have t12 : Ξ 1 2 = Ξ 2 1 := (h1 1 2).trans ((tensor3_symm' c P Q hv 1 2).trans (h1 2 1).symm)
    intro i j
    simp only [hM, hδ, Matrix.of_apply]
    fin_cases i <;> fin_cases j <;> simp [t01, t02, t12, e03, e13, e23, e30, e31, e32, hsr]
  have hH : M.IsHermitian := by
    ext i j
    rw [Matrix.conjTranspose_apply, star_trivial, hsym]
  have hP : M.PosDef := by
    refine Matrix.PosDef.of_dotProduct_mulVec_pos hH fun w hw => ?_
    rw [star_trivial]
    have q : dotProduct w (M.mulVec w) = isothermal c P Q (fun k => w k.castSucc) + h * (s * r / h * w 0 + w 3) ^ 2 := by
      have m30 : M 3 0 = s * r := by simp [hM, hδ, e30]
      have m03 : M 0 3 = s * r := by rw [hsym, m30]
      have m31 : M 3 1 = 0 := by simp [hM, hδ, e31]
      have m13 : M 1 3 = 0 := by rw [hsym, m31]
      have m32 : M 3 2 = 0 := by simp [hM, hδ, e32]
      have m23 : M 2 3 = 0 := by rw [hsym, m32]
      have m33 : M 3 3 = h := by simp [hM, hδ, h4, hsp.ne']
      have mk : ∀ i j : Fin 3, M i.castSucc j.castSucc = tensor3 c P Q 0 i j := by
        intro i j
        rw [← h1]
        simp only [hM, hδ, Matrix.of_apply]
        fin_cases i <;> fin_cases j <;> simp
      have m00 := mk 0 0
      have m01 := mk 0 1
      have m02 := mk 0 2
      have m10 := mk 1 0
      have m11 := mk 1 1
      have m12 := mk 1 2
      have m20 := mk 2 0
      have m21 := mk 2 1
      have m22 := mk 2 2
      simp at m00 m01 m02 m10 m11 m12 m20 m21 m22
      have hrT : r / T = (s * r) ^ 2 / h := by
        rw [mul_pow, pow_two s, hss]
        field_simp
      simp only [isothermal, dotProduct, Matrix.mulVec, Fin.sum_univ_four, Fin.sum_univ_three, m30, m03, m31, m13, m32, m23, m33,
        m00, m01, m02, m10, m11, m12, m20, m21, m22]
      rw [← hrd, ← hTd, hrT]
      simp
      field_simp
      ring
    rw [q]
    by_cases hw3 : (fun k : Fin 3 => w k.castSucc) = 0
    · have w0 : w 0 = 0 := congrFun hw3 0
      have hw4 : w 3 ≠ 0 := by
        intro h0
        apply hw
        funext i
        fin_cases i
        · exact congrFun hw3 0
        · exact congrFun hw3 1
        · exact congrFun hw3 2
        · exact h0
      rw [hw3, w0]
      have : isothermal c P Q 0 = 0 := by simp [isothermal]
      rw [this]
      have : 0 < w 3 ^ 2 := by positivity
      simp
      positivity
    · have := hpos _ hw3
      positivity
  set U : Matrix (Fin 4) (Fin 4) ℝ := hH.eigenvectorUnitary.1 with hUd
  have hU : M * U = U * Matrix.diagonal hH.eigenvalues := by
    have := hH.spectral_theorem
    have hu : (star (hH.eigenvectorUnitary : Matrix (Fin 4) (Fin 4) ℝ)) * hH.eigenvectorUnitary = 1 :=
      Unitary.coe_star_mul_self _
    have e := congrArg (· * (hH.eigenvectorUnitary : Matrix (Fin 4) (Fin 4) ℝ)) this
    rw [Unitary.conjStarAlgAut_apply] at e
    refine e.trans ?_
    rw [Matrix.mul_assoc]
    refine (congrArg _ hu).trans ?_
    rw [Matrix.mul_one]
    rfl
  refine ⟨Matrix.of fun i j => U i j / δ i, hH.eigenvalues, ?_, hP.eigenvalues_pos, ?_⟩
  · have e : (Matrix.of fun i j => U i j / δ i) = Matrix.diagonal (fun i => (δ i)⁻¹) * U := by
      ext i j
      rw [Matrix.diagonal_mul, Matrix.of_apply]
      ring
    rw [e, Matrix.det_mul, Matrix.det_diagonal]
    refine mul_ne_zero (Finset.prod_ne_zero_iff.2 fun i _ => inv_ne_zero (hδp i).ne') ?_
    exact (Matrix.UnitaryGroup.det_isUnit hH.eigenvectorUnitary).ne_zero
  · ext i j
    have := congrFun (congrFun hU i) j
    rw [Matrix.mul_diagonal] at this ⊢
    rw [Matrix.mul_apply] at this ⊢
    rw [Matrix.of_apply, div_mul_eq_mul_div, ← this, eq_div_iff (hδp i).ne', Finset.sum_mul]
    refine Finset.sum_congr rfl fun k _ => ?_
    simp only [hM, Matrix.of_apply]
    have := (hδp k).ne'
    field_simp

/-- **Hyperbolicity** (C72) with heat conduction, where the shear modulus does not depend on the density or no tangential stress
acts on the planes of the first axis: if the material conducts heat, gets hotter under compression, and its acoustic tensor at
constant temperature is positive definite, there are speeds such that every vector is a sum of right eigenvectors of the system
matrix with the eigenvalues `v`, `v + s k` and `v - s k`. -/
theorem hyperbolic_heat (hv : c.viscous = true) (ht : c.thermal = true) (hm : P.multi = false)
    (hr : P.reaction > -1 → c.multi = true) (hR : Verif.Eig.Regular c P Q) (hT : 0 < dTdp P.toParams (Q 0))
    (hσ : ∀ j, j ≠ 0 → P.β * sigmaCol P.toParams Q 0 j = 0)
    (hh : 0 < P.cα2 * temperature c P Q / P.cv) (hc : 0 < rise c P Q)
    (hpos : ∀ w : Fin 3 → ℝ, w ≠ 0 → rise c P Q / dTdp P.toParams (Q 0) * w 0 ^ 2 <
      dotProduct w ((tensor3 c P Q 0).mulVec w)) :
    ∃ s : Fin 4 → ℝ, (∀ k, 0 < s k) ∧
      ∀ x : St, ∃ (r0 : St) (r l : Fin 4 → St), (∀ i < c.V, rowDot c.V (systemMatrix c P Q 0) r0 i = vel Q 0 * r0 i) ∧
        (∀ k, ∀ i < c.V, rowDot c.V (systemMatrix c P Q 0) (r k) i = (vel Q 0 + s k) * r k i) ∧
        (∀ k, ∀ i < c.V, rowDot c.V (systemMatrix c P Q 0) (l k) i = (vel Q 0 - s k) * l k i) ∧
        ∀ i < c.V, x i = r0 i + ∑ k, (r k i + l k i) := by
  have hch : 0 < ch P.toParams (Q 0) (temperatureMG P.toParams (Q 0) (pressure c P Q)) ^ 2 := by
    have h1 : 0 < Real.sqrt (P.cα2 * temperatureMG P.toParams (Q 0) (pressure c P Q) / P.cv) := Real.sqrt_pos.2 hh
    have := hR.dens
    unfold ch
    positivity
  obtain ⟨W, d, hW, hd, h⟩ := tensor4_real c P Q hv ht hR.dens hR.shear hT hσ hch hc fun w hw => by
    have := hpos w hw
    unfold isothermal
    linarith
  have key : ∀ (W' : Matrix (Fin (n1 c)) (Fin (n1 c)) ℝ) (d' : Fin (n1 c) → ℝ), W'.det ≠ 0 → (∀ i, 0 < d' i) →
      (X1 c P Q * X2 c P Q) * W' = W' * Matrix.diagonal d' → _ := fun W' d' h1 h2 h3 =>
    hyperbolic c P Q hv hm hr hR W' d' h1 h2 h3
  obtain ⟨v, t, m, l, x⟩ := c
  simp only at ht
  subst ht
  exact ⟨fun k => Real.sqrt (d k), fun k => Real.sqrt_pos.2 (hd k), key W d hW hd h⟩

/-- With a shear modulus that does not depend on the density, compression heats by the Grüneisen coefficient times the thermal
part of the temperature. -/
theorem rise_eq (hm : P.multi = false) (hβ : P.β = 0) (he : P.eos ≠ .shockMG) (hρ : Q 0 ≠ 0)
    (hΓ : gammaMG P.toParams (Q 0) ≠ 0) (hcv : P.cv ≠ 0)
    (hs : 0 ≤ (pressure c P Q / (Q 0 * Q 0) - dEdrho c P Q) / dEdp c P Q) :
    rise c P Q = gammaMG P.toParams (Q 0) * (temperature c P Q - phi P.toParams (Q 0) * P.Tref) / Q 0 := by
  have h0 : c0 c P Q * c0 c P Q = (pressure c P Q / (Q 0 * Q 0) - dEdrho c P Q) / dEdp c P Q := Real.mul_self_sqrt hs
  have hd : deRef P.toParams (Q 0) = pRef P.toParams (Q 0) / (Q 0 * Q 0) := by
    unfold deRef
    cases h : P.eos <;> simp_all
  have hC : dC0 P.toParams (Q 0) = 0 := by simp [dC0, dcs2, hβ]
  rw [rise, h0, hβ]
  simp only [dEdrho, dEdp, hm, Bool.false_eq_true, if_false, hC, dTdrho, dTdp, dedrho, dedp, temperature, temperatureMG, hd]
  field_simp
  ring

/-- Unstretched material at rest, with heat conduction. -/
example : ∃ s : Fin 4 → ℝ, (∀ k, 0 < s k) ∧ ∀ x : St, ∃ (r0 : St) (r l : Fin 4 → St),
    (∀ i < 19, rowDot 19 (systemMatrix { cfgOf false with thermal := true } (samplePar sample) stateAtRest 0) r0 i = 0) ∧
    (∀ k, ∀ i < 19, rowDot 19 (systemMatrix { cfgOf false with thermal := true } (samplePar sample) stateAtRest 0) (r k) i =
      s k * r k i) ∧
    (∀ k, ∀ i < 19, rowDot 19 (systemMatrix { cfgOf false with thermal := true } (samplePar sample) stateAtRest 0) (l k) i =
      -s k * l k i) ∧
    ∀ i < 19, x i = r0 i + ∑ k, (r k i + l k i) := by
  obtain ⟨hA, hR, hk, hc, h0, -⟩ := rest_facts true
  obtain ⟨hs, -, -⟩ := unit_stress (samplePar sample).toParams stateAtRest hA 0
  have hV : ({ cfgOf false with thermal := true } : Cfg).V = 19 := rfl
  have h1 : stateAtRest 0 = 1 := rfl
  have hp : pressure { cfgOf false with thermal := true } (samplePar sample) stateAtRest = 5 := by
    have h2 : E2A (samplePar sample).toParams (stateAtRest 0) (getA stateAtRest) = 0 := by
      rw [E2A, rest_devGsq, mul_zero]
    have hJ : E2J (samplePar sample).toParams (fun i => getRJ stateAtRest i / stateAtRest 0) = 0 := by
      simp [E2J, sq3, getRJ, stateAtRest]
    simp only [pressure, internalEnergy, rest_E3, h2, hJ]
    norm_num [samplePar, sample, pressureMG, eRef, pRef, gammaMG, stateAtRest, cfgOf]
  have hcc : c0 { cfgOf false with thermal := true } (samplePar sample) stateAtRest *
      c0 { cfgOf false with thermal := true } (samplePar sample) stateAtRest = 10 := by
    rw [c0, Real.mul_self_sqrt hR.sound]
    simp only [dEdrho, dEdp, hp, rest_devGsq, h1]
    norm_num [samplePar, sample, dedrho, dedp, gammaMG, pRef, eRef, dpRef, deRef, dGammaMG]
  have hrise : rise { cfgOf false with thermal := true } (samplePar sample) stateAtRest = 5 := by
    rw [rise, hcc, hp, hs]
    norm_num [samplePar, sample, dTdrho, dTdp, dedp, gammaMG, pRef, dpRef, dGammaMG, h1]
  have hTp : dTdp (samplePar sample).toParams (stateAtRest 0) = 1 := by
    norm_num [samplePar, sample, dTdp, dedp, gammaMG, h1]
  have hten : tensor3 { cfgOf false with thermal := true } (samplePar sample) stateAtRest 0 =
      Matrix.diagonal ![34 / 3, 1, 1] := by
    obtain ⟨-, hsr, hsA⟩ := unit_stress (samplePar sample).toParams stateAtRest hA 0
    have hcs : cs2 (samplePar sample).toParams (stateAtRest 0) = 1 := by norm_num [cs2, samplePar, sample, h1]
    ext i j
    rw [tensor3_entry _ _ _ rfl, hA, Matrix.mul_one, hsA, hcs, hsr, hs, h1]
    have hcc' : 1 * c0 { cfgOf false with thermal := true } (samplePar sample) stateAtRest *
      c0 { cfgOf false with thermal := true } (samplePar sample) stateAtRest = 10 := by rw [one_mul]; exact hcc
    rw [hcc']
    fin_cases i <;> fin_cases j <;> norm_num [Matrix.diagonal]
  have := hyperbolic_heat { cfgOf false with thermal := true } (samplePar sample) stateAtRest rfl rfl rfl (by simp [samplePar]) hR
    (by rw [hTp]; norm_num) (by intro j _; rw [hs]; simp)
    (by rw [temperature, hp]; norm_num [samplePar, sample, temperatureMG, phi, pRef, gammaMG, h1])
    (by rw [hrise]; norm_num)
    (by
      intro w hw
      rw [hrise, hTp, hten]
      have hsq : 0 < w 0 * w 0 + w 1 * w 1 + w 2 * w 2 := by
        by_contra hn
        apply hw
        have h0 := mul_self_nonneg (w 0)
        have h1 := mul_self_nonneg (w 1)
        have h2 := mul_self_nonneg (w 2)
        funext i
        fin_cases i
        · exact mul_self_eq_zero.1 (by linarith : w 0 * w 0 = 0)
        · exact mul_self_eq_zero.1 (by linarith : w 1 * w 1 = 0)
        · exact mul_self_eq_zero.1 (by linarith : w 2 * w 2 = 0)
      simp only [dotProduct, Fin.sum_univ_three, Matrix.mulVec_diagonal]
      simp
      nlinarith [mul_self_nonneg (w 0), mul_self_nonneg (w 1), mul_self_nonneg (w 2)])
  simpa only [hV, h0, zero_add, zero_sub, zero_mul] using this

/-- Where compression cools by more than the two speeds differ, no right eigenvector of the system matrix with a real eigenvalue
moves the material along the first axis. -/
theorem no_longitudinal (hv : c.viscous = true) (ht : c.thermal = true) (hm : P.multi = false)
    (hr : P.reaction > -1 → c.multi = true) (hR : Verif.Eig.Regular c P Q) (hT : dTdp P.toParams (Q 0) ≠ 0)
    (hσ : ∀ j, j ≠ 0 → P.β * sigmaCol P.toParams Q 0 j = 0) (h01 : tensor3 c P Q 0 0 1 = 0) (h02 : tensor3 c P Q 0 0 2 = 0)
    (hcool : (tensor3 c P Q 0 0 0 - ch P.toParams (Q 0) (temperature c P Q) ^ 2) ^ 2 / 4 <
      ch P.toParams (Q 0) (temperature c P Q) ^ 2 / dTdp P.toParams (Q 0) * -rise c P Q)
    (r : St) (a : ℝ) (he : ∀ i < c.V, rowDot c.V (systemMatrix c P Q 0) r i = a * r i) : r 2 = vel Q 0 * r 0 := by
  obtain ⟨h1, h2, h3, h4⟩ := tensor4_entry c P Q hv ht hR.dens hR.shear hT hσ
  have h17 := mV_thermal c hv ht
  have hmv := mV_le c
  set y := toPrim c P Q r with hy
  set μ := a - vel Q 0 with hμ
  have hac : ∀ i < c.V, acoustic c P Q 0 y i = μ * y i := by
    intro i hi
    have := acoustic_pair c P Q 0 hv hm hr hR a 0 r r (fun i hi => by rw [he i hi]; ring) i hi
    rw [this]
    ring
  have hsq := tensor4_sq c P Q y hv ht hm hR.dens hR.grun (hR.heat ht).1 (hR.heat ht).2
  have haa : ∀ i < c.V, acoustic c P Q 0 (acoustic c P Q 0 y) i = μ * μ * y i := by
    intro i hi
    rw [acoustic_congr c P Q _ (fun i => μ * y i + 0 * y i) 0 hv fun i hi => by rw [hac i hi]; ring, acoustic_lin]
    show μ * acoustic c P Q 0 y i + 0 * acoustic c P Q 0 y i = _
    rw [hac i hi]
    ring
  have r0 := congrFun hsq 0
  have r3 := congrFun hsq 3
  have w0 : W4 0 (acoustic c P Q 0 (acoustic c P Q 0 y)) 0 = μ * μ * y 2 := haa 2 (by omega)
  have w3 : W4 0 (acoustic c P Q 0 (acoustic c P Q 0 y)) 3 = μ * μ * y 14 := haa 14 (by omega)
  have e00 : tensor4 c P Q 0 0 0 = tensor3 c P Q 0 0 0 := rfl
  have e01 : tensor4 c P Q 0 0 1 = 0 := h01
  have e02 : tensor4 c P Q 0 0 2 = 0 := h02
  have e03 := h3 0
  have e30 := h2 0
  have e31 := h2 1
  have e32 := h2 2
  simp only [Fin.castSucc_zero, if_true] at e03 e30
  change tensor4 c P Q 0 3 1 = _ at e31
  change tensor4 c P Q 0 3 2 = _ at e32
  rw [if_neg (by decide)] at e31 e32
  rw [w0] at r0
  rw [w3] at r3
  simp only [Matrix.mulVec, dotProduct, Fin.sum_univ_four, e00, e01, e02, e03, e30, e31, e32, h4] at r0 r3
  change tensor3 c P Q 0 0 0 * y 2 + 0 * _ + 0 * _ + _ * y 14 = _ at r0
  change rise c P Q * y 2 + 0 * _ + 0 * _ + _ * y 14 = _ at r3
  change _ / 4 < _ / _ * _ at hcool
  unfold temperature at hcool
  set h := ch P.toParams (Q 0) (temperatureMG P.toParams (Q 0) (pressure c P Q)) ^ 2
  set k := h / dTdp P.toParams (Q 0)
  set S := tensor3 c P Q 0 0 0
  set g := rise c P Q
  have hdet : ((S - μ * μ) * (h - μ * μ) - k * g) * y 2 = 0 := by linear_combination (h - μ * μ) * r0 - k * r3
  have hne : (S - μ * μ) * (h - μ * μ) - k * g ≠ 0 := by
    have : (S - μ * μ) * (h - μ * μ) - k * g = (μ * μ - (S + h) / 2) ^ 2 + (k * -g - (S - h) ^ 2 / 4) := by ring
    rw [this]
    have := sq_nonneg (μ * μ - (S + h) / 2)
    linarith
  have hy2 : y 2 = 0 := (mul_eq_zero.1 hdet).resolve_left hne
  have hE : dEdp c P Q ≠ 0 := by
    simp only [dEdp, hm, Bool.false_eq_true, if_false, dedp]
    exact one_div_ne_zero (mul_ne_zero hR.dens hR.grun)
  have b2 := toCons_toPrim c P Q r hr hR.dens hE hv 2 (by omega)
  have b0 := toCons_toPrim c P Q r hr hR.dens hE hv 0 (by omega)
  rw [toCons_plain c P Q _ 0 (by omega) (plain_0 c hv)] at b0
  have := toCons_scaled c P Q (toPrim c P Q r) 2 (by omega) (scaled_v c 0)
  rw [b2, b0, ← hy, hy2] at this
  rw [this]
  simp only [vel, getRv]
  simp

/-- **Hyperbolicity fails** (C72) with heat conduction if the shear modulus depends on the density: a material with positive
temperature and positive definite acoustic tensor, drawn along the first axis, for which the eigenvectors with real eigenvalues do
not span the state space. -/
theorem heat_false : ∃ (c : Cfg) (P : Par) (Q : St), c.viscous = true ∧ c.thermal = true ∧ Verif.Eig.Regular c P Q ∧
    0 < temperature c P Q ∧ 0 < dTdp P.toParams (Q 0) ∧ (∃ d : Fin 3 → ℝ, (∀ i, 0 < d i) ∧ tensor3 c P Q 0 = Matrix.diagonal d) ∧
    ∃ x : St, ∀ (n : Nat) (r : Fin n → St) (e : Fin n → ℝ),
      (∀ k, ∀ i < c.V, rowDot c.V (systemMatrix c P Q 0) (r k) i = e k * r k i) → ¬ ∀ i < c.V, x i = ∑ k, r k i := by
  set c : Cfg := { cfgOf false with thermal := true } with hc
  set P : Par := samplePar { sample with cα2 := 10 } with hP
  set Q : St := fun i => if i = 0 then 1 else if i = 1 then 513 / 10000 else if i = 5 then 9 / 10 else
    if i = 9 then 1 else if i = 13 then 1 else 0 with hQ
  have hV : c.V = 19 := rfl
  have q0 : Q 0 = 1 := rfl
  have hA : getA Q = !![9 / 10, 0, 0; 0, 1, 0; 0, 0, 1] := by
    ext i j
    fin_cases i <;> fin_cases j <;> simp [getA, hQ]
  have hG : (getA Q).transpose * getA Q = !![81 / 100, 0, 0; 0, 1, 0; 0, 0, 1] := by
    rw [hA]
    ext i j
    fin_cases i <;> fin_cases j <;> simp [Matrix.mul_apply, Fin.sum_univ_three, Matrix.transpose_apply] <;> norm_num
  have hD : AdevG (getA Q) = !![-57 / 500, 0, 0; 0, 19 / 300, 0; 0, 0, 19 / 300] := by
    simp only [AdevG, hG]
    rw [hA]
    ext i j
    simp only [Matrix.mul_apply, Fin.sum_univ_three, Matrix.of_apply]
    fin_cases i <;> fin_cases j <;> simp [Matrix.of_apply] <;> norm_num
  have hcs : cs2 P.toParams (Q 0) = 1 := by norm_num [cs2, hP, samplePar, sample, q0]
  have hσ : sigmaCol P.toParams Q 0 = ![513 / 5000, 0, 0] := by
    funext j
    simp only [sigmaCol, dEdAs]
    rw [hD, hcs, hA, q0]
    simp only [Matrix.mulVec, dotProduct, Fin.sum_univ_three, Pi.smul_apply,
      Matrix.smul_apply, Matrix.transpose_apply, smul_eq_mul]
    fin_cases j <;> simp <;> norm_num
  have hp : pressure c P Q = 513 / 10000 := by
    have h2 : E2A P.toParams (Q 0) (getA Q) = 0 := by
      norm_num [E2A, C0, hP, samplePar, sample, gammaMG]
    have hJ : E2J P.toParams (fun i => getRJ Q i / Q 0) = 0 := by
      simp [E2J, sq3, getRJ, hQ]
    have h3 : E3 (vel Q) = 0 := by
      simp [E3, sq3, vel, getRv, hQ]
    simp only [pressure, internalEnergy, h2, hJ, h3]
    norm_num [hP, samplePar, sample, pressureMG, eRef, pRef, gammaMG, hQ, hc, cfgOf]
  have hcc : (pressure c P Q / (Q 0 * Q 0) - dEdrho c P Q) / dEdp c P Q = 513 / 5000 := by
    simp only [dEdrho, dEdp, hp, q0]
    norm_num [hP, samplePar, sample, dedrho, dedp, gammaMG, pRef, eRef, dpRef, deRef, dGammaMG, dC0]
  have hc0 : c0 c P Q * c0 c P Q = 513 / 5000 := by
    rw [c0, Real.mul_self_sqrt (by rw [hcc]; norm_num), hcc]
  have hT : temperature c P Q = 513 / 10000 := by
    rw [temperature, hp]; norm_num [hP, samplePar, sample, temperatureMG, phi, pRef, gammaMG, q0]
  have hTp : dTdp P.toParams (Q 0) = 1 := by norm_num [hP, samplePar, sample, dTdp, dedp, gammaMG, q0]
  have hrise : rise c P Q = -513 / 10000 := by
    rw [rise, hc0, hp, hσ, hTp]
    norm_num [hP, samplePar, sample, dTdrho, gammaMG, pRef, dpRef, dGammaMG, q0]
  have hR : Verif.Eig.Regular c P Q := by
    refine ⟨by rw [q0]; norm_num, by norm_num [hP, samplePar, sample, gammaMG], by rw [hcs]; norm_num,
      by rw [hcc]; norm_num, fun _ => ?_⟩
    have : temperatureMG P.toParams (Q 0) (pressure c P Q) = 513 / 10000 := hT
    rw [this]
    norm_num [hP, samplePar, sample]
  have hten : tensor3 c P Q 0 = Matrix.diagonal ![464400 / 1000000, 2620 / 3000, 2620 / 3000] := by
    have hr : dsigmadrho P.toParams Q 0 = ![513 / 2500, 0, 0] := by
      funext j
      simp only [dsigmadrho]
      rw [hσ, hcs, q0]
      simp only [Pi.smul_apply, smul_eq_mul]
      fin_cases j <;> simp [hP, samplePar, sample, dcs2, cs2] <;> norm_num
    have hB : dsigmadAd P.toParams Q 0 * getA Q = !![-669600 / 1000000, 0, 0; 0, -2620 / 3000, 0; 0, 0, -2620 / 3000] := by
      simp only [dsigmadAd, hD, hG]
      rw [hcs, hA, q0]
      ext i j
      simp only [Matrix.mul_apply, Fin.sum_univ_three, Matrix.smul_apply, Matrix.transpose_apply, Matrix.of_apply, smul_eq_mul]
      fin_cases i <;> fin_cases j <;> simp <;> norm_num
    ext i j
    have hk : Q 0 * c0 c P Q * c0 c P Q = 513 / 5000 := by rw [q0, one_mul, hc0]
    rw [tensor3_entry c P Q rfl, hB, hr, hσ, hk, q0]
    fin_cases i <;> fin_cases j <;> simp [Matrix.diagonal] <;> norm_num
  have hch : ch P.toParams (Q 0) (temperature c P Q) ^ 2 = 513 / 1000 := by
    rw [ch, hT, div_pow, Real.sq_sqrt (by norm_num [hP, samplePar, sample])]
    norm_num [hP, samplePar, sample, q0]
  refine ⟨c, P, Q, rfl, rfl, hR, by rw [hT]; norm_num, by rw [hTp]; norm_num, ⟨_, ?_, hten⟩,
    fun i => if i = 2 then 1 else 0, fun n r e he hx => ?_⟩
  · intro i
    fin_cases i <;> simp <;> norm_num
  · have hl : ∀ k, r k 2 = vel Q 0 * r k 0 := fun k =>
      no_longitudinal c P Q rfl rfl rfl (by simp [hP, samplePar]) hR (by rw [hTp]; norm_num)
        (by intro j hj; rw [hσ]; fin_cases j <;> simp at hj ⊢) (by rw [hten]; simp [Matrix.diagonal])
        (by rw [hten]; simp [Matrix.diagonal]) (by rw [hten, hch, hTp, hrise]; norm_num) (r k) (e k) (he k)
    have hv0 : vel Q 0 = 0 := by simp [vel, getRv, hQ]
    have := hx 2 (by rw [hV]; norm_num)
    simp [hl, hv0] at this

end

end Verif.Riemann
