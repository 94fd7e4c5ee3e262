import Verif.Relax.Long
import Mathlib.Analysis.SpecialFunctions.Log.Deriv
import Mathlib.MeasureTheory.Integral.IntervalIntegral.FundThmCalculus

/-! # The rate at which the distortion relaxes -/

namespace Verif.Relax

open Verif.Sys Verif.Iter Verif.Grid Filter Topology

noncomputable section

/-! ### The polynomials of the code -/

section
variable (x : V3) (m u : ℝ) (h1 : x 0 * x 1 * x 2 = 1) (hm : 3 * m = x 0 + x 1 + x 2)
  (hu : u = (x 0 - m) ^ 2 + (x 1 - m) ^ 2 + (x 2 - m) ^ 2)

include h1 hm hu

theorem cFluid_eq : cFluid (9 * m - u - 9) (6 * m - u - 6) =
    54 * ((x 0 * (x 0 - m)) ^ 2 + (x 1 * (x 1 - m)) ^ 2 + (x 2 * (x 2 - m)) ^ 2) := by
  have h2 : x 2 = 3 * m - x 0 - x 1 := by linarith
  rw [h2] at h1 hu ⊢
  subst hu
  unfold cFluid
  linear_combination (-324 * m) * h1

theorem cSolid_eq : cSolid (9 * m - u - 9) (6 * m - u - 6) =
    18 * ((x 0 * (x 0 - m) - x 1 * (x 1 - m)) ^ 2 + (x 1 * (x 1 - m) - x 2 * (x 2 - m)) ^ 2 +
      (x 2 * (x 2 - m) - x 0 * (x 0 - m)) ^ 2) := by
  have h2 : x 2 = 3 * m - x 0 - x 1 := by linarith
  rw [h2] at h1 hu ⊢
  subst hu
  unfold cSolid
  linear_combination (-324 * m) * h1

end

/-! ### Matrices with given eigenvectors -/

/-- The symmetric matrix with eigenvalues `z` and eigenvectors the columns of `W`. -/
def conj (W : M3) (z : V3) : M3 := W * Matrix.diagonal z * W.transpose

section
variable (W : M3) (hW : W.transpose * W = 1) (z w : V3)

include hW

theorem conj_mul : conj W z * conj W w = conj W (fun i => z i * w i) := by
  unfold conj
  calc W * Matrix.diagonal z * W.transpose * (W * Matrix.diagonal w * W.transpose)
      = W * Matrix.diagonal z * (W.transpose * W) * Matrix.diagonal w * W.transpose := by simp only [Matrix.mul_assoc]
    _ = _ := by rw [hW, Matrix.mul_one, Matrix.mul_assoc W, Matrix.diagonal_mul_diagonal]

theorem conj_trace : (conj W z).trace = z 0 + z 1 + z 2 := by
  unfold conj
  rw [Matrix.mul_assoc, Matrix.trace_mul_comm, Matrix.mul_assoc, hW, Matrix.mul_one, Matrix.trace_diagonal,
    Fin.sum_univ_three]

theorem conj_one (k : ℝ) : conj W (fun _ => k) = k • (1 : M3) := by
  have : Matrix.diagonal (fun _ : Fin 3 => k) = k • (1 : M3) := by ext i j; simp [Matrix.diagonal, Matrix.one_apply]
  rw [conj, this, Matrix.mul_smul, Matrix.mul_one, Matrix.smul_mul, mul_eq_one_comm.1 hW]

theorem conj_dev : dev (conj W z) = conj W (fun i => z i - (z 0 + z 1 + z 2) / 3) := by
  have h : conj W (fun i => z i - (z 0 + z 1 + z 2) / 3) = conj W z - conj W (fun _ => (z 0 + z 1 + z 2) / 3) := by
    unfold conj
    rw [← Matrix.sub_mul, ← Matrix.mul_sub]
    congr 2
    ext i j
    by_cases h : i = j <;> simp [Matrix.diagonal, h]
  have ht := conj_trace W hW z
  rw [Matrix.trace_fin_three] at ht
  rw [h, conj_one W hW]
  ext i j
  simp only [dev, Matrix.of_apply, Matrix.sub_apply, Matrix.smul_apply, Matrix.one_apply, smul_eq_mul, ht]
  by_cases h : i = j <;> simp [h]

end

theorem conj_symm (W : M3) (z : V3) : (conj W z).transpose = conj W z := by
  unfold conj
  rw [Matrix.transpose_mul, Matrix.transpose_mul, Matrix.diagonal_transpose, Matrix.transpose_transpose, Matrix.mul_assoc]

/-- `sigma_norm` of a symmetric matrix in terms of traces. -/
theorem sigmaNorm_trace (σ : M3) (h : σ.transpose = σ) :
    sigmaNorm σ = Real.sqrt (3 / 2 * (σ * σ).trace - 1 / 2 * σ.trace ^ 2) := by
  have e : ∀ i j, σ j i = σ i j := fun i j => congrFun (congrFun h i) j
  show Real.sqrt _ = _
  congr 1
  simp only [Matrix.trace_fin_three, Matrix.mul_apply, Fin.sum_univ_three]
  rw [e 0 1, e 1 2, e 0 2]
  ring

theorem frob_trace (σ : M3) (h : σ.transpose = σ) : ∑ i, ∑ j, σ i j * σ i j = (σ * σ).trace := by
  have e : ∀ i j, σ j i = σ i j := fun i j => congrFun (congrFun h i) j
  simp only [Matrix.trace_fin_three, Matrix.mul_apply, Fin.sum_univ_three]
  rw [e 0 1, e 1 2, e 0 2]

/-! ### The stress and its source in terms of the stretches -/

section
variable {A U W : M3} {s : V3} (hs : IsSVD A U W s)

include hs

theorem svd_gram : A.transpose * A = conj W (fun i => s i * s i) := by
  obtain ⟨hU, hW, -, hA⟩ := hs
  rw [hA, Matrix.transpose_mul, Matrix.transpose_mul, Matrix.transpose_transpose, Matrix.diagonal_transpose]
  calc W * (Matrix.diagonal s * U.transpose) * (U * Matrix.diagonal s * W.transpose)
      = W * Matrix.diagonal s * (U.transpose * U) * Matrix.diagonal s * W.transpose := by simp only [Matrix.mul_assoc]
    _ = _ := by rw [hU, Matrix.mul_one, Matrix.mul_assoc W, Matrix.diagonal_mul_diagonal]; rfl

/-- With positive determinant the product of the stretches is the determinant. -/
theorem svd_det (hd : 0 < A.det) : A.det = s 0 * s 1 * s 2 := by
  obtain ⟨hU, hW, hp, hA⟩ := hs
  have h1 := congrArg Matrix.det hU
  have h2 := congrArg Matrix.det hW
  rw [Matrix.det_mul, Matrix.det_transpose, Matrix.det_one] at h1 h2
  have hA' : A.det = U.det * (s 0 * s 1 * s 2) * W.det := by
    rw [hA, Matrix.det_mul, Matrix.det_mul, Matrix.det_transpose, Matrix.det_diagonal, Fin.prod_univ_three]
  have hq : (U.det * W.det) * (U.det * W.det) = 1 := by linear_combination h1 * (W.det * W.det) + h2
  have hs0 : 0 ≤ s 0 * s 1 * s 2 := mul_nonneg (mul_nonneg (hp 0) (hp 1)) (hp 2)
  rcases mul_self_eq_one_iff.1 hq with h | h
  · rw [hA']; linear_combination (s 0 * s 1 * s 2) * h
  · have : A.det = -(s 0 * s 1 * s 2) := by rw [hA']; linear_combination (s 0 * s 1 * s 2) * h
    linarith

end

/-- The mean of the squares of the stretches. -/
def meanSq (s : V3) : ℝ := (s 0 * s 0 + s 1 * s 1 + s 2 * s 2) / 3

theorem stress_conj (P : Params) (Q : St) (U W : M3) (s : V3) (hs : IsSVD (getA Q) U W s) :
    sigma P Q = conj W (fun i => -Q 0 * cs2 P (Q 0) * ((s i * s i - meanSq s) * (s i * s i))) := by
  have hg := svd_gram hs
  obtain ⟨-, hW, -, -⟩ := hs
  unfold sigma dEdAs
  rw [AdevG_eq, Matrix.transpose_smul, Matrix.transpose_mul, Matrix.smul_mul, Matrix.mul_assoc, hg, conj_dev W hW, conj_symm,
    conj_mul W hW, smul_smul]
  unfold conj
  rw [← Matrix.smul_mul, ← Matrix.mul_smul]
  congr 2
  ext i j
  by_cases h : i = j <;> simp [Matrix.diagonal, h, meanSq]

theorem power_conj (P : Params) (Q : St) (U W : M3) (s : V3) (hs : IsSVD (getA Q) U W s) :
    ((getA Q).transpose * dEdAs P Q).trace = cs2 P (Q 0) * ((s 0 * s 0 - meanSq s) ^ 2 + (s 1 * s 1 - meanSq s) ^ 2 +
      (s 2 * s 2 - meanSq s) ^ 2) := by
  have hg := svd_gram hs
  obtain ⟨-, hW, -, -⟩ := hs
  unfold dEdAs
  rw [AdevG_eq, Matrix.mul_smul, ← Matrix.mul_assoc, hg, conj_dev W hW, conj_mul W hW, Matrix.trace_smul, conj_trace W hW,
    smul_eq_mul]
  unfold meanSq
  ring

/-! ### The nondimensional time at its start -/

/-- The logarithm of the code starts at zero with the right slope. -/
theorem log_time (k l T : ℝ) (hk : k ≠ 0) (hl : l ≠ 0) :
    (∀ᶠ t in 𝓝 0, 0 < k * l * T * t + 1) ∧
      HasDerivAt (fun t => 2 / (k * l) * Real.log (k * l * T * t + 1)) (2 * T) 0 := by
  constructor
  · have : ContinuousAt (fun t : ℝ => k * l * T * t + 1) 0 := by fun_prop
    exact this.eventually (lt_mem_nhds (by simp))
  · have h : HasDerivAt (fun t : ℝ => k * l * T * t + 1) (k * l * T) 0 := by
      simpa using ((hasDerivAt_id (0 : ℝ)).const_mul (k * l * T)).add_const (1 : ℝ)
    refine ((h.log (by simp)).const_mul (2 / (k * l))).congr_deriv ?_
    simp
    field_simp

/-- The materials whose relaxation the analytic solver follows: solids with a power law below the cap on the stress, Newtonian
fluids, and fluids with a power law. -/
inductive Follows (P : Par) (Q : St) (m u : ℝ) : Prop
  | solid (hs : P.solid = true) (hp : P.powerLaw = true) (hn : P.n ≠ 0) (hτ : P.τ0 ≠ 0) (hσ : 0 < P.σY)
    (hd : dSolid (9 * m - u - 9) (6 * m - u - 6) ≠ 0) (hc : sigmaNorm (sigma P.toParams Q) ≤ 1e8)
  | newton (hs : P.solid = false) (hb : P.bingham = false) (hp : P.powerLaw = false) (hn : P.n = 1) (hμ : 0 < P.μ)
  | power (hs : P.solid = false) (hb : P.bingham = false) (hp : P.powerLaw = true) (hn : P.n ≠ 0) (h1 : P.n ≠ 1)
    (hμ : 0 < P.μ) (hd : dFluid (9 * m - u - 9) (6 * m - u - 6) ≠ 0)

/-- The shear modulus that the analytic solver takes over the one of the source term. -/
def factor (P : Par) (ρ : ℝ) : ℝ := if P.solid then 1 else P.b02 / cs2 P.toParams ρ

theorem cbrt_pos {v : ℝ} (h : 0 < v) : 0 < cbrt v := by
  have hc3 := cbrt_cube v
  by_contra hn
  push Not at hn
  have : cbrt v * cbrt v * cbrt v ≤ 0 := mul_nonpos_of_nonneg_of_nonpos (mul_self_nonneg _) hn
  linarith

theorem rpow53 {v : ℝ} (h : 0 < v) : v ^ (5 / 3 : ℝ) = cbrt v ^ 5 := by
  have h0 := cbrt_pos h
  have h3 : v = cbrt v ^ (3 : ℕ) := by linarith [cbrt_cube v, pow_succ (cbrt v) 2, pow_two (cbrt v)]
  conv_lhs => rw [h3]
  rw [← Real.rpow_natCast, ← Real.rpow_mul h0.le, ← Real.rpow_natCast]
  norm_num

section
variable (P : Par) (Q : St) (U W : M3) (s : V3) (hs : IsSVD (getA Q) U W s) (hd : 0 < (getA Q).det)
  (hρ : Q 0 = P.ρ0 * (getA Q).det) (h0 : 0 < P.ρ0) (hb : 0 < P.b02)

include hs hd

theorem unit_prod : unitSquares s 0 * unitSquares s 1 * unitSquares s 2 = 1 := by
  have h := svd_det hs hd
  have hc := cbrt_cube (s 0 * s 1 * s 2)
  have hp := cbrt_pos (h ▸ hd)
  unfold unitSquares
  generalize cbrt (s 0 * s 1 * s 2) = d at *
  field_simp
  have : s 0 ^ 2 * s 1 ^ 2 * s 2 ^ 2 = (s 0 * s 1 * s 2) ^ 2 := by ring
  rw [this, ← hc]
  ring

theorem sq_unit (i : Fin 3) : s i * s i = cbrt (getA Q).det ^ 2 * unitSquares s i := by
  have h := svd_det hs hd
  have hp := cbrt_pos hd
  unfold unitSquares
  rw [← h]
  field_simp

theorem meanSq_unit : meanSq s = cbrt (getA Q).det ^ 2 * unitMean s := by
  unfold meanSq unitMean
  rw [sq_unit Q U W s hs hd, sq_unit Q U W s hs hd, sq_unit Q U W s hs hd]
  ring

/-- The equivalent stress of the two power laws. -/
theorem norm_unit (hρ : 0 < Q 0) (hc : 0 < cs2 P.toParams (Q 0)) :
    sigmaNorm (sigma P.toParams Q) = cbrt (getA Q).det ^ 4 * (Real.sqrt (cSolid (9 * (invariants s).1 - (invariants s).2 - 9)
      (6 * (invariants s).1 - (invariants s).2 - 6)) * Q 0 * cs2 P.toParams (Q 0) / 6) ∧
    Real.sqrt (∑ i, ∑ j, sigma P.toParams Q i j * sigma P.toParams Q i j) / Real.sqrt 2 = cbrt (getA Q).det ^ 4 *
      (Real.sqrt (cFluid (9 * (invariants s).1 - (invariants s).2 - 9)
      (6 * (invariants s).1 - (invariants s).2 - 6)) * Q 0 * cs2 P.toParams (Q 0) / (6 * Real.sqrt 3)) := by
  have hW := hs.2.1
  have hp := cbrt_pos hd
  have hsy : (sigma P.toParams Q).transpose = sigma P.toParams Q := by rw [stress_conj P.toParams Q U W s hs, conj_symm]
  have hiv := invariants_eq s
  have hm : 3 * unitMean s = unitSquares s 0 + unitSquares s 1 + unitSquares s 2 := by unfold unitMean; ring
  have hone := unit_prod Q U W s hs hd
  have e1 := cSolid_eq (unitSquares s) (unitMean s) _ hone hm rfl
  have e2 := cFluid_eq (unitSquares s) (unitMean s) _ hone hm rfl
  rw [hiv]
  simp only
  rw [e1, e2, sigmaNorm_trace _ hsy, frob_trace _ hsy, stress_conj P.toParams Q U W s hs, conj_mul W hW, conj_trace W hW,
    conj_trace W hW, meanSq_unit Q U W s hs hd]
  simp only [sq_unit Q U W s hs hd]
  generalize cbrt (getA Q).det = d at *
  generalize cs2 P.toParams (Q 0) = C at *
  generalize unitMean s = m at *
  generalize unitSquares s 0 = x at *
  generalize unitSquares s 1 = y at *
  generalize unitSquares s 2 = z at *
  constructor
  · rw [← Real.sqrt_sq (show 0 ≤ d ^ 4 * (_ * Q 0 * C / 6) by positivity)]
    congr 1
    rw [mul_pow, div_pow, mul_pow, mul_pow, Real.sq_sqrt (by positivity)]
    ring
  · rw [← Real.sqrt_div' _ (by norm_num), ← Real.sqrt_sq (show 0 ≤ d ^ 4 * (_ * Q 0 * C / (6 * Real.sqrt 3)) by positivity)]
    congr 1
    have h3 : (6 * Real.sqrt 3) ^ 2 = 108 := by rw [mul_pow, Real.sq_sqrt (by norm_num)]; norm_num
    rw [mul_pow, div_pow, mul_pow, mul_pow, h3, Real.sq_sqrt (by positivity)]
    ring

include hρ h0 hb

/-- The nondimensional time runs, at its start, as the source term asks for. -/
theorem time_rate (hdist : unitSquares s 2 < unitSquares s 1 ∧ unitSquares s 1 < unitSquares s 0)
    (hf : Follows P Q (invariants s).1 (invariants s).2) :
    ∃ τ : ℝ → ℝ, τ 0 = 0 ∧ (∀ᶠ dt in 𝓝 0, nondimTime P (s 0 * s 1 * s 2 * P.ρ0) (cbrt (s 0 * s 1 * s 2)) (invariants s).1
      (invariants s).2 dt = some (τ dt)) ∧
      HasDerivAt τ (factor P (Q 0) * (2 / 3 * theta1inv P Q * cs2 P.toParams (Q 0) * cbrt (getA Q).det ^ 2)) 0 := by
  have hdet := svd_det hs hd
  have hp := cbrt_pos hd
  have hQ : 0 < Q 0 := by rw [hρ]; positivity
  have hc : 0 < cs2 P.toParams (Q 0) := by unfold cs2; positivity
  obtain ⟨n1, n2⟩ := norm_unit P Q U W s hs hd hQ hc
  have hiv := invariants_eq s
  have hm : 3 * unitMean s = unitSquares s 0 + unitSquares s 1 + unitSquares s 2 := by unfold unitMean; ring
  have hone := unit_prod Q U W s hs hd
  have e1 := cSolid_eq (unitSquares s) (unitMean s) _ hone hm rfl
  have e2 := cFluid_eq (unitSquares s) (unitMean s) _ hone hm rfl
  have c1 : 0 < cSolid (9 * (invariants s).1 - (invariants s).2 - 9) (6 * (invariants s).1 - (invariants s).2 - 6) := by
    rw [hiv]
    simp only
    rw [e1]
    obtain ⟨d1, d2⟩ := hdist
    generalize unitMean s = m at *
    generalize unitSquares s 0 = x at *
    generalize unitSquares s 1 = y at *
    generalize unitSquares s 2 = z at *
    by_contra hn
    have f1 := sq_nonneg (x * (x - m) - y * (y - m))
    have f2 := sq_nonneg (y * (y - m) - z * (z - m))
    have f3 := sq_nonneg (z * (z - m) - x * (x - m))
    have g1 : (x - y) * (x + y - m) = 0 := by
      have : (x * (x - m) - y * (y - m)) ^ 2 = 0 := by linarith
      have := pow_eq_zero_iff (two_ne_zero) |>.1 this
      linear_combination this
    have g2 : (y - z) * (y + z - m) = 0 := by
      have : (y * (y - m) - z * (z - m)) ^ 2 = 0 := by linarith
      have := pow_eq_zero_iff (two_ne_zero) |>.1 this
      linear_combination this
    have g1' := (mul_eq_zero.1 g1).resolve_left (by linarith)
    have g2' := (mul_eq_zero.1 g2).resolve_left (by linarith)
    linarith
  have c2 : 0 < cFluid (9 * (invariants s).1 - (invariants s).2 - 9) (6 * (invariants s).1 - (invariants s).2 - 6) := by
    rw [hiv] at c1 ⊢
    simp only at c1 ⊢
    rw [e1] at c1
    rw [e2]
    nlinarith [sq_nonneg (unitSquares s 0 * (unitSquares s 0 - unitMean s) + unitSquares s 1 * (unitSquares s 1 - unitMean s) +
      unitSquares s 2 * (unitSquares s 2 - unitMean s))]
  rw [← hdet, mul_comm _ P.ρ0, ← hρ]
  generalize (invariants s).1 = m at *
  generalize (invariants s).2 = u at *
  cases hf with
  | newton hso hbi hpl hn hμ =>
    refine ⟨fun dt => P.ρ0 * P.b02 * cbrt (getA Q).det ^ (7 : ℝ) / (3 * P.μ) * dt, by simp,
      Eventually.of_forall fun dt => nondimTime_newtonian P _ _ _ _ _ hpl hμ.ne', ?_⟩
    refine ((hasDerivAt_id (0 : ℝ)).const_mul _).congr_deriv ?_
    simp only [theta1inv, factor, hso, hbi, hpl, hn, Bool.false_eq_true, if_false, rpow53 hd]
    rw [show (7 : ℝ) = ((7 : ℕ) : ℝ) by norm_num, Real.rpow_natCast]
    simp only [div_one, Real.rpow_one, mul_one]
    field_simp
  | solid hso hpl hn hτ hσ hds hcap =>
    set l := cSolid (9 * m - u - 9) (6 * m - u - 6) / dSolid (9 * m - u - 9) (6 * m - u - 6) with hl
    have hl0 : l ≠ 0 := div_ne_zero c1.ne' hds
    set B := Real.sqrt (cSolid (9 * m - u - 9) (6 * m - u - 6)) * Q 0 * cs2 P.toParams (Q 0) / (6 * P.σY) with hB
    have hB0 : 0 ≤ B := by positivity
    obtain ⟨l1, l2⟩ := log_time P.n l (1 / P.τ0 * cbrt (getA Q).det ^ (4 * P.n + 7) * B ^ P.n) hn hl0
    refine ⟨_, by simp, ?_, l2.congr_deriv ?_⟩
    · filter_upwards [l1] with dt hdt
      have hpw : powN B P.n = some (B ^ P.n) := by
        unfold powN
        rw [if_neg (by rintro ⟨h, -⟩; linarith)]
      have ht : P.n * l / P.τ0 * cbrt (getA Q).det ^ (4 * P.n + 7) * B ^ P.n * dt + 1 =
          P.n * l * (1 / P.τ0 * cbrt (getA Q).det ^ (4 * P.n + 7) * B ^ P.n) * dt + 1 := by ring
      unfold nondimTime
      simp only [hpl, hso, if_true, if_neg (not_le.2 c1)]
      rw [if_neg (by rintro (h | h | h | h) <;> simp_all), ← hl, ← hB, hpw]
      simp only
      rw [ht, if_neg (not_le.2 hdt)]
    · simp only [theta1inv, factor, hso, hpl, if_true, rpow53 hd, min_eq_left hcap]
      have hsn : (sigmaNorm (sigma P.toParams Q) / P.σY) ^ P.n = cbrt (getA Q).det ^ (4 * P.n) * B ^ P.n := by
        rw [n1, show cbrt (getA Q).det ^ 4 * (Real.sqrt (cSolid (9 * m - u - 9) (6 * m - u - 6)) * Q 0 *
          cs2 P.toParams (Q 0) / 6) / P.σY = cbrt (getA Q).det ^ 4 * B by rw [hB]; field_simp,
          Real.mul_rpow (by positivity) hB0, ← Real.rpow_natCast, ← Real.rpow_mul hp.le]
        norm_num
      rw [hsn, Real.rpow_add hp, show (7 : ℝ) = ((7 : ℕ) : ℝ) by norm_num, Real.rpow_natCast]
      field_simp
  | power hso hbi hpl hn h1n hμ hdf =>
    have hk : (1 - P.n) / P.n ≠ 0 := div_ne_zero (by intro h; apply h1n; linarith) hn
    set k := (1 - P.n) / P.n with hkd
    set l := cFluid (9 * m - u - 9) (6 * m - u - 6) / dFluid (9 * m - u - 9) (6 * m - u - 6) with hl
    have hl0 : l ≠ 0 := div_ne_zero c2.ne' hdf
    set B := Real.sqrt (cFluid (9 * m - u - 9) (6 * m - u - 6)) * Q 0 * cs2 P.toParams (Q 0) / (6 * Real.sqrt 3) with hB
    have hB0 : 0 ≤ B := by positivity
    obtain ⟨l1, l2⟩ := log_time k l (1 / (6 * P.μ ^ (1 / P.n) / (P.ρ0 * P.b02)) * cbrt (getA Q).det ^ (4 * k + 7) * B ^ k)
      hk hl0
    have hM : 0 < P.μ ^ (1 / P.n) := Real.rpow_pos_of_pos hμ _
    refine ⟨_, by simp, ?_, l2.congr_deriv ?_⟩
    · filter_upwards [l1] with dt hdt
      have hpw : powN B k = some (B ^ k) := by
        unfold powN
        rw [if_neg (by rintro ⟨h, -⟩; linarith)]
      have ht : k * l / (6 * P.μ ^ (1 / P.n) / (P.ρ0 * P.b02)) * cbrt (getA Q).det ^ (4 * k + 7) * B ^ k * dt + 1 =
          k * l * (1 / (6 * P.μ ^ (1 / P.n) / (P.ρ0 * P.b02)) * cbrt (getA Q).det ^ (4 * k + 7) * B ^ k) * dt + 1 := by ring
      unfold nondimTime
      simp only [hpl, hso, if_true, Bool.false_eq_true, if_false, if_neg (not_le.2 c2)]
      rw [if_neg, ← hl, ← hB, ← hkd, hpw]
      · simp only
        rw [ht, if_neg (not_le.2 hdt)]
      · rintro (h | h | h | h | h)
        · exact hdf h
        · exact hn h
        · exact hk h
        · linarith
        · exact absurd h (by positivity)
    · simp only [theta1inv, factor, hso, hbi, hpl, Bool.false_eq_true, if_true, if_false, rpow53 hd, n2]
      rw [← hkd]
      have hsn : (cbrt (getA Q).det ^ 4 * B) ^ k = cbrt (getA Q).det ^ (4 * k) * B ^ k := by
        rw [Real.mul_rpow (by positivity) hB0, ← Real.rpow_natCast, ← Real.rpow_mul hp.le]
        norm_num
      rw [hsn, Real.rpow_add hp, show (7 : ℝ) = ((7 : ℕ) : ℝ) by norm_num, Real.rpow_natCast]
      field_simp
      ring

end

/-! ### The stretches after a short time -/

theorem sortDown_sum (a b c : ℝ) : sortDown a b c 0 + sortDown a b c 1 + sortDown a b c 2 = a + b + c := by
  simp only [sortDown, Matrix.cons_val_zero, Matrix.cons_val_one, Matrix.cons_val]
  rcases le_total a b with h | h <;> rcases le_total a c with h' | h' <;> rcases le_total b c with h'' | h'' <;>
    simp only [max_eq_left, max_eq_right, min_eq_left, min_eq_right, h, h', h''] <;> linarith

/-- Whatever the first root is, the other two are such that the mean is kept. -/
theorem squares_sum (m u : ℝ) (h1 : 0 < firstRoot m u) (h2 : 0 < 3 * m - firstRoot m u)
    (h3 : 4 ≤ firstRoot m u * (3 * m - firstRoot m u) * (3 * m - firstRoot m u)) :
    ∃ x, squares m u = some x ∧ x 0 + x 1 + x 2 = 3 * m := by
  have hx : secondRoot m (firstRoot m u) = 0.5 * (Real.sqrt ((firstRoot m u * (3 * m - firstRoot m u) *
      (3 * m - firstRoot m u) - 4) / firstRoot m u) + (3 * m - firstRoot m u)) := by
    simp only [secondRoot, pos]
    rw [max_eq_right (by linarith)]
  unfold squares
  simp only
  rw [hx]
  generalize firstRoot m u = p at *
  set t := 3 * m - p with ht
  have hr := Real.mul_self_sqrt (show 0 ≤ (p * t * t - 4) / p from div_nonneg (by linarith) h1.le)
  have hr0 := Real.sqrt_nonneg ((p * t * t - 4) / p)
  set r := Real.sqrt ((p * t * t - 4) / p)
  have hq : 0 < 0.5 * (r + t) := by norm_num; linarith
  have h3' : 0 < 1 / (p * (0.5 * (r + t))) := by positivity
  rw [if_neg (by rintro (h | h) <;> linarith), if_neg (by rintro (h | h | h) <;> linarith)]
  refine ⟨_, rfl, ?_⟩
  rw [sortDown_sum]
  have hpr : p * (r * r) = p * t * t - 4 := by rw [hr]; field_simp
  have e : 1 / (p * (0.5 * (r + t))) = 0.5 * (t - r) := by
    rw [div_eq_iff (by positivity)]
    norm_num
    linear_combination (1 / 4) * hpr
  rw [e, ht]
  norm_num
  ring

/-- Close to a triple of distinct squares on the side where the code takes the right branch the mean is kept. -/
theorem squares_near (p : V3) (m u : ℝ → ℝ) (h2 : 0 < p 2) (h12 : p 2 < p 1) (h01 : p 1 < p 0) (h1 : p 0 * p 1 * p 2 = 1)
    (hm0 : 3 * m 0 = p 0 + p 1 + p 2) (hu0 : u 0 = (p 0 - m 0) ^ 2 + (p 1 - m 0) ^ 2 + (p 2 - m 0) ^ 2)
    (hD : 1e-12 < 2 * ((p 0 - m 0) * (p 1 - m 0) * (p 2 - m 0))) (hm : ContinuousAt m 0) (hu : ContinuousAt u 0) :
    ∀ᶠ t in 𝓝 0, ∃ x, squares (m t) (u t) = some x ∧ x 0 + x 1 + x 2 = 3 * m t := by
  have hfirst := (firstRoot_eq (p 0) (p 1) (p 2) (m 0) (u 0) h01.le h12.le h1 hm0 hu0).1 (Or.inr hD.le)
  set Δ : ℝ → ℝ := fun t => -2 * m t * m t * m t + m t * u t + 2 with hΔ
  set g : ℝ → ℝ := fun t => 6 * u t * u t * u t - 81 * Δ t * Δ t with hg
  have cΔ : ContinuousAt Δ 0 := by fun_prop
  have cg : ContinuousAt g 0 := by fun_prop
  have eΔ : Δ 0 = 2 * ((p 0 - m 0) * (p 1 - m 0) * (p 2 - m 0)) := by
    have : p 2 = 3 * m 0 - p 0 - p 1 := by linarith
    simp only [hΔ, hu0]
    rw [this] at h1 ⊢
    linear_combination (-2) * h1
  have eg : 0 < g 0 := by
    have : g 0 = 12 * ((p 0 - p 1) * (p 1 - p 2) * (p 2 - p 0)) ^ 2 := by
      have : p 2 = 3 * m 0 - p 0 - p 1 := by linarith
      simp only [hg, eΔ, hu0, this]
      ring
    rw [this]
    have : (p 0 - p 1) * (p 1 - p 2) * (p 2 - p 0) ≠ 0 :=
      mul_ne_zero (mul_ne_zero (by linarith) (by linarith)) (by linarith)
    positivity
  have pΔ : 0 < Δ 0 := by rw [eΔ]; linarith
  have ev : ∀ᶠ t in 𝓝 0, firstRoot (m t) (u t) =
      Real.sqrt (6 * u t) / 3 * Real.cos (Real.arctan (Real.sqrt (g t) / (9 * Δ t)) / 3) + m t := by
    filter_upwards [cΔ.eventually (lt_mem_nhds (eΔ ▸ hD)), cg.eventually (lt_mem_nhds eg)] with t h h'
    unfold firstRoot pos
    simp only
    rw [if_neg (not_lt.2 (le_trans (le_of_lt h) (le_abs_self _))), max_eq_right (le_of_lt h'), if_neg h'.ne']
  have cF : ContinuousAt (fun t => firstRoot (m t) (u t)) 0 := by
    refine ContinuousAt.congr ?_ (ev.mono fun _ h => h.symm)
    refine ContinuousAt.add (ContinuousAt.mul ?_ ?_) hm
    · exact ((Real.continuous_sqrt.continuousAt.comp (hu.const_mul 6))).div_const 3
    · refine Real.continuous_cos.continuousAt.comp ((Real.continuous_arctan.continuousAt.comp ?_).div_const 3)
      exact (Real.continuous_sqrt.continuousAt.comp cg).div (cΔ.const_mul 9) (by positivity)
  have cT : ContinuousAt (fun t => 3 * m t - firstRoot (m t) (u t)) 0 := (hm.const_mul 3).sub cF
  have cS : ContinuousAt (fun t => firstRoot (m t) (u t) * (3 * m t - firstRoot (m t) (u t)) *
      (3 * m t - firstRoot (m t) (u t))) 0 := (cF.mul cT).mul cT
  have t0 : 3 * m 0 - p 0 = p 1 + p 2 := by linarith
  filter_upwards [cF.eventually (lt_mem_nhds (a := 0) (by beta_reduce; rw [hfirst]; linarith)),
    cT.eventually (lt_mem_nhds (a := 0) (by beta_reduce; rw [hfirst, t0]; linarith)),
    cS.eventually (lt_mem_nhds (a := 4) (by
      beta_reduce
      rw [hfirst, t0]
      have : p 0 * (p 1 + p 2) * (p 1 + p 2) = p 0 * (p 1 - p 2) ^ 2 + 4 := by linear_combination 4 * h1
      rw [this]
      have : 0 < p 0 * (p 1 - p 2) ^ 2 := mul_pos (by linarith) (pow_pos (by linarith) 2)
      linarith))] with t h1 h2 h3
  exact squares_sum _ _ h1 h2 h3.le

/-- **C86.** The strain starts to relax at the rate of the source term: the sum of the squares of the stretches changes with
`dt` at first as it does along the source, up to the ratio of the shear moduli that the solver and the source use. -/
theorem relax_rate (c : Cfg) (P : Par) (rate : ℝ) (Q : St) (U W : M3) (s : V3) (hv : c.viscous = true)
    (hs : IsSVD (getA Q) U W s) (hd : 0 < (getA Q).det) (hρ : Q 0 = P.ρ0 * (getA Q).det) (h0 : 0 < P.ρ0) (hb : 0 < P.b02)
    (h2 : 0 < s 2) (h12 : s 2 < s 1) (h01 : s 1 < s 0)
    (hD : 1e-12 < 2 * ((unitSquares s 0 - unitMean s) * (unitSquares s 1 - unitMean s) * (unitSquares s 2 - unitMean s)))
    (hu : 1e-12 ≤ (invariants s).2) (hf : Follows P Q (invariants s).1 (invariants s).2) :
    (∀ᶠ dt in 𝓝 0, relaxA P U W s dt (getA Q) ≠ none) ∧
    HasDerivAt (fun dt => (((relaxA P U W s dt (getA Q)).getD 0).transpose * (relaxA P U W s dt (getA Q)).getD 0).trace)
      (factor P (Q 0) * (2 * ((getA Q).transpose * getA (source c P rate Q)).trace)) 0 := by
  have hdet := svd_det hs hd
  have hp := cbrt_pos hd
  have hlt : ∀ i j, 0 ≤ s i → s i < s j → unitSquares s i < unitSquares s j := by
    intro i j h h'
    unfold unitSquares
    rw [← hdet]
    exact div_lt_div_of_pos_right (by nlinarith) (by positivity)
  have u12 := hlt 2 1 h2.le h12
  have u01 := hlt 1 0 (by linarith) h01
  have u2 : 0 < unitSquares s 2 := by unfold unitSquares; rw [← hdet]; positivity
  obtain ⟨τ, τ0, hev, hτ⟩ := time_rate P Q U W s hs hd hρ h0 hb ⟨u12, u01⟩ hf
  have hiv := invariants_eq s
  have hm : 3 * unitMean s = unitSquares s 0 + unitSquares s 1 + unitSquares s 2 := by unfold unitMean; ring
  obtain ⟨m0, s0, -, -⟩ := moments_ode (invariants s).1 (invariants s).2 0
  have dm : HasDerivAt (fun t => meanAt (invariants s).1 (invariants s).2 (τ t)) _ 0 :=
    HasDerivAt.comp (h₂ := meanAt (invariants s).1 (invariants s).2) (0 : ℝ) (by
      rw [τ0]; exact (moments_ode (invariants s).1 (invariants s).2 0).2.2.1) hτ
  have du : HasDerivAt (fun t => spreadAt (invariants s).1 (invariants s).2 (τ t)) _ 0 :=
    HasDerivAt.comp (h₂ := spreadAt (invariants s).1 (invariants s).2) (0 : ℝ) (by
      rw [τ0]; exact (moments_ode (invariants s).1 (invariants s).2 0).2.2.2) hτ
  have cu : ContinuousAt (fun t => pos (spreadAt (invariants s).1 (invariants s).2 (τ t))) 0 :=
    continuousAt_const.max du.continuousAt
  have i0 : (invariants s).1 = unitMean s := by rw [hiv]
  have hnear := squares_near (unitSquares s) (fun t => meanAt (invariants s).1 (invariants s).2 (τ t)) _ u2 u12 u01
    (unit_prod Q U W s hs hd) (by simp only [τ0, m0]; rw [i0]; exact hm)
    (by
      simp only [τ0, s0, m0]
      rw [i0]
      unfold pos
      rw [max_eq_right (le_trans (by norm_num) hu), hiv])
    (by simp only [τ0, m0]; rw [i0]; exact hD) dm.continuousAt cu
  have hA : ∀ᶠ dt in 𝓝 0, ∃ A', relaxA P U W s dt (getA Q) = some A' ∧
      (A'.transpose * A').trace = cbrt (getA Q).det ^ 2 * (3 * meanAt (invariants s).1 (invariants s).2 (τ dt)) := by
    filter_upwards [hev, hnear] with dt h ⟨x, hx, hsum⟩
    have hx' : newSquares (invariants s).1 (invariants s).2 (τ dt) = some x := hx
    refine ⟨U * (Matrix.of fun j k => W.transpose j k * (cbrt (s 0 * s 1 * s 2) * Real.sqrt (x j))), ?_, ?_⟩
    · unfold relaxA
      simp only
      rw [if_pos hu, h]
      simp only [hx', Option.map_some]
    · rw [scaled_rows, ← hdet]
      have hn := (squares_prod _ _ _ hx).2
      have hs' : IsSVD (U * Matrix.diagonal (fun j => cbrt (getA Q).det * Real.sqrt (x j)) * W.transpose) U W
          (fun j => cbrt (getA Q).det * Real.sqrt (x j)) := ⟨hs.1, hs.2.1, fun i => by positivity, rfl⟩
      rw [svd_gram hs', conj_trace W hs.2.1, ← hsum]
      linear_combination cbrt (getA Q).det ^ 2 * (Real.mul_self_sqrt (hn 0) + Real.mul_self_sqrt (hn 1) +
        Real.mul_self_sqrt (hn 2))
  refine ⟨hA.mono fun dt ⟨A', h, _⟩ => by rw [h]; simp, ?_⟩
  have hfin := ((dm.const_mul 3).const_mul (cbrt (getA Q).det ^ 2))
  refine (hfin.congr_of_eventuallyEq (hA.mono fun dt ⟨A', h, ht⟩ => ?_)).congr_deriv ?_
  · simp only [h, Option.getD_some, ht]
  · rw [source_getA c P rate Q hv, Matrix.mul_smul, Matrix.trace_smul, power_conj P.toParams Q U W s hs,
      meanSq_unit Q U W s hs hd, sq_unit Q U W s hs hd, sq_unit Q U W s hs hd, sq_unit Q U W s hs hd, s0, hiv]
    simp only [smul_eq_mul]
    ring

/-- The ratio is one exactly for solids, constant shear moduli and undistorted densities. -/
theorem factor_one_iff (P : Par) (ρ : ℝ) (h0 : 0 < P.ρ0) (hb : 0 < P.b02) (hρ : 0 < ρ) :
    factor P ρ = 1 ↔ P.solid = true ∨ P.β = 0 ∨ ρ = P.ρ0 := by
  cases hs : P.solid
  · have hq : 0 < ρ / P.ρ0 := by positivity
    have : factor P ρ = 1 ↔ (ρ / P.ρ0) ^ P.β = 1 := by
      unfold factor cs2
      rw [hs, if_neg (by simp), div_eq_one_iff_eq (by positivity)]
      constructor
      · intro h
        nlinarith
      · intro h
        rw [h, mul_one]
    rw [this, ← Real.exp_log hq, ← Real.exp_mul, Real.exp_eq_one_iff, mul_eq_zero]
    simp only [Bool.false_eq_true, false_or]
    constructor
    · rintro (h | h)
      · right
        have := Real.eq_one_of_pos_of_log_eq_zero hq h
        rwa [div_eq_one_iff_eq h0.ne'] at this
      · exact Or.inl h
    · rintro (h | h)
      · exact Or.inr h
      · left
        rw [h, div_self h0.ne', Real.log_one]
  · simp [factor, hs]

/-! ### The decay of the stress -/

theorem mono_deriv (a b : ℝ) (i j : ℕ) (t : ℝ) :
    HasDerivAt (fun t => (a * Real.exp (-6 * t)) ^ i * (b * Real.exp (-9 * t)) ^ j)
      (-(6 * i + 9 * j) * ((a * Real.exp (-6 * t)) ^ i * (b * Real.exp (-9 * t)) ^ j)) t := by
  have h : ∀ t, (a * Real.exp (-6 * t)) ^ i * (b * Real.exp (-9 * t)) ^ j =
      a ^ i * b ^ j * Real.exp (-(6 * i + 9 * j) * t) := by
    intro t
    rw [mul_pow, mul_pow, ← Real.exp_nat_mul, ← Real.exp_nat_mul, mul_mul_mul_comm, ← Real.exp_add]
    congr 2
    ring
  simp only [h]
  refine ((((hasDerivAt_id t).const_mul (-(6 * (i : ℝ) + 9 * j))).exp).const_mul (a ^ i * b ^ j)).congr_deriv ?_
  simp
  ring

/-- An integral over all times by means of an antiderivative that vanishes at infinity. -/
theorem total (f F : ℝ → ℝ) (hF : ∀ t, HasDerivAt F (f t) t) (hc : Continuous f) (h0 : Tendsto F atTop (𝓝 0)) :
    Tendsto (fun T => ∫ t in (0 : ℝ)..T, f t) atTop (𝓝 (-F 0)) := by
  have : (fun T => ∫ t in (0 : ℝ)..T, f t) = fun T => F T - F 0 := by
    funext T
    exact intervalIntegral.integral_eq_sub_of_hasDerivAt (fun t _ => hF t) (hc.intervalIntegrable _ _)
  rw [this]
  simpa using h0.sub_const (F 0)

theorem exp6_lim : Tendsto (fun t : ℝ => Real.exp (-6 * t)) atTop (𝓝 0) := tendsto_exp_neg _ (by norm_num)

theorem exp9_lim : Tendsto (fun t : ℝ => Real.exp (-9 * t)) atTop (𝓝 0) := tendsto_exp_neg _ (by norm_num)

/-- The time integral of the square of the equivalent stress of solids along the linearised relaxation. -/
theorem solid_total (a b : ℝ) : Tendsto (fun T => ∫ t in (0 : ℝ)..T, cSolid (a * Real.exp (-6 * t)) (b * Real.exp (-9 * t)))
    atTop (𝓝 (dSolid a b)) := by
  have hd : ∀ t, HasDerivAt (fun t => -dSolid (a * Real.exp (-6 * t)) (b * Real.exp (-9 * t)))
      (cSolid (a * Real.exp (-6 * t)) (b * Real.exp (-9 * t))) t := by
    intro t
    have M := fun i j => mono_deriv a b i j t
    have h := ((((((((((((((M 1 0).const_mul 18).sub ((M 0 1).const_mul 36)).add ((M 2 0).const_mul 9)).sub
      ((M 1 1).const_mul (132 / 5))).add ((M 0 2).const_mul (33 / 2))).sub ((M 2 1).const_mul (8 / 7))).add
      ((M 1 2).const_mul 2)).sub ((M 0 3).const_mul (8 / 9))).sub ((M 4 0).const_mul (1 / 6))).add
      ((M 3 1).const_mul (16 / 27))).sub ((M 2 2).const_mul (4 / 5))).add ((M 1 3).const_mul (16 / 33))).sub
      ((M 0 4).const_mul (1 / 9))).neg
    refine (h.congr_of_eventuallyEq (Eventually.of_forall fun t => ?_)).congr_deriv ?_
    · simp only [dSolid, Pi.neg_apply, Pi.add_apply, Pi.sub_apply]
      ring
    · simp only [cSolid]
      push_cast
      ring
  have h := total _ _ hd (by unfold cSolid; fun_prop) (by
    have hc : Continuous fun p : ℝ × ℝ => -dSolid p.1 p.2 := by unfold dSolid; fun_prop
    have := (hc.tendsto (a * 0, b * 0)).comp ((exp6_lim.const_mul a).prodMk_nhds (exp9_lim.const_mul b))
    simpa [Function.comp_def, dSolid] using this)
  simpa using h

/-- The same for fluids. -/
theorem fluid_total (a b : ℝ) : Tendsto (fun T => ∫ t in (0 : ℝ)..T, cFluid (a * Real.exp (-6 * t)) (b * Real.exp (-9 * t)))
    atTop (𝓝 (dFluid a b)) := by
  have hd : ∀ t, HasDerivAt (fun t => -dFluid (a * Real.exp (-6 * t)) (b * Real.exp (-9 * t)))
      (cFluid (a * Real.exp (-6 * t)) (b * Real.exp (-9 * t))) t := by
    intro t
    have M := fun i j => mono_deriv a b i j t
    have h := ((((((((((((((M 1 0).const_mul 18).sub ((M 0 1).const_mul 36)).add ((M 2 0).const_mul 15)).sub
      ((M 1 1).const_mul (204 / 5))).add ((M 0 2).const_mul (51 / 2))).sub ((M 2 1).const_mul (8 / 7))).add
      ((M 1 2).const_mul 2)).sub ((M 0 3).const_mul (8 / 9))).sub ((M 4 0).const_mul (1 / 6))).add
      ((M 3 1).const_mul (16 / 27))).sub ((M 2 2).const_mul (4 / 5))).add ((M 1 3).const_mul (16 / 33))).sub
      ((M 0 4).const_mul (1 / 9))).neg
    refine (h.congr_of_eventuallyEq (Eventually.of_forall fun t => ?_)).congr_deriv ?_
    · simp only [dFluid, Pi.neg_apply, Pi.add_apply, Pi.sub_apply]
      ring
    · simp only [cFluid]
      push_cast
      ring
  have h := total _ _ hd (by unfold cFluid; fun_prop) (by
    have hc : Continuous fun p : ℝ × ℝ => -dFluid p.1 p.2 := by unfold dFluid; fun_prop
    have := (hc.tendsto (a * 0, b * 0)).comp ((exp6_lim.const_mul a).prodMk_nhds (exp9_lim.const_mul b))
    simpa [Function.comp_def, dFluid] using this)
  simpa using h

/-- The logarithm of the code solves the equation with an exponentially decaying rate. -/
theorem log_ode (k l T t : ℝ) (hk : k ≠ 0) (hl : l ≠ 0) (h : 0 < k * l * T * t + 1) :
    HasDerivAt (fun t => 2 / (k * l) * Real.log (k * l * T * t + 1))
      (2 * T * Real.exp (-(k * l / 2) * (2 / (k * l) * Real.log (k * l * T * t + 1)))) t := by
  have h' : HasDerivAt (fun t : ℝ => k * l * T * t + 1) (k * l * T) t := by
    simpa using ((hasDerivAt_id t).const_mul (k * l * T)).add_const (1 : ℝ)
  refine ((h'.log h.ne').const_mul (2 / (k * l))).congr_deriv ?_
  have e : -(k * l / 2) * (2 / (k * l) * Real.log (k * l * T * t + 1)) = -Real.log (k * l * T * t + 1) := by field_simp
  rw [e, Real.exp_neg, Real.exp_log h]
  field_simp

/-- **C87.** For materials with a power law the nondimensional time runs at the rate of the law, with the square of the
equivalent stress replaced by an exponential function that has the right value at the start and the right integral over the
linearised relaxation. -/
theorem power_time (P : Par) (ρ d m u dt τ : ℝ) (hp : P.powerLaw = true) (h : nondimTime P ρ d m u dt = some τ) :
    let a := 9 * m - u - 9
    let b := 6 * m - u - 6
    let cs := cs2 P.toParams ρ
    let x := if P.solid then P.n else (1 - P.n) / P.n
    let C := if P.solid then cSolid else cFluid
    let s := if P.solid then P.σY else Real.sqrt 3
    let t1 := if P.solid then P.τ0 else 6 * P.μ ^ (1 / P.n) / (P.ρ0 * P.b02)
    0 < C a b → 0 ≤ ρ * cs / s →
    ∃ l : ℝ, Tendsto (fun T => ∫ t in (0 : ℝ)..T, C (a * Real.exp (-6 * t)) (b * Real.exp (-9 * t))) atTop (𝓝 (C a b / l)) ∧
      HasDerivAt (fun t => (nondimTime P ρ d m u t).getD 0)
        (2 / t1 * d ^ (4 * x + 7) * (Real.sqrt (C a b * Real.exp (-l * τ)) * ρ * cs / (6 * s)) ^ x) dt := by
  intro a b cs x C s t1 hC hs
  -- one branch, with its own constants
  have key : ∀ (D : ℝ) (B : ℝ), B = Real.sqrt (C a b) * ρ * cs / (6 * s) → D ≠ 0 → x ≠ 0 →
      (∀ t, nondimTime P ρ d m u t = if x * (C a b / D) / t1 * d ^ (4 * x + 7) * B ^ x * t + 1 ≤ 0 then none
        else some (2 / (x * (C a b / D)) * Real.log (x * (C a b / D) / t1 * d ^ (4 * x + 7) * B ^ x * t + 1))) →
      HasDerivAt (fun t => (nondimTime P ρ d m u t).getD 0)
        (2 / t1 * d ^ (4 * x + 7) * (Real.sqrt (C a b * Real.exp (-(C a b / D) * τ)) * ρ * cs / (6 * s)) ^ x) dt := by
    intro D B hB hD hx hform
    set l := C a b / D with hl
    have hl0 : l ≠ 0 := div_ne_zero hC.ne' hD
    have hT : ∀ t, x * l / t1 * d ^ (4 * x + 7) * B ^ x * t + 1 = x * l * (1 / t1 * d ^ (4 * x + 7) * B ^ x) * t + 1 := by
      intro t; ring
    simp only [hT] at hform
    have hpos : 0 < x * l * (1 / t1 * d ^ (4 * x + 7) * B ^ x) * dt + 1 := by
      by_contra hn
      rw [hform, if_pos (not_lt.1 hn)] at h
      exact absurd h (by simp)
    have hτ : τ = 2 / (x * l) * Real.log (x * l * (1 / t1 * d ^ (4 * x + 7) * B ^ x) * dt + 1) := by
      rw [hform, if_neg (not_le.2 hpos)] at h
      exact (Option.some.inj h).symm
    have hode := log_ode x l (1 / t1 * d ^ (4 * x + 7) * B ^ x) dt hx hl0 hpos
    rw [← hτ] at hode
    have hev : ∀ᶠ t in 𝓝 dt, 0 < x * l * (1 / t1 * d ^ (4 * x + 7) * B ^ x) * t + 1 := by
      have : ContinuousAt (fun t : ℝ => x * l * (1 / t1 * d ^ (4 * x + 7) * B ^ x) * t + 1) dt := by fun_prop
      exact this.eventually (lt_mem_nhds hpos)
    refine (hode.congr_of_eventuallyEq (hev.mono fun t ht => ?_)).congr_deriv ?_
    · show (nondimTime P ρ d m u t).getD 0 = _
      rw [hform, if_neg (not_le.2 ht), Option.getD_some]
    · have e : Real.sqrt (C a b * Real.exp (-l * τ)) * ρ * cs / (6 * s) = B * Real.exp (-l * τ / 2) := by
        rw [Real.sqrt_mul hC.le, hB, ← Real.exp_half]
        ring
      have hB0 : 0 ≤ B := by
        have : B = Real.sqrt (C a b) / 6 * (ρ * cs / s) := by rw [hB]; ring
        rw [this]
        positivity
      rw [e, Real.mul_rpow hB0 (Real.exp_pos _).le, ← Real.exp_mul]
      rw [show -l * τ / 2 * x = -(x * l / 2) * τ by ring]
      ring
  have hpow : ∀ B : ℝ, 0 ≤ B → powN B x = some (B ^ x) := by
    intro B hB
    unfold powN
    rw [if_neg (by rintro ⟨h, -⟩; linarith)]
  have hBn : 0 ≤ Real.sqrt (C a b) * ρ * cs / (6 * s) := by
    have : Real.sqrt (C a b) * ρ * cs / (6 * s) = Real.sqrt (C a b) / 6 * (ρ * cs / s) := by ring
    rw [this]
    positivity
  cases hso : P.solid
  · simp only [x, C, s, t1, hso, Bool.false_eq_true, if_false] at hC hs key hpow hBn ⊢
    have hC' : ¬ cFluid (9 * m - u - 9) (6 * m - u - 6) ≤ 0 := not_le.2 hC
    have hdz : ¬ (dFluid a b = 0 ∨ P.n = 0 ∨ (1 - P.n) / P.n = 0 ∨ P.μ ≤ 0 ∨ P.ρ0 * P.b02 = 0) := by
      intro hz
      unfold nondimTime at h
      simp only [hp, hso, if_true, Bool.false_eq_true, if_false, if_neg hC'] at h
      rw [if_pos hz] at h
      exact absurd h (by simp)
    have hD : dFluid a b ≠ 0 := fun hz => hdz (Or.inl hz)
    refine ⟨cFluid a b / dFluid a b, ?_, key (dFluid a b) _ rfl hD (fun hz => hdz (Or.inr (Or.inr (Or.inl hz)))) ?_⟩
    · rw [div_div_cancel₀ hC.ne']
      exact fluid_total a b
    · intro t
      unfold nondimTime
      simp only [hp, hso, if_true, Bool.false_eq_true, if_false, if_neg hC']
      rw [if_neg hdz, hpow _ hBn]
  · simp only [x, C, s, t1, hso, if_true] at hC hs key hpow hBn ⊢
    have hC' : ¬ cSolid (9 * m - u - 9) (6 * m - u - 6) ≤ 0 := not_le.2 hC
    have hdz : ¬ (dSolid a b = 0 ∨ P.n = 0 ∨ P.τ0 = 0 ∨ P.σY = 0) := by
      intro hz
      unfold nondimTime at h
      simp only [hp, hso, if_true, if_neg hC'] at h
      rw [if_pos hz] at h
      exact absurd h (by simp)
    have hD : dSolid a b ≠ 0 := fun hz => hdz (Or.inl hz)
    refine ⟨cSolid a b / dSolid a b, ?_, key (dSolid a b) _ rfl hD (fun hz => hdz (Or.inr (Or.inl hz))) ?_⟩
    · rw [div_div_cancel₀ hC.ne']
      exact solid_total a b
    · intro t
      unfold nondimTime
      simp only [hp, hso, if_true, if_neg hC']
      rw [if_neg hdz, hpow _ hBn]

/-! ### Cases -/

/-- A stretched state of unit volume. -/
def stretched : St := fun i => if i = 0 then 1 else if i = 5 then 3 else if i = 9 then 2 / 3 else if i = 13 then 1 / 2 else 0

theorem stretched_A : getA stretched = Matrix.diagonal ![3, 2 / 3, 1 / 2] := by
  ext i j
  fin_cases i <;> fin_cases j <;> simp [getA, stretched]

theorem stretched_svd : IsSVD (getA stretched) 1 1 ![3, 2 / 3, 1 / 2] := by
  rw [stretched_A]
  exact svd_diag _ (by intro i; fin_cases i <;> norm_num)

theorem stretched_det : (getA stretched).det = 1 := by
  rw [stretched_A, Matrix.det_diagonal, Fin.prod_univ_three]
  norm_num [at_two]

/-- A Newtonian fluid, a solid and a fluid with power laws in that state. -/
example (k : Fin 3) : ∃ P : Par, P.solid = (k == 1) ∧ P.powerLaw = (k != 0) ∧ 0 < (getA stretched).det ∧
    stretched 0 = P.ρ0 * (getA stretched).det ∧ 0 < P.ρ0 ∧ 0 < P.b02 ∧
    1e-12 < 2 * ((unitSquares ![3, 2 / 3, 1 / 2] 0 - unitMean ![3, 2 / 3, 1 / 2]) *
      (unitSquares ![3, 2 / 3, 1 / 2] 1 - unitMean ![3, 2 / 3, 1 / 2]) *
      (unitSquares ![3, 2 / 3, 1 / 2] 2 - unitMean ![3, 2 / 3, 1 / 2])) ∧
    1e-12 ≤ (invariants ![3, 2 / 3, 1 / 2]).2 ∧
    Follows P stretched (invariants ![3, 2 / 3, 1 / 2]).1 (invariants ![3, 2 / 3, 1 / 2]).2 := by
  have hus := unit_stretch 3 (2 / 3) (1 / 2) (by norm_num)
  have hiv := invariants_eq ![3, 2 / 3, 1 / 2]
  simp only [unitMean, hus, at_two] at hiv
  norm_num at hiv
  rw [stretched_det]
  have hD : 1e-12 < 2 * ((unitSquares ![3, 2 / 3, 1 / 2] 0 - unitMean ![3, 2 / 3, 1 / 2]) *
      (unitSquares ![3, 2 / 3, 1 / 2] 1 - unitMean ![3, 2 / 3, 1 / 2]) *
      (unitSquares ![3, 2 / 3, 1 / 2] 2 - unitMean ![3, 2 / 3, 1 / 2])) := by
    simp only [unitMean, hus, at_two]
    norm_num
  fin_cases k
  · refine ⟨samplePar sample, rfl, rfl, by norm_num, by norm_num [samplePar, sample, stretched], by norm_num [samplePar, sample],
      by norm_num [samplePar, sample], hD, by rw [hiv]; norm_num, Follows.newton rfl rfl rfl rfl (by norm_num [samplePar, sample])⟩
  · have hn := (norm_unit { samplePar sample with solid := true, powerLaw := true } stretched 1 1 ![3, 2 / 3, 1 / 2] stretched_svd
      (by rw [stretched_det]; norm_num) (by norm_num [stretched]) (by norm_num [cs2, samplePar, sample, stretched])).1
    refine ⟨{ samplePar sample with solid := true, powerLaw := true }, rfl, rfl, by norm_num,
      by norm_num [samplePar, sample, stretched], by norm_num [samplePar, sample],
      by norm_num [samplePar, sample], hD, by rw [hiv]; norm_num, Follows.solid rfl rfl (by norm_num [samplePar, sample])
        (by norm_num [samplePar, sample]) (by norm_num [samplePar, sample]) (by rw [hiv]; norm_num [dSolid]) ?_⟩
    rw [hn, hiv, stretched_det, cbrt_one]
    norm_num [stretched, cs2, samplePar, sample, cSolid]
    have h1 : Real.sqrt 10579737931 ≤ 1000000 := Real.sqrt_le_iff.2 ⟨by norm_num, by norm_num⟩
    have h2 : 1 ≤ Real.sqrt 104976 := Real.one_le_sqrt.2 (by norm_num)
    have h3 : Real.sqrt 10579737931 / Real.sqrt 104976 ≤ Real.sqrt 10579737931 := div_le_self (Real.sqrt_nonneg _) h2
    linarith
  · refine ⟨{ samplePar { sample with n := 2 } with powerLaw := true }, rfl, rfl, by norm_num,
      by norm_num [samplePar, sample, stretched], by norm_num [samplePar, sample],
      by norm_num [samplePar, sample], hD, by rw [hiv]; norm_num, Follows.power rfl rfl rfl (by norm_num [samplePar, sample])
        (by norm_num [samplePar, sample]) (by norm_num [samplePar, sample]) (by rw [hiv]; norm_num [dFluid])⟩

end

end Verif.Relax
