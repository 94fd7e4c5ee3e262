import Verif.Relax.Rk
import Verif.Sys.Jac

/-! # Source terms and reactions -/

namespace Verif.Relax

open Verif.Sys Verif.Iter Verif.Grid

noncomputable section

/-! ### The source vector -/

section
variable (c : Cfg) (P : Par) (rate : ℝ) (Q : St) (hv : c.viscous = true)
include hv

theorem mV_ge' : 14 ≤ c.mV := by simp [Cfg.mV, hv]

theorem mV_thermal' (ht : c.thermal = true) : c.mV = 17 := by simp [Cfg.mV, hv, ht]

/-- The source of every component. -/
theorem source_val (i : Nat) : source c P rate Q i =
    if h : 2 ≤ i ∧ i < 5 then P.δp ⟨i - 2, by omega⟩
    else if h : 5 ≤ i ∧ i < 14 then
      -(theta1inv P Q * dEdAs P.toParams Q ⟨(i - 5) / 3, by omega⟩ ⟨(i - 5) % 3, by omega⟩)
    else if h : c.thermal = true ∧ 14 ≤ i ∧ i < 17 then -Q 0 * dEdJ P.toParams Q ⟨i - 14, by omega⟩ * theta2inv c P Q
    else if P.reaction > -1 ∧ i = c.mV then -Q 0 * rate else 0 := by
  have h14 := mV_ge' c hv
  have hA : ∀ j k, (-dEdAs P.toParams Q * (theta1inv P Q • (1 : M3))) j k = -(theta1inv P Q * dEdAs P.toParams Q j k) := by
    intro j k
    rw [Matrix.mul_smul, Matrix.mul_one, Matrix.smul_apply, Matrix.neg_apply, smul_eq_mul]; ring
  have main : ∀ r : St, (∀ i, r i = if h : 2 ≤ i ∧ i < 5 then P.δp ⟨i - 2, by omega⟩
    else if h : 5 ≤ i ∧ i < 14 then
      -(theta1inv P Q * dEdAs P.toParams Q ⟨(i - 5) / 3, by omega⟩ ⟨(i - 5) % 3, by omega⟩)
    else if h : c.thermal = true ∧ 14 ≤ i ∧ i < 17 then -Q 0 * dEdJ P.toParams Q ⟨i - 14, by omega⟩ * theta2inv c P Q
    else 0) → (if P.reaction > -1 then setAt c.mV (-Q 0 * rate) r else r) i =
    if h : 2 ≤ i ∧ i < 5 then P.δp ⟨i - 2, by omega⟩
    else if h : 5 ≤ i ∧ i < 14 then
      -(theta1inv P Q * dEdAs P.toParams Q ⟨(i - 5) / 3, by omega⟩ ⟨(i - 5) % 3, by omega⟩)
    else if h : c.thermal = true ∧ 14 ≤ i ∧ i < 17 then -Q 0 * dEdJ P.toParams Q ⟨i - 14, by omega⟩ * theta2inv c P Q
    else if P.reaction > -1 ∧ i = c.mV then -Q 0 * rate else 0 := by
    intro r hr
    by_cases h : P.reaction > -1
    · simp only [h, if_true, true_and, setAt]
      by_cases hi : i = c.mV
      · have h3 : ¬ (c.thermal = true ∧ 14 ≤ i ∧ i < 17) := by
          rintro ⟨ht, _, _⟩
          have := mV_thermal' c hv ht
          omega
        rw [if_pos hi, dif_neg (by omega), dif_neg (by omega), dif_neg h3, if_pos hi]
      · rw [if_neg hi, hr, if_neg hi]
    · simp only [h, if_false, false_and]
      exact hr i
  unfold source
  simp only [hv, if_true]
  apply main
  intro i
  by_cases h1 : i < 2
  · have : i = 0 ∨ i = 1 := by omega
    rcases this with h | h <;> subst h <;> by_cases ht : c.thermal = true <;> simp [setA, setSeg, setAt, ht]
  by_cases h2 : i < 17
  · have : i = 2 ∨ i = 3 ∨ i = 4 ∨ i = 5 ∨ i = 6 ∨ i = 7 ∨ i = 8 ∨ i = 9 ∨ i = 10 ∨ i = 11 ∨ i = 12 ∨ i = 13 ∨ i = 14 ∨
      i = 15 ∨ i = 16 := by omega
    rcases this with h | h | h | h | h | h | h | h | h | h | h | h | h | h | h <;> subst h <;>
      by_cases ht : c.thermal = true <;> simp [setA, setSeg, setAt, ht, hA]
  · rw [dif_neg (by omega), dif_neg (by omega), dif_neg (by omega)]
    by_cases ht : c.thermal = true <;>
      simp only [setA, setSeg, setAt, ht, if_true, if_false, Bool.false_eq_true] <;> repeat (first | rw [if_neg (by omega)] | rfl)

/-- No mass and no energy is created, momentum by the pressure gradient only, and the level sets do not move. -/
theorem source_conserved : source c P rate Q 0 = 0 ∧ source c P rate Q 1 = 0 ∧ getRv (source c P rate Q) = P.δp ∧
    ∀ i, c.mV < i → source c P rate Q i = 0 := by
  have h14 := mV_ge' c hv
  refine ⟨?_, ?_, ?_, ?_⟩
  · rw [source_val c P rate Q hv, dif_neg (by omega), dif_neg (by omega), dif_neg (by omega), if_neg (by omega)]
  · rw [source_val c P rate Q hv, dif_neg (by omega), dif_neg (by omega), dif_neg (by omega), if_neg (by omega)]
  · funext i
    simp only [getRv]
    rw [source_val c P rate Q hv, dif_pos (by omega)]
    congr 1
    ext
    simp
  · intro i hi
    have h3 : ¬ (c.thermal = true ∧ 14 ≤ i ∧ i < 17) := by
      rintro ⟨ht, _, _⟩
      have := mV_thermal' c hv ht
      omega
    rw [source_val c P rate Q hv, dif_neg (by omega), dif_neg (by omega), dif_neg h3, if_neg (by omega)]

theorem source_getA : getA (source c P rate Q) = (-theta1inv P Q) • dEdAs P.toParams Q := by
  ext i j
  simp only [getA, Matrix.of_apply]
  rw [source_val c P rate Q hv, dif_neg (by omega), dif_pos (by omega), Matrix.smul_apply, smul_eq_mul, neg_mul]
  congr 3 <;> ext <;> simp <;> omega

theorem source_getRJ (ht : c.thermal = true) (i : Fin 3) : source c P rate Q (14 + i) =
    -Q 0 * dEdJ P.toParams Q i * theta2inv c P Q := by
  rw [source_val c P rate Q hv, dif_neg (by omega), dif_neg (by omega), dif_pos ⟨ht, by omega, by omega⟩]
  congr 3
  ext
  simp

theorem source_mV (hr : P.reaction > -1) : source c P rate Q c.mV = -Q 0 * rate := by
  have h14 := mV_ge' c hv
  have h3 : ¬ (c.thermal = true ∧ 14 ≤ c.mV ∧ c.mV < 17) := by
    rintro ⟨ht, _, _⟩
    have := mV_thermal' c hv ht
    omega
  rw [source_val c P rate Q hv, dif_neg (by omega), dif_neg (by omega), dif_neg h3, if_pos ⟨hr, rfl⟩]

end

/-- The determinant along a curve of matrices. -/
theorem hasDeriv_det {A : ℝ → M3} {A' : M3} {t : ℝ} (hA : MDeriv A A' t) :
    HasDerivAt (fun s => (A s).det) ((A t).adjugate * A').trace t := by
  simp only [Matrix.det_fin_three]
  refine (((((((hA 0 0).mul (hA 1 1)).mul (hA 2 2)).sub (((hA 0 0).mul (hA 1 2)).mul (hA 2 1))).sub
    (((hA 0 1).mul (hA 1 0)).mul (hA 2 2))).add (((hA 0 1).mul (hA 1 2)).mul (hA 2 0))).add
    (((hA 0 2).mul (hA 1 0)).mul (hA 2 1))).sub (((hA 0 2).mul (hA 1 1)).mul (hA 2 0)) |>.congr_deriv ?_
  simp only [Matrix.trace_fin_three, Matrix.mul_apply, Fin.sum_univ_three, Matrix.adjugate_fin_three, Pi.mul_apply]
  simp
  ring

/-- The relaxation source of the distortion leaves the density ratio alone: along every curve of states moving with the
source, `det A` is stationary. -/
theorem source_det (c : Cfg) (P : Par) (rate : ℝ) (q : ℝ → St) (t : ℝ) (hv : c.viscous = true)
    (h : Along q (source c P rate (q t)) t) : HasDerivAt (fun s => (getA (q s)).det) 0 t := by
  refine (hasDeriv_det h.getA).congr_deriv ?_
  rw [source_getA c P rate (q t) hv, dEdAs, AdevG_eq]
  rw [Matrix.mul_smul, Matrix.mul_smul, ← Matrix.mul_assoc, Matrix.adjugate_mul, Matrix.smul_mul, Matrix.one_mul]
  simp only [Matrix.trace_smul]
  have : (dev ((getA (q t)).transpose * getA (q t))).trace = 0 := by
    simp only [Matrix.trace_fin_three, dev, Matrix.of_apply]
    simp
    ring
  rw [this]; simp

/-- Relaxation rates are not negative for materials with positive constants. -/
theorem theta1inv_nonneg (P : Par) (Q : St) (hρ : 0 < Q 0) (h0 : 0 < P.ρ0) (hd : 0 < (getA Q).det) (hb : 0 ≤ P.b02)
    (hτ : 0 < P.τ0) (hσ : 0 < P.σY) (hμ : 0 < P.μ) : 0 ≤ theta1inv P Q := by
  have hA : 0 ≤ (getA Q).det ^ (5 / 3 : ℝ) := Real.rpow_nonneg hd.le _
  have hc : 0 ≤ cs2 P.toParams (Q 0) := mul_nonneg hb (Real.rpow_nonneg (by positivity) _)
  have hs : 0 ≤ sigmaNorm (sigma P.toParams Q) := Real.sqrt_nonneg _
  unfold theta1inv
  simp only
  split_ifs with h1 h2 h3 h4 h5
  · exact mul_nonneg (by positivity) (Real.rpow_nonneg (div_nonneg (le_min hs (by norm_num)) hσ.le) _)
  · exact le_rfl
  · refine mul_nonneg (by positivity) ?_
    have h := lt_trans hσ h4
    rw [sub_nonneg, div_le_one h]
    exact h4.le
  · exact le_rfl
  · exact mul_nonneg (div_nonneg (by positivity) (mul_nonneg (by norm_num) (Real.rpow_nonneg hμ.le _)))
      (Real.rpow_nonneg (by positivity) _)
  · exact div_nonneg (by positivity) (mul_nonneg (by norm_num) (Real.rpow_nonneg hμ.le _))

/-- The rate of change of the specific internal energy under the source term: viscous heating, heating by the decay of the
heat flux, heat of reaction, and minus the work of the imposed pressure gradient, which the energy equation omits. -/
theorem source_heating (c : Cfg) (P : Par) (rate : ℝ) (q : ℝ → St) (t : ℝ) (hv : c.viscous = true)
    (h : Along q (source c P rate (q t)) t) (hR : Regular P.toParams (q t 0))
    (hΓ : gammaMG P.toParams (q t 0) ≠ 0) :
    HasDerivAt (fun s => internalEnergy c P (q s))
      (-(∑ i, vel (q t) i * P.δp i) / q t 0 +
        theta1inv P (q t) * C0 P.toParams (q t 0) * cs2 P.toParams (q t 0) * (∑ i, ∑ j, AdevG (getA (q t)) i j ^ 2) +
        (if c.thermal then theta2inv c P (q t) * P.cα2 ^ 2 * ∑ i, (getRJ (q t) i / q t 0) ^ 2 else 0) +
        (if P.reaction > -1 then P.Qc * rate else 0)) t := by
  refine (hasDeriv_internalEnergy c P q _ t h hR hΓ).congr_deriv ?_
  have hρ := hR.pos.ne'
  obtain ⟨h0, h1, h2, -⟩ := source_conserved c P rate (q t) hv
  have g0 := congrFun h2 0
  have g1 := congrFun h2 1
  have g2 := congrFun h2 2
  simp only [getRv, Fin.isValue, Fin.val_zero, Fin.val_one, Fin.val_two, Nat.add_zero, Nat.reduceAdd] at g0 g1 g2
  simp only [h0, h1, g0, g1, g2, source_getA c P rate (q t) hv, hv, if_true]
  have e3 : (if P.reaction > -1 then P.Qc * (source c P rate (q t) c.mV - q t c.mV / q t 0 * 0) / q t 0 else 0) =
      -(if P.reaction > -1 then P.Qc * rate else 0) := by
    by_cases hr : P.reaction > -1
    · rw [if_pos hr, if_pos hr, source_mV c P rate (q t) hv hr]; field_simp; ring
    · rw [if_neg hr, if_neg hr]; simp
  rw [e3]
  have e2 : (if c.thermal = true then P.cα2 * (q t 14 / q t 0 * (source c P rate (q t) 14 - q t 14 / q t 0 * 0) +
      q t 15 / q t 0 * (source c P rate (q t) 15 - q t 15 / q t 0 * 0) +
      q t 16 / q t 0 * (source c P rate (q t) 16 - q t 16 / q t 0 * 0)) / q t 0 else 0) =
      -(if c.thermal = true then theta2inv c P (q t) * P.cα2 ^ 2 * ∑ i, (getRJ (q t) i / q t 0) ^ 2 else 0) := by
    by_cases ht : c.thermal = true
    · rw [if_pos ht, if_pos ht]
      have k0 := source_getRJ c P rate (q t) hv ht 0
      have k1 := source_getRJ c P rate (q t) hv ht 1
      have k2 := source_getRJ c P rate (q t) hv ht 2
      simp only [Fin.isValue, Fin.val_zero, Fin.val_one, Fin.val_two, Nat.add_zero, Nat.reduceAdd] at k0 k1 k2
      rw [k0, k1, k2]
      simp only [Fin.sum_univ_three, dEdJ, getRJ, Fin.isValue, Fin.val_zero, Fin.val_one, Fin.val_two, Nat.add_zero,
        Nat.reduceAdd]
      field_simp
      ring
    · rw [if_neg ht, if_neg ht]; simp
  rw [e2]
  simp only [Fin.sum_univ_three, dEdA, dEdAs, Matrix.smul_apply, smul_eq_mul]
  ring

/-- **C63.** Without body force and reaction the source only heats. -/
theorem source_dissipates (c : Cfg) (P : Par) (rate : ℝ) (q : ℝ → St) (t : ℝ) (hv : c.viscous = true)
    (h : Along q (source c P rate (q t)) t) (hR : Regular P.toParams (q t 0))
    (hΓ : gammaMG P.toParams (q t 0) ≠ 0) (hδ : P.δp = 0) (hr : ¬ P.reaction > -1)
    (hd : 0 < (getA (q t)).det) (hb : 0 ≤ P.b02) (hτ : 0 < P.τ0) (hσ : 0 < P.σY) (hμ : 0 < P.μ)
    (hC : 0 ≤ C0 P.toParams (q t 0)) (hT : 0 ≤ temperature c P (q t)) (hκ : 0 < P.κ) :
    ∃ e' ≥ 0, HasDerivAt (fun s => internalEnergy c P (q s)) e' t := by
  refine ⟨_, ?_, source_heating c P rate q t hv h hR hΓ⟩
  have hρ := hR.pos
  have h1 := theta1inv_nonneg P (q t) hρ hR.ref_pos hd hb hτ hσ hμ
  have h2 : 0 ≤ theta2inv c P (q t) := div_nonneg hT (by positivity)
  have hc : 0 ≤ cs2 P.toParams (q t 0) := mul_nonneg hb (Real.rpow_nonneg (by have := hR.ref_pos; positivity) _)
  rw [if_neg hr, hδ]
  simp only [Pi.zero_apply, mul_zero, Finset.sum_const_zero, neg_zero, zero_div, zero_add, add_zero]
  refine add_nonneg (by positivity) ?_
  split_ifs <;> positivity

/-- Through every state runs a curve moving with the source. -/
theorem source_curve (c : Cfg) (P : Par) (rate : ℝ) (Q : St) :
    ∃ q : ℝ → St, q 0 = Q ∧ Along q (source c P rate (q 0)) 0 := by
  refine ⟨fun s i => Q i + s * source c P rate Q i, by funext i; simp, fun i => ?_⟩
  have : (fun i => Q i + 0 * source c P rate Q i) = Q := by funext i; simp
  beta_reduce
  rw [this]
  exact (((hasDerivAt_id (0 : ℝ)).mul_const _).const_add _).congr_deriv (by simp)

/-- A state with a simple shear. -/
def shearState : St := fun i =>
  if i = 0 then 1 else if i = 1 then 5 else if i = 5 ∨ i = 9 ∨ i = 13 then 1 else if i = 6 then 1 else 0

/-- A sheared state of the sample material meets the hypotheses, and its distortion is not in equilibrium. -/
example : ∃ q : ℝ → St, ∃ P : Par, Along q (source (cfgOf false) P 0 (q 0)) 0 ∧
    Regular P.toParams (q 0 0) ∧ gammaMG P.toParams (q 0 0) ≠ 0 ∧
    0 < (getA (q 0)).det ∧ AdevG (getA (q 0)) 0 1 ≠ 0 ∧ 0 < C0 P.toParams (q 0 0) ∧
    0 ≤ temperature (cfgOf false) P (q 0) ∧ P.δp = 0 ∧ ¬ P.reaction > -1 ∧ 0 < P.κ ∧ 0 < P.μ ∧ 0 < P.τ0 ∧
    0 < P.σY ∧ 0 ≤ P.b02 := by
  obtain ⟨q, hq, h⟩ := source_curve (cfgOf false) (samplePar { sample with β := 0 }) 0 shearState
  refine ⟨q, samplePar { sample with β := 0 }, h, ?_⟩
  rw [hq]
  have h0 : shearState 0 = 1 := by simp [shearState]
  rw [h0]
  refine ⟨⟨by norm_num [sample, samplePar], by norm_num, by simp [sample, samplePar], by simp [sample, samplePar],
    by simp [sample, samplePar], by simp [sample, samplePar]⟩, by norm_num [gammaMG, sample, samplePar], ?_, ?_,
    by norm_num [C0, cs2, sample, samplePar], ?_, rfl, by norm_num [samplePar], by norm_num [sample, samplePar],
    by norm_num [sample, samplePar], by norm_num [sample, samplePar], by norm_num [sample, samplePar],
    by norm_num [sample, samplePar]⟩
  · norm_num [Matrix.det_fin_three, getA, shearState,
      show (2 : Fin 3) ≠ 0 by decide, show ((2 : Fin 3) : Nat) = 2 by rfl]
  · norm_num [AdevG_eq, dev, getA, shearState, Matrix.mul_apply, Fin.sum_univ_three,
      show (2 : Fin 3) ≠ 0 by decide, show (2 : Fin 3) ≠ 1 by decide, show ((2 : Fin 3) : Nat) = 2 by rfl]
  · norm_num [temperature, temperatureMG, phi, pRef, pressure, pressureMG, eRef, gammaMG, internalEnergy, E3, vel, getRv,
      sq3, E2A, C0, cs2, devGsq, dot3, getA, samplePar, sample, cfgOf, h0, show (2 : Fin 3) ≠ 0 by decide]
    norm_num [shearState, show ((2 : Fin 3) : Nat) = 2 by rfl]

end

end Verif.Relax
