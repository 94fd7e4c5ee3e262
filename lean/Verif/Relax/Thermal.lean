import Verif.Relax.Source

/-! # Relaxation of the thermal impulse -/

namespace Verif.Relax

open Verif.Sys Verif.Iter Verif.Grid

noncomputable section

/-- The energy that is neither kinetic nor elastic, per mass: internal energy plus the energy of the heat flux. -/
def restEnergy (P : Par) (Q : St) : ℝ := Q 1 / Q 0 - E2A P.toParams (Q 0) (getA Q) - E3 (vel Q)

/-- The factor `k` of analytic.cpp:143. -/
def rate2 (P : Par) (Q : St) : ℝ := 2 * P.cα2 / (P.κ * Q 0 * P.cv)

theorem thermal_other (P : Par) (dt : ℝ) (Q : St) (i : Nat) (hi : ¬ (14 ≤ i ∧ i < 17)) : relaxThermal P dt Q i = Q i :=
  by unfold relaxThermal; exact setSeg_out _ _ _ _ (by omega)

/-- The factor by which the thermal impulse shrinks. -/
def shrink (P : Par) (Q : St) (t : ℝ) : ℝ :=
  Real.exp (-(restEnergy P Q * rate2 P Q) * t / 2) /
    Real.sqrt (1 - (P.cα2 / 2 * rate2 P Q) / (restEnergy P Q * rate2 P Q) *
      (1 - Real.exp (-(restEnergy P Q * rate2 P Q) * t / 2) * Real.exp (-(restEnergy P Q * rate2 P Q) * t / 2)) *
        sq3 (getRJ Q) / (Q 0 * Q 0))

theorem thermal_J (P : Par) (dt : ℝ) (Q : St) : getRJ (relaxThermal P dt Q) = fun i => getRJ Q i * shrink P Q dt := by
  funext i
  fin_cases i <;> simp [getRJ, relaxThermal, setSeg, setAt, shrink, restEnergy, rate2]

theorem thermal_A (P : Par) (dt : ℝ) (Q : St) : getA (relaxThermal P dt Q) = getA Q := by
  ext i j
  simp only [getA, Matrix.of_apply]
  exact thermal_other P dt Q _ (by omega)

theorem thermal_rest (P : Par) (dt : ℝ) (Q : St) :
    restEnergy P (relaxThermal P dt Q) = restEnergy P Q := by
  have hv : vel (relaxThermal P dt Q) = vel Q := by
    funext i
    simp only [vel, getRv]
    rw [thermal_other P dt Q _ (by omega), thermal_other P dt Q 0 (by omega)]
  unfold restEnergy
  rw [thermal_A, hv, thermal_other P dt Q 0 (by omega), thermal_other P dt Q 1 (by omega)]

/-- Over no time nothing happens. -/
theorem thermal_zero (P : Par) (Q : St) : relaxThermal P 0 Q = Q := by
  funext i
  by_cases hi : 14 ≤ i ∧ i < 17
  · have := congrFun (thermal_J P 0 Q) ⟨i - 14, by omega⟩
    simp only [getRJ, show 14 + (i - 14) = i by omega] at this
    rw [this]
    simp [shrink]
  · exact thermal_other P 0 Q i hi

/-- The shrinking factor solves the Bernoulli equation. -/
theorem shrink_ode (f : ℝ → ℝ) (a b r t : ℝ) (ha : a ≠ 0) (hf : f = fun t => Real.exp (-a * t / 2) /
      Real.sqrt (1 - b / a * (1 - Real.exp (-a * t / 2) * Real.exp (-a * t / 2)) * r))
    (hden : 0 < 1 - b / a * (1 - Real.exp (-a * t / 2) * Real.exp (-a * t / 2)) * r) :
    HasDerivAt f (-(a - b * r * (f t * f t)) / 2 * f t) t := by
  subst hf
  have he : HasDerivAt (fun t => Real.exp (-a * t / 2)) (Real.exp (-a * t / 2) * (-a / 2)) t := by
    have := (((hasDerivAt_id t).const_mul (-a)).div_const 2).exp
    simpa using this
  have hd : HasDerivAt (fun t => 1 - b / a * (1 - Real.exp (-a * t / 2) * Real.exp (-a * t / 2)) * r)
      (-(b * r * (Real.exp (-a * t / 2) * Real.exp (-a * t / 2)))) t := by
    refine ((((((he.mul he).const_sub 1).const_mul (b / a)).mul_const r).const_sub 1)).congr_deriv ?_
    field_simp
    ring
  have hs := hd.sqrt hden.ne'
  have hsp := Real.sqrt_pos.mpr hden
  refine (he.div hs hsp.ne').congr_deriv ?_
  have hsq := Real.mul_self_sqrt hden.le
  beta_reduce
  generalize Real.sqrt (1 - b / a * (1 - Real.exp (-a * t / 2) * Real.exp (-a * t / 2)) * r) = w at *
  generalize Real.exp (-a * t / 2) = e at *
  field_simp
  ring

/-- The rate at which the thermal impulse moves as the step grows: that of the source term with the internal energy over
`cv` in place of the temperature. -/
theorem thermal_deriv (c : Cfg) (P : Par) (Q : St) (hv : c.viscous = true) (ht : c.thermal = true)
    (hr : ¬ P.reaction > -1) (hρ : 0 < Q 0) (hα : 0 < P.cα2) (hκ : 0 < P.κ) (hcv : 0 < P.cv)
    (hpos : 0 < internalEnergy c P Q) (t : ℝ) (h0 : 0 ≤ t) (i : Fin 3) :
    HasDerivAt (fun t => relaxThermal P t Q (14 + i)) (-Q 0 * dEdJ P.toParams (relaxThermal P t Q) i *
      (internalEnergy c P (relaxThermal P t Q) / P.cv / (P.κ * Q 0))) t := by
  have hie : ∀ R : St, internalEnergy c P R = restEnergy P R - P.cα2 / 2 * (sq3 (getRJ R) / (R 0 * R 0)) := by
    intro R
    unfold internalEnergy restEnergy
    rw [if_pos hv, if_pos ht, if_neg hr]
    have : E2J P.toParams (fun i => getRJ R i / R 0) = P.cα2 / 2 * (sq3 (getRJ R) / (R 0 * R 0)) := by
      simp only [E2J, sq3]
      by_cases h : R 0 = 0
      · simp [h]
      · field_simp
    rw [this]; ring
  have hk : 0 < rate2 P Q := by unfold rate2; positivity
  have hr0 : 0 ≤ sq3 (getRJ Q) / (Q 0 * Q 0) := div_nonneg
    (add_nonneg (add_nonneg (mul_self_nonneg _) (mul_self_nonneg _)) (mul_self_nonneg _)) (mul_self_nonneg _)
  have hB : P.cα2 / 2 * (sq3 (getRJ Q) / (Q 0 * Q 0)) < restEnergy P Q := by
    rw [hie] at hpos
    linarith
  have hBp : 0 < restEnergy P Q := lt_of_le_of_lt (mul_nonneg (by positivity) hr0) hB
  have ha : 0 < restEnergy P Q * rate2 P Q := by positivity
  have hden : 0 < 1 - (P.cα2 / 2 * rate2 P Q) / (restEnergy P Q * rate2 P Q) *
      (1 - Real.exp (-(restEnergy P Q * rate2 P Q) * t / 2) * Real.exp (-(restEnergy P Q * rate2 P Q) * t / 2)) *
        (sq3 (getRJ Q) / (Q 0 * Q 0)) := by
    have he : Real.exp (-(restEnergy P Q * rate2 P Q) * t / 2) ≤ 1 := by
      rw [Real.exp_le_one_iff]
      have := mul_nonneg ha.le h0
      linarith
    have hep := Real.exp_pos (-(restEnergy P Q * rate2 P Q) * t / 2)
    generalize Real.exp (-(restEnergy P Q * rate2 P Q) * t / 2) = e at *
    have h1 : (P.cα2 / 2 * rate2 P Q) / (restEnergy P Q * rate2 P Q) * (sq3 (getRJ Q) / (Q 0 * Q 0)) < 1 := by
      rw [mul_div_mul_right _ _ hk.ne', div_mul_eq_mul_div, div_lt_one hBp]
      exact hB
    have h2 : 0 ≤ (P.cα2 / 2 * rate2 P Q) / (restEnergy P Q * rate2 P Q) * (sq3 (getRJ Q) / (Q 0 * Q 0)) :=
      mul_nonneg (by positivity) hr0
    have h3 : 0 < e * e := by positivity
    nlinarith
  have hsh : shrink P Q = fun t => Real.exp (-(restEnergy P Q * rate2 P Q) * t / 2) /
      Real.sqrt (1 - (P.cα2 / 2 * rate2 P Q) / (restEnergy P Q * rate2 P Q) *
      (1 - Real.exp (-(restEnergy P Q * rate2 P Q) * t / 2) * Real.exp (-(restEnergy P Q * rate2 P Q) * t / 2)) *
        (sq3 (getRJ Q) / (Q 0 * Q 0))) := by
    funext t; unfold shrink; simp only [mul_div_assoc]
  have hode := shrink_ode (shrink P Q) (restEnergy P Q * rate2 P Q) (P.cα2 / 2 * rate2 P Q)
    (sq3 (getRJ Q) / (Q 0 * Q 0)) t ha.ne' hsh hden
  have hval : ∀ t, relaxThermal P t Q (14 + i) = getRJ Q i * shrink P Q t := fun t => congrFun (thermal_J P t Q) i
  simp only [hval]
  refine (hode.const_mul (getRJ Q i)).congr_deriv ?_
  rw [hie, thermal_rest, thermal_other P t Q 0 (by omega)]
  have e1 : dEdJ P.toParams (relaxThermal P t Q) i = P.cα2 * (getRJ Q i * shrink P Q t) / Q 0 := by
    unfold dEdJ
    rw [thermal_J, thermal_other P t Q 0 (by omega)]
  have e2 : sq3 (getRJ (relaxThermal P t Q)) = sq3 (getRJ Q) * (shrink P Q t * shrink P Q t) := by
    rw [thermal_J]; simp only [sq3]; ring
  rw [e1, e2]
  generalize shrink P Q t = f
  unfold rate2
  field_simp

/-- **C65.** For a material whose temperature is its internal energy over `cv`, the thermal solver follows the source term
exactly: its result, as a function of the step length, starts at the given state and moves with the thermal part of
`source`, if the initial temperature is positive. -/
theorem thermal_exact (c : Cfg) (P : Par) (rate : ℝ) (Q : St) (hv : c.viscous = true) (ht : c.thermal = true)
    (hr : ¬ P.reaction > -1) (hT : ∀ R : St, R 0 ≠ 0 → temperature c P R = internalEnergy c P R / P.cv)
    (hρ : 0 < Q 0) (hα : 0 < P.cα2) (hκ : 0 < P.κ) (hcv : 0 < P.cv) (hpos : 0 < temperature c P Q) (t : ℝ) (h0 : 0 ≤ t) :
    relaxThermal P 0 Q = Q ∧
    (∀ i, ¬ (14 ≤ i ∧ i < 17) → relaxThermal P t Q i = Q i) ∧
    ∀ i : Fin 3, HasDerivAt (fun t => relaxThermal P t Q (14 + i)) (source c P rate (relaxThermal P t Q) (14 + i)) t := by
  refine ⟨thermal_zero P Q, fun i hi => thermal_other P t Q i hi, fun i => ?_⟩
  rw [hT Q hρ.ne'] at hpos
  have := thermal_deriv c P Q hv ht hr hρ hα hκ hcv ((div_pos_iff_of_pos_right hcv).mp hpos) t h0 i
  have e0 : relaxThermal P t Q 0 = Q 0 := thermal_other P t Q 0 (by omega)
  rwa [source_getRJ c P rate _ hv ht, theta2inv, hT _ (by rw [e0]; exact hρ.ne'), e0]

/-- The temperature of an ideal gas is its internal energy over `cv`. -/
theorem ideal_temperature (c : Cfg) (P : Par) (hm : P.multi = false) (he : P.eos = .stiffenedGas) (hp : P.pINF = 0)
    (hTr : P.Tref = 0) (hγ : P.γ ≠ 1) (R : St) (hR : R 0 ≠ 0) :
    temperature c P R = internalEnergy c P R / P.cv := by
  have hΓ : P.γ - 1 ≠ 0 := sub_ne_zero.mpr hγ
  simp only [temperature, temperatureMG, pressure, hm, pressureMG, gammaMG, pRef, eRef, he, hp, hTr, Bool.false_eq_true,
    if_false]
  by_cases hc : P.cv = 0
  · simp [hc]
  · field_simp
    ring

/-- Options with heat conduction. -/
def cfgThermal : Cfg := ⟨true, true, false, 2, fun _ _ _ _ => (0, 0)⟩

/-- A state at rest with a heat flux. -/
def fluxState : St := fun i => if i = 0 then 1 else if i = 1 then 5 else if i = 5 ∨ i = 9 ∨ i = 13 ∨ i = 14 then 1 else 0

theorem flux_energy (P : Par) (hr : ¬ P.reaction > -1) : internalEnergy cfgThermal P fluxState = 5 - P.cα2 / 2 := by
  have h3 : E3 (vel fluxState) = 0 := by simp [E3, sq3, vel, getRv, fluxState]
  have h4 : devGsq (getA fluxState) = 0 := by
    simp [devGsq, getA, dot3, fluxState]; norm_num
  have h5 : sq3 (fun i => getRJ fluxState i / fluxState 0) = 1 := by simp [sq3, getRJ, fluxState]
  unfold internalEnergy
  rw [if_neg hr, h3]
  simp only [cfgThermal, if_true, E2A, h4, E2J, h5]
  norm_num [fluxState]

/-- The hypotheses hold for an ideal gas that conducts heat. -/
example : ∃ (P : Par) (Q : St), cfgThermal.viscous = true ∧ cfgThermal.thermal = true ∧ ¬ P.reaction > -1 ∧
    (∀ R : St, R 0 ≠ 0 → temperature cfgThermal P R = internalEnergy cfgThermal P R / P.cv) ∧ 0 < Q 0 ∧ 0 < P.cα2 ∧
    0 < P.κ ∧ 0 < P.cv ∧ 0 < temperature cfgThermal P Q ∧ getRJ Q 0 ≠ 0 := by
  have hT := ideal_temperature cfgThermal (samplePar sample) rfl rfl rfl rfl (by norm_num [samplePar, sample])
  have h0 : fluxState 0 = 1 := by norm_num [fluxState]
  refine ⟨samplePar sample, fluxState, rfl, rfl, by norm_num [samplePar], hT, by rw [h0]; norm_num,
    by norm_num [samplePar, sample], by norm_num [samplePar, sample], by norm_num [samplePar, sample], ?_,
    by norm_num [getRJ, fluxState]⟩
  rw [hT _ (by rw [h0]; norm_num), flux_energy _ (by norm_num [samplePar])]
  norm_num [samplePar, sample]

/-- **C65 fails** for other equations of state: a stiffened gas with nonzero `pINF` starts to relax at the wrong rate. -/
theorem thermal_exact_false : ∃ (P : Par) (Q : St), ¬ P.reaction > -1 ∧ 0 < Q 0 ∧ 0 < temperature cfgThermal P Q ∧
    0 < P.cα2 ∧ 0 < P.κ ∧ 0 < P.cv ∧
    ∀ rate, ¬ HasDerivAt (fun t => relaxThermal P t Q (14 + (0 : Fin 3)))
      (source cfgThermal P rate (relaxThermal P 0 Q) (14 + (0 : Fin 3))) 0 := by
  have h0 : fluxState 0 = 1 := by norm_num [fluxState]
  have hT : temperature cfgThermal (samplePar { sample with pINF := 1 }) fluxState = 5 - 1 / 2 - 1 := by
    have he := flux_energy (samplePar { sample with pINF := 1 }) (by norm_num [samplePar])
    rw [temperature, pressure, if_neg (by simp [samplePar]), he, h0]
    simp only [temperatureMG, pressureMG, phi, gammaMG, eRef, pRef, samplePar, sample]
    norm_num
  refine ⟨samplePar { sample with pINF := 1 }, fluxState, by norm_num [samplePar], by rw [h0]; norm_num, by rw [hT]; norm_num,
    by norm_num [samplePar, sample], by norm_num [samplePar, sample], by norm_num [samplePar, sample], fun rate h => ?_⟩
  have h' := thermal_deriv cfgThermal (samplePar { sample with pINF := 1 }) fluxState rfl rfl (by norm_num [samplePar])
    (by rw [h0]; norm_num) (by norm_num [samplePar, sample]) (by norm_num [samplePar, sample])
    (by norm_num [samplePar, sample]) (by rw [flux_energy _ (by norm_num [samplePar])]; norm_num [samplePar, sample]) 0
    le_rfl 0
  have := h.unique h'
  rw [source_getRJ _ _ _ _ rfl rfl, thermal_zero, theta2inv, hT, flux_energy _ (by norm_num [samplePar]), h0] at this
  norm_num [samplePar, sample, dEdJ, getRJ, fluxState] at this

end

end Verif.Relax
