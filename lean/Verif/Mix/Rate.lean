import Verif.Mix.Props
import Verif.Sys.JacM

/-!
# C81: the derivatives of the energy of a mixture
-/

namespace Verif.Mix

open Verif.Sys

theorem hasDeriv_E1 (P : Params) (r p : ℝ → ℝ) (r' p' t : ℝ) (hr : HasDerivAt r r' t) (hp : HasDerivAt p p' t)
    (h : Regular P (r t)) (hΓ : gammaMG P (r t) ≠ 0) :
    HasDerivAt (fun s => E1 P (r s) (p s)) (dedrho P (r t) (p t) * r' + dedp P (r t) * p') t := by
  have h1 := (hasDeriv_eRef P (r t) h).comp t hr
  have h2 := (hasDeriv_gammaMG P (r t) h.pos.ne').comp t hr
  have h3 := (hasDeriv_pRef P (r t) h).comp t hr
  have hρ := h.pos
  unfold E1 dedrho dedp
  refine (h1.add ((hp.sub h3).div (hr.mul h2) (mul_ne_zero hρ.ne' hΓ))).congr_deriv ?_
  simp only [Function.comp, Pi.mul_apply, Pi.sub_apply]
  field_simp
  ring

/-- `c` of `dEdρ`, derivatives.cpp:31. -/
noncomputable def slope (P1 P2 : Params) (lam p ρ1 ρ2 : ℝ) : ℝ :=
  lam / (ρ1 * ρ1) * dTdrho P2 ρ2 p + (1 - lam) / (ρ2 * ρ2) * dTdrho P1 ρ1 p

/-- What `dEdp` leaves out: the densities of the phases change with the pressure. -/
noncomputable def missing (P1 P2 : Params) (lam p ρ1 ρ2 : ℝ) : ℝ :=
  lam * (1 - lam) * (dTdp P2 ρ2 - dTdp P1 ρ1) / slope P1 P2 lam p ρ1 ρ2 *
    (dedrho P1 ρ1 p / (ρ2 * ρ2) - dedrho P2 ρ2 p / (ρ1 * ρ1))

/-- **C81.** The rate of change of the energy along any curve of mixtures in equilibrium of constant composition and
distortion. -/
theorem mixture_rate (c : Cfg) (P : Par) (Q : St) (hm : P.multi = true) (r p r1 r2 : ℝ → ℝ) (r' p' r1' r2' t : ℝ)
    (hr : HasDerivAt r r' t) (hp : HasDerivAt p p' t) (hr1 : HasDerivAt r1 r1' t) (hr2 : HasDerivAt r2 r2' t)
    (hvol : ∀ s, Q c.mV / Q 0 / r1 s + (1 - Q c.mV / Q 0) / r2 s = 1 / r s)
    (htem : ∀ s, temperatureMG P.toParams (r1 s) (p s) = temperatureMG P.mp2 (r2 s) (p s))
    (hQ : Q 0 = r t) (hsol : solveMulti c P Q = (p t, r1 t, r2 t)) (hR : Regular P.toParams (Q 0))
    (hΓ : gammaMG P.toParams (Q 0) ≠ 0) (hR1 : Regular P.toParams (r1 t)) (hR2 : Regular P.mp2 (r2 t))
    (hg1 : gammaMG P.toParams (r1 t) ≠ 0) (hg2 : gammaMG P.mp2 (r2 t) ≠ 0) (hc1 : P.cv ≠ 0) (hc2 : P.mp2.cv ≠ 0)
    (hT1 : P.Tref = 0) (hT2 : P.mp2.Tref = 0)
    (hk : slope P.toParams P.mp2 (Q c.mV / Q 0) (p t) (r1 t) (r2 t) ≠ 0) :
    HasDerivAt (fun s => Q c.mV / Q 0 * E1 P.toParams (r1 s) (p s) + (1 - Q c.mV / Q 0) * E1 P.mp2 (r2 s) (p s) +
        E2A P.toParams (r s) (getA Q))
      (dEdrho c P Q * r' + (dEdp c P Q + missing P.toParams P.mp2 (Q c.mV / Q 0) (p t) (r1 t) (r2 t)) * p') t := by
  set lam := Q c.mV / Q 0 with hlam
  have e1 := hasDeriv_E1 P.toParams r1 p r1' p' t hr1 hp hR1 hg1
  have e2 := hasDeriv_E1 P.mp2 r2 p r2' p' t hr2 hp hR2 hg2
  have t1 := hasDeriv_temperature P.toParams r1 p r1' p' t hr1 hp hR1 hg1 hc1 hT1
  have t2 := hasDeriv_temperature P.mp2 r2 p r2' p' t hr2 hp hR2 hg2 hc2 hT2
  have hTT : dTdrho P.toParams (r1 t) (p t) * r1' + dTdp P.toParams (r1 t) * p' =
      dTdrho P.mp2 (r2 t) (p t) * r2' + dTdp P.mp2 (r2 t) * p' := by
    have hf : (fun s => temperatureMG P.toParams (r1 s) (p s)) = fun s => temperatureMG P.mp2 (r2 s) (p s) := funext htem
    rw [hf] at t1
    exact t1.unique t2
  have p1 := hR1.pos
  have p2 := hR2.pos
  have p0 : 0 < r t := hQ ▸ hR.pos
  have hVV : lam * r1' / (r1 t * r1 t) + (1 - lam) * r2' / (r2 t * r2 t) = r' / (r t * r t) := by
    have a1 := ((hasDerivAt_const t lam).div hr1 p1.ne').add ((hasDerivAt_const t (1 - lam)).div hr2 p2.ne')
    have a2 := (hasDerivAt_const t (1 : ℝ)).div hr p0.ne'
    have hf : ((fun _ => lam) / r1 + (fun _ => 1 - lam) / r2 : ℝ → ℝ) = (fun _ => 1) / r := by
      funext s
      simpa using hvol s
    rw [hf] at a1
    have := a1.unique a2
    simp only [zero_mul, zero_sub, one_mul] at this
    field_simp at this ⊢
    linarith
  have hC := (hasDeriv_C0 P.toParams (r t) hR.ref_pos p0 (hQ ▸ hΓ)).comp t hr
  have hE : HasDerivAt (fun s => E2A P.toParams (r s) (getA Q)) (dC0 P.toParams (r t) * r' / 4 * devGsq (getA Q)) t := by
    unfold E2A
    exact (hC.div_const 4).mul_const _
  refine (((e1.const_mul lam).add (e2.const_mul (1 - lam))).add hE).congr_deriv ?_
  have hd : dEdrho c P Q = lam * dedrho P.toParams (r1 t) (p t) *
      (1 / (r t * r t * slope P.toParams P.mp2 lam (p t) (r1 t) (r2 t)) * dTdrho P.mp2 (r2 t) (p t)) +
      (1 - lam) * dedrho P.mp2 (r2 t) (p t) *
      (1 / (r t * r t * slope P.toParams P.mp2 lam (p t) (r1 t) (r2 t)) * dTdrho P.toParams (r1 t) (p t)) +
      dC0 P.toParams (r t) / 4 * devGsq (getA Q) := by
    unfold dEdrho slope
    simp only [hm, if_true, hsol, hQ, hlam]
  have hdp : dEdp c P Q = lam * dedp P.toParams (r1 t) + (1 - lam) * dedp P.mp2 (r2 t) := by
    unfold dEdp
    simp only [hm, if_true, hsol, hlam]
  rw [hd, hdp]
  unfold missing
  set K := slope P.toParams P.mp2 lam (p t) (r1 t) (r2 t) with hK
  unfold slope at hK
  set A1 := dTdrho P.toParams (r1 t) (p t)
  set A2 := dTdrho P.mp2 (r2 t) (p t)
  set B1 := dTdp P.toParams (r1 t)
  set B2 := dTdp P.mp2 (r2 t)
  have s1 : r1' = (A2 * (r' / (r t * r t)) + (1 - lam) / (r2 t * r2 t) * ((B2 - B1) * p')) / K := by
    rw [eq_div_iff hk, hK, ← hVV]
    have : A2 * r2' = A1 * r1' + B1 * p' - B2 * p' := by linarith
    linear_combination (-(1 - lam) / (r2 t * r2 t)) * this
  have s2 : r2' = (A1 * (r' / (r t * r t)) - lam / (r1 t * r1 t) * ((B2 - B1) * p')) / K := by
    rw [eq_div_iff hk, hK, ← hVV]
    have : A2 * r2' = A1 * r1' + B1 * p' - B2 * p' := by linarith
    linear_combination (lam / (r1 t * r1 t)) * this
  rw [s1, s2]
  clear_value K
  field_simp
  ring

/-- For two ideal gases nothing is missing. -/
theorem missing_ideal (P1 P2 : Params) (lam p ρ1 ρ2 : ℝ) (h1 : P1.eos = .stiffenedGas) (h2 : P2.eos = .stiffenedGas)
    (hi1 : P1.pINF = 0) (hi2 : P2.pINF = 0) (hT1 : P1.Tref = 0) (hT2 : P2.Tref = 0) (hp : p ≠ 0)
    (ht : temperatureMG P1 ρ1 p = temperatureMG P2 ρ2 p) : missing P1 P2 lam p ρ1 ρ2 = 0 := by
  have : dTdp P2 ρ2 = dTdp P1 ρ1 := by
    simp only [temperatureMG, pRef, gammaMG, h1, h2, hi1, hi2, hT1, hT2, mul_zero, neg_zero, sub_zero, zero_add] at ht
    simp only [dTdp, dedp, gammaMG, h1, h2]
    rw [div_div, div_div]
    rw [div_eq_mul_one_div, div_eq_mul_one_div p] at ht
    exact (mul_left_cancel₀ hp ht).symm
  simp [missing, this]

/-- **C81, false of the code.** Exactly if something is missing, `dEdρ` and `dEdp` are not the derivatives. -/
theorem dEdp_correct_iff (c : Cfg) (P : Par) (Q : St) (hm : P.multi = true) (r p r1 r2 : ℝ → ℝ) (r' p' r1' r2' t : ℝ)
    (hr : HasDerivAt r r' t) (hp : HasDerivAt p p' t) (hr1 : HasDerivAt r1 r1' t) (hr2 : HasDerivAt r2 r2' t)
    (hvol : ∀ s, Q c.mV / Q 0 / r1 s + (1 - Q c.mV / Q 0) / r2 s = 1 / r s)
    (htem : ∀ s, temperatureMG P.toParams (r1 s) (p s) = temperatureMG P.mp2 (r2 s) (p s))
    (hQ : Q 0 = r t) (hsol : solveMulti c P Q = (p t, r1 t, r2 t)) (hR : Regular P.toParams (Q 0))
    (hΓ : gammaMG P.toParams (Q 0) ≠ 0) (hR1 : Regular P.toParams (r1 t)) (hR2 : Regular P.mp2 (r2 t))
    (hg1 : gammaMG P.toParams (r1 t) ≠ 0) (hg2 : gammaMG P.mp2 (r2 t) ≠ 0) (hc1 : P.cv ≠ 0) (hc2 : P.mp2.cv ≠ 0)
    (hT1 : P.Tref = 0) (hT2 : P.mp2.Tref = 0)
    (hk : slope P.toParams P.mp2 (Q c.mV / Q 0) (p t) (r1 t) (r2 t) ≠ 0) (hp' : p' ≠ 0) :
    HasDerivAt (fun s => Q c.mV / Q 0 * E1 P.toParams (r1 s) (p s) + (1 - Q c.mV / Q 0) * E1 P.mp2 (r2 s) (p s) +
        E2A P.toParams (r s) (getA Q)) (dEdrho c P Q * r' + dEdp c P Q * p') t ↔
      missing P.toParams P.mp2 (Q c.mV / Q 0) (p t) (r1 t) (r2 t) = 0 := by
  have h := mixture_rate c P Q hm r p r1 r2 r' p' r1' r2' t hr hp hr1 hr2 hvol htem hQ hsol hR hΓ hR1 hR2 hg1 hg2 hc1 hc2
    hT1 hT2 hk
  constructor
  · intro h'
    have := h'.unique h
    have hz : missing P.toParams P.mp2 (Q c.mV / Q 0) (p t) (r1 t) (r2 t) * p' = 0 := by linarith
    exact (mul_eq_zero.1 hz).resolve_right hp'
  · intro h0
    rw [h0, add_zero] at h
    exact h

/-- An ideal gas and a stiffened gas. -/
noncomputable def gases : Par := { samplePar sample with multi := true, mp2 := { sample with pINF := 1 } }

/-- A solver that knows the equilibrium of the state below. -/
noncomputable def cfg : Cfg := ⟨true, false, true, 2, fun _ _ _ _ => (1, 1)⟩

/-- Equal masses of the two at rest, at temperature and pressure 1. -/
noncomputable def blend : St := fun i =>
  if i = 0 then 4 / 3 else if i = 1 then 5 / 3 else if i = 5 ∨ i = 9 ∨ i = 13 then 1 else if i = 14 then 2 / 3 else 0

theorem blend_lam : blend cfg.mV / blend 0 = 1 / 2 := by
  simp [blend, Cfg.mV, cfg]
  norm_num

theorem blend_energy : internalEnergy cfg gases blend = 5 / 4 := by
  have hA : devGsq (getA blend) = 0 := by
    simp [devGsq, dot3, getA, blend]; norm_num
  simp [internalEnergy, E3, sq3, vel, getRv, E2A, hA, gases, samplePar, cfg]
  simp [blend]
  norm_num

theorem blend_solution : solveMulti cfg gases blend = (1, 1, 2) := by
  unfold solveMulti
  simp only [blend_lam]
  norm_num [cfg, blend]

/-- The state is in equilibrium. -/
theorem blend_equilibrium : Equilibrium gases.toParams gases.mp2 (blend 0) (internalEnergy cfg gases blend)
    (blend cfg.mV / blend 0) 1 1 2 := by
  rw [blend_lam, blend_energy]
  refine ⟨by norm_num [blend], ⟨1, 3 / 2, ?_, ?_, by norm_num⟩, ?_⟩ <;>
    norm_num [pressureMG, temperatureMG, gammaMG, pRef, eRef, gases, samplePar, sample]

/-- Heating it under pressure: the derivative functions do not give the change of the energy. -/
theorem dEdp_false : ∃ (r p r1 r2 : ℝ → ℝ) (r' p' r1' r2' : ℝ), HasDerivAt r r' 1 ∧ HasDerivAt p p' 1 ∧
    HasDerivAt r1 r1' 1 ∧ HasDerivAt r2 r2' 1 ∧
    (∀ s, blend cfg.mV / blend 0 / r1 s + (1 - blend cfg.mV / blend 0) / r2 s = 1 / r s) ∧
    (∀ s, temperatureMG gases.toParams (r1 s) (p s) = temperatureMG gases.mp2 (r2 s) (p s)) ∧
    blend 0 = r 1 ∧ solveMulti cfg gases blend = (p 1, r1 1, r2 1) ∧
    ¬ HasDerivAt (fun s => blend cfg.mV / blend 0 * E1 gases.toParams (r1 s) (p s) +
      (1 - blend cfg.mV / blend 0) * E1 gases.mp2 (r2 s) (p s) + E2A gases.toParams (r s) (getA blend))
      (dEdrho cfg gases blend * r' + dEdp cfg gases blend * p') 1 := by
  have hex : ∀ s : ℝ, HasDerivAt (fun s : ℝ => Real.exp s) (Real.exp s) s := fun s => Real.hasDerivAt_exp s
  let p : ℝ → ℝ := fun s => Real.exp (s - 1)
  let r2 : ℝ → ℝ := fun s => Real.exp (s - 1) + 1
  let r : ℝ → ℝ := fun s => 1 / (1 / 2 / p s + (1 - 1 / 2) / r2 s)
  have hpp : ∀ s, 0 < p s := fun s => Real.exp_pos _
  have hp : HasDerivAt p 1 1 := by
    have := ((hasDerivAt_id (1 : ℝ)).sub_const 1).exp
    simpa [p] using this
  have hr2 : HasDerivAt r2 1 1 := hp.add_const 1
  have hpos : ∀ s, 0 < 1 / 2 / p s + (1 - 1 / 2) / r2 s := by
    intro s
    have h1 := hpp s
    have h2 : 0 < r2 s := add_pos (Real.exp_pos _) one_pos
    norm_num
    positivity
  have hr : ∃ r', HasDerivAt r r' 1 := by
    refine ⟨_, (hasDerivAt_const (1 : ℝ) (1 : ℝ)).div (((hasDerivAt_const (1 : ℝ) (1 / 2 : ℝ)).div hp (hpp 1).ne').add
      ((hasDerivAt_const (1 : ℝ) (1 - 1 / 2 : ℝ)).div hr2 ?_)) (hpos 1).ne'⟩
    exact (add_pos (Real.exp_pos _) one_pos).ne'
  obtain ⟨r', hr⟩ := hr
  have p1 : p 1 = 1 := by simp [p]
  have r21 : r2 1 = 2 := by simp [r2]; norm_num
  have r1 : r 1 = 4 / 3 := by simp only [r, p1, r21]; norm_num
  have hvol : ∀ s, blend cfg.mV / blend 0 / p s + (1 - blend cfg.mV / blend 0) / r2 s = 1 / r s := by
    intro s
    rw [blend_lam]
    simp only [r, one_div_one_div]
  have htem : ∀ s, temperatureMG gases.toParams (p s) (p s) = temperatureMG gases.mp2 (r2 s) (p s) := by
    intro s
    have h1 := hpp s
    have h2 : r2 s = p s + 1 := rfl
    simp only [temperatureMG, gammaMG, pRef, gases, samplePar, sample, h2]
    norm_num
    rw [div_self h1.ne', div_self (by positivity)]
  have hQ : blend 0 = r 1 := by rw [r1]; simp [blend]
  have hsol : solveMulti cfg gases blend = (p 1, p 1, r2 1) := by rw [blend_solution, p1, r21]
  have reg : ∀ x : ℝ, 0 < x → Regular gases.toParams x := fun x hx => (sample_regular .stiffenedGas x hx).1
  have reg2 : Regular gases.mp2 (r2 1) := by
    rw [r21]
    constructor <;> norm_num [gases, samplePar, sample]
  refine ⟨r, p, p, r2, r', 1, 1, 1, hr, hp, hp, hr2, hvol, htem, hQ, hsol, ?_⟩
  rw [dEdp_correct_iff cfg gases blend rfl r p p r2 r' 1 1 1 1 hr hp hp hr2 hvol htem hQ hsol]
  · rw [blend_lam, p1, r21]
    norm_num [missing, slope, dTdp, dedp, dTdrho, dedrho, gammaMG, dGammaMG, pRef, dpRef, deRef, gases, samplePar, sample]
  · exact reg _ (by norm_num [blend])
  · norm_num [gammaMG, gases, samplePar, sample]
  · exact reg _ (by rw [p1]; norm_num)
  · exact reg2
  · norm_num [gammaMG, gases, samplePar, sample]
  · norm_num [gammaMG, gases, samplePar, sample]
  · norm_num [gases, samplePar, sample]
  · norm_num [gases, samplePar, sample]
  · norm_num [gases, samplePar, sample]
  · norm_num [gases, samplePar, sample]
  · rw [blend_lam, p1, r21]
    norm_num [slope, dTdrho, gammaMG, dGammaMG, pRef, dpRef, gases, samplePar, sample]
  · norm_num

end Verif.Mix
