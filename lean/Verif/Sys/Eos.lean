import Verif.Sys.Params
import Mathlib.Analysis.SpecialFunctions.Pow.Deriv
import Mathlib.Analysis.SpecialFunctions.ExpDeriv

/-!
# C38 (first half) and C39: the equation-of-state functions and their derivatives
-/

namespace Verif.Sys

/-! ### Pressure and internal energy are inverse -/

/-- **C38**, first half. -/
theorem pressure_E1 (P : Params) (ρ p : ℝ) (hρ : ρ ≠ 0) (hΓ : gammaMG P ρ ≠ 0) :
    pressureMG P ρ (E1 P ρ p) = p := by
  unfold pressureMG E1
  field_simp
  ring

theorem E1_pressure (P : Params) (ρ e : ℝ) (hρ : ρ ≠ 0) (hΓ : gammaMG P ρ ≠ 0) :
    E1 P ρ (pressureMG P ρ e) = e := by
  unfold pressureMG E1
  field_simp
  ring

/-- If the Grüneisen coefficient vanishes (for instance a stiffened gas with `γ = 1`) the pressure does not
depend on the energy, so the energy cannot be recovered. -/
theorem pressure_gamma_zero (P : Params) (ρ e e' : ℝ) (hΓ : gammaMG P ρ = 0) :
    pressureMG P ρ e = pressureMG P ρ e' := by
  simp [pressureMG, hΓ]

/-! ### Derivatives -/

theorem hasDeriv_gammaMG (P : Params) (ρ : ℝ) (hρ : ρ ≠ 0) :
    HasDerivAt (gammaMG P) (dGammaMG P ρ) ρ := by
  unfold gammaMG dGammaMG
  cases P.eos
  · exact hasDerivAt_const _ _
  · have := (hasDerivAt_inv hρ).const_mul (P.Γ0 * P.ρ0)
    simp only [div_eq_mul_inv]
    refine this.congr_deriv ?_
    field_simp
  · exact hasDerivAt_const _ _
  · exact hasDerivAt_const _ _
  · exact hasDerivAt_const _ _

/-- The power `(ρ/ρ0)^a`. -/
theorem hasDeriv_pow (ρ0 a ρ : ℝ) (h0 : 0 < ρ0) (hρ : 0 < ρ) :
    HasDerivAt (fun r => (r / ρ0) ^ a) (a / ρ * (ρ / ρ0) ^ a) ρ := by
  have hd : HasDerivAt (fun r : ℝ => r / ρ0) (1 / ρ0) ρ := (hasDerivAt_id ρ).div_const ρ0
  refine (hd.rpow_const (p := a) (Or.inl (by positivity))).congr_deriv ?_
  rw [Real.rpow_sub (by positivity), Real.rpow_one]
  field_simp

/-- The power `(ρ0/ρ)^a`. -/
theorem hasDeriv_invpow (ρ0 a ρ : ℝ) (h0 : 0 < ρ0) (hρ : 0 < ρ) :
    HasDerivAt (fun r => (ρ0 / r) ^ a) (-a / ρ * (ρ0 / ρ) ^ a) ρ := by
  have hd : HasDerivAt (fun r : ℝ => ρ0 / r) (-ρ0 / ρ ^ 2) ρ := by
    refine ((hasDerivAt_const ρ ρ0).div (hasDerivAt_id ρ) hρ.ne').congr_deriv ?_
    simp
  refine (hd.rpow_const (p := a) (Or.inl (by positivity))).congr_deriv ?_
  rw [Real.rpow_sub (by positivity), Real.rpow_one]
  field_simp

theorem hasDeriv_expv (ρ0 R ρ : ℝ) (hρ : ρ ≠ 0) :
    HasDerivAt (fun r => Real.exp (-R * (ρ0 / r))) (R * ρ0 / ρ ^ 2 * Real.exp (-R * (ρ0 / ρ))) ρ := by
  have hd : HasDerivAt (fun r : ℝ => -R * (ρ0 / r)) (R * ρ0 / ρ ^ 2) ρ := by
    have := ((hasDerivAt_const ρ ρ0).div (hasDerivAt_id ρ) hρ).const_mul (-R)
    refine this.congr_deriv ?_
    simp only [id]
    ring
  refine hd.exp.congr_deriv (by ring)

/-- The densities at which the formulas are differentiable: positive, and for the shock equation of state not on
the vertical asymptote of the Hugoniot curve. -/
structure Regular (P : Params) (ρ : ℝ) : Prop where
  ref_pos : 0 < P.ρ0
  pos : 0 < ρ
  alpha : P.eos = .godunovRomenski → P.α ≠ 0
  hugoniot : P.eos = .shockMG → ρ > P.ρ0 → P.s * (ρ - P.ρ0) - ρ ≠ 0
  jwl : P.eos = .jwl → P.R1 ≠ 0 ∧ P.R2 ≠ 0
  cc : P.eos = .cochranChan → P.R1 ≠ 1 ∧ P.R2 ≠ 1

/-- The Hugoniot branch written over a common denominator. -/
theorem shock_pRef (c02 ρ0 s ρ : ℝ) (h0 : ρ0 ≠ 0) (hρ : ρ ≠ 0) :
    c02 * (1 / ρ0 - 1 / ρ) / ((1 / ρ0 - s * (1 / ρ0 - 1 / ρ)) * (1 / ρ0 - s * (1 / ρ0 - 1 / ρ))) =
      c02 * ρ0 * ρ * (ρ - ρ0) / ((s * (ρ - ρ0) - ρ) * (s * (ρ - ρ0) - ρ)) := by
  have h1 : 1 / ρ0 - 1 / ρ = (ρ - ρ0) / (ρ0 * ρ) := by field_simp
  have h2 : 1 / ρ0 - s * (1 / ρ0 - 1 / ρ) = -(s * (ρ - ρ0) - ρ) / (ρ0 * ρ) := by
    field_simp; ring
  rw [h2, h1]
  by_cases ht : s * (ρ - ρ0) - ρ = 0
  · simp [ht]
  · field_simp

theorem hasDeriv_hugoniot (c02 ρ0 s ρ : ℝ) (ht : s * (ρ - ρ0) - ρ ≠ 0) :
    HasDerivAt (fun r => c02 * ρ0 * r * (r - ρ0) / ((s * (r - ρ0) - r) * (s * (r - ρ0) - r)))
      (c02 * ρ0 * ρ0 * (s * (ρ0 - ρ) - ρ) / ((s * (ρ - ρ0) - ρ) * (s * (ρ - ρ0) - ρ) * (s * (ρ - ρ0) - ρ))) ρ := by
  have hn : HasDerivAt (fun r => c02 * ρ0 * r * (r - ρ0)) (c02 * ρ0 * (ρ - ρ0) + c02 * ρ0 * ρ) ρ := by
    have := ((hasDerivAt_id ρ).const_mul (c02 * ρ0)).mul ((hasDerivAt_id ρ).sub_const ρ0)
    refine this.congr_deriv ?_
    simp
  have ht' : HasDerivAt (fun r => s * (r - ρ0) - r) (s - 1) ρ := by
    have := (((hasDerivAt_id ρ).sub_const ρ0).const_mul s).sub (hasDerivAt_id ρ)
    refine this.congr_deriv ?_
    simp
  refine (hn.div (ht'.mul ht') (mul_ne_zero ht ht)).congr_deriv ?_
  simp only [Pi.mul_apply]
  field_simp
  ring

/-- At the reference density the two branches of the shock equation of state have the same slope. -/
theorem hasDeriv_shock_pRef (P : Params) (ρ : ℝ) (h0 : 0 < P.ρ0) (hρ : 0 < ρ)
    (hh : ρ > P.ρ0 → P.s * (ρ - P.ρ0) - ρ ≠ 0) :
    HasDerivAt (fun r => if r > P.ρ0 then
        P.c02 * (1 / P.ρ0 - 1 / r) / ((1 / P.ρ0 - P.s * (1 / P.ρ0 - 1 / r)) * (1 / P.ρ0 - P.s * (1 / P.ρ0 - 1 / r)))
      else P.c02 * (r - P.ρ0))
      (if ρ > P.ρ0 then P.c02 * P.ρ0 * P.ρ0 * (P.s * (P.ρ0 - ρ) - ρ) /
          ((P.s * (ρ - P.ρ0) - ρ) * (P.s * (ρ - P.ρ0) - ρ) * (P.s * (ρ - P.ρ0) - ρ)) else P.c02) ρ := by
  have hlin : ∀ r, HasDerivAt (fun r => P.c02 * (r - P.ρ0)) P.c02 r := fun r => by
    simpa using ((hasDerivAt_id r).sub_const P.ρ0).const_mul P.c02
  rcases lt_trichotomy ρ P.ρ0 with hlt | heq | hgt
  · rw [if_neg (not_lt.mpr hlt.le)]
    refine (hlin ρ).congr_of_eventuallyEq ?_
    filter_upwards [Iio_mem_nhds hlt] with r hr
    rw [if_neg (not_lt.mpr (le_of_lt hr))]
  · rw [if_neg (by rw [heq]; exact lt_irrefl _)]
    subst heq
    have hH := hasDeriv_hugoniot P.c02 P.ρ0 P.s P.ρ0 (by simp [h0.ne'])
    have hH' : HasDerivAt (fun r => P.c02 * P.ρ0 * r * (r - P.ρ0) /
        ((P.s * (r - P.ρ0) - r) * (P.s * (r - P.ρ0) - r))) P.c02 P.ρ0 := by
      refine hH.congr_deriv ?_
      simp only [sub_self, mul_zero, zero_sub]
      field_simp
    rw [hasDerivAt_iff_isLittleO] at hH' ⊢
    have hl := hasDerivAt_iff_isLittleO.mp (hlin P.ρ0)
    rw [Asymptotics.isLittleO_iff] at hH' hl ⊢
    intro c hc
    filter_upwards [hH' hc, hl hc, Ioi_mem_nhds h0] with r h1 h2 h3
    simp only [sub_self, mul_zero, zero_div, sub_zero, gt_iff_lt, lt_irrefl, if_false] at h1 h2 ⊢
    by_cases hr : P.ρ0 < r
    · rw [if_pos hr, shock_pRef _ _ _ _ h0.ne' (ne_of_gt h3)]
      exact h1
    · rw [if_neg hr]
      exact h2
  · rw [if_pos hgt]
    refine (hasDeriv_hugoniot P.c02 P.ρ0 P.s ρ (hh hgt)).congr_of_eventuallyEq ?_
    filter_upwards [Ioi_mem_nhds hgt, Ioi_mem_nhds hρ] with r hr h3
    rw [if_pos (show r > P.ρ0 from hr), shock_pRef _ _ _ _ h0.ne' (ne_of_gt h3)]

/-- **C39**: `dp_ref` is the derivative of `p_ref`. -/
theorem hasDeriv_pRef (P : Params) (ρ : ℝ) (h : Regular P ρ) : HasDerivAt (pRef P) (dpRef P ρ) ρ := by
  have h0 := h.ref_pos
  have hρ := h.pos
  have hs := h.hugoniot
  have ha := h.alpha
  unfold pRef dpRef
  cases he : P.eos
  · exact hasDerivAt_const _ _
  · exact hasDeriv_shock_pRef P ρ h0 hρ (hs he)
  · have h1 := (hasDeriv_expv P.ρ0 P.R1 ρ hρ.ne').const_mul P.A
    have h2 := (hasDeriv_expv P.ρ0 P.R2 ρ hρ.ne').const_mul P.B
    refine (h1.add h2).congr_deriv ?_
    field_simp
  · have h1 := (hasDeriv_invpow P.ρ0 (-P.R1) ρ h0 hρ).const_mul P.A
    have h2 := (hasDeriv_invpow P.ρ0 (-P.R2) ρ h0 hρ).const_mul P.B
    refine (h1.sub h2).congr_deriv ?_
    simp only [neg_neg]
    ring
  · have ha := ha he
    have ht := hasDeriv_pow P.ρ0 P.α ρ h0 hρ
    have h1 : HasDerivAt (fun r => P.c02 * r / P.α) (P.c02 / P.α) ρ := by
      simpa using ((hasDerivAt_id ρ).const_mul P.c02).div_const P.α
    refine ((h1.mul (ht.sub_const 1)).mul ht).congr_deriv ?_
    simp only [Pi.mul_apply]
    field_simp
    ring

/-- **C39**: `de_ref` is the derivative of `e_ref`. -/
theorem hasDeriv_eRef (P : Params) (ρ : ℝ) (h : Regular P ρ) : HasDerivAt (eRef P) (deRef P ρ) ρ := by
  have h0 := h.ref_pos
  have hρ := h.pos
  have hp := hasDeriv_pRef P ρ h
  unfold eRef deRef
  cases he : P.eos
  · have := (hasDerivAt_inv hρ.ne').const_mul P.pINF
    simp only [div_eq_mul_inv, pRef, he]
    refine this.congr_deriv ?_
    field_simp
  · simp only
    have hi : HasDerivAt (fun r => 1 / P.ρ0 - 1 / r) (1 / ρ ^ 2) ρ := by
      have := (hasDerivAt_const ρ (1 / P.ρ0)).sub (hasDerivAt_inv hρ.ne')
      simp only [one_div] at this ⊢
      refine this.congr_deriv (by ring)
    rcases lt_trichotomy ρ P.ρ0 with hlt | heq | hgt
    · rw [if_neg (not_lt.mpr hlt.le)]
      refine (hasDerivAt_const ρ (0 : ℝ)).congr_of_eventuallyEq ?_
      filter_upwards [Iio_mem_nhds hlt] with r hr
      rw [if_neg (not_lt.mpr (le_of_lt hr))]
    · rw [if_neg (by rw [heq]; exact lt_irrefl _)]
      have hm : HasDerivAt (fun r => 0.5 * pRef P r * (1 / P.ρ0 - 1 / r)) 0 ρ := by
        refine ((hp.const_mul 0.5).mul hi).congr_deriv ?_
        have : pRef P ρ = 0 := by simp [pRef, he, heq]
        rw [this, heq]
        simp
      have hm := hasDerivAt_iff_isLittleO.mp hm
      rw [hasDerivAt_iff_isLittleO]
      rw [Asymptotics.isLittleO_iff] at hm ⊢
      intro c hc
      have hp0 : pRef P ρ = 0 := by simp [pRef, he, heq]
      filter_upwards [hm hc] with r h1
      rw [if_neg (show ¬ ρ > P.ρ0 by rw [heq]; exact lt_irrefl _)]
      rw [hp0] at h1
      by_cases hr : r > P.ρ0
      · rw [if_pos hr]
        simpa using h1
      · rw [if_neg hr]
        simp only [smul_zero, sub_zero, norm_zero]
        positivity
    · rw [if_pos hgt]
      have hm := (hp.const_mul 0.5).mul hi
      refine (hm.congr_of_eventuallyEq ?_).congr_deriv ?_
      · filter_upwards [Ioi_mem_nhds hgt] with r hr
        rw [if_pos (show r > P.ρ0 from hr)]
        rfl
      · have ht := h.hugoniot he hgt
        simp only [pRef, dpRef, he, if_pos hgt]
        rw [shock_pRef _ _ _ _ h0.ne' hρ.ne']
        field_simp
        ring
  · obtain ⟨r1, r2⟩ := h.jwl he
    have h1 := (hasDeriv_expv P.ρ0 P.R1 ρ hρ.ne').const_mul (P.A / (P.ρ0 * P.R1))
    have h2 := (hasDeriv_expv P.ρ0 P.R2 ρ hρ.ne').const_mul (P.B / (P.ρ0 * P.R2))
    refine (h1.add h2).congr_deriv ?_
    simp only [pRef, he]
    field_simp
  · obtain ⟨r1, r2⟩ := h.cc he
    have r1' : 1 - P.R1 ≠ 0 := sub_ne_zero.mpr (Ne.symm r1)
    have r2' : 1 - P.R2 ≠ 0 := sub_ne_zero.mpr (Ne.symm r2)
    have h1 := ((hasDeriv_invpow P.ρ0 (1 - P.R1) ρ h0 hρ).sub_const 1).const_mul (-P.A / (P.ρ0 * (1 - P.R1)))
    have h2 := ((hasDeriv_invpow P.ρ0 (1 - P.R2) ρ h0 hρ).sub_const 1).const_mul (P.B / (P.ρ0 * (1 - P.R2)))
    refine (h1.add h2).congr_deriv ?_
    simp only [pRef, he]
    have e : ∀ R : ℝ, (P.ρ0 / ρ) ^ (1 - R) = P.ρ0 / ρ * (P.ρ0 / ρ) ^ (-R) := fun R => by
      rw [sub_eq_add_neg, Real.rpow_add (by positivity), Real.rpow_one]
    rw [e, e]
    field_simp
    ring
  · have ha := h.alpha he
    have ht := (hasDeriv_pow P.ρ0 P.α ρ h0 hρ).sub_const 1
    refine (((ht.const_mul (P.c02 / (2 * P.α * P.α))).mul ht)).congr_deriv ?_
    simp only [pRef, he]
    field_simp
    ring

/-- **C39**: `dedρ` and `dedp` are the partial derivatives of `E_1`. -/
theorem hasDeriv_E1_rho (P : Params) (ρ p : ℝ) (h : Regular P ρ) (hΓ : gammaMG P ρ ≠ 0) :
    HasDerivAt (fun r => E1 P r p) (dedrho P ρ p) ρ := by
  have hρ := h.pos
  unfold E1 dedrho
  refine ((hasDeriv_eRef P ρ h).add (((hasDeriv_pRef P ρ h).const_sub p).div
    ((hasDerivAt_id ρ).mul (hasDeriv_gammaMG P ρ hρ.ne')) (mul_ne_zero hρ.ne' hΓ))).congr_deriv ?_
  simp only [Pi.mul_apply, id]
  field_simp
  ring

theorem hasDeriv_E1_p (P : Params) (ρ p : ℝ) : HasDerivAt (fun q => E1 P ρ q) (dedp P ρ) p := by
  unfold E1 dedp
  exact (((hasDerivAt_id p).sub_const _).div_const _).const_add _

theorem hasDeriv_T_p (P : Params) (ρ p : ℝ) :
    HasDerivAt (fun q => temperatureMG P ρ q) (dTdp P ρ) p := by
  unfold temperatureMG dTdp dedp
  refine ((((hasDerivAt_id p).sub_const _).div_const _).const_add _).congr_deriv ?_
  rw [div_div]

/-- The derivative of the integrating factor. -/
theorem hasDeriv_phi (P : Params) (ρ : ℝ) (h0 : 0 < P.ρ0) (hρ : 0 < ρ) :
    HasDerivAt (phi P) (gammaMG P ρ / ρ * phi P ρ) ρ := by
  unfold phi gammaMG
  cases P.eos
  · exact hasDeriv_pow _ _ _ h0 hρ
  · have hd : HasDerivAt (fun r : ℝ => P.Γ0 * (1 - P.ρ0 / r)) (P.Γ0 * P.ρ0 / ρ / ρ) ρ := by
      have := (((hasDerivAt_const ρ P.ρ0).div (hasDerivAt_id ρ) hρ.ne').const_sub 1).const_mul P.Γ0
      refine this.congr_deriv ?_
      simp only [id]
      field_simp
      ring
    refine hd.exp.congr_deriv (by ring)
  · exact hasDeriv_pow _ _ _ h0 hρ
  · exact hasDeriv_pow _ _ _ h0 hρ
  · exact hasDeriv_pow _ _ _ h0 hρ

/-- The true density derivative of the temperature: the function `dTdρ` plus `Tref * dφ/dρ`, which the code
leaves out (mg.cpp:286 says so). -/
theorem hasDeriv_T_rho (P : Params) (ρ p : ℝ) (h : Regular P ρ) (hΓ : gammaMG P ρ ≠ 0) (hcv : P.cv ≠ 0) :
    HasDerivAt (fun r => temperatureMG P r p) (dTdrho P ρ p + gammaMG P ρ / ρ * phi P ρ * P.Tref) ρ := by
  have hρ := h.pos
  unfold temperatureMG dTdrho
  refine (((hasDeriv_phi P ρ h.ref_pos hρ).mul_const P.Tref).add (((hasDeriv_pRef P ρ h).const_sub p).div
    (((hasDerivAt_id ρ).mul (hasDeriv_gammaMG P ρ hρ.ne')).mul_const P.cv)
    (mul_ne_zero (mul_ne_zero hρ.ne' hΓ) hcv))).congr_deriv ?_
  simp only [Pi.mul_apply, id]
  field_simp
  ring

theorem phi_pos (P : Params) (ρ : ℝ) (h0 : 0 < P.ρ0) (hρ : 0 < ρ) : 0 < phi P ρ := by
  unfold phi
  cases P.eos <;> simp only <;> positivity

/-- **C39 for `dTdρ`** holds exactly for materials whose reference temperature is zero: for any other the function
is not the derivative it is documented to be. -/
theorem dTdrho_correct_iff (P : Params) (ρ p : ℝ) (h : Regular P ρ) (hΓ : gammaMG P ρ ≠ 0) (hcv : P.cv ≠ 0) :
    HasDerivAt (fun r => temperatureMG P r p) (dTdrho P ρ p) ρ ↔ P.Tref = 0 := by
  have ht := hasDeriv_T_rho P ρ p h hΓ hcv
  have hφ := phi_pos P ρ h.ref_pos h.pos
  constructor
  · intro hd
    have := hd.unique ht
    have hz : gammaMG P ρ / ρ * phi P ρ * P.Tref = 0 := by linarith
    rcases mul_eq_zero.mp hz with h1 | h1
    · exact absurd h1 (mul_ne_zero (div_ne_zero hΓ h.pos.ne') hφ.ne')
    · exact h1
  · intro h0
    rw [h0, mul_zero, add_zero] at ht
    exact ht

theorem hasDeriv_cs2 (P : Params) (ρ : ℝ) (h0 : 0 < P.ρ0) (hρ : 0 < ρ) :
    HasDerivAt (cs2 P) (dcs2 P ρ) ρ := by
  unfold cs2 dcs2 cs2
  refine ((hasDeriv_pow P.ρ0 P.β ρ h0 hρ).const_mul P.b02).congr_deriv (by ring)

theorem hasDeriv_C0 (P : Params) (ρ : ℝ) (h0 : 0 < P.ρ0) (hρ : 0 < ρ) (hΓ : gammaMG P ρ ≠ 0) :
    HasDerivAt (C0 P) (dC0 P ρ) ρ := by
  unfold C0 dC0
  refine ((((hasDerivAt_const ρ P.β).div (hasDeriv_gammaMG P ρ hρ.ne') hΓ).const_sub 1).mul
    (hasDeriv_cs2 P ρ h0 hρ)).congr_deriv ?_
  simp only [Pi.div_apply]
  field_simp
  ring

/-! ### The hypotheses hold for materials of every kind -/

/-- Every equation of state is regular at every density above 0 for the sample parameters. -/
theorem sample_regular (e : Eos) (ρ : ℝ) (h : 0 < ρ) :
    Regular { sample with eos := e } ρ ∧ gammaMG { sample with eos := e } ρ ≠ 0 := by
  constructor
  · constructor
    · norm_num [sample]
    · exact h
    · intro _; norm_num [sample]
    · intro _ h1
      simp only [sample] at h1 ⊢
      nlinarith
    · intro _; norm_num [sample]
    · intro _; norm_num [sample]
  · cases e <;> norm_num [gammaMG, sample, h.ne']

/-- A material with a reference temperature, for which `dTdρ` is not the derivative of the temperature. -/
example : ¬ HasDerivAt (fun r => temperatureMG { sample with Tref := 300 } r 1)
    (dTdrho { sample with Tref := 300 } 1 1) 1 := by
  rw [dTdrho_correct_iff]
  · norm_num
  · constructor <;> norm_num [sample]
  · norm_num [gammaMG, sample]
  · norm_num [sample]

end Verif.Sys
