import Verif.Relax.Strain
import Verif.Relax.Source

/-! # Relaxation of the distortion: evolution in time -/

namespace Verif.Relax

open Verif.Sys Verif.Iter Verif.Grid Filter Topology

noncomputable section

/-- The two moments solve the linear system `m' = -u`, `u' = 54 (m - 1) - 15 u` from their initial values. -/
theorem moments_ode (m0 u0 τ : ℝ) :
    meanAt m0 u0 0 = m0 ∧ spreadAt m0 u0 0 = u0 ∧
    HasDerivAt (meanAt m0 u0) (-spreadAt m0 u0 τ) τ ∧
    HasDerivAt (spreadAt m0 u0) (54 * (meanAt m0 u0 τ - 1) - 15 * spreadAt m0 u0 τ) τ := by
  have e : ∀ k : ℝ, HasDerivAt (fun τ => Real.exp (k * τ)) (Real.exp (k * τ) * k) τ := fun k =>
    (((hasDerivAt_id τ).const_mul k).exp).congr_deriv (by simp)
  refine ⟨by simp only [meanAt, mul_zero, Real.exp_zero]; ring, by simp only [spreadAt, mul_zero, Real.exp_zero]; ring,
    ?_, ?_⟩
  · refine ((((e (-6)).const_mul (3 * m0 - u0 / 3 - 3)).const_add 1).sub
      ((e (-9)).const_mul (2 * m0 - u0 / 3 - 2))).congr_deriv ?_
    simp only [spreadAt]; ring
  · refine (((e (-6)).const_mul (6 * (3 * m0 - u0 / 3 - 3))).sub
      ((e (-9)).const_mul (9 * (2 * m0 - u0 / 3 - 2)))).congr_deriv ?_
    simp only [spreadAt, meanAt]; ring

theorem tendsto_exp_neg (k : ℝ) (hk : k < 0) : Tendsto (fun τ => Real.exp (k * τ)) atTop (𝓝 0) :=
  Real.tendsto_exp_atBot.comp (tendsto_id.const_mul_atTop_of_neg hk)

theorem meanAt_lim (m0 u0 : ℝ) : Tendsto (meanAt m0 u0) atTop (𝓝 1) := by
  unfold meanAt
  have := ((tendsto_const_nhds (x := (1 : ℝ))).add ((tendsto_exp_neg (-6) (by norm_num)).const_mul
    (3 * m0 - u0 / 3 - 3))).sub ((tendsto_exp_neg (-9) (by norm_num)).const_mul (2 * m0 - u0 / 3 - 2))
  simpa using this

theorem spreadAt_lim (m0 u0 : ℝ) : Tendsto (fun τ => pos (spreadAt m0 u0 τ)) atTop (𝓝 0) := by
  unfold spreadAt pos
  have := (((tendsto_exp_neg (-6) (by norm_num)).const_mul (6 * (3 * m0 - u0 / 3 - 3))).sub
    ((tendsto_exp_neg (-9) (by norm_num)).const_mul (9 * (2 * m0 - u0 / 3 - 2))))
  have := (tendsto_const_nhds (x := (0 : ℝ))).max this
  simpa using this

/-- Near equilibrium the code computes three numbers close to one. -/
theorem squares_lim {l : Filter ℝ} (m u : ℝ → ℝ) (hm : Tendsto m l (𝓝 1)) (hu : Tendsto u l (𝓝 0)) :
    (∀ᶠ τ in l, squares (m τ) (u τ) ≠ none) ∧
      ∀ i, Tendsto (fun τ => (squares (m τ) (u τ)).getD 0 i) l (𝓝 1) := by
  have hΔ : Tendsto (fun τ => |-2 * m τ * m τ * m τ + m τ * u τ + 2|) l (𝓝 0) := by
    have := ((((hm.const_mul (-2)).mul hm).mul hm).add (hm.mul hu)).add_const 2
    have := this.abs
    simpa using this
  have hsmall : ∀ᶠ τ in l, |-2 * m τ * m τ * m τ + m τ * u τ + 2| < 1e-12 :=
    hΔ.eventually (gt_mem_nhds (by norm_num))
  have h1 : Tendsto (fun τ => firstRoot (m τ) (u τ)) l (𝓝 1) := by
    have hs : Tendsto (fun τ => Real.sqrt (6 * u τ) / 3 * Real.cos (Real.pi / 6) + m τ) l (𝓝 1) := by
      have := ((((hu.const_mul 6).sqrt).div_const 3).mul_const (Real.cos (Real.pi / 6))).add hm
      simpa using this
    refine hs.congr' ?_
    filter_upwards [hsmall] with τ h
    simp only [firstRoot]
    rw [if_pos h]
  have h2 : Tendsto (fun τ => secondRoot (m τ) (firstRoot (m τ) (u τ))) l (𝓝 1) := by
    unfold secondRoot pos
    simp only
    have ht := (hm.const_mul 3).sub h1
    have ha := (tendsto_const_nhds (x := (0 : ℝ))).max (((h1.mul ht).mul ht).sub_const 4)
    have := ((((ha.div h1 one_ne_zero).sqrt).add ht).const_mul 0.5)
    have e : (0.5 : ℝ) * (Real.sqrt (max 0 (1 * (3 * 1 - 1) * (3 * 1 - 1) - 4) / 1) + (3 * 1 - 1)) = 1 := by norm_num
    rw [e] at this
    exact this
  have h3 : Tendsto (fun τ => 1 / (firstRoot (m τ) (u τ) * secondRoot (m τ) (firstRoot (m τ) (u τ)))) l (𝓝 1) := by
    have := (tendsto_const_nhds (x := (1 : ℝ))).div (h1.mul h2) (by norm_num)
    rw [one_mul, div_one] at this
    exact this
  have hev : ∀ᶠ τ in l, squares (m τ) (u τ) = some (sortDown (firstRoot (m τ) (u τ))
      (secondRoot (m τ) (firstRoot (m τ) (u τ)))
      (1 / (firstRoot (m τ) (u τ) * secondRoot (m τ) (firstRoot (m τ) (u τ))))) := by
    filter_upwards [h1.eventually (lt_mem_nhds (show (0 : ℝ) < 1 by norm_num)),
      h2.eventually (lt_mem_nhds (show (0 : ℝ) < 1 by norm_num)),
      h3.eventually (lt_mem_nhds (show (0 : ℝ) < 1 by norm_num))] with τ e1 e2 e3
    unfold squares
    simp only
    rw [if_neg (by rintro (h | h) <;> linarith), if_neg (by rintro (h | h | h) <;> linarith)]
  refine ⟨hev.mono fun τ h => by rw [h]; simp, fun i => ?_⟩
  have hlim : Tendsto (fun τ => sortDown (firstRoot (m τ) (u τ)) (secondRoot (m τ) (firstRoot (m τ) (u τ)))
      (1 / (firstRoot (m τ) (u τ) * secondRoot (m τ) (firstRoot (m τ) (u τ)))) i) l (𝓝 1) := by
    fin_cases i
    · simpa [sortDown] using (h1.max h2).max h3
    · simpa [sortDown] using (h1.min h2).max ((h1.max h2).min h3)
    · simpa [sortDown] using (h1.min h2).min h3
  refine hlim.congr' ?_
  filter_upwards [hev] with τ h
  rw [h]; rfl

/-- **C64.** After a long time nothing is left of the strain: for a Newtonian material the solver eventually gives numbers,
and they converge to the volume ratio times a rotation. -/
theorem relax_limit (P : Par) (A U W : M3) (s : V3) (h0 : 0 < s 0) (h1 : 0 < s 1) (h2 : 0 < s 2)
    (hp : P.powerLaw = false) (hμ : 0 < P.μ) (hρ : 0 < P.ρ0) (hb : 0 < P.b02) (hu : 1e-12 ≤ (invariants s).2) :
    (∀ᶠ dt in atTop, relaxA P U W s dt A ≠ none) ∧
    ∀ i j, Tendsto (fun dt => (relaxA P U W s dt A).getD 0 i j) atTop
      (𝓝 (cbrt (s 0 * s 1 * s 2) * (U * W.transpose) i j)) := by
  have hd : 0 < cbrt (s 0 * s 1 * s 2) := by
    have hc3 := cbrt_cube (s 0 * s 1 * s 2)
    by_contra h
    push Not at h
    have : cbrt (s 0 * s 1 * s 2) * cbrt (s 0 * s 1 * s 2) * cbrt (s 0 * s 1 * s 2) ≤ 0 :=
      mul_nonpos_of_nonneg_of_nonpos (mul_self_nonneg _) h
    have : 0 < s 0 * s 1 * s 2 := by positivity
    linarith
  generalize hdd : cbrt (s 0 * s 1 * s 2) = d at *
  have hr : ∀ dt, relaxA P U W s dt A = (newSquares (invariants s).1 (invariants s).2
      (P.ρ0 * P.b02 * d ^ (7 : ℝ) / (3 * P.μ) * dt)).map fun x =>
        U * (Matrix.of fun j k => W.transpose j k * (d * Real.sqrt (x j))) := by
    intro dt
    unfold relaxA
    simp only [hdd]
    rw [if_pos hu, nondimTime_newtonian P _ _ _ _ _ hp hμ.ne']
  have hτ : Tendsto (fun dt => P.ρ0 * P.b02 * d ^ (7 : ℝ) / (3 * P.μ) * dt) atTop atTop :=
    tendsto_id.const_mul_atTop (by positivity)
  obtain ⟨e, lim⟩ := squares_lim (meanAt (invariants s).1 (invariants s).2)
    (fun τ => pos (spreadAt (invariants s).1 (invariants s).2 τ)) (meanAt_lim _ _) (spreadAt_lim _ _)
  have e' := hτ.eventually e
  simp only [hr]
  refine ⟨?_, fun i j => ?_⟩
  · filter_upwards [e'] with dt h
    unfold newSquares
    rw [Option.map_eq_none_iff.ne]
    exact h
  · have lim' : ∀ k, Tendsto (fun dt => d * Real.sqrt ((newSquares (invariants s).1 (invariants s).2
        (P.ρ0 * P.b02 * d ^ (7 : ℝ) / (3 * P.μ) * dt)).getD 0 k)) atTop (𝓝 d) := by
      intro k
      have := (((lim k).comp hτ).sqrt).const_mul d
      rw [Real.sqrt_one, mul_one] at this
      exact this
    have hsum : Tendsto (fun dt => ∑ k, U i k * (W.transpose k j * (d * Real.sqrt ((newSquares (invariants s).1
        (invariants s).2 (P.ρ0 * P.b02 * d ^ (7 : ℝ) / (3 * P.μ) * dt)).getD 0 k)))) atTop
        (𝓝 (∑ k, U i k * (W.transpose k j * d))) :=
      tendsto_finsetSum _ fun k _ => ((lim' k).const_mul _).const_mul _
    have e3 : ∑ k, U i k * (W.transpose k j * d) = d * (U * W.transpose) i j := by
      rw [Matrix.mul_apply, Finset.mul_sum]
      exact Finset.sum_congr rfl fun k _ => by ring
    rw [← e3]
    refine hsum.congr' ?_
    filter_upwards [e'] with dt h
    obtain ⟨x, hx⟩ := Option.ne_none_iff_exists'.mp h
    have hx' : newSquares (invariants s).1 (invariants s).2 (P.ρ0 * P.b02 * d ^ (7 : ℝ) / (3 * P.μ) * dt) = some x := hx
    rw [hx']
    simp [Matrix.mul_apply]

/-- Without `POWER_LAW` the analytic solver relaxes every material like a fluid of viscosity `μ`: over a long enough step
every strained state changes. -/
theorem always_relaxed (P : Par) (A U W : M3) (s : V3) (hs : IsSVD A U W s) (h0 : 0 < s 0) (h1 : 0 < s 1) (h2 : 0 < s 2)
    (hp : P.powerLaw = false) (hμ : 0 < P.μ) (hρ : 0 < P.ρ0) (hb : 0 < P.b02)
    (hu : 1e-12 ≤ (invariants s).2) :
    ∃ dt > 0, ∃ A', relaxA P U W s dt A = some A' ∧ A' ≠ A := by
  obtain ⟨e, lim⟩ := relax_limit P A U W s h0 h1 h2 hp hμ hρ hb hu
  obtain ⟨hU, hW, -, hA⟩ := hs
  by_contra hc
  push Not at hc
  have hev : ∀ᶠ dt in atTop, (relaxA P U W s dt A).getD 0 = A := by
    filter_upwards [e, eventually_gt_atTop 0] with dt h hpos
    obtain ⟨x, hx⟩ := Option.ne_none_iff_exists'.mp h
    rw [hx]
    exact hc dt hpos x hx
  have hAeq : A = U * Matrix.diagonal (fun _ => cbrt (s 0 * s 1 * s 2)) * W.transpose := by
    ext i j
    have h1 := lim i j
    have h2 : Tendsto (fun dt => (relaxA P U W s dt A).getD 0 i j) atTop (𝓝 (A i j)) :=
      tendsto_const_nhds.congr' (hev.mono fun dt h => by beta_reduce; rw [h])
    rw [tendsto_nhds_unique h2 h1]
    have : Matrix.diagonal (fun _ : Fin 3 => cbrt (s 0 * s 1 * s 2)) = cbrt (s 0 * s 1 * s 2) • (1 : M3) := by
      ext i j; simp [Matrix.diagonal, Matrix.one_apply]
    rw [this, Matrix.mul_smul, Matrix.mul_one, Matrix.smul_mul, Matrix.smul_apply, smul_eq_mul]
  rw [hA] at hAeq
  have hse := diag_inj U W _ _ hU hW hAeq
  have e0 := congrFun hse 0
  have e1 := congrFun hse 1
  have e2 := congrFun hse 2
  have : (invariants s).2 = 0 := by
    unfold invariants
    simp only [← e0] at *
    rw [e1, e2]
    simp
  rw [this] at hu
  norm_num at hu

/-- Elastic solids have no source term, yet the analytic solver relaxes them. -/
theorem elastic_relaxed (P : Par) (A U W : M3) (s : V3) (hs : IsSVD A U W s) (h0 : 0 < s 0) (h1 : 0 < s 1) (h2 : 0 < s 2)
    (hsolid : P.solid = true) (hp : P.powerLaw = false) (hμ : 0 < P.μ) (hρ : 0 < P.ρ0) (hb : 0 < P.b02)
    (hu : 1e-12 ≤ (invariants s).2) :
    (∀ Q, theta1inv P Q = 0) ∧ ∃ dt > 0, ∃ A', relaxA P U W s dt A = some A' ∧ A' ≠ A :=
  ⟨fun Q => by simp [theta1inv, hsolid, hp], always_relaxed P A U W s hs h0 h1 h2 hp hμ hρ hb hu⟩

/-- Bingham fluids do not flow below their yield stress, yet the analytic solver relaxes them. -/
theorem bingham_relaxed (P : Par) (Q : St) (U W : M3) (s : V3) (hs : IsSVD (getA Q) U W s) (h0 : 0 < s 0) (h1 : 0 < s 1)
    (h2 : 0 < s 2) (hsolid : P.solid = false) (hbi : P.bingham = true) (hp : P.powerLaw = false) (hμ : 0 < P.μ)
    (hρ : 0 < P.ρ0) (hb : 0 < P.b02) (hu : 1e-12 ≤ (invariants s).2)
    (hy : Real.sqrt (∑ i, ∑ j, sigma P.toParams Q i j * sigma P.toParams Q i j) / Real.sqrt 2 ≤ P.σY) :
    theta1inv P Q = 0 ∧ ∃ dt > 0, ∃ A', relaxA P U W s dt (getA Q) = some A' ∧ A' ≠ getA Q :=
  ⟨by simp only [theta1inv, hsolid, hbi, Bool.false_eq_true, if_false, if_true, if_neg (not_lt.2 hy)],
    always_relaxed P (getA Q) U W s hs h0 h1 h2 hp hμ hρ hb hu⟩

/-- A stretched elastic solid that meets the hypotheses. -/
example : ∃ (P : Par) (s : V3), IsSVD (Matrix.diagonal s) 1 1 s ∧ 0 < s 0 ∧ 0 < s 1 ∧ 0 < s 2 ∧ P.solid = true ∧
    P.powerLaw = false ∧ 0 < P.μ ∧ 0 < P.ρ0 ∧ 0 < P.b02 ∧ 1e-12 ≤ (invariants s).2 := by
  refine ⟨{ samplePar sample with solid := true }, ![2, 3 / 2, 1 / 3], svd_diag _ (by
    intro i; fin_cases i <;> norm_num), by norm_num, by norm_num, by norm_num [at_two], rfl, rfl,
    by norm_num [samplePar, sample], by norm_num [samplePar, sample], by norm_num [samplePar, sample], ?_⟩
  rw [invariants_eq]
  simp only [unitMean, unit_stretch 2 (3 / 2) (1 / 3) (by norm_num), at_two]
  norm_num

/-- A negative mean below minus one, which no triple of squares has, makes the solver produce NaN. -/
theorem squares_none (m : ℝ) (hm : m < -1) : squares m 0 = none := by
  have hm3 : m * m * m < -1 := by nlinarith [mul_pos (show 0 < -m by linarith) (show 0 < -m by linarith)]
  have hx : firstRoot m 0 < 0 := by
    unfold firstRoot pos
    simp only [mul_zero, add_zero, zero_sub, zero_div]
    have hΔ : 4 < -2 * m * m * m + 2 := by nlinarith
    rw [if_neg (by rw [abs_of_pos (by linarith)]; norm_num; linarith),
      if_pos (max_eq_left (by nlinarith [mul_self_nonneg (-2 * m * m * m + 2)]))]
    set t := cbrt (54 * (-2 * m * m * m + 2)) with ht
    have h3 := cbrt_cube (54 * (-2 * m * m * m + 2))
    rw [← ht] at h3
    by_contra hc
    push Not at hc
    have h6 : -m ≤ t / 6 := by linarith
    have hp : 0 < -m := by linarith
    have : (-m) * (-m) * (-m) ≤ (t / 6) * (t / 6) * (t / 6) := by
      have h0 : 0 ≤ t / 6 := by linarith
      exact mul_le_mul (mul_le_mul h6 h6 hp.le h0) h6 hp.le (mul_self_nonneg _)
    nlinarith
  unfold squares
  simp only
  split_ifs with h1 h2
  · rfl
  · rfl
  · exact absurd (Or.inl hx) h2

/-- **C50 is not vacuous but not total**: stretches 4, 1 and 1/4 of a Newtonian fluid relax to NaN over a suitable
positive step. -/
theorem relax_nan : ∃ (P : Par) (s : V3) (dt : ℝ), 0 < dt ∧ (∀ i, 0 < s i) ∧ P.powerLaw = false ∧ 0 < P.μ ∧
    relaxA P 1 1 s dt (Matrix.diagonal s) = none := by
  refine ⟨samplePar sample, ![4, 1, 1 / 4], Real.log 2, Real.log_pos (by norm_num), ?_, rfl,
    by norm_num [samplePar, sample], ?_⟩
  · intro i; fin_cases i <;> norm_num
  · have hp : ![(4 : ℝ), 1, 1 / 4] 0 * ![(4 : ℝ), 1, 1 / 4] 1 * ![(4 : ℝ), 1, 1 / 4] 2 = 1 := by
      rw [at_two]; norm_num
    have hi : invariants ![4, 1, 1 / 4] = (91 / 16, 20475 / 128) := by
      rw [invariants_eq]
      simp only [unitMean, unit_stretch 4 1 (1 / 4) (by norm_num), at_two]
      norm_num
    unfold relaxA
    simp only [hi, hp, cbrt_one]
    rw [if_pos (by norm_num), nondimTime_newtonian _ _ _ _ _ _ rfl (by norm_num [samplePar, sample])]
    simp only
    have e6 : Real.exp (-6 * ((samplePar sample).ρ0 * (samplePar sample).b02 * (1 : ℝ) ^ (7 : ℝ) /
        (3 * (samplePar sample).μ) * Real.log 2)) = 1 / 4 := by
      have : -6 * ((samplePar sample).ρ0 * (samplePar sample).b02 * (1 : ℝ) ^ (7 : ℝ) /
        (3 * (samplePar sample).μ) * Real.log 2) = Real.log (1 / 4) := by
        rw [show (1 / 4 : ℝ) = 2 ^ (-2 : ℝ) by norm_num [Real.rpow_neg], Real.log_rpow (by norm_num)]
        norm_num [samplePar, sample]
        ring
      rw [this, Real.exp_log (by norm_num)]
    have e9 : Real.exp (-9 * ((samplePar sample).ρ0 * (samplePar sample).b02 * (1 : ℝ) ^ (7 : ℝ) /
        (3 * (samplePar sample).μ) * Real.log 2)) = 1 / 8 := by
      have : -9 * ((samplePar sample).ρ0 * (samplePar sample).b02 * (1 : ℝ) ^ (7 : ℝ) /
        (3 * (samplePar sample).μ) * Real.log 2) = Real.log (1 / 8) := by
        rw [show (1 / 8 : ℝ) = 2 ^ (-3 : ℝ) by norm_num [Real.rpow_neg], Real.log_rpow (by norm_num)]
        norm_num [samplePar, sample]
        ring
      rw [this, Real.exp_log (by norm_num)]
    unfold newSquares meanAt spreadAt pos
    simp only [e6, e9]
    rw [max_eq_left (by norm_num), squares_none _ (by norm_num)]
    rfl

end

end Verif.Relax
