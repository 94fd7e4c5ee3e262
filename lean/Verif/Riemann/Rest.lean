import Verif.Riemann.Traction

/-!
# States in which `riemann_constraints` works
-/

namespace Verif.Riemann

open Verif.Sys Verif.Eig Verif.Rot

/-- Solvers with the documented behaviour exist. -/
theorem exists_ok : ∃ S : Solvers, S.Ok := by
  classical
  refine ⟨⟨fun M b => M⁻¹.mulVec b,
    fun k M => if h : ∃ (W : Matrix (Fin k) (Fin k) ℝ) (d : Fin k → ℝ), W.det ≠ 0 ∧ M * W = W * Matrix.diagonal d
      then h.choose else 0,
    fun k M => if h : ∃ (W : Matrix (Fin k) (Fin k) ℝ) (d : Fin k → ℝ), W.det ≠ 0 ∧ M * W = W * Matrix.diagonal d
      then h.choose_spec.choose else 0⟩, fun M b h => ?_, fun k M h => ?_⟩
  · simp only
    rw [Matrix.mulVec_mulVec, Matrix.mul_nonsing_inv _ (isUnit_iff_ne_zero.2 h), Matrix.one_mulVec]
  · simp only
    rw [dif_pos h, dif_pos h]
    exact h.choose_spec.choose_spec

section
variable (c : Cfg) (P : Par) (S : Solvers) (Q : St)

/-- Positive definiteness of the acoustic tensor makes all computed squared speeds positive. -/
theorem speeds_pos (hv : c.viscous = true) (ht : c.thermal = false) (hS : S.Ok)
    (hpos : ∀ w : Fin (n1 c) → ℝ, w ≠ 0 → 0 < dotProduct w ((X1 c P Q * X2 c P Q).mulVec w)) (i : Fin (n1 c)) :
    0 < S.eval (n1 c) (X1 c P Q * X2 c P Q) i := by
  obtain ⟨hdet, h⟩ := hS.eigen _ _ (tensor_real c P Q hv ht)
  set Ξ := X1 c P Q * X2 c P Q
  set V := S.evec (n1 c) Ξ
  set d := S.eval (n1 c) Ξ
  have hcol : Ξ.mulVec (V.col i) = d i • V.col i := by
    funext j
    have := congrFun (congrFun h j) i
    rw [Matrix.mul_diagonal] at this
    rw [Pi.smul_apply, smul_eq_mul, mul_comm, Matrix.col_apply, ← this]
    rfl
  have hne : V.col i ≠ 0 := by
    intro e
    apply hdet
    exact Matrix.det_eq_zero_of_column_eq_zero i fun j => congrFun e j
  have h1 := hpos _ hne
  rw [hcol, dotProduct_smul, smul_eq_mul] at h1
  exact pos_of_mul_pos_left h1 (Finset.sum_nonneg fun j _ => mul_self_nonneg _)

/-- The acoustic tensor of unstretched material. -/
theorem tensor_first (hv : c.viscous = true) (ht : c.thermal = false) (hρ : Q 0 ≠ 0) (hA : getA Q = 1) :
    tensor3 c P Q 0 = Matrix.diagonal ![c0 c P Q * c0 c P Q + 4 / 3 * cs2 P.toParams (Q 0), cs2 P.toParams (Q 0),
      cs2 P.toParams (Q 0)] := by
  obtain ⟨hs, hsr, hsA⟩ := unit_stress P.toParams Q hA 0
  ext i j
  fin_cases i <;> fin_cases j <;>
    simp [tensor3, Matrix.mul_apply, Fin.sum_univ_five, xi1, xi2, hv, ht, hs, hsr, hsA, hA, Matrix.one_apply] <;>
    field_simp <;> ring

theorem unit_pos (hv : c.viscous = true) (ht : c.thermal = false) (hρ : Q 0 ≠ 0) (hA : getA Q = 1)
    (hk : 0 < cs2 P.toParams (Q 0)) (w : Fin (n1 c) → ℝ) (hw : w ≠ 0) :
    0 < dotProduct w ((X1 c P Q * X2 c P Q).mulVec w) := by
  have e := tensor_first c P Q hv ht hρ hA
  have hc := mul_self_nonneg (c0 c P Q)
  obtain ⟨v, t, m, l, x⟩ := c
  simp only at ht
  subst ht
  change Fin 3 → ℝ at w
  change 0 < dotProduct w ((tensor3 ⟨v, false, m, l, x⟩ P Q 0).mulVec w)
  rw [e]
  have hsq : 0 < w 0 * w 0 + w 1 * w 1 + w 2 * w 2 := by
    by_contra hn
    apply hw
    have h0 := mul_self_nonneg (w 0)
    have h1 := mul_self_nonneg (w 1)
    have h2 := mul_self_nonneg (w 2)
    funext i
    fin_cases i
    · exact mul_self_eq_zero.1 (by linarith : w 0 * w 0 = 0)
    · exact mul_self_eq_zero.1 (by linarith : w 1 * w 1 = 0)
    · exact mul_self_eq_zero.1 (by linarith : w 2 * w 2 = 0)
  simp only [dotProduct, Fin.sum_univ_three, Matrix.mulVec_diagonal]
  simp
  nlinarith [mul_pos hk hsq, mul_nonneg hc (mul_self_nonneg (w 0)), mul_nonneg hk.le (mul_self_nonneg (w 0))]

/-- In unstretched material nothing is singular. -/
theorem unit_defined (hv : c.viscous = true) (ht : c.thermal = false) (hm : P.multi = false) (hS : S.Ok)
    (hR : Verif.Eig.Regular c P Q) (hA : getA Q = 1) (hk : 0 < cs2 P.toParams (Q 0)) (hb : P.b02 ≠ 0) :
    Defined c P S Q := by
  have hρ := hR.dens
  obtain ⟨hs, hsr, hsA⟩ := unit_stress P.toParams Q hA 0
  have hdev : AdevG (1 : M3) = 0 := by
    ext i j
    fin_cases i <;> fin_cases j <;> simp [AdevG] <;> norm_num
  have hPi : dsigmadAd P.toParams Q 0 = Matrix.diagonal ![-4 / 3 * (Q 0 * cs2 P.toParams (Q 0)),
      -(Q 0 * cs2 P.toParams (Q 0)), -(Q 0 * cs2 P.toParams (Q 0))] := by
    ext i j
    rw [hsA]
    fin_cases i <;> fin_cases j <;> simp <;> ring
  have hdet : (dsigmadAd P.toParams Q 0).det ≠ 0 := by
    rw [hPi, Matrix.det_diagonal, Fin.prod_univ_three]
    simp
    exact ⟨hρ, hk.ne'⟩
  have hC : (dsigmadAd P.toParams Q 0)⁻¹ * rhs P Q =
      Matrix.of fun i j => if i = 0 ∧ j = 1 then -3 / (4 * Q 0 * cs2 P.toParams (Q 0)) else 0 := by
    have e : dsigmadAd P.toParams Q 0 * (Matrix.of fun (i : Fin 3) (j : Fin 2) =>
        if i = 0 ∧ j = 1 then -3 / (4 * Q 0 * cs2 P.toParams (Q 0)) else 0) = rhs P Q := by
      have hk' := hk.ne'
      rw [hPi]
      ext i j
      rw [Matrix.diagonal_mul]
      fin_cases i <;> fin_cases j <;> simp [rhs, hsr]
      field_simp
    rw [← e, ← Matrix.mul_assoc, Matrix.nonsing_inv_mul _ (isUnit_iff_ne_zero.2 hdet), Matrix.one_mul]
  have hZ : (matZ c P Q).det ≠ 0 := by
    unfold matZ
    rw [hC, hA, inv_one, Matrix.mul_one, Matrix.det_fin_two]
    simp only [Matrix.sub_apply, Matrix.mul_apply, Fin.sum_univ_three, matB, Matrix.of_apply, hs, hsr]
    simp
    have h1 : 0 ≤ Q 0 * c0 c P Q * c0 c P Q * (3 / (4 * Q 0 * cs2 P.toParams (Q 0))) := by
      have e : Q 0 * c0 c P Q * c0 c P Q * (3 / (4 * Q 0 * cs2 P.toParams (Q 0))) =
          c0 c P Q * c0 c P Q * (3 / (4 * cs2 P.toParams (Q 0))) := by
        field_simp
      rw [e]
      have := mul_self_nonneg (c0 c P Q)
      positivity
    intro h
    rw [neg_div] at h
    linarith
  refine ⟨hρ, hR.shear, ?_, hR.sound, ?_, ?_, fun _ => ⟨hdet, hZ⟩, fun h => absurd h (by simp [ht]),
    speeds_pos c P S Q hv ht hS (unit_pos c P Q hv ht hρ hA hk), (hS.eigen _ _ (tensor_real c P Q hv ht)).1⟩
  · simp only [dEdp, hm, Bool.false_eq_true, if_false, dedp]
    exact one_div_ne_zero (mul_ne_zero hρ hR.grun)
  · rw [hA, Matrix.det_one]; exact one_ne_zero
  · have e : pi1 P Q = Matrix.diagonal ![-4 / 3 * (Q 0 * P.b02), -(Q 0 * P.b02), -(Q 0 * P.b02)] := by
      ext i j
      unfold pi1
      rw [Matrix.of_apply, hA, hdev]
      fin_cases i <;> fin_cases j <;> simp [dsigmadA, Matrix.one_apply] <;> ring
    rw [e, Matrix.det_diagonal, Fin.prod_univ_three]
    simp
    exact ⟨hρ, hb⟩

/-- **Hyperbolicity** (C72) without heat conduction: the tensor of `thermo_acoustic_tensor` along the first axis is symmetric;
where it is positive definite there are speeds such that every vector is a sum of right eigenvectors of the system matrix with
the eigenvalues `v`, `v + s k` and `v - s k`. -/
theorem hyperbolic_plain (hv : c.viscous = true) (ht : c.thermal = false) (hm : P.multi = false)
    (hr : P.reaction > -1 → c.multi = true) (hR : Verif.Eig.Regular c P Q)
    (hpos : ∀ w : Fin 3 → ℝ, w ≠ 0 → 0 < dotProduct w ((tensor3 c P Q 0).mulVec w)) :
    (tensor3 c P Q 0).IsSymm ∧ ∃ s : Fin 3 → ℝ, (∀ k, 0 < s k) ∧
      ∀ x : St, ∃ (r0 : St) (r l : Fin 3 → St), (∀ i < c.V, rowDot c.V (systemMatrix c P Q 0) r0 i = vel Q 0 * r0 i) ∧
        (∀ k, ∀ i < c.V, rowDot c.V (systemMatrix c P Q 0) (r k) i = (vel Q 0 + s k) * r k i) ∧
        (∀ k, ∀ i < c.V, rowDot c.V (systemMatrix c P Q 0) (l k) i = (vel Q 0 - s k) * l k i) ∧
        ∀ i < c.V, x i = r0 i + ∑ k, (r k i + l k i) := by
  refine ⟨tensor3_symm c P Q hv ht, ?_⟩
  obtain ⟨S, hS⟩ := exists_ok
  have h := hS.eigen _ _ (tensor_real c P Q hv ht)
  have hd : ∀ i, 0 < S.eval (n1 c) (X1 c P Q * X2 c P Q) i := by
    refine speeds_pos c P S Q hv ht hS ?_
    obtain ⟨v, t, m, l, x⟩ := c
    simp only at ht
    subst ht
    exact hpos
  have hyp := hyperbolic c P Q hv hm hr hR _ _ h.1 hd h.2
  obtain ⟨v, t, m, l, x⟩ := c
  simp only at ht
  subst ht
  exact ⟨fun k => Real.sqrt (S.eval _ _ k), fun k => Real.sqrt_pos.2 (hd k), hyp⟩

/-- At rest and without stretch the speeds are those of one longitudinal and two transverse waves. -/
example : ∃ s : Fin 3 → ℝ, (∀ k, 0 < s k) ∧ ∀ x : St, ∃ (r0 : St) (r l : Fin 3 → St),
    (∀ i < 16, rowDot 16 (systemMatrix (cfgOf false) (samplePar sample) stateAtRest 0) r0 i = 0) ∧
    (∀ k, ∀ i < 16, rowDot 16 (systemMatrix (cfgOf false) (samplePar sample) stateAtRest 0) (r k) i = s k * r k i) ∧
    (∀ k, ∀ i < 16, rowDot 16 (systemMatrix (cfgOf false) (samplePar sample) stateAtRest 0) (l k) i = -s k * l k i) ∧
    ∀ i < 16, x i = r0 i + ∑ k, (r k i + l k i) := by
  obtain ⟨hA, hR, hk, -, h0, -⟩ := rest_facts false
  have := (hyperbolic_plain (cfgOf false) (samplePar sample) stateAtRest rfl rfl rfl (by simp [samplePar]) hR
    (unit_pos (cfgOf false) (samplePar sample) stateAtRest rfl rfl hR.dens hA hk)).2
  have hV : (cfgOf false).V = 16 := rfl
  simpa only [hV, h0, zero_add, zero_sub, zero_mul] using this

end

/-- **Outgoing waves** (C71) for one step of `star_stepper` with materials on both sides: to first order the state on the left
changes by waves that run to the left of the material there, and the state on the right by waves that run to the right of
the material there. -/
theorem star_outgoing (c : Cfg) (stick : Bool) (S : Solvers) (junk : Fin 2 → Fin (n1 c) → ℝ) (PL PR : Par) (s s' : St × St)
    (hv : c.viscous = true) (ht : c.thermal = false) (hS : S.Ok)
    (hrL : PL.reaction > -1 → c.multi = true) (hrR : PR.reaction > -1 → c.multi = true)
    (hPL : Verif.Sys.Regular PL.toParams (s.1 0)) (hPR : Verif.Sys.Regular PR.toParams (s.2 0))
    (hL : Side c PL s.1 s'.1) (hR : Side c PR s.2 s'.2)
    (h : starStepper c stick S junk PL (some PR) s = some s') :
    (∃ (r : Fin (n1 c) → St) (a : Fin (n1 c) → ℝ), (∀ k, 0 < a k) ∧
      (∀ k, ∀ i < c.V, rowDot c.V (systemMatrix c PL s.1 0) (r k) i = (vel s.1 0 - a k) * r k i) ∧
      ∀ i < c.V, HasDerivAt (fun t : ℝ => between c PL s.1 s'.1 t i) (∑ k, r k i) 0) ∧
    ∃ (r : Fin (n1 c) → St) (a : Fin (n1 c) → ℝ), (∀ k, 0 < a k) ∧
      (∀ k, ∀ i < c.V, rowDot c.V (systemMatrix c PR s.2 0) (r k) i = (vel s.2 0 + a k) * r k i) ∧
      ∀ i < c.V, HasDerivAt (fun t : ℝ => between c PR s.2 s'.2 t i) (∑ k, r k i) 0 := by
  obtain ⟨RL, RR, x, eL, eR, -, rfl⟩ := stepper_some h
  have hreg : ∀ (P : Par) (sgn : ℝ) (Q : St) R, constraints c P S sgn Q = some R → (system c P Q).det ≠ 0 := by
    intro P sgn Q R hR
    unfold constraints at hR
    split_ifs at hR with hD
    exact system_regular c P Q ht (hD.plain ht).1 (hD.plain ht).2
  constructor
  · have := outgoing c PL S s.1 hv hL.pure hrL hS hPL hL.grun (hreg _ _ _ _ eL) (fun h => absurd h (by simp [ht]))
      (tensor_real c PL s.1 hv ht) 1 (Or.inl rfl) RL eL (x - tractions c PL s.1)
    simp only [between_shift c PL s.1 RL _ hv hL.pure hL.dens' hL.grun']
    simpa only [one_mul] using this
  · have := outgoing c PR S s.2 hv hR.pure hrR hS hPR hR.grun (hreg _ _ _ _ eR) (fun h => absurd h (by simp [ht]))
      (tensor_real c PR s.2 hv ht) (-1) (Or.inr rfl) RR eR (x - tractions c PR s.2)
    simp only [between_shift c PR s.2 RR _ hv hR.pure hR.dens' hR.grun']
    simpa only [neg_mul, one_mul, sub_neg_eq_add] using this

/-! ### A collision -/

/-- The material of `stateAtRest`, moving to the right with velocity `v`. -/
noncomputable def moving (v : ℝ) : St := fun i => if i = 1 then 5 + v * v / 2 else if i = 2 then v else stateAtRest i

theorem moving_facts (v : ℝ) : getA (moving v) = 1 ∧ Verif.Eig.Regular (cfgOf false) (samplePar sample) (moving v) ∧
    cs2 (samplePar sample).toParams (moving v 0) = 1 ∧ pressure (cfgOf false) (samplePar sample) (moving v) = 5 ∧
    c0 (cfgOf false) (samplePar sample) (moving v) * c0 (cfgOf false) (samplePar sample) (moving v) = 10 ∧
    moving v 0 = 1 := by
  have hA : getA (moving v) = 1 := by
    ext i j
    fin_cases i <;> fin_cases j <;> simp [getA, moving, stateAtRest]
  have h0 : moving v 0 = 1 := by simp [moving, stateAtRest]
  have hd : devGsq (getA (moving v)) = 0 := by
    rw [hA]; simp [devGsq, dot3]; norm_num
  have hE3 : E3 (vel (moving v)) = v * v / 2 := by simp [E3, sq3, vel, getRv, moving, stateAtRest]
  have hp : pressure (cfgOf false) (samplePar sample) (moving v) = 5 := by
    have h2 : E2A (samplePar sample).toParams (moving v 0) (getA (moving v)) = 0 := by rw [E2A, hd, mul_zero]
    have h1 : moving v 1 = 5 + v * v / 2 := by simp [moving]
    simp only [pressure, internalEnergy, hE3, h2, h1]
    norm_num [samplePar, sample, pressureMG, eRef, pRef, gammaMG, h0, cfgOf]
  have hE : (pressure (cfgOf false) (samplePar sample) (moving v) / (moving v 0 * moving v 0) -
      dEdrho (cfgOf false) (samplePar sample) (moving v)) / dEdp (cfgOf false) (samplePar sample) (moving v) = 10 := by
    simp only [dEdrho, dEdp, hp, hd, h0]
    norm_num [samplePar, sample, dedrho, dedp, gammaMG, pRef, eRef, dpRef, deRef, dGammaMG]
  have hcs : cs2 (samplePar sample).toParams (moving v 0) = 1 := by norm_num [cs2, samplePar, sample, h0]
  refine ⟨hA, ⟨by norm_num [h0], by norm_num [gammaMG, samplePar, sample], by norm_num [hcs], by rw [hE]; norm_num, ?_⟩,
    hcs, hp, ?_, h0⟩
  · intro h
    exact absurd h (by simp [cfgOf])
  · unfold c0
    rw [hE]
    exact Real.mul_self_sqrt (by norm_num)

/-- On an eigenvector the inverse root is what it should be. -/
theorem root_eigen {n : Nat} (M V : Matrix (Fin n) (Fin n) ℝ) (d : Fin n → ℝ) (hV : V.det ≠ 0)
    (h : M * V = V * Matrix.diagonal d) (w : Fin n → ℝ) (m : ℝ) (hw : M.mulVec w = m • w) :
    (V * Matrix.diagonal (fun i => Real.sqrt (d i)⁻¹) * V⁻¹).mulVec w = Real.sqrt m⁻¹ • w := by
  have hU := isUnit_iff_ne_zero.2 hV
  set a := V⁻¹.mulVec w with ha
  have hwa : w = V.mulVec a := by rw [ha, Matrix.mulVec_mulVec, Matrix.mul_nonsing_inv _ hU, Matrix.one_mulVec]
  have hda : ∀ i, d i * a i = m * a i := by
    have e : V.mulVec ((Matrix.diagonal d).mulVec a) = V.mulVec (m • a) := by
      rw [Matrix.mulVec_mulVec, ← h, ← Matrix.mulVec_mulVec, ← hwa, hw, hwa, Matrix.mulVec_smul]
    intro i
    have := congrFun (mulVec_inj hV e) i
    rwa [Matrix.mulVec_diagonal] at this
  rw [← Matrix.mulVec_mulVec, ← ha, ← Matrix.mulVec_mulVec]
  conv_rhs => rw [hwa, ← Matrix.mulVec_smul]
  congr 1
  funext i
  rw [Matrix.mulVec_diagonal, Pi.smul_apply, smul_eq_mul]
  by_cases h0 : a i = 0
  · rw [h0, mul_zero, mul_zero]
  · rw [mul_right_cancel₀ h0 (hda i)]

/-- A normal change of traction of unstretched material, and the velocity and density it goes with. -/
theorem unit_normal (c : Cfg) (P : Par) (S : Solvers) (Q : St) (hv : c.viscous = true) (ht : c.thermal = false) (hS : S.Ok)
    (hρ : Q 0 ≠ 0) (hA : getA Q = 1) (hk : 0 < cs2 P.toParams (Q 0)) (sgn : ℝ) (R : Hat c)
    (hR : constraints c P S sgn Q = some R) (z : ℝ) :
    R.vel.mulVec (Pi.single ⟨0, by have := three_le c; omega⟩ z) = Pi.single ⟨0, by have := three_le c; omega⟩
      (-sgn / Q 0 * (Real.sqrt (c0 c P Q * c0 c P Q + 4 / 3 * cs2 P.toParams (Q 0))⁻¹ * z)) ∧
    R.top.mulVec (Pi.single ⟨0, by have := three_le c; omega⟩ z) 0 =
      z / (c0 c P Q * c0 c P Q + 4 / 3 * cs2 P.toParams (Q 0)) := by
  have h3 := three_le c
  set M := c0 c P Q * c0 c P Q + 4 / 3 * cs2 P.toParams (Q 0) with hM
  have hMpos : 0 < M := by
    have := mul_self_nonneg (c0 c P Q)
    linarith
  obtain ⟨hs, hsr, hsA⟩ := unit_stress P.toParams Q hA 0
  obtain ⟨hD, htop⟩ : Defined c P S Q ∧ R.top = matX c P S Q := by
    have hR := hR
    unfold constraints at hR
    split_ifs at hR with hD
    simp only [Option.some.injEq] at hR
    rw [← hR]
    exact ⟨hD, rfl⟩
  constructor
  · have e : (X1 c P Q * X2 c P Q).mulVec (Pi.single ⟨0, by omega⟩ z) = M • Pi.single ⟨0, by omega⟩ z := by
      have e := tensor_first c P Q hv ht hρ hA
      obtain ⟨v, t, m, l, x⟩ := c
      simp only at ht
      subst ht
      change (tensor3 ⟨v, false, m, l, x⟩ P Q 0).mulVec (Pi.single (0 : Fin 3) z) = M • Pi.single (0 : Fin 3) z
      rw [e]
      funext i
      rw [Matrix.mulVec_diagonal]
      fin_cases i <;> simp [hM]
    have hY := root_eigen _ _ _ hD.basis (hS.eigen _ _ (tensor_real c P Q hv ht)).2 _ _ e
    rw [vel_plain c P S Q hv ht hS sgn R hR, Matrix.smul_mulVec]
    unfold Y0
    simp only
    rw [hY, ← Pi.single_smul, ← Pi.single_smul, smul_eq_mul, smul_eq_mul]
  · have hreg := system_regular c P Q ht (hD.plain ht).1 (hD.plain ht).2
    have hn : n1 c = 3 := by unfold n1; rw [ht]; rfl
    have hu : (matX c P S Q).mulVec (Pi.single ⟨0, by omega⟩ z) =
        ![z / M, c0 c P Q * c0 c P Q * (z / M), z / (Q 0 * M), 0, 0] := by
      refine mulVec_inj hreg ?_
      rw [matX_spec c P S Q hS hreg]
      have htl : tl3 ![z / M, c0 c P Q * c0 c P Q * (z / M), z / (Q 0 * M), 0, 0] = ![z / (Q 0 * M), 0, 0] := rfl
      have hhd : hd2 ![z / M, c0 c P Q * c0 c P Q * (z / M), z / (Q 0 * M), 0, 0] =
        ![z / M, c0 c P Q * c0 c P Q * (z / M)] := rfl
      have hW : (matW c P Q).mulVec ![z / M, c0 c P Q * c0 c P Q * (z / M), z / (Q 0 * M), 0, 0] = 0 := by
        rw [matW_eq, htl, hhd, hA, inv_one, Matrix.mul_one]
        have hB0 : ∀ j, matB c P Q 0 j = if j = 0 then Q 0 else 0 := fun _ => rfl
        have hB1 : ∀ j, matB c P Q 1 j = if j = 0 then Q 0 * c0 c P Q * c0 c P Q else 0 := by
          intro j
          have : matB c P Q 1 j = sigmaCol P.toParams Q 0 j - Q 0 * dsigmadrho P.toParams Q 0 j +
            if j = 0 then Q 0 * c0 c P Q * c0 c P Q else 0 := rfl
          rw [this, hs, hsr]
          simp
        funext i
        fin_cases i
        · simp [Matrix.mulVec, dotProduct, Fin.sum_univ_three, hB0]
          field_simp
          ring
        · simp [Matrix.mulVec, dotProduct, Fin.sum_univ_three, hB1]
          field_simp
          ring
      have hb : ∀ i : Fin 2, (system c P Q).mulVec ![z / M, c0 c P Q * c0 c P Q * (z / M), z / (Q 0 * M), 0, 0]
          ⟨3 + i, by omega⟩ = 0 := by
        intro i
        rw [system_bot c P Q ht, hW, Matrix.mulVec_zero]
        rfl
      have htp : ∀ i : Fin 3, (system c P Q).mulVec ![z / M, c0 c P Q * c0 c P Q * (z / M), z / (Q 0 * M), 0, 0]
          ⟨i, by omega⟩ = if i = 0 then z else 0 := by
        intro i
        rw [system_top c P Q, htl, hhd]
        have hk' := hk.ne'
        have hM' := hMpos.ne'
        fin_cases i <;>
          simp [Matrix.mulVec, dotProduct, Fin.sum_univ_three, Fin.sum_univ_two, rhs, hsr, hsA]
        field_simp
        rw [hM]
        ring
      funext r
      by_cases hr : r.1 < 3
      · have := htp ⟨r, hr⟩
        rw [dif_pos (by omega)]
        refine Eq.trans ?_ this.symm
        by_cases h0 : r.1 = 0
        · rw [if_pos (Fin.ext h0)]
          have : (⟨r.1, by omega⟩ : Fin (n1 c)) = ⟨0, by omega⟩ := Fin.ext h0
          rw [this, Pi.single_eq_same]
        · rw [if_neg (fun e => h0 (congrArg Fin.val e))]
          exact Pi.single_eq_of_ne (M := fun _ => ℝ) (fun e => h0 (congrArg Fin.val e)) z
      · have := hb ⟨r - 3, by omega⟩
        rw [dif_neg (by omega)]
        have er : (⟨3 + (r.1 - 3), by omega⟩ : Fin 5) = r := Fin.ext (by simp; omega)
        rw [← er]
        exact this.symm
    rw [htop, hu]
    rfl

/-- A normal vector. -/
noncomputable def normal (z : ℝ) : Fin (n1 (cfgOf false)) → ℝ := fun i => if i.1 = 0 then z else 0

theorem normal_single (z : ℝ) : Pi.single ⟨0, by have := three_le (cfgOf false); omega⟩ z = normal z := by
  funext i
  rw [Pi.single_apply]
  unfold normal
  congr 1
  rw [Fin.ext_iff]

/-- Material that runs into material at rest: both sides are compressed and take the mean velocity, sticking or slipping. -/
theorem collision (stick : Bool) : ∃ (S : Solvers) (s' : St × St), S.Ok ∧
    starStepper (cfgOf false) stick S (fun _ _ => 0) (samplePar sample) (some (samplePar sample)) (moving 1, moving 0) =
      some s' ∧ s'.1 0 = 1 + 1 / (2 * Real.sqrt (34 / 3)) ∧ s'.2 0 = 1 + 1 / (2 * Real.sqrt (34 / 3)) ∧
      s'.1 2 = s'.1 0 * (1 / 2) ∧ s'.2 2 = s'.2 0 * (1 / 2) := by
  obtain ⟨S, hS⟩ := exists_ok
  have hb : (samplePar sample).b02 ≠ 0 := by norm_num [samplePar, sample]
  have hdef : ∀ v, Defined (cfgOf false) (samplePar sample) S (moving v) := by
    intro v
    obtain ⟨hA, hR, hk, -⟩ := moving_facts v
    exact unit_defined (cfgOf false) (samplePar sample) S _ rfl rfl rfl hS hR hA (by rw [hk]; norm_num) hb
  obtain ⟨s', h⟩ := bcs_some (cfgOf false) S (fun _ _ => 0) (samplePar sample) (samplePar sample) stick
    (moving 1, moving 0) rfl rfl hS (hdef 1) (hdef 0) (by simp [moving, stateAtRest]) (by simp [moving, stateAtRest])
  refine ⟨S, s', hS, h, ?_⟩
  obtain ⟨RL, RR, x, eL, eR, hx, rfl⟩ := stepper_some h
  have hun : ∀ (v sgn : ℝ) (R : Hat (cfgOf false)), constraints (cfgOf false) (samplePar sample) S sgn (moving v) = some R →
      ∀ z, R.vel.mulVec (normal z) = normal (-sgn * ((Real.sqrt (34 / 3 : ℝ))⁻¹ * z)) ∧
        R.top.mulVec (normal z) 0 = z / (34 / 3) := by
    intro v sgn R hR z
    obtain ⟨hA, hReg, hk, hp, hc, h0⟩ := moving_facts v
    have := unit_normal (cfgOf false) (samplePar sample) S (moving v) rfl rfl hS hReg.dens hA (by rw [hk]; norm_num) sgn R hR z
    rw [hc, hk, h0, div_one, show (10 + 4 / 3 * 1 : ℝ) = 34 / 3 by norm_num, Real.sqrt_inv] at this
    simpa only [normal_single] using this
  have htr : ∀ v, tractions (cfgOf false) (samplePar sample) (moving v) = normal 5 := by
    intro v
    obtain ⟨hA, hReg, hk, hp, hc, h0⟩ := moving_facts v
    obtain ⟨hs, -⟩ := unit_stress (samplePar sample).toParams (moving v) hA 0
    funext i
    change Fin 3 at i
    fin_cases i <;> simp [tractions, SigmaCol, hs, hp, normal]
  have hvel : ∀ v, velocities (cfgOf false) (moving v) = normal v := by
    intro v
    funext i
    change Fin 3 at i
    fin_cases i <;> simp [velocities, vel, getRv, moving, stateAtRest, normal]
  have hL := hun 1 1 RL eL
  have hR := hun 0 (-1) RR eR
  simp only [htr] at hx ⊢
  set k := (Real.sqrt (34 / 3 : ℝ))⁻¹ with hkdef
  have hk : k ≠ 0 := inv_ne_zero (Real.sqrt_pos.2 (by norm_num)).ne'
  have hki : Real.sqrt (34 / 3 : ℝ) = 1 / k := by rw [hkdef, one_div, inv_inv]
  have hz : x = normal (5 + 1 / (2 * k)) := by
    cases stick
    · rw [if_neg (by simp)] at hx
      unfold slipBcs at hx
      rw [if_neg (by simp [cfgOf])] at hx
      split_ifs at hx with hd
      simp only [Option.some.injEq] at hx
      rw [← hx]
      have hrow : ∀ (R : Hat (cfgOf false)) z, dotProduct (row0 (cfgOf false) R) (normal z) =
        R.vel.mulVec (normal z) ⟨0, by have := three_le (cfgOf false); omega⟩ := fun _ _ => rfl
      have hrow1 : ∀ (R : Hat (cfgOf false)), row0 (cfgOf false) R ⟨0, by have := three_le (cfgOf false); omega⟩ =
          R.vel.mulVec (normal 1) ⟨0, by have := three_le (cfgOf false); omega⟩ := by
        intro R
        rw [← normal_single, Matrix.mulVec_single_one]
        rfl
      funext i
      rw [hrow, hrow, hrow1, hrow1, (hL 5).1, (hR 5).1, (hL 1).1, (hR 1).1]
      unfold normal
      simp only [if_true]
      by_cases hi : i.1 = 0
      · rw [if_pos hi, if_pos hi]
        have h1 : moving 1 2 / moving 1 0 = 1 := by simp [moving, stateAtRest]
        have h2 : moving 0 2 / moving 0 0 = 0 := by simp [moving, stateAtRest]
        rw [h1, h2]
        field_simp
        ring
      · rw [if_neg hi, if_neg hi]
    · rw [if_pos rfl] at hx
      unfold stickBcs at hx
      split_ifs at hx with hd
      simp only [Option.some.injEq] at hx
      have hx : (RL.vel - RR.vel).mulVec x = velocities (cfgOf false) (moving 0) - velocities (cfgOf false) (moving 1) +
          RL.vel.mulVec (normal 5) - RR.vel.mulVec (normal 5) := by
        rw [← hx, Matrix.mulVec_mulVec, Matrix.mul_nonsing_inv _ (isUnit_iff_ne_zero.2 hd), Matrix.one_mulVec]
      refine mulVec_inj hd ?_
      rw [hx, Matrix.sub_mulVec, hvel, hvel, (hL _).1, (hR _).1, (hL _).1, (hR _).1]
      funext i
      simp only [Pi.add_apply, Pi.sub_apply, normal]
      by_cases hi : i.1 = 0
      · simp only [hi, if_true]
        field_simp
        ring
      · simp only [hi, if_false]
        ring
  have hz' : x - normal 5 = normal (1 / (2 * k)) := by
    rw [hz]
    funext i
    simp only [Pi.sub_apply, normal]
    split_ifs <;> ring
  rw [hz', hki]
  have h0 : ∀ v, moving v 0 = 1 := fun v => (moving_facts v).2.2.2.2.2
  have hv0 : ∀ v, vel (moving v) 0 = v := by intro v; simp [vel, getRv, moving, stateAtRest]
  have hkk : k * k = 3 / 34 := by
    rw [hkdef, ← mul_inv, Real.mul_self_sqrt (by norm_num)]
    norm_num
  have d : ∀ v sgn R, constraints (cfgOf false) (samplePar sample) S sgn (moving v) = some R →
      shift (cfgOf false) (samplePar sample) R (normal (1 / (2 * k))) (moving v) 0 = 1 + 1 / (2 * (1 / k)) ∧
      shift (cfgOf false) (samplePar sample) R (normal (1 / (2 * k))) (moving v) 2 =
        shift (cfgOf false) (samplePar sample) R (normal (1 / (2 * k))) (moving v) 0 * (v - sgn / 2) := by
    intro v sgn R e
    have hu := hun v sgn R e (1 / (2 * k))
    constructor
    · rw [shift_dens _ _ _ _ _ rfl, h0, hu.2]
      field_simp
      linarith
    · have := shift_mom (cfgOf false) (samplePar sample) R (normal (1 / (2 * k))) (moving v) rfl 0
      simp only [Fin.val_zero, Nat.add_zero] at this
      rw [this, hu.1, hv0]
      congr 2
      simp only [normal, Fin.val_castLE, Fin.val_zero, if_true]
      field_simp
  obtain ⟨d1, d2⟩ := d 1 1 RL eL
  obtain ⟨d3, d4⟩ := d 0 (-1) RR eR
  refine ⟨d1, d3, ?_, ?_⟩
  · rw [d2]; norm_num
  · rw [d4]; norm_num

/-- The collision meets the hypotheses of the theorems on tractions and waves. -/
example (stick : Bool) : ∃ (S : Solvers) (s' : St × St), S.Ok ∧
    starStepper (cfgOf false) stick S (fun _ _ => 0) (samplePar sample) (some (samplePar sample)) (moving 1, moving 0) =
      some s' ∧ Side (cfgOf false) (samplePar sample) (moving 1) s'.1 ∧ Side (cfgOf false) (samplePar sample) (moving 0) s'.2 ∧
      ∃ x : V3, Heads (cfgOf false) (samplePar sample) (moving 1) s'.1 x ∧
        Heads (cfgOf false) (samplePar sample) (moving 0) s'.2 x := by
  obtain ⟨S, s', hS, h, h1, h2, -⟩ := collision stick
  have hp : (0 : ℝ) < 1 + 1 / (2 * Real.sqrt (34 / 3)) := by positivity
  have hg : ∀ ρ, gammaMG (samplePar sample).toParams ρ ≠ 0 := by intro ρ; norm_num [gammaMG, samplePar, sample]
  have side : ∀ v Q', Q' 0 = 1 + 1 / (2 * Real.sqrt (34 / 3)) → Side (cfgOf false) (samplePar sample) (moving v) Q' :=
    fun v Q' h => ⟨rfl, by norm_num [samplePar, sample], by rw [(moving_facts v).2.2.2.2.2]; norm_num,
      by norm_num [samplePar, sample], hg _, by rw [h]; exact hp.ne', hg _, fun h => absurd h (by simp [cfgOf])⟩
  refine ⟨S, s', hS, h, side 1 _ h1, side 0 _ h2, ?_⟩
  cases stick
  · obtain ⟨x, -, -, h3, h4⟩ := slip_traction (cfgOf false) S (fun _ _ => 0) (samplePar sample) (samplePar sample)
      (moving 1, moving 0) s' rfl hS h (side 1 _ h1) (side 0 _ h2)
    exact ⟨x, h3, h4⟩
  · exact stick_traction (cfgOf false) S (fun _ _ => 0) (samplePar sample) (samplePar sample)
      (moving 1, moving 0) s' rfl hS h (side 1 _ h1) (side 0 _ h2)

/-- The collision also meets the hypotheses on the equation of state of `star_outgoing`. -/
example (v : ℝ) : Verif.Sys.Regular (samplePar sample).toParams (moving v 0) ∧
    ((samplePar sample).reaction > -1 → (cfgOf false).multi = true) := by
  rw [(moving_facts v).2.2.2.2.2]
  exact ⟨(sample_regular .stiffenedGas 1 one_pos).1, fun h => absurd h (by norm_num [samplePar])⟩

end Verif.Riemann
