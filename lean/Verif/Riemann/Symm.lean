import Verif.Riemann.Outgoing

/-!
# The acoustic tensor is symmetric, and the equations are hyperbolic
-/

namespace Verif.Riemann

open Verif.Sys Verif.Eig Verif.Rot

section
variable (c : Cfg) (P : Par) (Q : St)

theorem stress_skew (i j : Fin 3) : (dsigmadAd P.toParams Q 0 * getA Q) i j - (dsigmadAd P.toParams Q 0 * getA Q) j i =
    (if i = 0 then sigmaCol P.toParams Q 0 j else 0) - (if j = 0 then sigmaCol P.toParams Q 0 i else 0) := by
  set G := (getA Q).transpose * getA Q with hG
  have hGs : ∀ i j, G i j = G j i := by
    intro i j
    simp only [hG, Matrix.mul_apply, Matrix.transpose_apply, mul_comm]
  set D : M3 := Matrix.of fun i j => if i = j then G i j - (G 0 0 + G 1 1 + G 2 2) / 3 else G i j with hD
  have hAd : AdevG (getA Q) = getA Q * D := rfl
  have hDG : (AdevG (getA Q)).transpose * getA Q = D * G := by
    have hDs : D.transpose = D := by
      ext i j
      simp only [hD, Matrix.transpose_apply, Matrix.of_apply, hGs j i]
      simp only [eq_comm]
    rw [hAd, Matrix.transpose_mul, hDs, hG, Matrix.mul_assoc]
  have hDGs : ∀ i j, (D * G) i j = (D * G) j i := by
    intro i j
    have : (D * G).transpose = D * G := by
      have hc : D = G - ((G 0 0 + G 1 1 + G 2 2) / 3) • (1 : M3) := by
        ext i j
        simp only [hD, Matrix.of_apply, Matrix.sub_apply, Matrix.smul_apply, Matrix.one_apply, smul_eq_mul]
        split_ifs <;> ring
      have hGt : G.transpose = G := by ext i j; exact hGs j i
      rw [Matrix.transpose_mul, hc]
      simp only [Matrix.transpose_sub, Matrix.transpose_smul, Matrix.transpose_one, hGt, Matrix.mul_sub, Matrix.sub_mul,
        Matrix.mul_smul, Matrix.smul_mul, Matrix.mul_one, Matrix.one_mul]
    exact (congrFun (congrFun this j) i)
  have hσ : ∀ j, sigmaCol P.toParams Q 0 j = -Q 0 * cs2 P.toParams (Q 0) * (D * G) j 0 := by
    intro j
    rw [← hDG]
    simp only [sigmaCol, dEdAs, Matrix.mulVec, dotProduct, Fin.sum_univ_three, Matrix.transpose_apply, Pi.smul_apply,
      smul_eq_mul, Matrix.smul_apply, Matrix.mul_apply]
    ring
  have hPi : ∀ i j, (dsigmadAd P.toParams Q 0 * getA Q) i j = -Q 0 * cs2 P.toParams (Q 0) *
      ((if i = 0 then 2 else 1) * (D * G) i j + 1 / 3 * G 0 i * G 0 j + G 0 0 * G i j) := by
    intro i j
    have e1 : (D * G) i j = ∑ m, AdevG (getA Q) m i * getA Q m j := by
      rw [← hDG]; simp only [Matrix.mul_apply, Matrix.transpose_apply]
    have e2 : ∀ a b, G a b = ∑ m, getA Q m a * getA Q m b := by
      intro a b; simp only [hG, Matrix.mul_apply, Matrix.transpose_apply]
    rw [e1]
    simp only [dsigmadAd, Matrix.mul_apply, Matrix.smul_apply, Matrix.transpose_apply, Matrix.of_apply, smul_eq_mul,
      Fin.sum_univ_three]
    rw [e2 0 i, e2 0 j, e2 i j, e2 0 0]
    simp only [Fin.sum_univ_three]
    generalize AdevG (getA Q) = B
    split_ifs <;> ring
  rw [hPi, hPi, hσ, hσ, hDGs j i, hGs j i]
  fin_cases i <;> fin_cases j <;> simp <;> rw [hDGs] <;> ring

theorem tensor3_symm (hv : c.viscous = true) (ht : c.thermal = false) : (tensor3 c P Q 0).IsSymm := by
  have key : ∀ i j : Fin 3, tensor3 c P Q 0 i j = 1 / Q 0 * ((if i = 0 then
      (sigmaCol P.toParams Q 0 j - Q 0 * dsigmadrho P.toParams Q 0 j +
        if j = 0 then Q 0 * c0 c P Q * c0 c P Q else 0) else 0) -
      (if j = 0 then dsigmadrho P.toParams Q 0 i * Q 0 else 0) - (dsigmadAd P.toParams Q 0 * getA Q) i j) := by
    intro i j
    simp only [tensor3, Matrix.mul_apply, Fin.sum_univ_five, Fin.sum_univ_three, xi1, xi2, hv, ht, Matrix.submatrix_apply]
    generalize c0 c P Q = k
    generalize dsigmadrho P.toParams Q 0 = l
    generalize sigmaCol P.toParams Q 0 = e
    generalize dsigmadAd P.toParams Q 0 = B
    generalize getA Q = A
    fin_cases i <;> fin_cases j <;> simp <;> ring
  ext i j
  have h := stress_skew P Q j i
  rw [Matrix.transpose_apply, key, key]
  simp only [dsigmadrho, Pi.smul_apply, smul_eq_mul]
  congr 1
  fin_cases i <;> fin_cases j <;> simp at h ⊢ <;> first | linear_combination -h | linear_combination h

theorem tensor_real (hv : c.viscous = true) (ht : c.thermal = false) :
    ∃ (W : Matrix (Fin (n1 c)) (Fin (n1 c)) ℝ) (d : Fin (n1 c) → ℝ), W.det ≠ 0 ∧
      (X1 c P Q * X2 c P Q) * W = W * Matrix.diagonal d := by
  have hs : (X1 c P Q * X2 c P Q).IsHermitian := by
    have := tensor3_symm c P Q hv ht
    obtain ⟨v, t, m, l, x⟩ := c
    simp only at ht
    subst ht
    exact this
  refine ⟨hs.eigenvectorUnitary, hs.eigenvalues, ?_, ?_⟩
  · have := Matrix.UnitaryGroup.det_isUnit hs.eigenvectorUnitary
    exact this.ne_zero
  · have := hs.spectral_theorem
    have hu : (star (hs.eigenvectorUnitary : Matrix (Fin (n1 c)) (Fin (n1 c)) ℝ)) * hs.eigenvectorUnitary = 1 :=
      Unitary.coe_star_mul_self _
    have e := congrArg (· * (hs.eigenvectorUnitary : Matrix (Fin (n1 c)) (Fin (n1 c)) ℝ)) this
    rw [Unitary.conjStarAlgAut_apply] at e
    refine e.trans ?_
    rw [Matrix.mul_assoc]
    refine (congrArg _ hu).trans ?_
    rw [Matrix.mul_one]
    rfl

/-- The rates the acoustic operator gives. -/
theorem acoustic_form (y : St) (hv : c.viscous = true) (hm : P.multi = false) (hR : Verif.Eig.Regular c P Q) :
    acoustic c P Q 0 y = mk c ((X2 c P Q).mulVec (Wn c y)) (Wn c (acoustic c P Q 0 y)) := by
  have e2 := X2_wave c P Q y hv hm hR
  have h3 := three_le c
  refine mk_ext c _ _ hv _ ?_ ?_ (fun k => ?_) (fun a b => ?_) (fun ht k => ?_) (fun i hi => ac_tail c P Q _ hv 0 i hi)
  · rw [e2]; rfl
  · rw [e2]; rfl
  · unfold Wn
    rw [if_pos (by simp)]
    rfl
  · rw [e2, ac_A]
    by_cases hb : b = 0
    · rw [if_pos hb, if_pos hb]
      have : getA (acoustic c P Q 0 y) a 0 = dot3 (getA Q a) (getRv y) := by
        rw [ac_getA, if_pos rfl]
      rw [← this]
      fin_cases a <;> rfl
    · rw [if_neg hb, if_neg hb]
  · by_cases hk : k = 0
    · rw [if_pos hk, hk]
      have hn : n1 c = 4 := by unfold n1; rw [ht]; rfl
      unfold Wn
      rw [if_neg (by simp only; omega)]
      rfl
    · rw [ac_J c P Q _ ht, if_neg hk, if_neg hk]

theorem toCons_add (y z : St) (i : Nat) : toCons c P Q (fun j => y j + z j) i = toCons c P Q y i + toCons c P Q z i := by
  have := toCons_sum c P Q (fun b : Bool => if b then y else z) i
  simpa using this

/-- **Hyperbolicity** (C72): if the acoustic tensor has a basis of eigenvectors with positive eigenvalues `d`, every vector is a
sum of right eigenvectors of the system matrix with the real speeds `v`, `v + √d` and `v - √d`. -/
theorem hyperbolic (hv : c.viscous = true) (hm : P.multi = false) (hr : P.reaction > -1 → c.multi = true)
    (hR : Verif.Eig.Regular c P Q) (W : Matrix (Fin (n1 c)) (Fin (n1 c)) ℝ) (d : Fin (n1 c) → ℝ) (hW : W.det ≠ 0)
    (hd : ∀ i, 0 < d i) (h : (X1 c P Q * X2 c P Q) * W = W * Matrix.diagonal d) (x : St) :
    ∃ (r0 : St) (r s : Fin (n1 c) → St), (∀ i < c.V, rowDot c.V (systemMatrix c P Q 0) r0 i = vel Q 0 * r0 i) ∧
      (∀ k, ∀ i < c.V, rowDot c.V (systemMatrix c P Q 0) (r k) i = (vel Q 0 + Real.sqrt (d k)) * r k i) ∧
      (∀ k, ∀ i < c.V, rowDot c.V (systemMatrix c P Q 0) (s k) i = (vel Q 0 - Real.sqrt (d k)) * s k i) ∧
      ∀ i < c.V, x i = r0 i + ∑ k, (r k i + s k i) := by
  have hE : dEdp c P Q ≠ 0 := by
    simp only [dEdp, hm, Bool.false_eq_true, if_false, dedp]
    exact one_div_ne_zero (mul_ne_zero hR.dens hR.grun)
  set y := toPrim c P Q x with hy
  set Ξ := X1 c P Q * X2 c P Q with hΞ
  set w := Wn c y with hw
  set z := Wn c (acoustic c P Q 0 y) with hz
  have hU := isUnit_iff_ne_zero.2 hW
  have hcol : ∀ k, Ξ.mulVec (W.col k) = d k • W.col k := by
    intro k
    funext i
    have := congrFun (congrFun h i) k
    rw [Matrix.mul_diagonal] at this
    rw [Pi.smul_apply, smul_eq_mul, mul_comm, Matrix.col_apply, ← this]
    rfl
  have hexp : ∀ v : Fin (n1 c) → ℝ, v = ∑ k, (W⁻¹.mulVec v) k • W.col k := by
    intro v
    have : v = W.mulVec (W⁻¹.mulVec v) := by rw [Matrix.mulVec_mulVec, Matrix.mul_nonsing_inv _ hU, Matrix.one_mulVec]
    conv_lhs => rw [this]
    funext i
    simp only [Matrix.mulVec, dotProduct, Finset.sum_apply, Pi.smul_apply, smul_eq_mul, Matrix.col_apply]
    exact Finset.sum_congr rfl fun k _ => mul_comm _ _
  set a := W⁻¹.mulVec w with ha
  set b := W⁻¹.mulVec z with hb
  have hs : ∀ k, Real.sqrt (d k) ≠ 0 := fun k => (Real.sqrt_pos.2 (hd k)).ne'
  let p : Fin (n1 c) → ℝ := fun k => (a k / Real.sqrt (d k) + b k / d k) / 2
  let q : Fin (n1 c) → ℝ := fun k => (b k / d k - a k / Real.sqrt (d k)) / 2
  let yp : Fin (n1 c) → St := fun k => mk c ((X2 c P Q).mulVec (p k • W.col k)) (Real.sqrt (d k) • (p k • W.col k))
  let yq : Fin (n1 c) → St := fun k => mk c ((X2 c P Q).mulVec (q k • W.col k)) ((-Real.sqrt (d k)) • (q k • W.col k))
  let m : St := mk c ((X2 c P Q).mulVec (∑ k, (b k / d k) • W.col k)) w
  have hm' : m = fun i => ∑ k, (yp k i + yq k i) := by
    have e : ∀ k, (fun i => yp k i + yq k i) =
        mk c ((X2 c P Q).mulVec ((b k / d k) • W.col k)) (a k • W.col k) := by
      intro k
      have := mk_sum c (fun t : Bool => (X2 c P Q).mulVec ((if t then p k else q k) • W.col k))
        (fun t : Bool => (if t then Real.sqrt (d k) else -Real.sqrt (d k)) • ((if t then p k else q k) • W.col k))
      simp only [Fintype.sum_bool, if_true, Bool.false_eq_true, if_false] at this
      rw [← Matrix.mulVec_add, ← add_smul] at this
      refine this.symm.trans ?_
      congr 1
      · congr 2
        simp only [p, q]
        ring
      · rw [smul_smul, smul_smul, ← add_smul]
        congr 1
        simp only [p, q]
        field_simp [hs k]
        ring
    have e' : ∀ i, ∑ k, (yp k i + yq k i) =
        ∑ k, mk c ((X2 c P Q).mulVec ((b k / d k) • W.col k)) (a k • W.col k) i :=
      fun i => Finset.sum_congr rfl fun k _ => congrFun (e k) i
    simp only [e']
    rw [← mk_sum, ← hexp w, ← Matrix.mulVec_sum]
  let y0 : St := fun i => y i - m i
  have hy0 : ∀ i, acoustic c P Q 0 y0 i = 0 := by
    have e : y0 = fun i => 1 * y i + (-1) * m i := by funext i; simp only [y0]; ring
    have em : acoustic c P Q 0 m = mk c ((X2 c P Q).mulVec w) z := by
      rw [acoustic_mk c P Q _ _ hv hm hR, Matrix.mulVec_mulVec, ← hΞ, Matrix.mulVec_sum]
      congr 1
      conv_rhs => rw [hexp z]
      refine Finset.sum_congr rfl fun k _ => ?_
      rw [Matrix.mulVec_smul, hcol, smul_smul, div_mul_cancel₀ _ (hd k).ne']
    intro i
    rw [e, acoustic_lin, em, acoustic_form c P Q y hv hm hR]
    ring
  refine ⟨toCons c P Q y0, fun k => toCons c P Q (yp k), fun k => toCons c P Q (yq k), fun i hi => ?_, fun k i hi => ?_,
    fun k i hi => ?_, fun i hi => ?_⟩
  · rw [wave_eigen c P Q hv hm hr hR y0 0 (fun j => by rw [hy0, zero_mul]) i hi, add_zero]
  · refine wave_eigen c P Q hv hm hr hR _ _ (wave c P Q hv hm hR _ _ ?_) i hi
    rw [Matrix.mulVec_smul, ← hΞ, hcol, smul_comm, Real.mul_self_sqrt (hd k).le]
  · rw [sub_eq_add_neg]
    refine wave_eigen c P Q hv hm hr hR _ _ (wave c P Q hv hm hR _ _ ?_) i hi
    rw [Matrix.mulVec_smul, ← hΞ, hcol, smul_comm, neg_mul_neg, Real.mul_self_sqrt (hd k).le]
  · simp only [← toCons_add]
    rw [← toCons_sum, ← hm', ← toCons_add]
    have : (fun j => y0 j + m j) = y := by funext j; simp only [y0]; ring
    rw [this, hy, toCons_toPrim c P Q x hr hR.dens hE hv i hi]

end
end Verif.Riemann
