import Verif.Riemann.Rates
import Mathlib.Analysis.Matrix.Spectrum

/-!
# The columns of `riemann_constraints` are outgoing waves
-/

namespace Verif.Riemann

open Verif.Sys Verif.Eig Verif.Rot

section
variable (c : Cfg) (P : Par) (S : Solvers) (Q : St)

/-- Density, pressure and distortion of `Ξ2 w`. -/
theorem X2_entries (hv : c.viscous = true) (hm : P.multi = false) (hR : Verif.Eig.Regular c P Q) (w : Fin (n1 c) → ℝ) :
    hd2 ((X2 c P Q).mulVec w) = (matB c P Q).mulVec (fun k => w (k.castLE (three_le c))) + (if c.thermal then
      ![0, P.cα2 * temperatureMG P.toParams (Q 0) (pressure c P Q) / (Q 0 * dEdp c P Q) *
        w ⟨n1 c - 1, by have := three_le c; omega⟩] else 0) ∧
    tl3 ((X2 c P Q).mulVec w) = (getA Q).mulVec (fun k => w (k.castLE (three_le c))) := by
  have h := X2_wave c P Q (mk c 0 w) hv hm hR
  rw [Wn_mk] at h
  rw [h]
  have ev : ∀ k : Fin 3, mk c 0 w (2 + k) = w (k.castLE (three_le c)) := mk_v c 0 w
  have eg : getRv (mk c 0 w) = fun k : Fin 3 => w (k.castLE (three_le c)) := by funext k; exact ev k
  have e0 := ac_0 c P Q (mk c 0 w) 0
  have e1 := ac_1 c P Q (mk c 0 w) 0
  have eA := fun a => ac_getA c P Q (mk c 0 w) 0 a 0
  rw [ev] at e0 e1
  rw [eg] at e1
  simp only [eg, if_true] at eA
  constructor
  · funext i
    fin_cases i
    · simp only [hd2, U5, Matrix.mulVec, dotProduct, Fin.sum_univ_three, matB, Matrix.of_apply, Pi.add_apply]
      split_ifs <;> simp [e0]
    · have e14 : c.thermal = true → mk c 0 w (14 + (0 : Fin 3)) = w ⟨n1 c - 1, by have := three_le c; omega⟩ := fun ht => by
        rw [mk_J c 0 w ht, if_pos rfl]
      simp only [hd2, U5, Matrix.mulVec, dotProduct, Fin.sum_univ_three, matB, Matrix.of_apply, Pi.add_apply]
      split_ifs with ht
      · rw [if_pos ht, e14 ht] at e1
        simp [e1, dot3]
        ring
      · rw [if_neg ht] at e1
        simp [e1, dot3]
        ring
  · funext a
    have := eA a
    rw [Matrix.mulVec, dotProduct, Fin.sum_univ_three]
    rw [dot3] at this
    rw [← this]
    fin_cases a <;> rfl

/-- The changes of density, pressure and distortion in `X` come from a deformation. -/
theorem matX_X2 (hv : c.viscous = true) (hm : P.multi = false) (hR : Verif.Eig.Regular c P Q) (hS : S.Ok)
    (hA : (getA Q).det ≠ 0) (hreg : (system c P Q).det ≠ 0) (hZ : c.thermal = false → (matZ c P Q).det ≠ 0)
    (hT : c.thermal = true → P.cα2 * temperatureMG P.toParams (Q 0) (pressure c P Q) / (Q 0 * dEdp c P Q) ≠ 0)
    (x : Fin (n1 c) → ℝ) : ∃ w, (matX c P S Q).mulVec x = (X2 c P Q).mulVec w := by
  have hspec := matX_spec c P S Q hS hreg x
  set u := (matX c P S Q).mulVec x with hu
  have h3 := three_le c
  set w3 := (getA Q)⁻¹.mulVec (tl3 u) with hw3
  have hback : (getA Q).mulVec w3 = tl3 u := by
    rw [hw3, Matrix.mulVec_mulVec, Matrix.mul_nonsing_inv _ (isUnit_iff_ne_zero.2 hA), Matrix.one_mulVec]
  have hext : ∀ v : Fin 5 → ℝ, hd2 v = hd2 u → tl3 v = tl3 u → u = v := by
    intro v h1 h2
    funext i
    fin_cases i
    · exact (congrFun h1 0).symm
    · exact (congrFun h1 1).symm
    · exact (congrFun h2 0).symm
    · exact (congrFun h2 1).symm
    · exact (congrFun h2 2).symm
  by_cases ht : c.thermal = true
  · have hn : n1 c = 4 := by unfold n1; rw [ht]; rfl
    set κ := P.cα2 * temperatureMG P.toParams (Q 0) (pressure c P Q) / (Q 0 * dEdp c P Q) with hκ
    let w : Fin (n1 c) → ℝ := fun k => if h : k.1 < 3 then w3 ⟨k, h⟩ else (u 1 - (matB c P Q).mulVec w3 1) / κ
    have ew : (fun k : Fin 3 => w (k.castLE h3)) = w3 := by
      funext k
      simp [w]
    have el : w ⟨n1 c - 1, by omega⟩ = (u 1 - (matB c P Q).mulVec w3 1) / κ := by
      simp only [w]
      rw [dif_neg (by omega)]
    obtain ⟨e1, e2⟩ := X2_entries c P Q hv hm hR w
    rw [ew, if_pos ht, el] at e1
    rw [ew, hback] at e2
    refine ⟨w, hext _ ?_ e2⟩
    rw [e1]
    have h4 := congrFun hspec 4
    rw [dif_neg (by simp [hn])] at h4
    have h4' : -1 / Q 0 * u 0 + w3 0 = 0 := by
      rw [← h4, hw3]
      simp only [Matrix.mulVec, dotProduct, Fin.sum_univ_five, Fin.sum_univ_three, system, Matrix.of_apply, ht, tl3]
      simp
      ring
    funext i
    fin_cases i
    · have hρ := hR.dens
      simp only [hd2, Matrix.mulVec, dotProduct, Fin.sum_univ_three, matB, Matrix.of_apply, Pi.add_apply]
      simp
      field_simp at h4'
      linarith
    · have := hT ht
      simp only [hd2, Pi.add_apply]
      simp
      field_simp
      ring
  · have ht' : c.thermal = false := by simpa using ht
    have hn : n1 c = 3 := by unfold n1; rw [if_neg ht]
    let w : Fin (n1 c) → ℝ := fun k => if h : k.1 < 3 then w3 ⟨k, h⟩ else 0
    have ew : (fun k : Fin 3 => w (k.castLE h3)) = w3 := by
      funext k
      simp [w]
    obtain ⟨e1, e2⟩ := X2_entries c P Q hv hm hR w
    rw [ew, if_neg ht, add_zero] at e1
    rw [ew, hback] at e2
    refine ⟨w, hext _ ?_ e2⟩
    have hW : (matW c P Q).mulVec u = 0 := by
      have hz : ((matZ c P Q)⁻¹).det ≠ 0 := by
        rw [Matrix.det_nonsing_inv, Ring.inverse_eq_inv']
        exact inv_ne_zero (hZ ht')
      refine mulVec_inj hz ?_
      rw [Matrix.mulVec_zero]
      funext i
      rw [← system_bot c P Q ht', hspec]
      exact dif_neg (by simp only [hn]; omega)
    rw [matW_eq, sub_eq_zero] at hW
    rw [e1, hW, hw3, Matrix.mulVec_mulVec]

/-- The velocity part of a column, in terms of the same deformation. -/
theorem vel_part (w : Fin (n1 c) → ℝ) (hspeed : ∀ i, 0 < S.eval (n1 c) (X1 c P Q * X2 c P Q) i)
    (hdet : (S.evec (n1 c) (X1 c P Q * X2 c P Q)).det ≠ 0)
    (heig : (X1 c P Q * X2 c P Q) * S.evec (n1 c) (X1 c P Q * X2 c P Q) = S.evec (n1 c) (X1 c P Q * X2 c P Q) *
      Matrix.diagonal (S.eval (n1 c) (X1 c P Q * X2 c P Q))) :
    (Y0 c P S Q).mulVec ((X1 c P Q * X2 c P Q).mulVec w) = (S.evec (n1 c) (X1 c P Q * X2 c P Q) *
      Matrix.diagonal (fun i => Real.sqrt (S.eval (n1 c) (X1 c P Q * X2 c P Q) i)) *
      (S.evec (n1 c) (X1 c P Q * X2 c P Q))⁻¹).mulVec w := by
  set Ξ := X1 c P Q * X2 c P Q with hΞ
  set V := S.evec (n1 c) Ξ
  set d := S.eval (n1 c) Ξ
  have hV := isUnit_iff_ne_zero.2 hdet
  have e : Ξ = V * Matrix.diagonal d * V⁻¹ := by
    rw [← heig, Matrix.mul_assoc, Matrix.mul_nonsing_inv _ hV, Matrix.mul_one]
  rw [Matrix.mulVec_mulVec, Y0]
  simp only [← hΞ]
  congr 1
  calc V * Matrix.diagonal (fun i => Real.sqrt (d i)⁻¹) * V⁻¹ * Ξ
      = V * Matrix.diagonal (fun i => Real.sqrt (d i)⁻¹) * (V⁻¹ * V) * Matrix.diagonal d * V⁻¹ := by
        rw [e]; simp only [Matrix.mul_assoc]
    _ = V * (Matrix.diagonal (fun i => Real.sqrt (d i)⁻¹) * Matrix.diagonal d) * V⁻¹ := by
        rw [Matrix.nonsing_inv_mul _ hV, Matrix.mul_one]; simp only [Matrix.mul_assoc]
    _ = V * Matrix.diagonal (fun i => Real.sqrt (d i)) * V⁻¹ := by
        rw [Matrix.diagonal_mul_diagonal]
        congr 3
        funext i
        have h := hspeed i
        rw [Real.sqrt_inv]
        have hs : Real.sqrt (d i) ≠ 0 := (Real.sqrt_pos.2 h).ne'
        field_simp
        exact (Real.sq_sqrt h.le).symm

/-- A wave: an eigenvector of the acoustic tensor gives rates on which the acoustic operator is multiplication by a speed. -/
theorem wave (hv : c.viscous = true) (hm : P.multi = false) (hR : Verif.Eig.Regular c P Q) (v : Fin (n1 c) → ℝ) (s : ℝ)
    (h : (X1 c P Q * X2 c P Q).mulVec v = (s * s) • v) (i : Nat) :
    acoustic c P Q 0 (mk c ((X2 c P Q).mulVec v) (s • v)) i = s * mk c ((X2 c P Q).mulVec v) (s • v) i := by
  rw [acoustic_mk c P Q _ _ hv hm hR, Matrix.mulVec_mulVec, h, Matrix.mulVec_smul, mul_smul, mk_smul]

/-- Rates on which the acoustic operator is multiplication by a speed give an eigenvector of the system matrix. -/
theorem wave_eigen (hv : c.viscous = true) (hm : P.multi = false) (hr : P.reaction > -1 → c.multi = true)
    (hR : Verif.Eig.Regular c P Q) (y : St) (s : ℝ) (h : ∀ i, acoustic c P Q 0 y i = s * y i) (i : Nat) (hi : i < c.V) :
    rowDot c.V (systemMatrix c P Q 0) (toCons c P Q y) i = (vel Q 0 + s) * toCons c P Q y i := by
  have hE : dEdp c P Q ≠ 0 := by
    simp only [dEdp, hm, Bool.false_eq_true, if_false, dedp]
    exact one_div_ne_zero (mul_ne_zero hR.dens hR.grun)
  rw [system_primitive c P Q _ 0 hv hm hr hR.dens hR.grun hR.shear hR.sound i hi, ← toCons_smul]
  refine toCons_congr c P Q hv _ _ (fun i hi => ?_) i hi
  have e1 := toPrim_toCons c P Q y hr hR.dens hE hv
  rw [acoustic_congr c P Q _ _ 0 hv e1, e1 i hi, h i]
  ring

theorem toCons_sum {ι : Type} [Fintype ι] (y : ι → St) (i : Nat) :
    toCons c P Q (fun j => ∑ k, y k j) i = ∑ k, toCons c P Q (y k) i := by
  classical
  have h : ∀ (s : Finset ι), toCons c P Q (fun j => ∑ k ∈ s, y k j) i = ∑ k ∈ s, toCons c P Q (y k) i := by
    intro s
    induction s using Finset.induction_on with
    | empty =>
      have := toCons_smul c P Q 0 0 i
      simp only [zero_mul] at this
      simpa using this
    | insert a s ha ih =>
      rw [Finset.sum_insert ha, ← ih]
      simp only [Finset.sum_insert ha]
      have hg : ∀ k b, getA (fun j => y a j + ∑ x ∈ s, y x j) k b = getA (y a) k b + getA (fun j => ∑ x ∈ s, y x j) k b :=
        fun _ _ => rfl
      unfold toCons
      simp only [hg, mul_add, Finset.sum_add_distrib, dot3, getRv, getRJ]
      split_ifs <;> ring
  exact h Finset.univ

/-- **Outgoing waves** (C71).  Whatever traction change `riemann_constraints` is used for, the state changes, to first order, by a
sum of right eigenvectors of the system matrix whose waves all leave the interface: on the left (`sgn = 1`) they move to the
left relative to the material, on the right (`sgn = -1`) to the right. -/
theorem outgoing (hv : c.viscous = true) (hm : P.multi = false) (hr : P.reaction > -1 → c.multi = true) (hS : S.Ok)
    (hP : Verif.Sys.Regular P.toParams (Q 0)) (hΓ : gammaMG P.toParams (Q 0) ≠ 0) (hreg : (system c P Q).det ≠ 0)
    (hT : c.thermal = true → P.cα2 * temperatureMG P.toParams (Q 0) (pressure c P Q) ≠ 0)
    (hdiag : ∃ (W : Matrix (Fin (n1 c)) (Fin (n1 c)) ℝ) (d : Fin (n1 c) → ℝ), W.det ≠ 0 ∧
      (X1 c P Q * X2 c P Q) * W = W * Matrix.diagonal d)
    (sgn : ℝ) (hsgn : sgn = 1 ∨ sgn = -1) (R : Hat c) (hR : constraints c P S sgn Q = some R) (x : Fin (n1 c) → ℝ) :
    ∃ (r : Fin (n1 c) → St) (s : Fin (n1 c) → ℝ), (∀ k, 0 < s k) ∧
      (∀ k, ∀ i < c.V, rowDot c.V (systemMatrix c P Q 0) (r k) i = (vel Q 0 - sgn * s k) * r k i) ∧
      ∀ i < c.V, HasDerivAt (fun t : ℝ => shift c P R (t • x) Q i) (∑ k, r k i) 0 := by
  unfold constraints at hR
  split_ifs at hR with hD
  simp only [Option.some.injEq] at hR
  have hE := hD.energy
  have hReg : Verif.Eig.Regular c P Q := ⟨hD.dens, hΓ, hD.shear, hD.sound, fun ht => ⟨(hD.heat ht).1, (hD.heat ht).2.2.1⟩⟩
  obtain ⟨w, hw⟩ := matX_X2 c P S Q hv hm hReg hS hD.dist hreg (fun ht => (hD.plain ht).2)
    (fun ht => div_ne_zero (hT ht) (mul_ne_zero hD.dens hE)) x
  obtain ⟨-, heig⟩ := hS.eigen _ _ hdiag
  have hvel := vel_part c P S Q w hD.speeds hD.basis heig
  set Ξ := X1 c P Q * X2 c P Q with hΞ
  set V := S.evec (n1 c) Ξ with hVdef
  set d := S.eval (n1 c) Ξ with hd
  have hV := isUnit_iff_ne_zero.2 hD.basis
  set a := V⁻¹.mulVec w with ha
  have hwa : w = ∑ k, a k • V.col k := by
    have : w = V.mulVec a := by rw [ha, Matrix.mulVec_mulVec, Matrix.mul_nonsing_inv _ hV, Matrix.one_mulVec]
    rw [this]
    funext i
    simp only [Matrix.mulVec, dotProduct, Finset.sum_apply, Pi.smul_apply, smul_eq_mul, Matrix.col_apply]
    exact Finset.sum_congr rfl fun k _ => mul_comm _ _
  have hcol : ∀ k, Ξ.mulVec (V.col k) = d k • V.col k := by
    intro k
    funext i
    have := congrFun (congrFun heig i) k
    rw [Matrix.mul_diagonal] at this
    rw [Pi.smul_apply, smul_eq_mul, mul_comm, Matrix.col_apply, ← this]
    rfl
  have hss : sgn * sgn = 1 := by rcases hsgn with h | h <;> rw [h] <;> norm_num
  have hsq : ∀ k, Ξ.mulVec (a k • V.col k) = (-sgn * Real.sqrt (d k) * (-sgn * Real.sqrt (d k))) • (a k • V.col k) := by
    intro k
    rw [Matrix.mulVec_smul, hcol, smul_comm]
    congr 1
    have := Real.mul_self_sqrt (hD.speeds k).le
    linear_combination -this - Real.sqrt (d k) * Real.sqrt (d k) * hss
  refine ⟨fun k => toCons c P Q (mk c ((X2 c P Q).mulVec (a k • V.col k)) ((-sgn * Real.sqrt (d k)) • (a k • V.col k))),
    fun k => Real.sqrt (d k), fun k => Real.sqrt_pos.2 (hD.speeds k), fun k i hi => ?_, fun i hi => ?_⟩
  · rw [wave_eigen c P Q hv hm hr hReg _ _ (wave c P Q hv hm hReg _ _ (hsq k)) i hi]
    ring
  · refine (shift_rate c P Q R x hv hm hr hP hΓ i hi).congr_deriv ?_
    rw [← toCons_sum]
    congr 1
    rw [← mk_sum, rate]
    congr 1
    · rw [← hR, hw, hwa, Matrix.mulVec_sum]
    · rw [← hR]
      simp only
      rw [Matrix.smul_mulVec, Matrix.mul_assoc, ← Matrix.mulVec_mulVec, ← Matrix.mulVec_mulVec, hw, Matrix.mulVec_mulVec w,
        ← hΞ, hvel, ← Matrix.mulVec_mulVec, ← Matrix.mulVec_mulVec, ← ha]
      funext i
      simp only [Matrix.mulVec, dotProduct, Finset.sum_apply, Pi.smul_apply, smul_eq_mul, Matrix.col_apply,
        Matrix.diagonal_apply, ite_mul, zero_mul, Finset.sum_ite_eq, Finset.mem_univ, if_true, Finset.mul_sum]
      exact Finset.sum_congr rfl fun k _ => by ring

end

end Verif.Riemann
