import Verif.Sys.Eos
import Verif.Sys.Model
import Mathlib.Analysis.Calculus.Deriv.Mul
import Mathlib.Analysis.Calculus.Deriv.Add

/-!
# C40: stress, shear energy and their derivatives

Partial derivatives are stated along an arbitrary differentiable curve of states, which for functions of finitely
many numbers is the same as total differentiability with the given partial derivatives.
-/

namespace Verif.Sys

/-- The curve of states `q` has velocity `q'` at time `t`, entry by entry. -/
def Along (q : ℝ → St) (q' : St) (t : ℝ) : Prop := ∀ i, HasDerivAt (fun s => q s i) (q' i) t

/-- The same for matrices. -/
def MDeriv (A : ℝ → M3) (A' : M3) (t : ℝ) : Prop := ∀ i j, HasDerivAt (fun s => A s i j) (A' i j) t

theorem MDeriv.mul {A B : ℝ → M3} {A' B' : M3} {t : ℝ} (hA : MDeriv A A' t) (hB : MDeriv B B' t) :
    MDeriv (fun s => A s * B s) (A' * B t + A t * B') t := by
  intro i j
  have : ∀ s, (A s * B s) i j = A s i 0 * B s 0 j + A s i 1 * B s 1 j + A s i 2 * B s 2 j := by
    intro s; rw [Matrix.mul_apply, Fin.sum_univ_three]
  simp only [this]
  refine ((((hA i 0).mul (hB 0 j)).add ((hA i 1).mul (hB 1 j))).add ((hA i 2).mul (hB 2 j))).congr_deriv ?_
  rw [Matrix.add_apply, Matrix.mul_apply, Matrix.mul_apply, Fin.sum_univ_three, Fin.sum_univ_three]
  ring

theorem MDeriv.transpose {A : ℝ → M3} {A' : M3} {t : ℝ} (hA : MDeriv A A' t) :
    MDeriv (fun s => (A s).transpose) A'.transpose t := fun i j => hA j i

/-- The trace-free part of a matrix. -/
noncomputable def dev (G : M3) : M3 :=
  Matrix.of fun i j => if i = j then G i j - (G 0 0 + G 1 1 + G 2 2) / 3 else G i j

theorem MDeriv.dev {G : ℝ → M3} {G' : M3} {t : ℝ} (hG : MDeriv G G' t) :
    MDeriv (fun s => dev (G s)) (dev G') t := by
  intro i j
  simp only [Verif.Sys.dev, Matrix.of_apply]
  split_ifs
  · exact (hG i j).sub ((((hG 0 0).add (hG 1 1)).add (hG 2 2)).div_const 3)
  · exact hG i j

theorem AdevG_eq (A : M3) : AdevG A = A * dev (A.transpose * A) := rfl

theorem MDeriv.AdevG {A : ℝ → M3} {A' : M3} {t : ℝ} (hA : MDeriv A A' t) :
    MDeriv (fun s => AdevG (A s))
      (A' * Verif.Sys.dev ((A t).transpose * A t) +
        A t * Verif.Sys.dev (A'.transpose * A t + (A t).transpose * A')) t := by
  have := hA.mul (hA.transpose.mul hA).dev
  exact this

theorem Along.getA {q : ℝ → St} {q' : St} {t : ℝ} (h : Along q q' t) :
    MDeriv (fun s => Verif.Sys.getA (q s)) (Verif.Sys.getA q') t := fun _ _ => h _

/-! ### The stress is symmetric -/

theorem sigma_apply (P : Params) (Q : St) (i d : Fin 3) : sigma P Q i d = sigmaCol P Q d i := rfl

/-- **C40**: the stress is a symmetric matrix. -/
theorem sigma_symm (P : Params) (Q : St) : (sigma P Q).transpose = sigma P Q := by
  unfold sigma dEdAs
  generalize getA Q = A
  rw [Matrix.transpose_smul]
  congr 1
  rw [Matrix.transpose_mul, Matrix.transpose_transpose, Matrix.transpose_smul, Matrix.mul_smul, Matrix.smul_mul]
  congr 1
  have hd : (dev (A.transpose * A)).transpose = dev (A.transpose * A) := by
    ext i j
    fin_cases i <;> fin_cases j <;> simp [dev, Matrix.mul_apply, Fin.sum_univ_three] <;> ring
  have hc : (A.transpose * A) * dev (A.transpose * A) = dev (A.transpose * A) * (A.transpose * A) := by
    generalize A.transpose * A = G
    ext i j
    fin_cases i <;> fin_cases j <;> simp [dev, Matrix.mul_apply, Fin.sum_univ_three] <;> ring
  rw [AdevG_eq, Matrix.transpose_mul, hd, Matrix.mul_assoc, ← hc, Matrix.mul_assoc]

/-- Trace-free, too, is not claimed: the trace of the stress is `-ρ c_s² tr(G dev G)`. The two-argument and
three-argument forms of `sigma` agree, and each column is symmetric with the others. -/
theorem sigmaCol_symm (P : Params) (Q : St) (i j : Fin 3) : sigmaCol P Q i j = sigmaCol P Q j i := by
  rw [← sigma_apply, ← sigma_apply]
  conv_lhs => rw [← sigma_symm, Matrix.transpose_apply]

/-! ### Derivatives -/

/-- `devGsq` computes the squared norm of the deviator from `A Aᵀ`; it is the same number for `Aᵀ A`. -/
theorem devGsq_eq (A : M3) : devGsq A =
    ∑ i, ∑ j, dev (A.transpose * A) i j * dev (A.transpose * A) i j := by
  simp only [devGsq, dot3, dev, Fin.sum_univ_three, Matrix.of_apply, Matrix.mul_apply, Matrix.transpose_apply]
  simp
  ring

theorem dev_contract (A B : M3) : ∑ i, ∑ j, dev (A.transpose * A) i j * dev (B.transpose * A + A.transpose * B) i j =
    2 * ∑ i, ∑ j, AdevG A i j * B i j := by
  rw [AdevG_eq]
  have hs : ∀ i j, (A.transpose * A) i j = (A.transpose * A) j i := by
    intro i j
    simp only [Matrix.mul_apply, Matrix.transpose_apply, Fin.sum_univ_three]
    ring
  have hX : ∀ i j, (B.transpose * A + A.transpose * B) i j =
      (B 0 i * A 0 j + B 1 i * A 1 j + B 2 i * A 2 j) + (A 0 i * B 0 j + A 1 i * B 1 j + A 2 i * B 2 j) := by
    intro i j
    simp only [Matrix.mul_apply, Matrix.transpose_apply, Fin.sum_univ_three, Matrix.add_apply]
  have hM : ∀ (D : M3) i j, (A * D) i j = A i 0 * D 0 j + A i 1 * D 1 j + A i 2 * D 2 j := by
    intro D i j
    simp only [Matrix.mul_apply, Fin.sum_univ_three]
  simp only [Fin.sum_univ_three, hM, dev, Matrix.of_apply, hX, Fin.isValue, Fin.reduceEq, reduceIte]
  rw [hs 1 0, hs 2 0, hs 2 1]
  ring

theorem hasDeriv_devGsq {A : ℝ → M3} {A' : M3} {t : ℝ} (hA : MDeriv A A' t) :
    HasDerivAt (fun s => devGsq (A s)) (4 * ∑ i, ∑ j, AdevG (A t) i j * A' i j) t := by
  simp only [devGsq_eq]
  have hD := (hA.transpose.mul hA).dev
  have : ∀ i j, HasDerivAt (fun s => dev ((A s).transpose * A s) i j * dev ((A s).transpose * A s) i j) _ t :=
    fun i j => (hD i j).mul (hD i j)
  simp only [Fin.sum_univ_three]
  refine (((((this 0 0).add (this 0 1)).add (this 0 2)).add (((this 1 0).add (this 1 1)).add (this 1 2))).add
    (((this 2 0).add (this 2 1)).add (this 2 2))).congr_deriv ?_
  have hk := dev_contract (A t) A'
  simp only [Fin.sum_univ_three] at hk
  linear_combination 2 * hk

/-- **C40**: `dEdA` is the gradient of the shear energy with respect to the distortion; along any curve of states
the shear energy changes at the rate `dC_0/dρ/4 |dev G|² ρ' + dEdA : A'`. -/
theorem hasDeriv_E2A (P : Params) (q : ℝ → St) (q' : St) (t : ℝ) (h : Along q q' t) (h0 : 0 < P.ρ0)
    (hρ : 0 < q t 0) (hΓ : gammaMG P (q t 0) ≠ 0) :
    HasDerivAt (fun s => E2A P (q s 0) (getA (q s)))
      (dC0 P (q t 0) / 4 * devGsq (getA (q t)) * q' 0 + ∑ i, ∑ j, dEdA P (q t) i j * getA q' i j) t := by
  unfold E2A
  have hC := (hasDeriv_C0 P (q t 0) h0 hρ hΓ).comp t (h 0)
  refine ((hC.div_const 4).mul (hasDeriv_devGsq h.getA)).congr_deriv ?_
  simp only [dEdA, Function.comp, Matrix.smul_apply, smul_eq_mul, Fin.sum_univ_three]
  ring

theorem hasDeriv_sigma (P : Params) (q : ℝ → St) (q' : St) (t : ℝ) (h : Along q q' t) (h0 : 0 < P.ρ0)
    (hρ : 0 < q t 0) (i d : Fin 3) :
    HasDerivAt (fun s => sigmaCol P (q s) d i)
      (-(cs2 P (q t 0) + q t 0 * dcs2 P (q t 0)) * q' 0 * ((AdevG (getA (q t))).transpose * getA (q t)) i d +
        -(q t 0 * cs2 P (q t 0)) * ((getA q' * dev ((getA (q t)).transpose * getA (q t)) +
        getA (q t) * dev ((getA q').transpose * getA (q t) + (getA (q t)).transpose * getA q')).transpose * getA (q t) +
          (AdevG (getA (q t))).transpose * getA q') i d) t := by
  have e : ∀ s, sigmaCol P (q s) d i =
      -(q s 0 * cs2 P (q s 0)) * ((AdevG (getA (q s))).transpose * getA (q s)) i d := by
    intro s
    rw [← sigma_apply]
    simp only [sigma, dEdAs, Matrix.transpose_smul, Matrix.smul_mul, Matrix.smul_apply, smul_eq_mul]
    ring
  simp only [e]
  have hc := (hasDeriv_cs2 P (q t 0) h0 hρ).comp t (h 0)
  have hm := (h.getA.AdevG.transpose.mul h.getA) i d
  refine ((((h 0).mul hc).neg).mul hm).congr_deriv ?_
  simp only [Function.comp, Pi.neg_apply, Pi.mul_apply]
  ring

/-- **C40**: `dsigmadρ` and `dsigmadA` are the partial derivatives of the stress: along any curve of states the
entry `(i, d)` of the stress changes at the rate `dsigmadρ ρ' + Σ dsigmadA(d, i, m, n) A'_mn`. -/
theorem hasDeriv_stress (P : Params) (q : ℝ → St) (q' : St) (t : ℝ) (h : Along q q' t) (h0 : 0 < P.ρ0)
    (hρ : 0 < q t 0) (hb : P.b02 ≠ 0) (i d : Fin 3) :
    HasDerivAt (fun s => sigmaCol P (q s) d i)
      (dsigmadrho P (q t) d i * q' 0 + ∑ m, ∑ n, dsigmadA (q t 0) (cs2 P (q t 0)) (getA (q t))
        ((getA (q t)).transpose * getA (q t)) (AdevG (getA (q t))) d i m n * getA q' m n) t := by
  refine (hasDeriv_sigma P q q' t h h0 hρ i d).congr_deriv ?_
  have hc : cs2 P (q t 0) ≠ 0 := by
    unfold cs2
    exact mul_ne_zero hb (Real.rpow_pos_of_pos (by positivity) _).ne'
  have e1 : dsigmadrho P (q t) d i * q' 0 =
      -(cs2 P (q t 0) + q t 0 * dcs2 P (q t 0)) * q' 0 * ((AdevG (getA (q t))).transpose * getA (q t)) i d := by
    simp only [dsigmadrho, Pi.smul_apply, smul_eq_mul]
    rw [← sigma_apply]
    simp only [sigma, dEdAs, Matrix.transpose_smul, Matrix.smul_mul, Matrix.smul_apply, smul_eq_mul]
    field_simp
  rw [e1]
  congr 1
  generalize cs2 P (q t 0) = k
  generalize q t 0 = r
  generalize getA q' = B
  generalize getA (q t) = A
  simp only [dsigmadA, AdevG_eq, dev, Matrix.of_apply, Matrix.mul_apply, Matrix.transpose_apply, Matrix.add_apply,
    Fin.sum_univ_three]
  fin_cases i <;> fin_cases d <;> simp <;> ring

/-- **C40**: the matrix overload of `dsigmadA` holds the entries `∂σ_di/∂A_jd` of the scalar one. -/
theorem dsigmadA_agree (P : Params) (Q : St) (d i j : Fin 3) :
    dsigmadAd P Q d i j = dsigmadA (Q 0) (cs2 P (Q 0)) (getA Q) ((getA Q).transpose * getA Q) (AdevG (getA Q))
      d i j d := by
  have hG : ∀ a b, ((getA Q).transpose * getA Q) a b = ((getA Q).transpose * getA Q) b a := by
    intro a b
    simp only [Matrix.mul_apply, Matrix.transpose_apply, Fin.sum_univ_three]
    ring
  simp only [dsigmadAd, dsigmadA, Matrix.smul_apply, Matrix.transpose_apply, Matrix.of_apply, smul_eq_mul, if_true]
  rw [hG i d]
  split_ifs with h
  · rw [h]; ring
  · ring

/-! ### `dEdρ` and `dEdp` (rest of C39) -/

/-- **C39**: for a material that is not a mixture `dEdρ(Q)` is the derivative of the specific energy in the density
at fixed pressure, velocity and distortion. -/
theorem hasDeriv_dEdrho (c : Cfg) (P : Par) (Q : St) (hm : P.multi = false) (h : Regular P.toParams (Q 0))
    (hΓ : gammaMG P.toParams (Q 0) ≠ 0) (J : Option V3) (v : V3) (lam : Option ℝ) :
    HasDerivAt (fun r => totalEnergy P r (pressure c P Q) (getA Q) J v lam) (dEdrho c P Q) (Q 0) := by
  have h1 := hasDeriv_E1_rho P.toParams (Q 0) (pressure c P Q) h hΓ
  have h2 := ((hasDeriv_C0 P.toParams (Q 0) h.ref_pos h.pos hΓ).div_const 4).mul_const (devGsq (getA Q))
  simp only [totalEnergy, E2A, dEdrho, hm, Bool.false_eq_true, if_false]
  exact (((h1.add_const _).add h2).add_const _).add_const _

/-- **C39**: `dEdp(Q)` is the derivative of the specific energy in the pressure. -/
theorem hasDeriv_dEdp (c : Cfg) (P : Par) (Q : St) (hm : P.multi = false) (p : ℝ) (A : M3) (J : Option V3) (v : V3)
    (lam : Option ℝ) : HasDerivAt (fun x => totalEnergy P (Q 0) x A J v lam) (dEdp c P Q) p := by
  have h1 := hasDeriv_E1_p P.toParams (Q 0) p
  simp only [totalEnergy, dEdp, hm, Bool.false_eq_true, if_false]
  exact (((h1.add_const _).add_const _).add_const _).add_const _

/-- The hypotheses hold along a curve on which density, energy, velocity and all distortion entries change. -/
example : ∃ q : ℝ → St, ∃ q' : St, Along q q' 0 ∧ 0 < sample.ρ0 ∧ 0 < q 0 0 ∧ sample.b02 ≠ 0 ∧
    gammaMG sample (q 0 0) ≠ 0 ∧ q' 0 ≠ 0 ∧ q' 6 ≠ 0 ∧ AdevG (getA (q 0)) ≠ 0 := by
  refine ⟨fun t i => 1 + t + i, fun _ => 1, fun i => ?_, ?_⟩
  · exact (((hasDerivAt_id (0 : ℝ)).const_add 1).add_const (i : ℝ))
  · refine ⟨by norm_num [sample], by norm_num, by norm_num [sample], by norm_num [gammaMG, sample], by norm_num,
      by norm_num, fun h => ?_⟩
    have := congrFun (congrFun h 0) 1
    norm_num [AdevG, getA, Matrix.mul_apply, Fin.sum_univ_three, show (2 : Fin 3) ≠ 1 by decide] at this

end Verif.Sys
