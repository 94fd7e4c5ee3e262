import Verif.Step.Mirror
import Verif.Relax.Turn
import Verif.Relax.Source
import Verif.Eig.Props

/-! # The equations under the mirror in x -/

namespace Verif.Rot

open Verif.Sys Verif.Relax

noncomputable section

/-- The mirror in x. -/
def mirrorM : M3 := Matrix.diagonal ![-1, 1, 1]

/-- The signs of the components of a vector. -/
def sg : Fin 3 → ℝ := ![-1, 1, 1]

/-- The signs of the entries of a state vector. -/
def sgn (c : Cfg) (k : Nat) : ℝ :=
  if k = 2 ∨ k = 6 ∨ k = 7 ∨ k = 8 ∨ k = 11 ∨ (k = 14 ∧ c.thermal = true) then -1 else 1

/-- The mirror image of a state. -/
def mir (c : Cfg) (Q : St) : St := fun k => sgn c k * Q k

theorem sg_sq (i : Fin 3) : sg i * sg i = 1 := by
  fin_cases i <;> norm_num [sg]

theorem sgn_sq (c : Cfg) (k : Nat) : sgn c k * sgn c k = 1 := by
  unfold sgn
  split_ifs <;> norm_num

theorem mirrorM_orth : mirrorM.transpose * mirrorM = 1 := by
  ext i j
  fin_cases i <;> fin_cases j <;> simp [mirrorM, Matrix.mul_apply, Matrix.diagonal]

theorem mirrorM_vec (v : V3) (i : Fin 3) : mirrorM.mulVec v i = sg i * v i := by
  fin_cases i <;> simp [mirrorM, Matrix.mulVec, dotProduct, Matrix.diagonal, sg]

theorem mirrorM_mat (A : M3) (i j : Fin 3) : (mirrorM * A * mirrorM.transpose) i j = sg i * sg j * A i j := by
  fin_cases i <;> fin_cases j <;> simp [mirrorM, Matrix.mul_apply, Matrix.diagonal, sg]

variable (c : Cfg) (P : Par) (Q : St)

theorem mir_0 : mir c Q 0 = Q 0 := by simp [mir, sgn]
theorem mir_1 : mir c Q 1 = Q 1 := by simp [mir, sgn]

theorem mir_rv : getRv (mir c Q) = mirrorM.mulVec (getRv Q) := by
  funext i
  rw [mirrorM_vec]
  fin_cases i <;> simp [getRv, mir, sgn, sg]

theorem mir_A : getA (mir c Q) = mirrorM * getA Q * mirrorM.transpose := by
  ext i j
  rw [mirrorM_mat]
  fin_cases i <;> fin_cases j <;> simp [getA, mir, sgn, sg]

theorem mir_J (ht : c.thermal = true) : getRJ (mir c Q) = mirrorM.mulVec (getRJ Q) := by
  funext i
  rw [mirrorM_vec]
  fin_cases i <;> simp [getRJ, mir, sgn, sg, ht]

/-- `rotate_tensors` with the mirror for a matrix changes signs. -/
theorem rotate_mirror : rotateTensors c Q mirrorM = mir c Q := by
  refine state_ext c _ _ (fun j hj => ?_) ?_ ?_ fun ht => ?_
  · rw [rotate_other c _ _ _ hj]
    unfold mir sgn
    rw [if_neg, one_mul]
    rintro (h | h | h | h | h | ⟨h, h'⟩)
    · omega
    · omega
    · omega
    · omega
    · omega
    · have := hj
      rw [h'] at this
      simp only [forall_const] at this
      omega
  · rw [rotate_rv, mir_rv]
  · rw [rotate_A, mir_A]
  · rw [rotate_J c _ _ ht, mir_J c Q ht]

/-- The material in the mirror. -/
abbrev mirPar (P : Par) : Par := turnPar P mirrorM

theorem mir_sigma (i j : Fin 3) : sigmaCol P.toParams (mir c Q) j i = sg i * sg j * sigmaCol P.toParams Q j i := by
  have e : sigma P.toParams (mir c Q) = mirrorM * sigma P.toParams Q * mirrorM.transpose := by
    unfold sigma dEdAs
    rw [mir_0, mir_A, AdevG_rotate mirrorM _ mirrorM_orth]
    rw [Matrix.transpose_smul, Matrix.transpose_smul, Matrix.smul_mul, Matrix.smul_mul, Matrix.mul_smul,
      Matrix.mul_smul, Matrix.smul_mul, Matrix.smul_mul]
    congr 2
    rw [Matrix.transpose_mul, Matrix.transpose_mul, Matrix.transpose_transpose]
    calc mirrorM * ((AdevG (getA Q)).transpose * mirrorM.transpose) * (mirrorM * getA Q * mirrorM.transpose)
        = mirrorM * ((AdevG (getA Q)).transpose * ((mirrorM.transpose * mirrorM) * (getA Q * mirrorM.transpose))) := by
          simp only [Matrix.mul_assoc]
      _ = _ := by rw [mirrorM_orth, Matrix.one_mul]; simp only [Matrix.mul_assoc]
  rw [← sigma_apply, e, mirrorM_mat, sigma_apply]

section
variable {c P}
variable (hv : c.viscous = true) (hmix : c.mix (mirPar P) = c.mix P)
include hv

theorem mir_mV : mir c Q c.mV = Q c.mV := by
  rw [← rotate_mirror]
  exact rotate_other c Q _ _ (Or.inr (mV_other c hv (Bool.eq_false_or_eq_true _)))

theorem sgn_mV : sgn c c.mV = 1 := by
  unfold sgn
  have := mV_other c hv (Bool.eq_false_or_eq_true _)
  rw [if_neg]
  rintro (h | h | h | h | h | ⟨h, h'⟩)
  · omega
  · omega
  · omega
  · omega
  · omega
  · have := this.2 h'; omega

include hmix

theorem mir_pressure : pressure c (mirPar P) (mir c Q) = pressure c P Q := by
  rw [turn_pressure c P _ hmix, ← rotate_mirror]
  exact (rotation_invariant c P Q mirrorM hv mirrorM_orth).2.2.1

theorem mir_temperature : temperature c (mirPar P) (mir c Q) = temperature c P Q := by
  rw [turn_temperature c P _ hmix, ← rotate_mirror]
  exact (rotation_invariant c P Q mirrorM hv mirrorM_orth).2.2.2.1

/-- **The flux in the mirror.** -/
theorem mir_flux (k : Nat) : flux c (mirPar P) (mir c Q) 0 0 k = -(sgn c k * flux c P Q 0 0 k) := by
  have hp := mir_pressure Q hv hmix
  have hσ : ∀ i, sigmaCol (mirPar P).toParams (mir c Q) 0 i = sg i * -1 * sigmaCol P.toParams Q 0 i := fun i => mir_sigma c P Q i 0
  have hr : ∀ i, getRv (mir c Q) i = sg i * getRv Q i := fun i => by rw [mir_rv, mirrorM_vec]
  have hA : ∀ i j, getA (mir c Q) i j = sg i * sg j * getA Q i j := fun i j => by rw [mir_A, mirrorM_mat]
  have s0 : sg 0 = -1 := rfl
  have s1 : sg 1 = 1 := rfl
  have s2 : sg 2 = 1 := rfl
  have hs : c.multi = true → sgn c c.mV = 1 := fun _ => sgn_mV hv
  have hmv := mir_mV Q hv
  unfold flux
  simp only [hv, if_true]
  have hAv : ∀ i, (getA (mir c Q)).mulVec (getRv (mir c Q)) i = sg i * (getA Q).mulVec (getRv Q) i := fun i => by
    simp only [Matrix.mulVec, dotProduct, Fin.sum_univ_three, hA, hr, s0, s1, s2]; ring
  by_cases hm : k = c.mV ∧ c.multi = true
  · simp only [hm.2, if_true, hm.1, setAt, hmv, sgn_mV hv, hr, s0, mir_0]
    ring
  have rest : (if c.thermal = true then fluxThermal c (mirPar P) (mir c Q) 0 (fluxViscous (mirPar P) (mir c Q) 0 (fluxBase c (mirPar P) (mir c Q) 0 0))
      else fluxViscous (mirPar P) (mir c Q) 0 (fluxBase c (mirPar P) (mir c Q) 0 0)) k =
      -(sgn c k * (if c.thermal = true then fluxThermal c P Q 0 (fluxViscous P Q 0 (fluxBase c P Q 0 0))
      else fluxViscous P Q 0 (fluxBase c P Q 0 0)) k) := by
    have hd : dot3 (sigmaCol (mirPar P).toParams (mir c Q) 0) (getRv (mir c Q)) = -dot3 (sigmaCol P.toParams Q 0) (getRv Q) := by
      simp only [dot3, hσ, hr, s0, s1, s2]; ring
    have hT : temperatureMG (mirPar P).toParams = temperatureMG P.toParams := rfl
    have hcα : (mirPar P).cα2 = P.cα2 := rfl
    by_cases ht : c.thermal = true
    · have hJ : ∀ i, getRJ (mir c Q) i = sg i * getRJ Q i := fun i => by rw [mir_J c Q ht, mirrorM_vec]
      simp only [ht, if_true, fluxThermal, fluxViscous, fluxBase, hp, hd, hr, hAv, hσ, hJ, hT, hcα, mir_0, mir_1, s0]
      by_cases h17 : k < 17
      · interval_cases k <;> simp [addSeg, addAt, sgn, ht, s0, s1, s2] <;> ring
      · have : ∀ j, j < 17 → k ≠ j := fun j hj => by omega
        simp [addSeg, addAt, this]
    · simp only [ht, if_false, Bool.false_eq_true, fluxViscous, fluxBase, hp, hd, hr, hAv, hσ, mir_0, mir_1, s0]
      by_cases h17 : k < 17
      · interval_cases k <;> simp [addSeg, addAt, sgn, ht, s0, s1, s2] <;> ring
      · have : ∀ j, j < 17 → k ≠ j := fun j hj => by omega
        simp [addSeg, addAt, this]
  by_cases hmul : c.multi = true
  · have hk : k ≠ c.mV := fun h => hm ⟨h, hmul⟩
    simp only [hmul, if_true, setAt, hk, if_false]
    exact rest
  · simp only [hmul, if_false, Bool.false_eq_true]
    exact rest

end

theorem sgn_high (k : Nat) (h : 14 ≤ k) (h' : c.thermal = true → 17 ≤ k) : sgn c k = 1 := by
  unfold sgn
  rw [if_neg]
  rintro (e | e | e | e | e | ⟨e, ht⟩)
  · omega
  · omega
  · omega
  · omega
  · omega
  · have := h' ht; omega

theorem mir_vel (i : Fin 3) : vel (mir c Q) i = sg i * vel Q i := by
  unfold vel
  rw [mir_rv, mirrorM_vec, mir_0]
  ring

/-- **The non-conservative product in the mirror.** -/
theorem mir_bdot (hv : c.viscous = true) (x ret ret' : St) (k : Nat) (hk : k < c.V) :
    bdot c (mir c Q) (mir c x) 0 ret' k = -(sgn c k * bdot c Q x 0 ret k) := by
  have hm := mV_other c hv (Bool.eq_false_or_eq_true _)
  have hV : c.mV ≤ c.V - c.lset := by
    unfold Cfg.V
    omega
  have s0 : sg 0 = -1 := rfl
  have s1 : sg 1 = 1 := rfl
  have s2 : sg 2 = 1 := rfl
  unfold bdot
  simp only [hv, if_true]
  by_cases h1 : c.V - c.lset ≤ k ∧ k < c.V
  · simp only [h1, and_self, if_true, mir_vel, s0]
    unfold mir
    rw [sgn_high c k (by omega) fun ht => by have := hm.2 ht; omega]
    ring
  · rw [if_neg h1, if_neg h1]
    by_cases h2 : 5 ≤ k ∧ k < 14
    · rw [if_pos h2, if_pos h2]
      have e : ∀ i, vel (mir c Q) i = sg i * vel Q i := mir_vel c Q
      obtain ⟨h3, h4⟩ := h2
      interval_cases k <;> simp [bdotA, e, mir, sgn, s0, s1, s2] <;> ring
    · rw [if_neg h2, if_neg h2, if_pos hk, if_pos hk]
      ring

theorem mir_AdevG (i j : Fin 3) : AdevG (getA (mir c Q)) i j = sg i * sg j * AdevG (getA Q) i j := by
  rw [mir_A, AdevG_rotate mirrorM _ mirrorM_orth, mirrorM_mat]

theorem mir_det : (getA (mir c Q)).det = (getA Q).det := by
  have e : ∀ i j, getA (mir c Q) i j = sg i * sg j * getA Q i j := fun i j => by rw [mir_A, mirrorM_mat]
  have s0 : sg 0 = -1 := rfl
  have s1 : sg 1 = 1 := rfl
  have s2 : sg 2 = 1 := rfl
  rw [Matrix.det_fin_three, Matrix.det_fin_three]
  simp only [e, s0, s1, s2]
  ring

theorem mir_theta1 : theta1inv (mirPar P) (mir c Q) = theta1inv P Q := by
  have hσ : ∀ i j, sigma P.toParams (mir c Q) i j = sg i * sg j * sigma P.toParams Q i j := fun i j => mir_sigma c P Q i j
  have s0 : sg 0 = -1 := rfl
  have s1 : sg 1 = 1 := rfl
  have s2 : sg 2 = 1 := rfl
  have e1 : sigmaNorm (sigma P.toParams (mir c Q)) = sigmaNorm (sigma P.toParams Q) := by
    unfold sigmaNorm
    simp only [hσ, s0, s1, s2]
    ring_nf
  have e2 : (∑ i, ∑ j, sigma P.toParams (mir c Q) i j * sigma P.toParams (mir c Q) i j) =
      ∑ i, ∑ j, sigma P.toParams Q i j * sigma P.toParams Q i j := by
    refine Finset.sum_congr rfl fun i _ => Finset.sum_congr rfl fun j _ => ?_
    rw [hσ]
    linear_combination (sigma P.toParams Q i j * sigma P.toParams Q i j) * (sg_sq i * sg j * sg j + sg_sq j)
  have e3 : (mirPar P).toParams = P.toParams := rfl
  unfold theta1inv
  simp only [e3, e1, e2, mir_det, mir_0]
  rfl

/-- **The source terms in the mirror.** -/
theorem mir_source {P : Par} (hv : c.viscous = true) (hmix : c.mix (mirPar P) = c.mix P) (rate : ℝ) :
    source c (mirPar P) rate (mir c Q) = mir c (source c P rate Q) := by
  have hm := mV_other c hv (Bool.eq_false_or_eq_true _)
  have hT := mir_temperature Q hv hmix
  have hth := mir_theta1 c P Q
  have s0 : sg 0 = -1 := rfl
  have s1 : sg 1 = 1 := rfl
  have s2 : sg 2 = 1 := rfl
  have hE : ∀ i j, dEdAs (mirPar P).toParams (mir c Q) i j = sg i * sg j * dEdAs P.toParams Q i j := fun i j => by
    unfold dEdAs
    rw [Matrix.smul_apply, Matrix.smul_apply, mir_AdevG, mir_0]
    simp only [smul_eq_mul]
    change cs2 P.toParams _ * _ = _
    ring
  have hM : (-dEdAs (mirPar P).toParams (mir c Q)) * (theta1inv (mirPar P) (mir c Q) • (1 : M3)) =
      mirrorM * ((-dEdAs P.toParams Q) * (theta1inv P Q • (1 : M3))) * mirrorM.transpose := by
    ext i j
    rw [mirrorM_mat, hth]
    simp only [Matrix.mul_smul, Matrix.mul_one, Matrix.smul_apply, Matrix.neg_apply, hE, smul_eq_mul]
    ring
  have hδ : (mirPar P).δp = mirrorM.mulVec P.δp := rfl
  have a0 : setSeg 2 (mirPar P).δp (fun _ => 0) = rotateTensors c (setSeg 2 P.δp fun _ => 0) mirrorM := by
    rw [rotate_mirror]
    funext k
    by_cases h5 : k < 5
    · interval_cases k <;> simp [setSeg, setAt, mir, sgn, hδ, mirrorM_vec, s0, s1, s2]
    · have : ∀ j, j < 5 → k ≠ j := fun j hj => by omega
      simp [setSeg, setAt, mir, this]
  have hJ : c.thermal = true → (fun i => -mir c Q 0 * dEdJ (mirPar P).toParams (mir c Q) i * theta2inv c (mirPar P) (mir c Q)) =
      mirrorM.mulVec fun i => -Q 0 * dEdJ P.toParams Q i * theta2inv c P Q := fun ht => by
    funext i
    rw [mirrorM_vec]
    unfold dEdJ theta2inv
    rw [mir_J c Q ht, mirrorM_vec, mir_0, hT]
    change -Q 0 * (P.cα2 * _ / _) * (_ / (P.κ * _)) = _
    ring
  have aJ : ∀ (x : V3) (r : St), c.thermal = true → setSeg 14 (mirrorM.mulVec x) (mir c r) = mir c (setSeg 14 x r) := by
    intro x r ht
    funext k
    by_cases h : k = 14 ∨ k = 15 ∨ k = 16
    · rcases h with rfl | rfl | rfl <;> simp [setSeg, setAt, mir, sgn, mirrorM_vec, ht, s0, s1, s2]
    · have h14 : k ≠ 14 := fun e => h (Or.inl e)
      have h15 : k ≠ 15 := fun e => h (Or.inr (Or.inl e))
      have h16 : k ≠ 16 := fun e => h (Or.inr (Or.inr e))
      simp [setSeg, setAt, mir, h14, h15, h16]
  have hr : (mirPar P).reaction = P.reaction := rfl
  unfold source
  simp only [hv, if_true, hM, a0, turn_setA, hr, mir_0]
  by_cases ht : c.thermal = true
  · have hJ' := hJ ht
    rw [mir_0] at hJ'
    simp only [ht, if_true, hJ', rotate_mirror, aJ _ _ ht]
    split_ifs
    · rw [← rotate_mirror, ← rotate_mirror, turn_setAt c mirrorM _ hm]
    · rfl
  · simp only [ht, if_false, Bool.false_eq_true]
    split_ifs
    · rw [turn_setAt c mirrorM _ hm, rotate_mirror]
    · rw [rotate_mirror]

theorem mir_rate {P : Par} (hv : c.viscous = true) (hmix : c.mix (mirPar P) = c.mix P) :
    reactionRate c (mirPar P) (mir c Q) = reactionRate c P Q := by
  unfold reactionRate
  rw [mir_0, mir_mV Q hv, mir_temperature Q hv hmix, mir_pressure Q hv hmix, turn_ignition]
  rfl

theorem mir_ofVec (q : Fin c.V → ℝ) : ofVec c (Step.flip (fun v => sgn c v) q) = mir c (ofVec c q) := by
  funext k
  by_cases h : k < c.V <;> simp [ofVec, mir, Step.flip, h]

/-- **The equations with the mirrored body force are the mirror image of the equations.** -/
theorem gpr_mirrored {P : Par} (hv : c.viscous = true) (hmix : c.mix (mirPar P) = c.mix P) (src src' : St → St)
    (hs : ∀ Q, src' (mir c Q) = mir c (src Q)) (junk junk' : St) :
    Step.Mirrored (fun v : Fin c.V => sgn c v) (gpr c P src junk) (gpr c (mirPar P) src' junk') where
  unit := fun v => sgn_sq c v
  flux := fun q v => by
    simp only [gpr, mir_ofVec]
    exact mir_flux _ hv hmix v
  source := fun q v => by
    simp only [gpr, mir_ofVec, hs]
    rfl
  bdot := fun q x v => by
    simp only [gpr, mir_ofVec]
    exact mir_bdot c _ hv _ junk junk' v v.2
  odd := fun q x v => by
    have := congrFun (Step.gpr_bdot_smul c hv P src junk 0 q x (-1)) v
    rw [show (fun v => -1 * x v) = -x by funext v; simp] at this
    rw [this]
    ring

/-! ### Wave speeds -/

section
variable {c P}
variable (hv : c.viscous = true) (hmix : c.mix (mirPar P) = c.mix P)
include hv hmix

theorem mir_solveMulti : solveMulti c (mirPar P) (mir c Q) = solveMulti c P Q := by
  have e : internalEnergy c (mirPar P) (mir c Q) = internalEnergy c P Q := by
    rw [← internalEnergy_rotate c P Q mirrorM hv mirrorM_orth, rotate_mirror]
    rfl
  unfold solveMulti
  rw [hmix, e, mir_0, mir_mV Q hv]
  rfl

theorem mir_dEdrho : dEdrho c (mirPar P) (mir c Q) = dEdrho c P Q := by
  unfold dEdrho
  rw [mir_0, mir_A, devGsq_rotate _ _ mirrorM_orth, mir_solveMulti Q hv hmix, mir_mV Q hv, mir_pressure Q hv hmix]
  rfl

theorem mir_dEdp : dEdp c (mirPar P) (mir c Q) = dEdp c P Q := by
  unfold dEdp
  rw [mir_0, mir_solveMulti Q hv hmix, mir_mV Q hv]
  rfl

theorem mir_c0 : Eig.c0 c (mirPar P) (mir c Q) = Eig.c0 c P Q := by
  unfold Eig.c0
  rw [mir_dEdrho Q hv hmix, mir_dEdp Q hv hmix, mir_pressure Q hv hmix, mir_0]

omit hv hmix in
theorem mir_dsigmadrho (i : Fin 3) : dsigmadrho (mirPar P).toParams (mir c Q) 0 i = sg i * sg 0 * dsigmadrho P.toParams Q 0 i := by
  unfold dsigmadrho
  rw [Pi.smul_apply, Pi.smul_apply, mir_0]
  have : sigmaCol (mirPar P).toParams (mir c Q) 0 i = _ := mir_sigma c P Q i 0
  rw [this]
  simp only [smul_eq_mul]
  change (_ + dcs2 P.toParams _ / cs2 P.toParams _) * _ = _
  ring

omit hv hmix in
theorem mir_dsigmadAd (i j : Fin 3) : dsigmadAd (mirPar P).toParams (mir c Q) 0 i j = sg i * sg j * dsigmadAd P.toParams Q 0 i j := by
  have e : ∀ i j, getA (mir c Q) i j = sg i * sg j * getA Q i j := fun i j => by rw [mir_A, mirrorM_mat]
  have g : ∀ i j, ((getA (mir c Q)).transpose * getA (mir c Q)) i j = sg i * sg j * ((getA Q).transpose * getA Q) i j := fun i j => by
    simp only [Matrix.mul_apply, Matrix.transpose_apply, e, Finset.mul_sum]
    refine Finset.sum_congr rfl fun k _ => ?_
    linear_combination (sg i * sg j * getA Q k i * getA Q k j) * sg_sq k
  unfold dsigmadAd
  simp only [Matrix.smul_apply, Matrix.transpose_apply, Matrix.of_apply, mir_AdevG, e, g, mir_0, smul_eq_mul]
  change -Q 0 * cs2 P.toParams _ * _ = _
  fin_cases i <;> fin_cases j <;> simp [sg] <;> ring

/-- The signs of the rows and the columns of the acoustic tensor. -/
def s4 : Fin 4 → ℝ := ![1, -1, -1, 1]
def s5 : Fin 5 → ℝ := ![1, 1, 1, -1, -1]

theorem mir_xi1 (i : Fin 4) (j : Fin 5) : Eig.xi1 c (mirPar P) (mir c Q) 0 i j = s4 i * s5 j * Eig.xi1 c P Q 0 i j := by
  unfold Eig.xi1
  simp only [hv, if_true, mir_0, mir_dsigmadrho, mir_dsigmadAd, mir_pressure Q hv hmix]
  have a : dTdrho (mirPar P).toParams = dTdrho P.toParams := rfl
  have b : dTdp (mirPar P).toParams = dTdp P.toParams := rfl
  rw [a, b]
  cases c.thermal <;> fin_cases i <;> fin_cases j <;> simp [s4, s5, sg]

theorem mir_xi2 (i : Fin 5) (j : Fin 4) : Eig.xi2 c (mirPar P) (mir c Q) 0 i j = s5 i * s4 j * Eig.xi2 c P Q 0 i j := by
  have e : ∀ i j, getA (mir c Q) i j = sg i * sg j * getA Q i j := fun i j => by rw [mir_A, mirrorM_mat]
  have f : ∀ i, sigmaCol (mirPar P).toParams (mir c Q) 0 i = sg i * sg 0 * sigmaCol P.toParams Q 0 i := fun i => mir_sigma c P Q i 0
  unfold Eig.xi2
  simp only [hv, if_true, mir_0, mir_dsigmadrho, f, e, mir_c0 Q hv hmix, mir_pressure Q hv hmix]
  have a : Eig.ch (mirPar P).toParams = Eig.ch P.toParams := rfl
  have b : dTdp (mirPar P).toParams = dTdp P.toParams := rfl
  have d : temperatureMG (mirPar P).toParams = temperatureMG P.toParams := rfl
  rw [a, b, d]
  cases c.thermal <;> fin_cases i <;> fin_cases j <;> simp [s4, s5, sg] <;> ring

omit hv hmix in
/-- Signs on both sides leave the spectrum alone. -/
theorem specMax_signs {m : Type} [Fintype m] [DecidableEq m] (s : m → ℝ) (hs : ∀ i, s i * s i = 1) (M M' : Matrix m m ℝ)
    (h : ∀ i j, M' i j = s i * s j * M i j) : Eig.specMax M' = Eig.specMax M := by
  have e : M' = Matrix.diagonal s * (M * Matrix.diagonal s) := by
    ext i j
    rw [Matrix.diagonal_mul, Matrix.mul_diagonal, h]
    ring
  have hc : M'.charpoly = M.charpoly := by
    rw [e, Matrix.charpoly_mul_comm, Matrix.mul_assoc, Matrix.diagonal_mul_diagonal]
    simp only [hs, Matrix.diagonal_one, Matrix.mul_one]
  unfold Eig.specMax
  rw [Matrix.charpoly_map, Matrix.charpoly_map, hc]

/-- **`max_abs_eigs` does not tell left from right.** -/
theorem mir_maxAbsEigs : Eig.maxAbsEigs c (mirPar P) (mir c Q) 0 = Eig.maxAbsEigs c P Q 0 := by
  have h4 : ∀ i, s4 i * s4 i = 1 := fun i => by fin_cases i <;> norm_num [s4]
  have h5 : ∀ i, s5 i * s5 i = 1 := fun i => by fin_cases i <;> norm_num [s5]
  have prod : ∀ i j k, Eig.xi1 c (mirPar P) (mir c Q) 0 i k * Eig.xi2 c (mirPar P) (mir c Q) 0 k j =
      s4 i * s4 j * (Eig.xi1 c P Q 0 i k * Eig.xi2 c P Q 0 k j) := fun i j k => by
    rw [mir_xi1 Q hv hmix, mir_xi2 Q hv hmix]
    linear_combination (s4 i * s4 j * (Eig.xi1 c P Q 0 i k * Eig.xi2 c P Q 0 k j)) * h5 k
  rw [Eig.maxAbsEigs_eq, Eig.maxAbsEigs_eq, mir_vel, show sg 0 = -1 from rfl, neg_one_mul, abs_neg]
  refine congrArg (fun x => |vel Q 0| + Real.sqrt x) ?_
  split_ifs
  · refine specMax_signs s4 h4 _ _ fun i j => ?_
    simp only [Eig.tensor4, Matrix.mul_apply, prod, Finset.mul_sum]
  · refine specMax_signs (fun i : Fin 3 => s4 i.castSucc) (fun i => h4 _) _ _ fun i j => ?_
    simp only [Eig.tensor3, Matrix.mul_apply, Matrix.submatrix_apply, id_eq, prod, Finset.mul_sum]

end

/-- The interface function of Rusanov as the schemes call it. -/
def rusanov (c : Cfg) (P : Par) (d : Nat) (ql qr : Fin c.V → ℝ) : Fin c.V → ℝ := fun v =>
  dRus c P (Eig.maxAbsEigs c P) (ofVec c ql) (ofVec c qr) (dir d) v

/-- **Without `MULTI` the interface function of Rusanov is the same from both sides.** -/
theorem rusanov_mirrored {P : Par} (hv : c.viscous = true) (hm : c.multi = false) (hmix : c.mix (mirPar P) = c.mix P) :
    Step.FluxMirrored (fun _ _ => True) (fun v : Fin c.V => sgn c v) (rusanov c P) (rusanov c (mirPar P)) := by
  intro ql qr _ v
  simp only [rusanov, mir_ofVec, dRus]
  have e : dir 0 = 0 := rfl
  rw [e]
  generalize ofVec c ql = a
  generalize ofVec c qr = b
  have h1 := flux_adds c (mirPar P) (mir c a) 0 hm
  have h2 := flux_adds c (mirPar P) (mir c b) 0 hm
  have h3 := flux_adds c P a 0 hm
  have h4 := flux_adds c P b 0 hm
  have f1 := mir_flux a hv hmix v
  have f2 := mir_flux b hv hmix v
  have m1 := mir_maxAbsEigs a hv hmix
  have m2 := mir_maxAbsEigs b hv hmix
  rw [h1, h2, h4, h3, m1, m2]
  simp only [Pi.add_apply]
  rw [f1, f2, max_comm]
  unfold mir
  ring

end

end Verif.Rot
