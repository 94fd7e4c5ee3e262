import Verif.Rot.Mirror
import Verif.Sys.Abs
import Verif.Dg.Mirror

/-! # C95, C96: the interface functions of Roe and Osher in the mirror -/

namespace Verif.Rot

open Verif.Sys Verif.Relax

noncomputable section

/-! ### Matrices in the mirror -/

/-- `M'` is `M` with the signs `s` on both sides, times `ε`. -/
def Signed (s : Nat → ℝ) (ε : ℝ) (M M' : Nat → Nat → ℝ) : Prop := ∀ i j, M' i j = ε * (s i * s j) * M i j

section
variable {s : Nat → ℝ} {ε : ℝ} {M M' : Nat → Nat → ℝ}

theorem Signed.set (h : Signed s ε M M') (i j : Nat) (x x' : ℝ) (hx : x' = ε * (s i * s j) * x) :
    Signed s ε (mset i j x M) (mset i j x' M') := by
  intro a b
  unfold mset
  split_ifs with e
  · rw [e.1, e.2, hx]
  · exact h a b

theorem Signed.add (h : Signed s ε M M') (i j : Nat) (x x' : ℝ) (hx : x' = ε * (s i * s j) * x) :
    Signed s ε (madd i j x M) (madd i j x' M') := by
  intro a b
  unfold madd
  split_ifs with e
  · rw [h a b, e.1, e.2, hx]
    ring
  · exact h a b

theorem Signed.setRow (h : Signed s ε M M') (i j : Nat) (x x' : V3) (hx : ∀ k : Fin 3, x' k = ε * (s i * s (j + k)) * x k) :
    Signed s ε (msetRow i j x M) (msetRow i j x' M') :=
  ((h.set _ _ _ _ (hx 0)).set _ _ _ _ (hx 1)).set _ _ _ _ (hx 2)

theorem Signed.addRow (h : Signed s ε M M') (i j : Nat) (x x' : V3) (hx : ∀ k : Fin 3, x' k = ε * (s i * s (j + k)) * x k) :
    Signed s ε (maddRow i j x M) (maddRow i j x' M') :=
  ((h.add _ _ _ _ (hx 0)).add _ _ _ _ (hx 1)).add _ _ _ _ (hx 2)

theorem Signed.setCol (h : Signed s ε M M') (i j : Nat) (x x' : V3) (hx : ∀ k : Fin 3, x' k = ε * (s (i + k) * s j) * x k) :
    Signed s ε (msetCol i j x M) (msetCol i j x' M') :=
  ((h.set _ _ _ _ (hx 0)).set _ _ _ _ (hx 1)).set _ _ _ _ (hx 2)

theorem Signed.addCol (h : Signed s ε M M') (i j : Nat) (x x' : V3) (hx : ∀ k : Fin 3, x' k = ε * (s (i + k) * s j) * x k) :
    Signed s ε (maddCol i j x M) (maddCol i j x' M') :=
  ((h.add _ _ _ _ (hx 0)).add _ _ _ _ (hx 1)).add _ _ _ _ (hx 2)

theorem Signed.setDiag (h : Signed s ε M M') (hs : ∀ i, s i * s i = 1) (k : Nat) (x x' : ℝ) (hx : x' = ε * x) :
    Signed s ε (msetDiag k x M) (msetDiag k x' M') := by
  have e : ∀ i, x' = ε * (s i * s i) * x := fun i => by rw [hs, hx, mul_one]
  exact ((h.set _ _ _ _ (e _)).set _ _ _ _ (e _)).set _ _ _ _ (e _)

end

theorem Signed.foldl {s : Nat → ℝ} {ε : ℝ} {α : Type} (f f' : (Nat → Nat → ℝ) → α → Nat → Nat → ℝ) (l : List α)
    (hf : ∀ a M M', Signed s ε M M' → Signed s ε (f M a) (f' M' a)) {M M' : Nat → Nat → ℝ} (h : Signed s ε M M') :
    Signed s ε (l.foldl f M) (l.foldl f' M') := by
  induction l generalizing M M' with
  | nil => exact h
  | cons a l ih => exact ih (hf a M M' h)

/-- Follow the writes of a matrix, last one first. -/
macro "signed" : tactic => `(tactic| repeat' (with_reducible first
  | apply Signed.setRow | apply Signed.setCol | apply Signed.setDiag | apply Signed.addRow | apply Signed.addCol
  | apply Signed.set | apply Signed.add))

variable {c : Cfg} {P : Par}

theorem sgn_v (k : Fin 3) : sgn c (2 + k) = sg k := by fin_cases k <;> simp [sgn, sg]
theorem sgn_A (i j : Fin 3) : sgn c (5 + (3 * i.1 + j.1)) = sg i * sg j := by
  fin_cases i <;> fin_cases j <;> simp [sgn, sg]
theorem sgn_A0 (j : Fin 3) : sgn c (5 + j) = sg 0 * sg j := by fin_cases j <;> simp [sgn, sg]
theorem sgn_A1 (j : Fin 3) : sgn c (8 + j) = sg 1 * sg j := by fin_cases j <;> simp [sgn, sg]
theorem sgn_A2 (j : Fin 3) : sgn c (11 + j) = sg 2 * sg j := by fin_cases j <;> simp [sgn, sg]
theorem sgn_J (ht : c.thermal = true) (k : Fin 3) : sgn c (14 + k) = sg k := by fin_cases k <;> simp [sgn, sg, ht]
theorem sgn_0 : sgn c 0 = 1 := by simp [sgn]
theorem sgn_1 : sgn c 1 = 1 := by simp [sgn]

variable (Q : St)

theorem mir_A' (i j : Fin 3) : getA (mir c Q) i j = sg i * sg j * getA Q i j := by rw [mir_A, mirrorM_mat]

theorem mir_G (i j : Fin 3) : ((getA (mir c Q)).transpose * getA (mir c Q)) i j =
    sg i * sg j * ((getA Q).transpose * getA Q) i j := by
  simp only [Matrix.mul_apply, Matrix.transpose_apply, mir_A', Finset.mul_sum]
  refine Finset.sum_congr rfl fun k _ => ?_
  linear_combination (sg i * sg j * getA Q k i * getA Q k j) * sg_sq k

theorem mir_dsigmadA (k i j : Fin 3) : dsigmadA (mir c Q 0) (cs2 (mirPar P).toParams (mir c Q 0)) (getA (mir c Q))
      ((getA (mir c Q)).transpose * getA (mir c Q)) (AdevG (getA (mir c Q))) 0 k i j =
    -(sg k * sg i * sg j) * dsigmadA (Q 0) (cs2 P.toParams (Q 0)) (getA Q) ((getA Q).transpose * getA Q) (AdevG (getA Q)) 0 k i j := by
  have hc : cs2 (mirPar P).toParams (mir c Q 0) = cs2 P.toParams (Q 0) := by rw [mir_0]; rfl
  rw [hc]
  unfold dsigmadA
  simp only [mir_G, mir_A', mir_AdevG, mir_0]
  fin_cases k <;> fin_cases i <;> fin_cases j <;> simp [sg] <;> ring

theorem mir_dEdA (i j : Fin 3) : dEdA (mirPar P).toParams (mir c Q) i j = sg i * sg j * dEdA P.toParams Q i j := by
  unfold dEdA
  rw [Matrix.smul_apply, Matrix.smul_apply, mir_AdevG, mir_0]
  simp only [smul_eq_mul]
  change C0 P.toParams _ * _ = _
  ring

theorem mir_dEdJ (ht : c.thermal = true) (i : Fin 3) : dEdJ (mirPar P).toParams (mir c Q) i = sg i * dEdJ P.toParams Q i := by
  unfold dEdJ
  rw [mir_J c Q ht, mirrorM_vec, mir_0]
  change P.cα2 * _ / _ = _
  ring

section
variable (hv : c.viscous = true) (hmix : c.mix (mirPar P) = c.mix P)
include hv hmix

theorem mir_dPdQ : Signed (sgn c) 1 (dPdQ c P Q) (dPdQ c (mirPar P) (mir c Q)) := by
  have hE := mir_dEdrho Q hv hmix
  have hp := mir_dEdp Q hv hmix
  have hr : (mirPar P).reaction = P.reaction := rfl
  have hq : (mirPar P).Qc = P.Qc := rfl
  have hcα : (mirPar P).cα2 = P.cα2 := rfl
  have s0 : sg 0 = -1 := rfl
  have s1 : sg 1 = 1 := rfl
  have s2 : sg 2 = 1 := rfl
  have hsq : sq3 (vel (mir c Q)) = sq3 (vel Q) := by simp only [sq3, mir_vel, s0, s1, s2]; ring
  have hJ : c.thermal = true → ∀ i, getRJ (mir c Q) i = sg i * getRJ Q i := fun ht i => by rw [mir_J c Q ht, mirrorM_vec]
  have hone : Signed (sgn c) 1 (fun i j => if i = j then 1 else 0) (fun i j => if i = j then 1 else 0) := by
    intro i j
    by_cases e : i = j
    · simp [e, sgn_sq]
    · simp [e]
  have hmV := mir_mV Q hv
  have hsV : sgn c c.mV = 1 := sgn_mV hv
  unfold dPdQ
  simp only [hv, if_true, hE, hp, hr, hq, hcα, hsq, mir_0, mir_1, hmV]
  by_cases ht : c.thermal = true
  · have hsJ : sq3 (fun i => getRJ (mir c Q) i / Q 0) = sq3 (fun i => getRJ Q i / Q 0) := by
      simp only [sq3, hJ ht, s0, s1, s2]; ring
    simp only [ht, if_true, hsJ]
    split_ifs <;> signed <;>
      first
      | exact hone
      | exact sgn_sq c
      | exact (one_mul _).symm
      | (intro k; simp only [sgn_0, sgn_1, sgn_v, sgn_A0, sgn_A1, sgn_A2, sgn_J ht, mir_vel, mir_dEdA, mir_dEdJ Q ht, hJ ht]; try ring)
      | (simp only [sgn_0, sgn_1, hsV]; try ring)
  · simp only [ht, if_false, Bool.false_eq_true]
    split_ifs <;> signed <;>
      first
      | exact hone
      | exact sgn_sq c
      | exact (one_mul _).symm
      | (intro k; simp only [sgn_0, sgn_1, sgn_v, sgn_A0, sgn_A1, sgn_A2, mir_vel, mir_dEdA]; try ring)
      | (simp only [sgn_0, sgn_1, hsV]; try ring)

theorem mir_dFdP : Signed (sgn c) (-1) (dFdP c P Q 0) (dFdP c (mirPar P) (mir c Q) 0) := by
  have hE := mir_dEdrho Q hv hmix
  have hp := mir_dEdp Q hv hmix
  have hpr := mir_pressure Q hv hmix
  have hr : (mirPar P).reaction = P.reaction := rfl
  have hq : (mirPar P).Qc = P.Qc := rfl
  have hcα : (mirPar P).cα2 = P.cα2 := rfl
  have s0 : sg 0 = -1 := rfl
  have s1 : sg 1 = 1 := rfl
  have s2 : sg 2 = 1 := rfl
  have hJ : c.thermal = true → ∀ i, getRJ (mir c Q) i = sg i * getRJ Q i := fun ht i => by rw [mir_J c Q ht, mirrorM_vec]
  have hσ : ∀ i, sigmaCol (mirPar P).toParams (mir c Q) 0 i = sg i * -1 * sigmaCol P.toParams Q 0 i := fun i => mir_sigma c P Q i 0
  have hσρ : ∀ i, dsigmadrho (mirPar P).toParams (mir c Q) 0 i = sg i * -1 * dsigmadrho P.toParams Q 0 i := fun i =>
    mir_dsigmadrho Q i
  have a1 : dTdrho (mirPar P).toParams = dTdrho P.toParams := rfl
  have a2 : dTdp (mirPar P).toParams = dTdp P.toParams := rfl
  have a3 : temperatureMG (mirPar P).toParams = temperatureMG P.toParams := rfl
  have hmV := mir_mV Q hv
  have hsV : sgn c c.mV = 1 := sgn_mV hv
  have hsd : sgn c (2 + ((0 : Fin 3) : Nat)) = -1 := sgn_v 0
  have base : Signed (sgn c) (-1) (dFdPBase c P Q 0) (dFdPBase c (mirPar P) (mir c Q) 0) := by
    have hz : Signed (sgn c) (-1) (fun _ _ => 0) (fun _ _ => 0) := fun i j => by simp
    unfold dFdPBase
    simp only [hE, hp, hpr, mir_0, mir_1]
    signed <;> first
      | exact hz
      | exact sgn_sq c
      | (intro k; simp only [sgn_0, sgn_1, hsd, sgn_v, mir_vel, s0]; try ring)
      | (simp only [sgn_0, sgn_1, hsd, mir_vel, s0]; try ring)
  have visc : Signed (sgn c) (-1) (dFdPViscous P Q 0 (dFdPBase c P Q 0))
      (dFdPViscous (mirPar P) (mir c Q) 0 (dFdPBase c (mirPar P) (mir c Q) 0)) := by
    have stress : Signed (sgn c) (-1) (dFdPStress P Q 0 (dFdPBase c P Q 0))
        (dFdPStress (mirPar P) (mir c Q) 0 (dFdPBase c (mirPar P) (mir c Q) 0)) := by
      unfold dFdPStress
      refine Signed.foldl _ _ _ (fun i M M' h => ?_) base
      refine Signed.foldl _ _ _ (fun j M M' h => ?_) h
      simp only
      refine Signed.set (Signed.foldl _ _ _ (fun k M M' h => ?_) h) _ _ _ _ ?_
      · refine Signed.set h _ _ _ _ ?_
        rw [mir_dsigmadA, sgn_v, sgn_A]
        ring
      · simp only [mir_dsigmadA, mir_vel, sgn_1, sgn_A, s0, s1, s2]
        ring
    have hd : dot3 (dsigmadrho (mirPar P).toParams (mir c Q) 0) (vel (mir c Q)) = -dot3 (dsigmadrho P.toParams Q 0) (vel Q) := by
      simp only [dot3, hσρ, mir_vel, s0, s1, s2]; ring
    unfold dFdPViscous
    simp only [hd, mir_0]
    signed <;> first
      | exact stress
      | (intro k; simp only [sgn_0, sgn_1, sgn_v, sgn_A0, sgn_A1, sgn_A2, mir_vel, mir_dEdA, mir_A', hσ, hσρ, s0, s1, s2]; try ring)
      | (simp only [sgn_0, sgn_1]; try ring)
  unfold dFdP
  simp only [hv, if_true]
  have therm : Signed (sgn c) (-1) (if c.thermal = true then dFdPThermal c P Q 0 (dFdPViscous P Q 0 (dFdPBase c P Q 0)) else
      dFdPViscous P Q 0 (dFdPBase c P Q 0)) (if c.thermal = true then dFdPThermal c (mirPar P) (mir c Q) 0
      (dFdPViscous (mirPar P) (mir c Q) 0 (dFdPBase c (mirPar P) (mir c Q) 0)) else
      dFdPViscous (mirPar P) (mir c Q) 0 (dFdPBase c (mirPar P) (mir c Q) 0)) := by
    by_cases ht : c.thermal = true
    · simp only [ht, if_true]
      have hJd : sgn c (14 + ((0 : Fin 3) : Nat)) = -1 := sgn_J ht 0
      unfold dFdPThermal
      simp only [hpr, mir_0, a1, a2, a3, hcα]
      signed <;> first
        | exact visc
        | exact sgn_sq c
        | (intro k; simp only [sgn_0, sgn_1, hsd, sgn_J ht, mir_vel, mir_dEdJ Q ht, hJ ht, s0]; try ring)
        | (simp only [sgn_0, sgn_1, hJd, mir_vel, mir_dEdJ Q ht, s0]; try ring)
    · simp only [ht, if_false, Bool.false_eq_true]
      exact visc
  by_cases hm : c.multi = true
  · simp only [hm, if_true]
    revert therm
    generalize (if c.thermal = true then dFdPThermal c P Q 0 (dFdPViscous P Q 0 (dFdPBase c P Q 0)) else
      dFdPViscous P Q 0 (dFdPBase c P Q 0)) = M
    generalize (if c.thermal = true then dFdPThermal c (mirPar P) (mir c Q) 0
      (dFdPViscous (mirPar P) (mir c Q) 0 (dFdPBase c (mirPar P) (mir c Q) 0)) else
      dFdPViscous (mirPar P) (mir c Q) 0 (dFdPBase c (mirPar P) (mir c Q) 0)) = M'
    intro therm
    unfold dFdPMulti
    simp only [hr, hq, hmV, mir_0]
    split_ifs <;> signed <;> first
      | exact therm
      | (simp only [sgn_0, sgn_1, hsd, hsV, mir_vel, s0]; try ring)
  · simp only [hm, if_false, Bool.false_eq_true]
    exact therm

/-- **The system matrix in the mirror** is `-S M S`. -/
theorem mir_systemMatrix (i j : Nat) (hi : i < c.V) (hj : j < c.V) :
    systemMatrix c (mirPar P) (mir c Q) 0 i j = -(sgn c i * sgn c j * systemMatrix c P Q 0 i j) := by
  have e1 := mir_dFdP Q hv hmix
  have e2 := mir_dPdQ Q hv hmix
  have eb : block c (mir c Q) 0 i j = -(sgn c i * sgn c j * block c Q 0 i j) := by
    have hm := mV_other c hv (Bool.eq_false_or_eq_true _)
    have hV : c.mV ≤ c.V - c.lset := by
      unfold Cfg.V
      omega
    have hr0 : getRv (mir c Q) 0 = -getRv Q 0 := by rw [mir_rv, mirrorM_vec]; simp [sg]
    unfold block
    simp only [hv, mir_0, hr0]
    by_cases h1 : c.V - c.lset ≤ i ∧ i < c.V ∧ i = j
    · rw [if_pos h1, if_pos h1, ← h1.2.2, sgn_sq]
      ring
    rw [if_neg h1, if_neg h1]
    by_cases hA : 5 ≤ i ∧ i < 14 ∧ 5 ≤ j ∧ j < 14
    · obtain ⟨h5, h14, h5', h14'⟩ := hA
      interval_cases i <;> interval_cases j <;> simp [mir, sgn] <;> ring
    · by_cases h2 : 5 ≤ i ∧ i < 14
      · have : ¬ i = j := fun e => hA ⟨h2.1, h2.2, e ▸ h2.1, e ▸ h2.2⟩
        have h3 : ¬ (5 ≤ j ∧ j < 14) := fun h => hA ⟨h2.1, h2.2, h⟩
        rcases (show ¬ 5 ≤ j ∨ ¬ j < 14 by omega) with h | h <;> simp [this, h]
      · have h4 : (decide (5 ≤ i) && decide (i < 14)) = false := by
          simp only [Bool.and_eq_false_iff, decide_eq_false_iff_not]
          omega
        simp [h4]
  unfold systemMatrix
  rw [eb, mul_add, neg_add]
  congr 1
  rw [Finset.mul_sum, ← Finset.sum_neg_distrib]
  refine Finset.sum_congr rfl fun k _ => ?_
  rw [e1 i k, e2 k j]
  linear_combination -(sgn c i * sgn c j * dFdP c P Q 0 i k * dPdQ c P Q k j) * sgn_sq c k

/-! ### The interface functions -/

end

variable {n : Nat}

/-- The matrix that `D_ROE` decomposes. -/
def roeMatrix (c : Cfg) (P : Par) (T : Dg.Tab n) (qL qR : St) (d : Fin 3) : Nat → Nat → ℝ :=
  (List.finRange n).foldl (fun J k =>
    fun i j => J i j + T.w k * systemMatrix c P (fun i => qR i + T.nodes k * (qL i - qR i)) d i j) fun _ _ => 0

theorem foldl_sum2 {α : Type} (f : α → Nat → Nat → ℝ) (l : List α) (J : Nat → Nat → ℝ) (i j : Nat) :
    l.foldl (fun (J : Nat → Nat → ℝ) k => fun i j => J i j + f k i j) J i j = J i j + (l.map fun k => f k i j).sum := by
  induction l generalizing J with
  | nil => simp
  | cons a l ih => rw [List.foldl_cons, ih, List.map_cons, List.sum_cons, add_assoc]

theorem roeMatrix_sum (T : Dg.Tab n) (qL qR : St) (d : Fin 3) (i j : Nat) : roeMatrix c P T qL qR d i j =
    ∑ k, T.w k * systemMatrix c P (fun i => qR i + T.nodes k * (qL i - qR i)) d i j := by
  rw [roeMatrix, foldl_sum2, zero_add, ← List.ofFn_eq_map, List.sum_ofFn]

theorem foldl_sum1 {α : Type} (f : α → Nat → ℂ) (l : List α) (J : Nat → ℂ) (i : Nat) :
    l.foldl (fun (J : Nat → ℂ) k => fun i => J i + f k i) J i = J i + (l.map fun k => f k i).sum := by
  induction l generalizing J with
  | nil => simp
  | cons a l ih => rw [List.foldl_cons, ih, List.map_cons, List.sum_cons, add_assoc]

/-- `D_ROE` is the two fluxes and the dissipation of the averaged matrix. -/
theorem dRoe_eq (hm : c.multi = false) (T : Dg.Tab n) (es : EigSolver) (qL qR : St) (d : Fin 3) (i : Nat) :
    dRoe c P T es qL qR d i = flux c P qL d 0 i + flux c P qR d 0 i +
      (dissipate c.V es (roeMatrix c P T qL qR d) (fun i => qL i - qR i) i).re := by
  unfold dRoe
  simp only
  rw [flux_adds c P qR d hm, flux_adds c P qL d hm]
  simp only [Pi.add_apply, roeMatrix]
  ring

/-- `D_OSH` is the two fluxes and the dissipations at the nodes. -/
theorem dOsh_eq (hm : c.multi = false) (T : Dg.Tab n) (es : EigSolver) (qL qR : St) (d : Fin 3) (i : Nat) :
    dOsh c P T es qL qR d i = flux c P qL d 0 i + flux c P qR d 0 i + ∑ k, T.w k *
      (dissipate c.V es (systemMatrix c P (fun i => qR i + T.nodes k * (qL i - qR i)) d) (fun i => qL i - qR i) i).re := by
  unfold dOsh
  simp only
  rw [flux_adds c P qR d hm, flux_adds c P qL d hm]
  simp only [Pi.add_apply]
  rw [foldl_sum1 (fun k i => (T.w k : ℂ) * dissipate c.V es (systemMatrix c P (fun i => qR i + T.nodes k * (qL i - qR i)) d)
    (fun i => qL i - qR i) i), zero_add, ← List.ofFn_eq_map, List.sum_ofFn, Complex.re_sum]
  simp only [Complex.re_ofReal_mul]
  ring

/-- **The interface functions do not depend on the eigenvectors** (C96). -/
theorem interface_unique (hm : c.multi = false) (T : Dg.Tab n) (es es' : EigSolver) (qL qR : St) (d : Fin 3) (i : Nat) (hi : i < c.V) :
    (es.At c.V (roeMatrix c P T qL qR d) → es'.At c.V (roeMatrix c P T qL qR d) →
      dRoe c P T es qL qR d i = dRoe c P T es' qL qR d i) ∧
    ((∀ k, es.At c.V (systemMatrix c P (fun i => qR i + T.nodes k * (qL i - qR i)) d)) →
      (∀ k, es'.At c.V (systemMatrix c P (fun i => qR i + T.nodes k * (qL i - qR i)) d)) →
      dOsh c P T es qL qR d i = dOsh c P T es' qL qR d i) := by
  refine ⟨fun h h' => ?_, fun h h' => ?_⟩
  · rw [dRoe_eq hm, dRoe_eq hm, dissipate_unique h h' _ i hi]
  · rw [dOsh_eq hm, dOsh_eq hm]
    congr 1
    exact Finset.sum_congr rfl fun k _ => by rw [dissipate_unique (h k) (h' k) _ i hi]

/-- **Upwinding** (C96): where all waves of the averaged matrix run to the right, `D_ROE` adds the matrix times the jump. -/
theorem roe_right (hm : c.multi = false) (T : Dg.Tab n) (es : EigSolver) (qL qR : St) (d : Fin 3)
    (h : es.At c.V (roeMatrix c P T qL qR d))
    (hp : ∀ j < c.V, ∃ a : ℝ, 0 ≤ a ∧ es.values (roeMatrix c P T qL qR d) j = a) (i : Nat) (hi : i < c.V) :
    dRoe c P T es qL qR d i = flux c P qL d 0 i + flux c P qR d 0 i +
      ∑ j ∈ Finset.range c.V, roeMatrix c P T qL qR d i j * (qL j - qR j) := by
  rw [dRoe_eq hm, dissipate_right h hp _ i hi, Complex.ofReal_re]

section
variable (hv : c.viscous = true) (hmix : c.mix (mirPar P) = c.mix P)
include hv hmix

omit hv hmix in
theorem mir_node {T : Dg.Tab n} (hs : T.Sym) (qL qR : St) (k : Fin n) :
    (fun i => mir c qL i + T.nodes k.rev * (mir c qR i - mir c qL i)) =
      mir c (fun i => qR i + T.nodes k * (qL i - qR i)) := by
  funext i
  simp only [mir, hs k]
  ring

theorem mir_roeMatrix {T : Dg.Tab n} (h : T.Ok) (hs : T.Sym) (qL qR : St) (i j : Nat) (hi : i < c.V) (hj : j < c.V) :
    roeMatrix c (mirPar P) T (mir c qR) (mir c qL) 0 i j = -(sgn c i * sgn c j * roeMatrix c P T qL qR 0 i j) := by
  rw [roeMatrix_sum, roeMatrix_sum, ← Step.sum_rev, Finset.mul_sum, ← Finset.sum_neg_distrib]
  refine Finset.sum_congr rfl fun k _ => ?_
  rw [mir_node hs, mir_systemMatrix _ hv hmix i j hi hj, Dg.w_rev h hs]
  ring

/-- **The interface function of Roe is the same from both sides** (C95, C96). -/
theorem roe_mirrored (hm : c.multi = false) {T : Dg.Tab n} (h : T.Ok) (hs : T.Sym) (es es' : EigSolver) (qL qR : St)
    (he : es.At c.V (roeMatrix c P T qL qR 0)) (he' : es'.At c.V (roeMatrix c (mirPar P) T (mir c qR) (mir c qL) 0))
    (i : Nat) (hi : i < c.V) :
    dRoe c (mirPar P) T es' (mir c qR) (mir c qL) 0 i = -(sgn c i * dRoe c P T es qL qR 0 i) := by
  rw [dRoe_eq hm, dRoe_eq hm, mir_flux qL hv hmix, mir_flux qR hv hmix,
    dissipate_mirror (sgn c) (sgn_sq c) (fun i hi j hj => mir_roeMatrix hv hmix h hs qL qR i j hi hj) he he'
      (fun i => -(qL i - qR i)) _ (fun i _ => by simp only [mir]; ring) i hi, dissipate_neg he _ i hi, Complex.re_ofReal_mul, Complex.neg_re]
  ring

/-- **The interface function of Osher is the same from both sides** (C95, C96). -/
theorem osher_mirrored (hm : c.multi = false) {T : Dg.Tab n} (h : T.Ok) (hs : T.Sym) (es es' : EigSolver) (qL qR : St)
    (he : ∀ k, es.At c.V (systemMatrix c P (fun i => qR i + T.nodes k * (qL i - qR i)) 0))
    (he' : ∀ k, es'.At c.V (systemMatrix c (mirPar P) (mir c fun i => qR i + T.nodes k * (qL i - qR i)) 0))
    (i : Nat) (hi : i < c.V) :
    dOsh c (mirPar P) T es' (mir c qR) (mir c qL) 0 i = -(sgn c i * dOsh c P T es qL qR 0 i) := by
  rw [dOsh_eq hm, dOsh_eq hm, mir_flux qL hv hmix, mir_flux qR hv hmix, ← Step.sum_rev]
  have : ∀ k : Fin n, T.w k.rev * (dissipate c.V es' (systemMatrix c (mirPar P)
      (fun i => mir c qL i + T.nodes k.rev * (mir c qR i - mir c qL i)) 0) (fun i => mir c qR i - mir c qL i) i).re =
      -(sgn c i * (T.w k * (dissipate c.V es (systemMatrix c P (fun i => qR i + T.nodes k * (qL i - qR i)) 0)
        (fun i => qL i - qR i) i).re)) := fun k => by
    rw [mir_node hs, Dg.w_rev h hs, dissipate_mirror (sgn c) (sgn_sq c) (fun i hi j hj => mir_systemMatrix _ hv hmix i j hi hj)
      (he k) (he' k) (fun i => -(qL i - qR i)) _ (fun i _ => by simp only [mir]; ring) i hi, dissipate_neg (he k) _ i hi,
      Complex.re_ofReal_mul, Complex.neg_re]
    ring
  simp only [this, Finset.sum_neg_distrib, ← Finset.mul_sum]
  ring

end

end

end Verif.Rot
