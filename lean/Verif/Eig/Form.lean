import Verif.Eig.Prim

/-!
# The primitive form of the system matrix
-/

namespace Verif.Eig

open Verif.Sys

section
variable (c : Cfg) (P : Par) (Q x y : St) (hv : c.viscous = true)

include hv in
theorem system_row (d : Fin 3) (i : Nat) (hi : i < c.V) : rowDot c.V (systemMatrix c P Q d) x i =
    rowDot c.V (dFdP c P Q d) (toPrim c P Q x) i + bdot c Q x d (fun _ => 0) i := by
  rw [bdot_eq_block c hv _ _ _ _ _ hi]
  unfold blockMul rowDot toPrim rowDot
  simp only [systemMatrix, add_mul, Finset.sum_add_distrib]
  congr 1
  simp only [Finset.sum_mul, Finset.mul_sum]
  rw [Finset.sum_comm]
  refine Finset.sum_congr rfl fun k _ => Finset.sum_congr rfl fun j _ => by ring

include hv in
theorem bdot_lo (d : Fin 3) (i : Nat) (hi : i < 5) : bdot c Q x d (fun _ => 0) i = 0 := by
  have h14 := mV_ge c hv
  have h1 : ¬ (c.V - c.lset ≤ i ∧ i < c.V) := by unfold Cfg.V; omega
  simp only [bdot, hv, if_true]
  rw [if_neg h1, if_neg (by omega)]
  split_ifs <;> rfl

include hv in
theorem bdot_A (d a b : Fin 3) : bdot c Q x d (fun _ => 0) (5 + (3 * a + b)) =
    vel Q d * getA x a b - if b = d then dot3 (vel Q) (getA x a) else 0 := by
  have h14 := mV_ge c hv
  have h1 : ¬ (c.V - c.lset ≤ 5 + (3 * a.1 + b.1) ∧ 5 + (3 * a.1 + b.1) < c.V) := by unfold Cfg.V; omega
  simp only [bdot, hv, if_true]
  rw [if_neg h1, if_pos (by omega)]
  fin_cases d <;> fin_cases a <;> fin_cases b <;> simp [bdotA, getA, dot3] <;> ring

include hv in
theorem bdot_mid (d : Fin 3) (i : Nat) (h : 14 ≤ i) (hi : i < c.mV + if c.multi then 1 else 0) :
    bdot c Q x d (fun _ => 0) i = 0 := by
  have h1 : ¬ (c.V - c.lset ≤ i ∧ i < c.V) := by unfold Cfg.V; omega
  simp only [bdot, hv, if_true]
  rw [if_neg h1, if_neg (by omega)]
  split_ifs <;> rfl

include hv in
theorem bdot_L (d : Fin 3) (i : Nat) (h : c.mV + (if c.multi then 1 else 0) ≤ i) (hi : i < c.V) :
    bdot c Q x d (fun _ => 0) i = vel Q d * x i := by
  have h1 : c.V - c.lset ≤ i ∧ i < c.V := by
    refine ⟨?_, hi⟩
    unfold Cfg.V
    omega
  simp only [bdot, hv, if_true]
  rw [if_pos h1]

/-- `-σ` is the part of the energy equation that the shear energy and the pressure law do not absorb. -/
theorem energy_shear (d k : Fin 3) (hm : P.multi = false) (hρ : Q 0 ≠ 0) (hΓ : gammaMG P.toParams (Q 0) ≠ 0)
    (hcs : cs2 P.toParams (Q 0) ≠ 0) :
    Q 0 * ∑ a, dEdA P.toParams Q a d * getA Q a k + Q 0 * dEdp c P Q *
      (sigmaCol P.toParams Q d k - Q 0 * dsigmadrho P.toParams Q d k) = -sigmaCol P.toParams Q d k := by
  have hs : sigmaCol P.toParams Q d k = -Q 0 * cs2 P.toParams (Q 0) * ∑ a, AdevG (getA Q) a d * getA Q a k := by
    rw [sigmaCol_symm]
    simp only [sigmaCol, dEdAs, Pi.smul_apply, Matrix.mulVec, dotProduct, Matrix.transpose_apply, Matrix.smul_apply,
      smul_eq_mul, Finset.mul_sum]
    refine Finset.sum_congr rfl fun a _ => by ring
  have he : ∑ a, dEdA P.toParams Q a d * getA Q a k = C0 P.toParams (Q 0) * ∑ a, AdevG (getA Q) a d * getA Q a k := by
    simp only [dEdA, Matrix.smul_apply, smul_eq_mul, Finset.mul_sum]
    refine Finset.sum_congr rfl fun a _ => by ring
  rw [he]
  simp only [dsigmadrho, Pi.smul_apply, smul_eq_mul, hs, dEdp, hm, Bool.false_eq_true, if_false, dedp, C0, dcs2]
  generalize ∑ a, AdevG (getA Q) a d * getA Q a k = S
  field_simp
  ring

/-- **The primitive form**: `system_matrix x` is the conserved form of transport with the velocity plus the
acoustic terms, both computed from the primitive rates `dPdQ x`. -/
theorem system_primitive (d : Fin 3) (hv : c.viscous = true) (hm : P.multi = false)
    (hr : P.reaction > -1 → c.multi = true) (hρ : Q 0 ≠ 0) (hΓ : gammaMG P.toParams (Q 0) ≠ 0)
    (hcs : cs2 P.toParams (Q 0) ≠ 0)
    (hc : 0 ≤ (pressure c P Q / (Q 0 * Q 0) - dEdrho c P Q) / dEdp c P Q) (i : Nat) (hi : i < c.V) :
    rowDot c.V (systemMatrix c P Q d) x i =
      toCons c P Q (fun i => vel Q d * toPrim c P Q x i + acoustic c P Q d (toPrim c P Q x) i) i := by
  have hE : dEdp c P Q ≠ 0 := by
    simp only [dEdp, hm, Bool.false_eq_true, if_false, dedp]
    exact one_div_ne_zero (mul_ne_zero hρ hΓ)
  have hback := toCons_toPrim c P Q x hr hρ hE hv
  rw [system_row c P Q x hv d i hi]
  set y := toPrim c P Q x with hy
  have hmv := mV_ge c hv
  have hVm := mV_le c
  have h17 := mV_thermal c hv
  set z : St := fun i => vel Q d * y i + acoustic c P Q d y i with hz
  have z0 : z 0 = vel Q d * y 0 + Q 0 * y (2 + d) := by rw [hz]; simp only [ac_0]
  have zv : ∀ k : Fin 3, z (2 + k) = vel Q d * y (2 + k) +
      ((if k = d then y 1 else 0) - stressRate P Q y d k - dsigmadrho P.toParams Q d k * y 0) / Q 0 := fun k => by
    simp only [hz, ac_v]
  have zA : ∀ a b : Fin 3, getA z a b = vel Q d * getA y a b + if b = d then dot3 (getA Q a) (getRv y) else 0 :=
    fun a b => by
      have : getA z a b = z (5 + (3 * a + b)) := rfl
      rw [this, hz]
      simp only [ac_A]
      rfl
  rcases index_cases c hv i with rfl | rfl | ⟨k, rfl⟩ | ⟨a, b, rfl⟩ | ⟨ht, k, rfl⟩ | ⟨hmu, rfl⟩ | hL
  · rw [row0 c P Q y hv, bdot_lo c Q x hv d 0 (by omega), toCons_plain c P Q _ 0 (by omega) (plain_0 c hv), z0]
    ring
  · -- energy
    rw [row1 c P Q y hv, bdot_lo c Q x hv d 1 (by omega), toCons_one]
    have e0 := energy_shear c P Q d 0 hm hρ hΓ hcs
    have e1 := energy_shear c P Q d 1 hm hρ hΓ hcs
    have e2 := energy_shear c P Q d 2 hm hρ hΓ hcs
    have ec : c0 c P Q * c0 c P Q = (pressure c P Q / (Q 0 * Q 0) - dEdrho c P Q) / dEdp c P Q :=
      Real.mul_self_sqrt hc
    have hcc : Q 0 * dEdp c P Q * (Q 0 * (c0 c P Q * c0 c P Q)) = pressure c P Q - Q 0 * Q 0 * dEdrho c P Q := by
      rw [ec]; field_simp
    have hsum : ∑ a, ∑ b, dEdA P.toParams Q a b * getA z a b =
        vel Q d * (∑ a, ∑ b, dEdA P.toParams Q a b * getA y a b) +
        (getRv y 0 * ∑ a, dEdA P.toParams Q a d * getA Q a 0 + getRv y 1 * ∑ a, dEdA P.toParams Q a d * getA Q a 1 +
          getRv y 2 * ∑ a, dEdA P.toParams Q a d * getA Q a 2) := by
      have hb : ∀ a, ∑ b, dEdA P.toParams Q a b * getA z a b = vel Q d * (∑ b, dEdA P.toParams Q a b * getA y a b) +
          dEdA P.toParams Q a d * dot3 (getA Q a) (getRv y) := by
        intro a
        simp only [zA, mul_add, Finset.sum_add_distrib, Finset.mul_sum]
        congr 1
        · exact Finset.sum_congr rfl fun b _ => by ring
        · simp
      simp only [hb, Finset.sum_add_distrib, ← Finset.mul_sum]
      congr 1
      simp only [Finset.mul_sum]
      rw [← Finset.sum_add_distrib, ← Finset.sum_add_distrib]
      refine Finset.sum_congr rfl fun a _ => by simp only [dot3]; ring
    have hvz : Q 0 * dot3 (vel Q) (getRv z) = Q 0 * vel Q d * dot3 (vel Q) (getRv y) + vel Q d * y 1 -
        (vel Q 0 * stressRate P Q y d 0 + vel Q 1 * stressRate P Q y d 1 + vel Q 2 * stressRate P Q y d 2) -
        dot3 (dsigmadrho P.toParams Q d) (vel Q) * y 0 := by
      have q0 := zv 0
      have q1 := zv 1
      have q2 := zv 2
      simp only [dot3, getRv]
      rw [q0, q1, q2]
      fin_cases d <;> simp <;> field_simp <;> ring
    have hT : (if c.thermal then Q 0 * dot3 (dEdJ P.toParams Q) (getRJ z) else 0) =
        if c.thermal then dEdJ P.toParams Q d * (dTdrho P.toParams (Q 0) (pressure c P Q) * y 0 +
          dTdp P.toParams (Q 0) * y 1) + Q 0 * vel Q d * dot3 (dEdJ P.toParams Q) (getRJ y) else 0 := by
      split_ifs with ht
      · have zJ : ∀ k : Fin 3, getRJ z k = vel Q d * y (14 + k) + if k = d then
            (dTdrho P.toParams (Q 0) (pressure c P Q) * y 0 + dTdp P.toParams (Q 0) * y 1) / Q 0 else 0 := fun k => by
          have : getRJ z k = z (14 + k) := rfl
          rw [this, hz]
          simp only [ac_J c P Q y ht]
        have j0 := zJ 0
        have j1 := zJ 1
        have j2 := zJ 2
        simp only [dot3]
        rw [j0, j1, j2]
        fin_cases d <;> simp [getRJ] <;> field_simp <;> ring
      · rfl
    have hV : (if c.multi then if P.reaction > -1 then Q 0 * P.Qc * z c.mV else 0 else 0) =
        if c.multi then if P.reaction > -1 then P.Qc * (Q 0 * vel Q d) * y c.mV else 0 else 0 := by
      have : z c.mV = vel Q d * y c.mV := by rw [hz]; simp only [ac_tail c P Q y hv d _ le_rfl, add_zero]
      rw [this]
      split_ifs <;> ring
    have z1 : Q 0 * dEdp c P Q * z 1 = Q 0 * dEdp c P Q * vel Q d * y 1 +
        (pressure c P Q - Q 0 * Q 0 * dEdrho c P Q) * y (2 + d) + Q 0 * dEdp c P Q *
          dot3 (fun k => sigmaCol P.toParams Q d k - Q 0 * dsigmadrho P.toParams Q d k) (getRv y) +
        if c.thermal then P.cα2 * temperatureMG P.toParams (Q 0) (pressure c P Q) * y (14 + d) else 0 := by
      have : z 1 = vel Q d * y 1 + acoustic c P Q d y 1 := rfl
      rw [this, ac_1, ← hcc]
      split_ifs
      · field_simp
        ring
      · ring
    rw [hsum, hvz, hT, hV, z1, z0]
    have hd3 : dot3 (fun k => sigmaCol P.toParams Q d k - Q 0 * dsigmadrho P.toParams Q d k) (getRv y) =
      (sigmaCol P.toParams Q d 0 - Q 0 * dsigmadrho P.toParams Q d 0) * getRv y 0 +
      (sigmaCol P.toParams Q d 1 - Q 0 * dsigmadrho P.toParams Q d 1) * getRv y 1 +
      (sigmaCol P.toParams Q d 2 - Q 0 * dsigmadrho P.toParams Q d 2) * getRv y 2 := rfl
    have hd4 : dot3 (sigmaCol P.toParams Q d) (getRv y) = sigmaCol P.toParams Q d 0 * getRv y 0 +
      sigmaCol P.toParams Q d 1 * getRv y 1 + sigmaCol P.toParams Q d 2 * getRv y 2 := rfl
    rw [hd3, hd4]
    split_ifs <;> linear_combination (-getRv y 0) * e0 - getRv y 1 * e1 - getRv y 2 * e2
  · rw [row2 c P Q y hv, bdot_lo c Q x hv d _ (by omega), toCons_scaled c P Q _ _ (by omega) (scaled_v c k), z0, zv]
    have : Q (2 + k) / Q 0 = vel Q k := rfl
    rw [this]
    field_simp
    ring
  · rw [row5 c P Q y hv, bdot_A c Q x hv, toCons_plain c P Q _ _ (by omega) (plain_A c hv a b)]
    have hx : getA x = getA y := by
      ext a b
      exact (toPrim_plain c P Q x hv _ (by omega) (by omega) (plain_A c hv a b)).symm
    have : z (5 + (3 * a + b)) = getA z a b := rfl
    rw [this, zA, hx]
    split_ifs <;> ring
  · have := h17 ht
    rw [row14 c P Q y hv ht, bdot_mid c Q x hv d _ (by omega) (by omega),
      toCons_scaled c P Q _ _ (by omega) (scaled_J c ht k), z0]
    have e : z (14 + k) = vel Q d * y (14 + k) + if k = d then
            (dTdrho P.toParams (Q 0) (pressure c P Q) * y 0 + dTdp P.toParams (Q 0) * y 1) / Q 0 else 0 := by
      simp only [hz, ac_J c P Q y ht]
    have e2 : Q (14 + k) = getRJ Q k := rfl
    rw [e, e2]
    split_ifs <;> field_simp <;> ring
  · rw [rowV c P Q y hv hmu, bdot_mid c Q x hv d _ hmv (by rw [if_pos hmu]; omega),
      toCons_scaled c P Q _ _ (by omega) (scaled_V c hmu), z0]
    have : z c.mV = vel Q d * y c.mV := by rw [hz]; simp only [ac_tail c P Q y hv d _ le_rfl, add_zero]
    rw [this]
    ring
  · rw [rowL c P Q y hv d i hL, bdot_L c Q x hv d i hL hi,
      toCons_plain c P Q _ i (by split_ifs at hL <;> omega) (plain_L c hv i hL)]
    have h1 : z i = vel Q d * y i := by
      rw [hz]; simp only [ac_tail c P Q y hv d i (by split_ifs at hL <;> omega), add_zero]
    have h2 : y i = x i :=
      toPrim_plain c P Q x hv i hi (by split_ifs at hL <;> omega) (plain_L c hv i hL)
    rw [h1, h2, zero_add]

end

end Verif.Eig
