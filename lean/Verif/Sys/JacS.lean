import Verif.Sys.JacF

/-!
# C41: the flux along a curve, and the system matrix
-/

namespace Verif.Sys

/-! ### Entries of the flux -/

section entries
variable (c : Cfg) (P : Par) (Q : St) (hv : c.viscous = true)

/-- The flux as the callers get it: the code adds to a zero vector. -/
noncomputable def flux0 (c : Cfg) (P : Par) (Q : St) (d : Fin 3) : St := flux c P Q d fun _ => 0

theorem mV_cases : (c.thermal = true → c.viscous = true → c.mV = 17) ∧
    (c.thermal = false → c.viscous = true → c.mV = 14) := by
  constructor <;> intro h1 h2 <;> simp [Cfg.mV, h1, h2]

include hv in
theorem flux_e0 (d : Fin 3) : flux0 c P Q d 0 = getRv Q d := by
  have h14 := mV_ge c hv
  have hne : ¬ (0 = c.mV) := by omega
  fin_cases d <;> cases h2 : c.thermal <;> cases h3 : c.multi <;>
    simp [flux0, flux, fluxBase, fluxViscous, fluxThermal, addSeg, addAt, setAt, hv, h2, h3, hne]

include hv in
theorem flux_e1 (d : Fin 3) : flux0 c P Q d 1 = vel Q d * (Q 1 + pressure c P Q) -
    dot3 (sigmaCol P.toParams Q d) (getRv Q) / Q 0 +
    if c.thermal then P.cα2 * temperatureMG P.toParams (Q 0) (pressure c P Q) * getRJ Q d / Q 0 else 0 := by
  have h14 := mV_ge c hv
  have hne : ¬ (1 = c.mV) := by omega
  fin_cases d <;> cases h2 : c.thermal <;> cases h3 : c.multi <;>
    simp [flux0, flux, fluxBase, fluxViscous, fluxThermal, addSeg, addAt, setAt, hv, h2, h3, hne, vel] <;> ring

include hv in
theorem flux_e2 (d k : Fin 3) : flux0 c P Q d (2 + k) = vel Q d * getRv Q k - sigmaCol P.toParams Q d k +
    if k = d then pressure c P Q else 0 := by
  have h14 := mV_ge c hv
  have hne : ∀ m, m < 14 → ¬ (m = c.mV) := by omega
  fin_cases d <;> fin_cases k <;> cases h2 : c.thermal <;> cases h3 : c.multi <;>
    simp [flux0, flux, fluxBase, fluxViscous, fluxThermal, addSeg, addAt, setAt, hv, h2, h3, hne, vel] <;> ring

include hv in
theorem flux_e5 (d a b : Fin 3) : flux0 c P Q d (5 + (3 * a + b)) =
    if b = d then dot3 (getA Q a) (vel Q) else 0 := by
  have h14 := mV_ge c hv
  have hne : ∀ m, m < 14 → ¬ (m = c.mV) := by omega
  fin_cases d <;> fin_cases a <;> fin_cases b <;> cases h2 : c.thermal <;> cases h3 : c.multi <;>
    simp [flux0, flux, fluxBase, fluxViscous, fluxThermal, addSeg, addAt, setAt, hv, h2, h3, hne, vel, dot3,
      Matrix.mulVec, dotProduct, Fin.sum_univ_three] <;> ring

include hv in
theorem flux_e14 (ht : c.thermal = true) (d k : Fin 3) : flux0 c P Q d (14 + k) = vel Q d * getRJ Q k +
    if k = d then temperatureMG P.toParams (Q 0) (pressure c P Q) else 0 := by
  have h17 := mV_thermal c hv ht
  fin_cases d <;> fin_cases k <;> cases h3 : c.multi <;>
    simp [flux0, flux, fluxBase, fluxViscous, fluxThermal, addSeg, addAt, setAt, hv, ht, h3, h17, vel]

theorem flux_eV (hm : c.multi = true) (d : Fin 3) : flux0 c P Q d c.mV = Q c.mV * vel Q d := by
  simp [flux0, flux, hm, setAt, vel]

include hv in
theorem flux_eL (d : Fin 3) (i : Nat) (hi : c.mV + (if c.multi then 1 else 0) ≤ i) : flux0 c P Q d i = 0 := by
  have h14 := mV_ge c hv
  have h17 := mV_thermal c hv
  have hd := d.2
  cases h2 : c.thermal <;> cases h3 : c.multi <;>
    simp only [h2, h3, Bool.false_eq_true, if_true, if_false, Nat.add_zero, true_implies, false_implies] at hi h17 <;>
    simp only [flux0, flux, fluxBase, fluxViscous, fluxThermal, addSeg, addAt, setAt, hv, h2, h3, Bool.false_eq_true,
      if_true, if_false]
  all_goals (repeat rw [if_neg (by omega)])

end entries

/-! ### Rows of `dFdP` applied to a rate of change of the primitive variables -/

section rows
variable (c : Cfg) (P : Par) (Q x : St) (hv : c.viscous = true)

theorem mV_le : c.mV ≤ c.V := by unfold Cfg.V; omega

theorem V_gt (hm : c.multi = true) : c.mV < c.V := by unfold Cfg.V; rw [hm]; simp; omega

/-- The matrix before the `MULTI` part. -/
noncomputable def dFdPpre (c : Cfg) (P : Par) (Q : St) (d : Fin 3) : Nat → Nat → ℝ :=
  if c.thermal then dFdPThermal c P Q d (dFdPViscous P Q d (dFdPBase c P Q d))
  else dFdPViscous P Q d (dFdPBase c P Q d)

include hv in
theorem dFdP_eq (d : Fin 3) : dFdP c P Q d =
    if c.multi then dFdPMulti c P Q d (dFdPpre c P Q d) else dFdPpre c P Q d := by
  simp only [dFdP, dFdPpre, hv, if_true]

include hv in
theorem Supp.pre (d : Fin 3) : Supp c.mV (dFdPpre c P Q d) := by
  have h2 := Supp.viscous P Q d _ (Supp.base c P Q d)
  unfold dFdPpre
  split_ifs with ht
  · rw [mV_thermal c hv ht]
    exact Supp.thermal c P Q d _ h2
  · exact h2.mono (mV_ge c hv)

include hv in
theorem row_lo (d : Fin 3) (i : Nat) (h1 : i ≠ 1) (hi : i < 14) :
    rowDot c.V (dFdP c P Q d) x i = rowDot c.V (dFdPViscous P Q d (dFdPBase c P Q d)) x i := by
  have h14 := mV_ge c hv
  have h3 : rowDot c.V (dFdPpre c P Q d) x i = rowDot c.V (dFdPViscous P Q d (dFdPBase c P Q d)) x i := by
    unfold dFdPpre
    split_ifs
    · exact therm_row c P Q x _ _ d i h1 hi
    · rfl
  rw [dFdP_eq c P Q hv]
  split_ifs
  · rw [multi_row c P Q x _ _ d i h1 (by omega), h3]
  · exact h3

include hv in
theorem row0 (d : Fin 3) : rowDot c.V (dFdP c P Q d) x 0 = vel Q d * x 0 + Q 0 * x (2 + d) := by
  have := mV_le c
  have h14 := mV_ge c hv
  rw [row_lo c P Q x hv d 0 (by omega) (by omega), visc_row0, base_row0 _ _ _ _ _ (by omega)]

include hv in
theorem row2 (d k : Fin 3) : rowDot c.V (dFdP c P Q d) x (2 + k) =
    vel Q d * vel Q k * x 0 + Q 0 * vel Q d * x (2 + k) + Q 0 * vel Q k * x (2 + d) + (if k = d then x 1 else 0) -
      stressRate P Q x d k - dsigmadrho P.toParams Q d k * x 0 := by
  have := mV_le c
  have h14 := mV_ge c hv
  rw [row_lo c P Q x hv d _ (by omega) (by omega), visc_row2 _ _ _ _ (by omega) _ (Supp.base c P Q d),
    base_row2 _ _ _ _ _ (by omega)]

include hv in
theorem row5 (d a b : Fin 3) : rowDot c.V (dFdP c P Q d) x (5 + (3 * a + b)) =
    if b = d then dot3 (getA Q a) (getRv x) + dot3 (vel Q) (getA x a) else 0 := by
  have := mV_le c
  have h14 := mV_ge c hv
  rw [row_lo c P Q x hv d _ (by omega) (by omega), visc_row5 _ _ _ _ (by omega) _ (Supp.base c P Q d)]

include hv in
theorem row1 (d : Fin 3) : rowDot c.V (dFdP c P Q d) x 1 =
    (Q 1 / Q 0 + Q 0 * dEdrho c P Q) * vel Q d * x 0 + (Q 0 * dEdp c P Q + 1) * vel Q d * x 1 +
      Q 0 * vel Q d * dot3 (vel Q) (getRv x) + (Q 0 * (Q 1 / Q 0) + pressure c P Q) * x (2 + d) -
    (vel Q 0 * stressRate P Q x d 0 + vel Q 1 * stressRate P Q x d 1 + vel Q 2 * stressRate P Q x d 2) -
    dot3 (dsigmadrho P.toParams Q d) (vel Q) * x 0 - dot3 (sigmaCol P.toParams Q d) (getRv x) +
    Q 0 * vel Q d * ∑ i, ∑ j, dEdA P.toParams Q i j * getA x i j +
    (if c.thermal then dTdrho P.toParams (Q 0) (pressure c P Q) * dEdJ P.toParams Q d * x 0 +
      dTdp P.toParams (Q 0) * dEdJ P.toParams Q d * x 1 +
      Q 0 * vel Q d * dot3 (dEdJ P.toParams Q) (getRJ x) +
      P.cα2 * temperatureMG P.toParams (Q 0) (pressure c P Q) * x (14 + d) else 0) +
    (if c.multi then if P.reaction > -1 then P.Qc * (Q 0 * vel Q d) * x c.mV else 0 else 0) := by
  have hV := mV_le c
  have h14 := mV_ge c hv
  have h2 := visc_row1 P Q x c.V (by omega) _ (Supp.base c P Q d) d
  rw [base_row1 _ _ _ _ _ (by omega)] at h2
  have h3 : rowDot c.V (dFdPpre c P Q d) x 1 = rowDot c.V (dFdPViscous P Q d (dFdPBase c P Q d)) x 1 +
      (if c.thermal then dTdrho P.toParams (Q 0) (pressure c P Q) * dEdJ P.toParams Q d * x 0 +
      dTdp P.toParams (Q 0) * dEdJ P.toParams Q d * x 1 +
      Q 0 * vel Q d * dot3 (dEdJ P.toParams Q) (getRJ x) +
      P.cα2 * temperatureMG P.toParams (Q 0) (pressure c P Q) * x (14 + d) else 0) := by
    unfold dFdPpre
    split_ifs with ht
    · have := mV_thermal c hv ht
      rw [therm_row1 c P Q x c.V (by omega) _ (Supp.viscous P Q d _ (Supp.base c P Q d)) d]
      ring
    · ring
  rw [dFdP_eq c P Q hv]
  by_cases hm : c.multi = true
  · rw [if_pos hm, if_pos hm, multi_row1 c P Q x c.V hv (V_gt c hm) _ (Supp.pre c P Q hv d) d, h3, h2]
  · rw [if_neg hm, if_neg hm, h3, h2]
    ring

include hv in
theorem row14 (ht : c.thermal = true) (d k : Fin 3) : rowDot c.V (dFdP c P Q d) x (14 + k) =
    vel Q d * (getRJ Q k / Q 0) * x 0 + Q 0 * (getRJ Q k / Q 0) * x (2 + d) + Q 0 * vel Q d * x (14 + k) +
      if k = d then dTdrho P.toParams (Q 0) (pressure c P Q) * x 0 + dTdp P.toParams (Q 0) * x 1 else 0 := by
  have hV := mV_le c
  have h17 := mV_thermal c hv ht
  have h3 := therm_row14 c P Q x c.V (by omega) _ (Supp.viscous P Q d _ (Supp.base c P Q d)) d k
  rw [dFdP_eq c P Q hv, dFdPpre, if_pos ht]
  by_cases hm : c.multi = true
  · rw [if_pos hm, multi_row c P Q x _ _ d _ (by omega) (by omega), h3]
  · rw [if_neg hm, h3]

include hv in
theorem rowV (hm : c.multi = true) (d : Fin 3) : rowDot c.V (dFdP c P Q d) x c.mV =
    vel Q d * (Q c.mV / Q 0) * x 0 + Q 0 * (Q c.mV / Q 0) * x (2 + d) + Q 0 * vel Q d * x c.mV := by
  rw [dFdP_eq c P Q hv, if_pos hm]
  exact multi_rowV c P Q x c.V hv (V_gt c hm) _ (Supp.pre c P Q hv d) d

include hv in
theorem rowL (d : Fin 3) (i : Nat) (hi : c.mV + (if c.multi then 1 else 0) ≤ i) :
    rowDot c.V (dFdP c P Q d) x i = 0 := by
  have h14 := mV_ge c hv
  have hp := Supp.pre c P Q hv d
  rw [dFdP_eq c P Q hv]
  split_ifs at hi ⊢ with hm
  · rw [multi_row c P Q x _ _ d i (by omega) (by omega)]
    exact hp.rowDot _ _ _ (by omega)
  · exact hp.rowDot _ _ _ (by omega)

end rows

end Verif.Sys
