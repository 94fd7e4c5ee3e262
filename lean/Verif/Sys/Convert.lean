import Verif.Sys.Eos
import Verif.Sys.Model
import Mathlib.Tactic.IntervalCases

/-!
# C38 (second half): conserved and primitive forms round-trip
-/

namespace Verif.Sys

theorem E1_of_pressure (c : Cfg) (P : Par) (Q : St) (hm : P.multi = false) (hρ : Q 0 ≠ 0)
    (hΓ : gammaMG P.toParams (Q 0) ≠ 0) :
    E1 P.toParams (Q 0) (pressure c P Q) = internalEnergy c P Q := by
  simp only [pressure, hm, Bool.false_eq_true, if_false]
  exact E1_pressure _ _ _ hρ hΓ

theorem setSeg_fun (k : Nat) (f : Nat → ℝ) (r : St) (i : Nat) :
    setSeg k (fun j => f (k + j)) r i = if k ≤ i ∧ i < k + 3 then f i else r i := by
  simp only [setSeg, setAt, Fin.val_zero, Fin.val_one, Fin.val_two, Nat.add_zero]
  by_cases h : k ≤ i ∧ i < k + 3
  · rw [if_pos h]
    split_ifs with h1 h2 h3
    · rw [h1]
    · rw [h2]
    · rw [h3]
    · omega
  · rw [if_neg h, if_neg (by omega), if_neg (by omega), if_neg (by omega)]

theorem setSeg_out (k : Nat) (x : V3) (r : St) (i : Nat) (h : ¬ (k ≤ i ∧ i < k + 3)) :
    setSeg k x r i = r i := by
  simp only [setSeg, setAt]
  rw [if_neg (by omega), if_neg (by omega), if_neg (by omega)]

theorem mV_ge (c : Cfg) (hv : c.viscous = true) : 14 ≤ c.mV := by
  unfold Cfg.mV; rw [hv]; simp only [if_true]; omega

theorem mV_thermal (c : Cfg) (hv : c.viscous = true) (ht : c.thermal = true) : c.mV = 17 := by
  unfold Cfg.mV; rw [hv, ht]; rfl

/-- The components divided by the density. -/
def Scaled (c : Cfg) (i : Nat) : Prop :=
  (2 ≤ i ∧ i < 5) ∨ (c.thermal = true ∧ 14 ≤ i ∧ i < 17) ∨ (c.multi = true ∧ i = c.mV)

theorem Scaled.lo {c : Cfg} (hv : c.viscous = true) {i : Nat} (hi : i < 14) (h : Scaled c i) : 2 ≤ i ∧ i < 5 := by
  have := mV_ge c hv
  rcases h with h | h | h <;> omega

theorem pvec_zero (c : Cfg) (hv : c.viscous = true) (P : Par) (Q : St) : pvec c P Q 0 = Q 0 := by
  have := mV_ge c hv
  simp only [pvec]
  split_ifs <;> simp [setAt, setSeg, show (0 : Nat) ≠ c.mV by omega]

theorem pvec_one (c : Cfg) (hv : c.viscous = true) (P : Par) (Q : St) : pvec c P Q 1 = pressure c P Q := by
  have := mV_ge c hv
  simp only [pvec]
  split_ifs <;> simp [setAt, setSeg, show (1 : Nat) ≠ c.mV by omega]

open Classical in
theorem pvec_other (c : Cfg) (hv : c.viscous = true) (P : Par) (Q : St) (i : Nat) (hi : i ≠ 1) :
    pvec c P Q i = if Scaled c i then Q i / Q 0 else Q i := by
  have h14 := mV_ge c hv
  have h17 := mV_thermal c hv
  simp only [pvec]
  by_cases hm : c.multi = true <;> by_cases ht : c.thermal = true <;>
    simp only [hm, ht, if_true, setAt]
  · have := h17 ht
    by_cases h1 : i = c.mV
    · rw [if_pos h1, if_pos (show Scaled c i from Or.inr (Or.inr ⟨hm, h1⟩)), h1]
    · rw [if_neg h1, setSeg_fun 14 (fun i => Q i / Q 0)]
      by_cases h2 : 14 ≤ i ∧ i < 14 + 3
      · rw [if_pos h2, if_pos (show Scaled c i from Or.inr (Or.inl ⟨ht, h2⟩))]
      · rw [if_neg h2, setSeg_fun 2 (fun i => Q i / Q 0)]
        by_cases h3 : 2 ≤ i ∧ i < 2 + 3
        · rw [if_pos h3, if_pos (show Scaled c i from Or.inl h3)]
        · rw [if_neg h3, setAt, if_neg hi, if_neg]
          rintro (h | h | h)
          · exact h3 h
          · exact h2 h.2
          · exact h1 h.2
  · by_cases h1 : i = c.mV
    · rw [if_pos h1, if_pos (show Scaled c i from Or.inr (Or.inr ⟨hm, h1⟩)), h1]
    · rw [if_neg h1, if_neg (by simp), setSeg_fun 2 (fun i => Q i / Q 0)]
      by_cases h3 : 2 ≤ i ∧ i < 2 + 3
      · rw [if_pos h3, if_pos (show Scaled c i from Or.inl h3)]
      · rw [if_neg h3, setAt, if_neg hi, if_neg]
        rintro (h | h | h)
        · exact h3 h
        · exact ht h.1
        · exact h1 h.2
  · rw [if_neg (by simp), setSeg_fun 14 (fun i => Q i / Q 0)]
    by_cases h2 : 14 ≤ i ∧ i < 14 + 3
    · rw [if_pos h2, if_pos (show Scaled c i from Or.inr (Or.inl ⟨ht, h2⟩))]
    · rw [if_neg h2, setSeg_fun 2 (fun i => Q i / Q 0)]
      by_cases h3 : 2 ≤ i ∧ i < 2 + 3
      · rw [if_pos h3, if_pos (show Scaled c i from Or.inl h3)]
      · rw [if_neg h3, setAt, if_neg hi, if_neg]
        rintro (h | h | h)
        · exact h3 h
        · exact h2 h.2
        · exact hm h.1
  · rw [if_neg (by simp), if_neg (by simp), setSeg_fun 2 (fun i => Q i / Q 0)]
    by_cases h3 : 2 ≤ i ∧ i < 2 + 3
    · rw [if_pos h3, if_pos (show Scaled c i from Or.inl h3)]
    · rw [if_neg h3, setAt, if_neg hi, if_neg]
      rintro (h | h | h)
      · exact h3 h
      · exact ht h.1
      · exact hm h.1

/-- The total energy `Cvec` stores. -/
noncomputable def cvecE (c : Cfg) (M : Par) (P : St) : ℝ :=
  totalEnergy M (P 0) (P 1) (getA P) (if c.thermal then some (getRJ P) else none) (getRv P)
    (if c.multi then some (P c.mV) else none)

theorem cvec_zero (c : Cfg) (hv : c.viscous = true) (M : Par) (P : St) : cvec c M P 0 = P 0 := by
  have := mV_ge c hv
  simp only [cvec]
  split_ifs <;> simp [setAt, setSeg, show (0 : Nat) ≠ c.mV by omega]

theorem cvec_one (c : Cfg) (hv : c.viscous = true) (M : Par) (P : St) : cvec c M P 1 = P 0 * cvecE c M P := by
  have := mV_ge c hv
  simp only [cvec, cvecE]
  split_ifs <;> simp [setAt, setSeg, show (1 : Nat) ≠ c.mV by omega]

open Classical in
theorem cvec_other (c : Cfg) (hv : c.viscous = true) (M : Par) (Q : St) (i : Nat) (hi : i ≠ 1) :
    cvec c M Q i = if Scaled c i then Q i * Q 0 else Q i := by
  have h14 := mV_ge c hv
  have h17 := mV_thermal c hv
  simp only [cvec]
  by_cases hm : c.multi = true <;> by_cases ht : c.thermal = true <;>
    simp only [hm, ht, if_true, setAt]
  · have := h17 ht
    by_cases h1 : i = c.mV
    · rw [if_pos h1, if_pos (show Scaled c i from Or.inr (Or.inr ⟨hm, h1⟩)), h1]
    · rw [if_neg h1, setSeg_fun 14 (fun i => Q i * Q 0)]
      by_cases h2 : 14 ≤ i ∧ i < 14 + 3
      · rw [if_pos h2, if_pos (show Scaled c i from Or.inr (Or.inl ⟨ht, h2⟩))]
      · rw [if_neg h2, setSeg_fun 2 (fun i => Q i * Q 0)]
        by_cases h3 : 2 ≤ i ∧ i < 2 + 3
        · rw [if_pos h3, if_pos (show Scaled c i from Or.inl h3)]
        · rw [if_neg h3, setAt, if_neg hi, if_neg]
          rintro (h | h | h)
          · exact h3 h
          · exact h2 h.2
          · exact h1 h.2
  · by_cases h1 : i = c.mV
    · rw [if_pos h1, if_pos (show Scaled c i from Or.inr (Or.inr ⟨hm, h1⟩)), h1]
    · rw [if_neg h1, if_neg (by simp), setSeg_fun 2 (fun i => Q i * Q 0)]
      by_cases h3 : 2 ≤ i ∧ i < 2 + 3
      · rw [if_pos h3, if_pos (show Scaled c i from Or.inl h3)]
      · rw [if_neg h3, setAt, if_neg hi, if_neg]
        rintro (h | h | h)
        · exact h3 h
        · exact ht h.1
        · exact h1 h.2
  · rw [if_neg (by simp), setSeg_fun 14 (fun i => Q i * Q 0)]
    by_cases h2 : 14 ≤ i ∧ i < 14 + 3
    · rw [if_pos h2, if_pos (show Scaled c i from Or.inr (Or.inl ⟨ht, h2⟩))]
    · rw [if_neg h2, setSeg_fun 2 (fun i => Q i * Q 0)]
      by_cases h3 : 2 ≤ i ∧ i < 2 + 3
      · rw [if_pos h3, if_pos (show Scaled c i from Or.inl h3)]
      · rw [if_neg h3, setAt, if_neg hi, if_neg]
        rintro (h | h | h)
        · exact h3 h
        · exact h2 h.2
        · exact hm h.1
  · rw [if_neg (by simp), if_neg (by simp), setSeg_fun 2 (fun i => Q i * Q 0)]
    by_cases h3 : 2 ≤ i ∧ i < 2 + 3
    · rw [if_pos h3, if_pos (show Scaled c i from Or.inl h3)]
    · rw [if_neg h3, setAt, if_neg hi, if_neg]
      rintro (h | h | h)
      · exact h3 h
      · exact ht h.1
      · exact hm h.1

theorem pvec_vel (c : Cfg) (hv : c.viscous = true) (P : Par) (Q : St) : getRv (pvec c P Q) = vel Q := by
  funext i
  have : Scaled c (2 + i.1) := Or.inl ⟨by omega, by omega⟩
  rw [getRv, pvec_other c hv P Q _ (by omega), if_pos this]
  rfl

theorem pvec_A (c : Cfg) (hv : c.viscous = true) (P : Par) (Q : St) : getA (pvec c P Q) = getA Q := by
  ext i j
  simp only [getA, Matrix.of_apply]
  rw [pvec_other c hv P Q _ (by omega), if_neg]
  intro h
  have := h.lo hv (by omega)
  omega

theorem pvec_J (c : Cfg) (hv : c.viscous = true) (ht : c.thermal = true) (P : Par) (Q : St) :
    getRJ (pvec c P Q) = fun i => getRJ Q i / Q 0 := by
  funext i
  have : Scaled c (14 + i.1) := Or.inr (Or.inl ⟨ht, by omega, by omega⟩)
  rw [getRJ, pvec_other c hv P Q _ (by omega), if_pos this]
  rfl

theorem pvec_lam (c : Cfg) (hv : c.viscous = true) (hm : c.multi = true) (P : Par) (Q : St) :
    pvec c P Q c.mV = Q c.mV / Q 0 := by
  have := mV_ge c hv
  rw [pvec_other c hv P Q _ (by omega), if_pos (show Scaled c c.mV from Or.inr (Or.inr ⟨hm, rfl⟩))]

/-- **C38**: `Cvec(Pvec(Q)) = Q`, for every configuration with distortion whose `MULTI` option is on exactly for
reactive materials, and a material that is not a mixture. -/
theorem cvec_pvec (c : Cfg) (P : Par) (Q : St) (hv : c.viscous = true) (hr : P.reaction > -1 ↔ c.multi = true)
    (hm : P.multi = false) (hρ : Q 0 ≠ 0) (hΓ : gammaMG P.toParams (Q 0) ≠ 0) :
    cvec c P (pvec c P Q) = Q := by
  have hE := E1_of_pressure c P Q hm hρ hΓ
  funext i
  by_cases h1 : i = 1
  · subst h1
    rw [cvec_one c hv]
    simp only [cvecE, totalEnergy, pvec_zero c hv, pvec_one c hv, pvec_vel c hv, pvec_A c hv, hE, internalEnergy, hv,
      if_true]
    have hJ := pvec_J c hv
    have hl := pvec_lam c hv
    by_cases ht : c.thermal = true <;> by_cases hmu : c.multi = true <;>
      simp only [ht, hmu, if_true, if_false, hr, Bool.false_eq_true, hJ, hl] <;>
      field_simp <;> ring
  · rw [cvec_other c hv _ _ _ h1, pvec_zero c hv, pvec_other c hv _ _ _ h1]
    split_ifs
    · field_simp
    · rfl

/-- **C38**, the other way round. -/
theorem pvec_cvec (c : Cfg) (P : Par) (Q : St) (hv : c.viscous = true) (hr : P.reaction > -1 ↔ c.multi = true)
    (hm : P.multi = false) (hρ : Q 0 ≠ 0) (hΓ : gammaMG P.toParams (Q 0) ≠ 0) :
    pvec c P (cvec c P Q) = Q := by
  funext i
  by_cases h1 : i = 1
  · subst h1
    rw [pvec_one c hv]
    simp only [pressure, hm, Bool.false_eq_true, if_false, cvec_zero c hv]
    conv_rhs => rw [← pressure_E1 P.toParams (Q 0) (Q 1) hρ hΓ]
    congr 1
    have hvel : vel (cvec c P Q) = getRv Q := by
      funext i
      have : Scaled c (2 + i.1) := Or.inl ⟨by omega, by omega⟩
      simp only [vel, getRv]
      rw [cvec_other c hv P Q _ (by omega), if_pos this, cvec_zero c hv]
      field_simp
    have hA : getA (cvec c P Q) = getA Q := by
      ext i j
      simp only [getA, Matrix.of_apply]
      rw [cvec_other c hv P Q _ (by omega), if_neg]
      intro h
      have := h.lo hv (by omega)
      omega
    have hJ : c.thermal = true → (fun i => getRJ (cvec c P Q) i / Q 0) = getRJ Q := by
      intro ht
      funext i
      have : Scaled c (14 + i.1) := Or.inr (Or.inl ⟨ht, by omega, by omega⟩)
      rw [getRJ, cvec_other c hv P Q _ (by omega), if_pos this]
      rw [getRJ]
      field_simp
    have hl : c.multi = true → cvec c P Q c.mV / Q 0 = Q c.mV := by
      intro hmu
      have := mV_ge c hv
      rw [cvec_other c hv P Q _ (by omega), if_pos (show Scaled c c.mV from Or.inr (Or.inr ⟨hmu, rfl⟩))]
      field_simp
    simp only [internalEnergy, hvel, hA, hv, if_true, cvec_zero c hv, cvec_one c hv, cvecE, totalEnergy]
    by_cases ht : c.thermal = true <;> by_cases hmu : c.multi = true <;>
      simp only [ht, hmu, if_true, if_false, hr, Bool.false_eq_true, hJ, hl] <;>
      field_simp <;> ring
  · rw [pvec_other c hv _ _ _ h1, cvec_zero c hv, cvec_other c hv _ _ _ h1]
    split_ifs
    · field_simp
    · rfl

/-- **C38 fails for a reactive configuration with an inert material**: `Cvec` adds the reaction energy that
`Pvec` did not subtract. -/
theorem cvec_pvec_inert (c : Cfg) (P : Par) (Q : St) (hv : c.viscous = true) (hmu : c.multi = true)
    (hr : ¬ P.reaction > -1) (hm : P.multi = false) (hρ : Q 0 ≠ 0) (hΓ : gammaMG P.toParams (Q 0) ≠ 0) :
    cvec c P (pvec c P Q) 1 = Q 1 + P.Qc * (Q c.mV - Q 0) := by
  have hE := E1_of_pressure c P Q hm hρ hΓ
  rw [cvec_one c hv]
  simp only [cvecE, totalEnergy, pvec_zero c hv, pvec_one c hv, pvec_vel c hv, pvec_A c hv, hE, internalEnergy, hv,
    if_true, hr, if_false, hmu, ER]
  have hJ := pvec_J c hv
  have hl := pvec_lam c hv
  by_cases ht : c.thermal = true <;>
    simp only [ht, hmu, if_true, if_false, Bool.false_eq_true, hJ, hl] <;>
    field_simp <;> ring

/-! ### `Cvec_to_Pvec` and `Pvec_to_Cvec` -/

theorem c2p_lo (c : Cfg) (hv : c.viscous = true) (M : Par) (Q : St) (i : Nat) (hi : i < 14) :
    cvecToPvec c M Q i = setSeg 11 (fun i => getRv Q i / Q 0) (setSeg 8 (fun i => getA Q i 2)
      (setSeg 5 (fun i => getA Q i 1) (setSeg 2 (fun i => getA Q i 0) (setAt 1 (pressure c M Q) Q)))) i := by
  have := mV_ge c hv
  simp only [cvecToPvec]
  split_ifs
  · rw [setAt, if_neg (by omega), setSeg_out _ _ _ _ (by omega)]
  · rw [setAt, if_neg (by omega)]
  · rw [setSeg_out _ _ _ _ (by omega)]
  · rfl

theorem c2p_hi (c : Cfg) (hv : c.viscous = true) (M : Par) (Q : St) (i : Nat) (hi : 14 ≤ i) :
    cvecToPvec c M Q i = pvec c M Q i := by
  have h14 := mV_ge c hv
  have h17 := mV_thermal c hv
  classical
  rw [pvec_other c hv _ _ _ (by omega)]
  have hout : ∀ j, 14 ≤ j → setSeg 11 (fun i => getRv Q i / Q 0) (setSeg 8 (fun i => getA Q i 2)
      (setSeg 5 (fun i => getA Q i 1) (setSeg 2 (fun i => getA Q i 0) (setAt 1 (pressure c M Q) Q)))) j = Q j := by
    intro j hj
    rw [setSeg_out _ _ _ _ (by omega), setSeg_out _ _ _ _ (by omega), setSeg_out _ _ _ _ (by omega),
      setSeg_out _ _ _ _ (by omega), setAt, if_neg (by omega)]
  have hseg : ∀ r : St, (∀ j, 14 ≤ j → r j = Q j) →
      setSeg 14 (fun i => r (14 + i) / Q 0) r i = if 14 ≤ i ∧ i < 17 then Q i / Q 0 else Q i := by
    intro r hr
    rw [setSeg_fun 14 (fun i => r i / Q 0)]
    simp only [hr i hi]
  simp only [cvecToPvec]
  by_cases hm : c.multi = true <;> by_cases ht : c.thermal = true <;> simp only [hm, ht, if_true]
  · rw [setAt]
    have := h17 ht
    by_cases h1 : i = c.mV
    · rw [if_pos h1, if_pos (show Scaled c i from Or.inr (Or.inr ⟨hm, h1⟩)), setSeg_out _ _ _ _ (by omega), hout _ h14, h1]
    · rw [if_neg h1, hseg _ hout]
      by_cases h2 : 14 ≤ i ∧ i < 17
      · rw [if_pos h2, if_pos (show Scaled c i from Or.inr (Or.inl ⟨ht, h2⟩))]
      · rw [if_neg h2, if_neg]
        rintro (h | h | h)
        · omega
        · exact h2 h.2
        · exact h1 h.2
  · rw [if_neg (by simp), setAt]
    by_cases h1 : i = c.mV
    · rw [if_pos h1, if_pos (show Scaled c i from Or.inr (Or.inr ⟨hm, h1⟩)), hout _ h14, h1]
    · rw [if_neg h1, hout _ hi, if_neg]
      rintro (h | h | h)
      · omega
      · exact ht h.1
      · exact h1 h.2
  · rw [if_neg (by simp), hseg _ hout]
    by_cases h2 : 14 ≤ i ∧ i < 17
    · rw [if_pos h2, if_pos (show Scaled c i from Or.inr (Or.inl ⟨ht, h2⟩))]
    · rw [if_neg h2, if_neg]
      rintro (h | h | h)
      · omega
      · exact h2 h.2
      · exact hm h.1
  · rw [if_neg (by simp), if_neg (by simp), hout _ hi, if_neg]
    rintro (h | h | h)
    · omega
    · exact ht h.1
    · exact hm h.1

/-- **C38**: `Pvec_to_Cvec(Cvec_to_Pvec(Q)) = Q` for every configuration with distortion and every material that
is not a mixture. -/
theorem p2c_c2p (c : Cfg) (M : Par) (Q : St) (hv : c.viscous = true) (hm : M.multi = false) (hρ : Q 0 ≠ 0)
    (hΓ : gammaMG M.toParams (Q 0) ≠ 0) : pvecToCvec c M (cvecToPvec c M Q) = Q := by
  have h14 := mV_ge c hv
  have h17 := mV_thermal c hv
  have hE := E1_of_pressure c M Q hm hρ hΓ
  set R := cvecToPvec c M Q with hR
  have e0 : R 0 = Q 0 := by
    rw [hR, c2p_lo c hv _ _ _ (by norm_num)]; simp [setSeg, setAt]
  have e1 : R 1 = pressure c M Q := by
    rw [hR, c2p_lo c hv _ _ _ (by norm_num)]; simp [setSeg, setAt]
  have eA : (Matrix.of fun i j : Fin 3 => R (2 + 3 * j + i) : M3) = getA Q := by
    ext i j
    simp only [Matrix.of_apply]
    rw [hR, c2p_lo c hv _ _ _ (by omega)]
    fin_cases i <;> fin_cases j <;> simp [setSeg, setAt]
  have ev : (fun i : Fin 3 => R (11 + i)) = vel Q := by
    funext i
    rw [hR, c2p_lo c hv _ _ _ (by omega)]
    fin_cases i <;> simp [setSeg, setAt, vel]
  have eh : ∀ i, 14 ≤ i → R i = pvec c M Q i := fun i hi => by rw [hR, c2p_hi c hv _ _ _ hi]
  classical
  -- the vector before the energy is stored
  let r1 : St := setA (getA Q) (setSeg 2 (fun i => Q 0 * vel Q i) R)
  have r1lo : ∀ i, i ≠ 1 → i < 14 → r1 i = Q i := by
    intro i h1 hi
    simp only [r1, setA]
    interval_cases i <;> simp_all [setSeg, setAt, vel, getRv, getA] <;> field_simp
  have r1hi : ∀ i, 14 ≤ i → r1 i = pvec c M Q i := by
    intro i hi
    simp only [r1, setA]
    rw [setSeg_out _ _ _ _ (by omega), setSeg_out _ _ _ _ (by omega), setSeg_out _ _ _ _ (by omega),
      setSeg_out _ _ _ _ (by omega), eh i hi]
  let r2 : St := if c.multi then setAt c.mV (r1 c.mV * Q 0) r1 else r1
  have r2lo : ∀ i, i ≠ 1 → i < 14 → r2 i = Q i := by
    intro i h1 hi
    simp only [r2]
    split_ifs
    · rw [setAt, if_neg (by omega), r1lo i h1 hi]
    · exact r1lo i h1 hi
  have r2hi : ∀ i, 14 ≤ i → r2 i = if c.thermal = true ∧ i < 17 then Q i / Q 0 else Q i := by
    intro i hi
    have hp := pvec_other c hv M Q i (by omega)
    simp only [r2]
    by_cases hmu : c.multi = true
    · rw [if_pos hmu, setAt]
      by_cases h1 : i = c.mV
      · rw [if_pos h1, r1hi _ h14, pvec_lam c hv hmu, if_neg, h1]
        · field_simp
        · intro h; have := h17 h.1; omega
      · rw [if_neg h1, r1hi _ hi, hp]
        refine if_congr ?_ rfl rfl
        constructor
        · rintro (h | h | h)
          · omega
          · exact ⟨h.1, h.2.2⟩
          · exact absurd h.2 h1
        · intro h; exact Or.inr (Or.inl ⟨h.1, hi, h.2⟩)
    · rw [if_neg hmu, r1hi _ hi, hp]
      refine if_congr ?_ rfl rfl
      constructor
      · rintro (h | h | h)
        · omega
        · exact ⟨h.1, h.2.2⟩
        · exact absurd h.1 hmu
      · intro h; exact Or.inr (Or.inl ⟨h.1, hi, h.2⟩)
  have r2m : r2 c.mV = Q c.mV := by
    rw [r2hi _ h14, if_neg]
    intro h; have := h17 h.1; omega
  have hunfold : pvecToCvec c M R = if c.thermal then
      setSeg 14 (fun i => r2 (14 + i) * Q 0) (setAt 1 (Q 0 * totalEnergy M (Q 0) (pressure c M Q) (getA Q)
        (some fun i => r2 (14 + i)) (vel Q) (if M.reaction > -1 then some (r2 c.mV / Q 0) else none)) r2)
      else setAt 1 (Q 0 * totalEnergy M (Q 0) (pressure c M Q) (getA Q) none (vel Q)
        (if M.reaction > -1 then some (r2 c.mV / Q 0) else none)) r2 := by
    have ev' : ∀ i : Fin 3, R (11 + i) = vel Q i := fun i => congrFun ev i
    simp only [pvecToCvec, e0, e1, ev', eA]
    rfl
  rw [hunfold, r2m]
  funext i
  by_cases ht : c.thermal = true
  · rw [if_pos ht, setSeg_fun 14 (fun i => r2 i * Q 0), setAt]
    by_cases h2 : 14 ≤ i ∧ i < 14 + 3
    · rw [if_pos h2, r2hi i h2.1, if_pos ⟨ht, h2.2⟩]
      field_simp
    · rw [if_neg h2]
      by_cases h1 : i = 1
      · rw [if_pos h1, h1]
        have hJ : (fun j : Fin 3 => r2 (14 + j)) = fun j => getRJ Q j / Q 0 := by
          funext j
          rw [r2hi _ (by omega), if_pos ⟨ht, by omega⟩]; rfl
        simp only [totalEnergy, hE, internalEnergy, hv, ht, if_true, hJ]
        by_cases hr : M.reaction > -1 <;> simp only [hr, if_true, if_false] <;> field_simp <;> ring
      · rw [if_neg h1]
        by_cases hi : i < 14
        · exact r2lo i h1 hi
        · rw [r2hi i (by omega), if_neg (by omega)]
  · rw [if_neg ht, setAt]
    by_cases h1 : i = 1
    · rw [if_pos h1, h1]
      simp only [totalEnergy, hE, internalEnergy, hv, ht, if_true, if_false, Bool.false_eq_true]
      by_cases hr : M.reaction > -1 <;> simp only [hr, if_true, if_false] <;> field_simp <;> ring
    · rw [if_neg h1]
      by_cases hi : i < 14
      · exact r2lo i h1 hi
      · rw [r2hi i (by omega), if_neg (fun h => ht h.1)]

/-- **C38 fails without distortion** (`VISCOUS = false`): the energy `Cvec` stores contains the shear energy of
whatever the vector holds from entry 5 on, which `Pvec` never subtracted. -/
theorem cvec_pvec_inviscid (c : Cfg) (P : Par) (Q : St) (hv : c.viscous = false) (ht : c.thermal = false)
    (hmu : c.multi = false) (hr : ¬ P.reaction > -1) (hm : P.multi = false) (hρ : Q 0 ≠ 0)
    (hΓ : gammaMG P.toParams (Q 0) ≠ 0) :
    cvec c P (pvec c P Q) 1 = Q 1 + Q 0 * E2A P.toParams (Q 0) (getA Q) := by
  have hE := E1_of_pressure c P Q hm hρ hΓ
  have h0 : pvec c P Q 0 = Q 0 := by simp [pvec, ht, hmu, setSeg, setAt]
  have h1 : pvec c P Q 1 = pressure c P Q := by simp [pvec, ht, hmu, setSeg, setAt]
  have h2 : getRv (pvec c P Q) = vel Q := by
    funext i
    fin_cases i <;> simp [pvec, ht, hmu, setSeg, setAt, vel, getRv]
  have h3 : getA (pvec c P Q) = getA Q := by
    ext i j
    fin_cases i <;> fin_cases j <;> simp [pvec, ht, hmu, setSeg, setAt, getA]
  have h4 : cvec c P (pvec c P Q) 1 = pvec c P Q 0 * cvecE c P (pvec c P Q) := by
    simp [cvec, cvecE, ht, hmu, setSeg, setAt]
  rw [h4]
  simp only [cvecE, ht, hmu, if_false, totalEnergy, h0, h1, h2, h3, hE, internalEnergy, hv, hr, Bool.false_eq_true]
  field_simp
  ring

/-- **C38 for mixtures**: `Pvec` solves a two-phase problem for the pressure while `Cvec` evaluates the first phase's
energy, so on a cell of pure second phase the round trip keeps the energy only if the two phases happen to agree. -/
theorem cvec_pvec_mixture_iff (c : Cfg) (P : Par) (Q : St) (hv : c.viscous = true) (hmu : c.multi = true)
    (hr : P.reaction > -1) (hm : P.multi = true) (hρ : Q 0 ≠ 0) (hl0 : Q c.mV = 0) :
    cvec c P (pvec c P Q) 1 = Q 1 ↔
      E1 P.toParams (Q 0) (max (pressureMG P.mp2 (Q 0) (internalEnergy c P Q)) 0) = internalEnergy c P Q := by
  have hp : pressure c P Q = max (pressureMG P.mp2 (Q 0) (internalEnergy c P Q)) 0 := by
    simp [pressure, hm, solveMulti, hl0]
  have key : cvec c P (pvec c P Q) 1 = Q 1 + Q 0 * (E1 P.toParams (Q 0)
      (max (pressureMG P.mp2 (Q 0) (internalEnergy c P Q)) 0) - internalEnergy c P Q) := by
    rw [cvec_one c hv, ← hp]
    simp only [cvecE, totalEnergy, pvec_zero c hv, pvec_one c hv, pvec_vel c hv, pvec_A c hv]
    generalize E1 P.toParams (Q 0) (pressure c P Q) = X
    have hJ := pvec_J c hv
    have hl := pvec_lam c hv
    by_cases ht : c.thermal = true <;>
      simp only [internalEnergy, ht, hmu, hv, hr, if_true, if_false, Bool.false_eq_true, hJ, hl] <;>
      field_simp <;> ring
  rw [key]
  constructor
  · intro h
    have : Q 0 * (E1 P.toParams (Q 0) (max (pressureMG P.mp2 (Q 0) (internalEnergy c P Q)) 0) -
      internalEnergy c P Q) = 0 := by linarith
    rcases mul_eq_zero.mp this with h' | h'
    · exact absurd h' hρ
    · linarith
  · intro h; rw [h]; ring

/-! ### Witnesses -/

/-- The configuration of options.h with the option `MULTI` as given. -/
def cfgOf (multi : Bool) : Cfg := ⟨true, false, multi, 2, fun _ _ _ _ => (0, 0)⟩

/-- Density 1, energy 5, at rest, identity distortion, everything else `0`. -/
def stateAtRest : St := fun i => if i = 0 then 1 else if i = 1 then 5 else if i = 5 ∨ i = 9 ∨ i = 13 then 1 else 0

theorem rest_devGsq : devGsq (getA stateAtRest) = 0 := by
  simp [devGsq, getA, dot3, stateAtRest]; norm_num

theorem rest_E3 : E3 (vel stateAtRest) = 0 := by simp [E3, sq3, vel, getRv, stateAtRest]

/-- The hypotheses of the round trips hold for a moving sheared state of every equation of state. -/
example (e : Eos) : ∃ Q : St, Q 0 ≠ 0 ∧ gammaMG { sample with eos := e } (Q 0) ≠ 0 ∧ Q 2 ≠ 0 ∧ Q 6 ≠ 0 ∧
    cvec (cfgOf false) (samplePar { sample with eos := e })
      (pvec (cfgOf false) (samplePar { sample with eos := e }) Q) = Q ∧
    pvecToCvec (cfgOf false) (samplePar { sample with eos := e })
      (cvecToPvec (cfgOf false) (samplePar { sample with eos := e }) Q) = Q := by
  have hΓ : gammaMG { sample with eos := e } 2 ≠ 0 := by cases e <;> norm_num [gammaMG, sample]
  refine ⟨fun _ => 2, by norm_num, hΓ, by norm_num, by norm_num, ?_, ?_⟩
  · exact cvec_pvec _ _ _ rfl (by simp [samplePar, cfgOf]) rfl (by norm_num) hΓ
  · exact p2c_c2p _ _ _ rfl rfl (by norm_num) hΓ

/-- **C38 fails** in three feature sets: an inert material under `MULTI`, no distortion, and a mixture. -/
theorem cvec_pvec_false :
    (∃ Q : St, cvec (cfgOf true) (samplePar sample) (pvec (cfgOf true) (samplePar sample) Q) ≠ Q) ∧
    (∃ Q : St, cvec { cfgOf false with viscous := false } (samplePar { sample with β := 0 })
      (pvec { cfgOf false with viscous := false } (samplePar { sample with β := 0 }) Q) ≠ Q) ∧
    (∃ (P : Par) (Q : St), P.reaction > -1 ∧ P.multi = true ∧ Q 0 > 0 ∧
      cvec (cfgOf true) P (pvec (cfgOf true) P Q) ≠ Q) := by
  have hΓ : gammaMG sample 1 ≠ 0 := by norm_num [gammaMG, sample]
  refine ⟨⟨stateAtRest, fun h => ?_⟩, ⟨fun i => if i = 5 then 2 else 1, fun h => ?_⟩,
    ⟨{ samplePar sample with reaction := 0, multi := true, mp2 := { sample with γ := 3 } }, stateAtRest, ?_⟩⟩
  · have := congrFun h 1
    rw [cvec_pvec_inert (cfgOf true) (samplePar sample) stateAtRest rfl rfl (by simp [samplePar]) rfl
      (by norm_num [stateAtRest]) (by simpa [stateAtRest, samplePar] using hΓ)] at this
    norm_num [stateAtRest, samplePar, cfgOf, Cfg.mV] at this
  · have := congrFun h 1
    rw [cvec_pvec_inviscid { cfgOf false with viscous := false } (samplePar { sample with β := 0 }) _ rfl rfl rfl (by simp [samplePar]) rfl
      (by norm_num) (by simpa [samplePar, gammaMG] using hΓ)] at this
    norm_num [E2A, C0, cs2, gammaMG, samplePar, sample, devGsq, getA, dot3, show (2 : Fin 3) ≠ 0 by decide] at this
  · refine ⟨by norm_num, rfl, by norm_num [stateAtRest], fun h => ?_⟩
    have := (cvec_pvec_mixture_iff _ _ _ rfl rfl (by norm_num) rfl (by norm_num [stateAtRest])
      (by norm_num [stateAtRest, cfgOf, Cfg.mV])).mp (congrFun h 1)
    rw [internalEnergy, rest_E3] at this
    norm_num [E2A, rest_devGsq, E1, ER, pressureMG, gammaMG, eRef, pRef, samplePar, sample, stateAtRest, cfgOf,
      Cfg.mV] at this

end Verif.Sys
