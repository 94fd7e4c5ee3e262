import Verif.Sys.JacM
import Verif.Eig.Model

/-!
# C99: the equations for a moving observer

`boost w` is what an observer sees who moves with the velocity `-w`.
-/

namespace Verif.Sys

noncomputable section

/-- The state with the velocity `w` added. -/
def boost (w : V3) (Q : St) : St := fun k =>
  if k = 1 then Q 1 + dot3 w (getRv Q) + Q 0 * sq3 w / 2
  else if k = 2 then Q 2 + Q 0 * w 0
  else if k = 3 then Q 3 + Q 0 * w 1
  else if k = 4 then Q 4 + Q 0 * w 2
  else Q k

variable (c : Cfg) (P : Par) (w : V3) (Q : St)

theorem boost_0 : boost w Q 0 = Q 0 := by simp [boost]

theorem boost_1 : boost w Q 1 = Q 1 + dot3 w (getRv Q) + Q 0 * sq3 w / 2 := by simp [boost]

theorem boost_high (k : Nat) (h : 5 ≤ k) : boost w Q k = Q k := by
  have : ∀ j, j < 5 → k ≠ j := fun j hj => by omega
  simp [boost, this]

theorem boost_rv (i : Fin 3) : getRv (boost w Q) i = getRv Q i + Q 0 * w i := by
  fin_cases i <;> simp [boost, getRv]

theorem boost_A : getA (boost w Q) = getA Q := by
  ext i j
  exact boost_high w Q _ (by omega)

theorem boost_J : getRJ (boost w Q) = getRJ Q := by
  funext i
  exact boost_high w Q _ (by omega)

theorem mV_ge5 : 5 ≤ c.mV := by unfold Cfg.mV; omega

theorem boost_mV : boost w Q c.mV = Q c.mV := boost_high w Q _ (mV_ge5 c)

variable {Q}

theorem boost_vel (hρ : Q 0 ≠ 0) (i : Fin 3) : vel (boost w Q) i = vel Q i + w i := by
  unfold vel
  rw [boost_rv, boost_0]
  field_simp

/-- The energy of the motion is the only energy an observer's motion changes. -/
theorem boost_internal (hρ : Q 0 ≠ 0) : internalEnergy c P (boost w Q) = internalEnergy c P Q := by
  have e : boost w Q 1 / Q 0 - E3 (vel (boost w Q)) = Q 1 / Q 0 - E3 (vel Q) := by
    unfold E3 sq3
    rw [boost_vel w hρ, boost_vel w hρ, boost_vel w hρ, boost_1]
    unfold vel dot3 sq3
    field_simp
    ring
  unfold internalEnergy
  rw [boost_0, boost_A, boost_J, boost_mV, e]

theorem boost_solveMulti (hρ : Q 0 ≠ 0) : solveMulti c P (boost w Q) = solveMulti c P Q := by
  unfold solveMulti
  rw [boost_internal c P w hρ, boost_0, boost_mV]

theorem boost_pressure (hρ : Q 0 ≠ 0) : pressure c P (boost w Q) = pressure c P Q := by
  unfold pressure
  rw [boost_solveMulti c P w hρ, boost_internal c P w hρ, boost_0]

theorem boost_temperature (hρ : Q 0 ≠ 0) : temperature c P (boost w Q) = temperature c P Q := by
  unfold temperature
  rw [boost_pressure c P w hρ, boost_0]

theorem boost_dEdrho (hρ : Q 0 ≠ 0) : dEdrho c P (boost w Q) = dEdrho c P Q := by
  unfold dEdrho
  rw [boost_solveMulti c P w hρ, boost_pressure c P w hρ, boost_0, boost_mV, boost_A]

theorem boost_dEdp (hρ : Q 0 ≠ 0) : dEdp c P (boost w Q) = dEdp c P Q := by
  unfold dEdp
  rw [boost_solveMulti c P w hρ, boost_0, boost_mV]

variable (Q)

theorem boost_dEdAs (R : Params) : dEdAs R (boost w Q) = dEdAs R Q := by
  unfold dEdAs
  rw [boost_A, boost_0]

theorem boost_sigma (R : Params) : sigma R (boost w Q) = sigma R Q := by
  unfold sigma
  rw [boost_A, boost_0, boost_dEdAs]

theorem boost_sigmaCol (R : Params) (d : Fin 3) : sigmaCol R (boost w Q) d = sigmaCol R Q d := by
  unfold sigmaCol
  rw [boost_A, boost_0, boost_dEdAs]

theorem boost_dsigmadrho (R : Params) (d : Fin 3) : dsigmadrho R (boost w Q) d = dsigmadrho R Q d := by
  unfold dsigmadrho
  rw [boost_sigmaCol, boost_0]

theorem boost_dsigmadAd (R : Params) (d : Fin 3) : dsigmadAd R (boost w Q) d = dsigmadAd R Q d := by
  unfold dsigmadAd
  rw [boost_A, boost_0]

variable {Q}

theorem boost_SigmaCol (hρ : Q 0 ≠ 0) (d : Fin 3) : SigmaCol c P (boost w Q) d = SigmaCol c P Q d := by
  unfold SigmaCol
  rw [boost_sigmaCol, boost_pressure c P w hρ]

/-! ### The equations -/

/-- The change `w · ∇` of the terms that are not in conservation form. -/
def drift (c : Cfg) (w : V3) (x : St) (d : Fin 3) : St := fun i =>
  if c.V - c.lset ≤ i ∧ i < c.V then w d * x i
  else if 5 ≤ i ∧ i < 14 then bdotA x w d i
  else 0

theorem boost_bdotA (x : St) (i : Nat) (d : Fin 3) (v : V3) :
    bdotA (boost w x) v d i = bdotA x v d i := by
  have h : ∀ j, boost w x (5 + 3 * ((i - 5) / 3) + j) = x (5 + 3 * ((i - 5) / 3) + j) := fun j =>
    boost_high w x _ (by omega)
  have h0 : boost w x (5 + 3 * ((i - 5) / 3)) = x (5 + 3 * ((i - 5) / 3)) := h 0
  unfold bdotA
  simp only [h, h0]

theorem bdotA_add (x : St) (i : Nat) (d : Fin 3) (v : V3) :
    bdotA x (fun k => v k + w k) d i = bdotA x v d i + bdotA x w d i := by
  unfold bdotA
  fin_cases d <;> simp only [] <;> split <;> ring

/-- **The non-conservative product seen by a moving observer.** -/
theorem boost_bdot (hv : c.viscous = true) (hρ : Q 0 ≠ 0) (x junk junk' : St) (d : Fin 3) (i : Nat) (hi : i < c.V) :
    bdot c (boost w Q) (boost w x) d junk i = bdot c Q x d junk' i + drift c w x d i := by
  have e : vel (boost w Q) = fun k => vel Q k + w k := funext fun k => boost_vel w hρ k
  have hV : 14 ≤ c.V - c.lset := by
    unfold Cfg.V Cfg.mV
    simp only [hv, if_true]
    omega
  unfold bdot drift
  simp only [hv, if_true]
  by_cases h1 : c.V - c.lset ≤ i ∧ i < c.V
  · simp only [h1, and_self, if_true]
    rw [e, boost_high w x _ (by omega)]
    ring
  · simp only [h1, if_false]
    by_cases h2 : 5 ≤ i ∧ i < 14
    · simp only [h2, and_self, if_true]
      rw [e, boost_bdotA w x i, bdotA_add]
    · simp only [h2, if_false, hi, if_true]
      ring

/-- `flux` before `MULTI` is looked at. -/
def fluxHead (c : Cfg) (P : Par) (Q : St) (d : Fin 3) : St :=
  if c.thermal then fluxThermal c P Q d (fluxViscous P Q d (fluxBase c P Q d 0)) else fluxViscous P Q d (fluxBase c P Q d 0)

theorem boost_congr (F G : St) (h : ∀ k < 5, F k = G k) (i : Nat) (hi : F i = G i) : boost w F i = boost w G i := by
  unfold boost dot3 getRv
  simp only [h 0 (by omega), h 1 (by omega), h 2 (by omega), h 3 (by omega), h 4 (by omega), hi,
    show F (2 + ((0 : Fin 3) : Nat)) = G (2 + ((0 : Fin 3) : Nat)) from h 2 (by omega),
    show F (2 + ((1 : Fin 3) : Nat)) = G (2 + ((1 : Fin 3) : Nat)) from h 3 (by omega),
    show F (2 + ((2 : Fin 3) : Nat)) = G (2 + ((2 : Fin 3) : Nat)) from h 4 (by omega)]

set_option maxHeartbeats 4000000 in
theorem boost_fluxHead (hρ : Q 0 ≠ 0) (d : Fin 3) (i : Nat) (hi : i < 14 ∨ c.thermal = true ∧ i < 17) :
    fluxHead c P (boost w Q) d i = boost w (fluxHead c P Q d) i + w d * boost w Q i -
      if 5 ≤ i ∧ i < 14 then bdotA Q w d i else 0 := by
  have hp := boost_pressure c P w hρ
  have hr : ∀ k, getRv Q k = Q 0 * vel Q k := fun k => by unfold vel; field_simp
  have hr' : ∀ k, getRv (boost w Q) k = Q 0 * (vel Q k + w k) := fun k => by rw [boost_rv, hr]; ring
  have c1 : ∀ x : ℝ, Q 0 * x / Q 0 = x := fun x => by field_simp
  have c2 : ∀ x y : ℝ, x * (Q 0 * y) / Q 0 = x * y := fun x y => by field_simp
  have q2 : Q 2 = Q 0 * vel Q 0 := hr 0
  have q3 : Q 3 = Q 0 * vel Q 1 := hr 1
  have q4 : Q 4 = Q 0 * vel Q 2 := hr 2
  have hAv : ∀ i, (getA Q).mulVec (getRv Q) i / Q 0 = getA Q i 0 * vel Q 0 + getA Q i 1 * vel Q 1 + getA Q i 2 * vel Q 2 := fun i => by
    simp only [Matrix.mulVec, dotProduct, Fin.sum_univ_three, hr]
    field_simp
  have hAv' : ∀ i, (getA Q).mulVec (getRv (boost w Q)) i / Q 0 =
      getA Q i 0 * (vel Q 0 + w 0) + getA Q i 1 * (vel Q 1 + w 1) + getA Q i 2 * (vel Q 2 + w 2) := fun i => by
    simp only [Matrix.mulVec, dotProduct, Fin.sum_univ_three, hr']
    field_simp
  have hd : ∀ s : V3, dot3 s (getRv Q) / Q 0 = dot3 s (vel Q) := fun s => by
    unfold dot3; rw [hr, hr, hr]; field_simp
  have hd' : ∀ s : V3, dot3 s (getRv (boost w Q)) / Q 0 = dot3 s (vel Q) + dot3 s w := fun s => by
    unfold dot3; rw [hr', hr', hr']; field_simp; ring
  have hJ : ∀ k, getRJ Q k = Q (14 + k) := fun _ => rfl
  obtain ⟨a0, a1, a2, a3, a4, a5, a6, a7, a8⟩ := getA_entries Q
  have b1 := boost_1 w Q
  have b2 : boost w Q 2 = Q 2 + Q 0 * w 0 := rfl
  have b3 : boost w Q 3 = Q 3 + Q 0 * w 1 := rfl
  have b4 : boost w Q 4 = Q 4 + Q 0 * w 2 := rfl
  have key : ∀ F : St, boost w F = fun k => if k = 1 then F 1 + (w 0 * F 2 + w 1 * F 3 + w 2 * F 4) + F 0 * sq3 w / 2
      else if k = 2 then F 2 + F 0 * w 0 else if k = 3 then F 3 + F 0 * w 1 else if k = 4 then F 4 + F 0 * w 2 else F k :=
    fun F => rfl
  rw [key (fluxHead c P Q d)]
  unfold fluxHead
  by_cases ht : c.thermal = true
  · have hi' : i < 17 := by omega
    simp only [ht, if_true, fluxThermal, fluxViscous, fluxBase, boost_0, boost_A, boost_J, boost_sigmaCol, hp, hAv, hAv', hd, hd', hr, hr', c1,
      b1, hJ]
    generalize sigmaCol P.toParams Q d = σ
    generalize temperatureMG P.toParams (Q 0) (pressure c P Q) = T
    generalize pressure c P Q = p
    generalize vel Q = v at *
    fin_cases d <;> interval_cases i <;>
      simp [addSeg, addAt, boost_0, b1, b2, b3, b4, q2, q3, q4, a0, a1, a2, a3, a4, a5, a6, a7, a8, bdotA, dot3, sq3, boost_high, hr] <;> ring
  · have hi' : i < 14 := hi.resolve_right fun h => ht h.1
    simp only [ht, if_false, Bool.false_eq_true, fluxViscous, fluxBase, boost_0, boost_A, boost_sigmaCol, hp, hAv, hAv', hd, hd', hr, hr', c1, b1]
    generalize sigmaCol P.toParams Q d = σ
    generalize pressure c P Q = p
    generalize vel Q = v at *
    fin_cases d <;> interval_cases i <;>
      simp [addSeg, addAt, boost_0, b1, b2, b3, b4, q2, q3, q4, a0, a1, a2, a3, a4, a5, a6, a7, a8, bdotA, dot3, sq3, boost_high, hr] <;> ring

/-- **The flux seen by a moving observer**: the observed flux of the observed state is the flux the observer adds up from
the flux of the state, and what is carried past them. -/
theorem boost_flux (hv : c.viscous = true) (hρ : Q 0 ≠ 0) (d : Fin 3) (i : Nat) (hi : i < c.V) :
    flux c P (boost w Q) d 0 i = boost w (flux c P Q d 0) i + w d * boost w Q i - drift c w Q d i := by
  have hmV : 14 ≤ c.mV ∧ (c.thermal = true → 17 ≤ c.mV) ∧ (c.thermal = false → c.mV = 14) ∧ (c.thermal = true → c.mV = 17) := by
    unfold Cfg.mV
    simp only [hv, if_true]
    exact ⟨by omega, fun h => by simp only [h, if_true]; omega, fun h => by simp [h], fun h => by simp [h]⟩
  have hl : c.V - c.lset = c.mV + if c.multi then 1 else 0 := by unfold Cfg.V; omega
  have e : ∀ Q, flux c P Q d 0 = if c.multi then setAt c.mV (Q c.mV * (getRv Q d / Q 0)) (fluxHead c P Q d) else fluxHead c P Q d :=
    fun Q => by unfold flux fluxHead; simp only [hv, if_true]
  have out : ∀ Q k, c.mV ≤ k → fluxHead c P Q d k = 0 := fun Q k hk => by
    have hd := d.2
    unfold fluxHead
    have h : ∀ j, j < 14 → k ≠ j := fun j hj => by omega
    have h11 : k ≠ 11 + d.1 := by omega
    have h8 : k ≠ 8 + d.1 := by omega
    have h5 : k ≠ 5 + d.1 := by omega
    have h2 : k ≠ 2 + d.1 := by omega
    by_cases ht : c.thermal = true
    · have := hmV.2.1 ht
      have g : ∀ j, j < 17 → k ≠ j := fun j hj => by omega
      have g14 : k ≠ 14 + d.1 := by omega
      simp [ht, fluxThermal, fluxViscous, fluxBase, addSeg, addAt, g, g14, h11, h8, h5, h2]
    · simp [ht, fluxViscous, fluxBase, addSeg, addAt, h, h11, h8, h5, h2]
  have low : ∀ Q, ∀ k < c.mV, flux c P Q d 0 k = fluxHead c P Q d k := fun Q k hk => by
    rw [e]
    split_ifs
    · simp only [setAt]; rw [if_neg (by omega)]
    · rfl
  by_cases hi' : i < c.mV
  · have hh : i < 14 ∨ c.thermal = true ∧ i < 17 := by
      rcases Bool.eq_false_or_eq_true c.thermal with ht | ht
      · exact Or.inr ⟨ht, by have := hmV.2.2.2 ht; omega⟩
      · exact Or.inl (by have := hmV.2.2.1 ht; omega)
    rw [low _ _ hi', boost_fluxHead c P w hρ d i hh, boost_congr w _ _ (fun k hk => low Q k (by omega)) i (low Q i hi')]
    unfold drift
    rw [if_neg (c := c.V - c.lset ≤ i ∧ i < c.V) (by rw [hl]; omega)]
  · rw [boost_high w _ i (by omega), boost_high w _ i (by omega)]
    unfold drift
    by_cases h1 : c.V - c.lset ≤ i
    · rw [if_pos ⟨h1, hi⟩]
      have z : ∀ Q, flux c P Q d 0 i = 0 := fun Q => by
        rw [e]
        by_cases hmu : c.multi = true
        · simp only [hmu, if_true] at hl
          simp only [hmu, if_true, setAt]
          rw [if_neg (by omega), out _ _ (by omega)]
        · simp only [hmu, if_false, Bool.false_eq_true]
          exact out _ _ (by omega)
      rw [z, z]
      ring
    · have hmu : c.multi = true := by
        by_contra h
        simp only [h, if_false] at hl
        omega
      simp only [hmu, if_true] at hl
      have hk : i = c.mV := by omega
      subst hk
      rw [if_neg (by omega), if_neg (by omega), e, e]
      simp only [hmu, if_true, setAt, boost_mV, boost_0, boost_rv]
      field_simp
      ring

/-- The wave speeds relative to the matter are the same for every observer. -/
theorem boost_xi1 (hρ : Q 0 ≠ 0) (d : Fin 3) : Eig.xi1 c P (boost w Q) d = Eig.xi1 c P Q d := by
  unfold Eig.xi1
  rw [boost_0, boost_pressure c P w hρ, boost_dsigmadrho, boost_dsigmadAd]

theorem boost_xi2 (hρ : Q 0 ≠ 0) (d : Fin 3) : Eig.xi2 c P (boost w Q) d = Eig.xi2 c P Q d := by
  have e : Eig.c0 c P (boost w Q) = Eig.c0 c P Q := by
    unfold Eig.c0
    rw [boost_pressure c P w hρ, boost_dEdrho c P w hρ, boost_dEdp c P w hρ, boost_0]
  unfold Eig.xi2
  rw [boost_0, boost_pressure c P w hρ, boost_dsigmadrho, e, boost_sigmaCol, boost_A]

/-- **Wave speeds**: the largest speed the code takes for a state is that of the matter and a speed that does not depend on
the observer. -/
theorem boost_maxAbsEigs (hρ : Q 0 ≠ 0) (d : Fin 3) :
    Eig.maxAbsEigs c P (boost w Q) d - |vel Q d + w d| = Eig.maxAbsEigs c P Q d - |vel Q d| := by
  have hs : ∀ R : St, Eig.maxAbsEigs c P R d = |vel R d| +
      Real.sqrt (if c.thermal then Eig.specMax (Eig.tensor4 c P R d) else Eig.specMax (Eig.tensor3 c P R d)) := fun R => by
    have hvd : R (2 + d) / R 0 = vel R d := rfl
    unfold Eig.maxAbsEigs
    simp only [hvd]
    split_ifs with h h'
    · rw [abs_of_pos h]
    · rw [abs_of_pos h]
    · rw [abs_of_nonpos (not_lt.mp h)]; ring
    · rw [abs_of_nonpos (not_lt.mp h)]; ring
  rw [hs, hs, boost_vel w hρ]
  unfold Eig.tensor4 Eig.tensor3
  rw [boost_xi1 c P w hρ, boost_xi2 c P w hρ]
  ring

end

end Verif.Sys
