import Verif.Sys.Boost
import Verif.Relax.Model
import Mathlib.Analysis.Calculus.FDeriv.Pi
import Mathlib.Analysis.Calculus.FDeriv.Prod
import Mathlib.Analysis.Calculus.Deriv.Prod
import Mathlib.Analysis.SpecialFunctions.Trigonometric.Deriv

/-!
# C99: source terms for a moving observer, and solutions of the equations
-/

namespace Verif.Relax

open Verif.Sys

noncomputable section

variable (c : Cfg) (P : Par) (w : V3) {Q : St}

theorem boost_theta1 (Q : St) : theta1inv P (boost w Q) = theta1inv P Q := by
  unfold theta1inv
  rw [boost_0, boost_A, boost_sigma]

theorem boost_theta2 (hρ : Q 0 ≠ 0) : theta2inv c P (boost w Q) = theta2inv c P Q := by
  unfold theta2inv
  rw [boost_0, boost_temperature c P w hρ]

/-- **Reactions do not depend on the observer.** -/
theorem boost_rate (hρ : Q 0 ≠ 0) : reactionRate c P (boost w Q) = reactionRate c P Q := by
  unfold reactionRate
  rw [boost_0, boost_mV, boost_temperature c P w hρ, boost_pressure c P w hρ]

theorem boost_setAt (k : Nat) (hk : 5 ≤ k) (x : ℝ) (Q : St) : setAt k x (boost w Q) = boost w (setAt k x Q) := by
  have : ∀ j, j < 5 → j ≠ k := fun j hj => by omega
  funext i
  by_cases h : i = k
  · subst h
    rw [boost_high w _ _ hk]
    simp [setAt]
  · have e : setAt k x (boost w Q) i = boost w Q i := by simp [setAt, h]
    rw [e]
    exact boost_congr w _ _ (fun j hj => by simp [setAt, this j hj]) i (by simp [setAt, h])

theorem boost_setSeg (k : Nat) (hk : 5 ≤ k) (x : V3) (Q : St) : setSeg k x (boost w Q) = boost w (setSeg k x Q) := by
  unfold setSeg
  rw [boost_setAt w _ hk, boost_setAt w _ (by omega), boost_setAt w _ (by omega)]

theorem boost_setA (A : M3) (Q : St) : setA A (boost w Q) = boost w (setA A Q) := by
  unfold setA
  rw [boost_setSeg w _ (by omega), boost_setSeg w _ (by omega), boost_setSeg w _ (by omega)]

/-- What an observer adds who takes the work of the body forces into account, which the code does not. -/
def work (P : Par) (w : V3) : St := fun k => if k = 1 then dot3 w P.δp else 0

/-- **The source terms seen by a moving observer**, but for the work of the body forces. -/
theorem boost_source (rate : ℝ) (hρ : Q 0 ≠ 0) : source c P rate (boost w Q) = boost w (source c P rate Q) - work P w := by
  have hm := mV_ge5 c
  have e0 : setSeg 2 P.δp (fun _ => 0) = boost w (setSeg 2 P.δp fun _ => 0) - work P w := by
    funext k
    by_cases h5 : k < 5
    · interval_cases k <;> simp [setSeg, setAt, boost, work, dot3, getRv]
    · have : ∀ j, j < 5 → k ≠ j := fun j hj => by omega
      rw [Pi.sub_apply, boost_high w _ k (by omega)]
      simp [setSeg, setAt, work, this]
  have hat : ∀ (k : Nat) (x : ℝ) (r : St), 5 ≤ k → setAt k x (r - work P w) = setAt k x r - work P w := fun k x r hk => by
    funext i
    by_cases h : i = k
    · subst h
      have : i ≠ 1 := by omega
      simp [setAt, work, this]
    · simp [setAt, h]
  have hseg : ∀ (k : Nat) (x : V3) (r : St), 5 ≤ k → setSeg k x (r - work P w) = setSeg k x r - work P w := fun k x r hk => by
    unfold setSeg
    rw [hat _ _ _ hk, hat _ _ _ (by omega), hat _ _ _ (by omega)]
  have hA : ∀ (A : M3) (r : St), setA A (r - work P w) = setA A r - work P w := fun A r => by
    unfold setA
    rw [hseg _ _ _ (by omega), hseg _ _ _ (by omega), hseg _ _ _ (by omega)]
  have hJ : dEdJ P.toParams (boost w Q) = dEdJ P.toParams Q := by
    funext i
    unfold dEdJ
    rw [boost_J, boost_0]
  have h14 : ∀ (x : V3) (r : St), setSeg 14 x (boost w r - work P w) = boost w (setSeg 14 x r) - work P w := fun x r => by
    rw [hseg _ _ _ (by omega), boost_setSeg w _ (by omega)]
  have hmV : ∀ (x : ℝ) (r : St), setAt c.mV x (boost w r - work P w) = boost w (setAt c.mV x r) - work P w := fun x r => by
    rw [hat _ _ _ hm, boost_setAt w _ hm]
  have hA' : ∀ (A : M3) (r : St), setA A (boost w r - work P w) = boost w (setA A r) - work P w := fun A r => by
    rw [hA, boost_setA]
  unfold source
  simp only [boost_0, boost_dEdAs, boost_theta1, boost_theta2 c P w hρ, hJ]
  conv_lhs => rw [show (setSeg 2 P.δp fun _ => 0) = boost w (setSeg 2 P.δp fun _ => 0) - work P w from e0]
  generalize setSeg 2 P.δp (fun _ => 0) = r
  split_ifs <;> first | rfl | simp only [hA', h14, hmV]

/-! ### The source half step -/

theorem body_rest (dt : ℝ) (hδ : P.δp = 0) (Q : St) : bodyForces P dt Q = Q := by
  funext k
  unfold bodyForces addSeg addAt
  simp [hδ]

theorem boost_distortion (svd : M3 → M3 × V3 × M3) (dt : ℝ) (Q : St) :
    relaxDistortion P svd dt (boost w Q) = (relaxDistortion P svd dt Q).map (boost w) := by
  unfold relaxDistortion
  simp only [boost_A]
  rw [Option.map_map]
  congr 1
  funext A
  exact boost_setA w A Q

theorem boost_thermal (dt : ℝ) (Q : St) : relaxThermal P dt (boost w Q) = boost w (relaxThermal P dt Q) := by
  have e : boost w Q 1 / Q 0 - E2A P.toParams (Q 0) (getA Q) - E3 (vel (boost w Q)) =
      Q 1 / Q 0 - E2A P.toParams (Q 0) (getA Q) - E3 (vel Q) := by
    by_cases hρ : Q 0 = 0
    · have e : ∀ R : St, R 0 = 0 → vel R = 0 := fun R hR => by funext i; unfold vel; rw [hR, div_zero]; rfl
      rw [e Q hρ, e (boost w Q) (by rw [boost_0, hρ]), hρ, div_zero, div_zero]
    unfold E3 sq3
    rw [boost_vel w hρ, boost_vel w hρ, boost_vel w hρ, boost_1]
    unfold vel dot3 sq3
    field_simp
    ring
  unfold relaxThermal
  simp only [boost_0, boost_A, boost_J, e]
  exact boost_setSeg w 14 (by omega) _ Q

theorem relaxDistortion_dens (svd : M3 → M3 × V3 × M3) (dt : ℝ) (Q R : St) (h : relaxDistortion P svd dt Q = some R) : R 0 = Q 0 := by
  unfold relaxDistortion at h
  obtain ⟨A, -, rfl⟩ := Option.map_eq_some_iff.mp h
  rfl

theorem boost_analytic (svd : M3 → M3 × V3 × M3) (dt : ℝ) (hδ : P.δp = 0) (Q : St) :
    odeAnalytic c P svd dt (boost w Q) = (odeAnalytic c P svd dt Q).map (boost w) := by
  have ht : ∀ R : St, (if c.thermal then relaxThermal P dt (boost w R) else boost w R) =
      boost w (if c.thermal then relaxThermal P dt R else R) := fun R => by
    split_ifs
    · exact boost_thermal P w dt R
    · rfl
  unfold odeAnalytic
  simp only [body_rest P dt hδ]
  by_cases hv : c.viscous = true
  · simp only [hv, if_true, boost_distortion]
    cases relaxDistortion P svd dt Q with
    | none => rfl
    | some R => exact congrArg some (ht R)
  · simp only [hv]
    exact congrArg some (ht Q)

theorem odeAnalytic_dens (svd : M3 → M3 × V3 × M3) (dt : ℝ) (hδ : P.δp = 0) (Q R : St) (h : odeAnalytic c P svd dt Q = some R) : R 0 = Q 0 := by
  unfold odeAnalytic at h
  simp only [body_rest P dt hδ] at h
  by_cases hv : c.viscous = true
  · simp only [hv, if_true] at h
    cases e : relaxDistortion P svd dt Q with
    | none => rw [e] at h; cases h
    | some S =>
      rw [e] at h
      have h' : (if c.thermal then relaxThermal P dt S else S) = R := Option.some.inj h
      rw [← h', ← relaxDistortion_dens P svd dt Q S e]
      split_ifs <;> rfl
  · simp only [hv] at h
    have h' : (if c.thermal then relaxThermal P dt Q else Q) = R := Option.some.inj h
    rw [← h']
    split_ifs <;> rfl

theorem boost_numerical (steps fuel : Nat) (dt : ℝ) (hρ : Q 0 ≠ 0) :
    odeNumerical c P steps fuel dt (boost w Q) = (odeNumerical c P steps fuel dt Q).map (boost w) := by
  have hm := mV_ge5 c
  have e : func c P (boost w Q) = func c P Q := by
    funext l
    unfold func
    rw [boost_0, boost_setAt w _ hm, boost_rate c P w (Q := setAt c.mV (Q 0 * l) Q)]
    have : (0 : Nat) ≠ c.mV := by omega
    simpa [setAt, this] using hρ
  unfold odeNumerical
  simp only [boost_mV, boost_0, e, boost_setAt w _ hm]
  split_ifs <;> simp [Function.comp_def]

/-- **The source half step seen by a moving observer**, without body forces. -/
theorem boost_odeCell (svd : M3 → M3 × V3 × M3) (steps fuel : Nat) (dt : ℝ) (hδ : P.δp = 0) (hρ : Q 0 ≠ 0) :
    odeCell c P svd steps fuel dt (boost w Q) = (odeCell c P svd steps fuel dt Q).map (boost w) := by
  unfold odeCell
  rw [boost_analytic c P w svd dt hδ Q]
  cases h : odeAnalytic c P svd dt Q with
  | none => rfl
  | some R =>
    have hR : R 0 ≠ 0 := by rw [odeAnalytic_dens c P svd dt hδ Q R h]; exact hρ
    exact boost_numerical c P w steps fuel dt hR

/-! ### Solutions of the equations -/

/-- The field `u` solves the equations at the time `t` and the place `x`: the components have derivatives `L`, the fluxes
have the slopes `F`, and rates of change, slopes of the fluxes and non-conservative products add up to the source terms. -/
def SolvesAt (c : Cfg) (P : Par) (u : ℝ → V3 → St) (t : ℝ) (x : V3) : Prop :=
  ∃ (L : Nat → (ℝ × V3) →L[ℝ] ℝ) (F : Fin 3 → St) (rate : ℝ),
    (∀ i, HasFDerivAt (fun z : ℝ × V3 => u z.1 z.2 i) (L i) (t, x)) ∧
    (∀ d, ∀ i < c.V, HasDerivAt (fun s : ℝ => flux c P (u t (x + s • Pi.single d 1)) d 0 i) (F d i) 0) ∧
    (P.reaction > -1 → reactionRate c P (u t x) = some rate) ∧
    ∀ i < c.V, L i (1, 0) + ∑ d : Fin 3, (F d i + bdot c (u t x) (fun k => L k (0, Pi.single d 1)) d 0 i) =
      source c P rate (u t x) i

/-- The field `u` seen by an observer who moves with the velocity `-w`. -/
def moving (w : V3) (u : ℝ → V3 → St) : ℝ → V3 → St := fun t x => boost w (u t (x - t • w))

/-- `boost` on derivatives. -/
def boostL (w : V3) (L : Nat → (ℝ × V3) →L[ℝ] ℝ) : Nat → (ℝ × V3) →L[ℝ] ℝ := fun k =>
  if k = 1 then L 1 + (w 0 • L 2 + w 1 • L 3 + w 2 • L 4) + (sq3 w / 2) • L 0
  else if k = 2 then L 2 + w 0 • L 0
  else if k = 3 then L 3 + w 1 • L 0
  else if k = 4 then L 4 + w 2 • L 0
  else L k

theorem boostL_apply (L : Nat → (ℝ × V3) →L[ℝ] ℝ) (z : ℝ × V3) (k : Nat) : boostL w L k z = boost w (fun j => L j z) k := by
  unfold boostL boost dot3 getRv
  by_cases h5 : k < 5
  · interval_cases k <;> simp <;> ring
  · have : ∀ j, j < 5 → k ≠ j := fun j hj => by omega
    simp [this]

theorem boostL_deriv (u : ℝ × V3 → St) (L : Nat → (ℝ × V3) →L[ℝ] ℝ) (z : ℝ × V3) (h : ∀ i, HasFDerivAt (fun z => u z i) (L i) z) (k : Nat) :
    HasFDerivAt (fun z => boost w (u z) k) (boostL w L k) z := by
  have e : ∀ k, (fun z => boost w (u z) k) = fun z => if k = 1 then u z 1 + (w 0 * u z 2 + w 1 * u z 3 + w 2 * u z 4) + (sq3 w / 2) * u z 0
      else if k = 2 then u z 2 + w 0 * u z 0 else if k = 3 then u z 3 + w 1 * u z 0 else if k = 4 then u z 4 + w 2 * u z 0 else u z k := by
    intro k
    funext z
    unfold boost dot3 getRv
    split_ifs <;> simp <;> ring
  rw [e]
  unfold boostL
  split_ifs
  · exact ((h 1).add (((h 2).const_smul (w 0)).add ((h 3).const_smul (w 1)) |>.add ((h 4).const_smul (w 2)))).add ((h 0).const_smul (sq3 w / 2))
  · exact (h 2).add ((h 0).const_smul (w 0))
  · exact (h 3).add ((h 0).const_smul (w 1))
  · exact (h 4).add ((h 0).const_smul (w 2))
  · exact h k

/-- A field in motion has the derivatives one expects. -/
theorem moving_deriv (u : ℝ → V3 → St) (L : Nat → (ℝ × V3) →L[ℝ] ℝ) (t : ℝ) (x : V3)
    (h : ∀ i, HasFDerivAt (fun z : ℝ × V3 => u z.1 z.2 i) (L i) (t, x)) (k : Nat) :
    HasFDerivAt (fun z : ℝ × V3 => moving w u z.1 z.2 k)
      ((boostL w L k).comp ((ContinuousLinearMap.fst ℝ ℝ V3).prod
        (ContinuousLinearMap.snd ℝ ℝ V3 - (ContinuousLinearMap.fst ℝ ℝ V3).smulRight w))) (t, x + t • w) := by
  have g : HasFDerivAt (fun z : ℝ × V3 => (z.1, z.2 - z.1 • w)) ((ContinuousLinearMap.fst ℝ ℝ V3).prod
        (ContinuousLinearMap.snd ℝ ℝ V3 - (ContinuousLinearMap.fst ℝ ℝ V3).smulRight w)) (t, x + t • w) :=
    ((ContinuousLinearMap.fst ℝ ℝ V3).prod
        (ContinuousLinearMap.snd ℝ ℝ V3 - (ContinuousLinearMap.fst ℝ ℝ V3).smulRight w)).hasFDerivAt
  have b := boostL_deriv w (fun z : ℝ × V3 => u z.1 z.2) L (t, x) h k
  have e : (fun z : ℝ × V3 => (z.1, z.2 - z.1 • w)) (t, x + t • w) = (t, x) := by simp
  rw [← e] at b
  exact b.comp (t, x + t • w) g

/-- `boost` adds. -/
theorem boost_add (F G : St) (k : Nat) : boost w (fun j => F j + G j) k = boost w F k + boost w G k := by
  unfold boost dot3 getRv
  split_ifs <;> ring

theorem boost_smul (a : ℝ) (F : St) (k : Nat) : boost w (fun j => a * F j) k = a * boost w F k := by
  unfold boost dot3 getRv
  split_ifs <;> ring

/-- What the derivatives of a field in motion are in the directions of time and of the axes. -/
theorem moving_time (L : Nat → (ℝ × V3) →L[ℝ] ℝ) (k : Nat) :
    ((boostL w L k).comp ((ContinuousLinearMap.fst ℝ ℝ V3).prod
        (ContinuousLinearMap.snd ℝ ℝ V3 - (ContinuousLinearMap.fst ℝ ℝ V3).smulRight w))) (1, 0) =
      boost w (fun j => L j (1, 0)) k - ∑ d : Fin 3, w d * boost w (fun j => L j (0, Pi.single d 1)) k := by
  have e : ((1 : ℝ), (0 : V3) - (1 : ℝ) • w) = (1, 0) - ∑ d : Fin 3, w d • ((0 : ℝ), (Pi.single d 1 : V3)) := by
    ext d
    · simp [Fin.sum_univ_three]
    · fin_cases d <;> simp [Fin.sum_univ_three]
  have e2 : (boostL w L k) ((1 : ℝ), (0 : V3) - (1 : ℝ) • w) =
      boostL w L k (1, 0) - ∑ d : Fin 3, w d * boostL w L k ((0 : ℝ), (Pi.single d 1 : V3)) := by
    rw [e, map_sub, map_sum]
    simp only [map_smul, smul_eq_mul]
  have e3 : ((boostL w L k).comp ((ContinuousLinearMap.fst ℝ ℝ V3).prod
        (ContinuousLinearMap.snd ℝ ℝ V3 - (ContinuousLinearMap.fst ℝ ℝ V3).smulRight w))) (1, 0) =
      (boostL w L k) ((1 : ℝ), (0 : V3) - (1 : ℝ) • w) := rfl
  rw [e3, e2]
  simp only [boostL_apply]

theorem moving_space (L : Nat → (ℝ × V3) →L[ℝ] ℝ) (y : V3) (k : Nat) :
    ((boostL w L k).comp ((ContinuousLinearMap.fst ℝ ℝ V3).prod
        (ContinuousLinearMap.snd ℝ ℝ V3 - (ContinuousLinearMap.fst ℝ ℝ V3).smulRight w))) (0, y) =
      boost w (fun j => L j (0, y)) k := by
  have e : ((boostL w L k).comp ((ContinuousLinearMap.fst ℝ ℝ V3).prod
        (ContinuousLinearMap.snd ℝ ℝ V3 - (ContinuousLinearMap.fst ℝ ℝ V3).smulRight w))) (0, y) =
      (boostL w L k) ((0 : ℝ), y - (0 : ℝ) • w) := rfl
  rw [e, boostL_apply, zero_smul, sub_zero]

/-- `drift` of a sum of entries, differentiated. -/
theorem drift_deriv (q : ℝ → St) (q' : St) (h : ∀ i, HasDerivAt (fun s => q s i) (q' i) 0) (d : Fin 3) (i : Nat) :
    HasDerivAt (fun s => drift c w (q s) d i) (drift c w q' d i) 0 := by
  unfold drift
  split_ifs
  · exact (h i).const_mul _
  · unfold bdotA
    generalize 5 + 3 * ((i - 5) / 3) = k
    generalize (i - 5) % 3 = m
    fin_cases d <;> simp only [] <;> split <;>
      first | exact ((h _).const_mul _).sub ((h _).const_mul _) | exact (h _).const_mul _
  · exact hasDerivAt_const _ _

theorem boost_deriv (q : ℝ → St) (q' : St) (h : ∀ i < 5, HasDerivAt (fun s => q s i) (q' i) 0) (i : Nat)
    (hi : HasDerivAt (fun s => q s i) (q' i) 0) : HasDerivAt (fun s => boost w (q s) i) (boost w q' i) 0 := by
  unfold boost dot3 getRv
  have h0 := h 0 (by omega)
  have h1 := h 1 (by omega)
  have h2 := h 2 (by omega)
  have h3 := h 3 (by omega)
  have h4 := h 4 (by omega)
  split_ifs
  · exact (h1.add (((h2.const_mul (w 0)).add (h3.const_mul (w 1))).add (h4.const_mul (w 2)))).add ((h0.mul_const _).div_const _)
  · exact h2.add (h0.mul_const _)
  · exact h3.add (h0.mul_const _)
  · exact h4.add (h0.mul_const _)
  · exact hi

theorem along_axis (u : ℝ → V3 → St) (L : (ℝ × V3) →L[ℝ] ℝ) (t : ℝ) (x : V3) (i : Nat)
    (h : HasFDerivAt (fun z : ℝ × V3 => u z.1 z.2 i) L (t, x)) (y : V3) :
    HasDerivAt (fun s : ℝ => u t (x + s • y) i) (L (0, y)) 0 := by
  have g : HasDerivAt (fun s : ℝ => ((t, x + s • y) : ℝ × V3)) (0, y) 0 := by
    refine HasDerivAt.prodMk (hasDerivAt_const _ _) ?_
    simpa using ((hasDerivAt_id (0 : ℝ)).smul_const y).const_add x
  have e : (t, x) = (fun s : ℝ => ((t, x + s • y) : ℝ × V3)) 0 := by simp
  rw [e] at h
  exact h.comp_hasDerivAt 0 g

/-- The slopes of the fluxes of a field in motion. -/
theorem moving_flux (hv : c.viscous = true) (u : ℝ → V3 → St) (L : Nat → (ℝ × V3) →L[ℝ] ℝ) (t : ℝ) (x : V3) (hρ : u t x 0 ≠ 0)
    (hL : ∀ i, HasFDerivAt (fun z : ℝ × V3 => u z.1 z.2 i) (L i) (t, x)) (d : Fin 3) (F : St)
    (hF : ∀ i < c.V, HasDerivAt (fun s : ℝ => flux c P (u t (x + s • Pi.single d 1)) d 0 i) (F i) 0) (i : Nat) (hi : i < c.V) :
    HasDerivAt (fun s : ℝ => flux c P (moving w u t (x + t • w + s • Pi.single d 1)) d 0 i)
      (boost w F i + w d * boost w (fun k => L k (0, Pi.single d 1)) i - drift c w (fun k => L k (0, Pi.single d 1)) d i) 0 := by
  have h5 : 14 ≤ c.V := by unfold Cfg.V Cfg.mV; simp only [hv, if_true]; omega
  have ha := fun k => along_axis u (L k) t x k (hL k) (Pi.single d 1)
  have h1 : HasDerivAt (fun s : ℝ => boost w (flux c P (u t (x + s • Pi.single d 1)) d 0) i +
      w d * boost w (u t (x + s • Pi.single d 1)) i - drift c w (u t (x + s • Pi.single d 1)) d i)
      (boost w F i + w d * boost w (fun k => L k (0, Pi.single d 1)) i - drift c w (fun k => L k (0, Pi.single d 1)) d i) 0 :=
    ((boost_deriv w _ _ (fun k hk => hF k (by omega)) i (hF i hi)).add
      ((boost_deriv w _ _ (fun k _ => ha k) i (ha i)).const_mul _)).sub (drift_deriv c w _ _ ha d i)
  refine h1.congr_of_eventuallyEq ?_
  have hc := (ha 0).continuousAt
  have hne : u t (x + (0 : ℝ) • Pi.single d 1) 0 ≠ 0 := by simpa using hρ
  filter_upwards [hc.eventually_ne hne] with s hs
  have e : moving w u t (x + t • w + s • Pi.single d 1) = boost w (u t (x + s • Pi.single d 1)) := by
    unfold moving
    congr 2
    abel
  rw [e]
  exact boost_flux c P w hv hs d i hi

/-- **Galilean invariance.**  What solves the equations solves them for a moving observer too if the observer moves across
the body force, and only then: body forces change the momentum and do no work. -/
theorem moving_solves (hv : c.viscous = true) (u : ℝ → V3 → St) (t : ℝ) (x : V3) (hρ : u t x 0 ≠ 0) (h : SolvesAt c P u t x) :
    SolvesAt c P (moving w u) t (x + t • w) ↔ dot3 w P.δp = 0 := by
  have h5 : 14 ≤ c.V := by unfold Cfg.V Cfg.mV; simp only [hv, if_true]; omega
  obtain ⟨L, F, rate, hL, hF, hr, heq⟩ := h
  have em : moving w u t (x + t • w) = boost w (u t x) := by
    unfold moving
    rw [add_sub_cancel_right]
  have mL := moving_deriv w u L t x hL
  have mF := fun d i hi => moving_flux c P w hv u L t x hρ hL d (F d) (hF d) i hi
  -- the left sides add up to what the observer adds up
  have left : ∀ i < c.V, (boost w (fun j => L j (1, 0)) i - ∑ d : Fin 3, w d * boost w (fun j => L j (0, Pi.single d 1)) i) +
      ∑ d : Fin 3, ((boost w (F d) i + w d * boost w (fun k => L k (0, Pi.single d 1)) i - drift c w (fun k => L k (0, Pi.single d 1)) d i) +
        bdot c (boost w (u t x)) (boost w fun k => L k (0, Pi.single d 1)) d 0 i) = boost w (source c P rate (u t x)) i := by
    intro i hi
    have e : boost w (source c P rate (u t x)) i = boost w (fun j => L j (1, 0) + ((F 0 j + bdot c (u t x) (fun k => L k (0, Pi.single 0 1)) 0 0 j) +
        ((F 1 j + bdot c (u t x) (fun k => L k (0, Pi.single 1 1)) 1 0 j) + (F 2 j + bdot c (u t x) (fun k => L k (0, Pi.single 2 1)) 2 0 j)))) i := by
      have e' : ∀ k < c.V, source c P rate (u t x) k = L k (1, 0) + ((F 0 k + bdot c (u t x) (fun j => L j (0, Pi.single 0 1)) 0 0 k) +
        ((F 1 k + bdot c (u t x) (fun j => L j (0, Pi.single 1 1)) 1 0 k) + (F 2 k + bdot c (u t x) (fun j => L j (0, Pi.single 2 1)) 2 0 k))) := fun k hk => by
        rw [← heq k hk, Fin.sum_univ_three]
        ring
      exact boost_congr w _ _ (fun k hk => e' k (by omega)) i (e' i hi)
    have hb : ∀ d : Fin 3, boost w (bdot c (u t x) (fun k => L k (0, Pi.single d 1)) d 0) i =
        bdot c (u t x) (fun k => L k (0, Pi.single d 1)) d 0 i := fun d => by
      have z : ∀ k < 5, bdot c (u t x) (fun k => L k (0, Pi.single d 1)) d 0 k = 0 := fun k hk => by
        unfold bdot
        have hl : 14 ≤ c.V - c.lset := by unfold Cfg.V Cfg.mV; simp only [hv, if_true]; omega
        rw [if_pos hv, if_neg (by omega), if_neg (by omega), if_pos (by omega)]
      by_cases hi5 : i < 5
      · have := boost_congr w (bdot c (u t x) (fun k => L k (0, Pi.single d 1)) d 0) (fun _ => 0) z i (z i hi5)
        rw [z i hi5, this]
        unfold boost dot3 getRv
        split_ifs <;> simp
      · exact boost_high w _ i (by omega)
    rw [e, boost_add, boost_add, boost_add, boost_add, boost_add, boost_add, hb 0, hb 1, hb 2, Fin.sum_univ_three, Fin.sum_univ_three]
    rw [boost_bdot c w hv hρ _ 0 0 0 i hi, boost_bdot c w hv hρ _ 0 0 1 i hi, boost_bdot c w hv hρ _ 0 0 2 i hi]
    ring
  constructor
  · rintro ⟨L', F', rate', hL', hF', hr', heq'⟩
    have h1 := heq' 1 (by omega)
    have eL : ∀ k, L' k = _ := fun k => (hL' k).unique (mL k)
    have eF : ∀ d, F' d 1 = _ := fun d => (hF' d 1 (by omega)).unique (mF d 1 (by omega))
    have es : ∀ r, source c P r (u t x) 1 = source c P rate (u t x) 1 := fun r => by
      unfold source
      have := mV_ge5 c
      have h1 : (1 : Nat) ≠ c.mV := by omega
      split_ifs <;> simp [setAt, h1]
    have es' : source c P rate' (boost w (u t x)) 1 = source c P rate (boost w (u t x)) 1 := by
      unfold source
      have := mV_ge5 c
      have h1 : (1 : Nat) ≠ c.mV := by omega
      split_ifs <;> simp [setAt, h1]
    simp only [eL, eF, moving_time, moving_space, em] at h1
    rw [es', boost_source c P w rate hρ] at h1
    have h2 := left 1 (by omega)
    have h3 : boost w (source c P rate (u t x)) 1 = boost w (source c P rate (u t x)) 1 - work P w 1 := h2.symm.trans h1
    have : work P w 1 = dot3 w P.δp := rfl
    linarith
  · intro hw
    refine ⟨_, _, rate, mL, mF, fun hr0 => ?_, fun i hi => ?_⟩
    · rw [em, boost_rate c P w hρ]
      exact hr hr0
    · have hz : work P w i = 0 := by unfold work; split_ifs; exacts [hw, rfl]
      simp only [moving_time, moving_space, em]
      rw [boost_source c P w rate hρ, Pi.sub_apply, hz, sub_zero]
      exact left i hi

/-! ### A contact at rest, and in motion -/

/-- A gas at rest under an even pressure, of a density that varies. -/
def contact (x : V3) : St := fun k => if k = 0 then 2 + Real.sin (x 0) else if k = 1 ∨ k = 5 ∨ k = 9 ∨ k = 13 then 1 else 0

theorem contact_pos (x : V3) : 0 < contact x 0 := by
  have := Real.neg_one_le_sin (x 0)
  simp only [contact, if_true]
  linarith

theorem contact_rv (x : V3) : getRv (contact x) = 0 := by
  funext i
  fin_cases i <;> simp [getRv, contact]

theorem contact_A (x : V3) : getA (contact x) = 1 := by
  ext i j
  fin_cases i <;> fin_cases j <;> simp [getA, contact]

theorem adevG_one : AdevG 1 = 0 := by
  ext i j
  unfold AdevG
  fin_cases i <;> fin_cases j <;> simp <;> norm_num

/-- The configuration: distortion, no heat, no mixtures, two level sets. -/
def still : Cfg := ⟨true, false, false, 2, fun _ _ _ _ => (0, 0)⟩

theorem contact_pressure (x : V3) : pressure still (samplePar sample) (contact x) = 1 := by
  have hρ := (contact_pos x).ne'
  have e : devGsq 1 = 0 := by simp [devGsq, dot3]; norm_num
  have hv : vel (contact x) = 0 := by funext i; unfold vel; rw [contact_rv]; simp
  have h1 : contact x 1 = 1 := by simp [contact]
  simp [pressure, samplePar, internalEnergy, still, contact_A, E2A, e, hv, E3, sq3, h1, pressureMG, sample, gammaMG, eRef, pRef]
  field_simp
  norm_num

theorem contact_sigma (x : V3) (d : Fin 3) : sigmaCol sample (contact x) d = 0 := by
  unfold sigmaCol dEdAs
  rw [contact_A, adevG_one]
  simp

/-- The contact solves the equations: the hypotheses of `moving_solves` hold, with any velocity of the observer. -/
theorem contact_solves (t : ℝ) (x : V3) : SolvesAt still (samplePar sample) (fun _ => contact) t x := by
  have hc : ∀ (d : Fin 3) (y : V3), flux still (samplePar sample) (contact y) d 0 = fun i => if i = 2 + d.1 then 1 else 0 := by
    intro d y
    have hp := contact_pressure y
    have hs : sigmaCol (samplePar sample).toParams (contact y) d = 0 := contact_sigma y d
    have hvis : still.viscous = true := rfl
    have hth : still.thermal = false := rfl
    have hmu : still.multi = false := rfl
    funext i
    unfold flux
    simp only [hvis, hth, hmu, if_true, if_false, Bool.false_eq_true, fluxViscous, fluxBase, hp, hs, contact_rv, contact_A]
    simp [addSeg, addAt, dot3]
  refine ⟨fun k => if k = 0 then (Real.cos (x 0)) • ((ContinuousLinearMap.proj 0 : V3 →L[ℝ] ℝ).comp (ContinuousLinearMap.snd ℝ ℝ V3)) else 0,
    fun _ _ => 0, 0, fun i => ?_, fun d i _ => ?_, fun h => ?_, fun i hi => ?_⟩
  · by_cases h0 : i = 0
    · subst h0
      have g : HasFDerivAt (fun z : ℝ × V3 => z.2 0) ((ContinuousLinearMap.proj 0 : V3 →L[ℝ] ℝ).comp (ContinuousLinearMap.snd ℝ ℝ V3)) (t, x) :=
        ((ContinuousLinearMap.proj 0 : V3 →L[ℝ] ℝ).comp (ContinuousLinearMap.snd ℝ ℝ V3)).hasFDerivAt
      have := (g.sin).const_add 2
      simpa [contact] using this
    · simp only [contact, h0, if_false]
      exact hasFDerivAt_const _ _
  · simp only [hc]
    exact hasDerivAt_const _ _
  · simp [samplePar] at h
  · have hv : vel (contact x) = 0 := by funext k; unfold vel; rw [contact_rv]; simp
    have hb : ∀ (d : Fin 3) (y : St), bdot still (contact x) y d 0 i = 0 := fun d y => by
      have ha : bdotA y 0 d i = 0 := by
        unfold bdotA
        fin_cases d <;> simp only [] <;> split <;> simp
      unfold bdot
      rw [hv, ha]
      simp
    have hs : source still (samplePar sample) 0 (contact x) i = 0 := by
      have hE : dEdAs (samplePar sample).toParams (contact x) = 0 := by
        unfold dEdAs
        rw [contact_A, adevG_one, smul_zero]
      have hth : still.thermal = false := rfl
      have hvis : still.viscous = true := rfl
      have hre : ¬ (samplePar sample).reaction > -1 := by simp [samplePar]
      have hδ : (samplePar sample).δp = 0 := rfl
      unfold source
      simp only [hth, hvis, hre, if_true, if_false, Bool.false_eq_true, hE, hδ]
      simp [setA, setSeg, setAt]
    rw [hs]
    simp only [hb]
    by_cases h0 : i = 0 <;> simp [h0]

/-- So a contact that drifts at any speed in any direction solves them too. -/
example (w : V3) (t : ℝ) (x : V3) : SolvesAt still (samplePar sample) (moving w fun _ => contact) t (x + t • w) :=
  (moving_solves still (samplePar sample) w rfl _ t x (contact_pos x).ne' (contact_solves t x)).mpr (by simp [samplePar, dot3])

end

end Verif.Relax
