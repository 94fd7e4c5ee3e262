import Verif.Relax.Frame
import Verif.Relax.Launch
import Verif.Rot.Props
import Verif.Grid.Svd

/-! # The source-term half step in a turned frame -/

namespace Verif.Relax

open Verif.Sys Verif.Iter Verif.Grid Verif.Rot

noncomputable section

/-- The material in the turned frame: the body force turns. -/
def turnPar (P : Par) (R : M3) : Par := { P with δp := R.mulVec P.δp }

variable (c : Cfg) (P : Par) (R : M3)

theorem turn_setA (B : M3) (Q : St) : setA (R * B * R.transpose) (rotateTensors c Q R) = rotateTensors c (setA B Q) R := by
  refine state_ext c _ _ (fun j hj => ?_) ?_ ?_ fun ht => ?_
  · rw [Rot.setA_other _ _ _ (by omega), rotate_other c _ _ _ hj, rotate_other c _ _ _ hj, Rot.setA_other _ _ _ (by omega)]
  · have e : getRv (setA B Q) = getRv Q := by
      funext i
      exact Rot.setA_other _ _ _ (by omega)
    rw [rotate_rv, e, ← rotate_rv c Q R]
    funext i
    exact Rot.setA_other _ _ _ (by omega)
  · rw [Rot.setA_getA, rotate_A, Rot.setA_getA]
  · have e : getRJ (setA B Q) = getRJ Q := by
      funext i
      exact Rot.setA_other _ _ _ (by omega)
    rw [rotate_J c _ _ ht, e, ← rotate_J c Q R ht]
    funext i
    exact Rot.setA_other _ _ _ (by omega)

theorem turn_setAt (k : Nat) (hk : 14 ≤ k ∧ (c.thermal = true → 17 ≤ k)) (x : ℝ) (Q : St) :
    setAt k x (rotateTensors c Q R) = rotateTensors c (setAt k x Q) R := by
  have o : ∀ (Q : St) (j : Nat), j ≠ k → setAt k x Q j = Q j := fun Q j h => if_neg h
  refine state_ext c _ _ (fun j hj => ?_) ?_ ?_ fun ht => ?_
  · rw [rotate_other c _ _ _ hj]
    by_cases h : j = k
    · rw [h]; simp [setAt]
    · rw [o _ _ h, o _ _ h, rotate_other c _ _ _ hj]
  · have e : ∀ Q : St, getRv (setAt k x Q) = getRv Q := fun Q => funext fun i => o _ _ (by omega)
    rw [e, rotate_rv, rotate_rv, e]
  · have e : ∀ Q : St, getA (setAt k x Q) = getA Q := fun Q => by
      ext i j
      exact o _ _ (by omega)
    rw [e, rotate_A, rotate_A, e]
  · have e : ∀ Q : St, getRJ (setAt k x Q) = getRJ Q := fun Q => funext fun i => o _ _ (by have := hk.2 ht; omega)
    rw [e, rotate_J c _ _ ht, rotate_J c _ _ ht, e]

theorem turn_body (dt : ℝ) (Q : St) : bodyForces (turnPar P R) dt (rotateTensors c Q R) = rotateTensors c (bodyForces P dt Q) R := by
  refine state_ext c _ _ (fun j hj => ?_) ?_ ?_ fun ht => ?_
  · rw [body_other _ _ _ _ (by omega), rotate_other c _ _ _ hj, rotate_other c _ _ _ hj, body_other _ _ _ _ (by omega)]
  · have e : ∀ (P : Par) (Q : St), getRv (bodyForces P dt Q) = getRv Q + dt • P.δp := fun P Q => by
      funext i
      change bodyForces P dt Q (2 + i) = Q (2 + i) + dt * P.δp i
      rw [body_val, mul_comm]
    rw [e, rotate_rv, rotate_rv, e, Matrix.mulVec_add, Matrix.mulVec_smul]
    rfl
  · have e : ∀ (P : Par) (Q : St), getA (bodyForces P dt Q) = getA Q := fun P Q =>
      getA_congr _ _ fun k _ _ => body_other P dt Q k (by omega)
    rw [e, rotate_A, rotate_A, e]
  · have e : ∀ (P : Par) (Q : St), getRJ (bodyForces P dt Q) = getRJ Q := fun P Q =>
      funext fun i => body_other P dt Q _ (by omega)
    rw [e, rotate_J c _ _ ht, rotate_J c _ _ ht, e]

/-- The singular value decompositions at a state and at the turned state. -/
structure SvdAt (svd : M3 → M3 × V3 × M3) (A : M3) : Prop where
  ok : IsSVD A (svd A).1 (svd A).2.2 (svd A).2.1
  sorted : Sorted (svd A).2.1

theorem turn_distortion (hR : R.transpose * R = 1) (svd svd' : M3 → M3 × V3 × M3) (dt : ℝ) (Q : St) (h : SvdAt svd (getA Q))
    (h' : SvdAt svd' (R * getA Q * R.transpose))
    (hd : 1e-12 ≤ (invariants (svd (getA Q)).2.1).2 → Distinct (svd (getA Q)).2.1) :
    relaxDistortion (turnPar P R) svd' dt (rotateTensors c Q R) =
      (relaxDistortion P svd dt Q).map fun Q => rotateTensors c Q R := by
  unfold relaxDistortion
  simp only [rotate_A]
  change Option.map _ (relaxA P _ _ _ dt _) = _
  rw [relax_turn P (getA Q) _ _ _ _ R R _ _ dt h.ok hR hR h'.ok h.sorted h'.sorted hd, Option.map_map, Option.map_map]
  congr 1
  funext B
  exact turn_setA c R B Q

theorem turn_thermal (hR : R.transpose * R = 1) (ht : c.thermal = true) (dt : ℝ) (Q : St) :
    relaxThermal (turnPar P R) dt (rotateTensors c Q R) = rotateTensors c (relaxThermal P dt Q) R := by
  have h0 : rotateTensors c Q R 0 = Q 0 := rotate_other c Q R 0 (by omega)
  have h1 : rotateTensors c Q R 1 = Q 1 := rotate_other c Q R 1 (by omega)
  have hE : E2A P.toParams (Q 0) (R * getA Q * R.transpose) = E2A P.toParams (Q 0) (getA Q) := by
    simp only [E2A, devGsq_rotate R _ hR]
  have hK : E3 (R.mulVec (vel Q)) = E3 (vel Q) := by simp only [E3, sq3_rotate R hR]
  have form : ∀ P : Par, ∃ f : ℝ → ℝ → ℝ → ℝ → ℝ → ℝ, ∀ Q, relaxThermal P dt Q = setSeg 14 (fun i => getRJ Q i *
      f (Q 0) (Q 1) (E2A P.toParams (Q 0) (getA Q)) (E3 (vel Q)) (sq3 (getRJ Q))) Q := fun P =>
    ⟨fun ρ e a k j =>
      let E := e / ρ
      let c1 := E - a - k
      let c2 := P.cα2 / 2
      let k := 2 * P.cα2 / (P.κ * ρ * P.cv)
      let c1 := c1 * k
      let c2 := c2 * k
      let ea := Real.exp (-c1 * dt / 2)
      let den := 1 - c2 / c1 * (1 - ea * ea) * j / (ρ * ρ)
      ea / Real.sqrt den, fun Q => rfl⟩
  obtain ⟨f, hf⟩ := form P
  change relaxThermal P dt (rotateTensors c Q R) = _
  rw [hf, hf, h0, h1, rotate_A, hE, vel_rotate, hK, rotate_J c Q R ht, sq3_rotate R hR]
  generalize f (Q 0) (Q 1) (E2A P.toParams (Q 0) (getA Q)) (E3 (vel Q)) (sq3 (getRJ Q)) = g
  have o : ∀ (x : V3) (Q : St) (j : Nat), j < 14 ∨ 17 ≤ j → setSeg 14 x Q j = Q j := fun x Q j h =>
    setSeg_other 14 x Q j (by omega)
  refine state_ext c _ _ (fun j hj => ?_) ?_ ?_ fun _ => ?_
  · have hj' : j < 14 ∨ 17 ≤ j := by
      rcases hj with h | ⟨-, h⟩
      · omega
      · exact Or.inr (h ht)
    rw [o _ _ _ hj', rotate_other c _ _ _ hj, rotate_other c _ _ _ hj, o _ _ _ hj']
  · have e : ∀ (x : V3) (Q : St), getRv (setSeg 14 x Q) = getRv Q := fun x Q => funext fun i => o _ _ _ (by omega)
    rw [e, rotate_rv, rotate_rv, e]
  · have e : ∀ (x : V3) (Q : St), getA (setSeg 14 x Q) = getA Q := fun x Q => Rot.getA_congr fun j _ _ => o _ _ _ (by omega)
    rw [e, rotate_A, rotate_A, e]
  · have e : ∀ (x : V3) (Q : St), getRJ (setSeg 14 x Q) = x := fun x Q => funext fun i => setSeg_get 14 x Q i
    rw [e, rotate_J c _ _ ht, e]
    funext i
    simp only [Matrix.mulVec, dotProduct, Finset.sum_mul]
    exact Finset.sum_congr rfl fun k _ => by ring

theorem turn_pressure (hmix : c.mix (turnPar P R) = c.mix P) : pressure c (turnPar P R) = pressure c P := by
  funext Q
  unfold pressure solveMulti
  rw [hmix]
  rfl

theorem turn_temperature (hmix : c.mix (turnPar P R) = c.mix P) : temperature c (turnPar P R) = temperature c P := by
  funext Q
  unfold temperature
  rw [turn_pressure c P R hmix]
  rfl

theorem turn_ignition : ignitionGrowth (turnPar P R) = ignitionGrowth P := rfl

theorem turn_numerical (hv : c.viscous = true) (hmix : c.mix (turnPar P R) = c.mix P) (hR : R.transpose * R = 1) (steps fuel : Nat) (dt : ℝ) (Q : St) :
    odeNumerical c (turnPar P R) steps fuel dt (rotateTensors c Q R) =
      (odeNumerical c P steps fuel dt Q).map fun Q => rotateTensors c Q R := by
  have hm := mV_other c hv (Bool.eq_false_or_eq_true _)
  have h0 : ∀ Q : St, rotateTensors c Q R 0 = Q 0 := fun Q => rotate_other c Q R 0 (by omega)
  have hmv : ∀ Q : St, rotateTensors c Q R c.mV = Q c.mV := fun Q => rotate_other c Q R _ (Or.inr hm)
  have hr : ∀ Q : St, reactionRate c (turnPar P R) (rotateTensors c Q R) = reactionRate c P Q := fun Q => by
    obtain ⟨-, -, hp, hT, -⟩ := rotation_invariant c P Q R hv hR
    unfold reactionRate
    rw [h0, hmv, turn_pressure c P R hmix, turn_temperature c P R hmix, turn_ignition, hp, hT]
    rfl
  have hf : func c (turnPar P R) (rotateTensors c Q R) = func c P Q := by
    funext lam
    unfold func
    rw [h0, turn_setAt c R _ hm, hr]
  have e : (turnPar P R).reaction = P.reaction := rfl
  unfold odeNumerical
  simp only [h0, hmv, hf, e]
  split_ifs
  · rfl
  · rw [Option.map_map]
    congr 1
    funext y
    exact turn_setAt c R _ hm _ _
  · rfl
  · rfl

/-- If the relaxation of the distortion turns with the frame, so does the half step; the two frames may use different
decompositions. -/
theorem ode_turn_of (hv : c.viscous = true) (hmix : c.mix (turnPar P R) = c.mix P) (hR : R.transpose * R = 1)
    (svd svd' : M3 → M3 × V3 × M3) (steps fuel : Nat) (dt : ℝ) (Q : St)
    (hd : ∀ Q1 : St, getA Q1 = getA Q → relaxDistortion (turnPar P R) svd' dt (rotateTensors c Q1 R) =
      (relaxDistortion P svd dt Q1).map fun Q => rotateTensors c Q R) :
    odeCell c (turnPar P R) svd' steps fuel dt (rotateTensors c Q R) =
      (odeCell c P svd steps fuel dt Q).map fun Q => rotateTensors c Q R := by
  have eA : getA (bodyForces P dt Q) = getA Q := getA_congr _ _ fun k _ _ => body_other P dt Q k (by omega)
  have ha : odeAnalytic c (turnPar P R) svd' dt (rotateTensors c Q R) =
      (odeAnalytic c P svd dt Q).map fun Q => rotateTensors c Q R := by
    unfold odeAnalytic
    simp only [hv, if_true]
    rw [turn_body, hd _ eA]
    cases relaxDistortion P svd dt (bodyForces P dt Q) with
    | none => rfl
    | some Q1 =>
      by_cases ht : c.thermal = true
      · simp [ht, turn_thermal c P R hR ht]
      · simp [ht]
  unfold odeCell
  rw [ha]
  cases odeAnalytic c P svd dt Q with
  | none => rfl
  | some Q1 => exact turn_numerical c P R hv hmix hR steps fuel dt Q1

/-- Decompositions that turn with the frame, up to the signs of the singular vectors. -/
theorem turn_covariant (svd svd' : M3 → M3 × V3 × M3) (dt : ℝ) (Q : St) (δ : V3) (hδ : ∀ i, δ i * δ i = 1)
    (h : svd' (R * getA Q * R.transpose) = (R * (svd (getA Q)).1 * Matrix.diagonal δ, (svd (getA Q)).2.1,
      R * (svd (getA Q)).2.2 * Matrix.diagonal δ)) :
    relaxDistortion (turnPar P R) svd' dt (rotateTensors c Q R) =
      (relaxDistortion P svd dt Q).map fun Q => rotateTensors c Q R := by
  unfold relaxDistortion
  simp only [rotate_A, h]
  change Option.map _ (relaxA P _ _ _ dt _) = _
  have e : relaxA P (R * (svd (getA Q)).1 * Matrix.diagonal δ) (R * (svd (getA Q)).2.2 * Matrix.diagonal δ) (svd (getA Q)).2.1 dt
      (R * getA Q * R.transpose) =
      (relaxA P (svd (getA Q)).1 (svd (getA Q)).2.2 (svd (getA Q)).2.1 dt (getA Q)).map fun B => R * B * R.transpose := by
    rw [relaxA_eq, relaxA_eq]
    split_ifs
    · rw [Option.map_map]
      congr 1
      funext d
      have hd : Matrix.diagonal δ * (Matrix.diagonal d * Matrix.diagonal δ) = Matrix.diagonal d := by
        rw [Matrix.diagonal_mul_diagonal, Matrix.diagonal_mul_diagonal]
        congr 1
        funext i
        linear_combination d i * hδ i
      simp only [Function.comp_apply, Matrix.transpose_mul, Matrix.diagonal_transpose, Matrix.mul_assoc]
      rw [← Matrix.mul_assoc (Matrix.diagonal d), ← Matrix.mul_assoc (Matrix.diagonal δ), hd]
    · rfl
  rw [e, Option.map_map, Option.map_map]
  congr 1
  funext B
  exact turn_setA c R B Q

/-- **C94.** The source-term half step of a cell does not depend on the frame: turning the state and the body force turns
the result, whatever decompositions are chosen, if the stretches are distinct or almost equal.  The solver for mixtures must
not look at the body force. -/
theorem ode_turn (hv : c.viscous = true) (hmix : c.mix (turnPar P R) = c.mix P) (hR : R.transpose * R = 1) (svd : M3 → M3 × V3 × M3) (steps fuel : Nat) (dt : ℝ)
    (Q : St) (h : SvdAt svd (getA Q)) (h' : SvdAt svd (R * getA Q * R.transpose))
    (hd : 1e-12 ≤ (invariants (svd (getA Q)).2.1).2 → Distinct (svd (getA Q)).2.1) :
    odeCell c (turnPar P R) svd steps fuel dt (rotateTensors c Q R) =
      (odeCell c P svd steps fuel dt Q).map fun Q => rotateTensors c Q R :=
  ode_turn_of c P R hv hmix hR svd svd steps fuel dt Q fun Q1 e => by
    rw [← e] at h h' hd
    exact turn_distortion c P R hR svd svd dt Q1 h h' hd

/-- Some decomposition with sorted stretches. -/
def anySvd (A : M3) : M3 × V3 × M3 :=
  ((svd_exists A).choose, (svd_exists A).choose_spec.choose_spec.choose, (svd_exists A).choose_spec.choose)

theorem anySvd_ok (A : M3) : SvdAt anySvd A :=
  ⟨(svd_exists A).choose_spec.choose_spec.choose_spec.1, (svd_exists A).choose_spec.choose_spec.choose_spec.2⟩

/-- A fluid under shear: the mirror image of its half step is the half step of its mirror image. -/
example (dt : ℝ) (Q : St) (hA : getA Q = Matrix.diagonal ![3, 2 / 3, 1 / 2]) :
    odeCell (cfgOf true) (turnPar (samplePar sample) (Matrix.diagonal ![-1, 1, 1])) anySvd 4 7 dt
        (rotateTensors (cfgOf true) Q (Matrix.diagonal ![-1, 1, 1])) =
      (odeCell (cfgOf true) (samplePar sample) anySvd 4 7 dt Q).map fun Q =>
        rotateTensors (cfgOf true) Q (Matrix.diagonal ![-1, 1, 1]) := by
  refine ode_turn _ _ _ rfl rfl ?_ _ _ _ _ _ (anySvd_ok _) (anySvd_ok _) fun _ => ?_
  · ext i j
    fin_cases i <;> fin_cases j <;> simp [Matrix.mul_apply, Matrix.diagonal_apply]
  · have hs : IsSVD (getA Q) 1 1 ![3, 2 / 3, 1 / 2] := by rw [hA]; exact svd_diag _ (by intro i; fin_cases i <;> norm_num)
    rw [← svd_values _ _ _ _ _ _ _ hs (anySvd_ok _).ok ⟨by norm_num, by norm_num [at_two]⟩ (anySvd_ok _).sorted]
    exact ⟨by norm_num [at_two], by norm_num, by norm_num [at_two]⟩

end

end Verif.Relax
