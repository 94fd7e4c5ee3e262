import Verif.Relax.Model

/-! # Slower materials

The material whose relaxation, conduction and reactions take `lam` times as long and whose body forces are `lam` times as weak. -/

namespace Verif.Relax

open Verif.Sys Verif.Iter Verif.Grid

noncomputable section

/-- The viscosity of a power law fluid enters through its root. -/
def zoomPar (lam : ℝ) (P : Par) : Par :=
  { P with
    τ0 := lam * P.τ0
    μ := if P.powerLaw then lam ^ P.n * P.μ else lam * P.μ
    κ := lam * P.κ
    δp := fun i => P.δp i / lam
    Kc := P.Kc / lam
    Bc := P.Bc / lam
    I := P.I / lam
    G1 := P.G1 / lam
    G2 := P.G2 / lam }

/-- The settings of the material fit together: the exponent is one for fluids without power law, no fluid is of Bingham's kind and
has a power law. -/
structure Fits (P : Par) : Prop where
  newtonian : P.solid = false → P.bingham = false → P.powerLaw = false → P.n = 1
  bingham : P.solid = false → P.bingham = true → P.powerLaw = false
  power : P.powerLaw = true → P.n ≠ 0
  visc : 0 ≤ P.μ

variable {c : Cfg} {P : Par} {lam : ℝ}

theorem zoom_root (hl : 0 < lam) (hn : P.n ≠ 0) (hμ : 0 ≤ P.μ) : (lam ^ P.n * P.μ) ^ (1 / P.n) = lam * P.μ ^ (1 / P.n) := by
  rw [Real.mul_rpow (Real.rpow_nonneg hl.le _) hμ, ← Real.rpow_mul hl.le, mul_one_div_cancel hn, Real.rpow_one]

theorem zoom_pressure (hmix : c.mix (zoomPar lam P) = c.mix P) (Q : St) : pressure c (zoomPar lam P) Q = pressure c P Q := by
  have hi : internalEnergy c (zoomPar lam P) Q = internalEnergy c P Q := rfl
  unfold pressure solveMulti
  rw [hi, hmix]
  rfl

theorem zoom_temperature (hmix : c.mix (zoomPar lam P) = c.mix P) (Q : St) : temperature c (zoomPar lam P) Q = temperature c P Q := by
  unfold temperature
  rw [zoom_pressure hmix]
  rfl

theorem zoom_theta1inv (hl : 0 < lam) (hP : Fits P) (Q : St) : theta1inv (zoomPar lam P) Q = theta1inv P Q / lam := by
  have hl' := hl.ne'
  have hsig : sigma (zoomPar lam P).toParams Q = sigma P.toParams Q := rfl
  have hcs : cs2 (zoomPar lam P).toParams (Q 0) = cs2 P.toParams (Q 0) := rfl
  unfold theta1inv
  simp only [hsig, hcs]
  simp only [zoomPar]
  rcases Bool.eq_false_or_eq_true P.solid with h1 | h1 <;> rcases Bool.eq_false_or_eq_true P.bingham with h2 | h2 <;>
    rcases Bool.eq_false_or_eq_true P.powerLaw with h3 | h3 <;>
    simp only [h1, h2, h3, Bool.false_eq_true, if_true, if_false]
  · field_simp
  · simp
  · field_simp
  · simp
  · exact absurd (hP.bingham h1 h2) (by rw [h3]; decide)
  · split_ifs
    · field_simp
    · simp
  · rw [zoom_root hl (hP.power h3) hP.visc]
    field_simp
  · rw [hP.newtonian h1 h2 h3]
    simp only [div_one, Real.rpow_one]
    field_simp

theorem zoom_theta2inv (hmix : c.mix (zoomPar lam P) = c.mix P) (Q : St) :
    theta2inv c (zoomPar lam P) Q = theta2inv c P Q / lam := by
  unfold theta2inv
  rw [zoom_temperature hmix]
  change _ / (lam * P.κ * Q 0) = _
  rw [mul_assoc, div_mul_eq_div_div_swap]

theorem zoom_ignition (ρ l : ℝ) : ignition (zoomPar lam P) ρ l = (ignition P ρ l).map (· / lam) := by
  unfold ignition
  change (if 1 - l < P.φI then _ else _) = _
  split_ifs
  · change (powN l P.b).bind (fun a => (powN (ρ / P.ρ0 - 1 - P.a) P.x).map fun b => P.I / lam * a * b) = _
    cases powN l P.b <;> cases powN (ρ / P.ρ0 - 1 - P.a) P.x <;> (simp; try ring)
  · simp

theorem zoom_growth1 (p l : ℝ) : growth1 (zoomPar lam P) p l = (growth1 P p l).map (· / lam) := by
  unfold growth1
  change (if 1 - l < P.φG1 then _ else _) = _
  split_ifs
  · change (powN l P.c).bind (fun a => (powN (1 - l) P.d).bind fun b => (powN p P.y).map fun c => P.G1 / lam * a * b * c) = _
    cases powN l P.c <;> cases powN (1 - l) P.d <;> cases powN p P.y <;> (simp; try ring)
  · simp

theorem zoom_growth2 (p l : ℝ) : growth2 (zoomPar lam P) p l = (growth2 P p l).map (· / lam) := by
  unfold growth2
  change (if 1 - l > P.φG2 then _ else _) = _
  split_ifs
  · change (powN l P.e).bind (fun a => (powN (1 - l) P.g).bind fun b => (powN p P.z).map fun c => P.G2 / lam * a * b * c) = _
    cases powN l P.e <;> cases powN (1 - l) P.g <;> cases powN p P.z <;> (simp; try ring)
  · simp

theorem zoom_reactionRate (hl : 0 < lam) (hmix : c.mix (zoomPar lam P) = c.mix P) (Q : St) :
    reactionRate c (zoomPar lam P) Q = (reactionRate c P Q).map (· / lam) := by
  unfold reactionRate
  simp only [zoom_temperature hmix, zoom_pressure hmix]
  change (if P.reaction = 0 then (if _ > P.Ti then some (P.Kc / lam * _) else _) else if P.reaction = 1 then
    some (P.Bc / lam * Real.exp (-P.Ea / (P.Rc * _)) * _) else _) = _
  split_ifs
  · simp; ring
  · simp
  · simp; ring
  · unfold ignitionGrowth
    simp only [zoom_ignition, zoom_growth1, zoom_growth2]
    cases ignition P (Q 0) (min (max 0 (Q c.mV / Q 0)) 1) <;>
    cases growth1 P (max (pressure c P Q) 0) (min (max 0 (Q c.mV / Q 0)) 1) <;>
    cases growth2 P (max (pressure c P Q) 0) (min (max 0 (Q c.mV / Q 0)) 1) <;> simp
    rw [← add_div, ← add_div, ← max_div_div_right hl.le, zero_div]

theorem setAt_div (k : Nat) (x : ℝ) (r : St) : setAt k (x / lam) (fun v => r v / lam) = fun v => setAt k x r v / lam := by
  funext v
  unfold setAt
  split_ifs <;> rfl

theorem setSeg_div (k : Nat) (x : V3) (r : St) :
    setSeg k (fun i => x i / lam) (fun v => r v / lam) = fun v => setSeg k x r v / lam := by
  unfold setSeg
  simp only [setAt_div]

theorem setA_div (A B : M3) (h : ∀ i j, B i j = A i j / lam) (r : St) :
    setA B (fun v => r v / lam) = fun v => setA A r v / lam := by
  have e : ∀ i, B i = fun j => A i j / lam := fun i => funext fun j => h i j
  unfold setA
  simp only [e, setSeg_div]

theorem zoom_source (hl : 0 < lam) (hP : Fits P) (hmix : c.mix (zoomPar lam P) = c.mix P) (rate : ℝ) (Q : St) :
    source c (zoomPar lam P) (rate / lam) Q = fun v => source c P rate Q v / lam := by
  have hd : dEdAs (zoomPar lam P).toParams Q = dEdAs P.toParams Q := rfl
  have hj : dEdJ (zoomPar lam P).toParams Q = dEdJ P.toParams Q := rfl
  have hr : (zoomPar lam P).reaction = P.reaction := rfl
  have hδ : (zoomPar lam P).δp = fun i => P.δp i / lam := rfl
  have hA : ∀ (M : M3) (t : ℝ) i j, (-M * ((t / lam) • (1 : M3))) i j = (-M * (t • (1 : M3))) i j / lam := by
    intro M t i j
    rw [Matrix.mul_smul, Matrix.mul_smul, Matrix.mul_one]
    simp only [Matrix.smul_apply, smul_eq_mul]
    ring
  have h0 : (fun _ => 0 : St) = fun v => (fun _ => 0 : St) v / lam := by
    funext v
    simp
  have ite : ∀ (p : Prop) [Decidable p] (a b a' b' : St), (p → a' = fun v => a v / lam) → (b' = fun v => b v / lam) →
      (if p then a' else b') = fun v => (if p then a else b) v / lam := by
    intro p _ a b a' b' h1 h2
    split_ifs with h
    · exact h1 h
    · exact h2
  unfold source
  simp only [zoom_theta1inv hl hP, zoom_theta2inv hmix, hd, hj, hr, hδ]
  generalize ht : theta2inv c P Q = t
  generalize hu : theta1inv P Q = u
  generalize dEdAs P.toParams Q = D
  generalize dEdJ P.toParams Q = J
  have s1 : setSeg 2 (fun i => P.δp i / lam) (fun _ => 0 : St) = fun v => setSeg 2 P.δp (fun _ => 0 : St) v / lam := by
    rw [h0, setSeg_div]
    simp
  have e3 : (fun i => -Q 0 * J i * (t / lam)) = fun i => (-Q 0 * J i * t) / lam := by
    funext i
    ring
  refine ite _ _ _ _ _ (fun _ => ?_) ?_
  · rw [show -Q 0 * (rate / lam) = -Q 0 * rate / lam by ring, ← setAt_div]
    congr 1
    refine ite _ _ _ _ _ (fun _ => ?_) ?_
    · rw [e3, ← setSeg_div]
      congr 1
      exact ite _ _ _ _ _ (fun _ => by rw [s1]; exact setA_div _ _ (hA D u) _) s1
    · exact ite _ _ _ _ _ (fun _ => by rw [s1]; exact setA_div _ _ (hA D u) _) s1
  · refine ite _ _ _ _ _ (fun _ => ?_) ?_
    · rw [e3, ← setSeg_div]
      congr 1
      exact ite _ _ _ _ _ (fun _ => by rw [s1]; exact setA_div _ _ (hA D u) _) s1
    · exact ite _ _ _ _ _ (fun _ => by rw [s1]; exact setA_div _ _ (hA D u) _) s1

theorem zoom_func (hl : 0 < lam) (hmix : c.mix (zoomPar lam P) = c.mix P) (Q : St) (l : ℝ) :
    func c (zoomPar lam P) Q l = (func c P Q l).map (· / lam) := by
  unfold func
  rw [zoom_reactionRate hl hmix]
  cases reactionRate c P (setAt c.mV (Q 0 * l) Q) <;> simp
  ring

theorem zoom_rk4 (hl : lam ≠ 0) (f : ℝ → Option ℝ) (y dt : ℝ) : rk4 (fun y => (f y).map (· / lam)) y (lam * dt) = rk4 f y dt := by
  have e : ∀ k, lam * dt * (k / lam) = dt * k := fun k => by field_simp
  have hb : ∀ (o : Option ℝ) (g : ℝ → Option ℝ), (o.map (· / lam)).bind g = o.bind fun k => g (k / lam) := by
    intro o g; cases o <;> rfl
  change (Option.bind _ fun k1 => Option.bind _ fun k2 => Option.bind _ fun k3 => Option.bind _ fun k4 => _) =
    (Option.bind _ fun k1 => Option.bind _ fun k2 => Option.bind _ fun k3 => Option.bind _ fun k4 => _)
  simp only [hb, e]

theorem zoom_rungeKutta (hl : lam ≠ 0) (f : ℝ → Option ℝ) (tf y : ℝ) (n : Nat) :
    rungeKutta (fun y => (f y).map (· / lam)) (lam * tf) y n = rungeKutta f tf y n := by
  unfold rungeKutta
  simp only [mul_div_assoc, zoom_rk4 hl]

theorem zoom_retry (hl : lam ≠ 0) (f : ℝ → Option ℝ) (tf y : ℝ) (fuel n : Nat) (o : Option ℝ) :
    retry (fun y => (f y).map (· / lam)) (lam * tf) y fuel n o = retry f tf y fuel n o := by
  induction fuel generalizing n o with
  | zero => cases o <;> rfl
  | succ k ih =>
    cases o with
    | some v => rfl
    | none =>
      unfold retry
      simp only [zoom_rungeKutta hl, ih]

theorem zoom_odeNumerical (hl : 0 < lam) (hmix : c.mix (zoomPar lam P) = c.mix P) (steps fuel : Nat) (dt : ℝ) (Q : St) :
    odeNumerical c (zoomPar lam P) steps fuel (lam * dt) Q = odeNumerical c P steps fuel dt Q := by
  have hr : (zoomPar lam P).reaction = P.reaction := rfl
  have hf : func c (zoomPar lam P) Q = fun y => (func c P Q y).map (· / lam) := funext fun y => zoom_func hl hmix Q y
  unfold odeNumerical launcher
  simp only [hr, hf, zoom_rungeKutta hl.ne', zoom_retry hl.ne']

theorem zoom_bodyForces (hl : lam ≠ 0) (dt : ℝ) (Q : St) : bodyForces (zoomPar lam P) (lam * dt) Q = bodyForces P dt Q := by
  unfold bodyForces
  congr 1
  funext i
  change P.δp i / lam * (lam * dt) = _
  field_simp

theorem zoom_nondimTime (hl : 0 < lam) (hP : Fits P) (ρ d m0 u0 dt : ℝ) :
    nondimTime (zoomPar lam P) ρ d m0 u0 (lam * dt) = nondimTime P ρ d m0 u0 dt := by
  have hl' := hl.ne'
  have hcs : cs2 (zoomPar lam P).toParams ρ = cs2 P.toParams ρ := rfl
  unfold nondimTime
  simp only [hcs]
  simp only [zoomPar]
  rcases Bool.eq_false_or_eq_true P.powerLaw with h3 | h3 <;> rcases Bool.eq_false_or_eq_true P.solid with h1 | h1 <;>
    simp only [h1, h3, Bool.false_eq_true, if_true, if_false]
  · have e : ∀ A B C : ℝ, A / (lam * P.τ0) * B * C * (lam * dt) = A / P.τ0 * B * C * dt := by
      intro A B C
      field_simp
    simp only [e, mul_eq_zero, hl', false_or]
  · have e : ∀ A B C D : ℝ, A / (6 * (lam * P.μ ^ (1 / P.n)) / D) * B * C * (lam * dt) =
        A / (6 * P.μ ^ (1 / P.n) / D) * B * C * dt := by
      intro A B C D
      rw [show 6 * (lam * P.μ ^ (1 / P.n)) / D = lam * (6 * P.μ ^ (1 / P.n) / D) by ring]
      field_simp
    have hz : lam ^ P.n * P.μ ≤ 0 ↔ P.μ ≤ 0 := by
      constructor
      · intro h
        exact nonpos_of_mul_nonpos_right h (Real.rpow_pos_of_pos hl _)
      · intro h
        exact mul_nonpos_of_nonneg_of_nonpos (Real.rpow_nonneg hl.le _) h
    simp only [zoom_root hl (hP.power h3) hP.visc, e, hz]
  all_goals
    simp only [mul_eq_zero, hl', false_or]
    split_ifs
    · rfl
    · congr 1
      field_simp

theorem zoom_relaxDistortion (hl : 0 < lam) (hP : Fits P) (svd : M3 → M3 × V3 × M3) (dt : ℝ) (Q : St) :
    relaxDistortion (zoomPar lam P) svd (lam * dt) Q = relaxDistortion P svd dt Q := by
  unfold relaxDistortion relaxA
  simp only [zoom_nondimTime hl hP]
  rfl

theorem zoom_relaxThermal (hl : lam ≠ 0) (dt : ℝ) (Q : St) : relaxThermal (zoomPar lam P) (lam * dt) Q = relaxThermal P dt Q := by
  unfold relaxThermal
  have hE : E2A (zoomPar lam P).toParams = E2A P.toParams := rfl
  have hcv : (zoomPar lam P).cv = P.cv := rfl
  have hca : (zoomPar lam P).cα2 = P.cα2 := rfl
  have hk : (zoomPar lam P).κ = lam * P.κ := rfl
  simp only [hE, hcv, hca, hk]
  have e1 : ∀ C : ℝ, -(C * (2 * P.cα2 / (lam * P.κ * Q 0 * P.cv))) * (lam * dt) / 2 =
      -(C * (2 * P.cα2 / (P.κ * Q 0 * P.cv))) * dt / 2 := by
    intro C
    field_simp
  have e2 : ∀ C D : ℝ, C * (2 * P.cα2 / (lam * P.κ * Q 0 * P.cv)) / (D * (2 * P.cα2 / (lam * P.κ * Q 0 * P.cv))) =
      C * (2 * P.cα2 / (P.κ * Q 0 * P.cv)) / (D * (2 * P.cα2 / (P.κ * Q 0 * P.cv))) := by
    intro C D
    have : 2 * P.cα2 / (lam * P.κ * Q 0 * P.cv) = lam⁻¹ * (2 * P.cα2 / (P.κ * Q 0 * P.cv)) := by field_simp
    rw [this, mul_left_comm C, mul_left_comm D, mul_div_mul_left _ _ (inv_ne_zero hl)]
  simp only [e1, e2]

theorem zoom_odeCell (hl : 0 < lam) (hP : Fits P) (hmix : c.mix (zoomPar lam P) = c.mix P) (svd : M3 → M3 × V3 × M3)
    (steps fuel : Nat) (dt : ℝ) (Q : St) :
    odeCell c (zoomPar lam P) svd steps fuel (lam * dt) Q = odeCell c P svd steps fuel dt Q := by
  unfold odeCell odeAnalytic
  simp only [zoom_bodyForces hl.ne', zoom_relaxDistortion hl hP, zoom_relaxThermal hl.ne', zoom_odeNumerical hl hmix]

end

end Verif.Relax
