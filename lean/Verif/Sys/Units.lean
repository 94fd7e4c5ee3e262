import Verif.Sys.Model
import Verif.Eig.Model
import Mathlib.LinearAlgebra.Matrix.Charpoly.Coeff

/-! # Other units

Densities are measured in units `a` times as small, lengths and velocities in units `b` times as small, temperatures in units `t` times
as small; the unit of time stays.  Together with the change of lengths and times of C98 these are all changes of units. -/

namespace Verif.Sys

open Verif.Eig

noncomputable section

/-- The factors by which numbers change. -/
structure Units where
  a : ℝ
  b : ℝ
  t : ℝ
  ha : 0 < a
  hb : 0 < b
  ht : 0 < t

variable (x : Units) (c : Cfg)

/-- The factor of a pressure. -/
def Units.p : ℝ := x.a * x.b ^ 2

/-- The factor of a component of the state vector. -/
def Units.at (k : Nat) : ℝ :=
  if k = 0 then x.a else if k = 1 then x.p else if k < 5 then x.a * x.b else if k < 14 then 1
  else if c.thermal ∧ k < 17 then x.t / x.b else if c.multi ∧ k = c.mV then x.a else 1

/-- A state in the other units. -/
def Units.st (Q : St) : St := fun k => x.at c k * Q k

/-- The equation of state, shear and heat parameters in the other units. -/
def Units.params (P : Params) : Params :=
  { P with
    ρ0 := x.a * P.ρ0
    Tref := x.t * P.Tref
    cv := x.b ^ 2 / x.t * P.cv
    pINF := x.p * P.pINF
    c02 := x.b ^ 2 * P.c02
    A := x.p * P.A
    B := x.p * P.B
    b02 := x.b ^ 2 * P.b02
    μ := x.p * P.μ
    σY := x.p * P.σY
    cα2 := (x.a * x.b ^ 2 / x.t) ^ 2 * P.cα2
    κ := x.a * x.b ^ 4 / x.t * P.κ }

/-- A material in the other units. -/
def Units.par (P : Par) : Par :=
  { P with
    toParams := x.params P.toParams
    T0 := x.t * P.T0
    δp := fun i => x.a * x.b * P.δp i
    mp2 := x.params P.mp2
    Qc := x.b ^ 2 * P.Qc
    Ti := x.t * P.Ti
    Ea := x.b ^ 2 * P.Ea
    Rc := x.b ^ 2 / x.t * P.Rc
    G1 := P.G1 / x.p ^ P.y
    G2 := P.G2 / x.p ^ P.z }

theorem Units.p_pos : 0 < x.p := mul_pos x.ha (pow_pos x.hb 2)

theorem Units.at_pos (k : Nat) : 0 < x.at c k := by
  have := x.p_pos
  have := x.ha
  have := x.hb
  have := x.ht
  unfold Units.at
  split_ifs <;> positivity

section mg

variable {x} (P : Params) (ρ p e : ℝ)

theorem units_ratio : x.a * ρ / (x.a * P.ρ0) = ρ / P.ρ0 := mul_div_mul_left _ _ x.ha.ne'

theorem units_ratio' : x.a * P.ρ0 / (x.a * ρ) = P.ρ0 / ρ := mul_div_mul_left _ _ x.ha.ne'

theorem units_denser : x.a * ρ > x.a * P.ρ0 ↔ ρ > P.ρ0 := mul_lt_mul_iff_right₀ x.ha

theorem units_gamma : gammaMG (x.params P) (x.a * ρ) = gammaMG P ρ := by
  have ha := x.ha.ne'
  unfold gammaMG
  have he : (x.params P).eos = P.eos := rfl
  rw [he]
  cases P.eos <;> simp only [Units.params]
  rw [← mul_assoc, mul_comm P.Γ0, mul_assoc, mul_div_mul_left _ _ ha]

theorem units_pRef : pRef (x.params P) (x.a * ρ) = x.p * pRef P ρ := by
  have ha := x.ha.ne'
  have hb := x.hb.ne'
  unfold pRef
  have he : (x.params P).eos = P.eos := rfl
  rw [he]
  cases P.eos <;> simp only [Units.params, units_ratio, units_ratio', units_denser]
  · ring
  · split_ifs
    · have e : 1 / (x.a * P.ρ0) - P.s * (1 / (x.a * P.ρ0) - 1 / (x.a * ρ)) = (1 / P.ρ0 - P.s * (1 / P.ρ0 - 1 / ρ)) / x.a := by
        field_simp
      have e' : 1 / (x.a * P.ρ0) - 1 / (x.a * ρ) = (1 / P.ρ0 - 1 / ρ) / x.a := by field_simp
      rw [e, e']
      generalize 1 / P.ρ0 - P.s * (1 / P.ρ0 - 1 / ρ) = z
      generalize 1 / P.ρ0 - 1 / ρ = w
      unfold Units.p
      field_simp
    · unfold Units.p; ring
  · ring
  · ring
  · unfold Units.p; ring

theorem units_eRef : eRef (x.params P) (x.a * ρ) = x.b ^ 2 * eRef P ρ := by
  have ha := x.ha.ne'
  have hb := x.hb.ne'
  unfold eRef
  rw [units_pRef]
  have he : (x.params P).eos = P.eos := rfl
  rw [he]
  cases P.eos <;> simp only [Units.params, units_ratio, units_ratio', units_denser]
  · unfold Units.p; field_simp
  · split_ifs
    · have e' : 1 / (x.a * P.ρ0) - 1 / (x.a * ρ) = (1 / P.ρ0 - 1 / ρ) / x.a := by field_simp
      rw [e']
      generalize 1 / P.ρ0 - 1 / ρ = w
      unfold Units.p
      field_simp
    · ring
  · unfold Units.p
    have : ∀ R : ℝ, ∀ A : ℝ, x.a * x.b ^ 2 * A / (x.a * P.ρ0 * R) = x.b ^ 2 * (A / (P.ρ0 * R)) := fun R A => by field_simp
    rw [this, this]
    ring
  · unfold Units.p
    have : ∀ R : ℝ, ∀ A : ℝ, x.a * x.b ^ 2 * A / (x.a * P.ρ0 * R) = x.b ^ 2 * (A / (P.ρ0 * R)) := fun R A => by field_simp
    rw [← mul_neg, this, this]
    ring
  · ring

theorem units_pressureMG : pressureMG (x.params P) (x.a * ρ) (x.b ^ 2 * e) = x.p * pressureMG P ρ e := by
  unfold pressureMG
  rw [units_eRef, units_gamma, units_pRef]
  unfold Units.p
  ring

theorem units_phi : phi (x.params P) (x.a * ρ) = phi P ρ := by
  unfold phi
  have he : (x.params P).eos = P.eos := rfl
  rw [he]
  cases P.eos <;> simp only [Units.params, units_ratio, units_ratio']

theorem units_temperatureMG : temperatureMG (x.params P) (x.a * ρ) (x.p * p) = x.t * temperatureMG P ρ p := by
  have ha := x.ha.ne'
  have hb := x.hb.ne'
  have ht := x.ht.ne'
  unfold temperatureMG
  rw [units_phi, units_gamma, units_pRef, ← mul_sub]
  simp only [Units.params, Units.p]
  have : x.a * ρ * gammaMG P ρ * (x.b ^ 2 / x.t * P.cv) = x.a * x.b ^ 2 / x.t * (ρ * gammaMG P ρ * P.cv) := by ring
  rw [this, mul_add]
  congr 1
  · ring
  · generalize p - pRef P ρ = z
    generalize ρ * gammaMG P ρ * P.cv = w
    field_simp

theorem units_dGamma : dGammaMG (x.params P) (x.a * ρ) = dGammaMG P ρ / x.a := by
  have ha := x.ha.ne'
  unfold dGammaMG
  have he : (x.params P).eos = P.eos := rfl
  rw [he]
  cases P.eos <;> simp only [Units.params, zero_div]
  rw [show x.a * ρ * (x.a * ρ) = x.a * (x.a * (ρ * ρ)) by ring, show -P.Γ0 * (x.a * P.ρ0) = x.a * (-P.Γ0 * P.ρ0) by ring,
    mul_div_mul_left _ _ ha, div_div, mul_comm x.a]

theorem units_dpRef : dpRef (x.params P) (x.a * ρ) = x.b ^ 2 * dpRef P ρ := by
  have ha := x.ha.ne'
  have hb := x.hb.ne'
  unfold dpRef
  have he : (x.params P).eos = P.eos := rfl
  rw [he]
  cases P.eos <;> simp only [Units.params, units_ratio, units_ratio', units_denser]
  · ring
  · split_ifs
    · have e : P.s * (x.a * ρ - x.a * P.ρ0) - x.a * ρ = x.a * (P.s * (ρ - P.ρ0) - ρ) := by ring
      have e' : P.s * (x.a * P.ρ0 - x.a * ρ) - x.a * ρ = x.a * (P.s * (P.ρ0 - ρ) - ρ) := by ring
      rw [e, e']
      generalize P.s * (ρ - P.ρ0) - ρ = z
      field_simp
    · rfl
  · unfold Units.p
    have : P.ρ0 / ρ / (x.a * ρ) = (P.ρ0 / ρ / ρ) / x.a := by rw [div_div _ ρ x.a, mul_comm ρ]
    rw [this]
    generalize P.ρ0 / ρ / ρ = z
    field_simp
  · unfold Units.p
    have : ∀ A R : ℝ, x.a * x.b ^ 2 * A * R / (x.a * ρ) = x.b ^ 2 * (A * R / ρ) := fun A R => by field_simp
    rw [this, this]
    ring
  · ring

theorem units_deRef : deRef (x.params P) (x.a * ρ) = x.b ^ 2 / x.a * deRef P ρ := by
  have ha := x.ha.ne'
  have hb := x.hb.ne'
  have key : x.p * pRef P ρ / (x.a * ρ * (x.a * ρ)) = x.b ^ 2 / x.a * (pRef P ρ / (ρ * ρ)) := by
    unfold Units.p
    field_simp
  unfold deRef
  rw [units_pRef, key]
  have he : (x.params P).eos = P.eos := rfl
  rw [he]
  cases P.eos <;> simp only [Units.params, units_denser]
  split_ifs
  · have e : P.s * (x.a * ρ - x.a * P.ρ0) - x.a * ρ = x.a * (P.s * (ρ - P.ρ0) - ρ) := by ring
    rw [e]
    generalize P.s * (ρ - P.ρ0) - ρ = z
    field_simp
  · ring

/-- `(dp_ref ρ Γ + (Γ + ρ dΓ)(p - p_ref)) / (ρ Γ)²` -/
theorem units_slope : (dpRef (x.params P) (x.a * ρ) * (x.a * ρ) * gammaMG (x.params P) (x.a * ρ) + (gammaMG (x.params P) (x.a * ρ) +
    x.a * ρ * dGammaMG (x.params P) (x.a * ρ)) * (x.p * p - pRef (x.params P) (x.a * ρ))) /
      ((x.a * ρ * gammaMG (x.params P) (x.a * ρ)) * (x.a * ρ * gammaMG (x.params P) (x.a * ρ))) =
    x.b ^ 2 / x.a * ((dpRef P ρ * ρ * gammaMG P ρ + (gammaMG P ρ + ρ * dGammaMG P ρ) * (p - pRef P ρ)) /
      ((ρ * gammaMG P ρ) * (ρ * gammaMG P ρ))) := by
  have ha := x.ha.ne'
  have hb := x.hb.ne'
  rw [units_gamma, units_dpRef, units_dGamma, units_pRef]
  unfold Units.p
  have e1 : x.a * ρ * (dGammaMG P ρ / x.a) = ρ * dGammaMG P ρ := by field_simp
  have e2 : x.b ^ 2 * dpRef P ρ * (x.a * ρ) * gammaMG P ρ + (gammaMG P ρ + ρ * dGammaMG P ρ) * (x.a * x.b ^ 2 * p - x.a * x.b ^ 2 * pRef P ρ) =
      x.a * x.b ^ 2 * (dpRef P ρ * ρ * gammaMG P ρ + (gammaMG P ρ + ρ * dGammaMG P ρ) * (p - pRef P ρ)) := by ring
  have e3 : x.a * ρ * gammaMG P ρ * (x.a * ρ * gammaMG P ρ) = x.a * x.a * (ρ * gammaMG P ρ * (ρ * gammaMG P ρ)) := by ring
  rw [e1, e2, e3]
  generalize dpRef P ρ * ρ * gammaMG P ρ + (gammaMG P ρ + ρ * dGammaMG P ρ) * (p - pRef P ρ) = z
  generalize ρ * gammaMG P ρ * (ρ * gammaMG P ρ) = w
  field_simp

theorem units_dedrho : dedrho (x.params P) (x.a * ρ) (x.p * p) = x.b ^ 2 / x.a * dedrho P ρ p := by
  unfold dedrho
  simp only
  rw [units_slope, units_deRef]
  ring

theorem units_dedp : dedp (x.params P) (x.a * ρ) = dedp P ρ / x.a := by
  have ha := x.ha.ne'
  unfold dedp
  rw [units_gamma]
  generalize gammaMG P ρ = g
  field_simp

theorem units_dTdrho : dTdrho (x.params P) (x.a * ρ) (x.p * p) = x.t / x.a * dTdrho P ρ p := by
  have ha := x.ha.ne'
  have hb := x.hb.ne'
  have ht := x.ht.ne'
  unfold dTdrho
  simp only
  rw [neg_div, neg_div, neg_div, neg_div, units_slope]
  simp only [Units.params]
  generalize (dpRef P ρ * ρ * gammaMG P ρ + (gammaMG P ρ + ρ * dGammaMG P ρ) * (p - pRef P ρ)) /
    (ρ * gammaMG P ρ * (ρ * gammaMG P ρ)) = z
  field_simp

theorem units_dTdp : dTdp (x.params P) (x.a * ρ) = x.t / x.p * dTdp P ρ := by
  have ha := x.ha.ne'
  have hb := x.hb.ne'
  have ht := x.ht.ne'
  unfold dTdp
  rw [units_dedp]
  simp only [Units.params, Units.p]
  field_simp

theorem units_cs2 : cs2 (x.params P) (x.a * ρ) = x.b ^ 2 * cs2 P ρ := by
  unfold cs2
  simp only [Units.params, units_ratio]
  ring

theorem units_dcs2 : dcs2 (x.params P) (x.a * ρ) = x.b ^ 2 / x.a * dcs2 P ρ := by
  have ha := x.ha.ne'
  unfold dcs2
  rw [units_cs2]
  change P.β / _ * _ = _
  field_simp

theorem units_C0 : C0 (x.params P) (x.a * ρ) = x.b ^ 2 * C0 P ρ := by
  unfold C0
  rw [units_cs2, units_gamma]
  change (1 - P.β / _) * _ = _
  ring

theorem units_dC0 : dC0 (x.params P) (x.a * ρ) = x.b ^ 2 / x.a * dC0 P ρ := by
  unfold dC0
  simp only
  rw [units_cs2, units_gamma, units_dcs2, units_dGamma]
  change (1 - P.β / _) * _ + P.β / _ * _ * _ = _
  ring

end mg


/-! ### States -/

/-- The material makes sense in the configuration, and the solver for mixtures finds the same mixture in the other units. -/
structure Units.Fit (P : Par) : Prop where
  viscous : c.viscous = true
  reacts : P.reaction > -1 → c.multi = true
  mixes : P.multi = true → c.multi = true
  mix : ∀ ρ e lam, c.mix (x.par P) (x.a * ρ) (x.b ^ 2 * e) lam = (x.p * (c.mix P ρ e lam).1, x.a * (c.mix P ρ e lam).2)

variable {x c} {P : Par} (Q : St)

theorem units_0 : x.st c Q 0 = x.a * Q 0 := rfl

theorem units_1 : x.st c Q 1 = x.p * Q 1 := rfl

theorem units_rv (i : Fin 3) : getRv (x.st c Q) i = x.a * x.b * getRv Q i := by
  unfold getRv Units.st Units.at
  rw [if_neg (by omega), if_neg (by omega), if_pos (by omega)]

theorem units_A : getA (x.st c Q) = getA Q := by
  ext i j
  change x.at c (5 + (3 * i + j)) * _ = _
  unfold Units.at
  rw [if_neg (by omega), if_neg (by omega), if_neg (by omega), if_pos (by omega), one_mul]
  rfl

theorem units_RJ (ht : c.thermal = true) (i : Fin 3) : getRJ (x.st c Q) i = x.t / x.b * getRJ Q i := by
  unfold getRJ Units.st Units.at
  rw [if_neg (by omega), if_neg (by omega), if_neg (by omega), if_neg (by omega), if_pos ⟨ht, by omega⟩]

theorem units_mV (hv : c.viscous = true) (hm : c.multi = true) : x.at c c.mV = x.a := by
  unfold Units.at
  have : c.mV = if c.thermal then 17 else 14 := by
    unfold Cfg.mV
    rw [hv]
    cases c.thermal <;> rfl
  cases ht : c.thermal
  · simp [hm, this, ht]
  · simp [hm, this, ht]

theorem units_vel : vel (x.st c Q) = fun i => x.b * vel Q i := by
  have ha := x.ha.ne'
  funext i
  unfold vel
  rw [units_rv, units_0]
  generalize getRv Q i = z
  field_simp

theorem units_E3 : E3 (vel (x.st c Q)) = x.b ^ 2 * E3 (vel Q) := by
  rw [units_vel]
  unfold E3 sq3
  ring

theorem units_E2A (R : Params) : E2A (x.params R) (x.a * Q 0) (getA (x.st c Q)) = x.b ^ 2 * E2A R (Q 0) (getA Q) := by
  unfold E2A
  rw [units_A, units_C0]
  ring

theorem units_E2J (ht : c.thermal = true) (R : Params) : E2J (x.params R) (fun i => getRJ (x.st c Q) i / (x.a * Q 0)) =
    x.b ^ 2 * E2J R (fun i => getRJ Q i / Q 0) := by
  have ha := x.ha.ne'
  have hb := x.hb.ne'
  have ht' := x.ht.ne'
  unfold E2J sq3
  simp only [units_RJ Q ht]
  have : ∀ i, x.t / x.b * getRJ Q i / (x.a * Q 0) = x.t / (x.a * x.b) * (getRJ Q i / Q 0) := fun i => by
    generalize getRJ Q i = z
    field_simp
  simp only [this]
  generalize getRJ Q 0 / Q 0 = z0
  generalize getRJ Q 1 / Q 0 = z1
  generalize getRJ Q 2 / Q 0 = z2
  simp only [Units.params]
  field_simp

theorem units_lam (hf : x.Fit c P) (hm : c.multi = true) : x.st c Q c.mV / (x.a * Q 0) = Q c.mV / Q 0 := by
  unfold Units.st
  rw [units_mV hf.viscous hm, mul_div_mul_left _ _ x.ha.ne']

theorem units_internal (hf : x.Fit c P) : internalEnergy c (x.par P) (x.st c Q) = x.b ^ 2 * internalEnergy c P Q := by
  have ha := x.ha.ne'
  have e1 : x.p * Q 1 / (x.a * Q 0) = x.b ^ 2 * (Q 1 / Q 0) := by
    unfold Units.p
    field_simp
  have e2 : (if c.thermal then E2J (x.par P).toParams (fun i => getRJ (x.st c Q) i / (x.a * Q 0)) else 0) =
      x.b ^ 2 * (if c.thermal then E2J P.toParams (fun i => getRJ Q i / Q 0) else 0) := by
    split_ifs with h
    · exact units_E2J Q h P.toParams
    · ring
  have e3 : (if (x.par P).reaction > -1 then ER (x.par P) (x.st c Q c.mV / (x.a * Q 0)) else 0) =
      x.b ^ 2 * (if P.reaction > -1 then ER P (Q c.mV / Q 0) else 0) := by
    change (if P.reaction > -1 then _ else _) = _
    split_ifs with h
    · rw [units_lam Q hf (hf.reacts h)]
      unfold ER
      simp only [Units.par]
      ring
    · ring
  unfold internalEnergy
  rw [units_0, units_1, e1, e2, e3, hf.viscous, units_E3]
  simp only [if_true]
  rw [show (x.par P).toParams = x.params P.toParams from rfl, units_E2A]
  ring

/-- **The pressure, and the densities of the parts of a mixture, in other units.** -/
theorem units_solveMulti (hf : x.Fit c P) (hm : c.multi = true) : solveMulti c (x.par P) (x.st c Q) =
    (x.p * (solveMulti c P Q).1, x.a * (solveMulti c P Q).2.1, x.a * (solveMulti c P Q).2.2) := by
  have ha := x.ha.ne'
  have hmax : ∀ z : ℝ, max (x.p * z) 0 = x.p * max z 0 := fun z => by
    rw [mul_max_of_nonneg _ _ x.p_pos.le, mul_zero]
  unfold solveMulti
  simp only [units_internal Q hf, units_0, units_lam Q hf hm, hf.mix]
  rw [show (x.par P).toParams = x.params P.toParams from rfl, show (x.par P).mp2 = x.params P.mp2 from rfl, units_pressureMG, units_pressureMG,
    hmax, hmax]
  split_ifs
  · rfl
  · rfl
  · refine Prod.ext rfl (Prod.ext rfl ?_)
    simp only
    generalize (c.mix P (Q 0) (internalEnergy c P Q) (Q c.mV / Q 0)).2 = z
    have : 1 / (x.a * Q 0) - Q c.mV / Q 0 / (x.a * z) = (1 / Q 0 - Q c.mV / Q 0 / z) / x.a := by
      rw [sub_div, div_div _ _ x.a, div_div _ _ x.a, mul_comm (Q 0) x.a, mul_comm z x.a]
    rw [this]
    generalize 1 / Q 0 - Q c.mV / Q 0 / z = w
    generalize 1 - Q c.mV / Q 0 = l
    field_simp

theorem units_pressure (hf : x.Fit c P) : pressure c (x.par P) (x.st c Q) = x.p * pressure c P Q := by
  unfold pressure
  change (if P.multi then _ else _) = _
  split_ifs with h
  · rw [units_solveMulti Q hf (hf.mixes h)]
  · rw [units_internal Q hf]
    exact units_pressureMG P.toParams (Q 0) _

theorem units_temperature (hf : x.Fit c P) : temperature c (x.par P) (x.st c Q) = x.t * temperature c P Q := by
  unfold temperature
  rw [units_pressure Q hf]
  exact units_temperatureMG P.toParams (Q 0) _

theorem units_dEdAs (R : Params) : dEdAs (x.params R) (x.st c Q) = x.b ^ 2 • dEdAs R Q := by
  unfold dEdAs
  rw [units_A, units_0, units_cs2, smul_smul]

theorem units_dEdA (R : Params) : dEdA (x.params R) (x.st c Q) = x.b ^ 2 • dEdA R Q := by
  unfold dEdA
  rw [units_A, units_0, units_C0, smul_smul]

theorem units_sigma (R : Params) : sigma (x.params R) (x.st c Q) = x.p • sigma R Q := by
  unfold sigma
  rw [units_A, units_0, units_dEdAs, Matrix.transpose_smul, Matrix.smul_mul, smul_smul, smul_smul]
  congr 1
  unfold Units.p
  ring

theorem units_sigmaCol (R : Params) (d : Fin 3) : sigmaCol (x.params R) (x.st c Q) d = x.p • sigmaCol R Q d := by
  unfold sigmaCol
  rw [units_A, units_0, units_dEdAs, Matrix.transpose_smul, Matrix.smul_mulVec, smul_smul, smul_smul]
  congr 1
  unfold Units.p
  ring

theorem units_dEdJ (ht : c.thermal = true) (R : Params) : dEdJ (x.params R) (x.st c Q) = (x.a * x.b ^ 3 / x.t) • dEdJ R Q := by
  have ha := x.ha.ne'
  have hb := x.hb.ne'
  have ht' := x.ht.ne'
  funext i
  unfold dEdJ
  rw [units_RJ Q ht, units_0]
  simp only [Units.params, Pi.smul_apply, smul_eq_mul]
  generalize getRJ Q i = z
  field_simp

/-! ### Fluxes -/

theorem units_addAt (s : St) (k : Nat) (v : ℝ) (r : St) : addAt k (s k * v) (fun i => s i * r i) = fun i => s i * addAt k v r i := by
  funext i
  unfold addAt
  split_ifs with h
  · subst h; ring
  · rfl

theorem units_setAt (s : St) (k : Nat) (v : ℝ) (r : St) : setAt k (s k * v) (fun i => s i * r i) = fun i => s i * setAt k v r i := by
  funext i
  unfold setAt
  split_ifs with h
  · subst h; rfl
  · rfl

theorem units_addSeg (s : St) (k : Nat) (v : V3) (r : St) (f : ℝ) (h : s k = f) (h1 : s (k + 1) = f) (h2 : s (k + 2) = f) :
    addSeg k (fun i => f * v i) (fun i => s i * r i) = fun i => s i * addSeg k v r i := by
  unfold addSeg
  simp only
  rw [show f * v 0 = s k * v 0 by rw [h], show f * v 1 = s (k + 1) * v 1 by rw [h1], show f * v 2 = s (k + 2) * v 2 by rw [h2],
    units_addAt, units_addAt, units_addAt]

theorem units_setSeg (s : St) (k : Nat) (v : V3) (r : St) (f : ℝ) (h : s k = f) (h1 : s (k + 1) = f) (h2 : s (k + 2) = f) :
    setSeg k (fun i => f * v i) (fun i => s i * r i) = fun i => s i * setSeg k v r i := by
  unfold setSeg
  simp only
  rw [show f * v 0 = s k * v 0 by rw [h], show f * v 1 = s (k + 1) * v 1 by rw [h1], show f * v 2 = s (k + 2) * v 2 by rw [h2],
    units_setAt, units_setAt, units_setAt]

/-- The factor of a component of a flux: one length more. -/
def Units.fx (x : Units) (c : Cfg) : St := fun k => x.b * x.at c k

theorem fx_0 : x.fx c 0 = x.a * x.b := by change x.b * x.a = _; ring

theorem fx_1 : x.fx c 1 = x.b * x.p := rfl

theorem fx_v (k : Nat) (h : 2 ≤ k) (h' : k < 5) : x.fx c k = x.p := by
  unfold Units.fx Units.at Units.p
  rw [if_neg (by omega), if_neg (by omega), if_pos h']
  ring

theorem fx_A (k : Nat) (h : 5 ≤ k) (h' : k < 14) : x.fx c k = x.b := by
  unfold Units.fx Units.at
  rw [if_neg (by omega), if_neg (by omega), if_neg (by omega), if_pos h', mul_one]

theorem fx_J (ht : c.thermal = true) (k : Nat) (h : 14 ≤ k) (h' : k < 17) : x.fx c k = x.t := by
  have hb := x.hb.ne'
  unfold Units.fx Units.at
  rw [if_neg (by omega), if_neg (by omega), if_neg (by omega), if_neg (by omega), if_pos ⟨ht, h'⟩]
  field_simp

/-- **The fluxes in other units.** -/
theorem units_flux (hf : x.Fit c P) (d : Fin 3) (r : St) :
    flux c (x.par P) (x.st c Q) d (fun k => x.fx c k * r k) = fun k => x.fx c k * flux c P Q d r k := by
  have ha := x.ha.ne'
  have hb := x.hb.ne'
  have ht := x.ht.ne'
  have hvd : ∀ i, getRv (x.st c Q) i / (x.a * Q 0) = x.b * (getRv Q i / Q 0) := fun i => by
    rw [units_rv]
    generalize getRv Q i = z
    field_simp
  have base : ∀ r, fluxBase c (x.par P) (x.st c Q) d (fun k => x.fx c k * r k) = fun k => x.fx c k * fluxBase c P Q d r k := fun r => by
    unfold fluxBase
    simp only [units_pressure Q hf, units_0, units_1, hvd]
    simp only [units_rv]
    rw [← fx_0 (x := x) (c := c), units_addAt, show x.b * (getRv Q d / Q 0) * (x.p * Q 1 + x.p * pressure c P Q) =
      x.fx c 1 * (getRv Q d / Q 0 * (Q 1 + pressure c P Q)) by rw [fx_1]; ring, units_addAt,
      show (fun i => x.b * (getRv Q d / Q 0) * (x.fx c 0 * getRv Q i)) = fun i => x.p * (getRv Q d / Q 0 * getRv Q i) by
        funext i; rw [fx_0]; unfold Units.p; ring,
      units_addSeg _ _ _ _ _ (fx_v 2 (by omega) (by omega)) (fx_v 3 (by omega) (by omega)) (fx_v 4 (by omega) (by omega)),
      show x.p * pressure c P Q = x.fx c (2 + d) * pressure c P Q by rw [fx_v _ (by omega) (by omega)], units_addAt]
  have visc : ∀ r, fluxViscous (x.par P) (x.st c Q) d (fun k => x.fx c k * r k) = fun k => x.fx c k * fluxViscous P Q d r k := fun r => by
    unfold fluxViscous
    have hs : sigmaCol (x.par P).toParams (x.st c Q) d = x.p • sigmaCol P.toParams Q d := units_sigmaCol Q _ d
    have hR : getRv (x.st c Q) = fun i => x.a * x.b * getRv Q i := funext (units_rv Q)
    have hA : ∀ i, (getA Q).mulVec (fun i => x.a * x.b * getRv Q i) i / (x.a * Q 0) = x.b * ((getA Q).mulVec (getRv Q) i / Q 0) := fun i => by
      have : (fun i => x.a * x.b * getRv Q i) = (x.a * x.b) • getRv Q := rfl
      rw [this, Matrix.mulVec_smul, Pi.smul_apply, smul_eq_mul]
      generalize (getA Q).mulVec (getRv Q) i = z
      field_simp
    simp only [hs, units_0, units_A, hR, hA]
    have e1 : -(dot3 (x.p • sigmaCol P.toParams Q d) (fun i => x.a * x.b * getRv Q i) / (x.a * Q 0)) =
        x.fx c 1 * -(dot3 (sigmaCol P.toParams Q d) (getRv Q) / Q 0) := by
      have : dot3 (x.p • sigmaCol P.toParams Q d) (fun i => x.a * x.b * getRv Q i) = x.a * (x.b * x.p * dot3 (sigmaCol P.toParams Q d) (getRv Q)) := by
        unfold dot3
        simp only [Pi.smul_apply, smul_eq_mul]
        ring
      rw [this, mul_div_mul_left _ _ ha, fx_1]
      ring
    have e2 : (fun i => -(x.p • sigmaCol P.toParams Q d) i) = fun i => x.p * -sigmaCol P.toParams Q d i := by
      funext i
      simp
    rw [e1, units_addAt, e2,
      units_addSeg _ _ _ _ _ (fx_v 2 (by omega) (by omega)) (fx_v 3 (by omega) (by omega)) (fx_v 4 (by omega) (by omega))]
    generalize (getA Q).mulVec (getRv Q) 0 / Q 0 = z0
    generalize (getA Q).mulVec (getRv Q) 1 / Q 0 = z1
    generalize (getA Q).mulVec (getRv Q) 2 / Q 0 = z2
    rw [show x.b * z0 = x.fx c (5 + d) * z0 by rw [fx_A _ (by omega) (by omega)],
      show x.b * z1 = x.fx c (8 + d) * z1 by rw [fx_A _ (by omega) (by omega)],
      show x.b * z2 = x.fx c (11 + d) * z2 by rw [fx_A _ (by omega) (by omega)], units_addAt, units_addAt, units_addAt]
  have therm : c.thermal = true → ∀ r, fluxThermal c (x.par P) (x.st c Q) d (fun k => x.fx c k * r k) =
      fun k => x.fx c k * fluxThermal c P Q d r k := fun h r => by
    unfold fluxThermal
    have hT : temperatureMG (x.par P).toParams (x.a * Q 0) (x.p * pressure c P Q) = x.t * temperatureMG P.toParams (Q 0) (pressure c P Q) :=
      units_temperatureMG P.toParams (Q 0) _
    simp only [units_0, units_pressure Q hf, hT, hvd, units_RJ Q h]
    generalize temperatureMG P.toParams (Q 0) (pressure c P Q) = T
    have hca : (x.par P).cα2 = (x.a * x.b ^ 2 / x.t) ^ 2 * P.cα2 := rfl
    rw [hca, show (x.a * x.b ^ 2 / x.t) ^ 2 * P.cα2 * (x.t * T) * (x.t / x.b * getRJ Q d) / (x.a * Q 0) =
      x.fx c 1 * (P.cα2 * T * getRJ Q d / Q 0) by
        rw [fx_1]; unfold Units.p; generalize getRJ Q d = z; field_simp, units_addAt,
      show (fun i => x.b * (getRv Q d / Q 0) * (x.t / x.b * getRJ Q i)) = fun i => x.t * (getRv Q d / Q 0 * getRJ Q i) by
        funext i; generalize getRv Q d / Q 0 = z; field_simp,
      units_addSeg _ _ _ _ _ (fx_J h 14 (by omega) (by omega)) (fx_J h 15 (by omega) (by omega)) (fx_J h 16 (by omega) (by omega)),
      show x.t * T = x.fx c (14 + d) * T by rw [fx_J h _ (by omega) (by omega)], units_addAt]
  unfold flux
  simp only [hf.viscous, if_true, base, visc]
  by_cases h : c.thermal = true
  all_goals by_cases hm : c.multi = true
  all_goals simp only [h, hm, if_true, if_false, Bool.false_eq_true, therm, units_0, hvd]
  all_goals
    have e : x.st c Q c.mV * (x.b * (getRv Q d / Q 0)) = x.fx c c.mV * (Q c.mV * (getRv Q d / Q 0)) := by
      unfold Units.st Units.fx
      ring
    rw [e, units_setAt]

/-- **The non-conservative terms in other units.** -/
theorem units_bdot (hv : c.viscous = true) (y r : St) (d : Fin 3) :
    bdot c (x.st c Q) (x.st c y) d (fun k => x.fx c k * r k) = fun k => x.fx c k * bdot c Q y d r k := by
  funext i
  have hV : 14 ≤ c.V - c.lset := by
    unfold Cfg.V Cfg.mV
    simp only [hv, if_true]
    omega
  unfold bdot
  simp only [hv, if_true, units_vel]
  split_ifs with h1 h2
  · unfold Units.st Units.fx
    ring
  · have hA : ∀ j, j < 3 → x.st c y (5 + 3 * ((i - 5) / 3) + j) = y (5 + 3 * ((i - 5) / 3) + j) := fun j hj => by
      unfold Units.st Units.at
      rw [if_neg (by omega), if_neg (by omega), if_neg (by omega), if_pos (by omega), one_mul]
    have h0 := hA 0 (by omega)
    rw [Nat.add_zero] at h0
    rw [fx_A _ h2.1 h2.2]
    unfold bdotA
    simp only [hA 1 (by omega), hA 2 (by omega), h0]
    fin_cases d <;> simp only [] <;> split <;> ring
  · rw [mul_zero]
  · rfl


/-! ### Speeds -/

theorem units_dEdrho (hf : x.Fit c P) : dEdrho c (x.par P) (x.st c Q) = x.b ^ 2 / x.a * dEdrho c P Q := by
  have ha := x.ha.ne'
  have hb := x.hb.ne'
  have ht := x.ht.ne'
  have hP : (x.par P).toParams = x.params P.toParams := rfl
  have h2 : (x.par P).mp2 = x.params P.mp2 := rfl
  have hm : (x.par P).multi = P.multi := rfl
  unfold dEdrho
  simp only [units_0, units_A, hP, h2, hm, units_dC0, units_pressure Q hf]
  by_cases h : P.multi = true
  · simp only [h, if_true, units_solveMulti Q hf (hf.mixes h), units_lam Q hf (hf.mixes h), units_dTdrho, units_dedrho]
    generalize solveMulti c P Q = w
    generalize Q c.mV / Q 0 = l
    generalize dTdrho P.toParams w.2.1 w.1 = T1
    generalize dTdrho P.mp2 w.2.2 w.1 = T2
    generalize dedrho P.toParams w.2.1 w.1 = e1
    generalize dedrho P.mp2 w.2.2 w.1 = e2
    generalize w.2.1 = ρ1
    generalize w.2.2 = ρ2
    have k : l / (x.a * ρ1 * (x.a * ρ1)) * (x.t / x.a * T2) + (1 - l) / (x.a * ρ2 * (x.a * ρ2)) * (x.t / x.a * T1) =
        x.t / x.a ^ 3 * (l / (ρ1 * ρ1) * T2 + (1 - l) / (ρ2 * ρ2) * T1) := by
      have : ∀ u v : ℝ, u / (x.a * v * (x.a * v)) = u / (v * v) / x.a ^ 2 := fun u v => by
        rw [div_div]; congr 1; ring
      rw [this, this]
      field_simp
    rw [k]
    generalize l / (ρ1 * ρ1) * T2 + (1 - l) / (ρ2 * ρ2) * T1 = K
    have k2 : ∀ T : ℝ, 1 / (x.a * Q 0 * (x.a * Q 0) * (x.t / x.a ^ 3 * K)) * (x.t / x.a * T) = 1 / (Q 0 * Q 0 * K) * T := fun T => by
      rw [show x.a * Q 0 * (x.a * Q 0) * (x.t / x.a ^ 3 * K) = x.t / x.a * (Q 0 * Q 0 * K) by field_simp]
      generalize Q 0 * Q 0 * K = z
      field_simp
    rw [k2, k2]
    ring
  · simp only [h, if_false, Bool.false_eq_true, units_dedrho]
    ring

theorem units_dEdp (hf : x.Fit c P) : dEdp c (x.par P) (x.st c Q) = dEdp c P Q / x.a := by
  have hP : (x.par P).toParams = x.params P.toParams := rfl
  have h2 : (x.par P).mp2 = x.params P.mp2 := rfl
  have hm : (x.par P).multi = P.multi := rfl
  unfold dEdp
  simp only [units_0, hP, h2, hm]
  by_cases h : P.multi = true
  · simp only [h, if_true, units_solveMulti Q hf (hf.mixes h), units_lam Q hf (hf.mixes h), units_dedp]
    ring
  · simp only [h, if_false, Bool.false_eq_true, units_dedp]

theorem units_c0 (hf : x.Fit c P) : c0 c (x.par P) (x.st c Q) = x.b * c0 c P Q := by
  have ha := x.ha.ne'
  have hb := x.hb.ne'
  unfold c0
  rw [units_pressure Q hf, units_dEdrho Q hf, units_dEdp Q hf, units_0]
  have : (x.p * pressure c P Q / (x.a * Q 0 * (x.a * Q 0)) - x.b ^ 2 / x.a * dEdrho c P Q) / (dEdp c P Q / x.a) =
      x.b ^ 2 * ((pressure c P Q / (Q 0 * Q 0) - dEdrho c P Q) / dEdp c P Q) := by
    have : x.p * pressure c P Q / (x.a * Q 0 * (x.a * Q 0)) = x.b ^ 2 / x.a * (pressure c P Q / (Q 0 * Q 0)) := by
      unfold Units.p
      field_simp
    rw [this, ← mul_sub]
    generalize pressure c P Q / (Q 0 * Q 0) - dEdrho c P Q = z
    field_simp
  rw [this, Real.sqrt_mul (sq_nonneg _), Real.sqrt_sq x.hb.le]

theorem units_dsigmadrho (R : Params) (d : Fin 3) : dsigmadrho (x.params R) (x.st c Q) d = x.b ^ 2 • dsigmadrho R Q d := by
  have ha := x.ha.ne'
  have hb := x.hb.ne'
  unfold dsigmadrho
  rw [units_sigmaCol, units_0, units_dcs2, units_cs2, smul_smul, smul_smul]
  congr 1
  have : x.b ^ 2 / x.a * dcs2 R (Q 0) / (x.b ^ 2 * cs2 R (Q 0)) = dcs2 R (Q 0) / cs2 R (Q 0) / x.a := by
    generalize dcs2 R (Q 0) = z
    generalize cs2 R (Q 0) = w
    field_simp
  rw [this]
  generalize dcs2 R (Q 0) / cs2 R (Q 0) = z
  unfold Units.p
  field_simp

theorem units_dsigmadAd (R : Params) (d : Fin 3) : dsigmadAd (x.params R) (x.st c Q) d = x.p • dsigmadAd R Q d := by
  unfold dsigmadAd
  simp only [units_A, units_0, units_cs2]
  rw [smul_smul]
  congr 1
  unfold Units.p
  ring

theorem units_ch (R : Params) (ρ T : ℝ) : ch (x.params R) (x.a * ρ) (x.t * T) = x.b * ch R ρ T := by
  have ha := x.ha.ne'
  have hb := x.hb.ne'
  have ht := x.ht.ne'
  unfold ch
  have : (x.params R).cα2 * (x.t * T) / (x.params R).cv = (x.a * x.b) ^ 2 * (R.cα2 * T / R.cv) := by
    simp only [Units.params]
    field_simp
  rw [this, Real.sqrt_mul (sq_nonneg _), Real.sqrt_sq (mul_pos x.ha x.hb).le]
  field_simp

/-- The factors of the columns of `Xi1`. -/
def Units.col (x : Units) (j : Fin 5) : ℝ := if j = 0 then x.b ^ 2 / x.a else if j = 1 then 1 / x.a else x.b ^ 2

/-- The factors of its rows. -/
def Units.row (x : Units) (i : Fin 4) : ℝ := if i = 3 then x.t / x.p else 1

theorem units_xi1 (hf : x.Fit c P) (d : Fin 3) (i : Fin 4) (j : Fin 5) :
    xi1 c (x.par P) (x.st c Q) d i j = x.row i * x.col j * xi1 c P Q d i j := by
  have ha := x.ha.ne'
  have hb := x.hb.ne'
  have ht := x.ht.ne'
  have hP : (x.par P).toParams = x.params P.toParams := rfl
  unfold xi1
  simp only [units_0, units_pressure Q hf, hf.viscous, if_true, hP, units_dTdrho, units_dTdp, units_dsigmadrho, units_dsigmadAd]
  generalize dsigmadrho P.toParams Q d = s1
  generalize dsigmadAd P.toParams Q d = s2
  generalize dTdrho P.toParams (Q 0) (pressure c P Q) = T1
  generalize dTdp P.toParams (Q 0) = T2
  unfold Units.row Units.col Units.p
  by_cases h : c.thermal = true
  all_goals
    simp only [h, if_true, if_false, Bool.false_eq_true, Matrix.of_apply]
    fin_cases i <;> fin_cases j <;> simp <;> field_simp

theorem units_xi2 (hf : x.Fit c P) (d : Fin 3) (i : Fin 5) (j : Fin 4) :
    xi2 c (x.par P) (x.st c Q) d i j = x.b ^ 2 / x.col i / x.row j * xi2 c P Q d i j := by
  have ha := x.ha.ne'
  have hb := x.hb.ne'
  have ht := x.ht.ne'
  have hP : (x.par P).toParams = x.params P.toParams := rfl
  unfold xi2
  simp only [units_0, units_pressure Q hf, hf.viscous, if_true, hP, units_temperatureMG, units_ch, units_dTdp, units_dsigmadrho, units_sigmaCol,
    units_c0 Q hf, units_A]
  generalize dsigmadrho P.toParams Q d = s1
  generalize sigmaCol P.toParams Q d = s2
  generalize temperatureMG P.toParams (Q 0) (pressure c P Q) = T
  generalize ch P.toParams (Q 0) T = ch
  generalize dTdp P.toParams (Q 0) = T2
  generalize c0 c P Q = c0
  unfold Units.row Units.col Units.p
  by_cases h : c.thermal = true
  all_goals
    simp only [h, if_true, if_false, Bool.false_eq_true, Matrix.of_apply]
    fin_cases i <;> fin_cases j <;> fin_cases d <;> simp <;> (try field_simp) <;> (try simp)

/-- The spectral radius after a change of scales. -/
theorem specMax_units {n : Type} [Fintype n] [DecidableEq n] (M M' : Matrix n n ℝ) (k : ℝ) (hk : 0 < k) (r : n → ℝ) (hr : ∀ i, r i ≠ 0)
    (h : ∀ i j, M' i j = k * (r i / r j) * M i j) : specMax M' = k * specMax M := by
  have hkc : (k : ℂ) ≠ 0 := by exact_mod_cast hk.ne'
  have hrc : ∀ i, (r i : ℂ) ≠ 0 := fun i => by exact_mod_cast hr i
  have hdet : ∀ z : ℂ, (M'.map (algebraMap ℝ ℂ)).charpoly.eval z = k ^ Fintype.card n * (M.map (algebraMap ℝ ℂ)).charpoly.eval (z / k) := by
    intro z
    rw [Matrix.eval_charpoly, Matrix.eval_charpoly, ← Matrix.det_smul]
    have e : Matrix.scalar n z - M'.map (algebraMap ℝ ℂ) = Matrix.of fun i j => (r i : ℂ) * (Matrix.of fun i j => ((r j)⁻¹ : ℂ) *
        ((k : ℂ) • (Matrix.scalar n (z / k) - M.map (algebraMap ℝ ℂ))) i j) i j := by
      ext i j
      have hi := hrc i
      have hj := hrc j
      simp only [Matrix.of_apply, Matrix.sub_apply, Matrix.map_apply, Matrix.smul_apply, smul_eq_mul, h, Matrix.scalar_apply, Matrix.diagonal_apply]
      simp only [Complex.coe_algebraMap, Complex.ofReal_mul, Complex.ofReal_div]
      split_ifs with hij
      · subst hij
        field_simp
      · field_simp
        ring
    rw [e, Matrix.det_mul_column, Matrix.det_mul_row, ← mul_assoc, ← Finset.prod_mul_distrib]
    rw [Finset.prod_eq_one fun i _ => mul_inv_cancel₀ (hrc i), one_mul]
  have hroot : ∀ z : ℂ, z ∈ (M'.map (algebraMap ℝ ℂ)).charpoly.roots ↔ z / k ∈ (M.map (algebraMap ℝ ℂ)).charpoly.roots := by
    intro z
    rw [Polynomial.mem_roots (Matrix.charpoly_monic _).ne_zero, Polynomial.mem_roots (Matrix.charpoly_monic _).ne_zero,
      Polynomial.IsRoot, Polynomial.IsRoot, hdet]
    simp [hkc]
  obtain ⟨m, rfl⟩ : ∃ m : NNReal, (m : ℝ) = k := ⟨⟨k, hk.le⟩, rfl⟩
  have hz : ∀ z : ℂ, ‖z‖₊ = m * ‖z / ((m : ℝ) : ℂ)‖₊ := fun z => by
    apply NNReal.eq
    rw [NNReal.coe_mul, coe_nnnorm, coe_nnnorm, norm_div, Complex.norm_real, Real.norm_of_nonneg hk.le, mul_div_cancel₀ _ hk.ne']
  have hm : 0 < m := hk
  unfold specMax
  rw [← NNReal.coe_mul]
  congr 1
  apply le_antisymm
  · rw [Multiset.sup_le]
    intro b hb
    obtain ⟨z, hz1, rfl⟩ := Multiset.mem_map.1 hb
    rw [hz]
    exact mul_le_mul_right (Multiset.le_sup (Multiset.mem_map_of_mem _ ((hroot z).1 hz1))) _
  · rw [← le_div_iff₀' hm, Multiset.sup_le]
    intro b hb
    obtain ⟨z, hz1, rfl⟩ := Multiset.mem_map.1 hb
    rw [le_div_iff₀' hm]
    have e : z = (((m : ℝ) : ℂ) * z) / ((m : ℝ) : ℂ) := by rw [mul_div_cancel_left₀ _ hkc]
    have := hz (((m : ℝ) : ℂ) * z)
    rw [← e] at this
    rw [← this]
    exact Multiset.le_sup (Multiset.mem_map_of_mem _ ((hroot _).2 (by rw [← e]; exact hz1)))

/-- **The speeds of waves in other units.** -/
theorem units_maxAbsEigs (hf : x.Fit c P) (d : Fin 3) : maxAbsEigs c (x.par P) (x.st c Q) d = x.b * maxAbsEigs c P Q d := by
  have ha := x.ha.ne'
  have hb := x.hb.ne'
  have ht := x.ht.ne'
  have hr : ∀ i, x.row i ≠ 0 := fun i => by
    have := x.p_pos.ne'
    unfold Units.row
    split_ifs <;> positivity
  have hc : ∀ i, x.col i ≠ 0 := fun i => by
    unfold Units.col
    split_ifs <;> positivity
  have e : ∀ (i : Fin 4) (k : Fin 5) (j : Fin 4), xi1 c (x.par P) (x.st c Q) d i k * xi2 c (x.par P) (x.st c Q) d k j =
      x.b ^ 2 * (x.row i / x.row j) * (xi1 c P Q d i k * xi2 c P Q d k j) := by
    intro i k j
    rw [units_xi1 Q hf, units_xi2 Q hf]
    have := hr j
    have := hc k
    field_simp
  have h4 : specMax (tensor4 c (x.par P) (x.st c Q) d) = x.b ^ 2 * specMax (tensor4 c P Q d) := by
    refine specMax_units _ _ _ (pow_pos x.hb 2) x.row hr fun i j => ?_
    unfold tensor4
    rw [Matrix.mul_apply, Matrix.mul_apply, Finset.mul_sum]
    exact Finset.sum_congr rfl fun k _ => e i k j
  have h3 : specMax (tensor3 c (x.par P) (x.st c Q) d) = x.b ^ 2 * specMax (tensor3 c P Q d) := by
    refine specMax_units _ _ _ (pow_pos x.hb 2) (fun i => x.row (Fin.castSucc i)) (fun i => hr _) fun i j => ?_
    unfold tensor3
    rw [Matrix.mul_apply, Matrix.mul_apply, Finset.mul_sum]
    exact Finset.sum_congr rfl fun k _ => e _ k _
  have hv : x.st c Q (2 + d) / (x.a * Q 0) = x.b * (Q (2 + d) / Q 0) := by
    have : x.st c Q (2 + d) = x.a * x.b * Q (2 + d) := units_rv Q d
    rw [this]
    generalize Q (2 + (d : Nat)) = z
    field_simp
  unfold maxAbsEigs
  simp only [h4, h3, units_0, hv]
  have hs : Real.sqrt (if c.thermal then x.b ^ 2 * specMax (tensor4 c P Q d) else x.b ^ 2 * specMax (tensor3 c P Q d)) =
      x.b * Real.sqrt (if c.thermal then specMax (tensor4 c P Q d) else specMax (tensor3 c P Q d)) := by
    rw [show (if c.thermal then x.b ^ 2 * specMax (tensor4 c P Q d) else x.b ^ 2 * specMax (tensor3 c P Q d)) =
      x.b ^ 2 * (if c.thermal then specMax (tensor4 c P Q d) else specMax (tensor3 c P Q d)) by split_ifs <;> rfl,
      Real.sqrt_mul (sq_nonneg _), Real.sqrt_sq x.hb.le]
  rw [hs]
  have hpos : x.b * (Q (2 + d) / Q 0) > 0 ↔ Q (2 + d) / Q 0 > 0 := mul_pos_iff_of_pos_left x.hb
  simp only [hpos]
  split_ifs <;> ring

end

end Verif.Sys
