import Verif.Sys.Units
import Verif.Relax.Zoom

/-! # Source terms in other units -/

namespace Verif.Relax

open Verif.Sys Verif.Iter Verif.Grid

noncomputable section

variable {x : Units} {c : Cfg} {P : Par}

/-- Solids with a power law are not stressed beyond the limit of `1e8` that `theta1inv` has, in either of the units. -/
def Below (x : Units) (P : Par) (Q : St) : Prop := P.solid = true → P.powerLaw = true →
  sigmaNorm (sigma P.toParams Q) ≤ 1e8 ∧ x.p * sigmaNorm (sigma P.toParams Q) ≤ 1e8

theorem sigmaNorm_smul (s : ℝ) (hs : 0 ≤ s) (σ : M3) : sigmaNorm (s • σ) = s * sigmaNorm σ := by
  unfold sigmaNorm
  simp only [Matrix.smul_apply, smul_eq_mul]
  rw [show (0.5 : ℝ) * ((s * σ 0 0 - s * σ 1 1) * (s * σ 0 0 - s * σ 1 1) + (s * σ 1 1 - s * σ 2 2) * (s * σ 1 1 - s * σ 2 2) +
    (s * σ 2 2 - s * σ 0 0) * (s * σ 2 2 - s * σ 0 0)) + 3 * (s * σ 0 1 * (s * σ 0 1) + s * σ 1 2 * (s * σ 1 2) + s * σ 2 0 * (s * σ 2 0)) =
    s ^ 2 * (0.5 * ((σ 0 0 - σ 1 1) * (σ 0 0 - σ 1 1) + (σ 1 1 - σ 2 2) * (σ 1 1 - σ 2 2) +
    (σ 2 2 - σ 0 0) * (σ 2 2 - σ 0 0)) + 3 * (σ 0 1 * σ 0 1 + σ 1 2 * σ 1 2 + σ 2 0 * σ 2 0)) by ring,
    Real.sqrt_mul (sq_nonneg _), Real.sqrt_sq hs]

theorem frob_smul (s : ℝ) (hs : 0 ≤ s) (σ : M3) : Real.sqrt (∑ i, ∑ j, (s • σ) i j * (s • σ) i j) = s * Real.sqrt (∑ i, ∑ j, σ i j * σ i j) := by
  have : ∑ i, ∑ j, (s • σ) i j * (s • σ) i j = s ^ 2 * ∑ i, ∑ j, σ i j * σ i j := by
    rw [Finset.mul_sum]
    refine Finset.sum_congr rfl fun i _ => ?_
    rw [Finset.mul_sum]
    refine Finset.sum_congr rfl fun j _ => ?_
    simp only [Matrix.smul_apply, smul_eq_mul]
    ring
  rw [this, Real.sqrt_mul (sq_nonneg _), Real.sqrt_sq hs]

theorem frob_nonneg (σ : M3) : 0 ≤ Real.sqrt (∑ i, ∑ j, σ i j * σ i j) := Real.sqrt_nonneg _

/-- **The relaxation of the distortion in other units.** -/
theorem units_theta1inv (hP : Fits P) (Q : St) (hB : Below x P Q) : theta1inv (x.par P) (x.st c Q) = theta1inv P Q / x.b ^ 2 := by
  have ha := x.ha.ne'
  have hb := x.hb.ne'
  have hp := x.p_pos.ne'
  have hsig : sigma (x.par P).toParams (x.st c Q) = x.p • sigma P.toParams Q := units_sigma Q _
  have hcs : cs2 (x.par P).toParams (x.a * Q 0) = x.b ^ 2 * cs2 P.toParams (Q 0) := units_cs2 _ _
  unfold theta1inv
  simp only [hsig, units_0, hcs, units_A, frob_smul x.p x.p_pos.le, sigmaNorm_smul x.p x.p_pos.le]
  simp only [Units.par, Units.params]
  rcases Bool.eq_false_or_eq_true P.solid with h1 | h1 <;> rcases Bool.eq_false_or_eq_true P.bingham with h2 | h2 <;>
    rcases Bool.eq_false_or_eq_true P.powerLaw with h3 | h3 <;>
    simp only [h1, h2, h3, Bool.false_eq_true, if_true, if_false]
  · obtain ⟨b1, b2⟩ := hB h1 h3
    rw [min_eq_left b1, min_eq_left b2, mul_div_mul_left _ _ hp]
    field_simp
  · simp
  · obtain ⟨b1, b2⟩ := hB h1 h3
    rw [min_eq_left b1, min_eq_left b2, mul_div_mul_left _ _ hp]
    field_simp
  · simp
  · exact absurd (hP.bingham h1 h2) (by rw [h3]; decide)
  · generalize Real.sqrt (∑ i, ∑ j, sigma P.toParams Q i j * sigma P.toParams Q i j) = z
    have e : x.p * z / Real.sqrt 2 = x.p * (z / Real.sqrt 2) := mul_div_assoc _ _ _
    rw [e, mul_div_mul_left _ _ hp]
    simp only [gt_iff_lt, mul_lt_mul_iff_right₀ x.p_pos]
    split_ifs
    · unfold Units.p
      field_simp
    · simp
  · have hz := frob_nonneg (sigma P.toParams Q)
    generalize Real.sqrt (∑ i, ∑ j, sigma P.toParams Q i j * sigma P.toParams Q i j) = z at hz
    have hn := hP.power h3
    have e : x.p * z / Real.sqrt 2 = x.p * (z / Real.sqrt 2) := mul_div_assoc _ _ _
    rw [e, Real.mul_rpow x.p_pos.le hP.visc, Real.mul_rpow x.p_pos.le (by positivity)]
    have e2 : x.p ^ ((1 - P.n) / P.n) = x.p ^ (1 / P.n) / x.p := by
      rw [sub_div, div_self hn, Real.rpow_sub x.p_pos, Real.rpow_one]
    have hp2 : x.p ^ (1 / P.n) ≠ 0 := (Real.rpow_pos_of_pos x.p_pos _).ne'
    rw [e2]
    generalize x.p ^ (1 / P.n) = y at hp2
    generalize (z / Real.sqrt 2) ^ ((1 - P.n) / P.n) = w
    generalize P.μ ^ (1 / P.n) = v
    unfold Units.p
    field_simp
  · rw [hP.newtonian h1 h2 h3]
    simp only [div_one, Real.rpow_one]
    unfold Units.p
    field_simp

theorem units_theta2inv (hf : x.Fit c P) (Q : St) : theta2inv c (x.par P) (x.st c Q) = x.t ^ 2 / (x.a ^ 2 * x.b ^ 4) * theta2inv c P Q := by
  have ha := x.ha.ne'
  have hb := x.hb.ne'
  have ht := x.ht.ne'
  unfold theta2inv
  rw [units_temperature Q hf, units_0]
  simp only [Units.par, Units.params]
  generalize temperature c P Q = T
  field_simp

theorem powN_smul (s : ℝ) (hs : 0 < s) (z e : ℝ) : powN (s * z) e = (powN z e).map (s ^ e * ·) := by
  classical
  unfold powN
  have hn : s * z < 0 ↔ z < 0 := by
    constructor
    · intro h; by_contra hc; exact absurd h (not_lt.2 (mul_nonneg hs.le (not_lt.1 hc)))
    · exact fun h => mul_neg_of_pos_of_neg hs h
  by_cases h : z < 0 ∧ ¬ ∃ k : ℤ, e = k
  · rw [if_pos ⟨hn.2 h.1, h.2⟩, if_pos h]
    rfl
  · rw [if_neg fun h' => h ⟨hn.1 h'.1, h'.2⟩, if_neg h]
    simp only [Option.map_some, Option.some.injEq]
    rcases lt_or_ge z 0 with hz | hz
    · obtain ⟨k, rfl⟩ := not_not.1 fun h' => h ⟨hz, h'⟩
      rw [Real.rpow_intCast, Real.rpow_intCast, Real.rpow_intCast, mul_zpow]
    · exact Real.mul_rpow hs.le hz

theorem units_ignitionGrowth (ρ p l : ℝ) : ignitionGrowth (x.par P) (x.a * ρ) (x.p * p) l = ignitionGrowth P ρ p l := by
  have h1 : ∀ l, ignition (x.par P) (x.a * ρ) l = ignition P ρ l := fun l => by
    unfold ignition
    change (if 1 - l < P.φI then (powN l P.b).bind (fun a => (powN (x.a * ρ / (x.a * P.ρ0) - 1 - P.a) P.x).map fun b => P.I * a * b) else _) = _
    rw [units_ratio]
  have hm : max (x.p * p) 0 = x.p * max p 0 := by rw [mul_max_of_nonneg _ _ x.p_pos.le, mul_zero]
  have h2 : ∀ l, growth1 (x.par P) (x.p * max p 0) l = growth1 P (max p 0) l := fun l => by
    unfold growth1
    change (if 1 - l < P.φG1 then (powN l P.c).bind (fun a => (powN (1 - l) P.d).bind fun b => (powN (x.p * max p 0) P.y).map fun c =>
      P.G1 / x.p ^ P.y * a * b * c) else _) = _
    rw [powN_smul _ x.p_pos]
    have := (Real.rpow_pos_of_pos x.p_pos P.y).ne'
    split_ifs
    · cases powN l P.c <;> cases powN (1 - l) P.d <;> cases powN (max p 0) P.y <;> simp
      field_simp
    · rfl
  have h3 : ∀ l, growth2 (x.par P) (x.p * max p 0) l = growth2 P (max p 0) l := fun l => by
    unfold growth2
    change (if 1 - l > P.φG2 then (powN l P.e).bind (fun a => (powN (1 - l) P.g).bind fun b => (powN (x.p * max p 0) P.z).map fun c =>
      P.G2 / x.p ^ P.z * a * b * c) else _) = _
    rw [powN_smul _ x.p_pos]
    have := (Real.rpow_pos_of_pos x.p_pos P.z).ne'
    split_ifs
    · cases powN l P.e <;> cases powN (1 - l) P.g <;> cases powN (max p 0) P.z <;> simp
      field_simp
    · rfl
  unfold ignitionGrowth
  simp only [hm, h1, h2, h3]

/-- **Reactions in other units.** -/
theorem units_reactionRate (hf : x.Fit c P) (hm : c.multi = true) (Q : St) :
    reactionRate c (x.par P) (x.st c Q) = reactionRate c P Q := by
  have hb := x.hb.ne'
  have ht := x.ht.ne'
  unfold reactionRate
  simp only [units_temperature Q hf, units_pressure Q hf, units_0, units_lam Q hf hm, units_ignitionGrowth]
  have e : -(x.par P).Ea / ((x.par P).Rc * (x.t * temperature c P Q)) = -P.Ea / (P.Rc * temperature c P Q) := by
    simp only [Units.par]
    rw [show x.b ^ 2 / x.t * P.Rc * (x.t * temperature c P Q) = x.b ^ 2 * (P.Rc * temperature c P Q) by field_simp, ← mul_neg,
      mul_div_mul_left _ _ (pow_ne_zero 2 hb)]
  have e2 : x.t * temperature c P Q > (x.par P).Ti ↔ temperature c P Q > P.Ti := mul_lt_mul_iff_right₀ x.ht
  rw [e]
  simp only [e2]
  rfl

theorem st_setAt (k : Nat) (v : ℝ) (Q : St) : setAt k (x.at c k * v) (x.st c Q) = x.st c (setAt k v Q) := units_setAt (x.at c) k v Q

theorem st_setA (A : M3) (Q : St) : setA A (x.st c Q) = x.st c (setA A Q) := by
  have h1 : ∀ k, 5 ≤ k → k < 14 → x.at c k = 1 := fun k h h' => by
    unfold Units.at
    rw [if_neg (by omega), if_neg (by omega), if_neg (by omega), if_pos h']
  have : ∀ k (v : V3) (r : St), 5 ≤ k → k < 12 → setSeg k v (x.st c r) = x.st c (setSeg k v r) := fun k v r h h' => by
    have := units_setSeg (x.at c) k v r 1 (h1 k h (by omega)) (h1 _ (by omega) (by omega)) (h1 _ (by omega) (by omega))
    simp only [one_mul] at this
    exact this
  unfold setA
  rw [this _ _ _ (by omega) (by omega), this _ _ _ (by omega) (by omega), this _ _ _ (by omega) (by omega)]

theorem at_v (k : Nat) (h : 2 ≤ k) (h' : k < 5) : x.at c k = x.a * x.b := by
  unfold Units.at
  rw [if_neg (by omega), if_neg (by omega), if_pos h']

theorem at_J (ht : c.thermal = true) (k : Nat) (h : 14 ≤ k) (h' : k < 17) : x.at c k = x.t / x.b := by
  unfold Units.at
  rw [if_neg (by omega), if_neg (by omega), if_neg (by omega), if_neg (by omega), if_pos ⟨ht, h'⟩]

/-- **The source terms in other units.** -/
theorem units_source (hf : x.Fit c P) (hP : Fits P) (rate : ℝ) (Q : St) (hB : Below x P Q) :
    source c (x.par P) rate (x.st c Q) = x.st c (source c P rate Q) := by
  have ha := x.ha.ne'
  have hb := x.hb.ne'
  have ht := x.ht.ne'
  have h0 : setSeg 2 (x.par P).δp (fun _ => 0) = x.st c (setSeg 2 P.δp fun _ => 0) := by
    have := units_setSeg (x.at c) 2 P.δp (fun _ => 0) (x.a * x.b) (at_v 2 (by omega) (by omega)) (at_v 3 (by omega) (by omega))
      (at_v 4 (by omega) (by omega))
    simp only [mul_zero] at this
    exact this
  have hD : -dEdAs (x.par P).toParams (x.st c Q) * (theta1inv (x.par P) (x.st c Q) • (1 : M3)) =
      -dEdAs P.toParams Q * (theta1inv P Q • (1 : M3)) := by
    rw [units_theta1inv hP Q hB, show (x.par P).toParams = x.params P.toParams from rfl, units_dEdAs, ← smul_neg, Matrix.smul_mul, Matrix.mul_smul,
      Matrix.mul_smul, smul_smul, mul_div_cancel₀ _ (pow_ne_zero 2 hb)]
  have hJ : c.thermal = true → ∀ r, setSeg 14 (fun i => -(x.a * Q 0) * dEdJ (x.par P).toParams (x.st c Q) i * theta2inv c (x.par P) (x.st c Q))
      (x.st c r) = x.st c (setSeg 14 (fun i => -Q 0 * dEdJ P.toParams Q i * theta2inv c P Q) r) := fun h r => by
    have := units_setSeg (x.at c) 14 (fun i => -Q 0 * dEdJ P.toParams Q i * theta2inv c P Q) r (x.t / x.b) (at_J h 14 (by omega) (by omega))
      (at_J h 15 (by omega) (by omega)) (at_J h 16 (by omega) (by omega))
    refine Eq.trans ?_ this
    congr 1
    funext i
    rw [units_theta2inv hf, show (x.par P).toParams = x.params P.toParams from rfl, units_dEdJ Q h, Pi.smul_apply, smul_eq_mul]
    field_simp
  have hR : P.reaction > -1 → ∀ r, setAt c.mV (-(x.a * Q 0) * rate) (x.st c r) = x.st c (setAt c.mV (-Q 0 * rate) r) := fun h r => by
    rw [← st_setAt, units_mV hf.viscous (hf.reacts h)]
    congr 1
    ring
  unfold source
  simp only [h0, hD, units_0, hf.viscous, if_true, st_setA]
  rw [show (x.par P).reaction = P.reaction from rfl]
  by_cases h : c.thermal = true
  all_goals by_cases h' : P.reaction > -1
  all_goals simp only [h, h', if_true, if_false, Bool.false_eq_true, hJ, hR]

/-! ### The source half step -/

theorem units_func (hf : x.Fit c P) (hm : c.multi = true) (Q : St) (l : ℝ) : func c (x.par P) (x.st c Q) l = func c P Q l := by
  unfold func
  rw [units_0, mul_assoc, ← units_mV (x := x) hf.viscous hm, st_setAt, units_reactionRate hf hm]

theorem units_odeNumerical (hf : x.Fit c P) (steps fuel : Nat) (dt : ℝ) (Q : St) :
    odeNumerical c (x.par P) steps fuel dt (x.st c Q) = (odeNumerical c P steps fuel dt Q).map (x.st c) := by
  unfold odeNumerical
  rw [show (x.par P).reaction = P.reaction from rfl]
  by_cases h : P.reaction > -1
  · have hm := hf.reacts h
    simp only [h, if_true, units_0, units_lam Q hf hm]
    have hfn : func c (x.par P) (x.st c Q) = func c P Q := funext (units_func hf hm Q)
    rw [hfn]
    by_cases h1 : Q c.mV / Q 0 > 0
    · simp only [h1, if_true]
      by_cases h2 : P.reaction > 2
      · simp only [h2, if_true]
        rfl
      · simp only [h2, if_false]
        rw [Option.map_map]
        congr 1
        funext y
        rw [Function.comp_apply, ← st_setAt, units_mV hf.viscous hm, mul_assoc]
    · simp only [h1, if_false]
      rfl
  · simp only [h, if_false]
    rfl

theorem units_bodyForces (dt : ℝ) (Q : St) : bodyForces (x.par P) dt (x.st c Q) = x.st c (bodyForces P dt Q) := by
  have := units_addSeg (x.at c) 2 (fun i => P.δp i * dt) Q (x.a * x.b) (at_v 2 (by omega) (by omega)) (at_v 3 (by omega) (by omega))
    (at_v 4 (by omega) (by omega))
  refine Eq.trans ?_ this
  unfold bodyForces
  congr 1
  funext i
  exact mul_assoc _ _ _

theorem units_nondimTime (hP : P.powerLaw = true → P.solid = false → 0 ≤ P.μ ∧ P.n ≠ 0) (ρ d m0 u0 dt : ℝ) :
    nondimTime (x.par P) (x.a * ρ) d m0 u0 dt = nondimTime P ρ d m0 u0 dt := by
  have ha := x.ha.ne'
  have hb := x.hb.ne'
  have hp := x.p_pos.ne'
  have hcs : cs2 (x.par P).toParams (x.a * ρ) = x.b ^ 2 * cs2 P.toParams ρ := units_cs2 _ _
  unfold nondimTime
  simp only [hcs]
  simp only [Units.par, Units.params]
  rcases Bool.eq_false_or_eq_true P.powerLaw with h3 | h3 <;> rcases Bool.eq_false_or_eq_true P.solid with h1 | h1 <;>
    simp only [h1, h3, Bool.false_eq_true, if_true, if_false]
  · have e : ∀ C : ℝ, C * (x.a * ρ) * (x.b ^ 2 * cs2 P.toParams ρ) / (6 * (x.p * P.σY)) = C * ρ * cs2 P.toParams ρ / (6 * P.σY) := by
      intro C
      unfold Units.p
      field_simp
    simp only [e, mul_eq_zero, hp, false_or]
    split_ifs <;> rfl
  · obtain ⟨hμ, hn⟩ := hP h3 h1
    have e : ∀ C : ℝ, C * (x.a * ρ) * (x.b ^ 2 * cs2 P.toParams ρ) / (6 * Real.sqrt 3) = x.p * (C * ρ * cs2 P.toParams ρ / (6 * Real.sqrt 3)) := by
      intro C
      unfold Units.p
      ring
    have hz : x.p * P.μ ≤ 0 ↔ P.μ ≤ 0 := by
      constructor
      · intro h
        exact nonpos_of_mul_nonpos_right h x.p_pos
      · intro h
        exact mul_nonpos_of_nonneg_of_nonpos x.p_pos.le h
    have hr : x.a * P.ρ0 * (x.b ^ 2 * P.b02) = 0 ↔ P.ρ0 * P.b02 = 0 := by
      simp [ha, hb]
    have e2 : x.p ^ ((1 - P.n) / P.n) = x.p ^ (1 / P.n) / x.p := by
      rw [sub_div, div_self hn, Real.rpow_sub x.p_pos, Real.rpow_one]
    have hp2 : x.p ^ (1 / P.n) ≠ 0 := (Real.rpow_pos_of_pos x.p_pos _).ne'
    have e3 : ∀ K D w : ℝ, K / (6 * (x.p ^ (1 / P.n) * P.μ ^ (1 / P.n)) / (x.a * P.ρ0 * (x.b ^ 2 * P.b02))) * D *
        (x.p ^ ((1 - P.n) / P.n) * w) * dt = K / (6 * P.μ ^ (1 / P.n) / (P.ρ0 * P.b02)) * D * w * dt := by
      intro K D w
      rw [e2]
      generalize x.p ^ (1 / P.n) = y at hp2
      generalize P.μ ^ (1 / P.n) = v
      rw [show x.a * P.ρ0 * (x.b ^ 2 * P.b02) = x.p * (P.ρ0 * P.b02) by unfold Units.p; ring]
      generalize P.ρ0 * P.b02 = z
      field_simp
    simp only [hz, hr, e, powN_smul _ x.p_pos, Real.mul_rpow x.p_pos.le hμ]
    split_ifs
    · rfl
    · rfl
    · cases powN (Real.sqrt (cFluid (9 * m0 - u0 - 9) (6 * m0 - u0 - 6)) * ρ * cs2 P.toParams ρ / (6 * Real.sqrt 3)) ((1 - P.n) / P.n) with
      | none => rfl
      | some w =>
        simp only [Option.map_some, e3]
  all_goals
    simp only [mul_eq_zero, hp, false_or]
    split_ifs
    · rfl
    · congr 1
      unfold Units.p
      field_simp

theorem units_relaxDistortion (hP : Fits P) (svd : M3 → M3 × V3 × M3) (dt : ℝ) (Q : St) :
    relaxDistortion (x.par P) svd dt (x.st c Q) = (relaxDistortion P svd dt Q).map (x.st c) := by
  have hρ : ∀ d, d * (x.par P).ρ0 = x.a * (d * P.ρ0) := fun d => by
    change d * (x.a * P.ρ0) = _
    ring
  unfold relaxDistortion relaxA
  simp only [units_A, hρ, units_nondimTime fun h _ => ⟨hP.visc, hP.power h⟩]
  rw [Option.map_map]
  congr 1
  funext A
  exact st_setA A Q

theorem units_relaxThermal (ht : c.thermal = true) (dt : ℝ) (Q : St) :
    relaxThermal (x.par P) dt (x.st c Q) = x.st c (relaxThermal P dt Q) := by
  have ha := x.ha.ne'
  have hb := x.hb.ne'
  have ht' := x.ht.ne'
  have hE : E2A (x.par P).toParams (x.a * Q 0) (getA (x.st c Q)) = x.b ^ 2 * E2A P.toParams (Q 0) (getA Q) := units_E2A Q _
  have e1 : x.p * Q 1 / (x.a * Q 0) = x.b ^ 2 * (Q 1 / Q 0) := by
    unfold Units.p
    field_simp
  have hk : 2 * (x.par P).cα2 / ((x.par P).κ * (x.a * Q 0) * (x.par P).cv) = 2 * P.cα2 / (P.κ * Q 0 * P.cv) / x.b ^ 2 := by
    simp only [Units.par, Units.params]
    field_simp
  have hsq : sq3 (getRJ (x.st c Q)) = (x.t / x.b) ^ 2 * sq3 (getRJ Q) := by
    unfold sq3
    simp only [units_RJ Q ht]
    ring
  have h2 : (x.par P).cα2 / 2 = (x.a * x.b ^ 2 / x.t) ^ 2 * (P.cα2 / 2) := mul_div_assoc _ _ _
  unfold relaxThermal
  simp only [units_0, units_1, hE, e1, units_E3, hk, hsq, h2, units_RJ Q ht, ← mul_sub]
  generalize 2 * P.cα2 / (P.κ * Q 0 * P.cv) = k
  generalize Q 1 / Q 0 - E2A P.toParams (Q 0) (getA Q) - E3 (vel Q) = C
  have e3 : x.b ^ 2 * C * (k / x.b ^ 2) = C * k := by field_simp
  rw [e3]
  have e4 : ∀ D S : ℝ, (x.a * x.b ^ 2 / x.t) ^ 2 * (P.cα2 / 2) * (k / x.b ^ 2) / (C * k) * D * ((x.t / x.b) ^ 2 * S) / (x.a * Q 0 * (x.a * Q 0)) =
      P.cα2 / 2 * k / (C * k) * D * S / (Q 0 * Q 0) := by
    intro D S
    generalize C * k = z
    field_simp
  rw [e4]
  have := units_setSeg (x.at c) 14 (fun i => getRJ Q i * (Real.exp (-(C * k) * dt / 2) /
    Real.sqrt (1 - P.cα2 / 2 * k / (C * k) * (1 - Real.exp (-(C * k) * dt / 2) * Real.exp (-(C * k) * dt / 2)) * sq3 (getRJ Q) / (Q 0 * Q 0))))
    Q (x.t / x.b) (at_J ht 14 (by omega) (by omega)) (at_J ht 15 (by omega) (by omega)) (at_J ht 16 (by omega) (by omega))
  refine Eq.trans ?_ this
  congr 1
  funext i
  ring

/-- **The source half step in other units.** -/
theorem units_odeCell (hf : x.Fit c P) (hP : Fits P) (svd : M3 → M3 × V3 × M3) (steps fuel : Nat) (dt : ℝ) (Q : St) :
    odeCell c (x.par P) svd steps fuel dt (x.st c Q) = (odeCell c P svd steps fuel dt Q).map (x.st c) := by
  have hA : odeAnalytic c (x.par P) svd dt (x.st c Q) = (odeAnalytic c P svd dt Q).map (x.st c) := by
    unfold odeAnalytic
    simp only [hf.viscous, if_true, units_bodyForces, units_relaxDistortion hP]
    cases relaxDistortion P svd dt (bodyForces P dt Q) with
    | none => rfl
    | some R =>
      change some (if c.thermal then _ else _) = some (x.st c (if c.thermal then _ else _))
      split_ifs with h
      · rw [units_relaxThermal h]
      · rfl
  unfold odeCell
  rw [hA]
  cases odeAnalytic c P svd dt Q with
  | none => rfl
  | some R => exact units_odeNumerical hf steps fuel dt R

/-- **`theta1inv` limits the stress of solids to `1e8`, in whatever units**: beyond it the relaxation is another one in smaller units. -/
theorem units_cap_false (Q : St) (hs : P.solid = true) (hl : P.powerLaw = true) (hσ : 0 < P.σY) (hn : 0 < P.n) (hp : 1 < x.p)
    (h : 1e8 ≤ sigmaNorm (sigma P.toParams Q)) (h0 : theta1inv P Q ≠ 0) :
    theta1inv (x.par P) (x.st c Q) ≠ theta1inv P Q / x.b ^ 2 := by
  have hb := x.hb.ne'
  have hp0 := x.p_pos
  have hsig : sigma (x.par P).toParams (x.st c Q) = x.p • sigma P.toParams Q := units_sigma Q _
  have hcs : cs2 (x.par P).toParams (x.a * Q 0) = x.b ^ 2 * cs2 P.toParams (Q 0) := units_cs2 _ _
  have h' : 1e8 ≤ x.p * sigmaNorm (sigma P.toParams Q) := h.trans (le_mul_of_one_le_left ((by norm_num : (0 : ℝ) ≤ 1e8).trans h) hp.le)
  have key : theta1inv (x.par P) (x.st c Q) = theta1inv P Q / x.b ^ 2 / x.p ^ P.n := by
    unfold theta1inv
    simp only [hsig, units_0, hcs, units_A, sigmaNorm_smul x.p hp0.le]
    simp only [Units.par, Units.params, hs, hl, if_true]
    rw [min_eq_right h, min_eq_right h', show (1e8 : ℝ) / (x.p * P.σY) = 1e8 / P.σY / x.p by rw [div_div, mul_comm],
      Real.div_rpow (div_nonneg (by norm_num) hσ.le) hp0.le]
    field_simp
  rw [key]
  intro e
  have hne : theta1inv P Q / x.b ^ 2 ≠ 0 := div_ne_zero h0 (pow_ne_zero 2 hb)
  have h1 : 1 < x.p ^ P.n := Real.one_lt_rpow hp hn
  rw [div_eq_iff (by linarith : x.p ^ P.n ≠ 0)] at e
  have := mul_left_cancel₀ hne (show theta1inv P Q / x.b ^ 2 * x.p ^ P.n = theta1inv P Q / x.b ^ 2 * 1 by linarith)
  linarith

/-- A stiff solid stretched to three times its length, in grammes and in kilogrammes. -/
example : ∃ (P : Par) (Q : St), P.solid = true ∧ P.powerLaw = true ∧
    theta1inv (Units.par ⟨1000, 1, 1, by norm_num, by norm_num, by norm_num⟩ P)
      (Units.st ⟨1000, 1, 1, by norm_num, by norm_num, by norm_num⟩ c Q) ≠ theta1inv P Q / 1 ^ 2 := by
  let P : Par := { samplePar { sample with b02 := 1e9 } with solid := true, powerLaw := true }
  let Q : St := fun i => if i = 0 then 1 else if i = 5 then 3 else if i = 9 then 2 / 3 else if i = 13 then 1 / 2 else 0
  have hA : getA Q = Matrix.diagonal ![3, 2 / 3, 1 / 2] := by
    ext i j
    fin_cases i <;> fin_cases j <;> simp [getA, Q]
  have hdet : (getA Q).det = 1 := by
    rw [hA, Matrix.det_diagonal, Fin.prod_univ_three]
    change (3 : ℝ) * (2 / 3) * (1 / 2) = 1
    norm_num
  have hc : cs2 P.toParams (Q 0) = 1e9 := by norm_num [P, samplePar, sample, cs2, Q]
  have hn : 1e8 ≤ sigmaNorm (sigma P.toParams Q) := by
    refine Real.le_sqrt_of_sq_le ?_
    simp only [sigma, dEdAs, hA, hc, AdevG]
    norm_num [Matrix.mul_apply, Fin.sum_univ_three, Matrix.transpose_apply, Matrix.diagonal_apply, Q,
      show (![3, 2 / 3, 1 / 2] : Fin 3 → ℝ) 2 = 1 / 2 from rfl, show ¬ (2 : Fin 3) = 1 by decide, show ¬ (1 : Fin 3) = 2 by decide,
      show ¬ (0 : Fin 3) = 2 by decide]
  refine ⟨P, Q, rfl, rfl, units_cap_false (x := ⟨1000, 1, 1, by norm_num, by norm_num, by norm_num⟩) Q rfl rfl (by norm_num [P, samplePar, sample])
    (by norm_num [P, samplePar, sample]) (by norm_num [Units.p]) hn ?_⟩
  have h0 : 0 < sigmaNorm (sigma P.toParams Q) := lt_of_lt_of_le (by norm_num) hn
  unfold theta1inv
  simp only [hdet, show P.solid = true from rfl, show P.powerLaw = true from rfl, if_true, min_eq_right hn]
  norm_num [P, samplePar, sample, cs2, Q]

end

end Verif.Relax
