import Verif.Relax.Source

/-! # The reaction step -/

namespace Verif.Relax

open Verif.Sys Verif.Iter Verif.Grid

noncomputable section

/-- One step with a right-hand side that is never positive does not go up. -/
theorem rk4_nonpos (f : ℝ → Option ℝ) (hf : ∀ y v, f y = some v → v ≤ 0) (y dt dy : ℝ) (ht : 0 ≤ dt)
    (h : rk4 f y dt = some dy) : dy ≤ 0 := by
  simp only [rk4, Option.bind_eq_bind, Option.pure_def, Option.bind_eq_some_iff] at h
  obtain ⟨k1, h1, k2, h2, k3, h3, k4, h4, h⟩ := h
  have e1 := mul_nonpos_of_nonneg_of_nonpos ht (hf _ _ h1)
  have e2 := mul_nonpos_of_nonneg_of_nonpos ht (hf _ _ h2)
  have e3 := mul_nonpos_of_nonneg_of_nonpos ht (hf _ _ h3)
  have e4 := mul_nonpos_of_nonneg_of_nonpos ht (hf _ _ h4)
  have := Option.some.inj h
  rw [← this]
  linarith

theorem rungeKutta_le (f : ℝ → Option ℝ) (hf : ∀ y v, f y = some v → v ≤ 0) (tf y v : ℝ) (n : Nat) (ht : 0 ≤ tf)
    (h : rungeKutta f tf y n = some v) : v ≤ y := by
  have hdt : 0 ≤ tf / n := by positivity
  have key : ∀ m v, (List.range m).foldl (fun y _ => y.bind fun y => (rk4 f y (tf / n)).map fun dy => y + dy)
      (some y) = some v → v ≤ y := by
    intro m
    induction m with
    | zero => intro v hv; simp at hv; exact hv.ge
    | succ m ih =>
      intro v hv
      rw [List.range_succ, List.foldl_append] at hv
      simp only [List.foldl_cons, List.foldl_nil, Option.bind_eq_some_iff, Option.map_eq_some_iff] at hv
      obtain ⟨w, hw, dy, hdy, rfl⟩ := hv
      have := ih w hw
      have := rk4_nonpos f hf w _ dy hdt hdy
      linarith
  exact key n v h

/-- The rate laws are never negative when their constants are not. -/
theorem reactionRate_nonneg (c : Cfg) (P : Par) (Q : St) (hK : 0 ≤ P.Kc) (hB : 0 ≤ P.Bc) (r : ℝ)
    (h : reactionRate c P Q = some r) : 0 ≤ r := by
  have hl : 0 ≤ max 0 (Q c.mV / Q 0) := le_max_left _ _
  unfold reactionRate at h
  simp only at h
  split_ifs at h with h0 hT h1
  · rw [← Option.some.inj h]; positivity
  · rw [← Option.some.inj h]
  · rw [← Option.some.inj h]
    exact mul_nonneg (mul_nonneg hB (Real.exp_pos _).le) hl
  · unfold ignitionGrowth at h
    simp only [Option.bind_eq_some_iff, Option.map_eq_some_iff] at h
    obtain ⟨a, -, b, -, d, -, h⟩ := h
    rw [← h]
    exact le_max_right _ _

/-- What one reaction step does, for every rate law, step size and number of steps: it ends, it changes nothing but the
concentration, never makes it negative, and with non-negative rate constants never raises it. -/
theorem react (c : Cfg) (P : Par) (steps fuel : Nat) (dt : ℝ) (Q : St) (hs : 1 ≤ steps) (hf : 7 ≤ fuel)
    (hρ : 0 < Q 0) (hdt : 0 ≤ dt) (hK : 0 ≤ P.Kc) (hB : 0 ≤ P.Bc)
    (h2 : P.reaction ≤ 2) :
    ∃ Q', odeNumerical c P steps fuel dt Q = some Q' ∧ (∀ i, i ≠ c.mV → Q' i = Q i) ∧
      (0 ≤ Q c.mV → 0 ≤ Q' c.mV) ∧ Q' c.mV ≤ Q c.mV ∧ (¬ P.reaction > -1 ∨ Q c.mV ≤ 0 → Q' = Q) := by
  unfold odeNumerical
  by_cases hr : P.reaction > -1
  · rw [if_pos hr]
    by_cases hl : Q c.mV / Q 0 > 0
    · simp only [hl, if_true, not_lt.mpr h2, gt_iff_lt, if_false]
      obtain ⟨j, -, hj, -, -⟩ := launcher_spec (func c P Q) dt (Q c.mV / Q 0) steps fuel hs hf
      rw [hj]
      refine ⟨_, rfl, ?_, ?_, ?_, ?_⟩
      · intro i hi; simp [setAt, hi]
      · intro _
        simp only [setAt, if_true]
        refine mul_nonneg hρ.le ?_
        unfold max0
        split <;> simp
      · simp only [setAt, if_true]
        have hm : 0 < Q c.mV := by rwa [gt_iff_lt, lt_div_iff₀ hρ, zero_mul] at hl
        cases hv : rungeKutta (func c P Q) dt (Q c.mV / Q 0) (steps * 2 ^ j) with
        | none => simp only [max0, mul_zero]; exact hm.le
        | some v =>
          have := rungeKutta_le (func c P Q) (fun y v h => by
            unfold func at h
            rw [Option.map_eq_some_iff] at h
            obtain ⟨r, hr, rfl⟩ := h
            have := reactionRate_nonneg c P _ hK hB r hr
            linarith) dt _ v _ hdt hv
          simp only [max0]
          have h2 : max 0 v ≤ Q c.mV / Q 0 := max_le hl.le this
          calc Q 0 * max 0 v ≤ Q 0 * (Q c.mV / Q 0) := mul_le_mul_of_nonneg_left h2 hρ.le
            _ = Q c.mV := by field_simp
      · rintro (h | h)
        · exact absurd hr h
        · exfalso
          rw [gt_iff_lt, lt_div_iff₀ hρ, zero_mul] at hl
          linarith
    · simp only [hl, if_false]
      exact ⟨Q, rfl, fun _ _ => rfl, id, le_rfl, fun _ => rfl⟩
  · rw [if_neg hr]
    exact ⟨Q, rfl, fun _ _ => rfl, id, le_rfl, fun _ => rfl⟩

/-- If the rate is not a number at the initial concentration, the step burns everything. -/
theorem nan_burns (c : Cfg) (P : Par) (steps fuel : Nat) (dt : ℝ) (Q : St) (hs : 1 ≤ steps) (hf : 7 ≤ fuel)
    (hρ : 0 < Q 0) (hm : 0 < Q c.mV) (hr : P.reaction > -1)
    (h2 : P.reaction ≤ 2) (h : reactionRate c P Q = none) :
    ∃ Q', odeNumerical c P steps fuel dt Q = some Q' ∧ Q' c.mV = 0 := by
  have hl : Q c.mV / Q 0 > 0 := by positivity
  have hq : setAt c.mV (Q 0 * (Q c.mV / Q 0)) Q = Q := by
    funext i
    simp only [setAt]
    split_ifs with hi
    · subst hi; field_simp
    · rfl
  have hf0 : func c P Q (Q c.mV / Q 0) = none := by simp [func, hq, h]
  have hrk : ∀ n, 1 ≤ n → rungeKutta (func c P Q) dt (Q c.mV / Q 0) n = none := by
    intro n hn
    obtain ⟨m, rfl⟩ : ∃ m, n = m + 1 := ⟨n - 1, by omega⟩
    unfold rungeKutta
    rw [List.range_succ_eq_map, List.foldl_cons, List.foldl_map]
    have h4 : rk4 (func c P Q) (Q c.mV / Q 0) (dt / (m + 1 : ℕ)) = none := by simp [rk4, hf0]
    rw [Option.bind_some, h4]
    have : ∀ l : List Nat, l.foldl (fun (y : Option ℝ) _ => y.bind fun y =>
        (rk4 (func c P Q) y (dt / (m + 1 : ℕ))).map fun dy => y + dy) none = none := by
      intro l
      induction l with
      | nil => rfl
      | cons a l ih => simpa using ih
    exact this _
  obtain ⟨j, -, hj, -, -⟩ := launcher_spec (func c P Q) dt (Q c.mV / Q 0) steps fuel hs hf
  refine ⟨setAt c.mV 0 Q, ?_, by simp [setAt]⟩
  unfold odeNumerical
  simp only [hr, hl, if_true, not_lt.mpr h2, if_false]
  rw [hj, hrk _ (Nat.mul_pos hs (by positivity))]
  simp [max0]

/-- The ignition term in expansion: with a fractional exponent the rate is not a number.  The material is the sample with
`x = 1/2`, at half of its reference density and completely unburnt, where nothing should react. -/
theorem expansion_burns (steps fuel : Nat) (dt : ℝ) (hs : 1 ≤ steps) (hf : 7 ≤ fuel) :
    ∃ (P : Par) (Q Q' : St), P.reaction = 2 ∧ Q 0 = P.ρ0 / 2 ∧ Q (cfgOf true).mV / Q 0 = 1 ∧
      odeNumerical (cfgOf true) P steps fuel dt Q = some Q' ∧ Q' (cfgOf true).mV = 0 := by
  let P : Par := { samplePar sample with reaction := 2, x := 1 / 2, φI := 1 }
  let Q : St := fun _ => 1 / 2
  have h : reactionRate (cfgOf true) P Q = none := by
    have hx : powN (1 / 2 / (sample.ρ0) - 1 - 0) (1 / 2) = none := by
      unfold powN
      rw [if_pos]
      refine ⟨by norm_num [sample], ?_⟩
      rintro ⟨k, hk⟩
      have h2 : (1 : ℝ) = ((2 * k : ℤ) : ℝ) := by push_cast; linarith
      have h3 : (1 : ℤ) = 2 * k := by exact_mod_cast h2
      omega
    have hφ : (1 - min (max 0 ((1 / 2 : ℝ) / (1 / 2))) 1) < 1 := by norm_num
    simp only [reactionRate, P, Q, samplePar, ignitionGrowth, ignition]
    norm_num
    norm_num at hx
    rw [hx]
    simp
  obtain ⟨Q', h1, h2⟩ := nan_burns (cfgOf true) P steps fuel dt Q hs hf (by norm_num [Q]) (by norm_num [Q])
    (by norm_num [P]) (by norm_num [P]) h
  exact ⟨P, Q, Q', rfl, by norm_num [P, Q, samplePar, sample], by norm_num [Q], h1, h2⟩

/-- A discrete reaction above its ignition temperature, from the unburnt state over one time constant and with one step,
leaves three eighths of the reactant. -/
example : ∃ Q', odeNumerical (cfgOf true) { samplePar sample with reaction := 0, Qc := 0, Ti := 0 } 1 7 1
    (setAt 14 1 stateAtRest) = some Q' ∧ Q' 14 = 3 / 8 := by
  have hT : ∀ l, 0 < temperature (cfgOf true) { samplePar sample with reaction := 0, Qc := 0, Ti := 0 }
      (setAt 14 l stateAtRest) := by
    intro l
    have h3 : E3 (vel (setAt 14 l stateAtRest)) = 0 := by simp [E3, sq3, vel, getRv, stateAtRest, setAt]
    have h4 : getA (setAt 14 l stateAtRest) = getA stateAtRest := by
      ext i j
      simp only [getA, Matrix.of_apply, setAt]
      rw [if_neg (by omega)]
    norm_num [temperature, temperatureMG, phi, pRef, pressure, pressureMG, eRef, gammaMG, internalEnergy, h3, h4, E2A,
      rest_devGsq, ER, samplePar, sample, cfgOf, Cfg.mV]
    norm_num [setAt, stateAtRest]
  have hf : ∀ l, 0 ≤ l → func (cfgOf true) { samplePar sample with reaction := 0, Qc := 0, Ti := 0 }
      (setAt 14 1 stateAtRest) l = some (-l) := by
    intro l hl
    have e : setAt (cfgOf true).mV ((setAt 14 1 stateAtRest) 0 * l) (setAt 14 1 stateAtRest) =
        setAt 14 l stateAtRest := by
      have h14 : (cfgOf true).mV = 14 := rfl
      have h0 : (setAt 14 1 stateAtRest) 0 = 1 := by norm_num [setAt, stateAtRest]
      rw [h14, h0, one_mul]
      funext i
      by_cases hi : i = 14 <;> simp only [setAt, hi, if_true, if_false]
    have e2 : (setAt 14 l stateAtRest) (cfgOf true).mV / (setAt 14 l stateAtRest) 0 = l := by
      simp [setAt, cfgOf, Cfg.mV, stateAtRest]
    rw [func, e, reactionRate]
    simp only [e2, max_eq_right hl, hT l, if_true, Option.map_some]
    norm_num [samplePar]
  have e0 : (setAt 14 1 stateAtRest) (cfgOf true).mV / (setAt 14 1 stateAtRest) 0 = 1 := by
    simp [setAt, cfgOf, Cfg.mV, stateAtRest]
  have hrk : rungeKutta (func (cfgOf true) { samplePar sample with reaction := 0, Qc := 0, Ti := 0 }
      (setAt 14 1 stateAtRest)) 1 1 1 = some (3 / 8) := by
    simp only [rungeKutta, List.range_one, List.foldl_cons, List.foldl_nil, Option.bind_some, rk4, Option.bind_eq_bind,
      Option.pure_def, Nat.cast_one, div_one]
    rw [hf 1 (by norm_num), Option.bind_some, hf _ (by norm_num), Option.bind_some, hf _ (by norm_num), Option.bind_some,
      hf _ (by norm_num)]
    norm_num
  refine ⟨setAt 14 (3 / 8) (setAt 14 1 stateAtRest), ?_, by simp [setAt]⟩
  unfold odeNumerical
  simp only [e0]
  norm_num [launcher, hrk, retry, max0]
  norm_num [setAt, stateAtRest, cfgOf, Cfg.mV]

end

end Verif.Relax
