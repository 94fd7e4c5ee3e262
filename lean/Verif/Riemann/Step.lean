import Verif.Riemann.Model
import Verif.Rot.Props
import Verif.Sys.Convert

/-!
# One step of the interface solver
-/

namespace Verif.Riemann

open Verif.Sys Verif.Eig Verif.Rot

/-! ### The conversions, entry by entry -/

section
variable (c : Cfg) (M : Par) (P Q : St) (hv : c.viscous = true)

include hv in
theorem p2c_zero : pvecToCvec c M P 0 = P 0 := by
  have := mV_ge c hv
  simp only [pvecToCvec]
  split_ifs <;> simp [setAt, setSeg, setA, show (0 : Nat) ≠ c.mV by omega]

include hv in
theorem p2c_vel (k : Fin 3) : pvecToCvec c M P (2 + k) = P 0 * P (11 + k) := by
  have := mV_ge c hv
  simp only [pvecToCvec]
  split_ifs <;> fin_cases k <;>
    simp [setAt, setSeg, setA, show (2 : Nat) ≠ c.mV by omega, show (3 : Nat) ≠ c.mV by omega,
      show (4 : Nat) ≠ c.mV by omega]

include hv in
theorem p2c_A : getA (pvecToCvec c M P) = Matrix.of fun i j : Fin 3 => P (2 + 3 * j + i) := by
  have := mV_ge c hv
  have h : ∀ k, k < 14 → k ≠ c.mV := fun k hk => by omega
  ext i j
  simp only [pvecToCvec, getA, Matrix.of_apply]
  split_ifs <;> fin_cases i <;> fin_cases j <;>
    simp [setAt, setSeg, setA, h]

include hv in
theorem p2c_J (ht : c.thermal = true) (k : Fin 3) : pvecToCvec c M P (14 + k) = P (14 + k) * P 0 := by
  have := mV_thermal c hv ht
  simp only [pvecToCvec, ht, if_true, this]
  split_ifs <;> fin_cases k <;> simp [setAt, setSeg, setA]

include hv in
theorem p2c_mass (hm : c.multi = true) : pvecToCvec c M P c.mV = P c.mV * P 0 := by
  have := mV_ge c hv
  have h : ∀ k, k < 14 → c.mV ≠ k := fun k hk => by omega
  by_cases ht : c.thermal = true
  · have h17 := mV_thermal c hv ht
    simp [pvecToCvec, hm, ht, h17, setAt, setSeg, setA]
  · simp [pvecToCvec, hm, ht, setAt, setSeg, setA, h]

include hv in
theorem p2c_rest (i : Nat) (hi : c.mV + (if c.multi then 1 else 0) ≤ i) : pvecToCvec c M P i = P i := by
  have := mV_ge c hv
  have h : ∀ k, k < 14 → i ≠ k := fun k hk => by split_ifs at hi <;> omega
  have h2 : c.multi = true → i ≠ c.mV := fun hm => by rw [if_pos hm] at hi; omega
  have hk : c.thermal = true → ∀ k, k < 17 → i ≠ k := fun ht k hk => by
    have h17 := mV_thermal c hv ht
    split_ifs at hi <;> omega
  by_cases ht : c.thermal = true <;> by_cases hm : c.multi = true
  · simp [pvecToCvec, ht, hm, setAt, setSeg, setA, hk ht, h2 hm]
  · simp [pvecToCvec, ht, hm, setAt, setSeg, setA, hk ht]
  · simp [pvecToCvec, ht, hm, setAt, setSeg, setA, h, h2 hm]
  · simp [pvecToCvec, ht, hm, setAt, setSeg, setA, h]

include hv in
theorem p2c_energy : pvecToCvec c M P 1 = P 0 * totalEnergy M (P 0) (P 1) (Matrix.of fun i j : Fin 3 => P (2 + 3 * j + i))
    (if c.thermal then some fun i => P (14 + i) else none) (fun i => P (11 + i))
    (if M.reaction > -1 then some ((pvecToCvec c M P c.mV) / P 0) else none) := by
  have h14 := mV_ge c hv
  have h : ∀ k, k < 14 → c.mV ≠ k := fun k hk => by omega
  have h' : ∀ k, k < 14 → k ≠ c.mV := fun k hk => by omega
  have e14 : ∀ (k : Nat) (i : Fin 3), k < 14 → 14 + i.1 ≠ k := fun k i hk => by omega
  simp only [pvecToCvec]
  by_cases ht : c.thermal = true
  · have h17 := mV_thermal c hv ht
    by_cases hm : c.multi = true
    · have e : ∀ k : Fin 3, (14 + k.1 ≠ 17) := fun k => by omega
      simp [ht, hm, setAt, setSeg, setA, h17, e, e14]
    · simp [ht, hm, setAt, setSeg, setA, h17, e14]
  · by_cases hm : c.multi = true
    · simp [ht, hm, setAt, setSeg, setA, h, h']
    · simp [ht, hm, setAt, setSeg, setA, h, h']

include hv in
/-- The pressure of a state made from primitive variables is the one it was made from. -/
theorem p2c_pressure (hm : M.multi = false) (hρ : P 0 ≠ 0) (hΓ : gammaMG M.toParams (P 0) ≠ 0) :
    pressure c M (pvecToCvec c M P) = P 1 := by
  have h0 := p2c_zero c M P hv
  have h1 := p2c_energy c M P hv
  have hA := p2c_A c M P hv
  have hvel : vel (pvecToCvec c M P) = fun i : Fin 3 => P (11 + i) := by
    funext i
    simp only [vel, getRv, h0, p2c_vel c M P hv]
    field_simp
  simp only [pressure, hm, Bool.false_eq_true, if_false, h0]
  have : internalEnergy c M (pvecToCvec c M P) = E1 M.toParams (P 0) (P 1) := by
    simp only [internalEnergy, hv, if_true, h0, h1, hA, hvel, totalEnergy]
    by_cases ht : c.thermal = true
    · have hJ : (fun i : Fin 3 => getRJ (pvecToCvec c M P) i / P 0) = fun i : Fin 3 => P (14 + i) := by
        funext i
        simp only [getRJ, p2c_J c M P hv ht]
        field_simp
      simp only [ht, if_true, hJ]
      split_ifs <;> field_simp <;> ring
    · simp only [ht, Bool.false_eq_true, if_false]
      split_ifs <;> field_simp <;> ring
  rw [this, pressure_E1 _ _ _ hρ hΓ]

include hv in
theorem c2p_zero : cvecToPvec c M Q 0 = Q 0 := by
  rw [c2p_lo c hv _ _ _ (by norm_num)]; simp [setSeg, setAt]

include hv in
theorem c2p_one : cvecToPvec c M Q 1 = pressure c M Q := by
  rw [c2p_lo c hv _ _ _ (by norm_num)]; simp [setSeg, setAt]

include hv in
theorem c2p_A (i j : Fin 3) : cvecToPvec c M Q (2 + 3 * j + i) = getA Q i j := by
  rw [c2p_lo c hv _ _ _ (by omega)]
  fin_cases i <;> fin_cases j <;> simp [setSeg, setAt]

include hv in
theorem c2p_vel (k : Fin 3) : cvecToPvec c M Q (11 + k) = vel Q k := by
  rw [c2p_lo c hv _ _ _ (by omega)]
  fin_cases k <;> simp [setSeg, setAt, vel]

end

/-- The two conversions in the other order. -/
theorem c2p_p2c (c : Cfg) (M : Par) (P : St) (hv : c.viscous = true) (hm : M.multi = false) (hρ : P 0 ≠ 0)
    (hΓ : gammaMG M.toParams (P 0) ≠ 0) : cvecToPvec c M (pvecToCvec c M P) = P := by
  have h14 := mV_ge c hv
  have h17 := mV_thermal c hv
  have h0 := p2c_zero c M P hv
  funext i
  rcases Nat.lt_or_ge i 14 with hi | hi
  · rcases Nat.lt_or_ge i 2 with h2 | h2
    · interval_cases i
      · rw [c2p_zero c M _ hv, h0]
      · rw [c2p_one c M _ hv, p2c_pressure c M P hv hm hρ hΓ]
    · rcases Nat.lt_or_ge i 11 with h3 | h3
      · have e : i = 2 + 3 * (⟨(i - 2) / 3, by omega⟩ : Fin 3).1 + (⟨(i - 2) % 3, by omega⟩ : Fin 3).1 := by
          simp only; omega
        rw [e, c2p_A c M _ hv, p2c_A c M P hv, Matrix.of_apply]
      · have e : i = 11 + (⟨i - 11, by omega⟩ : Fin 3).1 := by simp only; omega
        rw [e, c2p_vel c M _ hv, vel, getRv, p2c_vel c M P hv, h0]
        field_simp
  · rw [c2p_hi c hv _ _ _ hi]
    classical
    rw [pvec_other c hv _ _ _ (by omega), h0]
    by_cases hJ : c.thermal = true ∧ i < 17
    · have e : i = 14 + (⟨i - 14, by omega⟩ : Fin 3).1 := by simp only; omega
      rw [if_pos (show Scaled c i from Or.inr (Or.inl ⟨hJ.1, hi, hJ.2⟩)), e, p2c_J c M P hv hJ.1]
      field_simp
    · by_cases hl : c.multi = true ∧ i = c.mV
      · rw [if_pos (show Scaled c i from Or.inr (Or.inr hl)), hl.2, p2c_mass c M P hv hl.1]
        field_simp
      · rw [if_neg, p2c_rest c M P hv]
        · by_cases hm : c.multi = true
          · rw [if_pos hm]
            have : i ≠ c.mV := fun h => hl ⟨hm, h⟩
            by_cases ht : c.thermal = true
            · have := h17 ht
              have : ¬ i < 17 := fun h => hJ ⟨ht, h⟩
              omega
            · have : c.mV = 14 := by simp [Cfg.mV, hv, ht]
              omega
          · rw [if_neg hm]
            by_cases ht : c.thermal = true
            · have := h17 ht
              have : ¬ i < 17 := fun h => hJ ⟨ht, h⟩
              omega
            · have : c.mV = 14 := by simp [Cfg.mV, hv, ht]
              omega
        · rintro (h | h | h)
          · omega
          · exact hJ ⟨h.1, h.2.2⟩
          · exact hl h

/-! ### One side -/

section
variable (c : Cfg) (P : Par) (R : Hat c) (x : Fin (n1 c) → ℝ) (Q : St) (hv : c.viscous = true)

/-- The density after the step. -/
theorem shift_dens (hv : c.viscous = true) : shift c P R x Q 0 = Q 0 + R.top.mulVec x 0 := by
  rw [shift, p2c_zero c P _ hv, move, dif_pos (by norm_num), c2p_zero c P Q hv]
  rfl

/-- The momentum after the step belongs to the velocity `v + R c`. -/
theorem shift_mom (hv : c.viscous = true) (k : Fin 3) :
    shift c P R x Q (2 + k) = shift c P R x Q 0 * (vel Q k + R.vel.mulVec x (k.castLE (three_le c))) := by
  have h3 := three_le c
  rw [shift, p2c_zero c P _ hv, p2c_vel c P _ hv]
  congr 1
  rw [move, dif_neg (by omega), dif_pos ⟨by omega, by omega⟩, c2p_vel c P Q hv]
  congr 2
  ext
  simp

/-- The first component of the thermal impulse after the step. -/
theorem shift_J (hv : c.viscous = true) (ht : c.thermal = true) : shift c P R x Q 14 =
    shift c P R x Q 0 * (Q 14 / Q 0 + R.vel.mulVec x ⟨n1 c - 1, by have := three_le c; omega⟩) := by
  have hn : n1 c = 4 := by unfold n1; rw [ht]; rfl
  have hJ := p2c_J c P (move c R x (cvecToPvec c P Q)) hv ht 0
  simp only [Fin.val_zero, Nat.add_zero] at hJ
  rw [shift, p2c_zero c P _ hv, hJ, mul_comm]
  congr 1
  rw [move, dif_neg (by omega), dif_pos ⟨by omega, by omega⟩, c2p_hi c hv _ _ _ le_rfl]
  classical
  rw [pvec_other c hv _ _ _ (by omega), if_pos (show Scaled c 14 from Or.inr (Or.inl ⟨ht, by omega, by omega⟩))]
  congr 2
  ext
  simp [hn]

/-- The first column of the distortion after the step. -/
theorem shift_A (hv : c.viscous = true) (i j : Fin 3) : getA (shift c P R x Q) i j =
    getA Q i j + if j = 0 then R.top.mulVec x ⟨2 + i, by omega⟩ else 0 := by
  have h3 := three_le c
  rw [shift, p2c_A c P _ hv, Matrix.of_apply]
  have e := c2p_A c P Q hv i j
  by_cases hj : j = 0
  · subst hj
    simp only [Fin.val_zero, Nat.mul_zero, Nat.add_zero] at e ⊢
    rw [move, dif_pos (by omega), e]
    simp
  · have : j.1 ≠ 0 := fun h => hj (Fin.ext h)
    rw [move, dif_neg (by omega), dif_neg (by omega), e, if_neg hj, add_zero]

/-- The pressure after the step. -/
theorem shift_pressure (hv : c.viscous = true) (hm : P.multi = false) (hρ : shift c P R x Q 0 ≠ 0)
    (hΓ : gammaMG P.toParams (shift c P R x Q 0) ≠ 0) :
    pressure c P (shift c P R x Q) = pressure c P Q + R.top.mulVec x 1 := by
  have e := p2c_zero c P (move c R x (cvecToPvec c P Q)) hv
  rw [shift, e] at hρ hΓ
  rw [shift, p2c_pressure c P _ hv hm hρ hΓ, move, dif_pos (by norm_num), c2p_one c P Q hv]
  rfl

theorem mV_ge' (hv : c.viscous = true) : 11 + n1 c ≤ c.mV := by
  unfold n1 Cfg.mV; rw [hv, if_pos rfl]; split_ifs <;> omega

/-- The mass fraction and the level sets are kept. -/
theorem shift_rest (hv : c.viscous = true) :
    (c.multi = true → shift c P R x Q c.mV = Q c.mV / Q 0 * shift c P R x Q 0) ∧
    ∀ i, c.mV + (if c.multi then 1 else 0) ≤ i → shift c P R x Q i = Q i := by
  have h14 := mV_ge c hv
  have hn := mV_ge' c hv
  have hmove : ∀ i, c.mV ≤ i → move c R x (cvecToPvec c P Q) i = cvecToPvec c P Q i := fun i hi => by
    rw [move, dif_neg (by omega), dif_neg (by omega)]
  constructor
  · intro hm
    rw [shift, p2c_zero c P _ hv, p2c_mass c P _ hv hm, hmove _ le_rfl, c2p_hi c hv _ _ _ h14, pvec_lam c hv hm]
  · intro i hi
    have hi' : c.mV ≤ i := by split_ifs at hi <;> omega
    rw [shift, p2c_rest c P _ hv i hi, hmove i hi', c2p_hi c hv _ _ _ (by omega)]
    classical
    rw [pvec_other c hv _ _ _ (by omega), if_neg]
    rintro (h | h | h)
    · omega
    · have := mV_thermal c hv h.1; omega
    · rw [if_pos h.1] at hi; omega

/-- A step of length zero changes nothing. -/
theorem shift_zero (hv : c.viscous = true) (hm : P.multi = false) (hρ : Q 0 ≠ 0)
    (hΓ : gammaMG P.toParams (Q 0) ≠ 0) : shift c P R 0 Q = Q := by
  have : move c R 0 (cvecToPvec c P Q) = cvecToPvec c P Q := by
    funext i
    unfold move
    split_ifs <;> simp
  rw [shift, this, p2c_c2p c P Q hv hm hρ hΓ]

end

/-! ### Both sides (C57) -/

theorem stepper_some {c : Cfg} {stick : Bool} {S : Solvers} {junk : Fin 2 → Fin (n1 c) → ℝ} {PL PR : Par} {s s' : St × St}
    (h : starStepper c stick S junk PL (some PR) s = some s') : ∃ RL RR x, constraints c PL S 1 s.1 = some RL ∧
      constraints c PR S (-1) s.2 = some RR ∧
      (if stick then stickBcs c RL RR s.1 s.2 (tractions c PL s.1) (tractions c PR s.2)
        else slipBcs c junk RL RR s.1 s.2 (tractions c PL s.1) (tractions c PR s.2)) = some x ∧
      s' = (shift c PL RL (x - tractions c PL s.1) s.1, shift c PR RR (x - tractions c PR s.2) s.2) := by
  unfold starStepper at h
  obtain ⟨RL, hL, h⟩ := Option.bind_eq_some_iff.1 h
  simp only at h
  obtain ⟨RR, hR, h⟩ := Option.bind_eq_some_iff.1 h
  obtain ⟨x, hx, h⟩ := Option.map_eq_some_iff.1 h
  exact ⟨RL, RR, x, hL, hR, hx, h.symm⟩

/-- **C57, sticking materials**: after a step both sides move with the same velocity; with heat conduction they also have the
same normal thermal impulse. -/
theorem stick_velocity (c : Cfg) (S : Solvers) (junk : Fin 2 → Fin (n1 c) → ℝ) (PL PR : Par) (s s' : St × St)
    (hv : c.viscous = true) (h : starStepper c true S junk PL (some PR) s = some s') :
    (∃ u : V3, ∀ k : Fin 3, s'.1 (2 + k) = s'.1 0 * u k ∧ s'.2 (2 + k) = s'.2 0 * u k) ∧
    (c.thermal = true → ∃ j, s'.1 14 = s'.1 0 * j ∧ s'.2 14 = s'.2 0 * j) := by
  obtain ⟨RL, RR, x, -, -, hx, rfl⟩ := stepper_some h
  rw [if_pos rfl] at hx
  unfold stickBcs at hx
  split_ifs at hx with hd
  simp only [Option.some.injEq] at hx
  have hx : (RL.vel - RR.vel).mulVec x = velocities c s.2 - velocities c s.1 + RL.vel.mulVec (tractions c PL s.1) -
      RR.vel.mulVec (tractions c PR s.2) := by
    rw [← hx, Matrix.mulVec_mulVec, Matrix.mul_nonsing_inv _ (isUnit_iff_ne_zero.2 hd), Matrix.one_mulVec]
  have key : ∀ i, velocities c s.1 i + RL.vel.mulVec (x - tractions c PL s.1) i =
      velocities c s.2 i + RR.vel.mulVec (x - tractions c PR s.2) i := by
    intro i
    have := congrFun hx i
    simp only [Matrix.sub_mulVec, Matrix.mulVec_sub, Pi.sub_apply, Pi.add_apply] at this ⊢
    linear_combination this
  have h3 := three_le c
  refine ⟨⟨fun k => vel s.1 k + RL.vel.mulVec (x - tractions c PL s.1) (k.castLE h3), fun k =>
    ⟨shift_mom c PL RL _ s.1 hv k, ?_⟩⟩, fun ht => ⟨s.1 14 / s.1 0 + RL.vel.mulVec (x - tractions c PL s.1)
      ⟨n1 c - 1, by omega⟩, shift_J c PL RL _ s.1 hv ht, ?_⟩⟩
  · have := key (k.castLE h3)
    simp only [velocities, Fin.val_castLE, Fin.is_lt, dif_pos, Fin.eta] at this
    dsimp only
    rw [shift_mom c PR RR _ s.2 hv k, this]
  · have hn : n1 c = 4 := by unfold n1; rw [ht]; rfl
    have := key ⟨n1 c - 1, by omega⟩
    simp only [velocities, hn] at this
    norm_num at this
    dsimp only
    rw [shift_J c PR RR _ s.2 hv ht]
    simp only [hn]
    rw [this]

/-- **C57, slipping materials**: after a step both sides have the same normal velocity. -/
theorem slip_velocity_partial (c : Cfg) (S : Solvers) (junk : Fin 2 → Fin (n1 c) → ℝ) (PL PR : Par) (s s' : St × St)
    (hv : c.viscous = true) (ht : c.thermal = false) (h : starStepper c false S junk PL (some PR) s = some s') :
    ∃ u, s'.1 2 = s'.1 0 * u ∧ s'.2 2 = s'.2 0 * u := by
  obtain ⟨RL, RR, x, -, -, hx, rfl⟩ := stepper_some h
  rw [if_neg (by simp)] at hx
  unfold slipBcs at hx
  rw [if_neg (by simp [ht])] at hx
  split_ifs at hx with hd
  simp only [Option.some.injEq] at hx
  have h3 := three_le c
  have hdot : ∀ r : Fin (n1 c) → ℝ, dotProduct r x = r ⟨0, by omega⟩ * x ⟨0, by omega⟩ := by
    intro r
    unfold dotProduct
    rw [Finset.sum_eq_single ⟨0, by omega⟩ _ (fun h => absurd (Finset.mem_univ _) h)]
    intro i _ hi
    rw [← hx]
    dsimp only
    rw [if_neg, mul_zero]
    exact fun e => hi (Fin.ext e)
  have hx0 : x ⟨0, by omega⟩ * (row0 c RL ⟨0, by omega⟩ - row0 c RR ⟨0, by omega⟩) = s.2 2 / s.2 0 - s.1 2 / s.1 0 +
      dotProduct (row0 c RL) (tractions c PL s.1) - dotProduct (row0 c RR) (tractions c PR s.2) := by
    rw [← hx]
    dsimp only
    rw [if_pos rfl]
    exact div_mul_cancel₀ _ hd
  have e0 := shift_mom c PL RL (x - tractions c PL s.1) s.1 hv 0
  have e1 := shift_mom c PR RR (x - tractions c PR s.2) s.2 hv 0
  simp only [Fin.val_zero, Nat.add_zero] at e0 e1
  refine ⟨_, e0, ?_⟩
  dsimp only
  rw [e1]
  congr 1
  have f : ∀ (R : Hat c) (z : Fin (n1 c) → ℝ), R.vel.mulVec z ((0 : Fin 3).castLE h3) = dotProduct (row0 c R) z :=
    fun R z => rfl
  rw [f, f, dotProduct_sub, dotProduct_sub, hdot, hdot]
  simp only [vel, getRv, Fin.val_zero, Nat.add_zero]
  linear_combination -hx0

/-- **C57 fails for slipping heat-conducting materials**: `slip_bcs` ignores the wave matrix of the material on the left, uses
whatever the storage of the other one holds, and the traction it returns need not give both sides the same normal
velocity. -/
theorem slip_thermal_false (c : Cfg) (ht : c.thermal = true) :
    (∀ (RL RL' RR : Hat c) (junk : Fin 2 → Fin (n1 c) → ℝ) (QL QR : St) (xL xR : Fin (n1 c) → ℝ),
      slipBcs c junk RL RR QL QR xL xR = slipBcs c junk RL' RR QL QR xL xR) ∧
    ∃ (RL RR : Hat c) (junk : Fin 2 → Fin (n1 c) → ℝ) (QL QR : St) (xL xR x : Fin (n1 c) → ℝ),
      slipBcs c junk RL RR QL QR xL xR = some x ∧
      vel QL 0 + RL.vel.mulVec (x - xL) ((0 : Fin 3).castLE (three_le _)) ≠
        vel QR 0 + RR.vel.mulVec (x - xR) ((0 : Fin 3).castLE (three_le _)) := by
  have h3 := three_le c
  have hne : (⟨0, by omega⟩ : Fin (n1 c)) ≠ ⟨n1 c - 1, by omega⟩ := by
    rw [Ne, Fin.mk.injEq]; omega
  refine ⟨fun RL RL' RR junk QL QR xL xR => ?_, ⟨0, 0⟩, ⟨0, 1⟩, 0, stateAtRest, stateAtRest, 0,
    Pi.single ⟨0, by omega⟩ 1, 0, ?_, ?_⟩
  · unfold slipBcs
    rw [if_pos ht, if_pos ht]
  · have hM : (Matrix.of fun i j : Fin 2 =>
        (Matrix.of ![row0 c ⟨0, 1⟩, rowJ c ⟨0, 1⟩] : Matrix (Fin 2) (Fin (n1 c)) ℝ) i
          (if j = 0 then ⟨0, by omega⟩ else ⟨n1 c - 1, by omega⟩) - (0 : ℝ) : Matrix (Fin 2) (Fin 2) ℝ) = 1 := by
      ext i j
      fin_cases i <;> fin_cases j <;> simp [row0, rowJ, Matrix.one_apply] <;> omega
    have h0 : (Matrix.of (0 : Fin 2 → Fin (n1 c) → ℝ)) = 0 := rfl
    unfold slipBcs
    rw [if_pos ht]
    dsimp only
    rw [if_neg]
    · rw [h0, Matrix.zero_mulVec, Matrix.mulVec_zero, sub_self, add_zero, sub_zero]
      simp only [Matrix.mulVec_zero, Pi.zero_apply, ite_self]
      rfl
    · intro h
      have e := (congrArg Matrix.det hM).symm.trans h
      simp at e
  · have : (0 : Fin 3).castLE h3 = ⟨0, by omega⟩ := rfl
    simp [this]

/-- **C57, interface at rest**: sticking materials with equal velocities and tractions (and equal temperatures and impulses)
are left alone. -/
theorem stick_fixed (c : Cfg) (S : Solvers) (junk : Fin 2 → Fin (n1 c) → ℝ) (PL PR : Par) (s s' : St × St)
    (hv : c.viscous = true) (hL : PL.multi = false) (hR : PR.multi = false)
    (hρL : s.1 0 ≠ 0) (hΓL : gammaMG PL.toParams (s.1 0) ≠ 0) (hρR : s.2 0 ≠ 0) (hΓR : gammaMG PR.toParams (s.2 0) ≠ 0)
    (hvel : vel s.1 = vel s.2) (htr : SigmaCol c PL s.1 0 = SigmaCol c PR s.2 0)
    (hT : c.thermal = true → temperature c PL s.1 = temperature c PR s.2 ∧ s.1 14 / s.1 0 = s.2 14 / s.2 0)
    (h : starStepper c true S junk PL (some PR) s = some s') : s' = s := by
  obtain ⟨RL, RR, x, -, -, hx, rfl⟩ := stepper_some h
  rw [if_pos rfl] at hx
  unfold stickBcs at hx
  split_ifs at hx with hd
  simp only [Option.some.injEq] at hx
  have ht : tractions c PL s.1 = tractions c PR s.2 := by
    funext i
    unfold tractions
    split_ifs with hi
    · rw [htr]
    · refine (hT ?_).1
      by_contra hc
      have := i.2
      have hn : n1 c = 3 := by unfold n1; rw [if_neg hc]
      omega
  have hy : velocities c s.1 = velocities c s.2 := by
    funext i
    unfold velocities
    split_ifs with hi
    · rw [hvel]
    · refine (hT ?_).2
      by_contra hc
      have := i.2
      have hn : n1 c = 3 := by unfold n1; rw [if_neg hc]
      omega
  have hx : x = tractions c PR s.2 := by
    rw [← hx, ht, hy, sub_self, zero_add, ← Matrix.sub_mulVec, Matrix.mulVec_mulVec,
      Matrix.nonsing_inv_mul _ (isUnit_iff_ne_zero.2 hd), Matrix.one_mulVec]
  rw [hx, ht, sub_self, shift_zero c PL RL s.1 hv hL hρL hΓL, shift_zero c PR RR s.2 hv hR hρR hΓR]

/-- **C57, interface at rest**: slipping materials with equal normal velocities, equal normal tractions and no tangential
traction are left alone. -/
theorem slip_fixed (c : Cfg) (S : Solvers) (junk : Fin 2 → Fin (n1 c) → ℝ) (PL PR : Par) (s s' : St × St)
    (hv : c.viscous = true) (ht : c.thermal = false) (hL : PL.multi = false) (hR : PR.multi = false)
    (hρL : s.1 0 ≠ 0) (hΓL : gammaMG PL.toParams (s.1 0) ≠ 0) (hρR : s.2 0 ≠ 0) (hΓR : gammaMG PR.toParams (s.2 0) ≠ 0)
    (hvel : vel s.1 0 = vel s.2 0) (htr : SigmaCol c PL s.1 0 = SigmaCol c PR s.2 0)
    (h1 : SigmaCol c PL s.1 0 1 = 0) (h2 : SigmaCol c PL s.1 0 2 = 0)
    (h : starStepper c false S junk PL (some PR) s = some s') : s' = s := by
  obtain ⟨RL, RR, x, -, -, hx, rfl⟩ := stepper_some h
  rw [if_neg (by simp)] at hx
  unfold slipBcs at hx
  rw [if_neg (by simp [ht])] at hx
  split_ifs at hx with hd
  simp only [Option.some.injEq] at hx
  have h3 := three_le c
  have hn : n1 c = 3 := by unfold n1; rw [ht]; rfl
  have htt : tractions c PL s.1 = tractions c PR s.2 := by
    funext i
    have := i.2
    unfold tractions
    rw [dif_pos (by omega), dif_pos (by omega), htr]
  have htan : ∀ i : Fin (n1 c), i.1 ≠ 0 → tractions c PR s.2 i = 0 := by
    intro i hi
    rw [← htt]
    have := i.2
    unfold tractions
    rw [dif_pos (by omega)]
    rcases (show i.1 = 1 ∨ i.1 = 2 by omega) with e | e
    · simp only [e]; exact h1
    · simp only [e]; exact h2
  have hdot : ∀ r : Fin (n1 c) → ℝ, dotProduct r (tractions c PR s.2) =
      r ⟨0, by omega⟩ * tractions c PR s.2 ⟨0, by omega⟩ := by
    intro r
    unfold dotProduct
    rw [Finset.sum_eq_single ⟨0, by omega⟩ _ (fun h => absurd (Finset.mem_univ _) h)]
    intro i _ hi
    rw [htan i (fun e => hi (Fin.ext e)), mul_zero]
  have hvel' : s.1 2 / s.1 0 = s.2 2 / s.2 0 := hvel
  have hx : x = tractions c PR s.2 := by
    funext i
    rw [← hx]
    dsimp only
    by_cases hi : i.1 = 0
    · rw [if_pos hi, htt, hdot, hdot, hvel', sub_self, zero_add, ← sub_mul, mul_comm, mul_div_assoc, div_self hd, mul_one]
      congr 1
      exact Fin.ext hi.symm
    · rw [if_neg hi, htan i hi]
  rw [hx, htt, sub_self, shift_zero c PL RL s.1 hv hL hρL hΓL, shift_zero c PR RR s.2 hv hR hρR hΓR]

end Verif.Riemann
