import Verif.Relax.Boost
import Verif.Riemann.Star

/-!
# C99: the states at a material interface for a moving observer
-/

namespace Verif.Riemann

open Verif.Sys Verif.Eig Verif.Rot Verif.Relax

noncomputable section

attribute [local instance] Classical.propDecidable

variable (c : Cfg) (P : Par) (S : Solvers) (w : V3) {Q : St}

theorem boost_c0 (hρ : Q 0 ≠ 0) : c0 c P (boost w Q) = c0 c P Q := by
  unfold c0
  rw [boost_pressure c P w hρ, boost_dEdrho c P w hρ, boost_dEdp c P w hρ, boost_0]

theorem boost_X1 (hρ : Q 0 ≠ 0) : X1 c P (boost w Q) = X1 c P Q := by
  unfold X1
  rw [boost_xi1 c P w hρ]

theorem boost_X2 (hρ : Q 0 ≠ 0) : X2 c P (boost w Q) = X2 c P Q := by
  unfold X2
  rw [boost_xi2 c P w hρ]

theorem boost_matB (hρ : Q 0 ≠ 0) : matB c P (boost w Q) = matB c P Q := by
  unfold matB
  rw [boost_0, boost_sigmaCol, boost_dsigmadrho, boost_c0 c P w hρ]

theorem boost_rhs (Q : St) : rhs P (boost w Q) = rhs P Q := by
  unfold rhs
  rw [boost_dsigmadrho]

theorem boost_matZ (hρ : Q 0 ≠ 0) : matZ c P (boost w Q) = matZ c P Q := by
  unfold matZ
  rw [boost_matB c P w hρ, boost_rhs, boost_A, boost_dsigmadAd]

theorem boost_matW (hρ : Q 0 ≠ 0) : matW c P (boost w Q) = matW c P Q := by
  unfold matW
  rw [boost_matB c P w hρ, boost_A]

theorem boost_system (hρ : Q 0 ≠ 0) : system c P (boost w Q) = system c P Q := by
  unfold system
  rw [boost_matZ c P w hρ, boost_matW c P w hρ, boost_A, boost_dsigmadAd, boost_dsigmadrho, boost_0, boost_pressure c P w hρ]

theorem boost_pi1 (Q : St) : pi1 P (boost w Q) = pi1 P Q := by
  unfold pi1
  rw [boost_A, boost_0]

theorem boost_defined (hρ : Q 0 ≠ 0) : Defined c P S (boost w Q) ↔ Defined c P S Q := by
  have e0 := boost_0 w Q
  have e1 := boost_dEdp c P w hρ
  have e2 := boost_pressure c P w hρ
  have e3 := boost_dEdrho c P w hρ
  have e4 := boost_A w Q
  have e5 := boost_pi1 P w Q
  have e6 := boost_dsigmadAd w Q P.toParams
  have e7 := boost_matZ c P w hρ
  have e8 := boost_dsigmadrho w Q P.toParams
  have e9 := boost_X1 c P w hρ
  have e10 := boost_X2 c P w hρ
  constructor
  · rintro ⟨a1, a2, a3, a4, a5, a6, a7, a8, a9, a10⟩
    rw [e0] at a1
    rw [e0] at a2
    rw [e1] at a3
    rw [e0, e1, e2, e3] at a4
    rw [e4] at a5
    rw [e5] at a6
    simp only [e6, e7] at a7
    simp only [e0, e2, e4, e5, e8] at a8
    simp only [e9, e10] at a9
    simp only [e9, e10] at a10
    exact ⟨a1, a2, a3, a4, a5, a6, a7, a8, a9, a10⟩
  · rintro ⟨a1, a2, a3, a4, a5, a6, a7, a8, a9, a10⟩
    refine ⟨?_, ?_, ?_, ?_, ?_, ?_, ?_, ?_, ?_, ?_⟩
    · rwa [e0]
    · rwa [e0]
    · rwa [e1]
    · rwa [e0, e1, e2, e3]
    · rwa [e4]
    · rwa [e5]
    · simp only [e6, e7]; exact a7
    · simp only [e0, e2, e4, e5, e8]; exact a8
    · simp only [e9, e10]; exact a9
    · simp only [e9, e10]; exact a10

theorem boost_constraints (sgn : ℝ) (Q : St) : constraints c P S sgn (boost w Q) = constraints c P S sgn Q := by
  by_cases hρ : Q 0 = 0
  · unfold constraints
    rw [if_neg fun h => h.dens (by rw [boost_0, hρ]), if_neg fun h => h.dens hρ]
  have e : matX c P S (boost w Q) = matX c P S Q := by
    unfold matX
    rw [boost_system c P w hρ]
  have f : Y0 c P S (boost w Q) = Y0 c P S Q := by
    unfold Y0
    rw [boost_X1 c P w hρ, boost_X2 c P w hρ]
  unfold constraints
  simp only [boost_defined c P S w hρ, e, f, boost_X1 c P w hρ]

theorem boost_tractions (hρ : Q 0 ≠ 0) : tractions c P (boost w Q) = tractions c P Q := by
  unfold tractions
  rw [boost_SigmaCol c P w hρ, boost_temperature c P w hρ]

theorem boost_velocities (hρ : Q 0 ≠ 0) : velocities c (boost w Q) =
    fun i => velocities c Q i + if h : i.1 < 3 then w ⟨i, h⟩ else 0 := by
  funext i
  unfold velocities
  split_ifs with h
  · exact boost_vel w hρ _
  · rw [boost_0, boost_high w Q 14 (by omega), add_zero]

/-- The velocity in a vector of primitive variables of the interface solver. -/
def gust (w : V3) (p : St) : St := fun k => if h : 11 ≤ k ∧ k < 14 then p k + w ⟨k - 11, by omega⟩ else p k

theorem gust_other (p : St) (k : Nat) (h : k < 11 ∨ 14 ≤ k) : gust w p k = p k := by
  unfold gust
  rw [dif_neg (by omega)]

theorem gust_vel (p : St) (i : Fin 3) : gust w p (11 + i) = p (11 + i) + w i := by
  fin_cases i <;> simp [gust]

theorem boost_pvec (hv : c.viscous = true) (hρ : Q 0 ≠ 0) : cvecToPvec c P (boost w Q) = gust w (cvecToPvec c P Q) := by
  have hm := mV_other c hv (Bool.eq_false_or_eq_true _)
  have hr : ∀ i, getRv (boost w Q) i / Q 0 = getRv Q i / Q 0 + w i := fun i => by rw [boost_rv]; field_simp
  funext k
  unfold cvecToPvec
  simp only [boost_0, boost_A, boost_pressure c P w hρ, hr]
  by_cases h17 : k < 14
  · have hk : k ≠ c.mV := by omega
    cases c.thermal <;> cases c.multi <;> interval_cases k <;> simp [setSeg, setAt, gust, boost_0, hk]
  · rw [gust_other _ _ _ (Or.inr (by omega))]
    have hb : ∀ j, 5 ≤ j → boost w Q j = Q j := boost_high w Q
    have h : ∀ j, j < 14 → k ≠ j := fun j hj => by omega
    have h' : ∀ j, j < 14 → c.mV ≠ j := fun j hj => by omega
    cases c.thermal <;> cases c.multi <;> simp [setSeg, setAt, h, h', hb k (by omega), hb c.mV (by omega), hb 14, hb 15, hb 16]

theorem gust_move (R : Hat c) (x : Fin (n1 c) → ℝ) (p : St) : move c R x (gust w p) = gust w (move c R x p) := by
  have := n1_le c
  have := three_le c
  funext k
  unfold move gust
  by_cases h5 : k < 5
  · rw [dif_pos h5, dif_neg (by omega), dif_neg (by omega)]
    simp only [dif_pos h5]
  · rw [dif_neg h5]
    simp only [dif_neg h5]
    by_cases h : 11 ≤ k ∧ k < 14
    · have h' : 11 ≤ k ∧ k < 11 + n1 c := by omega
      simp only [dif_pos h, dif_pos h']
      ring
    · simp only [dif_neg h]

/-- The energy `Pvec_to_Cvec` stores. -/
def energyOf (c : Cfg) (P : Par) (p : St) : ℝ :=
  p 0 * totalEnergy P (p 0) (p 1) (Matrix.of fun i j : Fin 3 => p (2 + 3 * j + i))
    (if c.thermal then some fun i : Fin 3 => p (14 + i) else none) (fun i => p (11 + i))
    (if P.reaction > -1 then some ((if c.multi then p c.mV * p 0 else p c.mV) / p 0) else none)

/-- `Pvec_to_Cvec`, entry by entry. -/
theorem cvec_form (hv : c.viscous = true) (p : St) (k : Nat) : pvecToCvec c P p k =
    if k = 1 then energyOf c P p else if 2 ≤ k ∧ k < 5 then p 0 * p (9 + k)
    else if 5 ≤ k ∧ k < 14 then setA (Matrix.of fun i j : Fin 3 => p (2 + 3 * j + i)) 0 k
    else if c.thermal = true ∧ 14 ≤ k ∧ k < 17 then p k * p 0
    else if c.multi = true ∧ k = c.mV then p k * p 0 else p k := by
  have hm := mV_other c hv (Bool.eq_false_or_eq_true _)
  have hne : ∀ j, j < 14 → j ≠ c.mV := fun j hj => by omega
  have hne' : ∀ j, j < 14 → c.mV ≠ j := fun j hj => by omega
  have m14 : ∀ (A : M3) (x : V3) (r : St) (k : Nat), 14 ≤ k → setA A (setSeg 2 x r) k = r k := fun A x r k hk => by
    have h : ∀ j, j < 14 → k ≠ j := fun j hj => by omega
    simp [setA, setSeg, setAt, h]
  generalize hAA : (Matrix.of fun i j : Fin 3 => p (2 + 3 * j + i)) = A
  have hl : (if c.multi = true then setAt c.mV (setA A (setSeg 2 (fun i : Fin 3 => p 0 * p (11 + i)) p) c.mV * p 0)
      (setA A (setSeg 2 (fun i : Fin 3 => p 0 * p (11 + i)) p)) else setA A (setSeg 2 (fun i : Fin 3 => p 0 * p (11 + i)) p)) c.mV =
      if c.multi = true then p c.mV * p 0 else p c.mV := by
    split_ifs
    · rw [m14 _ _ _ _ hm.1]; simp [setAt]
    · rw [m14 _ _ _ _ hm.1]
  have hJ : c.thermal = true → ∀ i : Fin 3, (if c.multi = true then setAt c.mV (setA A (setSeg 2 (fun i : Fin 3 => p 0 * p (11 + i)) p) c.mV * p 0)
      (setA A (setSeg 2 (fun i : Fin 3 => p 0 * p (11 + i)) p)) else setA A (setSeg 2 (fun i : Fin 3 => p 0 * p (11 + i)) p)) (14 + i) = p (14 + i) := fun ht i => by
    have h17 := hm.2 ht
    have hi := i.2
    split_ifs
    · simp only [setAt]; rw [if_neg (by omega), m14 _ _ _ _ (by omega)]
    · rw [m14 _ _ _ _ (by omega)]
  have hr : ∀ k, (if c.multi = true then setAt c.mV (setA A (setSeg 2 (fun i : Fin 3 => p 0 * p (11 + i)) p) c.mV * p 0)
      (setA A (setSeg 2 (fun i : Fin 3 => p 0 * p (11 + i)) p)) else setA A (setSeg 2 (fun i : Fin 3 => p 0 * p (11 + i)) p)) k =
      if c.multi = true ∧ k = c.mV then p k * p 0 else setA A (setSeg 2 (fun i : Fin 3 => p 0 * p (11 + i)) p) k := fun k => by
    by_cases hmu : c.multi = true
    · by_cases hk : k = c.mV
      · subst hk
        simp [hmu, setAt, m14 _ _ _ _ hm.1]
      · simp [hmu, hk, setAt]
    · simp [hmu]
  unfold pvecToCvec energyOf
  simp only [hAA, hl]
  generalize (if c.multi = true then setAt c.mV (setA A (setSeg 2 (fun i : Fin 3 => p 0 * p (11 + i)) p) c.mV * p 0)
      (setA A (setSeg 2 (fun i : Fin 3 => p 0 * p (11 + i)) p)) else setA A (setSeg 2 (fun i : Fin 3 => p 0 * p (11 + i)) p)) = r at *
  have low : ∀ k < 14, (k ≠ 1) → r k = if 2 ≤ k ∧ k < 5 then p 0 * p (9 + k) else if 5 ≤ k ∧ k < 14 then setA A 0 k else p k := fun k hk h1 => by
    rw [hr, if_neg (fun h => hne k hk h.2)]
    interval_cases k <;> first | exact absurd rfl h1 | simp [setA, setSeg, setAt]
  rcases Bool.eq_false_or_eq_true c.thermal with ht | ht
  · simp only [ht, if_true, hJ ht, true_and]
    by_cases h14 : k < 14
    · have hs : setSeg 14 (fun i : Fin 3 => p (14 + i) * p 0) (setAt 1 (p 0 * totalEnergy P (p 0) (p 1) A (some fun i : Fin 3 => p (14 + i)) (fun i => p (11 + i))
          (if P.reaction > -1 then some ((if c.multi = true then p c.mV * p 0 else p c.mV) / p 0) else none)) r) k = _ := setSeg_other _ _ _ _ (Or.inl h14)
      rw [hs]
      by_cases h1 : k = 1
      · rw [if_pos h1]; simp [setAt, h1]
      · rw [if_neg h1]
        simp only [setAt, h1, if_false]
        rw [low k h14 h1, if_neg (fun h : 14 ≤ k ∧ k < 17 => by omega), if_neg (fun h : c.multi = true ∧ k = c.mV => hne k h14 h.2)]
    · have h17 := hm.2 ht
      rw [if_neg (c := k = 1) (by omega), if_neg (c := 2 ≤ k ∧ k < 5) (by omega), if_neg (c := 5 ≤ k ∧ k < 14) (by omega)]
      by_cases hk : k < 17
      · rw [if_pos (c := 14 ≤ k ∧ k < 17) ⟨by omega, hk⟩]
        obtain ⟨i, rfl⟩ : ∃ i : Fin 3, k = 14 + i.1 := ⟨⟨k - 14, by omega⟩, by simp; omega⟩
        exact setSeg_get _ _ _ _
      · rw [if_neg (c := 14 ≤ k ∧ k < 17) (by omega)]
        refine (setSeg_other _ _ _ _ (Or.inr (by omega))).trans ?_
        simp only [setAt]
        rw [if_neg (by omega), hr, m14 _ _ _ _ (by omega)]
  · simp only [ht, if_false, Bool.false_eq_true, false_and]
    by_cases h1 : k = 1
    · rw [if_pos h1]; simp [setAt, h1]
    · rw [if_neg h1]
      simp only [setAt, h1, if_false]
      by_cases h14 : k < 14
      · rw [low k h14 h1, if_neg (fun h : c.multi = true ∧ k = c.mV => hne k h14 h.2)]
      · rw [if_neg (by omega), if_neg (by omega), hr, m14 _ _ _ _ (by omega)]

theorem gust_cvec (hv : c.viscous = true) (p : St) : pvecToCvec c P (gust w p) = boost w (pvecToCvec c P p) := by
  have hm := mV_other c hv (Bool.eq_false_or_eq_true _)
  have g0 : gust w p 0 = p 0 := gust_other w p 0 (by omega)
  have g1 : gust w p 1 = p 1 := gust_other w p 1 (by omega)
  have gA : (Matrix.of fun i j : Fin 3 => gust w p (2 + 3 * j + i)) = Matrix.of fun i j : Fin 3 => p (2 + 3 * j + i) := by
    ext i j
    exact gust_other w p _ (by omega)
  have gh : ∀ k, 14 ≤ k → gust w p k = p k := fun k hk => gust_other w p k (Or.inr hk)
  have gJ : ∀ i : Fin 3, gust w p (14 + i) = p (14 + i) := fun i => gh _ (by omega)
  have gm := gh c.mV hm.1
  have gv : ∀ i : Fin 3, gust w p (11 + i) = p (11 + i) + w i := gust_vel w p
  have eE : energyOf c P (gust w p) = energyOf c P p + (w 0 * (p 0 * p 11) + w 1 * (p 0 * p 12) + w 2 * (p 0 * p 13)) + p 0 * sq3 w / 2 := by
    unfold energyOf
    simp only [g0, g1, gA, gJ, gm, gv]
    unfold totalEnergy E3 sq3
    simp only [Fin.val_zero, Fin.val_one, Fin.val_two, Nat.add_zero, Nat.reduceAdd]
    ring
  have key : boost w (pvecToCvec c P p) = fun k => if k = 1 then pvecToCvec c P p 1 + (w 0 * pvecToCvec c P p 2 + w 1 * pvecToCvec c P p 3 +
      w 2 * pvecToCvec c P p 4) + pvecToCvec c P p 0 * sq3 w / 2
      else if k = 2 then pvecToCvec c P p 2 + pvecToCvec c P p 0 * w 0 else if k = 3 then pvecToCvec c P p 3 + pvecToCvec c P p 0 * w 1
      else if k = 4 then pvecToCvec c P p 4 + pvecToCvec c P p 0 * w 2 else pvecToCvec c P p k := rfl
  have hne : (0 : Nat) ≠ c.mV := by omega
  rw [key]
  funext k
  simp only [cvec_form c P hv, eE, gA, g0]
  by_cases h5 : k < 5
  · have g11 : gust w p 11 = p 11 + w 0 := gv 0
    have g12 : gust w p 12 = p 12 + w 1 := gv 1
    have g13 : gust w p 13 = p 13 + w 2 := gv 2
    interval_cases k <;> simp [hne, g11, g12, g13, g0] <;> ring
  · have h : ∀ j, j < 5 → k ≠ j := fun j hj => by omega
    simp only [h 1 (by omega), h 2 (by omega), h 3 (by omega), h 4 (by omega), if_false]
    by_cases h14 : k < 14
    · have a : ¬ (2 ≤ k ∧ k < 5) := by omega
      have b : 5 ≤ k ∧ k < 14 := by omega
      simp only [if_neg a, if_pos b]
    · have a : ¬ (2 ≤ k ∧ k < 5) := by omega
      simp only [gh k (by omega), if_neg a]

theorem boost_shift (hv : c.viscous = true) (hρ : Q 0 ≠ 0) (R : Hat c) (x : Fin (n1 c) → ℝ) :
    shift c P R x (boost w Q) = boost w (shift c P R x Q) := by
  unfold shift
  rw [boost_pvec c P w hv hρ, gust_move, gust_cvec c P w hv]

theorem constraints_dens (sgn : ℝ) (Q : St) (R : Hat c) (h : constraints c P S sgn Q = some R) : Q 0 ≠ 0 := by
  unfold constraints at h
  split_ifs at h with hd
  exact hd.dens

/-- **One step of the interface solver seen by a moving observer.** -/
theorem boost_starStepper (hv : c.viscous = true) (stick : Bool) (junk : Fin 2 → Fin (n1 c) → ℝ) (PL : Par) (PR : Option Par)
    (s : St × St) : starStepper c stick S junk PL PR (boost w s.1, boost w s.2) =
      (starStepper c stick S junk PL PR s).map fun t => (boost w t.1, boost w t.2) := by
  have zero : boost w (fun _ => 0) = fun _ => 0 := by
    funext k
    unfold boost dot3 getRv
    split_ifs <;> simp
  unfold starStepper
  simp only [boost_constraints]
  cases hL : constraints c PL S 1 s.1 with
  | none => rfl
  | some RL =>
    have hρL := constraints_dens c PL S 1 s.1 RL hL
    cases PR with
    | none =>
      have e : vacuumStep c RL (boost w s.1) (tractions c PL (boost w s.1)) = vacuumStep c RL s.1 (tractions c PL s.1) := by
        unfold vacuumStep
        rw [boost_tractions c PL w hρL, boost_0, boost_high w s.1 14 (by omega)]
      simp only [Option.bind_some, e]
      cases vacuumStep c RL s.1 (tractions c PL s.1) with
      | none => rfl
      | some x =>
        simp only [Option.map_some, zero]
        rw [boost_shift c PL w hv hρL]
    | some PR =>
      simp only [Option.bind_some]
      cases hR : constraints c PR S (-1) s.2 with
      | none => rfl
      | some RR =>
        have hρR := constraints_dens c PR S (-1) s.2 RR hR
        simp only [Option.bind_some, boost_tractions c PL w hρL, boost_tractions c PR w hρR]
        have e1 : ∀ xL xR, stickBcs c RL RR (boost w s.1) (boost w s.2) xL xR = stickBcs c RL RR s.1 s.2 xL xR := fun xL xR => by
          have : velocities c (boost w s.2) - velocities c (boost w s.1) = velocities c s.2 - velocities c s.1 := by
            rw [boost_velocities c w hρL, boost_velocities c w hρR]
            funext i
            simp only [Pi.sub_apply]
            ring
          unfold stickBcs
          rw [this]
        have v2 : ∀ Q : St, Q 0 ≠ 0 → boost w Q 2 / boost w Q 0 = Q 2 / Q 0 + w 0 := fun Q h => boost_vel w h 0
        have v14 : ∀ Q : St, boost w Q 14 / boost w Q 0 = Q 14 / Q 0 := fun Q => by
          rw [boost_0, boost_high w Q 14 (by omega)]
        have e2 : ∀ xL xR, slipBcs c junk RL RR (boost w s.1) (boost w s.2) xL xR = slipBcs c junk RL RR s.1 s.2 xL xR := fun xL xR => by
          have h2 : boost w s.2 2 / boost w s.2 0 - boost w s.1 2 / boost w s.1 0 = s.2 2 / s.2 0 - s.1 2 / s.1 0 := by
            rw [v2 _ hρL, v2 _ hρR]; ring
          have hy : (![boost w s.2 2 / boost w s.2 0, boost w s.2 14 / boost w s.2 0] : Fin 2 → ℝ) -
              ![boost w s.1 2 / boost w s.1 0, boost w s.1 14 / boost w s.1 0] =
              ![s.2 2 / s.2 0, s.2 14 / s.2 0] - ![s.1 2 / s.1 0, s.1 14 / s.1 0] := by
            funext i
            fin_cases i
            · exact h2
            · show boost w s.2 14 / boost w s.2 0 - boost w s.1 14 / boost w s.1 0 = s.2 14 / s.2 0 - s.1 14 / s.1 0
              rw [v14, v14]
          unfold slipBcs
          simp only [hy, h2]
        simp only [e1, e2]
        generalize (if stick = true then _ else _ : Option (Fin (n1 c) → ℝ)) = o
        cases o with
        | none => rfl
        | some x =>
          simp only [Option.map_some]
          rw [boost_shift c PL w hv hρL, boost_shift c PR w hv hρR]

/-- Nothing the loop looks at depends on the observer. -/
theorem boost_converged (stick : Bool) (tol : ℝ) (PL : Par) (PR : Option Par) (s : St × St) :
    converged c stick tol PL PR (boost w s.1, boost w s.2) ↔ converged c stick tol PL PR s := by
  unfold converged
  simp only [boost_0]
  refine and_congr_right fun h => ?_
  obtain ⟨hL, hR⟩ := h
  have q : ∀ P : Par, ∀ Q : St, Q 0 ≠ 0 → heatFlux0 c P (boost w Q) = heatFlux0 c P Q := fun P Q hρ => by
    unfold heatFlux0
    rw [boost_temperature c P w hρ, boost_0, boost_high w Q 14 (by omega)]
  cases PR with
  | none => simp only [boost_SigmaCol c PL w hL, q PL s.1 hL]
  | some PR =>
    have hR' := hR rfl
    have hd : ∀ i, vel (boost w s.1) i - vel (boost w s.2) i = vel s.1 i - vel s.2 i := fun i => by
      rw [boost_vel w hL, boost_vel w hR']; ring
    simp only [boost_SigmaCol c PL w hL, boost_SigmaCol c PR w hR', hd, q PL s.1 hL, q PR s.2 hR', boost_temperature c PL w hL,
      boost_temperature c PR w hR']

theorem boost_body (hv : c.viscous = true) (stick relax : Bool) (svd : M3 → M3 × V3 × M3) (junk : Fin 2 → Fin (n1 c) → ℝ) (PL : Par)
    (PR : Option Par) (dt : ℝ) (hδ : relax = true → PL.δp = 0 ∧ ∀ P ∈ PR, P.δp = 0) (s : St × St) :
    body c stick relax S svd junk PL PR dt (boost w s.1, boost w s.2) =
      (body c stick relax S svd junk PL PR dt s).map fun t => (boost w t.1, boost w t.2) := by
  have star := fun s => boost_starStepper c S w hv stick junk PL PR s
  unfold body
  cases relax with
  | false => exact star s
  | true =>
    simp only [if_true]
    rw [boost_analytic c PL w svd (dt / 2) (hδ rfl).1]
    cases odeAnalytic c PL svd (dt / 2) s.1 with
    | none => rfl
    | some QL =>
      cases PR with
      | none => exact star (QL, s.2)
      | some PR =>
        simp only [Option.map_some, Option.bind_some]
        rw [boost_analytic c PR w svd (dt / 2) ((hδ rfl).2 PR rfl)]
        cases odeAnalytic c PR svd (dt / 2) s.2 with
        | none => rfl
        | some QR => exact star (QL, QR)

/-- A turned state in motion. -/
theorem rotate_boost (R : M3) (h : R.transpose * R = 1) (Q : St) :
    rotateTensors c (boost w Q) R = boost (R.mulVec w) (rotateTensors c Q R) := by
  have d0 : rotateTensors c Q R 0 = Q 0 := rotate_other c Q R 0 (Or.inl (by omega))
  refine state_ext c _ _ (fun j hj => ?_) ?_ ?_ fun ht => ?_
  · rw [rotate_other c _ _ _ hj]
    by_cases h5 : 5 ≤ j
    · rw [boost_high w _ _ h5, boost_high _ _ _ h5, rotate_other c _ _ _ hj]
    · have : j = 0 ∨ j = 1 := by omega
      rcases this with rfl | rfl
      · rw [boost_0, boost_0, d0]
      · rw [boost_1, boost_1, rotate_other c _ _ 1 (Or.inl (by omega)), d0, rotate_rv, sq3_rotate R h]
        have : dot3 (R.mulVec w) (R.mulVec (getRv Q)) = dot3 w (getRv Q) := by
          have e : ∀ a b : V3, dot3 a b = dotProduct a b := fun a b => by simp [dot3, dotProduct, Fin.sum_univ_three]
          rw [e, e, Matrix.dotProduct_mulVec, Matrix.vecMul_mulVec, h, Matrix.vecMul_one]
        rw [this]
  · rw [rotate_rv]
    funext i
    rw [boost_rv, rotate_rv, d0]
    have : getRv (boost w Q) = getRv Q + Q 0 • w := by
      funext k
      rw [boost_rv]
      rfl
    rw [this, Matrix.mulVec_add, Matrix.mulVec_smul]
    rfl
  · rw [rotate_A, boost_A, boost_A, rotate_A]
  · rw [rotate_J c _ _ ht, boost_J, boost_J, rotate_J c _ _ ht]

/-- A loop on states that correspond. -/
theorem starLoop_map {α : Type} (φ : α → α) (check : α → Prop) (body : α → α) (hc : ∀ s, check (φ s) ↔ check s)
    (hb : ∀ s, body (φ s) = φ (body s)) : ∀ (fuel count : Nat) (s : α),
    starLoop check body fuel count (φ s) = (starLoop check body fuel count s).map fun r => (r.1, φ r.2) := by
  intro fuel
  induction fuel with
  | zero => intro count s; rfl
  | succ fuel ih =>
    intro count s
    unfold starLoop
    simp only [hc, hb]
    split_ifs
    · exact ih _ _
    · rfl

/-- **The interface state seen by a moving observer** (the state `fill_ghost_cells` takes for the ghost cells of a material):
after as many steps, the same state in motion. -/
theorem boost_leftStar (hv : c.viscous = true) (stick relax : Bool) (tol : ℝ) (svd : M3 → M3 × V3 × M3)
    (junk : Fin 2 → Fin (n1 c) → ℝ) (PL : Par) (PR : Option Par) (dt : ℝ)
    (hδ : relax = true → PL.δp = 0 ∧ ∀ P ∈ PR, P.δp = 0) (n : List ℝ) (hn : Unit n) (fuel : Nat) (QL QR : St) :
    leftStar c stick relax tol S svd junk PL PR dt n fuel (boost w QL) (boost w QR) =
      (leftStar c stick relax tol S svd junk PL PR dt n fuel QL QR).map fun r => (r.1, r.2.map (boost w)) := by
  obtain ⟨-, h1, h2, -⟩ := rotation_matrix_proper n hn
  unfold leftStar leftStarOf
  generalize rotationMatrix n = R at *
  obtain ⟨v, hv'⟩ : ∃ v, v = R.mulVec w := ⟨_, rfl⟩
  have hb : R.transpose.mulVec v = w := by rw [hv', Matrix.mulVec_mulVec, h2, Matrix.one_mulVec]
  have hp : ∀ s : Option St × Option St, pair (s.1.map (boost v), s.2.map (boost v)) = (pair s).map fun t => (boost v t.1, boost v t.2) := by
    rintro ⟨a, b⟩
    cases a <;> cases b <;> rfl
  have key := starLoop_map (fun s : Option St × Option St => (s.1.map (boost v), s.2.map (boost v)))
    (fun s => ∃ t, pair s = some t ∧ converged c stick tol PL PR t)
    (fun s => unpair ((pair s).bind (body c stick relax S svd junk PL PR dt)))
    (fun s => by
      simp only [hp]
      cases pair s with
      | none => simp
      | some t =>
        constructor
        · rintro ⟨t', ht', hc⟩
          obtain rfl := Option.some.inj ht'
          exact ⟨t, rfl, (boost_converged c v stick tol PL PR t).mp hc⟩
        · rintro ⟨t', ht', hc⟩
          obtain rfl := Option.some.inj ht'
          exact ⟨_, rfl, (boost_converged c v stick tol PL PR t).mpr hc⟩)
    (fun s => by
      simp only [hp]
      cases pair s with
      | none => rfl
      | some t =>
        simp only [Option.map_some, Option.bind_some]
        rw [boost_body c S v hv stick relax svd junk PL PR dt hδ t]
        cases body c stick relax S svd junk PL PR dt t <;> rfl)
    fuel 0 (some (rotateTensors c QL R), some (rotateTensors c QR R))
  simp only [Option.map_some] at key ⊢
  rw [rotate_boost c w R h2, rotate_boost c w R h2, ← hv', key, Option.map_map, Option.map_map]
  congr 1
  funext r
  obtain ⟨k, a, b⟩ := r
  cases a with
  | none => rfl
  | some Q =>
    simp only [Function.comp_apply, Option.map_some]
    rw [if_neg (by simp), if_neg (by simp), rotate_boost c v R.transpose (by rw [Matrix.transpose_transpose]; exact h1), hb]
    rfl

/-- Two gases that stick together and relax, seen by anybody. -/
example (S : Solvers) (svd : M3 → M3 × V3 × M3) (dt : ℝ) (QL QR : St) (w : V3) :
    leftStar (cfgOf false) true true (1 / 10 ^ 8) S svd (fun _ _ => 0) (samplePar sample) (some (samplePar sample)) dt [3 / 5, 4 / 5] 11
        (boost w QL) (boost w QR) =
      (leftStar (cfgOf false) true true (1 / 10 ^ 8) S svd (fun _ _ => 0) (samplePar sample) (some (samplePar sample)) dt [3 / 5, 4 / 5] 11
        QL QR).map fun r => (r.1, r.2.map (boost w)) :=
  boost_leftStar (cfgOf false) S w rfl true true _ svd _ _ _ dt (fun _ => ⟨rfl, fun P hP => by obtain rfl := Option.some.inj hP; rfl⟩) _
    (by unfold Rot.Unit; norm_num) 11 QL QR

end

end Verif.Riemann
