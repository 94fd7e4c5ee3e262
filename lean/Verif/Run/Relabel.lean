import Verif.Fill.Relabel
import Verif.Riemann.Rates
import Verif.Run.Contact
import Verif.March.Upwind
import Verif.Iter.Props

/-!
# `left_star_state` and the numbering of the materials

`left_star_state` neither reads nor changes level sets, so it gives the same states whichever way the materials are
numbered.
-/

namespace Verif.Riemann

open Verif.Sys Verif.Eig Verif.Rot Verif.Fill

noncomputable section

attribute [local instance] Classical.propDecidable

variable {c : Cfg}

/-- The energy of the material does not depend on a mass fraction that the state does not have. -/
def Reads (c : Cfg) (P : Par) : Prop := c.multi = true ∨ (P.multi = false ∧ ¬ P.reaction > -1)

theorem heads_ge (hv : c.viscous = true) :
    14 ≤ c.V - c.lset ∧ (c.thermal = true → 17 ≤ c.V - c.lset) ∧ (c.multi = true → c.mV < c.V - c.lset) := by
  unfold Cfg.V Cfg.mV
  rw [hv]
  refine ⟨?_, fun h => ?_, fun h => ?_⟩
  · simp only [if_true]; omega
  · simp only [h, if_true]; omega
  · simp only [h, if_true]; omega

/-! ### Writes -/

theorem reversed_setAt (k : Nat) (hk : k < c.V - c.lset) (x : ℝ) (Q : St) :
    setAt k x (reversed c Q) = reversed c (setAt k x Q) := by
  funext i
  unfold setAt reversed
  by_cases h : i = k
  · subst h; simp [hk]
  · by_cases h1 : i < c.V - c.lset
    · simp [h, h1]
    · by_cases h2 : i < c.V
      · simp only [if_neg h, if_neg h1, if_pos h2]
        rw [if_neg (show ¬ c.V - c.lset + (c.V - 1 - i) = k by omega)]
      · simp [h, h1, h2]

theorem reversed_setSeg (k : Nat) (hk : k + 2 < c.V - c.lset) (x : V3) (Q : St) :
    setSeg k x (reversed c Q) = reversed c (setSeg k x Q) := by
  unfold setSeg
  rw [reversed_setAt k (by omega), reversed_setAt (k + 1) (by omega), reversed_setAt (k + 2) hk]

theorem reversed_setA (hv : c.viscous = true) (A : M3) (Q : St) : setA A (reversed c Q) = reversed c (setA A Q) := by
  have := (heads_ge hv).1
  unfold setA
  rw [reversed_setSeg 5 (by omega), reversed_setSeg 8 (by omega), reversed_setSeg 11 (by omega)]

theorem addAt_eq (k : Nat) (x : ℝ) (Q : St) : addAt k x Q = setAt k (Q k + x) Q := by
  funext i
  unfold addAt setAt
  by_cases h : i = k
  · subst h; simp
  · simp [h]

theorem reversed_addAt (k : Nat) (hk : k < c.V - c.lset) (x : ℝ) (Q : St) :
    addAt k x (reversed c Q) = reversed c (addAt k x Q) := by
  rw [addAt_eq, addAt_eq, reversed_head c Q hk, reversed_setAt k hk]

theorem reversed_addSeg (k : Nat) (hk : k + 2 < c.V - c.lset) (x : V3) (Q : St) :
    addSeg k x (reversed c Q) = reversed c (addSeg k x Q) := by
  unfold addSeg
  rw [reversed_addAt k (by omega), reversed_addAt (k + 1) (by omega), reversed_addAt (k + 2) hk]

/-! ### Reads -/

variable (hv : c.viscous = true)

include hv

theorem reversed_low (Q : St) {k : Nat} (hk : k < 14) : reversed c Q k = Q k :=
  reversed_head c Q (lt_of_lt_of_le hk (heads_ge hv).1)

theorem reversed_Rv (Q : St) : getRv (reversed c Q) = getRv Q := funext fun i => reversed_low hv Q (by omega)

theorem reversed_A (Q : St) : getA (reversed c Q) = getA Q := Relax.getA_congr _ _ fun _ _ h2 => reversed_low hv Q h2

theorem reversed_vel (Q : St) : vel (reversed c Q) = vel Q := by
  unfold Sys.vel
  rw [reversed_Rv hv, reversed_low hv Q (by norm_num)]

theorem reversed_RJ (ht : c.thermal = true) (Q : St) : getRJ (reversed c Q) = getRJ Q := by
  have := (heads_ge hv).2.1 ht
  exact funext fun i => reversed_head c Q (by omega)

theorem reversed_lam (hm : c.multi = true) (Q : St) : reversed c Q c.mV = Q c.mV := reversed_head c Q ((heads_ge hv).2.2 hm)

variable {P : Par} (hP : Reads c P)

include hP

theorem reversed_internal (Q : St) : internalEnergy c P (reversed c Q) = internalEnergy c P Q := by
  unfold internalEnergy
  rw [reversed_low hv Q (by norm_num : 0 < 14), reversed_low hv Q (by norm_num : 1 < 14), reversed_vel hv, reversed_A hv]
  have h1 : (if c.thermal then E2J P.toParams (fun i => getRJ (reversed c Q) i / Q 0) else 0) =
      if c.thermal then E2J P.toParams (fun i => getRJ Q i / Q 0) else 0 := by
    split_ifs with ht
    · rw [reversed_RJ hv ht]
    · rfl
  have h2 : (if P.reaction > -1 then ER P (reversed c Q c.mV / Q 0) else 0) = if P.reaction > -1 then ER P (Q c.mV / Q 0) else 0 := by
    rcases hP with hm | ⟨_, hr⟩
    · rw [reversed_lam hv hm]
    · rw [if_neg hr, if_neg hr]
  rw [h1, h2]

theorem reversed_pressure (Q : St) : pressure c P (reversed c Q) = pressure c P Q := by
  unfold pressure solveMulti
  rw [reversed_internal hv hP, reversed_low hv Q (by norm_num : 0 < 14)]
  rcases hP with hm | ⟨hm, _⟩
  · rw [reversed_lam hv hm]
  · simp only [hm, Bool.false_eq_true, if_false]

theorem reversed_dEdrho (Q : St) : dEdrho c P (reversed c Q) = dEdrho c P Q := by
  have hp := reversed_pressure hv hP Q
  unfold dEdrho solveMulti
  rw [reversed_internal hv hP, reversed_low hv Q (by norm_num : 0 < 14), reversed_A hv]
  rcases hP with hm | ⟨hm, _⟩
  · simp only [reversed_lam hv hm, hp]
  · simp only [hm, Bool.false_eq_true, if_false, hp]

theorem reversed_dEdp (Q : St) : dEdp c P (reversed c Q) = dEdp c P Q := by
  unfold dEdp solveMulti
  rw [reversed_internal hv hP, reversed_low hv Q (by norm_num : 0 < 14)]
  rcases hP with hm | ⟨hm, _⟩
  · simp only [reversed_lam hv hm]
  · simp only [hm, Bool.false_eq_true, if_false]

omit hP in
theorem reversed_sigma (p : Params) (Q : St) (d : Fin 3) : sigmaCol p (reversed c Q) d = sigmaCol p Q d :=
  sigmaCol_congr p (reversed_low hv Q (by norm_num)) (reversed_A hv Q) d

omit hP in
theorem reversed_dsigma (p : Params) (Q : St) (d : Fin 3) : dsigmadrho p (reversed c Q) d = dsigmadrho p Q d ∧
    dsigmadAd p (reversed c Q) d = dsigmadAd p Q d := by
  simp only [dsigmadrho, dsigmadAd, reversed_sigma hv, reversed_A hv, reversed_low hv Q (by norm_num : 0 < 14), and_self]

theorem reversed_c0 (Q : St) : c0 c P (reversed c Q) = c0 c P Q := by
  simp only [c0, reversed_pressure hv hP, reversed_dEdrho hv hP, reversed_dEdp hv hP, reversed_low hv Q (by norm_num : 0 < 14)]

theorem reversed_X (Q : St) : X1 c P (reversed c Q) = X1 c P Q ∧ X2 c P (reversed c Q) = X2 c P Q := by
  simp only [X1, X2, xi1, xi2, reversed_pressure hv hP, reversed_c0 hv hP, (reversed_dsigma hv P.toParams Q 0).1,
    (reversed_dsigma hv P.toParams Q 0).2, reversed_sigma hv, reversed_A hv, reversed_low hv Q (by norm_num : 0 < 14), and_self]

theorem reversed_Z (Q : St) : matZ c P (reversed c Q) = matZ c P Q ∧ matW c P (reversed c Q) = matW c P Q := by
  simp only [matZ, matW, matB, rhs, reversed_c0 hv hP, (reversed_dsigma hv P.toParams Q 0).1,
    (reversed_dsigma hv P.toParams Q 0).2, reversed_sigma hv, reversed_A hv, reversed_low hv Q (by norm_num : 0 < 14), and_self]

theorem reversed_system (Q : St) : system c P (reversed c Q) = system c P Q := by
  simp only [system, (reversed_Z hv hP Q).1, (reversed_Z hv hP Q).2, reversed_pressure hv hP, (reversed_dsigma hv P.toParams Q 0).1,
    (reversed_dsigma hv P.toParams Q 0).2, reversed_A hv, reversed_low hv Q (by norm_num : 0 < 14)]

omit hP in
theorem reversed_pi1 (Q : St) : pi1 P (reversed c Q) = pi1 P Q := by
  simp only [pi1, reversed_A hv, reversed_low hv Q (by norm_num : 0 < 14)]

theorem reversed_defined (S : Solvers) (Q : St) : Defined c P S (reversed c Q) ↔ Defined c P S Q := by
  have e0 := reversed_low hv Q (by norm_num : 0 < 14)
  have eA := reversed_A hv Q
  have ep := reversed_pressure hv hP Q
  have er := reversed_dEdrho hv hP Q
  have ed := reversed_dEdp hv hP Q
  have es := reversed_dsigma hv P.toParams Q 0
  have eX := reversed_X hv hP Q
  have eZ := reversed_Z hv hP Q
  have e1 := reversed_pi1 (P := P) hv Q
  constructor
  · rintro ⟨a1, a2, a3, a4, a5, a6, a7, a8, a9, a10⟩
    rw [e0] at a1 a2
    rw [ed] at a3
    rw [e0, ep, er, ed] at a4
    rw [eA] at a5
    rw [e1] at a6
    rw [es.2, eZ.1] at a7
    rw [e0, ep, eA, e1, es.1] at a8
    rw [eX.1, eX.2] at a9 a10
    exact ⟨a1, a2, a3, a4, a5, a6, a7, a8, a9, a10⟩
  · rintro ⟨a1, a2, a3, a4, a5, a6, a7, a8, a9, a10⟩
    rw [← e0] at a1
    refine ⟨a1, ?_, ?_, ?_, ?_, ?_, ?_, ?_, ?_, ?_⟩
    · rw [e0]; exact a2
    · rw [ed]; exact a3
    · rw [e0, ep, er, ed]; exact a4
    · rw [eA]; exact a5
    · rw [e1]; exact a6
    · rw [es.2, eZ.1]; exact a7
    · rw [e0, ep, eA, e1, es.1]; exact a8
    · rw [eX.1, eX.2]; exact a9
    · rw [eX.1, eX.2]; exact a10

/-- `riemann_constraints` reads no level set. -/
theorem reversed_constraints (S : Solvers) (sgn : ℝ) (Q : St) :
    constraints c P S sgn (reversed c Q) = constraints c P S sgn Q := by
  unfold constraints
  simp only [reversed_defined hv hP, matX, Y0, reversed_system hv hP, (reversed_X hv hP Q).1, (reversed_X hv hP Q).2]

theorem reversed_Sigma (Q : St) (d : Fin 3) : SigmaCol c P (reversed c Q) d = SigmaCol c P Q d := by
  unfold SigmaCol
  simp only [reversed_sigma hv, reversed_pressure hv hP]

theorem reversed_temperature (Q : St) : temperature c P (reversed c Q) = temperature c P Q := by
  simp only [temperature, reversed_pressure hv hP, reversed_low hv Q (by norm_num : 0 < 14)]

theorem reversed_tractions (Q : St) : tractions c P (reversed c Q) = tractions c P Q := by
  unfold tractions
  simp only [reversed_Sigma hv hP, reversed_temperature hv hP]

omit hP in
theorem n1_heads : 11 + n1 c ≤ c.V - c.lset := by
  have h := heads_ge hv
  unfold n1
  split_ifs with ht
  · have := h.2.1 ht
    omega
  · omega

omit hP in
theorem reversed_move (R : Hat c) (x : Fin (n1 c) → ℝ) (Q : St) : move c R x (reversed c Q) = reversed c (move c R x Q) := by
  have h1 := (heads_ge hv).1
  have h2 := n1_heads hv
  funext i
  by_cases hi : i < c.V - c.lset
  · rw [reversed_head c _ hi]
    unfold move
    rw [reversed_head c _ hi]
  · have key : ∀ j, ¬ j < c.V - c.lset → ∀ Q, move c R x Q j = Q j := by
      intro j hj Q
      unfold move
      rw [dif_neg (by omega), dif_neg (by omega)]
    rw [key i hi]
    unfold reversed
    rw [if_neg hi, if_neg hi, key i hi, key _ (by omega)]

theorem reversed_cvec (Q : St) : cvecToPvec c P (reversed c Q) = reversed c (cvecToPvec c P Q) := by
  have h := heads_ge hv
  unfold cvecToPvec
  dsimp only
  rw [reversed_pressure hv hP, reversed_low hv Q (by norm_num : 0 < 14), reversed_A hv, reversed_Rv hv, reversed_setAt 1 (by omega),
    reversed_setSeg 2 (by omega), reversed_setSeg 5 (by omega), reversed_setSeg 8 (by omega), reversed_setSeg 11 (by omega)]
  generalize setSeg 11 _ _ = r
  have h1 : (if c.thermal then setSeg 14 (fun i => reversed c r (14 + i) / Q 0) (reversed c r) else reversed c r) =
      reversed c (if c.thermal then setSeg 14 (fun i => r (14 + i) / Q 0) r else r) := by
    split_ifs with ht
    · have := h.2.1 ht
      rw [reversed_setSeg 14 (by omega)]
      congr 2
      funext i
      rw [reversed_head c r (by omega)]
    · rfl
  rw [h1]
  generalize (if c.thermal then setSeg 14 (fun i => r (14 + i) / Q 0) r else r) = r'
  split_ifs with hm
  · have := h.2.2 hm
    rw [reversed_head c r' this, reversed_setAt _ this]
  · rfl

theorem reversed_pvec (Q : St) : pvecToCvec c P (reversed c Q) = reversed c (pvecToCvec c P Q) := by
  have h := heads_ge hv
  unfold pvecToCvec
  dsimp only
  have hA : (Matrix.of fun i j : Fin 3 => reversed c Q (2 + 3 * j + i) : M3) = Matrix.of fun i j : Fin 3 => Q (2 + 3 * j + i) := by
    ext i j
    exact reversed_low hv Q (by omega)
  have hV : (fun i : Fin 3 => reversed c Q (11 + i)) = fun i : Fin 3 => Q (11 + i) := funext fun i => reversed_low hv Q (by omega)
  have hV' : ∀ i : Fin 3, reversed c Q (11 + i) = Q (11 + i) := fun i => reversed_low hv Q (by omega)
  rw [hA, hV, reversed_low hv Q (by norm_num : 0 < 14), reversed_low hv Q (by norm_num : 1 < 14)]
  simp only [hV']
  rw [reversed_setSeg 2 (by omega), reversed_setA hv]
  generalize setA _ _ = r
  have h1 : (if c.multi then setAt c.mV (reversed c r c.mV * Q 0) (reversed c r) else reversed c r) =
      reversed c (if c.multi then setAt c.mV (r c.mV * Q 0) r else r) := by
    split_ifs with hm
    · have := h.2.2 hm
      rw [reversed_head c r this, reversed_setAt _ this]
    · rfl
  rw [h1]
  generalize (if c.multi then setAt c.mV (r c.mV * Q 0) r else r) = r'
  have h2 : (if P.reaction > -1 then some (reversed c r' c.mV / Q 0) else none) =
      if P.reaction > -1 then some (r' c.mV / Q 0) else none := by
    rcases hP with hm | ⟨_, hr⟩
    · rw [reversed_lam hv hm]
    · rw [if_neg hr, if_neg hr]
  rw [h2]
  generalize (if P.reaction > -1 then some (r' c.mV / Q 0) else none) = lam
  split_ifs with ht
  · have := h.2.1 ht
    have h3 : (fun i : Fin 3 => reversed c r' (14 + i)) = fun i : Fin 3 => r' (14 + i) := funext fun i => reversed_head c r' (by omega)
    have h4 : (fun i : Fin 3 => reversed c r' (14 + i) * Q 0) = fun i : Fin 3 => r' (14 + i) * Q 0 :=
      funext fun i => by rw [reversed_head c r' (by omega)]
    rw [h3, h4, reversed_setAt 1 (by omega), reversed_setSeg 14 (by omega)]
  · rw [reversed_setAt 1 (by omega)]

theorem reversed_shift (R : Hat c) (x : Fin (n1 c) → ℝ) (Q : St) : shift c P R x (reversed c Q) = reversed c (shift c P R x Q) := by
  unfold shift
  rw [reversed_cvec hv hP, reversed_move hv, reversed_pvec hv hP]

omit hP in
theorem reversed_vels (Q : St) : velocities c (reversed c Q) = velocities c Q := by
  funext i
  unfold velocities
  split_ifs with h
  · rw [reversed_vel hv]
  · have ht : c.thermal = true := by
      by_contra h'
      have := i.2
      simp only [n1, h'] at this
      simp at this
      omega
    have := (heads_ge hv).2.1 ht
    rw [reversed_head c Q (by omega), reversed_low hv Q (by norm_num : 0 < 14)]

omit hP in
theorem reversed_slip (junk : Fin 2 → Fin (n1 c) → ℝ) (RL RR : Hat c) (QL QR : St) (xL xR : Fin (n1 c) → ℝ) :
    slipBcs c junk RL RR (reversed c QL) (reversed c QR) xL xR = slipBcs c junk RL RR QL QR xL xR := by
  unfold slipBcs
  split_ifs with ht
  · have := (heads_ge hv).2.1 ht
    simp only [reversed_low hv _ (by norm_num : 0 < 14), reversed_low hv _ (by norm_num : 2 < 14),
      reversed_head c _ (show 14 < c.V - c.lset by omega)]
  · rfl
  · rw [reversed_low hv QL (by norm_num : 0 < 14), reversed_low hv QL (by norm_num : 2 < 14),
      reversed_low hv QR (by norm_num : 0 < 14), reversed_low hv QR (by norm_num : 2 < 14)]

omit hP in
theorem reversed_vacuum (R : Hat c) (Q : St) (xL : Fin (n1 c) → ℝ) : vacuumStep c R (reversed c Q) xL = vacuumStep c R Q xL := by
  unfold vacuumStep
  split_ifs with ht
  · rfl
  · have := (heads_ge hv).2.1 ht
    simp only [reversed_low hv _ (by norm_num : 0 < 14), reversed_head c _ (show 14 < c.V - c.lset by omega)]
  · rfl

omit hv hP in
theorem reversed_zero : reversed c (fun _ => 0) = fun _ => 0 := by
  funext k
  unfold reversed
  split_ifs <;> simp

/-- Both states with the level sets for the other numbering. -/
def both (c : Cfg) (s : St × St) : St × St := (reversed c s.1, reversed c s.2)

variable {PR : Option Par} (hR : ∀ p, PR = some p → Reads c p)

include hR

theorem reversed_stepper (stick : Bool) (S : Solvers) (junk : Fin 2 → Fin (n1 c) → ℝ) (s : St × St) :
    starStepper c stick S junk P PR (both c s) = (starStepper c stick S junk P PR s).map (both c) := by
  unfold starStepper both
  simp only [reversed_constraints hv hP]
  cases constraints c P S 1 s.1 with
  | none => rfl
  | some RL =>
    cases PR with
    | none =>
      simp only [Option.bind_some, reversed_tractions hv hP, reversed_vacuum hv, Option.map_map, reversed_shift hv hP]
      congr 1
      funext x
      simp only [Function.comp_apply, reversed_zero]
    | some p =>
      have hp := hR p rfl
      simp only [Option.bind_some, reversed_constraints hv hp]
      cases constraints c p S (-1) s.2 with
      | none => rfl
      | some RR =>
        simp only [Option.bind_some, reversed_tractions hv hP, reversed_tractions hv hp, reversed_slip hv, stickBcs, reversed_vels hv,
          Option.map_map, reversed_shift hv hP, reversed_shift hv hp]
        rfl

theorem reversed_converged (stick : Bool) (tol : ℝ) (s : St × St) :
    converged c stick tol P PR (both c s) ↔ converged c stick tol P PR s := by
  unfold converged both
  have h14 : c.thermal = true → ∀ Q : St, reversed c Q 14 = Q 14 := fun ht Q =>
    reversed_head c Q (by have := (heads_ge hv).2.1 ht; omega)
  have e0 : ∀ Q : St, reversed c Q 0 = Q 0 := fun Q => reversed_low hv Q (by norm_num)
  cases PR with
  | none =>
    simp only [e0, reversed_Sigma hv hP, heatFlux0, reversed_temperature hv hP]
    refine and_congr_right fun _ => and_congr_right fun _ => forall_congr' fun ht => ?_
    simp only [h14 ht]
  | some p =>
    have hp := hR p rfl
    simp only [e0, reversed_Sigma hv hP, reversed_Sigma hv hp, reversed_vel hv, heatFlux0, reversed_temperature hv hP,
      reversed_temperature hv hp]
    refine and_congr_right fun _ => and_congr_right fun _ => forall_congr' fun ht => ?_
    simp only [h14 ht]

omit hP hR in
theorem reversed_ode (svd : M3 → M3 × V3 × M3) (dt : ℝ) (Q : St) :
    Relax.odeAnalytic c P svd dt (reversed c Q) = (Relax.odeAnalytic c P svd dt Q).map (reversed c) := by
  have h := heads_ge hv
  unfold Relax.odeAnalytic Relax.bodyForces Relax.relaxDistortion
  rw [reversed_addSeg 2 (by omega)]
  generalize addSeg 2 _ Q = r
  simp only [hv, if_true, reversed_A hv]
  cases Relax.relaxA P (svd (getA r)).1 (svd (getA r)).2.2 (svd (getA r)).2.1 dt (getA r) with
  | none => rfl
  | some A =>
    simp only [Option.map_some, reversed_setA hv]
    generalize setA A r = r'
    change some _ = some _
    congr 1
    split_ifs with ht
    · have := h.2.1 ht
      unfold Relax.relaxThermal
      dsimp only
      rw [reversed_low hv r' (by norm_num : 0 < 14), reversed_low hv r' (by norm_num : 1 < 14), reversed_A hv, reversed_vel hv,
        reversed_RJ hv ht, reversed_setSeg 14 (by omega)]
    · rfl

theorem reversed_body (stick relax : Bool) (S : Solvers) (svd : M3 → M3 × V3 × M3) (junk : Fin 2 → Fin (n1 c) → ℝ) (dt : ℝ)
    (s : St × St) : body c stick relax S svd junk P PR dt (both c s) = (body c stick relax S svd junk P PR dt s).map (both c) := by
  have hst := reversed_stepper hv hP hR stick S junk
  unfold body
  cases relax with
  | false => simpa using hst s
  | true =>
    simp only [if_true, both, reversed_ode hv]
    cases Relax.odeAnalytic c P svd (dt / 2) s.1 with
    | none => rfl
    | some a =>
      cases PR with
      | none => exact hst (a, s.2)
      | some p =>
        simp only [Option.map_some, Option.bind_some]
        cases Relax.odeAnalytic c p svd (dt / 2) s.2 with
        | none => rfl
        | some b => exact hst (a, b)

omit hv hP hR in
theorem starLoop_image {α β : Type} (F : α → β) (check : α → Prop) (check' : β → Prop) (bd : α → α) (bd' : β → β)
    (h1 : ∀ s, check' (F s) ↔ check s) (h2 : ∀ s, bd' (F s) = F (bd s)) (fuel n : Nat) (s : α) :
    starLoop check' bd' fuel n (F s) = (starLoop check bd fuel n s).map fun r => (r.1, F r.2) := by
  induction fuel generalizing n s with
  | zero => rfl
  | succ fuel ih =>
    unfold starLoop
    simp only [h1, h2]
    split_ifs
    · exact ih _ _
    · rfl

omit hP hR in
theorem reversed_rotate (Q : St) (R : M3) : rotateTensors c (reversed c Q) R = reversed c (rotateTensors c Q R) := by
  have h := heads_ge hv
  unfold rotateTensors
  dsimp only
  rw [reversed_Rv hv, reversed_setSeg 2 (by omega), reversed_A hv, reversed_setA hv]
  split_ifs with ht
  · have := h.2.1 ht
    rw [reversed_RJ hv ht, reversed_setSeg 14 (by omega)]
  · rfl

/-- `left_star_state` gives the same state, and leaves its level sets alone, whatever they are. -/
theorem leftStar_reversed (stick relax : Bool) (tol : ℝ) (S : Solvers) (svd : M3 → M3 × V3 × M3)
    (junk : Fin 2 → Fin (n1 c) → ℝ) (dt : ℝ) (n : List ℝ) (fuel : Nat) (QL QR : St) :
    leftStar c stick relax tol S svd junk P PR dt n fuel (reversed c QL) (reversed c QR) =
      (leftStar c stick relax tol S svd junk P PR dt n fuel QL QR).map fun r => (r.1, r.2.map (reversed c)) := by
  unfold leftStar leftStarOf
  have key := starLoop_image (fun s : Option St × Option St => (s.1.map (reversed c), s.2.map (reversed c)))
    (fun s => ∃ t, pair s = some t ∧ converged c stick tol P PR t) (fun s => ∃ t, pair s = some t ∧ converged c stick tol P PR t)
    (fun s => unpair ((pair s).bind (body c stick relax S svd junk P PR dt)))
    (fun s => unpair ((pair s).bind (body c stick relax S svd junk P PR dt))) ?_ ?_ fuel 0
    (some (rotateTensors c QL (rotationMatrix n)), some (rotateTensors c QR (rotationMatrix n)))
  · simp only [Option.map_some, reversed_rotate hv] at key ⊢
    rw [key, Option.map_map, Option.map_map]
    congr 1
    funext r
    rcases r with ⟨k, _ | q, q'⟩
    · rfl
    · simp [reversed_rotate hv]
  · rintro ⟨_ | a, _ | b⟩
    · rfl
    · rfl
    · rfl
    · have := reversed_converged hv hP hR stick tol (a, b)
      simpa [pair, both] using this
  · rintro ⟨_ | a, _ | b⟩
    · rfl
    · rfl
    · rfl
    · have := reversed_body hv hP hR stick relax S svd junk dt (a, b)
      simp only [pair, both, Option.map_some, Option.bind_some] at this ⊢
      rw [this]
      cases body c stick relax S svd junk P PR dt (a, b) <;> rfl

end

end Verif.Riemann

namespace Verif.Run

open Verif.Sys Verif.Iter Verif.Rot Verif.Fill Verif.Riemann

noncomputable section

variable {c : Cfg}

/-- The star states of a material are the same for both orders of the materials. -/
theorem star_reversed (hv : c.viscous = true) (Z : StarSet c) (MPs : List (Option Par)) (hlen : MPs.length = c.lset + 1)
    (hP : ∀ p, some p ∈ MPs → Reads c p) (dt : ℝ) {m : Nat} (hm : m ≤ c.lset) :
    SameStar c (starOf Z MPs dt m) (starOf Z MPs.reverse dt (c.lset - m)) := by
  intro QL QR mi n hmi k hk
  have hget : ∀ i ≤ c.lset, MPs.reverse[c.lset - i]? = MPs[i]? := by
    intro i hi
    rw [List.getElem?_reverse (by omega), hlen]
    congr 1
    omega
  unfold starOf
  rw [hget m hm, hget mi hmi]
  cases hL : MPs[m]? with
  | none => exact reversed_head c QL hk
  | some oL =>
    cases oL with
    | none => exact reversed_head c QL hk
    | some PL =>
      dsimp only
      have hR : ∀ p, (MPs[mi]?).join = some p → Reads c p := by
        intro p hp
        refine hP p (List.mem_of_getElem? (i := mi) ?_)
        cases h : MPs[mi]? with
        | none => rw [h] at hp; simp at hp
        | some o => rw [h] at hp; simpa using hp
      rw [leftStar_reversed hv (hP PL (List.mem_of_getElem? hL)) hR]
      rcases leftStar c Z.stick Z.relax Z.tol Z.S Z.svd Z.junk PL (MPs[mi]?.join) dt n Z.fuel QL QR with _ | ⟨i, _ | Q⟩
      · exact reversed_head c QL hk
      · exact reversed_head c QL hk
      · exact reversed_head c Q hk

/-- What `fill_ghost_cells` makes of material `m`, fill.cpp:347-366: `dist` is `distance` and `grad` is `finite_difference`,
whatever they compute. -/
def ghostsOf (Z : StarSet c) (MPs : List (Option Par)) (dt : ℝ) (nX : List Nat) (dX : List ℝ) (K : Nat)
    (dist : (Nat → ℝ) → Nat → ℝ) (grad : (Nat → ℝ) → Nat → List ℝ) (order : List Nat) (m : Nat) (u : Nat → St) :
    Option ((Nat → St) × (Nat → Bool)) :=
  let φ := dist fun k => indicator c.lset (levels c (u k)) m (c.lset + 1)
  ghostCells c nX dX m (c.lset + 1) K (starOf Z MPs dt m) φ (grad φ) order u

/-- **Numbering**: listing the materials from the last to the first, with all level sets negated and listed from the last to
the first, `fill_ghost_cells` gives every material the same states and the same mask, and fails in the same cases. -/
theorem fill_reversed (hl : 1 ≤ c.lset) (hv : c.viscous = true) (Z : StarSet c) (MPs : List (Option Par))
    (hlen : MPs.length = c.lset + 1) (hP : ∀ p, some p ∈ MPs → Reads c p) (dt : ℝ) (nX : List Nat) (dX : List ℝ) (K : Nat)
    (dist : (Nat → ℝ) → Nat → ℝ) (grad : (Nat → ℝ) → Nat → List ℝ) (order : List Nat) (m : Nat) (hm : m ≤ c.lset) (u : Nat → St)
    (hu : ∀ a < nX.prod, Sharp c (u a)) :
    ghostsOf Z MPs.reverse dt nX dX K dist grad order (c.lset - m) (fun k => reversed c (u k)) =
      (ghostsOf Z MPs dt nX dX K dist grad order m u).map fun r => (fun k => reversed c (r.1 k), r.2) := by
  unfold ghostsOf
  simp only [indicator_reversed c hl _ m hm]
  exact ghost_reversed nX dX K hm (star_reversed hv Z MPs hlen hP dt hm) _ _ order u hu

/-! ### With `renormalize_levelsets` -/

/-- `u1` is a result of `renormalize_levelsets(u)`, functions.cpp:56-63, on cells of equal sides: every level set is replaced by
its distances, whatever the uninitialised memory holds, and nothing else changes. -/
def Renormalised (c : Cfg) (nX : List Nat) (h eps : ℝ) (u u1 : Nat → St) : Prop :=
  (∀ a k, k < c.V - c.lset ∨ c.V ≤ k ∨ nX.prod ≤ a → u1 a k = u a k) ∧
    ∀ i < c.lset, ∃ (g : March.Garbage) (fuel : Nat) (r : March.Res), nX.prod < fuel ∧
      March.distance ⟨March.gridOf nX, fun _ => h, fun a => levels c (u a) i, eps⟩ g fuel = .ok r ∧
      ∀ a < nX.prod, r.dist a = some (levels c (u1 a) i)

/-- What level sets are asked for: none of them is in `[-eps, eps]` anywhere, and every one changes sign. -/
def Fronted (c : Cfg) (nX : List Nat) (h eps : ℝ) (u : Nat → St) : Prop :=
  ∀ i < c.lset, (∀ a < nX.prod, eps < |levels c (u a) i|) ∧
    ∃ a < nX.prod, March.AtInterface ⟨March.gridOf nX, fun _ => h, fun a => levels c (u a) i, eps⟩ a

/-- Distances of a level set with the opposite sign are the distances with the opposite sign. -/
theorem distance_negated {nX : List Nat} (hs : nX.length = 1 ∨ nX.length = 2) {h eps : ℝ} (hh : 0 < h) (heps : 0 ≤ eps) {phi : Nat → ℝ}
    (hphi : ∀ a < nX.prod, eps < |phi a|) (hint : ∃ a < nX.prod, March.AtInterface ⟨March.gridOf nX, fun _ => h, phi, eps⟩ a)
    {g g' : March.Garbage} {fuel fuel' : Nat} (hf : nX.prod < fuel) (hf' : nX.prod < fuel') {r r' : March.Res}
    (e : March.distance ⟨March.gridOf nX, fun _ => h, phi, eps⟩ g fuel = .ok r)
    (e' : March.distance ⟨March.gridOf nX, fun _ => h, fun a => -phi a, eps⟩ g' fuel' = .ok r') {a : Nat} (ha : a < nX.prod) {x x' : ℝ}
    (hx : r.dist a = some x) (hx' : r'.dist a = some x') : x' = -x ∧ x ≠ 0 := by
  have hcases : ∀ y : ℝ, eps < |y| → y ≤ 0 ∨ eps < y := by
    intro y hy
    rcases lt_or_ge 0 y with h0 | h0
    · rw [abs_of_pos h0] at hy
      exact Or.inr hy
    · exact Or.inl h0
  have h1 : ∀ a < nX.prod, phi a ≤ 0 ∨ eps < phi a := fun a ha => hcases _ (hphi a ha)
  have h2 : ∀ a < nX.prod, -1 * phi a ≤ 0 ∨ eps < -1 * phi a := fun a ha => hcases _ (by
    rw [neg_one_mul, abs_neg]; exact hphi a ha)
  obtain ⟨q, q', D, d, d', hD⟩ := March.distance_scale hs hh heps (-1) (by norm_num) h1 h2 hint g g' fuel fuel' hf hf'
  obtain ⟨q2, D2, d2, hd2, hsgn, -⟩ := March.distance_upwind hs hh heps h1 hint g fuel hf
  simp only [neg_one_mul] at d'
  rw [e] at d d2
  rw [e'] at d'
  cases d
  cases d2
  cases d'
  have k1 := (hD a ha).1
  have k2 := (hD a ha).2
  have k3 := hd2 a ha
  rw [hx] at k1 k3
  rw [hx', if_neg (by norm_num)] at k2
  cases k1
  cases k2
  have k4 := Option.some.inj k3
  refine ⟨rfl, ?_⟩
  rw [k4]
  have hs := hsgn a ha
  have hne : phi a ≠ 0 := by
    intro h0
    have := hphi a ha
    rw [h0, abs_zero] at this
    linarith
  rcases lt_or_gt_of_ne hne with h3 | h3
  · exact (hs.2.1 h3).ne
  · exact (hs.1 h3).ne'

/-- Renormalising the reversed field gives the reversed renormalised field, in which no level set is zero. -/
theorem renormalised_reversed {nX : List Nat} (hs : nX.length = 1 ∨ nX.length = 2) {h eps : ℝ} (hh : 0 < h) (heps : 0 ≤ eps)
    {u u1 u1' : Nat → St} (hu : Fronted c nX h eps u) (h1 : Renormalised c nX h eps u u1)
    (h1' : Renormalised c nX h eps (fun a => reversed c (u a)) u1') :
    (u1' = fun a => reversed c (u1 a)) ∧ ∀ a < nX.prod, Sharp c (u1 a) := by
  have hV := lset_le c
  have key : ∀ i < c.lset, ∀ a < nX.prod,
      levels c (u1' a) (c.lset - 1 - i) = -levels c (u1 a) i ∧ levels c (u1 a) i ≠ 0 := by
    intro i hi a ha
    obtain ⟨g, fuel, r, hf, e, hr⟩ := h1.2 i hi
    obtain ⟨g', fuel', r', hf', e', hr'⟩ := h1'.2 (c.lset - 1 - i) (by omega)
    simp only [reversed_level c _ (show c.lset - 1 - i < c.lset by omega), show c.lset - 1 - (c.lset - 1 - i) = i by omega] at e'
    exact distance_negated hs hh heps (hu i hi).1 (hu i hi).2 hf hf' e e' ha (hr a ha) (hr' a ha)
  refine ⟨?_, fun a ha i hi => (key i hi a ha).2⟩
  funext a k
  by_cases hk : k < c.V - c.lset
  · have e1 : u1' a k = reversed c (u a) k := h1'.1 a k (Or.inl hk)
    rw [e1, reversed_head c _ hk, reversed_head c _ hk, h1.1 a k (Or.inl hk)]
  · by_cases hk2 : k < c.V
    · have hrev : ∀ Q : St, reversed c Q k = -Q (c.V - c.lset + (c.V - 1 - k)) := fun Q => by
        unfold reversed
        rw [if_neg hk, if_pos hk2]
      by_cases ha : a < nX.prod
      · have := (key (c.V - 1 - k) (by omega) a ha).1
        unfold levels at this
        rw [show c.V - c.lset + (c.lset - 1 - (c.V - 1 - k)) = k by omega] at this
        rw [hrev, this]
      · have e1 : u1' a k = reversed c (u a) k := h1'.1 a k (by omega)
        rw [e1, hrev, hrev, h1.1 a _ (by omega)]
    · have hrev : ∀ Q : St, reversed c Q k = Q k := fun Q => by
        unfold reversed
        rw [if_neg hk, if_neg hk2]
      have e1 : u1' a k = reversed c (u a) k := h1'.1 a k (by omega)
      rw [e1, hrev, hrev, h1.1 a k (by omega)]

/-- **Numbering, with renormalisation**: for cells of equal sides and level sets that all change sign and are nowhere in
`[-eps, eps]`, the whole of `fill_ghost_cells` gives every material the same states and the same mask. -/
theorem whole_reversed (hl : 1 ≤ c.lset) (hv : c.viscous = true) (Z : StarSet c) (MPs : List (Option Par))
    (hlen : MPs.length = c.lset + 1) (hP : ∀ p, some p ∈ MPs → Reads c p) (dt : ℝ) {nX : List Nat} (hs : nX.length = 1 ∨ nX.length = 2)
    {h eps : ℝ} (hh : 0 < h) (heps : 0 ≤ eps) (dX : List ℝ) (K : Nat) (dist : (Nat → ℝ) → Nat → ℝ) (grad : (Nat → ℝ) → Nat → List ℝ)
    (order : List Nat) (m : Nat) (hm : m ≤ c.lset) {u u1 u1' : Nat → St} (hu : Fronted c nX h eps u) (h1 : Renormalised c nX h eps u u1)
    (h1' : Renormalised c nX h eps (fun a => reversed c (u a)) u1') :
    ghostsOf Z MPs.reverse dt nX dX K dist grad order (c.lset - m) u1' =
      (ghostsOf Z MPs dt nX dX K dist grad order m u1).map fun r => (fun k => reversed c (r.1 k), r.2) := by
  obtain ⟨e, hsharp⟩ := renormalised_reversed hs hh heps hu h1 h1'
  rw [e]
  exact fill_reversed hl hv Z MPs hlen hP dt nX dX K dist grad order m hm u1 hsharp

/-- Results of `renormalize_levelsets` exist. -/
theorem renormalised_exists {nX : List Nat} (hs : nX.length = 1 ∨ nX.length = 2) {h eps : ℝ} (hh : 0 < h) (heps : 0 ≤ eps)
    {u : Nat → St} (hu : Fronted c nX h eps u) : ∃ u1, Renormalised c nX h eps u u1 := by
  have hV := lset_le c
  have key : ∀ i, ∃ D : Nat → ℝ, i < c.lset → ∃ (g : March.Garbage) (fuel : Nat) (r : March.Res), nX.prod < fuel ∧
      March.distance ⟨March.gridOf nX, fun _ => h, fun a => levels c (u a) i, eps⟩ g fuel = .ok r ∧
      ∀ a < nX.prod, r.dist a = some (D a) := by
    intro i
    by_cases hi : i < c.lset
    · have hphi : ∀ a < nX.prod, levels c (u a) i ≤ 0 ∨ eps < levels c (u a) i := by
        intro a ha
        have := (hu i hi).1 a ha
        rcases lt_or_ge 0 (levels c (u a) i) with h0 | h0
        · rw [abs_of_pos h0] at this
          exact Or.inr this
        · exact Or.inl h0
      obtain ⟨r, D, e, hD, -⟩ := March.distance_upwind hs hh heps hphi (hu i hi).2 ⟨fun _ => 0, fun _ => 0, fun _ => 0, fun _ => 0, fun _ => 0⟩
        (nX.prod + 1) (by omega)
      exact ⟨D, fun _ => ⟨_, _, r, by omega, e, hD⟩⟩
    · exact ⟨fun _ => 0, fun h => absurd h hi⟩
  choose D hD using key
  refine ⟨fun a k => if k < c.V - c.lset ∨ c.V ≤ k ∨ nX.prod ≤ a then u a k else D (k - (c.V - c.lset)) a, fun a k hk => if_pos hk, fun i hi => ?_⟩
  obtain ⟨g, fuel, r, hf, e, hr⟩ := hD i hi
  refine ⟨g, fuel, r, hf, e, fun a ha => ?_⟩
  rw [hr a ha]
  unfold levels
  dsimp only
  rw [if_neg (by omega), show c.V - c.lset + i - (c.V - c.lset) = i by omega]

/-! ### `make_u` -/

/-- The cells of `u'` are those of `u` with the level sets for the other numbering. -/
def CellsReversed (c : Cfg) (n : Nat) (u u' : Mem) : Prop := ∀ i < n, ∀ k < c.V, u' (i * c.V + k) = reversed c (view c u i) k

/-- **Numbering, the way back**: `make_u` joins the grids of the materials in reverse order to the reversed field, if the level
sets of that field are nowhere zero. -/
theorem make_u_reversed (n : Nat) (grids grids' : List Mem) (masks masks' : List (Nat → Bool)) (MPs : List (Option Par))
    (hlen : MPs.length = c.lset + 1) (hg : grids.length = c.lset + 1) (hg' : grids'.length = c.lset + 1)
    (hgr : ∀ m ≤ c.lset, CellsReversed c n (grids.getD m fun _ => 0) (grids'.getD (c.lset - m) fun _ => 0))
    (hmk : ∀ m ≤ c.lset, ∀ i < n, (masks'.getD (c.lset - m) fun _ => false) i = (masks.getD m fun _ => false) i)
    {u u' w w' : Mem} (hu : CellsReversed c n u u') (h : makeU c n grids masks MPs u = some w)
    (h' : makeU c n grids' masks' MPs.reverse u' = some w') (hw : ∀ i < n, Sharp c (view c w i)) : CellsReversed c n w w' := by
  classical
  intro i hi
  have hV := Iter.lset_le c
  obtain ⟨a1, P, a2, a3, a4⟩ := make_u_spec c n grids masks MPs u w h i hi
  obtain ⟨b1, P', b2, b3, b4⟩ := make_u_spec c n grids' masks' MPs.reverse u' w' h' i hi
  -- the level sets
  have hlev : ∀ k, c.V - c.lset ≤ k → k < c.V → w' (i * c.V + k) = reversed c (view c w i) k := by
    intro k hk1 hk2
    have hk3 : c.V - c.lset ≤ c.V - c.lset + (c.V - 1 - k) := by omega
    have hk4 : c.V - c.lset + (c.V - 1 - k) < c.V := by omega
    have hrev : ∀ Q : St, reversed c Q k = -Q (c.V - c.lset + (c.V - 1 - k)) := fun Q => by
      unfold reversed
      rw [if_neg (by omega), if_pos hk2]
    rw [b1 k hk1 hk2, hrev]
    show _ = -w (i * c.V + (c.V - c.lset + (c.V - 1 - k)))
    rw [a1 _ hk3 hk4, hg, hg']
    dsimp only
    set A := (Finset.range (c.lset + 1)).filter fun m => (masks.getD m fun _ => false) i = true with hA
    set A' := (Finset.range (c.lset + 1)).filter fun m => (masks'.getD m fun _ => false) i = true with hA'
    have hinj : Set.InjOn (fun m => c.lset - m) (A : Set ℕ) := by
      intro x hx y hy hxy
      have hx' := Finset.mem_range.1 (Finset.mem_filter.1 (Finset.mem_coe.1 hx)).1
      have hy' := Finset.mem_range.1 (Finset.mem_filter.1 (Finset.mem_coe.1 hy)).1
      dsimp only at hxy
      omega
    have hAA : A' = A.image fun m => c.lset - m := by
      ext m
      simp only [hA, hA', Finset.mem_image, Finset.mem_filter, Finset.mem_range]
      constructor
      · rintro ⟨m1, m2⟩
        refine ⟨c.lset - m, ⟨by omega, ?_⟩, by omega⟩
        rw [← hmk (c.lset - m) (by omega) i hi, show c.lset - (c.lset - m) = m by omega]
        exact m2
      · rintro ⟨x, ⟨x1, x2⟩, rfl⟩
        refine ⟨by omega, ?_⟩
        rw [hmk x (by omega) i hi]
        exact x2
    have hcard : A'.card = A.card := by rw [hAA, Finset.card_image_of_injOn hinj]
    have hsum : ∑ m ∈ A', (grids'.getD m fun _ => 0) (i * c.V + k) =
        -∑ m ∈ A, (grids.getD m fun _ => 0) (i * c.V + (c.V - c.lset + (c.V - 1 - k))) := by
      rw [hAA, Finset.sum_image hinj, ← Finset.sum_neg_distrib]
      refine Finset.sum_congr rfl fun m hm => ?_
      have := Finset.mem_range.1 (Finset.mem_filter.1 hm).1
      rw [hgr m (by omega) i hi k hk2, hrev]
      rfl
    rw [hcard, hsum]
    split_ifs
    · rw [hu i hi k hk2, hrev]
      rfl
    · rw [neg_div]
  -- the material
  have hidx : materialIndex c (view c w' i) = c.lset - materialIndex c (view c w i) := by
    rw [← reversed_index c _ (hw i hi)]
    exact materialIndex_congr c _ _ fun k hk2 hk1 => hlev k hk1 hk2
  have hle := materialIndex_le c (view c w i)
  have hPP : P' = P := by
    rw [hidx, List.getElem?_reverse (by omega), hlen, show c.lset + 1 - 1 - (c.lset - materialIndex c (view c w i)) =
      materialIndex c (view c w i) by omega, a2] at b2
    exact (Option.some.inj b2).symm
  subst hPP
  intro k hk
  by_cases hk1 : k < c.V - c.lset
  · rw [reversed_head c _ hk1]
    show _ = w (i * c.V + k)
    by_cases hPn : P' = none
    · rw [b3 hPn k hk1, a3 hPn k hk1]
    · obtain ⟨g, g1, g2⟩ := a4 hPn
      obtain ⟨g', g1', g2'⟩ := b4 hPn
      rw [g2 k hk1, g2' k hk1]
      have := hgr (materialIndex c (view c w i)) hle i hi k hk
      rw [← hidx, List.getD_eq_getElem?_getD, List.getD_eq_getElem?_getD, g1, g1', reversed_head c _ hk1] at this
      exact this
  · exact hlev k (by omega) hk

/-- The field with the level sets for the other numbering. -/
def revField (c : Cfg) (u : Mem) : Mem := fun j => reversed c (view c u (j / c.V)) (j % c.V)

theorem revField_cells (c : Cfg) (n : Nat) (u : Mem) : CellsReversed c n u (revField c u) := by
  intro i _ k hk
  unfold revField
  have h1 : (i * c.V + k) / c.V = i := by
    rw [Nat.mul_comm, Nat.mul_add_div (by omega), Nat.div_eq_of_lt hk, Nat.add_zero]
  have h2 : (i * c.V + k) % c.V = k := by rw [Nat.mul_comm, Nat.mul_add_mod, Nat.mod_eq_of_lt hk]
  rw [h1, h2]

/-- Three materials, the middle one a vacuum, and a field of which no cell was updated: the hypotheses are met. -/
example (n : Nat) (u : Mem) (hu : ∀ i < n, Sharp (cfgOf false) (view (cfgOf false) u i)) :
    let c := cfgOf false
    let MPs := [some (samplePar sample), none, some (samplePar sample)]
    let grids := [u, u, u]
    let grids' := [revField c u, revField c u, revField c u]
    let masks : List (Nat → Bool) := [fun _ => false, fun _ => false, fun _ => false]
    ∃ w w', makeU c n grids masks MPs u = some w ∧ makeU c n grids' masks MPs.reverse (revField c u) = some w' ∧ CellsReversed c n w w' := by
  intro c MPs grids grids' masks
  obtain ⟨w, hw⟩ := make_u_defined c n grids masks MPs u (by decide) rfl
  obtain ⟨w', hw'⟩ := make_u_defined c n grids' masks MPs.reverse (revField c u) (by decide) rfl
  have hoff : ∀ m i, (masks.getD m fun _ => false) i = false := by
    intro m i
    rcases m with _ | _ | _ | m <;> rfl
  refine ⟨w, w', hw, hw', make_u_reversed n grids grids' masks masks MPs rfl rfl rfl (fun m hm => ?_) (fun m _ i _ => ?_)
    (revField_cells c n u) hw hw' fun i hi => ?_⟩
  · have hm' : m ≤ 2 := hm
    have hl : c.lset = 2 := rfl
    interval_cases m <;> exact revField_cells c n u
  · rw [hoff, hoff]
  · have hV := Iter.lset_le c
    intro j hj
    have h1 := (make_u_spec c n grids masks MPs u w hw i hi).1 (c.V - c.lset + j) (by omega) (by omega)
    have h2 : ((Finset.range grids.length).filter fun m => (masks.getD m fun _ => false) i = true) = ∅ := by
      refine Finset.filter_eq_empty_iff.2 fun m _ => ?_
      rw [hoff]
      simp
    rw [h2] at h1
    simp only [Finset.card_empty, if_true] at h1
    unfold levels view
    rw [h1]
    exact hu i hi j hj

/-- A cell in which all level sets are zero is of the last material, whichever way the materials are numbered. -/
theorem reversed_index_false (Q : St) (h : ∀ i < c.lset, levels c Q i = 0) :
    materialIndex c Q = c.lset ∧ materialIndex c (reversed c Q) = c.lset := by
  classical
  have key : ∀ Q : St, (∀ i < c.lset, levels c Q i = 0) → materialIndex c Q = c.lset := by
    intro Q h
    rw [materialIndex_card, Finset.filter_true_of_mem, Finset.card_range]
    intro i hi
    exact (h i (Finset.mem_range.1 hi)).ge
  refine ⟨key Q h, key _ fun i hi => ?_⟩
  rw [reversed_level c Q hi, h _ (by omega), neg_zero]

/-- Five cells in a row with three materials, the middle one a vacuum: the hypotheses are met, and the level sets change. -/
example : let c := cfgOf false
    let MPs := [some (samplePar sample), none, some (samplePar sample)]
    let u : Nat → St := fun a k => if k = 14 then (a : ℝ) - 3 / 2 else if k = 15 then (a : ℝ) - 5 / 2 else a + 1
    (∀ a < [5].prod, Sharp c (u a)) ∧ MPs.length = c.lset + 1 ∧ (∀ p, some p ∈ MPs → Reads c p) ∧
      materialIndex c (u 0) = 0 ∧ materialIndex c (reversed c (u 0)) = 2 ∧ reversed c (u 0) 14 = 5 / 2 ∧
      Fronted c [5] 1 (1 / 4) u := by
  intro c MPs u
  have hV : c.V - c.lset = 14 := by simp [c, cfgOf, Cfg.V, Cfg.mV]
  have hl : c.lset = 2 := rfl
  have l0 : ∀ a, levels c (u a) 0 = (a : ℝ) - 3 / 2 := fun a => by simp [levels, hV, u]
  have l1 : ∀ a, levels c (u a) 1 = (a : ℝ) - 5 / 2 := fun a => by simp [levels, hV, u]
  have hs : ∀ a, Sharp c (u a) := by
    intro a i hi
    rw [hl] at hi
    have key : ∀ k : ℕ, (2 * k + 1) % 2 = 1 → (a : ℝ) - (2 * k + 1) / 2 ≠ 0 := by
      intro k _ h
      have h2 : ((2 * a : ℕ) : ℝ) = ((2 * k + 1 : ℕ) : ℝ) := by push_cast; linarith
      have h3 : 2 * a = 2 * k + 1 := by exact_mod_cast h2
      omega
    obtain rfl | rfl : i = 0 ∨ i = 1 := by omega
    · rw [l0]
      have := key 1 (by omega)
      norm_num at this ⊢
      exact this
    · rw [l1]
      have := key 2 (by omega)
      norm_num at this ⊢
      exact this
  have h0 : materialIndex c (u 0) = 0 := by
    have e0 := l0 0
    have e1 := l1 0
    unfold levels at e0 e1
    unfold materialIndex
    rw [hl] at e0 e1 ⊢
    simp only [List.range_succ, List.range_zero, List.nil_append, List.cons_append, List.foldl_cons, List.foldl_nil, e0, e1]
    norm_num
  refine ⟨fun a _ => hs a, rfl, fun p hp => ?_, h0, ?_, ?_, ?_⟩
  · have : p = samplePar sample := by
      simp [MPs] at hp
      exact hp
    subst this
    exact Or.inr ⟨rfl, by norm_num [samplePar]⟩
  · rw [reversed_index c _ (hs 0), h0, hl]
  · have := reversed_level c (u 0) (i := 0) (by rw [hl]; norm_num)
    rw [hl, show 2 - 1 - 0 = 1 from rfl, l1] at this
    unfold levels at this
    rw [hV] at this
    rw [show (14 : ℕ) = 14 + 0 from rfl, this]
    norm_num
  · intro i hi
    rw [hl] at hi
    have far : ∀ a k : ℕ, (1 : ℝ) / 4 < |(a : ℝ) - (k + 1 / 2)| := by
      intro a k
      rcases Nat.lt_or_ge k a with hk | hk
      · have : (k : ℝ) + 1 ≤ a := by exact_mod_cast hk
        rw [abs_of_pos (by linarith)]
        linarith
      · have : (a : ℝ) ≤ k := by exact_mod_cast hk
        rw [abs_of_neg (by linarith)]
        linarith
    obtain rfl | rfl : i = 0 ∨ i = 1 := by omega
    · simp only [l0]
      refine ⟨fun a _ => ?_, 1, by norm_num, Or.inr ⟨0, by simp [March.gridOf], true, 2, by rw [March.nb1]; rfl, ?_⟩⟩
      · have := far a 1
        norm_num at this ⊢
        exact this
      · show ((1 : ℕ) - 3 / 2 : ℝ) * ((2 : ℕ) - 3 / 2) < 0
        norm_num
    · simp only [l1]
      refine ⟨fun a _ => ?_, 2, by norm_num, Or.inr ⟨0, by simp [March.gridOf], true, 3, by rw [March.nb1]; rfl, ?_⟩⟩
      · have := far a 2
        norm_num at this ⊢
        exact this
      · show ((2 : ℕ) - 5 / 2 : ℝ) * ((3 : ℕ) - 5 / 2) < 0
        norm_num

end

end Verif.Run
