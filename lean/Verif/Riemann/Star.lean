import Verif.Riemann.Rest
import Verif.Relax.Launch

/-!
# The interface state (C58)
-/

namespace Verif.Riemann

open Verif.Sys Verif.Rot Verif.Relax Verif.Grid

attribute [local instance] Classical.propDecidable

/-- The loop ends after at most ten passes; it ends earlier only at converged states, and it goes on at all others. -/
theorem starLoop_spec {α : Type} (check : α → Prop) (body : α → α) : ∀ (fuel count : Nat) (s : α), count ≤ 10 →
    11 ≤ fuel + count → ∃ k, count + k ≤ 10 ∧ starLoop check body fuel count s = some (count + k, body^[k] s) ∧
      (count + k < 10 → check (body^[k] s)) ∧ ∀ j < k, ¬ check (body^[j] s) := by
  intro fuel
  induction fuel with
  | zero => intro count s h1 h2; omega
  | succ fuel ih =>
    intro count s h1 h2
    unfold starLoop
    by_cases h : ¬ check s ∧ count < 10
    · obtain ⟨k, k1, k2, k3, k4⟩ := ih (count + 1) (body s) (by omega) (by omega)
      refine ⟨k + 1, by omega, ?_, ?_, ?_⟩
      · rw [if_pos h, k2, Function.iterate_succ_apply, show count + 1 + k = count + (k + 1) by omega]
      · intro hk
        rw [Function.iterate_succ_apply]
        exact k3 (by omega)
      · rintro (_ | j) hj
        · exact h.1
        · rw [Function.iterate_succ_apply]
          exact k4 j (by omega)
    · refine ⟨0, by omega, by rw [if_neg h]; rfl, fun hk => ?_, fun j hj => by omega⟩
      by_contra hc
      exact h ⟨hc, by omega⟩

section
variable (c : Cfg) (stick relax : Bool) (tol : ℝ) (S : Solvers) (svd : M3 → M3 × V3 × M3) (junk : Fin 2 → Fin (n1 c) → ℝ)
  (PL : Par) (PR : Option Par) (dt : ℝ) (n : List ℝ) (fuel : Nat) (QL QR : St)

/-- The two states, in the axes of the interface, after `j` passes; `none` if a NaN has appeared. -/
noncomputable def refined (j : Nat) : Option (St × St) :=
  (fun s => s.bind (body c stick relax S svd junk PL PR dt))^[j]
    (some (rotateTensors c QL (rotationMatrix n), rotateTensors c QR (rotationMatrix n)))

theorem refined_succ (j : Nat) : refined c stick relax S svd junk PL PR dt n QL QR (j + 1) =
    (refined c stick relax S svd junk PL PR dt n QL QR j).bind (body c stick relax S svd junk PL PR dt) := by
  unfold refined
  rw [Function.iterate_succ_apply']

theorem pair_unpair (s : Option (St × St)) : pair (unpair s) = s := by
  cases s <;> rfl

theorem pair_iter (b : St × St → Option (St × St)) (s : Option St × Option St) (j : Nat) :
    pair ((fun s => unpair ((pair s).bind b))^[j] s) = (fun s => s.bind b)^[j] (pair s) := by
  induction j with
  | zero => rfl
  | succ j ih => rw [Function.iterate_succ_apply', Function.iterate_succ_apply', pair_unpair, ih]

theorem iter_fst (b : St × St → Option (St × St)) (Q R : St) (j : Nat) :
    ((fun s => unpair ((pair s).bind b))^[j] (some Q, some R)).1 = ((fun s => s.bind b)^[j] (some (Q, R))).map Prod.fst := by
  cases j with
  | zero => rfl
  | succ j =>
    rw [Function.iterate_succ_apply', Function.iterate_succ_apply', pair_iter]
    rfl

/-- **C58**: `left_star_state` makes at most ten refinement steps.  It stops before the tenth only when the two states agree up
to the tolerance, and takes another step whenever they do not.  If the refined states contain a NaN the left state is returned
exactly as it was given; otherwise the refined left state is returned, in the original axes. -/
theorem left_star (hf : 11 ≤ fuel) : ∃ (k : Nat) (Q : St), k ≤ 10 ∧
    leftStar c stick relax tol S svd junk PL PR dt n fuel QL QR = some (k, some Q) ∧
    (refined c stick relax S svd junk PL PR dt n QL QR k = none → k = 10 ∧ Q = QL) ∧
    (∀ t, refined c stick relax S svd junk PL PR dt n QL QR k = some t →
      Q = rotateTensors c t.1 (rotationMatrix n).transpose ∧ (k < 10 → converged c stick tol PL PR t)) ∧
    ∀ j < k, ∀ t, refined c stick relax S svd junk PL PR dt n QL QR j = some t → ¬ converged c stick tol PL PR t := by
  obtain ⟨k, h1, h2, h3, h4⟩ := starLoop_spec (fun s => ∃ t, pair s = some t ∧ converged c stick tol PL PR t)
    (fun s => unpair ((pair s).bind (body c stick relax S svd junk PL PR dt))) fuel 0
    (some (rotateTensors c QL (rotationMatrix n)), some (rotateTensors c QR (rotationMatrix n))) (by omega) (by omega)
  simp only [zero_add] at h1 h2 h3
  have hp : ∀ j, pair ((fun s => unpair ((pair s).bind (body c stick relax S svd junk PL PR dt)))^[j]
      (some (rotateTensors c QL (rotationMatrix n)), some (rotateTensors c QR (rotationMatrix n)))) =
        refined c stick relax S svd junk PL PR dt n QL QR j := fun j => pair_iter _ _ _
  simp only [hp] at h3 h4
  have hres : leftStar c stick relax tol S svd junk PL PR dt n fuel QL QR = some (k,
      if (refined c stick relax S svd junk PL PR dt n QL QR k).map Prod.fst = none then some QL else
        ((refined c stick relax S svd junk PL PR dt n QL QR k).map Prod.fst).map
          fun Q => rotateTensors c Q (rotationMatrix n).transpose) := by
    unfold leftStar leftStarOf
    simp only [Option.map_some]
    rw [h2]
    simp only [Option.map_some]
    rw [iter_fst]
    rfl
  have hj : ∀ j < k, ∀ t, refined c stick relax S svd junk PL PR dt n QL QR j = some t → ¬ converged c stick tol PL PR t :=
    fun j hj t ht hc => h4 j hj ⟨t, ht, hc⟩
  cases hk : refined c stick relax S svd junk PL PR dt n QL QR k with
  | none =>
    refine ⟨k, QL, h1, by rw [hres, hk]; rfl, fun _ => ⟨?_, rfl⟩, fun t ht => by simp [hk] at ht, hj⟩
    by_contra hne
    obtain ⟨t, ht, -⟩ := h3 (by omega)
    rw [hk] at ht
    cases ht
  | some t =>
    refine ⟨k, _, h1, by rw [hres, hk]; rfl, fun h => by simp [hk] at h, ?_, hj⟩
    intro t' ht'
    rw [hk] at ht'
    obtain rfl := Option.some.inj ht'
    refine ⟨rfl, fun hlt => ?_⟩
    obtain ⟨t', ht', hc⟩ := h3 hlt
    rw [hk] at ht'
    obtain rfl := Option.some.inj ht'
    exact hc

/-- States that already agree up to the tolerance are left alone: no step is made and the left state is returned. -/
theorem left_star_idle (hf : 1 ≤ fuel) (hn : Unit n)
    (h : converged c stick tol PL PR (rotateTensors c QL (rotationMatrix n), rotateTensors c QR (rotationMatrix n))) :
    leftStar c stick relax tol S svd junk PL PR dt n fuel QL QR = some (0, some QL) := by
  obtain ⟨fuel, rfl⟩ := Nat.exists_eq_add_of_le' hf
  unfold leftStar leftStarOf starLoop
  rw [if_neg]
  · simp only [Option.map_some, if_neg (show ¬ (some (rotateTensors c QL (rotationMatrix n)) : Option St) = none by simp),
      rotation_round_trip c QL n hn]
  · rintro ⟨h', -⟩
    exact h' ⟨_, rfl, h⟩

/-! ### Mass fractions and level sets -/

theorem body_keeps (hv : c.viscous = true)
    (hs : ∀ A, IsSVD A (svd A).1 (svd A).2.2 (svd A).2.1) (s s' : St × St)
    (h : body c stick relax S svd junk PL PR dt s = some s') :
    (c.multi = true → s'.1 c.mV = s.1 c.mV / s.1 0 * s'.1 0) ∧
    ∀ i, c.mV + (if c.multi then 1 else 0) ≤ i → s'.1 i = s.1 i := by
  have h14 := mV_ge c hv
  obtain ⟨t, ht, h⟩ := Option.bind_eq_some_iff.1 h
  have h1 : t.1 0 = s.1 0 ∧ t.1 c.mV = s.1 c.mV ∧ ∀ i, c.mV ≤ i → t.1 i = s.1 i := by
    by_cases hr : relax = true
    · rw [if_pos hr] at ht
      obtain ⟨QL, e1, ht⟩ := Option.bind_eq_some_iff.1 ht
      obtain ⟨QR, e2, rfl⟩ := Option.map_eq_some_iff.1 ht
      obtain ⟨k, -⟩ := odeAnalytic_spec c PL svd (dt / 2) s.1 QL hv (hs _) e1
      have hk : ∀ i, c.mV ≤ i → QL i = s.1 i := fun i hi => k i (by omega) (by
        rintro ⟨h, _, _⟩
        have := mV_thermal c hv h
        omega)
      exact ⟨k 0 (by omega) (by omega), hk _ le_rfl, hk⟩
    · rw [if_neg hr] at ht
      obtain rfl := Option.some.inj ht
      exact ⟨rfl, rfl, fun _ _ => rfl⟩
  have h2 : ∃ R x, s'.1 = shift c PL R x t.1 := by
    cases PR with
    | some PR =>
      obtain ⟨RL, RR, x, -, -, -, rfl⟩ := stepper_some h
      exact ⟨_, _, rfl⟩
    | none =>
      unfold starStepper at h
      obtain ⟨RL, eL, h⟩ := Option.bind_eq_some_iff.1 h
      simp only at h
      obtain ⟨x, hx, rfl⟩ := Option.map_eq_some_iff.1 h
      exact ⟨_, _, rfl⟩
  obtain ⟨R, x, e⟩ := h2
  obtain ⟨k1, k2⟩ := shift_rest c PL R x t.1 hv
  rw [e]
  refine ⟨fun hm => ?_, fun i hi => ?_⟩
  · rw [k1 hm, h1.1, h1.2.1]
  · rw [k2 i hi, h1.2.2 i (by omega)]

/-- The level sets of the returned state are those of the left state, and as long as the density does not vanish on the way so
is the mass fraction. -/
theorem left_star_keeps (hv : c.viscous = true) (hs : ∀ A, IsSVD A (svd A).1 (svd A).2.2 (svd A).2.1)
    (k : Nat) (Q : St) (h : leftStar c stick relax tol S svd junk PL PR dt n fuel QL QR = some (k, some Q)) (hf : 11 ≤ fuel) :
    (∀ i, c.mV + (if c.multi then 1 else 0) ≤ i → Q i = QL i) ∧
    (c.multi = true → (∀ j ≤ k, ∀ t, refined c stick relax S svd junk PL PR dt n QL QR j = some t → t.1 0 ≠ 0) →
      Q c.mV * QL 0 = QL c.mV * Q 0) := by
  have h14 := mV_ge c hv
  have hrot : ∀ (Q : St) R i, i = 0 ∨ c.mV ≤ i → rotateTensors c Q R i = Q i := fun Q R i hi =>
    rotate_other c Q R i (by
      rcases hi with rfl | hi
      · left; omega
      · right
        refine ⟨by omega, fun ht => ?_⟩
        have := mV_thermal c hv ht
        omega)
  have key : ∀ j t, refined c stick relax S svd junk PL PR dt n QL QR j = some t →
      (∀ i, c.mV + (if c.multi then 1 else 0) ≤ i → t.1 i = QL i) ∧
      (c.multi = true → (∀ i ≤ j, ∀ t, refined c stick relax S svd junk PL PR dt n QL QR i = some t → t.1 0 ≠ 0) →
        t.1 c.mV * QL 0 = QL c.mV * t.1 0) := by
    intro j
    induction j with
    | zero =>
      intro t ht
      obtain rfl := Option.some.inj ht
      exact ⟨fun i hi => hrot _ _ _ (Or.inr (by omega)), fun _ _ => by
        dsimp only
        rw [hrot _ _ _ (Or.inr le_rfl), hrot _ _ _ (Or.inl rfl)]⟩
    | succ j ih =>
      intro t ht
      rw [refined_succ] at ht
      obtain ⟨s, e, hb⟩ := Option.bind_eq_some_iff.1 ht
      obtain ⟨k1, k2⟩ := ih s e
      obtain ⟨b1, b2⟩ := body_keeps c stick relax S svd junk PL PR dt hv hs s t hb
      refine ⟨fun i hi => by rw [b2 i hi, k1 i hi], fun hm hd => ?_⟩
      have h0 := hd j (by omega) s e
      have := k2 hm fun i hi => hd i (by omega)
      rw [b1 hm]
      field_simp
      linear_combination t.1 0 * this
  obtain ⟨k', Q', -, e, e1, e2, -⟩ := left_star c stick relax tol S svd junk PL PR dt n fuel QL QR hf
  rw [h] at e
  simp only [Option.some.injEq, Prod.mk.injEq] at e
  obtain ⟨rfl, rfl⟩ := e
  cases hk : refined c stick relax S svd junk PL PR dt n QL QR k with
  | none =>
    obtain ⟨-, rfl⟩ := e1 hk
    exact ⟨fun _ _ => rfl, fun _ _ => rfl⟩
  | some t =>
    obtain ⟨rfl, -⟩ := e2 t hk
    obtain ⟨k1, k2⟩ := key k t hk
    refine ⟨fun i hi => by rw [hrot _ _ _ (Or.inr (by omega)), k1 i hi], fun hm hd => ?_⟩
    rw [hrot _ _ _ (Or.inr le_rfl), hrot _ _ _ (Or.inl rfl)]
    exact k2 hm hd

end

/-! ### What convergence means for the states in the original axes -/

/-- The traction of the total stress on the surface with normal `n`. -/
noncomputable def traction (c : Cfg) (P : Par) (Q : St) (n : List ℝ) : V3 :=
  fun i => pressure c P Q * pad n i - (sigma P.toParams Q).mulVec (pad n) i

theorem rotated_total (c : Cfg) (P : Par) (Q : St) (n : List ℝ) (hv : c.viscous = true) (h : Unit n) :
    SigmaCol c P (rotateTensors c Q (rotationMatrix n)) 0 = (rotationMatrix n).mulVec (traction c P Q n) := by
  have hr := rotation_matrix_proper n h
  have hp := (rotation_invariant c P Q (rotationMatrix n) hv hr.2.2.1).2.2.1
  have ht := rotated_traction c P Q n hv h
  have e : traction c P Q n = pressure c P Q • pad n - (sigma P.toParams Q).mulVec (pad n) := rfl
  rw [e, Matrix.mulVec_sub, Matrix.mulVec_smul, hr.2.2.2.2.1]
  funext i
  rw [Pi.sub_apply, ← ht, Pi.smul_apply]
  unfold SigmaCol
  rw [hp]
  fin_cases i <;> simp <;> ring

theorem small_lt {tol a b : ℝ} (hb : 0 < b) (h : small tol a b) : a < tol * b := by
  obtain ⟨-, h⟩ := h
  rwa [div_lt_iff₀ hb] at h

theorem sq3_le {R : M3} (hR : R.transpose * R = 1) (w : V3) (e : ℝ) (h : ∀ i, |R.mulVec w i| < e) : sq3 w ≤ 3 * e ^ 2 := by
  rw [← sq3_rotate R hR w]
  have k : ∀ i, R.mulVec w i ^ 2 ≤ e ^ 2 := fun i => sq_le_sq' (abs_lt.1 (h i)).1.le (abs_lt.1 (h i)).2.le
  have := k 0
  have := k 1
  have := k 2
  simp only [sq3]
  nlinarith

section
variable (c : Cfg) (stick relax : Bool) (tol : ℝ) (S : Solvers) (svd : M3 → M3 × V3 × M3) (junk : Fin 2 → Fin (n1 c) → ℝ)
  (PL : Par) (dt : ℝ) (n : List ℝ) (fuel : Nat) (QL QR : St)

theorem rotate_there (Q : St) (hn : Unit n) :
    rotateTensors c (rotateTensors c Q (rotationMatrix n).transpose) (rotationMatrix n) = Q :=
  rotate_back c Q _ _ (rotation_matrix_proper n hn).2.1

/-- At a free surface: if fewer than ten steps were made, the traction of the returned state on the surface is zero up to the
tolerance, relative to the scale `b02 * ρ0`. -/
theorem left_star_free (k : Nat) (Q : St) (hv : c.viscous = true) (hn : Unit n) (hf : 11 ≤ fuel)
    (hb : 0 < PL.b02 * PL.ρ0)
    (h : leftStar c stick relax tol S svd junk PL none dt n fuel QL QR = some (k, some Q)) (hk : k < 10) :
    sq3 (traction c PL Q n) ≤ 3 * (tol * (PL.b02 * PL.ρ0)) ^ 2 := by
  obtain ⟨k', Q', -, e, e1, e2, -⟩ := left_star c stick relax tol S svd junk PL none dt n fuel QL QR hf
  rw [h] at e
  simp only [Option.some.injEq, Prod.mk.injEq] at e
  obtain ⟨rfl, rfl⟩ := e
  cases hr : refined c stick relax S svd junk PL none dt n QL QR k with
  | none => exact absurd (e1 hr).1 (by omega)
  | some t =>
    obtain ⟨rfl, hc⟩ := e2 t hr
    obtain ⟨-, hc, -⟩ := hc hk
    refine sq3_le (rotation_matrix_proper n hn).2.2.1 _ _ fun i => ?_
    rw [← rotated_total c PL _ n hv hn, rotate_there c n t.1 hn]
    exact small_lt hb (hc i)

/-- At an interface between two materials: if fewer than ten steps were made, the returned state and the refined state on the
other side agree in normal traction and normal velocity up to the tolerance, and if the materials stick together in the whole
traction and the whole velocity. -/
theorem left_star_match (PR : Par) (k : Nat) (Q : St) (hv : c.viscous = true) (hn : Unit n) (hf : 11 ≤ fuel)
    (hb : 0 < min PL.b02 PR.b02) (hd : 0 < min PL.ρ0 PR.ρ0)
    (h : leftStar c stick relax tol S svd junk PL (some PR) dt n fuel QL QR = some (k, some Q)) (hk : k < 10) :
    ∃ t, refined c stick relax S svd junk PL (some PR) dt n QL QR k = some t ∧
      Q = rotateTensors c t.1 (rotationMatrix n).transpose ∧
      let Q' := rotateTensors c t.2 (rotationMatrix n).transpose
      |(traction c PL Q n - traction c PR Q' n) ⬝ᵥ pad n| < tol * (min PL.b02 PR.b02 * min PL.ρ0 PR.ρ0) ∧
      |(vel Q - vel Q') ⬝ᵥ pad n| < tol * Real.sqrt (min PL.b02 PR.b02) ∧
      (stick = true → sq3 (traction c PL Q n - traction c PR Q' n) ≤ 3 * (tol * (min PL.b02 PR.b02 * min PL.ρ0 PR.ρ0)) ^ 2 ∧
        sq3 (vel Q - vel Q') ≤ 3 * (tol * Real.sqrt (min PL.b02 PR.b02)) ^ 2) := by
  obtain ⟨k', Q', -, e, e1, e2, -⟩ := left_star c stick relax tol S svd junk PL (some PR) dt n fuel QL QR hf
  rw [h] at e
  simp only [Option.some.injEq, Prod.mk.injEq] at e
  obtain ⟨rfl, rfl⟩ := e
  cases hr : refined c stick relax S svd junk PL (some PR) dt n QL QR k with
  | none => exact absurd (e1 hr).1 (by omega)
  | some t =>
    obtain ⟨rfl, hc⟩ := e2 t hr
    obtain ⟨-, hc, -⟩ := hc hk
    refine ⟨t, rfl, rfl, ?_⟩
    have hR := rotation_matrix_proper n hn
    have hbd := mul_pos hb hd
    have hsq := Real.sqrt_pos.2 hb
    have h1 : ∀ i, (rotationMatrix n).mulVec (traction c PL (rotateTensors c t.1 (rotationMatrix n).transpose) n -
        traction c PR (rotateTensors c t.2 (rotationMatrix n).transpose) n) i =
          SigmaCol c PL t.1 0 i - SigmaCol c PR t.2 0 i := by
      intro i
      rw [Matrix.mulVec_sub, ← rotated_total c PL _ n hv hn, ← rotated_total c PR _ n hv hn, rotate_there c n t.1 hn,
        rotate_there c n t.2 hn, Pi.sub_apply]
    have h2 : ∀ i, (rotationMatrix n).mulVec (vel (rotateTensors c t.1 (rotationMatrix n).transpose) -
        vel (rotateTensors c t.2 (rotationMatrix n).transpose)) i = vel t.1 i - vel t.2 i := by
      intro i
      rw [Matrix.mulVec_sub, ← vel_rotate, ← vel_rotate, rotate_there c n t.1 hn, rotate_there c n t.2 hn, Pi.sub_apply]
    have h0 : ∀ w : V3, w ⬝ᵥ pad n = (rotationMatrix n).mulVec w 0 := by
      intro w
      rw [← hR.2.2.2.2.2, dotProduct_comm]
      rfl
    cases stick
    · simp only [if_neg (show ¬ false = true by simp)] at hc
      refine ⟨?_, ?_, fun h => absurd h (by simp)⟩
      · rw [h0, h1]
        exact small_lt hbd hc.1
      · rw [h0, h2]
        exact small_lt hsq hc.2
    · simp only [if_true] at hc
      refine ⟨?_, ?_, fun _ => ⟨?_, ?_⟩⟩
      · rw [h0, h1]
        exact small_lt hbd (hc.1 0)
      · rw [h0, h2]
        exact small_lt hsq (hc.2 0)
      · exact sq3_le hR.2.2.1 _ _ fun i => by rw [h1]; exact small_lt hbd (hc.1 i)
      · exact sq3_le hR.2.2.1 _ _ fun i => by rw [h2]; exact small_lt hsq (hc.2 i)

/-- Materials without shear waves (`b02 = 0`) get no interface state: the scales divided by are zero, so nothing counts as
converged, every step gives NaNs, and after ten steps the left state is returned as it was. -/
theorem left_star_inviscid (PR : Option Par) (hf : 11 ≤ fuel) (hL : 0 ≤ PL.b02) (hR : ∀ P ∈ PR, 0 ≤ P.b02)
    (h : PL.b02 = 0 ∨ ∃ P ∈ PR, P.b02 = 0) :
    leftStar c stick relax tol S svd junk PL PR dt n fuel QL QR = some (10, some QL) := by
  obtain ⟨k, Q, hk, e, e1, e2, e3⟩ := left_star c stick relax tol S svd junk PL PR dt n fuel QL QR hf
  have hc : ∀ t, ¬ converged c stick tol PL PR t := by
    rintro t ⟨-, ht, -⟩
    cases PR with
    | none =>
      have h : PL.b02 = 0 := by
        rcases h with h | ⟨P, hP, -⟩
        · exact h
        · cases hP
      exact (ht 0).1 (by rw [h, zero_mul])
    | some PR =>
      have h : min PL.b02 PR.b02 = 0 := by
        rcases h with h | ⟨P, hP, h⟩
        · rw [h, min_eq_left (hR PR rfl)]
        · obtain rfl := Option.some.inj hP
          rw [h, min_eq_right hL]
      simp only [h] at ht
      split_ifs at ht
      · exact (ht.1 0).1 (by rw [zero_mul])
      · exact ht.1.1 (by rw [zero_mul])
  have hs : ∀ t, body c stick relax S svd junk PL PR dt t = none := by
    intro t
    unfold body
    rw [Option.bind_eq_none_iff]
    intro s hs
    unfold starStepper
    by_cases h0 : PL.b02 = 0
    · have : constraints c PL S 1 s.1 = none := if_neg fun hd => hd.shear (by rw [cs2, h0, zero_mul])
      rw [this]
      rfl
    · obtain ⟨P, hP, hb⟩ := h.resolve_left h0
      obtain rfl : PR = some P := hP
      rw [Option.bind_eq_none_iff]
      intro RL hRL
      have : constraints c P S (-1) s.2 = none := if_neg fun hd => hd.shear (by rw [cs2, hb, zero_mul])
      simp only [this]
      rfl
  have h10 : k = 10 := by
    cases hr : refined c stick relax S svd junk PL PR dt n QL QR k with
    | none => exact (e1 hr).1
    | some t =>
      by_contra hne
      exact hc t ((e2 t hr).2 (by omega))
  subst h10
  have hr : refined c stick relax S svd junk PL PR dt n QL QR (9 + 1) = none := by
    rw [refined_succ, Option.bind_eq_none_iff]
    exact fun t _ => hs t
  rw [e, (e1 hr).2]

end

/-- One material slides along another: nothing has to be done, and the hypotheses of `left_star_match` hold. -/
example (relax : Bool) (S : Solvers) (svd : M3 → M3 × V3 × M3) (dt : ℝ) : Unit [0, 1] ∧
    0 < min (samplePar sample).b02 (samplePar sample).b02 ∧ 0 < min (samplePar sample).ρ0 (samplePar sample).ρ0 ∧
    leftStar (cfgOf false) false relax (1 / 10 ^ 8) S svd (fun _ _ => 0) (samplePar sample) (some (samplePar sample)) dt [0, 1] 11
      (moving 5) (moving 0) = some (0, some (moving 5)) := by
  have hn : Unit [0, 1] := ⟨by simp, by simp⟩
  have ht : ∀ v, traction (cfgOf false) (samplePar sample) (moving v) [0, 1] = fun i => 5 * pad [0, 1] i := by
    intro v
    obtain ⟨hA, -, -, hp, -⟩ := moving_facts v
    have hs : sigma (samplePar sample).toParams (moving v) = 0 := by
      ext i j
      rw [sigma_apply, (Eig.unit_stress (samplePar sample).toParams (moving v) hA j).1]
      rfl
    funext i
    simp only [traction, hp, hs, Matrix.zero_mulVec, Pi.zero_apply, sub_zero]
  have hv : ∀ v, vel (rotateTensors (cfgOf false) (moving v) (rotationMatrix [0, 1])) 0 = 0 := by
    intro v
    rw [vel_rotate, Matrix.mulVec, (rotation_matrix_proper [0, 1] hn).2.2.2.2.2]
    simp [dotProduct, Fin.sum_univ_three, pad, vel, getRv, moving, stateAtRest]
  refine ⟨hn, by norm_num [samplePar, sample], by norm_num [samplePar, sample],
    left_star_idle _ _ _ _ _ _ _ _ _ _ _ _ _ _ (by norm_num) hn ⟨⟨?_, fun _ => ?_⟩, ?_, fun h => absurd h (by simp [cfgOf])⟩⟩
  · show rotateTensors (cfgOf false) (moving 5) (rotationMatrix [0, 1]) 0 ≠ 0
    rw [rotate_other (cfgOf false) (moving 5) _ 0 (Or.inl (by omega))]
    norm_num [moving, stateAtRest]
  · show rotateTensors (cfgOf false) (moving 0) (rotationMatrix [0, 1]) 0 ≠ 0
    rw [rotate_other (cfgOf false) (moving 0) _ 0 (Or.inl (by omega))]
    norm_num [moving, stateAtRest]
  simp only [if_neg (show ¬ false = true by simp)]
  refine ⟨⟨by norm_num [samplePar, sample], ?_⟩, ⟨by norm_num [samplePar, sample], ?_⟩⟩
  · rw [rotated_total _ _ _ _ rfl hn, rotated_total _ _ _ _ rfl hn, ht, ht, sub_self, abs_zero, zero_div]
    norm_num
  · rw [hv, hv, sub_self, abs_zero, zero_div]
    norm_num

/-- An inviscid gas beside a solid. -/
example : ∃ PL : Par, PL.b02 = 0 ∧ 0 < (samplePar sample).b02 ∧ ∀ QL QR : St, ∀ (S : Solvers) (svd : M3 → M3 × V3 × M3),
    leftStar (cfgOf false) true true (1 / 10 ^ 8) S svd (fun _ _ => 0) PL (some (samplePar sample)) 1 [3 / 5, 4 / 5] 11 QL QR =
      some (10, some QL) := by
  refine ⟨samplePar { sample with b02 := 0 }, rfl, by norm_num [samplePar, sample], fun QL QR S svd => ?_⟩
  refine left_star_inviscid _ _ _ _ _ _ _ _ _ _ _ _ _ _ (by norm_num) (by norm_num [samplePar]) ?_ (Or.inl rfl)
  rintro P ⟨⟩
  norm_num [samplePar, sample]

end Verif.Riemann
