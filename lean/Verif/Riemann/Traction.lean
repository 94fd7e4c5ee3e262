import Verif.Riemann.Impedance

/-!
# What one step does to the tractions
-/

namespace Verif.Riemann

open Verif.Sys Verif.Eig Verif.Rot

noncomputable section

/-- The straight line from one state to another in primitive variables. -/
def between (c : Cfg) (P : Par) (Q Q' : St) (t : ℝ) : St :=
  pvecToCvec c P fun i => (1 - t) * cvecToPvec c P Q i + t * cvecToPvec c P Q' i

section
variable (c : Cfg) (P : Par) (S : Solvers) (Q : St) (R : Hat c) (x : Fin (n1 c) → ℝ)

theorem move_between (t : ℝ) (p : St) : (fun i => (1 - t) * p i + t * move c R x p i) = move c R (t • x) p := by
  funext i
  unfold move
  rw [Matrix.mulVec_smul, Matrix.mulVec_smul]
  split_ifs
  · rw [Pi.smul_apply, smul_eq_mul]; ring
  · rw [Pi.smul_apply, smul_eq_mul]; ring
  · ring

theorem between_shift (hv : c.viscous = true) (hm : P.multi = false) (hρ : shift c P R x Q 0 ≠ 0)
    (hΓ : gammaMG P.toParams (shift c P R x Q 0) ≠ 0) (t : ℝ) :
    between c P Q (shift c P R x Q) t = shift c P R (t • x) Q := by
  have e0 : shift c P R x Q 0 = move c R x (cvecToPvec c P Q) 0 := p2c_zero c P _ hv
  have e : cvecToPvec c P (shift c P R x Q) = move c R x (cvecToPvec c P Q) :=
    c2p_p2c c P _ hv hm (e0 ▸ hρ) (e0 ▸ hΓ)
  unfold between
  rw [e, move_between]
  rfl

/-- The ends of the line. -/
theorem between_zero (hv : c.viscous = true) (hm : P.multi = false) (hρ : Q 0 ≠ 0) (hΓ : gammaMG P.toParams (Q 0) ≠ 0)
    (Q' : St) : between c P Q Q' 0 = Q := by
  have := shift_zero c P ⟨0, 0⟩ Q hv hm hρ hΓ
  rw [shift] at this
  unfold between
  have e : (fun i => (1 - 0) * cvecToPvec c P Q i + 0 * cvecToPvec c P Q' i) = move c ⟨0, 0⟩ 0 (cvecToPvec c P Q) := by
    funext i
    simp [move]
  rw [e, this]

/-- With heat conduction the temperature moves as it was asked to. -/
theorem temperature_rate (hv : c.viscous = true) (hm : P.multi = false) (ht : c.thermal = true)
    (hP : Verif.Sys.Regular P.toParams (Q 0)) (hT : P.Tref = 0) (hΓ : gammaMG P.toParams (Q 0) ≠ 0) (hS : S.Ok)
    (hreg : (system c P Q).det ≠ 0) {sgn : ℝ} (hR : constraints c P S sgn Q = some R) :
    HasDerivAt (fun t : ℝ => temperature c P (shift c P R (t • x) Q)) (x ⟨n1 c - 1, by have := three_le c; omega⟩) 0 := by
  have h3 := three_le c
  have hn : n1 c = 4 := by unfold n1; rw [ht]; rfl
  obtain ⟨htop, hcv⟩ : R.top = matX c P S Q ∧ P.cv ≠ 0 := by
    unfold constraints at hR
    split_ifs at hR with hD
    simp only [Option.some.injEq] at hR
    rw [← hR]
    exact ⟨rfl, (hD.heat ht).1⟩
  have hp : HasDerivAt (fun t : ℝ => pressure c P (shift c P R (t • x) Q)) (R.top.mulVec x 1) 0 := by
    have : HasDerivAt (fun t : ℝ => pressure c P Q + t * R.top.mulVec x 1) (R.top.mulVec x 1) 0 := by
      simpa using ((hasDerivAt_id (0 : ℝ)).mul_const (R.top.mulVec x 1)).const_add (pressure c P Q)
    refine this.congr_of_eventuallyEq ?_
    filter_upwards [near_regular c P Q R x hv hP.pos.ne' hΓ] with t ht
    rw [shift_pressure c P R _ Q hv hm ht.1 ht.2, Matrix.mulVec_smul]
    rfl
  have hr : HasDerivAt (fun t : ℝ => shift c P R (t • x) Q 0) (R.top.mulVec x 0) 0 := by
    have : HasDerivAt (fun t : ℝ => Q 0 + t * R.top.mulVec x 0) (R.top.mulVec x 0) 0 := by
      simpa using ((hasDerivAt_id (0 : ℝ)).mul_const (R.top.mulVec x 0)).const_add (Q 0)
    refine this.congr_of_eventuallyEq (Filter.Eventually.of_forall fun t => ?_)
    dsimp only
    rw [shift_dens c P R _ Q hv, Matrix.mulVec_smul]
    rfl
  have e0 : shift c P R ((0 : ℝ) • x) Q = Q := by rw [zero_smul]; exact shift_zero c P R Q hv hm hP.pos.ne' hΓ
  have hd := hasDeriv_temperature P.toParams _ _ _ _ 0 hr hp
  simp only [e0] at hd
  have hspec := congrFun (matX_spec c P S Q hS hreg x) 3
  have e3 : (fun r : Fin 5 => if h : r.1 < n1 c then x ⟨r, h⟩ else 0) 3 = x ⟨n1 c - 1, by omega⟩ := by
    dsimp only
    rw [dif_pos (by rw [hn]; decide)]
    congr 1
    simp [hn]
  replace hspec := hspec.trans e3
  rw [← htop] at hspec
  rw [← hspec]
  refine (hd hP hΓ hcv hT).congr_deriv ?_
  generalize R.top.mulVec x = u
  simp [Matrix.mulVec, dotProduct, Fin.sum_univ_five, system, ht]

end

/-- The hypotheses under which the tractions of one side are differentiated. -/
structure Side (c : Cfg) (P : Par) (Q Q' : St) : Prop where
  pure : P.multi = false
  ref : 0 < P.ρ0
  dens : 0 < Q 0
  shear : P.b02 ≠ 0
  grun : gammaMG P.toParams (Q 0) ≠ 0
  dens' : Q' 0 ≠ 0
  grun' : gammaMG P.toParams (Q' 0) ≠ 0
  heat : c.thermal = true → (system c P Q).det ≠ 0

/-- To first order the traction of `Q'` is `x`: starting from `Q`, along the straight line to `Q'` in primitive variables, the
traction heads for `x`. -/
def Heads (c : Cfg) (P : Par) (Q Q' : St) (x : V3) : Prop :=
  ∀ i, HasDerivAt (fun t => SigmaCol c P (between c P Q Q' t) 0 i) (x i - SigmaCol c P Q 0 i) 0

theorem shift_heads (c : Cfg) (P : Par) (S : Solvers) (Q : St) (R : Hat c) (x : Fin (n1 c) → ℝ) (sgn : ℝ)
    (hv : c.viscous = true) (hS : S.Ok) (hR : constraints c P S sgn Q = some R) (h : Side c P Q (shift c P R x Q)) :
    Heads c P Q (shift c P R x Q) fun i => x (i.castLE (three_le c)) + SigmaCol c P Q 0 i := by
  intro i
  have hreg : (system c P Q).det ≠ 0 := by
    by_cases ht : c.thermal = true
    · exact h.heat ht
    · unfold constraints at hR
      split_ifs at hR with hD
      have := hD.plain (by simpa using ht)
      exact system_regular c P Q (by simpa using ht) this.1 this.2
  simp only [between_shift c P Q R x hv h.pure h.dens' h.grun', add_sub_cancel_right]
  exact traction_rate c P S Q R x hv h.pure h.ref h.dens h.shear h.grun hS hreg hR i

theorem tractions_head (c : Cfg) (P : Par) (Q : St) (i : Fin 3) : tractions c P Q (i.castLE (three_le c)) = SigmaCol c P Q 0 i := by
  unfold tractions
  exact dif_pos i.2

/-- **C57, sticking materials**: to first order both sides get the same traction. -/
theorem stick_traction (c : Cfg) (S : Solvers) (junk : Fin 2 → Fin (n1 c) → ℝ) (PL PR : Par) (s s' : St × St)
    (hv : c.viscous = true) (hS : S.Ok) (h : starStepper c true S junk PL (some PR) s = some s')
    (hL : Side c PL s.1 s'.1) (hR : Side c PR s.2 s'.2) :
    ∃ x, Heads c PL s.1 s'.1 x ∧ Heads c PR s.2 s'.2 x := by
  obtain ⟨RL, RR, x, eL, eR, -, rfl⟩ := stepper_some h
  refine ⟨fun i => x (i.castLE (three_le c)), ?_, ?_⟩
  · have := shift_heads c PL S s.1 RL _ 1 hv hS eL hL
    simpa only [Pi.sub_apply, tractions_head, sub_add_cancel] using this
  · have := shift_heads c PR S s.2 RR _ (-1) hv hS eR hR
    simpa only [Pi.sub_apply, tractions_head, sub_add_cancel] using this

/-- **C57, slipping materials**: to first order both sides get the same normal traction and no tangential traction. -/
theorem slip_traction (c : Cfg) (S : Solvers) (junk : Fin 2 → Fin (n1 c) → ℝ) (PL PR : Par) (s s' : St × St)
    (hv : c.viscous = true) (hS : S.Ok) (h : starStepper c false S junk PL (some PR) s = some s')
    (hL : Side c PL s.1 s'.1) (hR : Side c PR s.2 s'.2) :
    ∃ x : V3, x 1 = 0 ∧ x 2 = 0 ∧ Heads c PL s.1 s'.1 x ∧ Heads c PR s.2 s'.2 x := by
  obtain ⟨RL, RR, x, eL, eR, hx, rfl⟩ := stepper_some h
  have h3 := three_le c
  have htan : ∀ i : Fin 3, i ≠ 0 → x (i.castLE h3) = 0 := by
    intro i hi
    rw [if_neg (by simp)] at hx
    unfold slipBcs at hx
    by_cases ht : c.thermal = true
    · rw [if_pos ht] at hx
      dsimp only at hx
      split_ifs at hx
      simp only [Option.some.injEq] at hx
      rw [← hx]
      dsimp only
      rw [if_neg (by simpa using hi), if_neg (by simp; omega)]
    · rw [if_neg ht] at hx
      split_ifs at hx
      simp only [Option.some.injEq] at hx
      rw [← hx]
      dsimp only
      rw [if_neg (by simpa using hi)]
  refine ⟨fun i => x (i.castLE h3), htan 1 (by decide), htan 2 (by decide), ?_, ?_⟩
  · have := shift_heads c PL S s.1 RL _ 1 hv hS eL hL
    simpa only [Pi.sub_apply, tractions_head, sub_add_cancel] using this
  · have := shift_heads c PR S s.2 RR _ (-1) hv hS eR hR
    simpa only [Pi.sub_apply, tractions_head, sub_add_cancel] using this

/-- **C57 next to a vacuum**: to first order the surface gets free of traction. -/
theorem vacuum_traction (c : Cfg) (stick : Bool) (S : Solvers) (junk : Fin 2 → Fin (n1 c) → ℝ) (PL : Par) (s s' : St × St)
    (hv : c.viscous = true) (hS : S.Ok) (h : starStepper c stick S junk PL none s = some s') (hL : Side c PL s.1 s'.1) :
    Heads c PL s.1 s'.1 0 ∧ s'.2 = 0 := by
  unfold starStepper at h
  obtain ⟨RL, eL, h⟩ := Option.bind_eq_some_iff.1 h
  simp only at h
  obtain ⟨x, hx, rfl⟩ := Option.map_eq_some_iff.1 h
  refine ⟨?_, rfl⟩
  have h3 := three_le c
  have hx' : ∀ i : Fin 3, x (i.castLE h3) = -SigmaCol c PL s.1 0 i := by
    intro i
    rw [← tractions_head]
    unfold vacuumStep at hx
    split_ifs at hx
    · simp only [Option.some.injEq] at hx
      rw [← hx]
      exact if_pos i.2
    · simp only [Option.some.injEq] at hx
      rw [← hx]
  have := shift_heads c PL S s.1 RL _ 1 hv hS eL hL
  simp only [hx', neg_add_cancel] at this
  exact this

end

end Verif.Riemann
