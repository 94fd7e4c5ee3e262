import Verif.Run.Tube
import Verif.Run.Axes
import Verif.Run.SplitFirst
import Verif.March.Exact
import Verif.Riemann.Star

/-! # Two materials next to each other

A line, first order, `split_stepper`: a contact at equal pressures and velocities is carried along with the velocity. -/

namespace Verif.Run

open Verif.Sys Verif.Iter Verif.Dg Verif.Fv Verif.Step Verif.Grid Verif.Rot

noncomputable section

variable {c : Sys.Cfg}

/-! ### What level sets have no influence on -/

section agree

variable (hv : c.viscous = true) (ht : c.thermal = false) (P : Sys.Par) (hP : P.multi = false) (hr : ¬ P.reaction > -1) {Q Q' : St}
  (h : ∀ k < 14, Q k = Q' k)

include h in
theorem agree_basic : Q 0 = Q' 0 ∧ Q 1 = Q' 1 ∧ getRv Q = getRv Q' ∧ getA Q = getA Q' := by
  refine ⟨h 0 (by omega), h 1 (by omega), funext fun i => h _ (by omega), Relax.getA_congr _ _ fun k _ h2 => h k h2⟩

include ht hP hr h

theorem agree_pressure : pressure c P Q = pressure c P Q' := by
  obtain ⟨h0, h1, hRv, hA⟩ := agree_basic h
  have hvel : vel Q = vel Q' := funext fun i => by unfold Sys.vel; rw [h0, hRv]
  simp only [pressure, hP, internalEnergy, h0, h1, hvel, hA, ht, if_neg hr, Bool.false_eq_true, if_false]

include hv in
theorem agree_flux (d : Fin 3) (hm : c.multi = false) (r : St) : flux c P Q d r = flux c P Q' d r := by
  obtain ⟨h0, h1, hRv, hA⟩ := agree_basic h
  have hp := agree_pressure (c := c) ht P hP hr h
  have hs : sigmaCol P.toParams Q d = sigmaCol P.toParams Q' d := Riemann.sigmaCol_congr P.toParams h0 hA d
  simp only [flux, fluxBase, fluxViscous, hv, ht, hm, if_true, Bool.false_eq_true, if_false, h0, h1, hRv, hA, hp, hs]

theorem agree_speed (d : Fin 3) : Eig.maxAbsEigs c P Q d = Eig.maxAbsEigs c P Q' d := by
  obtain ⟨h0, h1, hRv, hA⟩ := agree_basic h
  have hp := agree_pressure (c := c) ht P hP hr h
  have hs : sigmaCol P.toParams Q d = sigmaCol P.toParams Q' d := Riemann.sigmaCol_congr P.toParams h0 hA d
  have hd : dsigmadrho P.toParams Q d = dsigmadrho P.toParams Q' d := by simp only [dsigmadrho, h0, hs]
  have hd' : dsigmadAd P.toParams Q d = dsigmadAd P.toParams Q' d := by simp only [dsigmadAd, h0, hA]
  have hE : dEdrho c P Q = dEdrho c P Q' := by simp only [dEdrho, hP, h0, hA, hp, Bool.false_eq_true, if_false]
  have hE' : dEdp c P Q = dEdp c P Q' := by simp only [dEdp, hP, h0, Bool.false_eq_true, if_false]
  have hc : Eig.c0 c P Q = Eig.c0 c P Q' := by simp only [Eig.c0, hp, hE, hE', h0]
  have x1 : Eig.xi1 c P Q d = Eig.xi1 c P Q' d := by simp only [Eig.xi1, ht, h0, hp, hd, hd']
  have x2 : Eig.xi2 c P Q d = Eig.xi2 c P Q' d := by simp only [Eig.xi2, ht, h0, hp, hs, hd, hc, hA]
  have h2 : Q (2 + d) = Q' (2 + d) := h _ (by omega)
  simp only [Eig.maxAbsEigs, Eig.tensor3, Eig.tensor4, x1, x2, h2, h0]

end agree

/-! ### Cells at rest with a level set -/

/-- The state `Q` with the value `x` of the only level set. -/
def withLevel (c : Sys.Cfg) (Q : St) (x : ℝ) : St := Function.update Q (c.V - 1) x

/-- `Q` is an unstretched state of velocity `w` of a material without reactions, body forces and heat flux. -/
structure Rests (c : Sys.Cfg) (P : Sys.Par) (w : V3) (Q : St) : Prop where
  ease : Newton.AtEase c P Q
  vel : ∀ i : Fin 3, Q (2 + i) = Q 0 * w i
  dense : 0 < P.ρ0
  det : 0 < (getA Q).det
  mass : Q 0 = P.ρ0 * (getA Q).det
  single : P.multi = false

section cell

variable (hv : c.viscous = true) (ht : c.thermal = false) (hm : c.multi = false) (hl : c.lset = 1)

include hv ht hm hl in
theorem contact_V : c.V = 15 ∧ c.mV = 14 := by
  have : c.mV = 14 := by unfold Cfg.mV; simp [hv, ht]
  refine ⟨?_, this⟩
  unfold Cfg.V
  rw [this, hm, hl]
  simp

variable (E : Env c 1) (w : V3) (Q : St) (hQ : Rests c E.P w Q)

include hv ht hm hl in
theorem level_head (x : ℝ) (k : Nat) (hk : k < 14) : withLevel c Q x k = Q k := by
  obtain ⟨hV, -⟩ := contact_V hv ht hm hl
  unfold withLevel
  rw [Function.update_of_ne (by omega)]

theorem level_last (x : ℝ) : withLevel c Q x (c.V - 1) = x := Function.update_self ..

include hv ht hm hl hQ in
theorem level_ease (x : ℝ) : Newton.AtEase c E.P (withLevel c Q x) := by
  obtain ⟨h1, h2, h3, h4⟩ := hQ.ease
  have := (agree_basic (level_head hv ht hm hl Q x)).2.2.2
  exact ⟨by rw [this]; exact h1, fun h => by rw [ht] at h; simp at h, h3, h4⟩

include hv ht hm hl hQ in
theorem level_ode (hE : E.Ok) (dt x : ℝ) : E.ode dt (restCell c (withLevel c Q x)) = restCell c (withLevel c Q x) := by
  have := (agree_basic (level_head hv ht hm hl Q x)).2.2.2
  exact ode_rest E _ hv hE (by rw [this]; exact hQ.det.ne') (level_ease hv ht hm hl E w Q hQ x) dt

/-- The speed of the fastest wave of the material. -/
def waveSpeed (P : Sys.Par) (Q : St) : ℝ := Eig.maxAbsEigs c P Q 0

theorem rests_pos {P : Sys.Par} {w : V3} {Q : St} (hQ : Rests c P w Q) : 0 < Q 0 := by
  rw [hQ.mass]; exact mul_pos hQ.dense hQ.det

theorem rests_vel {P : Sys.Par} {w : V3} {Q : St} (hQ : Rests c P w Q) : Sys.vel Q = w := funext fun i => by
  unfold Sys.vel getRv
  rw [hQ.vel i, mul_div_cancel_left₀ _ (rests_pos hQ).ne']

theorem rests_speed {P : Sys.Par} {w : V3} {Q : St} (hQ : Rests c P w Q) : |w 0| ≤ waveSpeed (c := c) P Q := by
  have h : Q (2 + (0 : Fin 3)) / Q 0 = w 0 := by rw [hQ.vel 0, mul_div_cancel_left₀ _ (rests_pos hQ).ne']
  unfold waveSpeed Eig.maxAbsEigs
  simp only [h]
  generalize hr : Real.sqrt _ = r
  have : 0 ≤ r := by rw [← hr]; exact Real.sqrt_nonneg _
  split_ifs with h0
  · rw [abs_of_pos h0]; linarith
  · rw [abs_of_nonpos (not_lt.1 h0)]; linarith

include hv ht hm hl in
theorem ofVec_level (x : ℝ) (k : Nat) (hk : k < 14) : ofVec c (restCell c (withLevel c Q x)) k = Q k := by
  obtain ⟨hV, -⟩ := contact_V hv ht hm hl
  rw [ofVec_cellQ _ k (by omega), level_head hv ht hm hl Q x k hk]

include hv ht hm hl hQ in
theorem level_face (x y : ℝ) (v : Fin c.V) : rusanov c E.P 0 (restCell c (withLevel c Q x)) (restCell c (withLevel c Q y)) v =
    if v.1 < 14 then flux c E.P Q 0 (flux c E.P Q 0 fun _ => 0) v else waveSpeed (c := c) E.P Q * (x - y) := by
  obtain ⟨hV, hmV⟩ := contact_V hv ht hm hl
  have hr := hQ.ease.inert
  have hx := ofVec_level hv ht hm hl Q x
  have hy := ofVec_level hv ht hm hl Q y
  have e0 : dir 0 = 0 := rfl
  simp only [rusanov, dRus, e0]
  rw [agree_flux hv ht E.P hQ.single hr hx 0 hm, agree_flux hv ht E.P hQ.single hr hy 0 hm,
    agree_speed ht E.P hQ.single hr hx 0, agree_speed ht E.P hQ.single hr hy 0, max_self]
  by_cases h : v.1 < 14
  · rw [if_pos h]
    have f1 := flux_adds c E.P Q 0 hm
    rw [f1 _, f1 (flux c E.P Q 0 _), f1 (fun i => _), f1 (fun _ => 0)]
    simp only [Pi.add_apply, hx _ h, hy _ h, sub_self, mul_zero]
  · rw [if_neg h]
    have hI : IsLevel c v := ⟨by omega, v.2⟩
    rw [flux_level hv E.P Q 0 _ hI, flux_level hv E.P Q 0 _ hI]
    have hv1 : v.1 = c.V - 1 := by have := v.2; omega
    rw [ofVec_cellQ _ _ v.2, ofVec_cellQ _ _ v.2, hv1, level_last, level_last]
    rfl

include hv ht hm hl hQ in
theorem level_still (x y : ℝ) (q : Fin c.V → ℝ) (hq : ∀ k : Fin c.V, k.1 < 5 → q k = Q k) (v : Fin c.V) :
    E.sys.bdot 0 q (restCell c (withLevel c Q y) - restCell c (withLevel c Q x)) v = if v.1 < 14 then 0 else w 0 * (y - x) := by
  obtain ⟨hV, hmV⟩ := contact_V hv ht hm hl
  by_cases h : v.1 < 14
  · rw [if_pos h]
    by_cases h5 : 5 ≤ v.1
    · refine bdot_still hv E.P E.src E.junk 0 q _ (fun w w1 w2 => ?_) v h5 h
      simp only [Pi.sub_apply, restCell, level_head hv ht hm hl Q _ _ w2, sub_self]
    · change bdot c _ _ (dir 0) E.junk v = _
      unfold bdot
      rw [if_pos hv, if_neg (by omega), if_neg (by omega), if_pos v.2]
  · rw [if_neg h]
    change bdot c _ _ (dir 0) E.junk v = _
    unfold bdot
    rw [if_pos hv, if_pos ⟨by omega, v.2⟩]
    have hv1 : v.1 = c.V - 1 := by have := v.2; omega
    have : vel (ofVec c q) (dir 0) = w 0 := by
      unfold Sys.vel getRv
      rw [ofVec_at q ⟨2 + (dir 0).1, by have := (dir 0).2; omega⟩ _ rfl, ofVec_at q ⟨0, by omega⟩ _ rfl, hq _ (by have := (dir 0).2; simp only; omega),
        hq _ (by simp)]
      change Q (2 + (0 : Fin 3)) / Q 0 = w 0
      rw [hQ.vel 0, mul_div_cancel_left₀ _ (rests_pos hQ).ne']
    rw [this, ofVec_at _ v _ rfl]
    simp only [Pi.sub_apply, restCell, hv1, level_last]

include hv ht hm hl hQ in
theorem level_first (hE : E.Ok) (hfl : E.fl = rusanov c E.P) (dt : ℝ) (ub : Nat → Fin c.V → ℝ) (i : Nat) (x y z : ℝ)
    (hx : ub i = restCell c (withLevel c Q x)) (hy : ub (i + 1) = restCell c (withLevel c Q y))
    (hz : ub (i + 2) = restCell c (withLevel c Q z)) :
    firstLine E dt ub i = restCell c (withLevel c Q
      (y + dt / (2 * E.dx) * (waveSpeed (c := c) E.P Q * (x - y) - w 0 * (y - x)) -
        dt / (2 * E.dx) * (waveSpeed (c := c) E.P Q * (y - z) + w 0 * (z - y)))) := by
  obtain ⟨hV, hmV⟩ := contact_V hv ht hm hl
  have hode := level_ode hv ht hm hl E w Q hQ hE dt
  unfold firstLine
  simp only [Nat.add_zero, hx, hy, hz, hode]
  refine Eq.trans (congrArg (E.ode dt) ?_) (hode _)
  have hmid : ∀ a b : ℝ, ∀ k : Fin c.V, k.1 < 5 → (restCell c (withLevel c Q a) +
      (1 / 2 : ℝ) • (restCell c (withLevel c Q b) - restCell c (withLevel c Q a))) k = Q k := by
    intro a b k h2
    simp only [Pi.add_apply, Pi.smul_apply, Pi.sub_apply, restCell, level_head hv ht hm hl Q _ _ (show k.1 < 14 by omega)]
    simp
  funext v
  unfold intoRight outOfLeft
  rw [level_still hv ht hm hl E w Q hQ _ _ _ (hmid x y) v, level_still hv ht hm hl E w Q hQ _ _ _ (hmid y z) v, hfl,
    level_face hv ht hm hl E w Q hQ x y v, level_face hv ht hm hl E w Q hQ y z v]
  by_cases h : v.1 < 14
  · simp only [if_pos h, restCell, level_head hv ht hm hl Q _ _ h]
    ring
  · have hv1 : v.1 = c.V - 1 := by have := v.2; omega
    rw [if_neg h, if_neg h, if_neg h, if_neg h]
    simp only [restCell, hv1, level_last]

include hv ht hm hl hQ in
/-- One cell of the grid of a material, if its neighbours hold the material at rest. -/
theorem contact_cell (W : Weno.Setup 1) (undef : ℝ) (it : Nat) (tol : ℝ) (hE : E.Ok) (hX : E.Explicit W undef it tol)
    (hfl : E.fl = rusanov c E.P) (b : Nat → BT) (hb : ∀ s < 2, ∀ x, Mirrors E (withLevel c Q x) 0 (b s)) (threads : Nat) (hT : 0 < threads)
    (mk : Nat → Bool) (dt : ℝ) (g g' : Iter.Mem) (lev : Nat → ℝ) (hmv : MovesMasked E b true threads mk dt g g') (i : Nat) (hi : i < E.nx)
    (hk : mk i = true)
    (hg : ∀ r, i ≤ r → r ≤ i + 2 → ∀ v < c.V, g (srcOf 1 (b 0) (b 1) E.nx r * c.V + v) = withLevel c Q (lev (srcOf 1 (b 0) (b 1) E.nx r)) v)
    (v : Nat) (hvV : v < c.V) : g' (i * c.V + v) = withLevel c Q (lev i +
      dt / (2 * E.dx) * (waveSpeed (c := c) E.P Q * (lev (srcOf 1 (b 0) (b 1) E.nx i) - lev i) -
        w 0 * (lev i - lev (srcOf 1 (b 0) (b 1) E.nx i))) -
      dt / (2 * E.dx) * (waveSpeed (c := c) E.P Q * (lev i - lev (srcOf 1 (b 0) (b 1) E.nx (i + 2))) +
        w 0 * (lev (srcOf 1 (b 0) (b 1) E.nx (i + 2)) - lev i))) v := by
  have m0 := fun x => hb 0 (by omega) x
  have m1 := fun x => hb 1 (by omega) x
  obtain ⟨ub, hp, e⟩ := split_first1 E W undef it tol hv hE hX b (m0 0).1 (m1 0).1 threads hT mk dt g g' hmv
  have hpad : ∀ r, i ≤ r → r ≤ i + 2 → ub r = restCell c (withLevel c Q (lev (srcOf 1 (b 0) (b 1) E.nx r))) := by
    intro r h1 h2
    obtain ⟨old, m', hm', hub⟩ := hp
    obtain ⟨m'', e', a, -⟩ := Grid.boundaries_1d ⟨1, E.destress⟩ E.nx (b 0) (b 1) (memOf c g old) hE.wide.1 (m0 0).1 (m1 0).1
    rw [hm'] at e'
    cases e'
    funext a'
    rw [hub, a r (by simp only; omega)]
    exact ghost_rest E _ 0 _ _ (m0 _) (m1 _) _ _ _ (fun j hj => hg r h1 h2 j hj) a' a'.2
  have hmid : srcOf 1 (b 0) (b 1) E.nx (i + 1) = i := by
    unfold srcOf
    rw [if_neg (by omega), if_pos (by omega)]
    omega
  have p1 := hpad (i + 1) (by omega) (by omega)
  rw [hmid] at p1
  have := e i hi hk ⟨v, hvV⟩
  rw [level_first hv ht hm hl E w Q hQ hE hfl dt ub i _ _ _ (hpad i le_rfl (by omega)) p1 (hpad (i + 2) (by omega) le_rfl)] at this
  exact this

end cell

/-! ### Star states -/

/-- The settings `left_star_state` works with. -/
structure StarSet (c : Sys.Cfg) where
  stick : Bool
  relax : Bool
  tol : ℝ
  S : Riemann.Solvers
  svd : M3 → M3 × V3 × M3
  junk : Fin 2 → Fin (Riemann.n1 c) → ℝ
  fuel : Nat

/-- `left_star_state(QL, QR, MPs[mat], MPs[miR], dt, n)`, fill.cpp:193.  The loop of `left_star_state` ends within 11 tests and
returns numbers, so the other cases do not occur for `fuel` above 10. -/
def starOf (Z : StarSet c) (MPs : List (Option Par)) (dt : ℝ) (m : Nat) (QL QR : St) (miR : Nat) (nrm : List ℝ) : St :=
  match MPs[m]? with
  | some (some PL) =>
    match Riemann.leftStar c Z.stick Z.relax Z.tol Z.S Z.svd Z.junk PL (MPs[miR]?.join) dt nrm Z.fuel QL QR with
    | some (_, some Q) => Q
    | _ => QL
  | _ => QL

/-- The normal velocities on both sides are the same; where the materials stick to each other, the velocities are the same. -/
def Slides (stick : Bool) (w w' : V3) : Prop := w' 0 = w 0 ∧ (stick = true → w' = w)

theorem pad_one (a : ℝ) : pad [a] = ![a, 0, 0] := by
  ext i; fin_cases i <;> rfl

theorem pad_two (a : ℝ) : pad [a, 0] = ![a, 0, 0] := by
  ext i; fin_cases i <;> rfl

theorem slides_rot {stick : Bool} {w w' : V3} (h : Slides stick w w') {nrm : List ℝ} (hn : ∃ a, pad nrm = ![a, 0, 0]) :
    (rotationMatrix nrm).mulVec w 0 = (rotationMatrix nrm).mulVec w' 0 := by
  obtain ⟨a, ha⟩ := hn
  have key : ∀ x : V3, (rotationMatrix nrm).mulVec x 0 = a * x 0 := fun x => by
    simp [rotationMatrix, ha, Matrix.mulVec, dotProduct, Fin.sum_univ_three]
  rw [key, key, h.1]

theorem rest_sigma (P : Params) (Q : St) (h : AdevG (getA Q) = 0) : sigma P Q = 0 := by
  simp [sigma, dEdAs, h]

theorem star_rest (hv : c.viscous = true) (ht : c.thermal = false) (Z : StarSet c) (PL PR : Par) (dt : ℝ) (nrm : List ℝ) (hn : Unit nrm)
    (hf : 1 ≤ Z.fuel) (htol : 0 < Z.tol) (hbL : 0 < PL.b02) (hbR : 0 < PR.b02) (w w' : V3)
    (hst : Z.stick = true → w' = w) (hnv : (rotationMatrix nrm).mulVec w 0 = (rotationMatrix nrm).mulVec w' 0)
    (A B QL QR : St) (hA : Rests c PL w A) (hB : Rests c PR w' B)
    (hp : pressure c PL A = pressure c PR B) (hL : ∀ k < 14, QL k = A k) (hR : ∀ k < 14, QR k = B k) :
    Riemann.leftStar c Z.stick Z.relax Z.tol Z.S Z.svd Z.junk PL (some PR) dt nrm Z.fuel QL QR = some (0, some QL) := by
  have hdA : 0 < A 0 := by rw [hA.mass]; exact mul_pos hA.dense hA.det
  have hdB : 0 < B 0 := by rw [hB.mass]; exact mul_pos hB.dense hB.det
  obtain ⟨a0, a1, aRv, aA⟩ := agree_basic hL
  obtain ⟨b0, b1, bRv, bA⟩ := agree_basic hR
  have vL : ∀ R : M3, vel (rotateTensors c QL R) = R.mulVec w := fun R => by
    rw [vel_rotate, show vel QL = vel A from funext fun i => by unfold Sys.vel; rw [aRv, a0], rests_vel hA]
  have vR : ∀ R : M3, vel (rotateTensors c QR R) = R.mulVec w' := fun R => by
    rw [vel_rotate, show vel QR = vel B from funext fun i => by unfold Sys.vel; rw [bRv, b0], rests_vel hB]
  have tr : Riemann.traction c PL QL nrm = Riemann.traction c PR QR nrm := by
    funext i
    unfold Riemann.traction
    rw [rest_sigma _ _ (by rw [aA]; exact hA.ease.strain), rest_sigma _ _ (by rw [bA]; exact hB.ease.strain),
      agree_pressure (c := c) ht PL hA.single hA.ease.inert hL, agree_pressure (c := c) ht PR hB.single hB.ease.inert hR, hp]
  have hs : ∀ b : ℝ, 0 < b → Riemann.small Z.tol 0 b := fun b hb => ⟨hb.ne', by rw [zero_div]; exact htol⟩
  have hb0 : 0 < min PL.b02 PR.b02 := lt_min hbL hbR
  have hr0 : 0 < min PL.ρ0 PR.ρ0 := lt_min hA.dense hB.dense
  refine Riemann.left_star_idle _ _ _ _ _ _ _ _ _ _ _ _ _ _ hf hn ⟨⟨?_, fun _ => ?_⟩, ?_, fun h => by rw [ht] at h; simp at h⟩
  · show rotateTensors c QL _ 0 ≠ 0
    rw [rotate_other c QL _ 0 (Or.inl (by omega)), a0]; exact hdA.ne'
  · show rotateTensors c QR _ 0 ≠ 0
    rw [rotate_other c QR _ 0 (Or.inl (by omega)), b0]; exact hdB.ne'
  · simp only [Riemann.rotated_total c _ _ nrm hv hn, tr, vL, vR, hnv, sub_self, abs_zero]
    split_ifs with hk
    · rw [hst hk]
      simp only [sub_self, abs_zero]
      exact ⟨fun _ => hs _ (mul_pos hb0 hr0), fun _ => hs _ (Real.sqrt_pos.2 hb0)⟩
    · exact ⟨hs _ (mul_pos hb0 hr0), hs _ (Real.sqrt_pos.2 hb0)⟩

/-! ### The end of a pass -/

/-- Cells without strain whose density fits their distortion are left alone at the end of a pass, whatever their materials. -/
theorem finish_calm (F : Tail c) (hv : c.viscous = true) (hF : F.Ok) (hm : c.multi = false) (hrot : F.rot = false) (htol : 0 ≤ F.tol)
    (count : Nat) (u u' : Iter.Mem)
    (hcalm : ∀ i < F.ncell, 0 < u (i * c.V) ∧ 0 < (getA (view c u i)).det ∧ AdevG (getA (view c u i)) = 0 ∧
      ∀ P, matAt F u i = some (some P) → u (i * c.V) = P.ρ0 * (getA (view c u i)).det)
    (h : finish F count u = some u') : ∀ i < F.ncell, ∀ k < c.V, u' (i * c.V + k) = u (i * c.V + k) := by
  have hV := Iter.V_ge c hv
  have hlim : limitConcentration c F.ncell u = u := limit_concentration_off c F.ncell u hm
  simp only [finish, Option.bind_eq_bind, Option.bind_eq_some_iff, hlim] at h
  obtain ⟨u1, h1, u2, h2, h3⟩ := h
  have l2 : ∀ i < F.ncell, ∀ k < c.V, u1 (i * c.V + k) = u (i * c.V + k) := by
    intro i hi k hk
    obtain ⟨c1, c2, c3, c4⟩ := hcalm i hi
    rcases matter_spec c F.MPs (renormCell c) (renorm_local c hv F.MPs) F.ncell _ u1 h1 i hi with ⟨-, hw⟩ | ⟨P', hP', hw⟩
    · exact hw k hk
    · rw [hw k hk, renormCell_val, ← c4 P' hP', div_self c1.ne', cbrt_one, mul_one, ite_self]
  have l3 : u2 = u1 := by
    unfold rotateSome at h2
    rw [if_neg (by rw [hrot]; simp)] at h2
    exact (Option.some.inj h2).symm
  subst l3
  have l4 : contorted c F.sv F.ncell u2 F.tol = false := by
    unfold contorted
    rw [List.any_eq_false]
    intro i hi
    have hi' := List.mem_range.1 hi
    obtain ⟨U, W, hsv⟩ := hF.sv (getA (view c u2 i))
    have ha : getA (view c u2 i) = getA (view c u i) := Relax.getA_congr _ _ fun k _ h2 => l2 i hi' k (by omega)
    rw [ha] at hsv ⊢
    obtain ⟨c1, c2, c3, c4⟩ := hcalm i hi'
    rw [(calm_invariants _ _ _ _ hsv c2.ne' c3).2]
    simp [htol]
  unfold resetSome at h3
  rw [l4] at h3
  simp only [Bool.false_eq_true, if_false] at h3
  rw [← Option.some.inj h3]
  exact l2

/-! ### A pass -/

/-- The cells below `k` hold `Q0`, the others `Q1`, and `lev` is the level set. -/
def Halves (c : Sys.Cfg) (nx k : Nat) (Q0 Q1 : St) (lev : Nat → ℝ) (u : Iter.Mem) : Prop :=
  ∀ i < nx, ∀ v < c.V, u (i * c.V + v) = withLevel c (if i < k then Q0 else Q1) (lev i) v

theorem fills_same (F : Fronts) (nx : Nat) (dx : ℝ) (nmat m : Nat) (u g g' : Iter.Mem) (mk mk' : Nat → Bool)
    (h : Fills c F nx dx nmat m u g mk) (h' : Fills c F nx dx nmat m u g' mk') (j : Nat) (hj : j < nx) (v : Nat) (hv : v < c.V) :
    g (j * c.V + v) = g' (j * c.V + v) := by
  obtain ⟨grid, h1, h2⟩ := h
  obtain ⟨grid', h1', h2'⟩ := h'
  rw [h1] at h1'
  have := congrArg Prod.fst (Option.some.inj h1')
  rw [h2 j hj v hv, h2' j hj v hv]
  exact congrFun (congrFun this j) v

theorem src_inner (b0 b1 : BT) (h0 : b0 ≠ .periodic) (h1 : b1 ≠ .periodic) (nx : Nat) (hx : 0 < nx) (r : Nat) (hr : r < nx + 2) :
    srcOf 1 b0 b1 nx r = if r = 0 then 0 else if r ≤ nx then r - 1 else nx - 1 := by
  unfold srcOf
  cases b0 <;> cases b1 <;> simp only [ne_eq, not_true_eq_false, reduceCtorEq, not_false_eq_true] at h0 h1 ⊢ <;> split_ifs <;> omega

section pass

variable (hv : c.viscous = true) (ht : c.thermal = false) (hm : c.multi = false) (hl : c.lset = 1) (E0 E1 : Env c 1)
  (w w' : V3) (Q0 Q1 : St) (hQ0 : Rests c E0.P w Q0) (hQ1 : Rests c E1.P w' Q1) (hp : pressure c E0.P Q0 = pressure c E1.P Q1)
  (nx : Nat) (dx x0 : ℝ) (hdx : 0 < dx) (k : Nat) (hk : 2 ≤ k) (hkx : k + 1 < nx) (h1 : ((k : ℝ) - 1 / 2) * dx < x0)
  (h2 : x0 < ((k : ℝ) + 1 / 2) * dx) (hx0 : E0.nx = nx) (hx1 : E1.nx = nx) (hd0 : E0.dx = dx) (hd1 : E1.dx = dx)
  (W : Weno.Setup 1) (undef : ℝ) (it : Nat) (tol : ℝ) (hE0 : E0.Ok) (hE1 : E1.Ok) (hX0 : E0.Explicit W undef it tol)
  (hX1 : E1.Explicit W undef it tol) (hf0 : E0.fl = rusanov c E0.P) (hf1 : E1.fl = rusanov c E1.P) (b : Nat → BT)
  (hnp : ∀ s < 2, b s ≠ .periodic) (hb0 : ∀ s < 2, ∀ x, Mirrors E0 (withLevel c Q0 x) 0 (b s))
  (hb1 : ∀ s < 2, ∀ x, Mirrors E1 (withLevel c Q1 x) 0 (b s)) (threads : Nat) (hT : 0 < threads)
  (Z : StarSet c) (hf : 1 ≤ Z.fuel) (htol : 0 < Z.tol) (hbL : 0 < E0.P.b02) (hbR : 0 < E1.P.b02)
  (hsl : Slides Z.stick w w')

/-- The level set after a pass. -/
def levNext (nx : Nat) (dx x0 w s0 s1 dt : ℝ) (i : Nat) : ℝ :=
  ((i : ℝ) + 1 / 2) * dx - (x0 + w * dt) + (if i = 0 then dt / 2 * (s0 + w) else 0) - (if i + 1 = nx then dt / 2 * (s1 - w) else 0)

include hv ht hm hl hQ0 hQ1 hp hdx hk hkx h1 h2 hf htol hbL hbR hsl in
/-- The grids of the two materials before the step, and where their masks are set. -/
theorem contact_grids (layers : Nat) (hlay : 1 ≤ layers) (order : Nat → List Nat) (ho : ∀ m, (order m).Perm (List.range nx))
    (junk lev : Nat → ℝ) (dt0 : ℝ) (u : Iter.Mem) (hlev : ∀ j < nx, lev j = u (j * c.V + (c.V - 1)))
    (hu : Halves c nx k Q0 Q1 (fun j => ((j : ℝ) + 1 / 2) * dx - x0) u) (g0 g1 : Iter.Mem) (mk0 mk1 : Nat → Bool)
    (f0 : Fills c (levFronts nx dx lev junk (starOf Z [some E0.P, some E1.P] dt0) order layers) nx dx 2 0 u g0 mk0)
    (f1 : Fills c (levFronts nx dx lev junk (starOf Z [some E0.P, some E1.P] dt0) order layers) nx dx 2 1 u g1 mk1) :
    (∀ j < nx, j ≤ k + 1 → ∀ v < c.V, g0 (j * c.V + v) = withLevel c Q0 (((j : ℝ) + 1 / 2) * dx - x0) v) ∧
    (∀ j < nx, k ≤ j + 2 → ∀ v < c.V, g1 (j * c.V + v) = withLevel c Q1 (((j : ℝ) + 1 / 2) * dx - x0) v) ∧
    (∀ i < nx, mk0 i = true → i ≤ k) ∧ (∀ i < nx, mk1 i = true → k ≤ i + 1) ∧
    (∀ i < nx, i ≤ k → mk0 i = true) ∧ (∀ i < nx, k ≤ i + 1 → mk1 i = true) := by
  obtain ⟨hV, hmV⟩ := contact_V hv ht hm hl
  have hul : ∀ j < nx, u (j * c.V + (c.V - 1)) = ((j : ℝ) + 1 / 2) * dx - x0 := fun j hj => by
    rw [hu j hj _ (by omega), level_last]
  have hlev' : ∀ j < nx, lev j = ((j : ℝ) + 1 / 2) * dx - x0 := fun j hj => by rw [hlev j hj, hul j hj]
  have side := two_side dx x0 hdx k h1 h2
  set star := starOf Z [some E0.P, some E1.P] dt0 with hstar
  set F := levFronts nx dx lev junk star order layers with hFdef
  have isl : IsLevel c (c.V - 1) := ⟨by omega, by omega⟩
  -- the star states are the states themselves
  have hview : ∀ j < nx, ∀ v < 14, view c u j v = if j < k then Q0 v else Q1 v := fun j hj v hv' => by
    unfold view
    rw [hu j hj v (by omega), level_head hv ht hm hl _ _ _ hv']
    split_ifs <;> rfl
  have hview0 : ∀ j < nx, j < k → ∀ v < 14, view c u j v = Q0 v := fun j hj h v hv' => by rw [hview j hj v hv', if_pos h]
  have hview1 : ∀ j < nx, k ≤ j → ∀ v < 14, view c u j v = Q1 v := fun j hj h v hv' => by
    rw [hview j hj v hv', if_neg (by omega)]
  have star0 : ∀ R < nx, k ≤ R → star 0 (view c u (k - 1)) (view c u R) 1 [1] = view c u (k - 1) := by
    intro R hR hkR
    have := star_rest hv ht Z E0.P E1.P dt0 [1] (by norm_num [Rot.Unit]) hf htol hbL hbR w w' hsl.2
      (slides_rot hsl ⟨1, pad_one _⟩) Q0 Q1 (view c u (k - 1)) (view c u R) hQ0 hQ1 hp
      (hview0 _ (by omega) (by omega)) (hview1 _ hR hkR)
    simp only [hstar, starOf, List.getElem?_cons_zero, List.getElem?_cons_succ, Option.join_some, this]
  have star1 : ∀ R < nx, R < k → star 1 (view c u k) (view c u R) 0 [-1] = view c u k := by
    intro R hR hkR
    have := star_rest hv ht Z E1.P E0.P dt0 [-1] (by norm_num [Rot.Unit]) hf htol hbR hbL w' w (fun h => (hsl.2 h).symm)
      (slides_rot hsl ⟨-1, pad_one _⟩).symm Q1 Q0 (view c u k) (view c u R) hQ1 hQ0 hp.symm
      (hview1 _ (by omega) le_rfl) (hview0 _ hR hkR)
    simp only [hstar, starOf, List.getElem?_cons_zero, List.getElem?_cons_succ, Option.join_some, this]
  -- the grids
  have whole : ∀ (q : Iter.Mem) (Q : St) (j : Nat) (x : ℝ), (∀ v < 14, q (j * c.V + v) = Q v) → q (j * c.V + (c.V - 1)) = x →
      ∀ v < c.V, q (j * c.V + v) = withLevel c Q x v := by
    intro q Q j x ha hb v hv'
    by_cases h : v < 14
    · rw [ha v h, level_head hv ht hm hl _ _ _ h]
    · rw [show v = c.V - 1 by omega, hb, level_last]
  have grid0 : ∀ j < nx, j ≤ k + 1 → ∀ v < c.V, g0 (j * c.V + v) = withLevel c Q0 (((j : ℝ) + 1 / 2) * dx - x0) v := by
    intro j hj hjk
    refine whole _ _ _ _ (fun v hv' => ?_) (by rw [(fills_keeps _ _ _ _ _ _ _ _ f0 j hj).1 _ isl, hul j hj])
    obtain ⟨g2, mk2, hf2, hval⟩ := lev_fills hl nx dx x0 hdx junk star order ho layers k hk hkx h1 h2 u hul lev hlev' 0 (by omega)
    rw [fills_same F nx dx 2 0 u _ _ _ _ f0 hf2 j hj v (by omega), hval j hj v (by omega), if_pos rfl]
    split_ifs with hh
    · rw [star0 _ (by omega) (by omega)]; exact hview0 _ (by omega) (by omega) v hv'
    · rw [star0 _ (by omega) (by omega)]; exact hview0 _ (by omega) (by omega) v hv'
    · exact hview0 j hj (by omega) v hv'
  have grid1 : ∀ j < nx, k ≤ j + 2 → ∀ v < c.V, g1 (j * c.V + v) = withLevel c Q1 (((j : ℝ) + 1 / 2) * dx - x0) v := by
    intro j hj hjk
    refine whole _ _ _ _ (fun v hv' => ?_) (by rw [(fills_keeps _ _ _ _ _ _ _ _ f1 j hj).1 _ isl, hul j hj])
    obtain ⟨g2, mk2, hf2, hval⟩ := lev_fills hl nx dx x0 hdx junk star order ho layers k hk hkx h1 h2 u hul lev hlev' 1 (by omega)
    rw [fills_same F nx dx 2 1 u _ _ _ _ f1 hf2 j hj v (by omega), hval j hj v (by omega), if_neg (by omega)]
    split_ifs with hh
    · rw [star1 _ (by omega) (by omega)]; exact hview1 _ (by omega) (by omega) v hv'
    · rw [star1 _ (by omega) (by omega)]; exact hview1 _ (by omega) (by omega) v hv'
    · exact hview1 j hj (by omega) v hv'
  -- the masks
  have φ0 : ∀ j < nx, F.φ 0 j = ((j : ℝ) + 1 / 2) * dx - x0 := fun j hj => by
    simp [hFdef, levFronts, Fill.indicator, hlev' j hj]
  have φ1 : ∀ j < nx, F.φ 1 j = -(((j : ℝ) + 1 / 2) * dx - x0) := fun j hj => by
    simp [hFdef, levFronts, Fill.indicator, hlev' j hj]
  have mask0 : ∀ i < nx, mk0 i = true → i ≤ k := by
    intro i hi h
    by_contra hik
    have := (fills_mask _ _ _ _ _ _ _ _ f0 i hi).2 fun a ha e1 e2 => by
      rw [φ0 a ha]; exact (side a).2.2 (by omega)
    rw [h] at this; simp at this
  have mask1 : ∀ i < nx, mk1 i = true → k ≤ i + 1 := by
    intro i hi h
    by_contra hik
    have := (fills_mask _ _ _ _ _ _ _ _ f1 i hi).2 fun a ha e1 e2 => by
      rw [φ1 a ha]; have := (side a).1.2 (by omega); linarith
    rw [h] at this; simp at this
  have own0 : ∀ i < nx, i ≤ k → mk0 i = true := by
    intro i hi h
    by_cases hik : i < k
    · exact (fills_mask _ _ _ _ _ _ _ _ f0 i hi).1 (by rw [φ0 i hi]; exact ((side i).1.2 hik).le)
    · obtain ⟨grid, hgc, -⟩ := f0
      refine (Fill.ghost_mask c [nx] (Or.inl rfl) [dx] 0 _ _ _ _ _ _ _ _ _ hgc i (by simpa using hi)).2 (Or.inr ⟨?_, k - 1, ?_, ?_, fun h => by simp at h⟩)
      · rw [φ0 i hi]; exact (side i).2.2 (by omega)
      · exact ⟨hi, by omega, by omega⟩
      · rw [φ0 _ (by omega)]; exact ((side _).1.2 (by omega)).le
  have own1 : ∀ i < nx, k ≤ i + 1 → mk1 i = true := by
    intro i hi h
    by_cases hik : k ≤ i
    · exact (fills_mask _ _ _ _ _ _ _ _ f1 i hi).1 (by rw [φ1 i hi]; have := (side i).2.2 hik; linarith)
    · obtain ⟨grid, hgc, -⟩ := f1
      refine (Fill.ghost_mask c [nx] (Or.inl rfl) [dx] 1 _ _ _ _ _ _ _ _ _ hgc i (by simpa using hi)).2 (Or.inr ⟨?_, k, ?_, ?_, fun h => by simp at h⟩)
      · rw [φ1 i hi]; have := (side i).1.2 (by omega); linarith
      · exact ⟨hi, by omega, by omega⟩
      · rw [φ1 _ (by omega)]; have := (side k).2.2 le_rfl; linarith
  exact ⟨grid0, grid1, mask0, mask1, own0, own1⟩

include hv ht hm hl hQ0 hQ1 hp hdx hk hkx h1 h2 hx0 hx1 hd0 hd1 hE0 hE1 hX0 hX1 hf0 hf1 hnp hb0 hb1 hT hf htol hbL hbR hsl

theorem contact_pass (layers : Nat) (hlay : 1 ≤ layers) (order : Nat → List Nat) (ho : ∀ m, (order m).Perm (List.range nx))
    (junk lev : Nat → ℝ) (dt0 dt : ℝ) (u u' : Iter.Mem) (hlev : ∀ j < nx, lev j = u (j * c.V + (c.V - 1)))
    (hu : Halves c nx k Q0 Q1 (fun j => ((j : ℝ) + 1 / 2) * dx - x0) u) (hdt : 0 ≤ dt)
    (hs0 : dt * waveSpeed (c := c) E0.P Q0 ≤ dx) (hs1 : dt * waveSpeed (c := c) E1.P Q1 ≤ dx) (k' : Nat)
    (h1' : ((k' : ℝ) - 1 / 2) * dx < x0 + w 0 * dt) (h2' : x0 + w 0 * dt < ((k' : ℝ) + 1 / 2) * dx)
    (hmv : MovesMulti [some E0, some E1] (levFronts nx dx lev junk (starOf Z [some E0.P, some E1.P] dt0) order layers) nx dx b true threads
      dt u u') :
    Halves c nx k' Q0 Q1 (levNext nx dx x0 (w 0) (waveSpeed (c := c) E0.P Q0) (waveSpeed (c := c) E1.P Q1) dt) u' := by
  obtain ⟨hV, hmV⟩ := contact_V hv ht hm hl
  have hul : ∀ j < nx, u (j * c.V + (c.V - 1)) = ((j : ℝ) + 1 / 2) * dx - x0 := fun j hj => by
    rw [hu j hj _ (by omega), level_last]
  have hlev' : ∀ j < nx, lev j = ((j : ℝ) + 1 / 2) * dx - x0 := fun j hj => by rw [hlev j hj, hul j hj]
  have side := two_side dx x0 hdx k h1 h2
  have side' := two_side dx (x0 + w 0 * dt) hdx k' h1' h2'
  have hw0 := abs_le.1 (rests_speed hQ0)
  have hw1 := abs_le.1 (rests_speed hQ1)
  rw [hsl.1] at hw1
  have hwu : w 0 * dt ≤ dx := by nlinarith
  have hwl : -dx ≤ w 0 * dt := by nlinarith
  have hup : k' ≤ k + 1 := by
    by_contra h
    have : (k : ℝ) + 2 ≤ k' := by exact_mod_cast (show k + 2 ≤ k' by omega)
    nlinarith
  have hdown : k ≤ k' + 1 := by
    by_contra h
    have : (k' : ℝ) + 2 ≤ k := by exact_mod_cast (show k' + 2 ≤ k by omega)
    nlinarith
  obtain ⟨g, g', mk, hfill, -, hmake⟩ := hmv
  obtain ⟨f0, m0⟩ := hfill 0 E0 rfl
  obtain ⟨f1, m1⟩ := hfill 1 E1 rfl
  obtain ⟨grid0, grid1, mask0, mask1, own0, own1⟩ := contact_grids hv ht hm hl E0 E1 w w' Q0 Q1 hQ0 hQ1 hp nx dx x0 hdx k hk hkx h1 h2 Z hf htol
    hbL hbR hsl layers hlay order ho junk lev dt0 u hlev hu (g 0) (g 1) (mk 0) (mk 1) f0 f1
  -- the steps
  have np0 := hnp 0 (by omega)
  have np1 := hnp 1 (by omega)
  have src := fun r hr => src_inner (b 0) (b 1) np0 np1 nx (by omega) r hr
  have next0 : ∀ i < nx, mk 0 i = true → ∀ v < c.V, g' 0 (i * c.V + v) = withLevel c Q0
      (levNext nx dx x0 (w 0) (waveSpeed (c := c) E0.P Q0) (waveSpeed (c := c) E1.P Q1) dt i) v := by
    intro i hi hmk v hvV
    have hik := mask0 i hi hmk
    rw [contact_cell hv ht hm hl E0 w Q0 hQ0 W undef it tol hE0 hX0 hf0 b hb0 threads hT (mk 0) dt (g 0) (g' 0)
      (fun j => ((j : ℝ) + 1 / 2) * dx - x0) m0 i (by omega) hmk (fun r r1 r2 w hw => by
        rw [hx0, src r (by omega)]
        split_ifs with e1 e2
        · exact grid0 0 (by omega) (by omega) w hw
        · exact grid0 _ (by omega) (by omega) w hw
        · omega) v hvV, hx0, hd0, src i (by omega), src (i + 2) (by omega)]
    congr 1
    unfold levNext
    rw [if_neg (show ¬ i + 2 = 0 by omega), if_pos (show i + 2 ≤ nx by omega), if_neg (show ¬ i + 1 = nx by omega)]
    have e2 : ((i + 2 - 1 : Nat) : ℝ) = (i : ℝ) + 1 := by rw [show i + 2 - 1 = i + 1 by omega]; push_cast; rfl
    rw [e2]
    by_cases hi0 : i = 0
    · subst hi0
      rw [if_pos rfl, if_pos rfl]
      push_cast
      field_simp
      ring
    · have e0 : ((i - 1 : Nat) : ℝ) = (i : ℝ) - 1 := by push_cast [show 1 ≤ i by omega]; rfl
      rw [if_neg hi0, if_pos (show i ≤ nx by omega), if_neg hi0, e0]
      field_simp
      ring
  have next1 : ∀ i < nx, mk 1 i = true → ∀ v < c.V, g' 1 (i * c.V + v) = withLevel c Q1
      (levNext nx dx x0 (w 0) (waveSpeed (c := c) E0.P Q0) (waveSpeed (c := c) E1.P Q1) dt i) v := by
    intro i hi hmk v hvV
    have hik := mask1 i hi hmk
    rw [contact_cell hv ht hm hl E1 w' Q1 hQ1 W undef it tol hE1 hX1 hf1 b hb1 threads hT (mk 1) dt (g 1) (g' 1)
      (fun j => ((j : ℝ) + 1 / 2) * dx - x0) m1 i (by omega) hmk (fun r r1 r2 w hw => by
        rw [hx1, src r (by omega)]
        split_ifs with e1 e2
        · omega
        · exact grid1 _ (by omega) (by omega) w hw
        · exact grid1 _ (by omega) (by omega) w hw) v hvV, hx1, hd1, hsl.1, src i (by omega), src (i + 2) (by omega)]
    congr 1
    unfold levNext
    have e0 : ((i - 1 : Nat) : ℝ) = (i : ℝ) - 1 := by push_cast [show 1 ≤ i by omega]; rfl
    rw [if_neg (show ¬ i = 0 by omega), if_pos (show i ≤ nx by omega), if_neg (show ¬ i = 0 by omega),
      if_neg (show ¬ i + 2 = 0 by omega), e0]
    by_cases hin : i + 1 = nx
    · rw [if_neg (show ¬ i + 2 ≤ nx by omega), if_pos hin, show nx - 1 = i by omega]
      field_simp
      ring
    · have e2 : ((i + 2 - 1 : Nat) : ℝ) = (i : ℝ) + 1 := by rw [show i + 2 - 1 = i + 1 by omega]; push_cast; rfl
      rw [if_pos (show i + 2 ≤ nx by omega), if_neg hin, e2]
      field_simp
      ring
  -- make_u
  have whole : ∀ (q : Iter.Mem) (Q : St) (j : Nat) (x : ℝ), (∀ v < 14, q (j * c.V + v) = Q v) → q (j * c.V + (c.V - 1)) = x →
      ∀ v < c.V, q (j * c.V + v) = withLevel c Q x v := by
    intro q Q j x ha hb v hv'
    by_cases h : v < 14
    · rw [ha v h, level_head hv ht hm hl _ _ _ h]
    · rw [show v = c.V - 1 by omega, hb, level_last]
  intro i hi
  set nl := levNext nx dx x0 (w 0) (waveSpeed (c := c) E0.P Q0) (waveSpeed (c := c) E1.P Q1) dt with hnl
  obtain ⟨hlv, P, hP, -, hcell⟩ := make_u_spec c nx _ _ _ u u' hmake i hi
  have hlast : u' (i * c.V + (c.V - 1)) = nl i := by
    rw [hlv (c.V - 1) (by omega) (by omega)]
    simp only [List.length_map, List.length_range, List.length_cons, List.length_nil, Nat.reduceAdd]
    set act := (Finset.range 2).filter fun m => (((List.range 2).map mk).getD m fun _ => false) i = true with hact
    have hget : ∀ m < 2, ((List.range 2).map mk).getD m (fun _ => false) = mk m := by
      intro m hm; interval_cases m <;> rfl
    have hget' : ∀ m < 2, ((List.range 2).map g').getD m (fun _ => 0) = g' m := by
      intro m hm; interval_cases m <;> rfl
    have hne : act.card ≠ 0 := by
      rw [Finset.card_ne_zero]
      by_cases h : i < k
      · exact ⟨0, by rw [hact, Finset.mem_filter, hget 0 (by omega)]; exact ⟨by simp, own0 i hi h.le⟩⟩
      · exact ⟨1, by rw [hact, Finset.mem_filter, hget 1 (by omega)]; exact ⟨by simp, own1 i hi (by omega)⟩⟩
    rw [if_neg hne, Finset.sum_congr rfl (g := fun _ => nl i) (fun m hm' => ?_), Finset.sum_const, nsmul_eq_mul,
      mul_div_cancel_left₀ _ (by exact_mod_cast hne)]
    rw [hact, Finset.mem_filter] at hm'
    have hm2 : m < 2 := by simpa using hm'.1
    have hmk := hm'.2
    rw [hget m hm2] at hmk
    rw [hget' m hm2]
    interval_cases m
    · rw [next0 i hi hmk _ (by omega), level_last]
    · rw [next1 i hi hmk _ (by omega), level_last]
  have hsign : (nl i < 0 ↔ i < k') := by
    have hc1 : (2 : ℝ) ≤ k := by exact_mod_cast hk
    rw [hnl]
    unfold levNext
    by_cases hi0 : i = 0
    · subst hi0
      rw [if_pos rfl, if_neg (by omega)]
      push_cast
      refine ⟨fun _ => by omega, fun _ => ?_⟩
      nlinarith
    · by_cases hin : i + 1 = nx
      · rw [if_neg hi0, if_pos hin]
        have : (k : ℝ) + 1 ≤ i := by exact_mod_cast (show k + 1 ≤ i by omega)
        refine ⟨fun h => ?_, fun h => by omega⟩
        exfalso
        nlinarith
      · rw [if_neg hi0, if_neg hin, add_zero, sub_zero]
        exact (side' i).1
  have hidx : materialIndex c (view c u' i) = if i < k' then 0 else 1 := by
    rw [two_index hl]
    unfold view
    rw [hlast]
    by_cases h : i < k'
    · rw [if_pos h, if_neg (not_le.2 (hsign.2 h))]
    · rw [if_neg h, if_pos (not_lt.1 fun h' => h (hsign.1 h'))]
  rw [hidx] at hP hcell
  refine whole _ _ _ _ (fun v hv' => ?_) hlast
  by_cases h : i < k'
  · rw [if_pos h] at hP hcell ⊢
    have hPn : P ≠ none := by
      simp at hP; rw [← hP]; simp
    obtain ⟨q, hq, hqv⟩ := hcell hPn
    have : q = g' 0 := by simpa using hq.symm
    rw [hqv v (by omega), this, next0 i hi (own0 i hi (by omega)) v (by omega), level_head hv ht hm hl _ _ _ hv']
  · rw [if_neg h] at hP hcell ⊢
    have hPn : P ≠ none := by
      simp at hP; rw [← hP]; simp
    obtain ⟨q, hq, hqv⟩ := hcell hPn
    have : q = g' 1 := by simpa using hq.symm
    rw [hqv v (by omega), this, next1 i hi (own1 i hi (by omega)) v (by omega), level_head hv ht hm hl _ _ _ hv']

end pass

end

end Verif.Run
