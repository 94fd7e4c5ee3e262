import Verif.Run.Level
import Verif.Run.Column
import Verif.Eig.Props

/-! # The axes of a plane

In first order with the interface function of Rusanov, a fluid at rest whose density varies along the first axis does not do what
the same fluid does with its density varying along the second. -/

namespace Verif.Run

open Verif.Sys Verif.Iter Verif.Dg Verif.Fv Verif.Step Verif.Grid Verif.Rot

noncomputable section

variable {c : Sys.Cfg}

theorem ease_of_one (P : Sys.Par) (Q : St) (ht : c.thermal = false) (hf : P.δp = 0) (hr : ¬ P.reaction > -1) (hA : getA Q = 1) :
    Newton.AtEase c P Q := by
  refine ⟨?_, by simp [ht], hf, hr⟩
  rw [hA]
  ext i j
  fin_cases i <;> fin_cases j <;> simp [AdevG] <;> norm_num

/-- Nothing but the distortion of unstretched cells depends on the distortion. -/
theorem bdot_still {c : Sys.Cfg} (hv : c.viscous = true) (P : Sys.Par) (src : St → St) (junk : St) (d : Nat) (q x : Fin c.V → ℝ)
    (hx : ∀ v : Fin c.V, 5 ≤ v.1 → v.1 < 14 → x v = 0) (v : Fin c.V) (h5 : 5 ≤ v.1) (h14 : v.1 < 14) :
    (gpr c P src junk).bdot d q x v = 0 := by
  have hV := Iter.V_ge c hv
  have hx' : ∀ k, 5 ≤ k → k < 14 → ofVec c x k = 0 := fun k h1 h2 => by
    rw [ofVec_at x ⟨k, by omega⟩ k rfl]; exact hx _ h1 h2
  change bdot c _ _ (dir d) junk v = _
  unfold bdot
  rw [if_pos hv]
  split_ifs with h1
  · rw [hx' _ h5 h14, mul_zero]
  · unfold bdotA
    have k0 := hx' (5 + 3 * ((v.1 - 5) / 3)) (by omega) (by omega)
    have k1 := hx' (5 + 3 * ((v.1 - 5) / 3) + 1) (by omega) (by omega)
    have k2 := hx' (5 + 3 * ((v.1 - 5) / 3) + 2) (by omega) (by omega)
    split <;> simp_all
  · omega
  · omega

/-- The cells of the plane are unstretched and at rest. -/
def Resting (c : Sys.Cfg) (ncell : Nat) (u : Iter.Mem) : Prop :=
  ∀ i < ncell, getA (ofVec c (cellsOf c u i)) = 1 ∧ ∀ k, 2 ≤ k → k < 5 → u (i * c.V + k) = 0

variable (E : Env c 1)

theorem pads2_open (hE : E.Ok) (b : Nat → BT) (hb : ∀ k < 4, Open (b k)) (u : Iter.Mem) (ub : Nat → Fin c.V → ℝ)
    (hp : Pads2 E b u ub) (r s : Nat) (hr : r < E.nx + 2) (hs : s < E.ny + 2) :
    ∃ i < E.nx * E.ny, ub (cell r s (E.ny + 2)) = cellsOf c u i := by
  have no : ∀ k < 4, b k ≠ .other := fun k hk => by rcases hb k hk with h | h <;> rw [h] <;> decide
  obtain ⟨old, m', hm, hub⟩ := hp
  obtain ⟨hx, hy⟩ := hE.wide
  obtain ⟨m'', e, a, -⟩ := Grid.boundaries_2d ⟨1, E.destress⟩ E.nx E.ny (b 0) (b 1) (b 2) (b 3) (memOf c u old) hx hy
    (no 0 (by omega)) (no 1 (by omega)) (no 2 (by omega)) (no 3 (by omega))
  rw [hm] at e
  cases e
  refine ⟨cell (srcOf 1 (b 0) (b 1) E.nx r) (srcOf 1 (b 2) (b 3) E.ny s) E.ny, cell_lt
    (srcOf_lt (N := 1) hx (by omega) (show r < E.nx + 2 * 1 by omega)) (srcOf_lt (N := 1) hy (by omega) (show s < E.ny + 2 * 1 by omega)), ?_⟩
  funext v
  have := a r (by simp only; omega) s (by simp only; omega)
  simp only [mul_one] at this
  rw [hub]
  unfold cell
  rw [this, ghost_open _ _ _ _ (hb 2 (by omega)) (hb 3 (by omega)), ghost_open _ _ _ _ (hb 0 (by omega)) (hb 1 (by omega))]
  rfl

theorem resting_ode (hv : c.viscous = true) (ht : c.thermal = false) (hf : E.P.δp = 0) (hr : ¬ E.P.reaction > -1) (hE : E.Ok) (dt : ℝ)
    (q : Fin c.V → ℝ) (hA : getA (ofVec c q) = 1) : E.ode dt q = q ∧ E.Number dt q := by
  have e := odeCell_rest (c := c) E.P E.svd E.steps E.fuel (dt / 2) (ofVec c q) hv (hE.svd _) (by rw [hA]; simp)
    (ease_of_one _ _ ht hf hr hA)
  refine ⟨?_, ?_⟩
  · unfold Env.ode
    rw [e]
    funext v
    exact ofVec_at q v _ rfl
  · unfold Env.Number
    rw [e]
    rfl

theorem iterate_newton {Q : Type} (step : Q → Q) (exceeds : Q → Q → Bool) (nw nw' : Q) (it : Nat) (q : Q) :
    iterate step exceeds (fun _ => false) nw it q = iterate step exceeds (fun _ => false) nw' it q := by
  induction it generalizing q with
  | zero => rfl
  | succ it ih => unfold iterate; simp only [ih, Bool.false_eq_true, if_false]

theorem pred2_newton (it : Nat) (tol : ℝ) (step : (Fin 1 → Fin 1 → Fin c.V → ℝ) → (Nat → Fin c.V → ℝ) → (Nat → Fin c.V → ℝ))
    (nw nw' : (Fin 1 → Fin 1 → Fin c.V → ℝ) → (Nat → Fin c.V → ℝ)) :
    Step.pred2 false it tol step nw = Step.pred2 false it tol step nw' := by
  funext w
  unfold Step.pred2
  simp only [Bool.false_eq_true, if_false]
  rw [iterate_newton _ _ (nw w) (nw' w)]

theorem resting_pred (W : Weno.Setup 1) (undef : ℝ) (it : Nat) (hit : 0 < it) (tol : ℝ) (htol : 0 ≤ tol) (hv : c.viscous = true)
    (ht : c.thermal = false) (hf : E.P.δp = 0) (hr : ¬ E.P.reaction > -1) (hE : E.Ok) (hX : E.Explicit W undef it tol) (dt : ℝ)
    (q : Fin c.V → ℝ) (hA : getA (ofVec c q) = 1) : ∃ a, E.pred2 dt (fun _ _ => q) = some a ∧ a 0 0 = q := by
  obtain ⟨step, nw, i1, p1⟩ := hX.pred2 dt
  obtain ⟨a, ha, hc⟩ := pred2_constant hE.tab E.sys q (by
      funext v
      obtain ⟨rate, hs⟩ := hE.src (ofVec c q)
      change E.src (ofVec c q) v = 0
      rw [hs]
      exact Newton.source_atEase c E.P rate _ hv (ease_of_one _ _ ht hf hr hA) v)
    (fun d => gpr_bdot_zero c hv E.P E.src E.junk d q) dt E.dx E.dy tol htol false it hit step i1
    (fun w => standardInitialGuess2 1 (rows2 w)) (fun _ _ => rfl)
  exact ⟨a, by rw [p1, pred2_newton it tol step nw fun w => standardInitialGuess2 1 (rows2 w)]; exact ha, hc 0 (by omega) 0 (by omega)⟩

/-- What the steppers work with where all cells are unstretched and at rest is what they started from. -/
theorem resting_runs (W : Weno.Setup 1) (undef : ℝ) (it : Nat) (hit : 0 < it) (tol : ℝ) (htol : 0 ≤ tol) (hv : c.viscous = true)
    (ht : c.thermal = false) (hmu : c.multi = false) (hf : E.P.δp = 0) (hr : ¬ E.P.reaction > -1) (hE : E.Ok)
    (hX : E.Explicit W undef it tol) (hfl : E.fl = rusanov c E.P) (b : Nat → BT) (hb : ∀ k < 4, Open (b k)) (split : Bool) (dt : ℝ)
    (u : Iter.Mem) (hu : Resting c (E.nx * E.ny) u) : PlaneRuns E b split dt u := by
  have hV := Iter.V_ge c hv
  intro ub hp
  have ho := fun q hq => resting_ode E hv ht hf hr hE dt q hq
  have hop := fun r s h1 h2 => pads2_open E hE b hb u ub hp r s h1 h2
  cases split
  · simp only [Bool.false_eq_true, if_false]
    intro r hr' s hs'
    obtain ⟨i, hi, e⟩ := hop r s hr' hs'
    obtain ⟨a, ha, -⟩ := resting_pred E W undef it hit tol htol hv ht hf hr hE hX dt _ (hu i hi).1
    rw [e, ha]
    rfl
  simp only [if_true]
  refine ⟨fun r hr' s hs' => ?_, fun maskb i hi => (ho _ ?_).2⟩
  · obtain ⟨i, hi, e⟩ := hop r s hr' hs'
    rw [e]
    exact (ho _ (hu i hi).1).2
  have hy0 : 0 < E.ny := hE.wide.2
  obtain ⟨x, y, hx, hy, rfl⟩ : ∃ x y, x < E.nx ∧ y < E.ny ∧ i = cell x y E.ny :=
    ⟨i / E.ny, i % E.ny, (Nat.div_lt_iff_lt_mul hy0).2 hi, Nat.mod_lt _ hy0, by unfold cell; rw [Nat.div_add_mod']⟩
  rw [← (hu _ hi).1]
  refine Relax.getA_congr _ _ fun k h5 h14 => ?_
  let v : Fin c.V := ⟨k, by omega⟩
  rw [ofVec_at _ v k rfl, ofVec_at _ v k rfl]
  have hcd := fun g s (hs : s < E.ny + 2) => cell_div (E.ny + 2) g s hs
  let S : Dg.Sys (Fin c.V) := ⟨E.sys.flux, fun _ => 0, E.sys.bdot⟩
  have hb0 : ∀ d q, E.sys.bdot d q 0 = 0 := fun d q => gpr_bdot_zero c hv E.P E.src E.junk d q
  have hK : kern2 E.sys E.T E.fl (fun _ => dt) E.dx E.dy false = kern2 S E.T E.fl (fun _ => dt) E.dx E.dy false := rfl
  have hget : ∀ p q, p ≤ 2 → q ≤ 2 → ∃ i < E.nx * E.ny,
      E.block (if (E.half && Grid.extendMask2 E.nx E.ny (fun _ => true) maskb (cell (x + p) (y + q) (E.ny + 2))) = true
      then E.mid2 dt (weno2G E.coef false (fun r => E.ode dt (ub r)) (E.nx + 2) (E.ny + 2)
        (cell (x + p) (y + q) (E.ny + 2) / (E.ny + 2)) (cell (x + p) (y + q) (E.ny + 2) % (E.ny + 2)))
      else weno2G E.coef false (fun r => E.ode dt (ub r)) (E.nx + 2) (E.ny + 2)
        (cell (x + p) (y + q) (E.ny + 2) / (E.ny + 2)) (cell (x + p) (y + q) (E.ny + 2) % (E.ny + 2))) 0 = cellsOf c u i := by
    intro p q p1 q1
    obtain ⟨i, hi, e⟩ := hop (x + p) (y + q) (by omega) (by omega)
    refine ⟨i, hi, ?_⟩
    rw [hX.coef, one_weno2, hX.mid2, mid2_const hE.tab _ (fun d => hb0 d _), ite_self, hX.block, (hcd _ _ (by omega)).1,
      (hcd _ _ (by omega)).2]
    refine (rows2_get (fun _ _ : Fin 1 => E.ode dt (ub _)) 0 0).trans ?_
    change E.ode dt (ub (cell (x + p) (y + q) (E.ny + 2))) = _
    rw [e]
    exact (ho _ (hu i hi).1).1
  have eA : ∀ i < E.nx * E.ny, ∀ w : Fin c.V, 5 ≤ w.1 → w.1 < 14 → cellsOf c u i w = if (w.1 - 5) % 4 = 0 then 1 else 0 := fun i hi w h1 h2 => by
    have := congrFun (congrFun (hu i hi).1 ⟨(w.1 - 5) / 3, by omega⟩) ⟨(w.1 - 5) % 3, by omega⟩
    simp only [getA, Matrix.of_apply] at this
    rw [ofVec_at _ w _ (by omega), Matrix.one_apply] at this
    rw [this]
    congr 1
    simp only [Fin.mk.injEq, eq_iff_iff]
    omega
  have hfx : ∀ d, d < 2 → ∀ i < E.nx * E.ny, ∀ j < E.nx * E.ny, rusanov c E.P d (cellsOf c u i) (cellsOf c u j) v = 0 ∧
      bint S E.T d (cellsOf c u i) (cellsOf c u j) v = 0 := fun d hd i hi j hj => by
    have fz : ∀ i < E.nx * E.ny, flux c E.P (ofVec c (cellsOf c u i)) (dir d) 0 v = 0 := fun i hi => by
      have := flux_e5 c E.P (ofVec c (cellsOf c u i)) hv (dir d) ⟨(k - 5) / 3, by omega⟩ ⟨(k - 5) % 3, by omega⟩
      rw [show 5 + (3 * ((k - 5) / 3) + (k - 5) % 3) = k by omega] at this
      refine this.trans ?_
      have vz : vel (ofVec c (cellsOf c u i)) = 0 := funext fun e => by
        change ofVec c (cellsOf c u i) (2 + e) / _ = 0
        rw [ofVec_at _ ⟨2 + e, by omega⟩ _ rfl]
        change u (i * c.V + (2 + e)) / _ = 0
        rw [(hu i hi).2 _ (by omega) (by omega), zero_div]
      rw [vz]
      simp [dot3]
    constructor
    · unfold rusanov dRus
      rw [flux_adds c E.P _ _ hmu, flux_adds c E.P (ofVec c (cellsOf c u i)) _ hmu, Pi.add_apply, Pi.add_apply, fz i hi, fz j hj,
        ofVec_at _ v _ rfl, ofVec_at _ v _ rfl, eA i hi v h5 h14, eA j hj v h5 h14, sub_self, mul_zero]
      ring
    · rw [bint_get]
      refine Finset.sum_eq_zero fun a _ => ?_
      refine mul_eq_zero_of_right _ (bdot_still hv E.P E.src E.junk d _ _ (fun w h1 h2 => ?_) v h5 h14)
      rw [Pi.sub_apply, eA i hi w h1 h2, eA j hj w h1 h2, sub_self]
  unfold before2
  rw [hK, one_cell2 hE.tab S E.fl (fun _ => dt) E.dx E.dy false _ E.nx E.ny _ _ x y hx hy v (fun d q => by
    change E.sys.bdot d q 0 v = 0
    rw [hb0]; rfl) (fun _ => rfl), hfl]
  obtain ⟨i01, h01, e01⟩ := hget 0 1 (by omega) (by omega)
  obtain ⟨i11, h11, e11⟩ := hget 1 1 (by omega) (by omega)
  obtain ⟨i21, h21, e21⟩ := hget 2 1 (by omega) (by omega)
  obtain ⟨i10, h10, e10⟩ := hget 1 0 (by omega) (by omega)
  obtain ⟨i12, h12, e12⟩ := hget 1 2 (by omega) (by omega)
  simp only [e01, e11, e21, e10, e12, hfx 0 (by omega) _ h01 _ h11, hfx 0 (by omega) _ h11 _ h21, hfx 1 (by omega) _ h10 _ h11,
    hfx 1 (by omega) _ h11 _ h12, (ho _ (hu _ hi).1).1]
  simp

/-- The density that a step brings through a face between two cells at rest. -/
theorem rest_density (W : Weno.Setup 1) (undef : ℝ) (it : Nat) (hit : 0 < it) (tol : ℝ) (htol : 0 ≤ tol) (hv : c.viscous = true)
    (ht : c.thermal = false) (hmu : c.multi = false) (hf : E.P.δp = 0) (hr : ¬ E.P.reaction > -1) (hE : E.Ok)
    (hX : E.Explicit W undef it tol) (hfl : E.fl = rusanov c E.P) (b : Nat → BT) (hb : ∀ k < 4, Open (b k)) (nc split : Bool)
    (threads : Nat) (hT : 0 < threads) (dt : ℝ) (u u' : Iter.Mem) (hu : Resting c (E.nx * E.ny) u)
    (hm : MovesPlane E b nc split threads dt u u') (x y : Nat) (hx : x + 2 < E.nx) (hy : y + 2 < E.ny) :
    let ρ := fun x y => u (cell x y E.ny * c.V)
    let s := fun d x y => speed c E.P (cellsOf c u (cell x y E.ny)) d
    u' (cell (x + 1) (y + 1) E.ny * c.V) = ρ (x + 1) (y + 1) +
      dt / (2 * E.dx) * (max (s 0 x (y + 1)) (s 0 (x + 1) (y + 1)) * (ρ x (y + 1) - ρ (x + 1) (y + 1)) +
        max (s 0 (x + 1) (y + 1)) (s 0 (x + 2) (y + 1)) * (ρ (x + 2) (y + 1) - ρ (x + 1) (y + 1))) +
      dt / (2 * E.dy) * (max (s 1 (x + 1) y) (s 1 (x + 1) (y + 1)) * (ρ (x + 1) y - ρ (x + 1) (y + 1)) +
        max (s 1 (x + 1) (y + 1)) (s 1 (x + 1) (y + 2)) * (ρ (x + 1) (y + 2) - ρ (x + 1) (y + 1))) := by
  have hV := Iter.V_ge c hv
  have no : ∀ k < 4, b k ≠ .other := fun k hk => by rcases hb k hk with h | h <;> rw [h] <;> decide
  have hrun := resting_runs E W undef it hit tol htol hv ht hmu hf hr hE hX hfl b hb split dt u hu
  obtain ⟨ub, w, rec, mask, wt, sources, hp, hwt, hst, hgrid, e⟩ := plane_first E W undef it tol hv hE hX b no nc split threads hT dt u u' hrun hm
  let v0 : Fin c.V := ⟨0, by omega⟩
  have hB : ∀ d q x, E.sys.bdot d q x v0 = 0 := fun d q x => gpr_conservative_components c hv E.P E.src E.junk v0 (show (0 : Nat) < 5 by omega) d q x
  have q0 := quiet_mass E hv hE dt v0 rfl
  have hfull : ∀ x y, x < E.nx → y < E.ny → rec (cell (x + 1) (y + 1) (E.ny + 2)) 0 = cellsOf c u (cell x y E.ny) := fun x y hx hy => by
    obtain ⟨-, hs, hq⟩ := hst (x + 1) (y + 1) (by omega) (by omega) (by omega)
    have hA : ∀ v : Fin c.V, 5 ≤ v.1 → v.1 < 14 → rec (cell (x + 1) (y + 1) (E.ny + 2)) 0 v = cellsOf c u (cell x y E.ny) v := fun v h1 h2 => by
      obtain ⟨ub', r, s, hp', hr', hs', hq⟩ := hs
      obtain ⟨i, hi, ei⟩ := pads2_open E hE b hb u ub' hp' r s hr' hs'
      have : rec (cell (x + 1) (y + 1) (E.ny + 2)) 0 = cellsOf c u i := by
        cases split
        · simp only [Bool.false_eq_true, if_false] at hq
          obtain ⟨a, ha, eq⟩ := hq
          obtain ⟨a', ha', ea⟩ := resting_pred E W undef it hit tol htol hv ht hf hr hE hX dt _ (hu i hi).1
          rw [ei, ha'] at ha
          cases ha
          rw [eq, ea]
        · simp only [if_true] at hq
          rw [hq, ei]
          exact (resting_ode E hv ht hf hr hE dt _ (hu i hi).1).1
      rw [this]
      have e1 := congrFun (congrFun ((hu i hi).1.trans (hu _ (cell_lt hx hy)).1.symm) ⟨(v.1 - 5) / 3, by omega⟩) ⟨(v.1 - 5) % 3, by omega⟩
      simp only [getA, Matrix.of_apply] at e1
      rwa [ofVec_at _ v _ (by omega), ofVec_at _ v _ (by omega)] at e1
    funext v
    by_cases h5 : v.1 < 5
    · rw [hq v (quiet_head E hv hE dt v h5 (by simp [force, hf])), pads2_grid E hE b no u ub hp x y hx hy]
    by_cases h14 : v.1 < 14
    · exact hA v (by omega) h14
    · rw [hq v (quiet_tail E hv hE dt v (by simp [Sys.Cfg.mV, hv, ht]; omega) fun h => absurd h hr), pads2_grid E hE b no u ub hp x y hx hy]
  have hM : ∀ x y, x < E.nx → y < E.ny → mask (cell (x + 1) (y + 1) (E.ny + 2)) = true := fun x y hx hy =>
    (hst (x + 1) (y + 1) (by omega) (by omega) (by omega)).1
  intro ρ s
  have h1 := e (x + 1) (y + 1) (by omega) (by omega) v0 q0
  rw [one_cell2 hE.tab E.sys E.fl wt E.dx E.dy sources rec E.nx E.ny mask w (x + 1) (y + 1) (by omega) (by omega) v0
    (fun d q => hB d q 0) (fun q => q0.src _), (hgrid (x + 1) (y + 1) (by omega) (by omega) v0 q0).1] at h1
  have bz : ∀ d ql qr, bint E.sys E.T d ql qr v0 = 0 := fun d ql qr => by
    rw [bint_get]
    exact Finset.sum_eq_zero fun a _ => by rw [hB, mul_zero]
  have fx : ∀ d, d < 2 → ∀ i < E.nx * E.ny, ∀ j < E.nx * E.ny, rusanov c E.P d (cellsOf c u i) (cellsOf c u j) v0 =
      max (speed c E.P (cellsOf c u i) d) (speed c E.P (cellsOf c u j) d) * (u (i * c.V) - u (j * c.V)) := fun d hd i hi j hj => by
    rw [rusanov_mass E.P d _ _ v0 rfl ⟨2 + (dir d).1, by omega⟩ rfl]
    have z : ∀ i < E.nx * E.ny, cellsOf c u i ⟨2 + (dir d).1, by omega⟩ = 0 := fun i hi => (hu i hi).2 (2 + (dir d).1) (by omega) (by omega)
    rw [z i hi, z j hj]
    simp [cellsOf, v0]
  simp only [hwt, hfl, bz, sub_zero, add_zero, show x + 1 + 0 = x + 1 from rfl, show y + 1 + 0 = y + 1 from rfl,
    show x + 1 + 1 = (x + 1) + 1 from rfl, show x + 1 + 2 = (x + 2) + 1 from rfl, show y + 1 + 2 = (y + 2) + 1 from rfl,
    hM x (y + 1) (by omega) (by omega), hM (x + 1) (y + 1) (by omega) (by omega), hM (x + 2) (y + 1) (by omega) (by omega),
    hM (x + 1) y (by omega) (by omega), hM (x + 1) (y + 2) (by omega) (by omega),
    hfull x (y + 1) (by omega) (by omega), hfull (x + 1) (y + 1) (by omega) (by omega), hfull (x + 2) (y + 1) (by omega) (by omega),
    hfull (x + 1) y (by omega) (by omega), hfull (x + 1) (y + 2) (by omega) (by omega), Bool.and_self, if_true,
    fx 0 (by omega) _ (cell_lt (show x < E.nx by omega) (show y + 1 < E.ny by omega)) _ (cell_lt (show x + 1 < E.nx by omega) (show y + 1 < E.ny by omega)),
    fx 0 (by omega) _ (cell_lt (show x + 1 < E.nx by omega) (show y + 1 < E.ny by omega)) _ (cell_lt (show x + 2 < E.nx by omega) (show y + 1 < E.ny by omega)),
    fx 1 (by omega) _ (cell_lt (show x + 1 < E.nx by omega) (show y < E.ny by omega)) _ (cell_lt (show x + 1 < E.nx by omega) (show y + 1 < E.ny by omega)),
    fx 1 (by omega) _ (cell_lt (show x + 1 < E.nx by omega) (show y + 1 < E.ny by omega)) _ (cell_lt (show x + 1 < E.nx by omega) (show y + 2 < E.ny by omega))] at h1
  have h1 : u' (cell (x + 1) (y + 1) E.ny * c.V) = _ := h1
  rw [h1]
  simp only [ρ, s, v0, add_zero]
  ring

/-- **Exchanging the axes of the data does not exchange the axes of the result.**  An unstretched fluid at rest whose density changes
between cells `k + 1` and `k + 2` along the first axis, or just so along the second, on a square grid: whatever the step, the stepper
and the threads, the densities next to the change differ afterwards. -/
theorem axes_false (W : Weno.Setup 1) (undef : ℝ) (it : Nat) (hit : 0 < it) (tol : ℝ) (htol : 0 ≤ tol) (hv : c.viscous = true)
    (ht : c.thermal = false) (hmu : c.multi = false) (hP : E.P.multi = false) (hf : E.P.δp = 0) (hr : ¬ E.P.reaction > -1) (hE : E.Ok)
    (hX : E.Explicit W undef it tol) (hfl : E.fl = rusanov c E.P) (b b' : Nat → BT) (hb : ∀ k < 4, Open (b k)) (hb' : ∀ k < 4, Open (b' k))
    (nc nc' split split' : Bool) (threads threads' : Nat) (hT : 0 < threads) (hT' : 0 < threads') (dt : ℝ) (hdt : 0 < dt)
    (hn : E.nx = E.ny) (hd : E.dx = E.dy) (hdx : 0 < E.dx) (q : Nat → Fin c.V → ℝ)
    (hq : ∀ j < E.nx, getA (ofVec c (q j)) = 1 ∧ (∀ v : Fin c.V, 2 ≤ v.1 → v.1 < 5 → q j v = 0) ∧ Eig.Regular c E.P (ofVec c (q j)) ∧
      0 < cs2 E.P.toParams (ofVec c (q j) 0) ∧ 0 < Eig.c0 c E.P (ofVec c (q j)))
    (u u' w w' : Iter.Mem) (hu : ∀ x < E.nx, ∀ y < E.ny, cellsOf c u (cell x y E.ny) = q x)
    (hw : ∀ x < E.nx, ∀ y < E.ny, cellsOf c w (cell x y E.ny) = q y)
    (hm : MovesPlane E b nc split threads dt u u') (hm' : MovesPlane E b' nc' split' threads' dt w w')
    (k y : Nat) (hk : k + 2 < E.nx) (hy : y + 2 < E.ny) (h0 : ofVec c (q k) 0 = ofVec c (q (k + 1)) 0)
    (h1 : ofVec c (q (k + 1)) 0 ≠ ofVec c (q (k + 2)) 0) :
    u' (cell (k + 1) (y + 1) E.ny * c.V) ≠ w' (cell (y + 1) (k + 1) E.ny * c.V) := by
  have hV := Iter.V_ge c hv
  have hy0 : 0 < E.ny := hE.wide.2
  have rest : ∀ (m : Iter.Mem) (f : Nat → Nat → Nat), (∀ x y, x < E.nx → y < E.ny → f x y < E.nx) →
      (∀ x < E.nx, ∀ y < E.ny, cellsOf c m (cell x y E.ny) = q (f x y)) → Resting c (E.nx * E.ny) m := fun m f hf' hm i hi => by
    obtain ⟨x, y, hx, hy, rfl⟩ : ∃ x y, x < E.nx ∧ y < E.ny ∧ i = cell x y E.ny :=
      ⟨i / E.ny, i % E.ny, (Nat.div_lt_iff_lt_mul hy0).2 hi, Nat.mod_lt _ hy0, by unfold cell; rw [Nat.div_add_mod']⟩
    obtain ⟨h1, h2, -⟩ := hq _ (hf' x y hx hy)
    refine ⟨by rw [hm x hx y hy]; exact h1, fun k k1 k2 => ?_⟩
    have := congrFun (hm x hx y hy) ⟨k, by omega⟩
    exact Eq.trans this (h2 ⟨k, by omega⟩ k1 k2)
  have hρ : ∀ (m : Iter.Mem) (i j : Nat), cellsOf c m i = q j → m (i * c.V) = ofVec c (q j) 0 := fun m i j h => by
    rw [← h, ofVec_at _ ⟨0, by omega⟩ 0 rfl]
    rfl
  have e1 := rest_density E W undef it hit tol htol hv ht hmu hf hr hE hX hfl b hb nc split threads hT dt u u'
    (rest u (fun x _ => x) (fun x y hx _ => hx) hu) hm k y hk hy
  have e2 := rest_density E W undef it hit tol htol hv ht hmu hf hr hE hX hfl b' hb' nc' split' threads' hT' dt w w'
    (rest w (fun _ y => y) (fun x y _ hy => hn ▸ hy) hw) hm' y k (by omega) (by omega)
  simp only at e1 e2
  rw [hu k (by omega) (y + 1) (by omega), hu (k + 1) (by omega) (y + 1) (by omega), hu (k + 2) (by omega) (y + 1) (by omega),
    hu (k + 1) (by omega) y (by omega), hu (k + 1) (by omega) (y + 2) (by omega),
    hρ u _ k (hu k (by omega) (y + 1) (by omega)), hρ u _ (k + 1) (hu (k + 1) (by omega) (y + 1) (by omega)),
    hρ u _ (k + 2) (hu (k + 2) (by omega) (y + 1) (by omega)), hρ u _ (k + 1) (hu (k + 1) (by omega) y (by omega)),
    hρ u _ (k + 1) (hu (k + 1) (by omega) (y + 2) (by omega)), h0] at e1
  rw [hw (y + 1) (by omega) k (by omega), hw (y + 1) (by omega) (k + 1) (by omega), hw (y + 1) (by omega) (k + 2) (by omega),
    hw y (by omega) (k + 1) (by omega), hw (y + 2) (by omega) (k + 1) (by omega),
    hρ w _ k (hw (y + 1) (by omega) k (by omega)), hρ w _ (k + 1) (hw (y + 1) (by omega) (k + 1) (by omega)),
    hρ w _ (k + 2) (hw (y + 1) (by omega) (k + 2) (by omega)), hρ w _ (k + 1) (hw y (by omega) (k + 1) (by omega)),
    hρ w _ (k + 1) (hw (y + 2) (by omega) (k + 1) (by omega)), h0, ← hd] at e2
  have lt : ∀ j < E.nx, speed c E.P (q j) 1 < speed c E.P (q j) 0 := fun j hj => by
    obtain ⟨hA, hz, hR, hk, hc⟩ := hq j hj
    have vz : ∀ e : Fin 3, vel (ofVec c (q j)) e = 0 := fun e => by
      change ofVec c (q j) (2 + e) / _ = 0
      rw [ofVec_at _ ⟨2 + e, by omega⟩ _ rfl, hz _ (by simp) (by simp only; omega), zero_div]
    exact (Eig.second_axis_false c E.P _ hv ht hP (fun h => absurd h hr) hR hA hk hc (vz 1).ge).2.2 ((vz 0).trans (vz 1).symm)
  have hs := max_lt_max (lt (k + 1) (by omega)) (lt (k + 2) (by omega))
  generalize max (speed c E.P (q (k + 1)) 1) (speed c E.P (q (k + 2)) 1) = s1 at *
  generalize max (speed c E.P (q (k + 1)) 0) (speed c E.P (q (k + 2)) 0) = s0 at *
  rw [e1, e2]
  intro h
  have hz : dt / (2 * E.dx) * ((s0 - s1) * (ofVec c (q (k + 2)) 0 - ofVec c (q (k + 1)) 0)) = 0 := by linarith
  have : 0 < dt / (2 * E.dx) := by positivity
  rcases mul_eq_zero.1 hz with h | h
  · linarith
  · rcases mul_eq_zero.1 h with h | h
    · linarith
    · exact h1 (by linarith)

/-- Gas of density `d` at rest, unstretched, of energy 5. -/
def restQ (d : ℝ) : Fin lineCfg.V → ℝ := fun v =>
  if v.1 = 0 then d else if v.1 = 1 then 5 else if v.1 = 5 ∨ v.1 = 9 ∨ v.1 = 13 then 1 else 0

theorem restQ_facts (d : ℝ) (hd : 0 < d) : getA (ofVec lineCfg (restQ d)) = 1 ∧ (∀ v : Fin lineCfg.V, 2 ≤ v.1 → v.1 < 5 → restQ d v = 0) ∧
    Eig.Regular lineCfg (samplePar sample) (ofVec lineCfg (restQ d)) ∧
    0 < cs2 (samplePar sample).toParams (ofVec lineCfg (restQ d) 0) ∧ 0 < Eig.c0 lineCfg (samplePar sample) (ofVec lineCfg (restQ d)) := by
  have g : ∀ k (hk : k < 14), ofVec lineCfg (restQ d) k = restQ d ⟨k, hk⟩ := fun k hk => ofVec_at (c := lineCfg) _ ⟨k, hk⟩ k rfl
  have g0 : ofVec lineCfg (restQ d) 0 = d := by rw [g 0 (by omega)]; simp [restQ]
  have hA : getA (ofVec lineCfg (restQ d)) = 1 := by
    ext i j
    simp only [getA, Matrix.of_apply]
    rw [g _ (by omega)]
    fin_cases i <;> fin_cases j <;> simp [restQ]
  have hv : vel (ofVec lineCfg (restQ d)) = 0 := funext fun e => by
    change ofVec lineCfg (restQ d) (2 + e) / _ = 0
    rw [g _ (by omega)]
    fin_cases e <;> simp [restQ]
  have hG : devGsq (getA (ofVec lineCfg (restQ d))) = 0 := by rw [hA]; simp [devGsq, dot3]; norm_num
  have hp : pressure lineCfg (samplePar sample) (ofVec lineCfg (restQ d)) = 5 := by
    have h2 : E2A (samplePar sample).toParams (ofVec lineCfg (restQ d) 0) (getA (ofVec lineCfg (restQ d))) = 0 := by
      rw [E2A, hG, mul_zero]
    rw [g0] at h2
    have h1 : ofVec lineCfg (restQ d) 1 = 5 := by rw [g 1 (by omega)]; simp [restQ]
    have h3 : E3 (vel (ofVec lineCfg (restQ d))) = 0 := by rw [hv]; simp [E3, sq3]
    simp only [pressure, internalEnergy, h1, h2, h3, g0]
    norm_num [samplePar, sample, pressureMG, eRef, pRef, gammaMG, lineCfg, hd.ne']
  have hE : (pressure lineCfg (samplePar sample) (ofVec lineCfg (restQ d)) / (ofVec lineCfg (restQ d) 0 * ofVec lineCfg (restQ d) 0) -
      dEdrho lineCfg (samplePar sample) (ofVec lineCfg (restQ d))) / dEdp lineCfg (samplePar sample) (ofVec lineCfg (restQ d)) = 10 / d := by
    simp only [dEdrho, dEdp, hp, hG, g0]
    norm_num [samplePar, sample, dedrho, dedp, gammaMG, pRef, eRef, dpRef, deRef, dGammaMG]
    field_simp
    norm_num
  have hcs : 0 < cs2 (samplePar sample).toParams (ofVec lineCfg (restQ d) 0) := by norm_num [cs2, samplePar, sample, g0]; positivity
  refine ⟨hA, fun v h1 h2 => ?_, ⟨by rw [g0]; exact hd.ne', by norm_num [gammaMG, samplePar, sample], hcs.ne',
    by rw [hE]; positivity, fun h => absurd h (by decide)⟩, hcs, ?_⟩
  · simp only [restQ, show v.1 ≠ 0 by omega, show v.1 ≠ 1 by omega, show ¬ (v.1 = 5 ∨ v.1 = 9 ∨ v.1 = 13) by omega, if_false]
  · unfold Eig.c0
    rw [hE]
    positivity

/-- A square of sixteen cells in first order. -/
def axesEnv (T : Tab 1) (h : T.Ok) (W : Weno.Setup 1) : Env lineCfg 1 :=
  { firstEnv T h W with
    nx := 4
    ny := 4
    dx := 1 / 10
    dy := 1 / 10
    pred2 := fun dt => Step.pred2 false 4 0
      (fun w => (isStep2_exists h boxSys (initialCondition2 T (rows2 w)) dt (1 / 10) (1 / 10)).choose)
      fun w => standardInitialGuess2 1 (rows2 w)
    mid2 := fun dt => Step.mid2 boxSys T dt (1 / 10) (1 / 10) }

/-- Gas at rest, twice as dense in the last two columns or in the last two rows: both steps exist, and the densities beside the jump
differ afterwards. -/
example (T : Tab 1) (h : T.Ok) (W : Weno.Setup 1) (dt : ℝ) (hdt : 0 < dt) (threads : Nat) (hT : 0 < threads) :
    let q : Nat → Fin lineCfg.V → ℝ := fun j => restQ (if j < 2 then 1 else 2)
    let u : Iter.Mem := fun k => q (k / 14 / 4) ⟨k % 14, Nat.mod_lt _ (by omega)⟩
    let w : Iter.Mem := fun k => q (k / 14 % 4) ⟨k % 14, Nat.mod_lt _ (by omega)⟩
    ∃ u' w', MovesPlane (axesEnv T h W) (fun _ => .transmissive) true true threads dt u u' ∧
      MovesPlane (axesEnv T h W) (fun _ => .transmissive) true true threads dt w w' ∧
      u' (cell 1 1 4 * 14) ≠ w' (cell 1 1 4 * 14) := by
  intro q u w
  let E := axesEnv T h W
  have hE : E.Ok := ⟨h, ⟨by simp [E, axesEnv], by simp [E, axesEnv]⟩, fun _ => ⟨0, rfl⟩,
    fun A => (Grid.svd_exists A).choose_spec.choose_spec.choose_spec.1⟩
  have hX : E.Explicit W 0 4 0 := ⟨rfl, fun dt => ⟨_, _, fun w => (isStep1_exists h boxSys _ dt (1 / 10)).choose_spec, rfl⟩,
     fun dt => ⟨_, _, fun w => (isStep2_exists h boxSys _ dt (1 / 10) (1 / 10)).choose_spec, rfl⟩, fun _ => rfl, fun _ => rfl, rfl⟩
  obtain ⟨u', hu'⟩ := movesPlane_exists E (by decide) hE (fun _ => .transmissive) (by decide) (by decide) (by decide) (by decide) true threads dt u
  obtain ⟨w', hw'⟩ := movesPlane_exists E (by decide) hE (fun _ => .transmissive) (by decide) (by decide) (by decide) (by decide) true threads dt w
  refine ⟨u', w', hu', hw', axes_false E W 0 4 (by omega) 0 le_rfl rfl rfl rfl rfl rfl (by norm_num [E, axesEnv, firstEnv, lineEnv, samplePar]) hE hX rfl
    (fun _ => .transmissive) (fun _ => .transmissive) (fun _ _ => Or.inl rfl) (fun _ _ => Or.inl rfl) true true true true threads threads hT hT dt hdt rfl rfl
    (show (0 : ℝ) < 1 / 10 by norm_num) q (fun j _ => restQ_facts _ (by split_ifs <;> norm_num)) u u' w w' ?_ ?_ hu' hw' 0 0
    (show 0 + 2 < 4 by omega) (show 0 + 2 < 4 by omega) ?_ ?_⟩
  · intro x hx y hy
    have hx : x < 4 := hx
    have hy : y < 4 := hy
    funext v
    have hv : v.1 < 14 := v.2
    change q ((cell x y 4 * 14 + v) / 14 / 4) ⟨(cell x y 4 * 14 + v) % 14, _⟩ = q x v
    have e1 : (cell x y 4 * 14 + v) / 14 / 4 = x := by unfold cell; omega
    have e2 : (cell x y 4 * 14 + v) % 14 = v := by omega
    simp only [e1, e2]
  · intro x hx y hy
    have hx : x < 4 := hx
    have hy : y < 4 := hy
    funext v
    have hv : v.1 < 14 := v.2
    change q ((cell x y 4 * 14 + v) / 14 % 4) ⟨(cell x y 4 * 14 + v) % 14, _⟩ = q y v
    have e1 : (cell x y 4 * 14 + v) / 14 % 4 = y := by unfold cell; omega
    have e2 : (cell x y 4 * 14 + v) % 14 = v := by omega
    simp only [e1, e2]
  · rfl
  · rw [ofVec_at (c := lineCfg) _ ⟨0, by decide⟩ 0 rfl, ofVec_at (c := lineCfg) _ ⟨0, by decide⟩ 0 rfl]
    norm_num [q, restQ]

end

end Verif.Run
