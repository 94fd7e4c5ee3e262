import Verif.Run.Level
import Verif.Run.Corner
import Verif.Weno.Face

/-! # Second order without half step

`split_stepper` with `N = 2` and `HALF_STEP = false` on a line.  Densities whose neighbours differ by less than a factor of three
stay positive; level sets leave their range. -/

namespace Verif.Run

open Verif.Sys Verif.Iter Verif.Dg Verif.Fv Verif.Step Verif.Grid Verif.Rot

noncomputable section

variable {c : Sys.Cfg} (E : Env c 2)

/-- The reconstruction of padded row `g` after the first half of the source terms, steppers.cpp:57-61. -/
def Env.recon (dt : ℝ) (ub : Nat → Fin c.V → ℝ) (g : Nat) : Fin 2 → Fin c.V → ℝ :=
  weno1G E.coef (fun r => E.ode dt (ub r)) ((E.nx + 2 : Nat) : Int) 0 g

/-- The states on the two sides of the faces. -/
def FaceState (b : Nat → BT) (dt : ℝ) (u : Iter.Mem) (q : Fin c.V → ℝ) : Prop :=
  ∃ ub g e, Pads1 E b u ub ∧ g < E.nx + 2 ∧ q = trace E.T e (E.recon dt ub g)

/-- The source terms give numbers. -/
def SecondRuns (b : Nat → BT) (dt : ℝ) (u : Iter.Mem) : Prop := ∀ ub, Pads1 E b u ub →
  (∀ r < E.nx + 4, E.Number dt (ub r)) ∧ ∀ maskb, ∀ i < E.nx,
    E.Number dt (before1 E.coef (E.ode dt) E.half (E.mid1 dt) (kern1 E.sys E.T E.fl (fun _ => dt) E.dx false) ub E.nx
      (Grid.extendMask1 E.nx (fun _ => true) maskb) (cellsOf c u) i)

theorem pads1_grid2 (hE : E.Ok) (b : Nat → BT) (h0 : b 0 ≠ .other) (h1 : b 1 ≠ .other) (u : Iter.Mem) (ub : Nat → Fin c.V → ℝ)
    (hp : Pads1 E b u ub) (i : Nat) (hi : i < E.nx) : ub (i + 2) = cellsOf c u i := by
  obtain ⟨old, m', hm, hub⟩ := hp
  obtain ⟨m'', e, a, -⟩ := Grid.boundaries_1d ⟨2, E.destress⟩ E.nx (b 0) (b 1) (memOf c u old) hE.wide.1 h0 h1
  rw [hm] at e
  cases e
  funext v
  rw [hub, a (i + 2) (by simp only; omega)]
  unfold ghostOf srcOf
  simp only [show ¬ i + 2 < 2 by omega, if_false, show i + 2 < 2 + E.nx by omega, if_true, Nat.add_sub_cancel]
  rfl

variable {E} in
/-- The traces of a component without source terms. -/
theorem trace_second {W : Weno.Setup 2} {undef : ℝ} {it : Nat} {tol : ℝ} (hE : E.Ok) (hX : E.Explicit W undef it tol) (hW : W.Clean)
    (hx : W.x = E.T.nodes) {dt : ℝ} {ub : Nat → Fin c.V → ℝ} (hr : ∀ r < E.nx + 4, E.Number dt (ub r)) {v : Fin c.V}
    (q : Quiet E dt v) {g : Nat} (hg : g < E.nx + 2) :
    let s := Weno.mix W.T.eps (ub (g + 1) v - ub g v) (ub (g + 2) v - ub (g + 1) v)
    (∀ k, E.recon dt ub g k v = ub (g + 1) v + s * (E.T.nodes k - 1 / 2)) ∧
    trace E.T 1 (E.recon dt ub g) v = ub (g + 1) v + s / 2 ∧ trace E.T 0 (E.recon dt ub g) v = ub (g + 1) v - s / 2 := by
  intro s
  have key : ∀ k, E.recon dt ub g k v = ub (g + 1) v + s * (E.T.nodes k - 1 / 2) := fun k => by
    unfold Env.recon
    rw [hX.coef, weno1G_real]
    refine (Weno.coeffs_both W hW undef (fun r => E.ode dt (ub (g + r)) v) (E.nx + 2 : Nat) 0 g (by omega) (by omega) k).trans ?_
    simp only [q.ode _ (hr (g + 1) (by omega)), q.ode _ (hr (g + 2) (by omega)), q.ode _ (hr g (by omega)), Nat.add_zero, hx, s]
  refine ⟨key, ?_, ?_⟩
  · unfold trace
    rw [Finset.sum_congr rfl fun k _ => by rw [key k]]
    exact (ends_two hE.tab _ _).1
  · unfold trace
    rw [Finset.sum_congr rfl fun k _ => by rw [key k]]
    exact (ends_two hE.tab _ _).2

/-- **A step of second order without half step on a line**: the update of `fv.cpp` from the reconstruction. -/
theorem line_second (hE : E.Ok) (hhalf : E.half = false) (b : Nat → BT) (threads : Nat) (hT : 0 < threads) (dt : ℝ)
    (u u' : Iter.Mem) (hrun : SecondRuns E b dt u) (hm : MovesLine E b true threads dt u u') :
    ∃ (ub : Nat → Fin c.V → ℝ) (mask : Nat → Bool), Pads1 E b u ub ∧ (∀ g < E.nx + 2, mask g = true) ∧
      (∀ r < E.nx + 4, E.Number dt (ub r)) ∧
      ∀ i < E.nx, ∀ v : Fin c.V, Quiet E dt v → u' (i * c.V + v) = apply (kern1 E.sys E.T E.fl (fun _ => dt) E.dx false).app
        (fv1 (kern1 E.sys E.T E.fl (fun _ => dt) E.dx false) (E.recon dt ub) E.nx 1 mask) (fun i => E.ode dt (cellsOf c u i)) i v := by
  have hx0 : 0 < E.nx := by have := hE.wide.1; omega
  obtain ⟨ub, maskb, hp, hm⟩ := hm
  have hM := mask1_true E.nx hx0 maskb
  obtain ⟨hr, hr2⟩ := hrun ub hp
  obtain ⟨l, hl, e⟩ := hm
  refine ⟨ub, Grid.extendMask1 E.nx (fun _ => true) maskb, hp, hM, hr, fun i hi v q => ?_⟩
  rw [e i hi v, split_para1 _ (E.ode dt) E.half (E.mid1 dt) (fun q => q) _ ub E.nx _ threads hT l hl]
  unfold split1
  rw [split_get _ _ _ _ _ _ hi]
  have hh := q.ode _ (hr2 maskb i hi)
  unfold before1 at hh
  refine hh.trans ?_
  simp only [hhalf, Bool.false_and, Bool.false_eq_true, if_false]
  rfl

/-- No two cells next to one another differ in density by a factor of three or more, ghost cells included. -/
def Mild (b : Nat → BT) (u : Iter.Mem) : Prop := ∀ i j, i < E.nx → j < E.nx →
  (i + 1 = j ∨ j + 1 = i ∨ (b 0 = .periodic ∨ b 1 = .periodic) ∧ (i = 0 ∧ j = E.nx - 1 ∨ j = 0 ∧ i = E.nx - 1)) → u (i * c.V) < 3 * u (j * c.V)

/-- Rows of the padded array next to one another show cells next to one another. -/
theorem srcOf_near {nx : Nat} (hx : 2 ≤ nx) (b0 b1 : BT) (r : Nat) (hr : r + 1 < nx + 4) :
    let i := srcOf 2 b0 b1 nx r
    let j := srcOf 2 b0 b1 nx (r + 1)
    i = j ∨ i + 1 = j ∨ j + 1 = i ∨ (b0 = .periodic ∨ b1 = .periodic) ∧ (i = 0 ∧ j = nx - 1 ∨ j = 0 ∧ i = nx - 1) := by
  intro i j
  simp only [i, j, srcOf]
  split_ifs <;> cases b0 <;> cases b1 <;> (try dsimp only) <;>
    first
    | exact Or.inl (by omega)
    | exact Or.inr (Or.inl (by omega))
    | exact Or.inr (Or.inr (Or.inl (by omega)))
    | exact Or.inr (Or.inr (Or.inr ⟨Or.inl rfl, by omega⟩))
    | exact Or.inr (Or.inr (Or.inr ⟨Or.inr rfl, by omega⟩))

/-- Component `v` of padded row `r` is that of the cell it shows. -/
theorem pads1_src {n : Nat} (E : Env c n) (hE : E.Ok) (hds : ∀ f, E.destress = some f → ∀ q k, k = 0 ∨ 14 ≤ k → f q k = q k) (b : Nat → BT)
    (h0 : b 0 ≠ .other) (h1 : b 1 ≠ .other) (u : Iter.Mem) (ub : Nat → Fin c.V → ℝ) (hp : Pads1 E b u ub)
    (v : Fin c.V) (hv : v.1 = 0 ∨ 14 ≤ v.1) (r : Nat) (hr : r < E.nx + 2 * n) : ub r v = u (srcOf n (b 0) (b 1) E.nx r * c.V + v) := by
  obtain ⟨old, m', hm, hub⟩ := hp
  obtain ⟨m'', e, a, -⟩ := Grid.boundaries_1d ⟨n, E.destress⟩ E.nx (b 0) (b 1) (memOf c u old) hE.wide.1 h0 h1
  rw [hm] at e
  cases e
  rw [hub, a r hr, ghost_quiet _ E.destress hds 0 (by omega) _ _ _ _ _ _ hv]
  rfl

/-- **Second order without half step keeps densities positive where they are mild**, if no wave crosses half a cell during the
step: Rusanov flux, between any ends, for any number and schedule of threads. -/
theorem second_dense (W : Weno.Setup 2) (undef : ℝ) (it : Nat) (tol : ℝ) (hv : c.viscous = true) (hE : E.Ok)
    (hX : E.Explicit W undef it tol) (hW : W.Clean) (hx : W.x = E.T.nodes) (hhalf : E.half = false) (hfl : E.fl = rusanov c E.P)
    (hds : ∀ f, E.destress = some f → ∀ q k, k = 0 ∨ 14 ≤ k → f q k = q k) (b : Nat → BT) (h0 : b 0 ≠ .other) (h1 : b 1 ≠ .other)
    (threads : Nat) (hT : 0 < threads) (dt : ℝ) (hdt : 0 ≤ dt) (hdx : 0 < E.dx) (u u' : Iter.Mem) (hu : Dense c E.nx u)
    (hmild : Mild E b u) (hrun : SecondRuns E b dt u) (hcfl : ∀ q, FaceState E b dt u q → dt * speed c E.P q 0 < 1 / 2 * E.dx)
    (hm : MovesLine E b true threads dt u u') : Dense c E.nx u' := by
  have hV := Iter.V_ge c hv
  let v : Fin c.V := ⟨0, by omega⟩
  let m : Fin c.V := ⟨2, by omega⟩
  have hB : ∀ d q x, E.sys.bdot d q x v = 0 := fun d q x => gpr_conservative_components c hv E.P E.src E.junk v (show (0 : Nat) < 5 by omega) d q x
  have qv := quiet_mass E hv hE dt v rfl
  obtain ⟨ub, mask, hp, -, hr, e⟩ := line_second E hE hhalf b threads hT dt u u' hrun hm
  have hgrid := pads1_grid2 E hE b h0 h1 u ub hp
  have hsrc := fun r (hr : r < E.nx + 4) => pads1_src E hE hds b h0 h1 u ub hp v (Or.inl rfl) r (by omega)
  have hlt := fun r (hr : r < E.nx + 4) => srcOf_lt (N := 2) (nx := E.nx) (b0 := b 0) (b1 := b 1) hE.wide.1 (by have := hE.wide.1; omega)
    (show r < E.nx + 2 * 2 by omega)
  have hpos : ∀ r < E.nx + 4, 0 < ub r v := fun r hr => by rw [hsrc r hr]; exact hu _ (hlt r hr)
  have hnear : ∀ r, r + 1 < E.nx + 4 → ub r v < 3 * ub (r + 1) v ∧ ub (r + 1) v < 3 * ub r v := fun r hr => by
    have a := hpos r (by omega)
    have a' := hpos (r + 1) hr
    rw [hsrc r (by omega)] at *
    rw [hsrc (r + 1) hr] at *
    have near := srcOf_near hE.wide.1 (b 0) (b 1) r hr
    simp only at near
    have l0 := hlt r (by omega)
    have l1 := hlt (r + 1) hr
    generalize srcOf 2 (b 0) (b 1) E.nx r = i at *
    generalize srcOf 2 (b 0) (b 1) E.nx (r + 1) = j at *
    rcases near with h | h | h | ⟨hb, h⟩
    · subst h; exact ⟨by linarith, by linarith⟩
    · exact ⟨hmild i j l0 l1 (Or.inl h), hmild j i l1 l0 (Or.inr (Or.inl h))⟩
    · exact ⟨hmild i j l0 l1 (Or.inr (Or.inl h)), hmild j i l1 l0 (Or.inl h)⟩
    · exact ⟨hmild i j l0 l1 (Or.inr (Or.inr ⟨hb, h⟩)), hmild j i l1 l0 (Or.inr (Or.inr ⟨hb, h.symm⟩))⟩
  have htr : ∀ g < E.nx + 2, 0 < trace E.T 1 (E.recon dt ub g) v ∧ 0 < trace E.T 0 (E.recon dt ub g) v ∧
      trace E.T 1 (E.recon dt ub g) v + trace E.T 0 (E.recon dt ub g) v = 2 * ub (g + 1) v := fun g hg => by
    obtain ⟨-, t1, t0⟩ := trace_second hE hX hW hx hr qv hg
    rw [t1, t0]
    have p0 := hpos g (by omega)
    have p1 := hpos (g + 1) (by omega)
    have p2 := hpos (g + 2) (by omega)
    have n0 := hnear g (by omega)
    have n1 := hnear (g + 1) (by omega)
    obtain ⟨a, b⟩ := Weno.mix_mem W.T.eps (ub (g + 1) v - ub g v) (ub (g + 2) v - ub (g + 1) v) W.ok.eps
    have a' := lt_of_lt_of_le (lt_min (show -(2 * ub (g + 1) v) < _ by linarith) (by linarith)) a
    have b' := lt_of_le_of_lt b (max_lt (show _ < 2 * ub (g + 1) v by linarith) (by linarith [n1.2]))
    refine ⟨by linarith, by linarith, by ring⟩
  intro i hi
  change 0 < u' (i * c.V + v)
  have loss := line_loss E.sys E.T E.P (fun _ => dt) (fun _ => hdt) E.dx hdx false (E.recon dt ub) E.nx 1 mask
    (fun i => E.ode dt (cellsOf c u i)) i hi v rfl m rfl hB (fun q => qv.src _) (fun g g1 g2 t ht e => by
      rw [show g * 1 + t = g by omega]
      fin_cases e
      · exact (htr g (by omega)).2.1
      · exact (htr g (by omega)).1)
  rw [e i hi v qv, hfl]
  refine lt_of_lt_of_le ?_ loss
  have hown : E.ode dt (cellsOf c u i) v = ub (i + 2) v := by
    rw [← hgrid i hi, qv.ode _ (hr (i + 2) (by omega))]
  simp only [Finset.range_one, Finset.sum_singleton, Nat.mul_one, Nat.add_zero, hown]
  unfold goesRight goesLeft
  obtain ⟨r1, l1, s1⟩ := htr (i + 1) (by omega)
  have r0 := (htr i (by omega)).1
  have l2 := (htr (i + 2) (by omega)).2.1
  have f1 := hcfl _ ⟨ub, i, 1, hp, by omega, rfl⟩
  have f2 := hcfl _ ⟨ub, i + 1, 0, hp, by omega, rfl⟩
  have f3 := hcfl _ ⟨ub, i + 1, 1, hp, by omega, rfl⟩
  have f4 := hcfl _ ⟨ub, i + 2, 0, hp, by omega, rfl⟩
  have hsp : ∀ q : Fin c.V → ℝ, 0 < q v → |q m| ≤ speed c E.P q 0 * q v := fun q h => by
    have := speed_ge (c := c) E.P (ofVec c q) (dir 0)
    rw [ofVec_at q v 0 rfl, ofVec_at q m (2 + (dir 0).1) rfl, abs_div, abs_of_pos h, div_le_iff₀ h] at this
    exact this
  have k3 := (abs_le.1 (hsp _ r1)).2
  have k2 := (abs_le.1 (hsp _ l1)).1
  have m34 : dt * max (speed c E.P (trace E.T 1 (E.recon dt ub (i + 1))) 0) (speed c E.P (trace E.T 0 (E.recon dt ub (i + 2))) 0) <
      1 / 2 * E.dx := by
    rcases max_choice (speed c E.P (trace E.T 1 (E.recon dt ub (i + 1))) 0) (speed c E.P (trace E.T 0 (E.recon dt ub (i + 2))) 0) with h | h <;>
      rw [h] <;> assumption
  have m12 : dt * max (speed c E.P (trace E.T 1 (E.recon dt ub i)) 0) (speed c E.P (trace E.T 0 (E.recon dt ub (i + 1))) 0) <
      1 / 2 * E.dx := by
    rcases max_choice (speed c E.P (trace E.T 1 (E.recon dt ub i)) 0) (speed c E.P (trace E.T 0 (E.recon dt ub (i + 1))) 0) with h | h <;>
      rw [h] <;> assumption
  rw [sub_pos, div_mul_eq_mul_div, div_lt_iff₀ (by positivity)]
  have g3 := mul_le_mul_of_nonneg_left k3 hdt
  have g2 := mul_le_mul_of_nonneg_left k2 hdt
  have z3 := mul_lt_mul_of_pos_right f3 r1
  have z2 := mul_lt_mul_of_pos_right f2 l1
  have z34 := mul_lt_mul_of_pos_right m34 r1
  have z12 := mul_lt_mul_of_pos_right m12 l1
  rw [show i + 1 + 1 = i + 2 by omega] at s1
  have s1' : ub (i + 2) v = (trace E.T 1 (E.recon dt ub (i + 1)) v + trace E.T 0 (E.recon dt ub (i + 1)) v) / 2 := by linarith
  rw [s1']
  nlinarith

/-! ### Level sets -/

/-- The new value of a cell of a line in a component that is flat there. -/
theorem flat_cell {ι : Type} {n : Nat} {T : Tab n} (S : Dg.Sys ι) (fl : Nat → (ι → ℝ) → (ι → ℝ) → (ι → ℝ)) (wt : Nat → ℝ) (dx : ℝ)
    (rec : Nat → Fin n → ι → ℝ) (nx : Nat) (mask : Nat → Bool) (u : Nat → ι → ℝ) (i : Nat) (hi : i < nx) (v : ι)
    (hB : ∀ k, S.bdot 0 (rec (i + 1) k) (fun v => ∑ j, T.dervals k j * rec (i + 1) j v) v = 0) :
    apply (kern1 S T fl wt dx false).app (fv1 (kern1 S T fl wt dx false) rec nx 1 mask) u i v = u i v +
      (if mask i && mask (i + 1) then wt 0 / (2 * dx) * (fl 0 (trace T 1 (rec i)) (trace T 0 (rec (i + 1))) v -
        bint S T 0 (trace T 1 (rec i)) (trace T 0 (rec (i + 1))) v) else 0) -
      (if mask (i + 1) && mask (i + 2) then wt 0 / (2 * dx) * (fl 0 (trace T 1 (rec (i + 1))) (trace T 0 (rec (i + 2))) v +
        bint S T 0 (trace T 1 (rec (i + 1))) (trace T 0 (rec (i + 2))) v) else 0) := by
  rw [apply_get, fv1_at _ rec nx 1 mask i hi]
  change List.foldl (fun (u d : ι → ℝ) => u + d) _ _ v = _
  rw [foldl_add_get, List.map_append, List.sum_append, sum_flatMap_range, sum_flatMap_range]
  have hc : (((kern1 S T fl wt dx false).cen 0 (rec (i + 1))).map (· v)).sum = 0 := by
    simp only [kern1, List.map_map, sum_finRange, Function.comp]
    refine Finset.sum_eq_zero fun k _ => ?_
    have h2 := hB k
    simp only [Pi.smul_apply, smul_eq_mul, Bool.false_eq_true, if_false, Pi.sub_apply, Pi.zero_apply]
    simp [h2]
  have h1 : ((if mask (i + 1) = true then (kern1 S T fl wt dx false).cen 0 (rec (ind2 (i + 1) 0 1))
      else []).map (· v)).sum = 0 := by
    split_ifs
    · simpa [ind2] using hc
    · rfl
  rw [Finset.sum_range_one, Finset.sum_range_one, h1]
  simp only [List.map_append, List.sum_append, if_single_sum, (kern1_face S T fl wt dx false 0 _ _ v).1,
    (kern1_face S T fl wt dx false 0 _ _ v).2, ind2, mul_one, Nat.add_zero]
  cases mask (i + 1) <;> cases mask i <;> cases mask (i + 2) <;>
    simp only [Bool.and_false, Bool.and_true, Bool.and_self, Bool.false_eq_true, if_true, if_false] <;> ring

theorem sum_weights {n : Nat} {T : Tab n} (h : T.Ok) : ∑ k, T.w k = 1 := by
  have := h.exact 1 (by
    rw [Polynomial.degree_one]
    exact_mod_cast (by have := h.pos; omega : 0 < 2 * n))
  simpa using this

/-- What crosses a face of a uniform flow in a level set. -/
theorem uniform_face {n : Nat} {T : Tab n} (h : T.Ok) (hv : c.viscous = true) (P : Sys.Par) (src : St → St) (junk : St)
    (ql qr : Fin c.V → ℝ) (v v0 m : Fin c.V) (hl : IsLevel c v) (h0 : v0.1 = 0) (hm : m.1 = 2) (e0 : qr v0 = ql v0) (em : qr m = ql m) :
    bint (gpr c P src junk) T 0 ql qr v = ql m / ql v0 * (qr v - ql v) ∧
      rusanov c P 0 ql qr v = max (speed c P ql 0) (speed c P qr 0) * (ql v - qr v) := by
  constructor
  · have e : ∀ t : ℝ, (gpr c P src junk).bdot 0 (ql + t • (qr - ql)) (qr - ql) v = ql m / ql v0 * (qr v - ql v) := fun t => by
      change bdot c _ _ (dir 0) junk v = _
      unfold bdot
      rw [if_pos hv, if_pos (show c.V - c.lset ≤ v.1 ∧ v.1 < c.V from hl), ofVec_at _ v _ rfl]
      unfold vel getRv
      rw [ofVec_at _ v0 0 h0, ofVec_at _ m (2 + (dir 0).1) hm]
      simp only [Pi.add_apply, Pi.smul_apply, Pi.sub_apply, smul_eq_mul, e0, em, sub_self, mul_zero, add_zero]
    rw [bint_get]
    simp only [e, ← Finset.sum_mul, sum_weights h, one_mul]
  · unfold rusanov dRus
    rw [flux_level hv _ _ _ _ hl, flux_level hv _ _ _ _ hl, ofVec_at _ v _ rfl, ofVec_at _ v _ rfl]

/-- **What a step does at the end of a slope of a level set that a uniform flow carries**: the plateau rises. -/
theorem level_step (W : Weno.Setup 2) (undef : ℝ) (it : Nat) (tol : ℝ) (hv : c.viscous = true) (hE : E.Ok)
    (hX : E.Explicit W undef it tol) (hW : W.Clean) (hx : W.x = E.T.nodes) (hhalf : E.half = false) (hfl : E.fl = rusanov c E.P)
    (hr : c.multi = true ∨ ¬ E.P.reaction > -1) (hf : E.P.δp = 0) (b : Nat → BT) (h0 : b 0 ≠ .other) (h1 : b 1 ≠ .other)
    (threads : Nat) (hT : 0 < threads) (dt : ℝ) (u u' : Iter.Mem) (hrun : SecondRuns E b dt u) (hm : MovesLine E b true threads dt u u')
    (v : Nat) (hl : IsLevel c v) (j : Nat) (hj : j + 4 < E.nx) (ρ m a d : ℝ) (hρ : ∀ k < 5, u ((j + k) * c.V) = ρ)
    (hmom : ∀ k < 5, u ((j + k) * c.V + 2) = m) (ha : u (j * c.V + v) = a) (hd : ∀ k < 5, 1 ≤ k → u ((j + k) * c.V + v) = d) :
    ∃ s, |m / ρ| ≤ s ∧ u' ((j + 2) * c.V + v) =
      d + dt / (2 * E.dx) * ((s + m / ρ) * ((d - a) * Weno.share W.T.eps (d - a) / 2)) := by
  have hV := Iter.V_ge c hv
  let w : Fin c.V := ⟨v, hl.2⟩
  let v0 : Fin c.V := ⟨0, by omega⟩
  let mm : Fin c.V := ⟨2, by omega⟩
  have qw := quiet_level E hv hE hr dt w hl
  have q0 := quiet_mass E hv hE dt v0 rfl
  have qm : Quiet E dt mm := quiet_head E hv hE dt mm (show (2 : Nat) < 5 by omega) (by simp [force, mm, hf])
  have he := W.ok.eps
  obtain ⟨ub, mask, hp, hM, hnum, e⟩ := line_second E hE hhalf b threads hT dt u u' hrun hm
  have hgrid := pads1_grid2 E hE b h0 h1 u ub hp
  have g : ∀ k < 5, ∀ x : Fin c.V, ub (j + k + 2) x = u ((j + k) * c.V + x) := fun k hk x => by rw [hgrid (j + k) (by omega)]; rfl
  have gρ : ∀ k < 5, ub (j + k + 2) v0 = ρ := fun k hk => (g k hk v0).trans (hρ k hk)
  have gm : ∀ k < 5, ub (j + k + 2) mm = m := fun k hk => (g k hk mm).trans (hmom k hk)
  have ga : ub (j + 0 + 2) w = a := (g 0 (by omega) w).trans (by simpa using ha)
  have gd : ∀ k < 5, 1 ≤ k → ub (j + k + 2) w = d := fun k hk h1 => (g k hk w).trans (hd k hk h1)
  have same : ∀ x y z : Fin c.V → ℝ, ∀ κ : Fin c.V, ∀ t, x κ = t → y κ = t → z κ = t →
      Weno.mix W.T.eps (y κ - x κ) (z κ - y κ) = 0 := fun x y z κ t hx hy hz => by
    rw [hx, hy, hz, sub_self, Weno.mix_self _ _ he]
  have tr : ∀ κ : Fin c.V, Quiet E dt κ → ∀ t, ∀ k < 3, ub (j + k + 2) κ = t → ub (j + (k + 1) + 2) κ = t → ub (j + (k + 2) + 2) κ = t →
      (∀ i, E.recon dt ub (j + k + 2) i κ = t) ∧ trace E.T 1 (E.recon dt ub (j + k + 2)) κ = t ∧
      trace E.T 0 (E.recon dt ub (j + k + 2)) κ = t := fun κ q t k hk x0 x1 x2 => by
    obtain ⟨a1, a2, a3⟩ := trace_second hE hX hW hx hnum q (g := j + k + 2) (by omega)
    have := same _ _ _ κ t x0 x1 x2
    rw [show j + (k + 1) + 2 = j + k + 2 + 1 by omega, show j + (k + 2) + 2 = j + k + 2 + 2 by omega] at *
    simp only [this, zero_mul, zero_div, add_zero, sub_zero] at a1 a2 a3
    exact ⟨fun i => (a1 i).trans x1, a2.trans x1, a3.trans x1⟩
  have trρ := fun k hk => tr v0 q0 ρ k hk (gρ k (by omega)) (gρ (k + 1) (by omega)) (gρ (k + 2) (by omega))
  have trm := fun k hk => tr mm qm m k hk (gm k (by omega)) (gm (k + 1) (by omega)) (gm (k + 2) (by omega))
  have trd := fun k hk (h1 : 1 ≤ k) => tr w qw d k hk (gd k (by omega) h1) (gd (k + 1) (by omega) (by omega)) (gd (k + 2) (by omega) (by omega))
  obtain ⟨-, tL, -⟩ := trace_second hE hX hW hx hnum qw (g := j + 0 + 2) (by omega)
  rw [show j + 0 + 2 + 1 = j + 1 + 2 by omega, show j + 0 + 2 + 2 = j + 2 + 2 by omega, ga, gd 1 (by omega) le_rfl, gd 2 (by omega) (by omega),
    sub_self, Weno.mix_zero_right _ _ he] at tL
  have hB : ∀ k q x, x w = 0 → E.sys.bdot k q x w = 0 := fun k q x hx => by
    change bdot c _ _ (dir k) E.junk w = 0
    unfold bdot
    rw [if_pos hv, if_pos (show c.V - c.lset ≤ w.1 ∧ w.1 < c.V from hl), ofVec_at x w _ rfl, hx, mul_zero]
  have step := e (j + 2) (by omega) w qw
  rw [flat_cell E.sys E.fl (fun _ => dt) E.dx (E.recon dt ub) E.nx mask _ (j + 2) (by omega) w (fun k => hB 0 _ _ (by
      rw [show j + 2 + 1 = j + 1 + 2 by omega]
      simp only [(trd 1 (by omega) le_rfl).1, ← Finset.sum_mul, dervals_const hE.tab k, zero_mul])), hM (j + 2) (by omega),
    hM (j + 2 + 1) (by omega), hM (j + 2 + 2) (by omega), hfl] at step
  have u1 := uniform_face hE.tab hv E.P E.src E.junk (trace E.T 1 (E.recon dt ub (j + 0 + 2))) (trace E.T 0 (E.recon dt ub (j + 1 + 2))) w v0 mm
    hl rfl rfl (by rw [(trρ 0 (by omega)).2.1, (trρ 1 (by omega)).2.2]) (by rw [(trm 0 (by omega)).2.1, (trm 1 (by omega)).2.2])
  have u2 := uniform_face hE.tab hv E.P E.src E.junk (trace E.T 1 (E.recon dt ub (j + 1 + 2))) (trace E.T 0 (E.recon dt ub (j + 2 + 2))) w v0 mm
    hl rfl rfl (by rw [(trρ 1 (by omega)).2.1, (trρ 2 (by omega)).2.2]) (by rw [(trm 1 (by omega)).2.1, (trm 2 (by omega)).2.2])
  rw [(trd 1 (by omega) le_rfl).2.2, tL, (trρ 0 (by omega)).2.1, (trm 0 (by omega)).2.1] at u1
  rw [(trd 1 (by omega) le_rfl).2.1, (trd 2 (by omega) (by omega)).2.2] at u2
  have hown : E.ode dt (cellsOf c u (j + 2)) w = d := by
    rw [← hgrid (j + 2) (by omega), qw.ode _ (hnum _ (by omega)), gd 2 (by omega) (by omega)]
  have hs : |m / ρ| ≤ max (speed c E.P (trace E.T 1 (E.recon dt ub (j + 0 + 2))) 0) (speed c E.P (trace E.T 0 (E.recon dt ub (j + 1 + 2))) 0) := by
    refine le_trans ?_ (le_max_left _ _)
    have := speed_ge (c := c) E.P (ofVec c (trace E.T 1 (E.recon dt ub (j + 0 + 2)))) (dir 0)
    rw [ofVec_at _ v0 0 rfl, ofVec_at _ mm (2 + (dir 0).1) rfl, (trρ 0 (by omega)).2.1, (trm 0 (by omega)).2.1] at this
    exact this
  refine ⟨_, hs, ?_⟩
  rw [show j + 2 + 1 = j + 1 + 2 by omega] at step
  simp only [Bool.and_self, if_true] at step
  change _ = _ at step
  have e1 : bint E.sys E.T 0 (trace E.T 1 (E.recon dt ub (j + 0 + 2))) (trace E.T 0 (E.recon dt ub (j + 1 + 2))) w = _ := u1.1
  have e2 : bint E.sys E.T 0 (trace E.T 1 (E.recon dt ub (j + 1 + 2))) (trace E.T 0 (E.recon dt ub (j + 2 + 2))) w = _ := u2.1
  rw [Nat.add_zero] at e1
  have u12 := u1.2
  rw [Nat.add_zero] at u12 ⊢
  rw [hown, e1, e2, u12, u2.2] at step
  refine step.trans ?_
  ring

/-- **In second order level sets leave their range**: where a uniform flow to the right carries a slope onto a plateau, the level
set rises above the plateau in one step of any length. -/
theorem level_overshoot (W : Weno.Setup 2) (undef : ℝ) (it : Nat) (tol : ℝ) (hv : c.viscous = true) (hE : E.Ok)
    (hX : E.Explicit W undef it tol) (hW : W.Clean) (hx : W.x = E.T.nodes) (hhalf : E.half = false) (hfl : E.fl = rusanov c E.P)
    (hr : c.multi = true ∨ ¬ E.P.reaction > -1) (hf : E.P.δp = 0) (b : Nat → BT) (h0 : b 0 ≠ .other) (h1 : b 1 ≠ .other)
    (threads : Nat) (hT : 0 < threads) (dt : ℝ) (hdt : 0 < dt) (hdx : 0 < E.dx) (u u' : Iter.Mem) (hrun : SecondRuns E b dt u)
    (hm : MovesLine E b true threads dt u u')
    (v : Nat) (hl : IsLevel c v) (j : Nat) (hj : j + 4 < E.nx) (ρ m a d : ℝ) (hρ : ∀ k < 5, u ((j + k) * c.V) = ρ)
    (hmom : ∀ k < 5, u ((j + k) * c.V + 2) = m) (ha : u (j * c.V + v) = a) (hd : ∀ k < 5, 1 ≤ k → u ((j + k) * c.V + v) = d)
    (hm0 : 0 < m / ρ) (had : a < d) : d < u' ((j + 2) * c.V + v) := by
  obtain ⟨s, h2, e⟩ := level_step E W undef it tol hv hE hX hW hx hhalf hfl hr hf b h0 h1 threads hT dt u u' hrun hm v hl j hj ρ m a d
    hρ hmom ha hd
  have he := W.ok.eps
  have hs : 0 < s + m / ρ := by have := (le_abs_self (m / ρ)).trans h2; linarith
  have hsh : 0 < Weno.share W.T.eps (d - a) := by unfold Weno.share; positivity
  have h3 : 0 < d - a := by linarith
  rw [e]
  have : 0 < dt / (2 * E.dx) * ((s + m / ρ) * ((d - a) * Weno.share W.T.eps (d - a) / 2)) := by positivity
  linarith

end

end Verif.Run
