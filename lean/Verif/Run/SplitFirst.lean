import Verif.Run.MaskedPlane

/-! # What a split step of first order computes

`N = 1`: the step of `split_stepper` in one cell, in closed form, for every component. -/

namespace Verif.Run

open Verif.Step Verif.Dg Verif.Fv Verif.Sys Verif.Iter Verif.Grid Verif.Rot

noncomputable section

variable {c : Sys.Cfg} (E : Env c 1)

/-- What an interface across direction `d` does to the cell on its right, before division by twice the cell size. -/
def intoRight (d : Nat) (ql qr : Fin c.V → ℝ) : Fin c.V → ℝ := fun v =>
  E.fl d ql qr v - E.sys.bdot d (ql + (1 / 2 : ℝ) • (qr - ql)) (qr - ql) v

/-- What it takes from the cell on its left. -/
def outOfLeft (d : Nat) (ql qr : Fin c.V → ℝ) : Fin c.V → ℝ := fun v =>
  E.fl d ql qr v + E.sys.bdot d (ql + (1 / 2 : ℝ) • (qr - ql)) (qr - ql) v

/-- The new cell of a line from the padding `ub` around it. -/
def firstLine (dt : ℝ) (ub : Nat → Fin c.V → ℝ) (i : Nat) : Fin c.V → ℝ :=
  let R := fun p => E.ode dt (ub (i + p))
  E.ode dt fun v => R 1 v + dt / (2 * E.dx) * intoRight E 0 (R 0) (R 1) v - dt / (2 * E.dx) * outOfLeft E 0 (R 1) (R 2) v

/-- The new cell of a plane from the padding around it. -/
def firstPlane (dt : ℝ) (ub : Nat → Fin c.V → ℝ) (x y : Nat) : Fin c.V → ℝ :=
  let R := fun p q => E.ode dt (ub (cell (x + p) (y + q) (E.ny + 2)))
  E.ode dt fun v => R 1 1 v +
    (dt / (2 * E.dx) * intoRight E 0 (R 0 1) (R 1 1) v - dt / (2 * E.dx) * outOfLeft E 0 (R 1 1) (R 2 1) v) +
    (dt / (2 * E.dy) * intoRight E 1 (R 1 0) (R 1 1) v - dt / (2 * E.dy) * outOfLeft E 1 (R 1 1) (R 1 2) v)

/-- **A split step of first order on a line.** -/
theorem split_first1 (W : Weno.Setup 1) (undef : ℝ) (it : Nat) (tol : ℝ) (hv : c.viscous = true) (hE : E.Ok)
    (hX : E.Explicit W undef it tol) (b : Nat → BT) (h0 : b 0 ≠ .other) (h1 : b 1 ≠ .other) (threads : Nat)
    (hT : 0 < threads) (mk : Nat → Bool) (dt : ℝ) (u u' : Iter.Mem) (hm : MovesMasked E b true threads mk dt u u') :
    ∃ ub, Pads1 E b u ub ∧ ∀ i < E.nx, mk i = true → ∀ v : Fin c.V, u' (i * c.V + v) = firstLine E dt ub i v := by
  have hb : ∀ d q, E.sys.bdot d q 0 = 0 := fun d q => gpr_bdot_zero c hv E.P E.src E.junk d q
  obtain ⟨ub, maskb, hp, l, hl, e⟩ := hm
  refine ⟨ub, hp, fun i hi hk v => ?_⟩
  have hM := mask1_near E.nx mk maskb i hi hk
  have hgrid := pads1_grid E hE b h0 h1 u ub hp
  have hget : ∀ g, (if (E.half && Grid.extendMask1 E.nx mk maskb g) = true
      then E.mid1 dt (weno1G E.coef (fun r => E.ode dt (ub r)) ((E.nx + 2 : Nat) : Int) 0 g)
      else weno1G E.coef (fun r => E.ode dt (ub r)) ((E.nx + 2 : Nat) : Int) 0 g) = fun _ => E.ode dt (ub g) := by
    intro g
    rw [hX.coef, one_weno1, hX.mid1, mid1_const hE.tab _ (hb 0 _), ite_self]
  rw [e i hi v, split_para1 _ (E.ode dt) E.half (E.mid1 dt) (fun q => q) _ ub E.nx _ threads hT l hl]
  unfold split1
  rw [split_get _ _ _ _ _ _ hi]
  refine congrFun (congrArg (E.ode dt) (funext fun v => ?_)) v
  let S : Dg.Sys (Fin c.V) := ⟨E.sys.flux, fun _ => 0, E.sys.bdot⟩
  have hK : kern1 E.sys E.T E.fl (fun _ => dt) E.dx false = kern1 S E.T E.fl (fun _ => dt) E.dx false := rfl
  simp only [hget]
  rw [hK, one_cell1 hE.tab S E.fl _ E.dx false (fun g _ => E.ode dt (ub g)) E.nx _ _ i hi v (fun d q => by
    change E.sys.bdot d q 0 v = 0
    rw [hb]; rfl) fun _ => rfl]
  simp only [hM i le_rfl (by omega), hM (i + 1) (by omega) (by omega), hM (i + 2) (by omega) le_rfl, Bool.and_self, if_true,
    one_bint hE.tab]
  have : cellsOf c u i = ub (i + 1) := (hgrid i hi).symm
  rw [this]
  rfl

/-- **A split step of first order on a plane.** -/
theorem split_first2 (W : Weno.Setup 1) (undef : ℝ) (it : Nat) (tol : ℝ) (hv : c.viscous = true) (hE : E.Ok)
    (hX : E.Explicit W undef it tol) (b : Nat → BT) (hb' : ∀ k < 4, b k ≠ .other) (nc : Bool) (threads : Nat)
    (hT : 0 < threads) (mk : Nat → Bool) (dt : ℝ) (u u' : Iter.Mem) (hm : MovesMasked2 E b nc true threads mk dt u u') :
    ∃ ub, Pads2 E b u ub ∧ ∀ x < E.nx, ∀ y < E.ny, mk (cell x y E.ny) = true → ∀ v : Fin c.V,
      u' (cell x y E.ny * c.V + v) = firstPlane E dt ub x y v := by
  rw [masked2_corners] at hm
  have hb : ∀ d q, E.sys.bdot d q 0 = 0 := fun d q => gpr_bdot_zero c hv E.P E.src E.junk d q
  obtain ⟨ub, maskb, hp, l, hl, e⟩ := hm
  refine ⟨ub, hp, fun x hx y hy hk v => ?_⟩
  have hM := mask2_near E.nx E.ny mk maskb x y hx hy hk
  have hgrid := pads2_grid E hE b hb' u ub hp x y hx hy
  have hcd := fun g s (hs : s < E.ny + 2) => cell_div (E.ny + 2) g s hs
  let qh : Nat → Nat → Fin c.V → ℝ := fun g => E.block (if (E.half && Grid.extendMask2 E.nx E.ny mk maskb g) = true
      then E.mid2 dt (weno2G E.coef false (fun r => E.ode dt (ub r)) (E.nx + 2) (E.ny + 2) (g / (E.ny + 2)) (g % (E.ny + 2)))
      else weno2G E.coef false (fun r => E.ode dt (ub r)) (E.nx + 2) (E.ny + 2) (g / (E.ny + 2)) (g % (E.ny + 2)))
  have hget : ∀ g s, s < E.ny + 2 → qh (cell g s (E.ny + 2)) 0 = E.ode dt (ub (cell g s (E.ny + 2))) := fun g s hs => by
    simp only [qh]
    rw [hX.coef, one_weno2, hX.mid2, mid2_const hE.tab _ (fun d => hb d _), ite_self, hX.block, (hcd _ _ hs).1, (hcd _ _ hs).2]
    exact rows2_get (fun _ _ : Fin 1 => E.ode dt (ub _)) 0 0
  rw [e _ (cell_lt hx hy) v, split_para2_partial Nat.one_pos _ (E.ode dt) E.half (E.mid2 dt) E.block _ ub E.nx E.ny _ threads hT l hl]
  unfold split2
  rw [split_get _ _ _ _ _ _ (cell_lt hx hy)]
  refine congrFun (congrArg (E.ode dt) (funext fun v => ?_)) v
  let S : Dg.Sys (Fin c.V) := ⟨E.sys.flux, fun _ => 0, E.sys.bdot⟩
  have hK : kern2 E.sys E.T E.fl (fun _ => dt) E.dx E.dy false = kern2 S E.T E.fl (fun _ => dt) E.dx E.dy false := rfl
  rw [hK]
  have key := one_cell2 hE.tab S E.fl (fun _ => dt) E.dx E.dy false qh E.nx E.ny (Grid.extendMask2 E.nx E.ny mk maskb)
    (fun i => E.ode dt (cellsOf c u i)) x y hx hy v (fun d q => by
      change E.sys.bdot d q 0 v = 0
      rw [hb]; rfl) fun _ => rfl
  refine key.trans ?_
  have cr : ∀ p q, p ≤ 2 → q ≤ 2 → p = 1 ∨ q = 1 → Cross p q := fun p q h1 h2 h3 => ⟨h1, h2, h3⟩
  simp only [hM 0 1 (cr _ _ (by omega) (by omega) (by omega)), hM 1 1 (cr _ _ (by omega) (by omega) (by omega)),
    hM 2 1 (cr _ _ (by omega) (by omega) (by omega)), hM 1 0 (cr _ _ (by omega) (by omega) (by omega)),
    hM 1 2 (cr _ _ (by omega) (by omega) (by omega)), Bool.and_self, if_true, one_bint hE.tab]
  rw [hget _ _ (by omega), hget _ _ (by omega), hget _ _ (by omega), hget _ _ (by omega), hget _ _ (by omega)]
  have : cellsOf c u (cell x y E.ny) = ub (cell (x + 1) (y + 1) (E.ny + 2)) := by rw [hgrid]
  rw [this]
  rfl

end

end Verif.Run
