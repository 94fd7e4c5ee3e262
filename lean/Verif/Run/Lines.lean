import Verif.Step.Line
import Verif.Run.Copies
import Verif.Run.Rest

/-! # A plane whose data do not vary along y is a line

One material, `LSET = 0`, `STIFF = 0`, no `NO_CORNERS`, open or periodic ends in y, any ends in x, any number of passes. -/

namespace Verif.Run

open Verif.Sys Verif.Iter Verif.Dg Verif.Fv Verif.Step Verif.Grid

noncomputable section

variable {c : Sys.Cfg} {n : Nat} (E : Env c n)

/-! ### Boundaries -/

/-- `destress` works on one cell. -/
def OneCell (c : Sys.Cfg) (f : Grid.Cell ℝ → Grid.Cell ℝ) : Prop :=
  ∀ q q' : Grid.Cell ℝ, (∀ k < c.V, q k = q' k) → ∀ k < c.V, f q k = f q' k

theorem negAt_one (j : Nat) : OneCell c fun q => negAt q j := by
  intro q q' h k hk
  simp only [negAt, Function.update_apply]
  split_ifs with e
  · subst e; rw [h _ hk]
  · exact h k hk

theorem wall_one (hv : c.viscous = true) (ds : Option (Grid.Cell ℝ → Grid.Cell ℝ)) (hds : ∀ f, ds = some f → OneCell c f)
    (d : Nat) (b : BT) : OneCell c fun q => wall ⟨n, ds⟩ d b q q := by
  have hV := Iter.V_ge c hv
  have hd : OneCell c fun q => Grid.Cfg.ds ⟨n, ds⟩ q := by
    intro q q' h
    unfold Grid.Cfg.ds
    cases hs : ds with
    | none => exact h
    | some f => exact hds f hs q q' h
  have hm : OneCell c (negMom (K := ℝ)) := fun q q' h =>
    negAt_one 4 _ _ (negAt_one 3 _ _ (negAt_one 2 q q' h))
  intro q q' h
  cases b
  · exact h
  · exact h
  · exact hd _ _ (negAt_one (2 + d) q q' h)
  · exact hd _ _ (hm q q' h)
  · refine hd _ _ ?_
    have e0 := hm q q' h 0 (by omega)
    have e1 := hm q q' h 1 (by omega)
    have e2 := hm q q' h 2 (by omega)
    intro k hk
    have ek := hm q q' h k hk
    simp only [Function.update_apply]
    simp only [show (1 : Nat) ≠ 2 by decide, show (0 : Nat) ≠ 2 by decide, if_false, if_true, e0, e1, e2, ek, h 2 (by omega)]
  · exact negAt_one _ _ _ (negAt_one _ _ _ (negAt_one _ _ _ (negAt_one _ _ _ (negAt_one _ _ _ (negAt_one _ _ _
      (negAt_one _ q q' h))))))
  · exact h

theorem ghost_one (hv : c.viscous = true) (ds : Option (Grid.Cell ℝ → Grid.Cell ℝ)) (hds : ∀ f, ds = some f → OneCell c f)
    (d : Nat) (b0 b1 : BT) (nx k : Nat) : OneCell c (ghostOf ⟨n, ds⟩ d b0 b1 nx k) := by
  intro q q' h
  unfold ghostOf
  split_ifs
  · exact wall_one hv ds hds d b0 q q' h
  · exact h
  · exact wall_one hv ds hds d b1 q q' h

/-- An end that only copies. -/
def Open (b : BT) : Prop := b = .transmissive ∨ b = .periodic

theorem ghost_open (ds : Option (Grid.Cell ℝ → Grid.Cell ℝ)) (d : Nat) (b0 b1 : BT) (h0 : Open b0) (h1 : Open b1) (nx k : Nat)
    (q : Grid.Cell ℝ) : ghostOf ⟨n, ds⟩ d b0 b1 nx k q = q := by
  unfold ghostOf
  rcases h0 with rfl | rfl <;> rcases h1 with rfl | rfl <;> split_ifs <;> rfl

/-- Every column of the plane `u` is the line `w`. -/
abbrev Columns (c : Sys.Cfg) (nx ny : Nat) (u w : Iter.Mem) : Prop := Copies c (nx * ny) (· / ny) u w

theorem pads_columns (hv : c.viscous = true) (hE : E.Ok) (hds : ∀ f, E.destress = some f → OneCell c f) (b : Nat → BT)
    (h0 : b 0 ≠ .other) (h1 : b 1 ≠ .other) (h2 : Open (b 2)) (h3 : Open (b 3)) (u w : Iter.Mem) (h : Columns c E.nx E.ny u w)
    (ub wb : Nat → Fin c.V → ℝ) (hu : Pads2 E b u ub) (hw : Pads1 E b w wb) (R : Nat) (hR : R < E.nx + 2 * n) (J : Nat)
    (hJ : J < E.ny + 2 * n) : ub (R * (E.ny + 2 * n) + J) = wb R := by
  obtain ⟨old, m', hm, hub⟩ := hu
  obtain ⟨old1, m1', hm1, hwb⟩ := hw
  obtain ⟨hx, hy⟩ := hE.wide
  have hn := hE.tab.pos
  have ho : ∀ b, Open b → b ≠ .other := fun b hb => by rcases hb with rfl | rfl <;> decide
  obtain ⟨m'', e, a, -⟩ := Grid.boundaries_2d ⟨n, E.destress⟩ E.nx E.ny (b 0) (b 1) (b 2) (b 3) (memOf c u old) hx hy h0 h1
    (ho _ h2) (ho _ h3)
  obtain ⟨m1'', e1, a1, -⟩ := Grid.boundaries_1d ⟨n, E.destress⟩ E.nx (b 0) (b 1) (memOf c w old1) hx h0 h1
  rw [hm] at e
  cases e
  rw [hm1] at e1
  cases e1
  funext v
  rw [hub, hwb, a R hR J hJ, a1 R hR, ghost_open E.destress 1 _ _ h2 h3]
  refine ghost_one hv E.destress hds 0 _ _ _ _ _ _ (fun k hk => ?_) v v.2
  have s1 := srcOf_lt (b0 := b 0) (b1 := b 1) hx (by omega) hR
  have s2 := srcOf_lt (b0 := b 2) (b1 := b 3) hy (by omega) hJ
  have := h _ (Grid.flat_lt s1 s2) k hk
  have e := (cell_div E.ny (srcOf n (b 0) (b 1) E.nx R) _ s2).1
  unfold cell at e
  simp only [e] at this
  exact this

/-! ### One call of the steppers -/

/-- The parts of the code without `STIFF`; `nw1` and `nw2` stand for the Newton solver, which is never called. -/
structure Env.Explicit (W : Weno.Setup n) (undef : ℝ) (it : Nat) (tol : ℝ) : Prop where
  coef : E.coef = realCoef W.T undef
  pred1 : ∀ dt, ∃ (step : (Fin n → Fin c.V → ℝ) → (Nat → Fin c.V → ℝ) → (Nat → Fin c.V → ℝ))
    (nw1 : (Fin n → Fin c.V → ℝ) → (Nat → Fin c.V → ℝ)),
    (∀ w, IsStep1 E.T E.sys (initialCondition1 E.T (rows1 w)) dt E.dx (step w)) ∧
    E.pred1 dt = Step.pred1 false it tol step nw1
  pred2 : ∀ dt, ∃ (step : (Fin n → Fin n → Fin c.V → ℝ) → (Nat → Fin c.V → ℝ) → (Nat → Fin c.V → ℝ))
    (nw2 : (Fin n → Fin n → Fin c.V → ℝ) → (Nat → Fin c.V → ℝ)),
    (∀ w, IsStep2 E.T E.sys (initialCondition2 E.T (rows2 w)) dt E.dx E.dy (step w)) ∧
    E.pred2 dt = Step.pred2 false it tol step nw2
  mid1 : ∀ dt, E.mid1 dt = Step.mid1 E.sys E.T dt E.dx
  mid2 : ∀ dt, E.mid2 dt = Step.mid2 E.sys E.T dt E.dx E.dy
  block : E.block = rows2

/-- The steppers on a line with ends `b 0` and `b 1`, iterator.cpp:121-132, for some schedule of the threads. -/
def MovesLine (b : Nat → BT) (split : Bool) (threads : Nat) (dt : ℝ) (u u' : Iter.Mem) : Prop :=
  ∃ (ub : Nat → Fin c.V → ℝ) (maskb : Nat → Bool), Pads1 E b u ub ∧
    let mask := Grid.extendMask1 E.nx (fun _ => true) maskb
    if split then ∃ l : List (Nat × Nat × Option (Fin c.V → ℝ)),
      let K := kern1 E.sys E.T E.fl (fun _ => dt) E.dx false
      IsSchedule threads (splitWorker1 E.coef (E.ode dt) E.half (E.mid1 dt) (fun q => q) K ub E.nx mask threads) l ∧
      ∀ i < E.nx, ∀ v : Fin c.V, u' (i * c.V + v) =
        apply (withOde (E.ode dt) K.app) (l.map Prod.snd) (cellsOf c u) i v
    else ∃ (l : List (Nat × Nat × (Fin c.V → ℝ))) (gar : Nat → Nat → Nat → Fin n → Fin c.V → ℝ),
      let K := kern1 E.sys E.T E.fl (E.wt dt) E.dx true
      IsSchedule threads (fun w => aderWorker1 E.coef (E.pred1 dt) K ub E.nx mask threads (gar w) w) l ∧
      ∀ i < E.nx, ∀ v : Fin c.V, u' (i * c.V + v) = apply K.app (l.map Prod.snd) (cellsOf c u) i v

/-- The steppers on a plane with `NO_CORNERS` as given. -/
def MovesPlane (b : Nat → BT) (nc split : Bool) (threads : Nat) (dt : ℝ) (u u' : Iter.Mem) : Prop :=
  ∃ (ub : Nat → Fin c.V → ℝ) (maskb : Nat → Bool), Pads2 E b u ub ∧
    let mask := Grid.extendMask2 E.nx E.ny (fun _ => true) maskb
    if split then ∃ l : List (Nat × Nat × Option (Fin c.V → ℝ)),
      let K := kern2 E.sys E.T E.fl (fun _ => dt) E.dx E.dy false
      IsSchedule threads (splitWorker2 E.coef nc (E.ode dt) E.half (E.mid2 dt) E.block K ub E.nx E.ny mask threads) l ∧
      ∀ i < E.nx * E.ny, ∀ v : Fin c.V, u' (i * c.V + v) =
        apply (withOde (E.ode dt) K.app) (l.map Prod.snd) (cellsOf c u) i v
    else ∃ (l : List (Nat × Nat × (Fin c.V → ℝ))) (gar : Nat → Nat → Nat → Nat → Fin c.V → ℝ),
      let K := kern2 E.sys E.T E.fl (E.wt dt) E.dx E.dy true
      IsSchedule threads (fun w => aderWorker2 E.coef nc (E.pred2 dt) K ub E.nx E.ny mask threads (gar w) w) l ∧
      ∀ i < E.nx * E.ny, ∀ v : Fin c.V, u' (i * c.V + v) = apply K.app (l.map Prod.snd) (cellsOf c u) i v

/-- The predictor comes to an end within `DG_IT` iterations in every cell of the line. -/
def Settles (b : Nat → BT) (dt : ℝ) (u : Iter.Mem) : Prop := ∀ ub, Pads1 E b u ub → ∀ i < E.nx + 2,
  (E.pred1 dt (weno1G E.coef ub ((E.nx + 2 : Nat) : Int) 0 i)).isSome

theorem weno_columns (W : Weno.Setup n) (undef : ℝ) (ub wb : Nat → Fin c.V → ℝ)
    (h : ∀ R < E.nx + 2 * n, ∀ J < E.ny + 2 * n, ub (R * (E.ny + 2 * n) + J) = wb R) (i j : Nat) (hi : i < E.nx + 2)
    (hj : j < E.ny + 2) : weno2G (realCoef W.T undef) false ub (E.nx + 2) (E.ny + 2) i j =
      fun a _ => weno1G (realCoef W.T undef) wb ((E.nx + 2 : Nat) : Int) 0 i a := by
  funext a b
  exact weno2G_line W undef E.nx E.ny ub wb h i j hi hj a b

/-- **One call of the steppers on a plane that does not vary along y does what it does on the line.** -/
theorem moves_columns (W : Weno.Setup n) (undef : ℝ) (it : Nat) (tol : ℝ) (hv : c.viscous = true) (hE : E.Ok)
    (hX : E.Explicit W undef it tol) (hds : ∀ f, E.destress = some f → OneCell c f) (b : Nat → BT)
    (h0 : b 0 ≠ .other) (h1 : b 1 ≠ .other) (h2 : Open (b 2)) (h3 : Open (b 3)) (split : Bool) (threads threads' : Nat)
    (hT : 0 < threads) (hT' : 0 < threads') (dt : ℝ) (u w u' w' : Iter.Mem) (h : Columns c E.nx E.ny u w)
    (hset : split = false → Settles E b dt w)
    (hu : MovesPlane E b false split threads dt u u') (hw : MovesLine E b split threads' dt w w') :
    Columns c E.nx E.ny u' w' := by
  have hb : ∀ q, E.sys.bdot 1 q 0 = 0 := fun q => gpr_bdot_zero c hv E.P E.src E.junk 1 q
  have hn := hE.tab.pos
  have hx0 : 0 < E.nx := by have := hE.wide.1; omega
  have hy0 : 0 < E.ny := by have := hE.wide.2; omega
  obtain ⟨ub, maskb, hp, hu⟩ := hu
  obtain ⟨wb, maskw, hq, hw⟩ := hw
  have hpad := pads_columns E hv hE hds b h0 h1 h2 h3 u w h ub wb hp hq
  have hM2 := mask2_true E.nx E.ny hx0 hy0 maskb
  have hM1 := mask1_true E.nx hx0 maskw
  have cells : ∀ x < E.nx, ∀ y < E.ny, cellsOf c u (cell x y E.ny) = cellsOf c w x := by
    intro x hx y hy
    funext v
    have := h _ (Grid.flat_lt hx hy) v v.2
    have e := (cell_div E.ny x y hy).1
    unfold cell at e
    simp only [e] at this
    exact this
  have hm : ∀ x < E.nx, ∀ y < E.ny, ∀ p q, p ≤ 2 → q ≤ 2 → p = 1 ∨ q = 1 →
      Grid.extendMask2 E.nx E.ny (fun _ => true) maskb (cell (x + p) (y + q) (E.ny + 2)) =
        Grid.extendMask1 E.nx (fun _ => true) maskw (x + p) := by
    intro x hx y hy p q hp hq hpq
    rw [hM2 _ _ ⟨by omega, by omega, by omega⟩, hM1 _ (by omega)]
  suffices hcell : ∀ x < E.nx, ∀ y < E.ny, ∀ v : Fin c.V, u' (cell x y E.ny * c.V + v) = w' (x * c.V + v) by
    intro i hi k hk
    have hx : i / E.ny < E.nx := (Nat.div_lt_iff_lt_mul hy0).2 hi
    have hy : i % E.ny < E.ny := Nat.mod_lt _ hy0
    have := hcell _ hx _ hy ⟨k, hk⟩
    unfold cell at this
    rw [Nat.div_add_mod'] at this
    exact this
  intro x hx y hy v
  cases split
  · obtain ⟨l, gar, hl, e⟩ := hu
    obtain ⟨l', gar', hl', e'⟩ := hw
    have hs := hset rfl wb hq
    obtain ⟨step1, nw1, i1, p1⟩ := hX.pred1 dt
    obtain ⟨step2, nw2, i2, p2⟩ := hX.pred2 dt
    rw [hX.coef] at hl hl' hs
    have hrec : ∀ i < E.nx + 2, ∀ j < E.ny + 2, ∃ a r,
        E.pred2 dt (weno2G (realCoef W.T undef) false ub (E.nx + 2) (E.ny + 2) i j) = some a ∧
        E.pred1 dt (weno1G (realCoef W.T undef) wb ((E.nx + 2 : Nat) : Int) 0 i) = some r ∧ ∀ t < n, Spreads (a t) (r t) := by
      intro i hi j hj
      obtain ⟨r, hr⟩ := Option.isSome_iff_exists.1 (hs i hi)
      have hr' := hr
      rw [p1] at hr'
      obtain ⟨a, ha, har⟩ := (pred2_line hE.tab hb dt E.dx E.dy tol it step2 step1 i2 i1 nw2 nw1 _).2 r hr'
      refine ⟨a, r, ?_, hr, har⟩
      rw [weno_columns E W undef ub wb hpad i j hi hj, p2]
      exact ha
    rw [e _ (cell_lt hx hy) v, e' x hx v,
      ader_para2_partial hn _ (E.pred2 dt) _ ub E.nx E.ny _ threads hT (gar 0) gar
        (fun i j hi hj _ => by obtain ⟨a, r, ha, -⟩ := hrec i hi j hj; rw [ha]; rfl) l hl,
      ader_para1 _ (E.pred1 dt) _ wb E.nx _ threads' hT' (gar' 0) gar' (fun i hi _ => hs i hi) l' hl']
    unfold ader2 ader1
    refine congrFun (fv_line hE.tab hb _ _ E.nx E.ny n _ _ x y hx hy (hm x hx y hy) ?_ _ _ (cells x hx y hy)) v
    intro p q t hp hq hpq ht hmask
    have hi : x + p < E.nx + 2 := by omega
    have hj : y + q < E.ny + 2 := by omega
    obtain ⟨a, r, ha, hr, har⟩ := hrec _ hi _ hj
    have d1 : ∀ a, (a * n + t) / n = a ∧ (a * n + t) % n = t := fun a => by
      constructor
      · rw [Nat.mul_comm, Nat.mul_add_div hn, Nat.div_eq_of_lt ht, Nat.add_zero]
      · rw [Nat.mul_comm, Nat.mul_add_mod, Nat.mod_eq_of_lt ht]
    have i3 : ind3 (x + p) (y + q) t (E.ny + 2) n = cell (x + p) (y + q) (E.ny + 2) * n + t := rfl
    have i2 : ind2 (x + p) t n = (x + p) * n + t := rfl
    obtain ⟨c1, c2⟩ := cell_div (E.ny + 2) (x + p) (y + q) hj
    simp only [i3, i2, (d1 _).1, (d1 _).2, c1, c2, ha, hr, hm x hx y hy p q hp hq hpq, hmask, orGarbage, if_true, Option.getD_some]
    exact har t ht
  · obtain ⟨l, hl, e⟩ := hu
    obtain ⟨l', hl', e'⟩ := hw
    rw [hX.coef] at hl hl'
    rw [e _ (cell_lt hx hy) v, e' x hx v,
      split_para2_partial hn _ (E.ode dt) E.half (E.mid2 dt) E.block _ ub E.nx E.ny _ threads hT l hl,
      split_para1 _ (E.ode dt) E.half (E.mid1 dt) (fun q => q) _ wb E.nx _ threads' hT' l' hl']
    unfold split2 split1
    rw [split_get _ _ _ _ _ _ (cell_lt hx hy), split_get _ _ _ _ _ _ hx]
    refine congrFun (congrArg (E.ode dt) ?_) v
    refine fv_line hE.tab hb _ _ E.nx E.ny 1 _ _ x y hx hy (hm x hx y hy) ?_ _ _
      (congrArg (E.ode dt) (cells x hx y hy))
    intro p q t hp hq hpq ht hmask
    obtain rfl : t = 0 := by omega
    have hi : x + p < E.nx + 2 := by omega
    have hj : y + q < E.ny + 2 := by omega
    obtain ⟨c1, c2⟩ := cell_div (E.ny + 2) (x + p) (y + q) hj
    rw [show ind3 (x + p) (y + q) 0 (E.ny + 2) 1 = cell (x + p) (y + q) (E.ny + 2) by unfold ind3 cell; ring,
      show ind2 (x + p) 0 1 = x + p by unfold ind2; ring]
    simp only [c1, c2, hm x hx y hy p q hp hq hpq, hX.block, hX.mid1, hX.mid2,
      weno_columns E W undef (fun r => E.ode dt (ub r)) (fun r => E.ode dt (wb r))
        (fun R hR J hJ => congrArg (E.ode dt) (hpad R hR J hJ)) _ _ hi hj]
    intro i j
    rw [rows2_get]
    split_ifs with hh
    · exact mid2_line hE.tab hb _ _ _ _ i j
    · rfl

end

end Verif.Run
