import Verif.Run.Masked

/-! # The steppers on part of a plane

As `Masked`; without `NO_CORNERS`, except in first order. -/

namespace Verif.Run

open Verif.Sys Verif.Iter Verif.Dg Verif.Fv Verif.Step Verif.Grid Verif.Rot

noncomputable section

variable {c : Sys.Cfg} {n : Nat} (E : Env c n)

/-- `boundaries`, `extend_mask` and the stepper, iterator.cpp:122-132, on a plane, for a material with mask `mk`. -/
def MovesMasked2 (b : Nat → BT) (nc split : Bool) (threads : Nat) (mk : Nat → Bool) (dt : ℝ) (u u' : Iter.Mem) : Prop :=
  ∃ (ub : Nat → Fin c.V → ℝ) (maskb : Nat → Bool), Pads2 E b u ub ∧
    let mask := Grid.extendMask2 E.nx E.ny mk maskb
    if split then ∃ l : List (Nat × Nat × Option (Fin c.V → ℝ)),
      let K := kern2 E.sys E.T E.fl (fun _ => dt) E.dx E.dy false
      IsSchedule threads (splitWorker2 E.coef nc (E.ode dt) E.half (E.mid2 dt) E.block K ub E.nx E.ny mask threads) l ∧
      ∀ i < E.nx * E.ny, ∀ v : Fin c.V, u' (i * c.V + v) =
        apply (withOde (E.ode dt) K.app) (l.map Prod.snd) (cellsOf c u) i v
    else ∃ (l : List (Nat × Nat × (Fin c.V → ℝ))) (gar : Nat → Nat → Nat → Nat → Fin c.V → ℝ),
      let K := kern2 E.sys E.T E.fl (E.wt dt) E.dx E.dy true
      IsSchedule threads (fun w => aderWorker2 E.coef nc (E.pred2 dt) K ub E.nx E.ny mask threads (gar w) w) l ∧
      ∀ i < E.nx * E.ny, ∀ v : Fin c.V, u' (i * c.V + v) = apply K.app (l.map Prod.snd) (cellsOf c u) i v

/-- With one material the mask selects every cell. -/
theorem masked2_all (b : Nat → BT) (nc split : Bool) (threads : Nat) (dt : ℝ) (u u' : Iter.Mem) :
    MovesMasked2 E b nc split threads (fun _ => true) dt u u' ↔ MovesPlane E b nc split threads dt u u' := Iff.rfl

/-- The cell at the centre of a square of nine, or one of its four neighbours. -/
def Cross (p q : Nat) : Prop := p ≤ 2 ∧ q ≤ 2 ∧ (p = 1 ∨ q = 1)

/-- The stepper computes the fluxes on all sides of a selected cell. -/
theorem mask2_near (nx ny : Nat) (mk maskb : Nat → Bool) (x y : Nat) (hx : x < nx) (hy : y < ny) (h : mk (cell x y ny) = true)
    (p q : Nat) (hpq : Cross p q) : Grid.extendMask2 nx ny mk maskb (cell (x + p) (y + q) (ny + 2)) = true := by
  obtain ⟨hp, hq, hpq⟩ := hpq
  obtain ⟨a1, a2, a3, -⟩ := Grid.extend_mask_2d nx ny (by omega) (by omega) mk maskb
  unfold cell at h ⊢
  by_cases ex0 : x + p = 0
  · obtain ⟨rfl, rfl⟩ : x = 0 ∧ p = 0 := by omega
    obtain rfl : q = 1 := by omega
    have := (a3 y hy).1
    simp only [Nat.zero_add, Nat.zero_mul] at this h ⊢
    rw [this, h]
  · by_cases ex1 : x + p = nx + 1
    · obtain rfl : q = 1 := by omega
      rw [ex1]
      have := (a3 y hy).2
      simp only at this
      rw [this, show nx - 1 = x by omega, h]
    · by_cases ey0 : y + q = 0
      · obtain ⟨rfl, rfl⟩ : y = 0 ∧ q = 0 := by omega
        obtain rfl : p = 1 := by omega
        have := (a2 x hx).1
        simp only [Nat.add_zero] at this h ⊢
        rw [this, h]
      · by_cases ey1 : y + q = ny + 1
        · obtain rfl : p = 1 := by omega
          rw [ey1]
          have := (a2 x hx).2
          simp only at this
          rw [this, show ny - 1 = y by omega, h]
        · obtain ⟨i, hi⟩ : ∃ i, x + p = i + 1 := ⟨x + p - 1, by omega⟩
          obtain ⟨j, hj⟩ : ∃ j, y + q = j + 1 := ⟨y + q - 1, by omega⟩
          rw [hi, hj]
          refine (a1 i (by omega) j (by omega)).2 ⟨x, hx, y, hy, ?_, h⟩
          unfold Grid.Near2 Grid.Near
          omega

/-! ### What any schedule does to one cell -/

section schedule

variable {E' D R : Type}

/-- The finite volume step in one cell uses the cell and its four neighbours. -/
theorem fv2_at_cross (K : Kern E' D R) (rec rec' : Nat → R) (nx nx' ny nt : Nat) (mask mask' : Nat → Bool)
    (x x' y : Nat) (hx : x < nx) (hx' : x' < nx') (hy : y < ny)
    (hm : ∀ p q, Cross p q → mask (cell (x + p) (y + q) (ny + 2)) = mask' (cell (x' + p) (y + q) (ny + 2)))
    (hr : ∀ p q, Cross p q → ∀ t, t < nt → mask (cell (x + p) (y + q) (ny + 2)) = true →
      rec (ind3 (x + p) (y + q) t (ny + 2) nt) = rec' (ind3 (x' + p) (y + q) t (ny + 2) nt)) :
    at' (cell x y ny) (fv2 K rec nx ny nt mask) = at' (cell x' y ny) (fv2 K rec' nx' ny nt mask') := by
  rw [fv2_at K rec nx ny nt mask x y hx hy, fv2_at K rec' nx' ny nt mask' x' y hx' hy]
  have h0 := hm 0 1 (by unfold Cross; omega)
  have h1 := hm 1 1 (by unfold Cross; omega)
  have h2 := hm 2 1 (by unfold Cross; omega)
  have h3 := hm 1 0 (by unfold Cross; omega)
  have h4 := hm 1 2 (by unfold Cross; omega)
  simp only [Nat.add_zero] at h0 h3
  congr 1
  · refine flatMap_congr' _ _ _ fun t ht => ?_
    have ht := List.mem_range.mp ht
    rw [← h1]
    split
    · next h => rw [hr 1 1 (by unfold Cross; omega) t ht h]
    · rfl
  · refine flatMap_congr' _ _ _ fun t ht => ?_
    have ht := List.mem_range.mp ht
    rw [← h0, ← h1, ← h2, ← h3, ← h4]
    have r0 := hr 0 1 (by unfold Cross; omega) t ht
    have r1 := hr 1 1 (by unfold Cross; omega) t ht
    have r2 := hr 2 1 (by unfold Cross; omega) t ht
    have r3 := hr 1 0 (by unfold Cross; omega) t ht
    have r4 := hr 1 2 (by unfold Cross; omega) t ht
    simp only [Nat.add_zero] at r0 r3
    congr 1
    congr 1
    congr 1
    · split
      · next h => rw [Bool.and_eq_true] at h; rw [r0 h.1, r1 h.2]
      · rfl
    · split
      · next h => rw [Bool.and_eq_true] at h; rw [r3 h.1, r1 h.2]
      · rfl
    · split
      · next h => rw [Bool.and_eq_true] at h; rw [r1 h.1, r2 h.2]
      · rfl
    · split
      · next h => rw [Bool.and_eq_true] at h; rw [r1 h.1, r4 h.2]
      · rfl

/-- The reconstruction of a cell uses the square around it. -/
theorem weno2G_congr (coef : Coef n E') (ub wb : Nat → E') (nx ny i j : Nat)
    (h : ∀ r < 2 * n - 1, ∀ s < 2 * n - 1, ub ((i + r) * (ny + 2 * (n - 1)) + (j + s)) = wb ((i + r) * (ny + 2 * (n - 1)) + (j + s))) :
    weno2G coef false ub nx ny i j = weno2G coef false wb nx ny i j := by
  unfold weno2G
  simp only [Bool.false_and, Bool.false_eq_true, if_false]
  funext ii jj
  exact congrFun (weno1G_congr coef _ _ _ _ j fun s hs => congrFun (weno1G_congr coef _ _ _ _ i fun r hr => h r hr s hs) ii) jj

theorem ind3_div (a j t ny : Nat) (ht : t < n) : ind3 a j t ny n / n = cell a j ny ∧ ind3 a j t ny n % n = t := by
  have hn : 0 < n := by omega
  unfold ind3 cell
  constructor
  · rw [Nat.mul_comm, Nat.mul_add_div hn, Nat.div_eq_of_lt ht, Nat.add_zero]
  · rw [Nat.mul_comm, Nat.mul_add_mod, Nat.mod_eq_of_lt ht]

/-- `ader_stepper_para` in one cell: only the predictors of the cell and its neighbours have to come to an end. -/
theorem ader_cell2 (hn : 0 < n) (coef : Coef n E') (pred : (Fin n → Fin n → E') → Option (Nat → R)) (K : Kern E' D R)
    (ub : Nat → E') (nx ny : Nat) (mask : Nat → Bool) (T : Nat) (hT : 0 < T) (gar0 : Nat → Nat → R)
    (gar : Nat → Nat → Nat → R) (x y : Nat) (hx : x < nx) (hy : y < ny)
    (hpred : ∀ p q, Cross p q → mask (cell (x + p) (y + q) (ny + 2)) = true →
      (pred (weno2G coef false ub (nx + 2) (ny + 2) (x + p) (y + q))).isSome)
    (l : List (Nat × Nat × D))
    (hl : IsSchedule T (fun w => aderWorker2 coef false pred K ub nx ny mask T (gar w) w) l) (u : Nat → E') :
    apply K.app (l.map Prod.snd) u (cell x y ny) = apply K.app (ader2 coef false pred K ub nx ny mask gar0) u (cell x y ny) := by
  obtain ⟨-, hord, -, -⟩ := chunks_partition nx T hT
  obtain ⟨w, hw, x', y', hy', hx', hc, e⟩ := schedule_cell nx T ny hT
    (fun w => ader2 coef false pred K (fun r => ub (start nx T w * (ny + 2 * n) + r))
      (start nx T (w + 1) - start nx T w) ny (fun i => mask (start nx T w * (ny + 2) + i)) (gar w)) l hl
    (fun w _ c hc => at'_bound _ _ (fun op h => fv2_bound K _ _ _ _ _ op h) c hc) (cell x y ny) (cell_lt hx hy)
  obtain ⟨rfl, rfl⟩ : start nx T w + x' = x ∧ y' = y := by
    have d1 := cell_div ny x y hy
    have d2 := cell_div ny (start nx T w + x') y' hy'
    have hc : cell x y ny = cell (start nx T w + x') y' ny := hc
    rw [hc] at d1
    exact ⟨d2.1.symm.trans d1.1, d2.2.symm.trans d1.2⟩
  rw [apply_get, apply_get, e]
  congr 1
  have hend := (hord w hw).2
  set s := start nx T w with hs
  set f := start nx T (w + 1) with hf
  have hcell : ∀ a j, s * (ny + 2) + cell a j (ny + 2) = cell (s + a) j (ny + 2) := fun a j => by
    unfold cell; ring
  refine fv2_at_cross K _ _ _ _ ny n _ _ x' (s + x') y' (by omega) (by omega) hy' ?_ ?_
  · intro p q _; rw [hcell, Nat.add_assoc]
  · intro p q hpq t ht hm
    have hp := hpq.1
    have hq := hpq.2.1
    have e := fun a => ind3_div (n := n) a (y' + q) t (ny + 2) ht
    have d := fun a => cell_div (ny + 2) a (y' + q) (by omega)
    simp only [(e _).1, (e _).2, (d _).1, (d _).2]
    rw [show ny + 2 * n = ny + 2 + 2 * (n - 1) by omega,
      weno2G_shift coef ub (nx + 2) (f - s + 2) (ny + 2) s (x' + p) (y' + q) (by omega) (by omega)]
    rw [hcell] at hm ⊢
    rw [← Nat.add_assoc] at hm ⊢
    obtain ⟨r, hr⟩ := Option.isSome_iff_exists.mp (hpred p q hpq hm)
    rw [hr]
    simp [orGarbage, hm]

/-- Two steps with `ader_stepper_para`, from paddings that agree around a cell. -/
theorem ader2_congr (hn : 0 < n) (coef : Coef n E') (pred : (Fin n → Fin n → E') → Option (Nat → R)) (K : Kern E' D R)
    (ub wb : Nat → E') (nx ny : Nat) (mask mask' : Nat → Bool) (gar gar' : Nat → Nat → R) (x y : Nat) (hx : x < nx) (hy : y < ny)
    (hub : ∀ k ≤ 2 * n, ∀ l ≤ 2 * n, ub ((x + k) * (ny + 2 * n) + (y + l)) = wb ((x + k) * (ny + 2 * n) + (y + l)))
    (hm : ∀ p q, Cross p q → mask (cell (x + p) (y + q) (ny + 2)) = mask' (cell (x + p) (y + q) (ny + 2)))
    (hpred : ∀ p q, Cross p q → mask (cell (x + p) (y + q) (ny + 2)) = true →
      (pred (weno2G coef false ub (nx + 2) (ny + 2) (x + p) (y + q))).isSome) (u w : Nat → E')
    (hu : u (cell x y ny) = w (cell x y ny)) :
    apply K.app (ader2 coef false pred K ub nx ny mask gar) u (cell x y ny) =
      apply K.app (ader2 coef false pred K wb nx ny mask' gar') w (cell x y ny) := by
  rw [apply_get, apply_get, hu]
  congr 1
  refine fv2_at_cross K _ _ _ _ ny n _ _ x x y hx hx hy hm ?_
  intro p q hpq t ht hmk
  have hp := hpq.1
  have hq := hpq.2.1
  have e := fun a => ind3_div (n := n) a (y + q) t (ny + 2) ht
  have d := fun a => cell_div (ny + 2) a (y + q) (by omega)
  have hw : weno2G coef false wb (nx + 2) (ny + 2) (x + p) (y + q) = weno2G coef false ub (nx + 2) (ny + 2) (x + p) (y + q) :=
    weno2G_congr _ _ _ _ _ _ _ fun r hr s hs => by
      rw [show ny + 2 + 2 * (n - 1) = ny + 2 * n by omega, Nat.add_assoc, Nat.add_assoc y]
      exact (hub _ (by omega) _ (by omega)).symm
  simp only [(e _).1, (e _).2, (d _).1, (d _).2, hw]
  obtain ⟨r, hr⟩ := Option.isSome_iff_exists.mp (hpred p q hpq hmk)
  rw [hr]
  simp [orGarbage, hmk, ← hm p q hpq]

/-- Two steps with `split_stepper_para`, from paddings that agree around a cell. -/
theorem split2_congr (hn : 0 < n) (coef : Coef n E') (ode : E' → E') (half : Bool) (mid : (Fin n → Fin n → E') → (Fin n → Fin n → E'))
    (toR : (Fin n → Fin n → E') → R) (K : Kern E' D R)
    (ub wb : Nat → E') (nx ny : Nat) (mask mask' : Nat → Bool) (x y : Nat) (hx : x < nx) (hy : y < ny)
    (hub : ∀ k ≤ 2 * n, ∀ l ≤ 2 * n, ub ((x + k) * (ny + 2 * n) + (y + l)) = wb ((x + k) * (ny + 2 * n) + (y + l)))
    (hm : ∀ p q, Cross p q → mask (cell (x + p) (y + q) (ny + 2)) = mask' (cell (x + p) (y + q) (ny + 2))) (u w : Nat → E')
    (hu : u (cell x y ny) = w (cell x y ny)) :
    apply (withOde ode K.app) (split2 coef false ode half mid toR K ub nx ny mask) u (cell x y ny) =
      apply (withOde ode K.app) (split2 coef false ode half mid toR K wb nx ny mask') w (cell x y ny) := by
  unfold split2
  rw [split_get _ _ _ _ _ _ (cell_lt hx hy), split_get _ _ _ _ _ _ (cell_lt hx hy)]
  congr 1
  rw [apply_get, apply_get, hu]
  congr 1
  refine fv2_at_cross K _ _ _ _ ny 1 _ _ x x y hx hx hy hm ?_
  intro p q hpq t ht hmk
  have hp := hpq.1
  have hq := hpq.2.1
  obtain rfl : t = 0 := by omega
  have e : ∀ a j, ind3 a j 0 (ny + 2) 1 = cell a j (ny + 2) := fun a j => by
    unfold ind3 cell; ring
  have d := fun a => cell_div (ny + 2) a (y + q) (by omega)
  simp only [e, (d _).1, (d _).2, ← hm p q hpq]
  rw [weno2G_congr coef (fun r => ode (ub r)) (fun r => ode (wb r)) _ _ _ _ fun r hr s hs => by
    rw [show ny + 2 + 2 * (n - 1) = ny + 2 * n by omega, Nat.add_assoc, Nat.add_assoc y, hub _ (by omega) _ (by omega)]]

end schedule

/-! ### Steps from fields that agree around a cell -/

/-- The cells that the padding around cell `(x, y)` shows. -/
def Seen2 (b : Nat → BT) (x y j : Nat) : Prop := ∃ k ≤ 2 * n, ∃ l ≤ 2 * n,
  j = cell (srcOf n (b 0) (b 1) E.nx (x + k)) (srcOf n (b 2) (b 3) E.ny (y + l)) E.ny

theorem pads2_seen (hv : c.viscous = true) (hE : E.Ok) (hds : ∀ f, E.destress = some f → OneCell c f) (b : Nat → BT)
    (hb : ∀ k < 4, b k ≠ .other) (u w : Iter.Mem) (ub wb : Nat → Fin c.V → ℝ) (hu : Pads2 E b u ub) (hw : Pads2 E b w wb)
    (x y : Nat) (hx : x < E.nx) (hy : y < E.ny) (h : ∀ j, Seen2 E b x y j → ∀ v < c.V, u (j * c.V + v) = w (j * c.V + v))
    (k : Nat) (hk : k ≤ 2 * n) (l : Nat) (hl : l ≤ 2 * n) :
    ub ((x + k) * (E.ny + 2 * n) + (y + l)) = wb ((x + k) * (E.ny + 2 * n) + (y + l)) := by
  obtain ⟨old, m', hm, hub⟩ := hu
  obtain ⟨old1, m1', hm1, hwb⟩ := hw
  obtain ⟨m'', e, a, -⟩ := Grid.boundaries_2d ⟨n, E.destress⟩ E.nx E.ny (b 0) (b 1) (b 2) (b 3) (memOf c u old) hE.wide.1 hE.wide.2
    (hb 0 (by omega)) (hb 1 (by omega)) (hb 2 (by omega)) (hb 3 (by omega))
  obtain ⟨m1'', e1, a1, -⟩ := Grid.boundaries_2d ⟨n, E.destress⟩ E.nx E.ny (b 0) (b 1) (b 2) (b 3) (memOf c w old1) hE.wide.1 hE.wide.2
    (hb 0 (by omega)) (hb 1 (by omega)) (hb 2 (by omega)) (hb 3 (by omega))
  rw [hm] at e
  cases e
  rw [hm1] at e1
  cases e1
  funext v
  have q1 := a (x + k) (by simp only; omega) (y + l) (by simp only; omega)
  have q2 := a1 (x + k) (by simp only; omega) (y + l) (by simp only; omega)
  simp only at q1 q2
  rw [hub, hwb, q1, q2]
  refine ghost_one hv E.destress hds 1 _ _ _ _ _ _ (fun i hi => ?_) v v.2
  exact ghost_one hv E.destress hds 0 _ _ _ _ _ _ (fun j hj => h _ ⟨k, hk, l, hl, rfl⟩ j hj) i hi

/-- A cell sees itself and the cells around it. -/
theorem seen2_near (hE : E.Ok) (b : Nat → BT) (x y i j : Nat) (hi : i < E.nx) (hj : j < E.ny) (h1 : x ≤ i + 1) (h2 : i ≤ x + 1)
    (h3 : y ≤ j + 1) (h4 : j ≤ y + 1) : Seen2 E b x y (cell i j E.ny) := by
  have hn := hE.tab.pos
  refine ⟨n + i - x, by omega, n + j - y, by omega, ?_⟩
  unfold srcOf
  simp only [show ¬ x + (n + i - x) < n by omega, show x + (n + i - x) < n + E.nx by omega, show ¬ y + (n + j - y) < n by omega,
    show y + (n + j - y) < n + E.ny by omega, if_true, if_false]
  congr 1 <;> omega

theorem seen2_lt (hE : E.Ok) (b : Nat → BT) (x y j : Nat) (hx : x < E.nx) (hy : y < E.ny) (h : Seen2 E b x y j) : j < E.nx * E.ny := by
  obtain ⟨k, hk, l, hl, rfl⟩ := h
  exact cell_lt (srcOf_lt hE.wide.1 (by omega) (by omega)) (srcOf_lt hE.wide.2 (by omega) (by omega))

/-- The predictor comes to an end in the cell and its neighbours. -/
def SettlesAt2 (b : Nat → BT) (dt : ℝ) (u : Iter.Mem) (x y : Nat) : Prop := ∀ ub, Pads2 E b u ub → ∀ p q, Cross p q →
  (E.pred2 dt (weno2G E.coef false ub (E.nx + 2) (E.ny + 2) (x + p) (y + q))).isSome

/-- **A step depends on what is near**, on planes. -/
theorem masked2_local (hv : c.viscous = true) (hE : E.Ok) (hds : ∀ f, E.destress = some f → OneCell c f) (b : Nat → BT)
    (hb : ∀ k < 4, b k ≠ .other) (split : Bool) (threads threads' : Nat) (hT : 0 < threads) (hT' : 0 < threads')
    (mk mk' : Nat → Bool) (dt : ℝ) (u u' w w' : Iter.Mem) (x y : Nat) (hx : x < E.nx) (hy : y < E.ny)
    (hs : split = false → SettlesAt2 E b dt u x y) (hk : mk (cell x y E.ny) = true) (hk' : mk' (cell x y E.ny) = true)
    (h : ∀ j, Seen2 E b x y j → ∀ v < c.V, u (j * c.V + v) = w (j * c.V + v))
    (hu : MovesMasked2 E b false split threads mk dt u u') (hw : MovesMasked2 E b false split threads' mk' dt w w') (v : Nat)
    (hvV : v < c.V) : u' (cell x y E.ny * c.V + v) = w' (cell x y E.ny * c.V + v) := by
  obtain ⟨ub, maskb, hp, hu⟩ := hu
  obtain ⟨wb, maskb', hp', hw⟩ := hw
  have hn := hE.tab.pos
  have hi := cell_lt hx hy
  have hpad := pads2_seen E hv hE hds b hb u w ub wb hp hp' x y hx hy h
  have hM := mask2_near E.nx E.ny mk maskb x y hx hy hk
  have hM' := mask2_near E.nx E.ny mk' maskb' x y hx hy hk'
  have hc : cellsOf c u (cell x y E.ny) = cellsOf c w (cell x y E.ny) := by
    funext z
    exact h _ (seen2_near E hE b x y x y hx hy (by omega) (by omega) (by omega) (by omega)) z z.2
  have hmm : ∀ p q, Cross p q → Grid.extendMask2 E.nx E.ny mk maskb (cell (x + p) (y + q) (E.ny + 2)) =
      Grid.extendMask2 E.nx E.ny mk' maskb' (cell (x + p) (y + q) (E.ny + 2)) :=
    fun p q hpq => (hM p q hpq).trans (hM' p q hpq).symm
  cases split
  · obtain ⟨l, gar, hl, e⟩ := hu
    obtain ⟨l', gar', hl', e'⟩ := hw
    have hset := hs rfl ub hp
    have hset' : ∀ p q, Cross p q → (E.pred2 dt (weno2G E.coef false wb (E.nx + 2) (E.ny + 2) (x + p) (y + q))).isSome := fun p q hpq => by
      have h1 := hpq.1
      have h2 := hpq.2.1
      rw [← weno2G_congr E.coef ub wb _ _ _ _ fun r hr s hs => by
        rw [show E.ny + 2 + 2 * (n - 1) = E.ny + 2 * n by omega, Nat.add_assoc, Nat.add_assoc y]
        exact hpad _ (by omega) _ (by omega)]
      exact hset p q hpq
    rw [e _ hi ⟨v, hvV⟩, e' _ hi ⟨v, hvV⟩,
      ader_cell2 hn _ _ _ ub E.nx E.ny _ threads hT (gar 0) gar x y hx hy (fun p q hpq _ => hset p q hpq) l hl,
      ader_cell2 hn _ _ _ wb E.nx E.ny _ threads' hT' (gar' 0) gar' x y hx hy (fun p q hpq _ => hset' p q hpq) l' hl',
      ader2_congr hn E.coef (E.pred2 dt) _ ub wb E.nx E.ny _ _ (gar 0) (gar' 0) x y hx hy hpad hmm (fun p q hpq _ => hset p q hpq) _ _ hc]
  · obtain ⟨l, hl, e⟩ := hu
    obtain ⟨l', hl', e'⟩ := hw
    rw [e _ hi ⟨v, hvV⟩, e' _ hi ⟨v, hvV⟩,
      split_para2_partial hn _ (E.ode dt) E.half (E.mid2 dt) E.block _ ub E.nx E.ny _ threads hT l hl,
      split_para2_partial hn _ (E.ode dt) E.half (E.mid2 dt) E.block _ wb E.nx E.ny _ threads' hT' l' hl',
      split2_congr hn E.coef (E.ode dt) E.half (E.mid2 dt) E.block _ ub wb E.nx E.ny _ _ x y hx hy hpad hmm _ _ hc]

/-! ### First order -/

section first

variable (E : Env c 1)

/-- `PlaneRuns` around one cell, for a material with mask `mk`. -/
def RunsAt2 (b : Nat → BT) (split : Bool) (mk : Nat → Bool) (dt : ℝ) (u : Iter.Mem) (x y : Nat) : Prop := ∀ ub, Pads2 E b u ub →
  if split then (∀ p q, Cross p q → E.Number dt (ub (cell (x + p) (y + q) (E.ny + 2)))) ∧ ∀ maskb,
    E.Number dt (before2 E.coef false (E.ode dt) E.half (E.mid2 dt) E.block (kern2 E.sys E.T E.fl (fun _ => dt) E.dx E.dy false) ub
      E.nx E.ny (Grid.extendMask2 E.nx E.ny mk maskb) (cellsOf c u) (cell x y E.ny))
  else ∀ p q, Cross p q → (E.pred2 dt (fun _ _ => ub (cell (x + p) (y + q) (E.ny + 2)))).isSome

/-- The states from which the fluxes of cell `(x, y)` are computed. -/
def StateAt2 (b : Nat → BT) (split : Bool) (dt : ℝ) (u : Iter.Mem) (x y : Nat) (q : Fin c.V → ℝ) : Prop :=
  ∃ ub r s, Pads2 E b u ub ∧ Cross r s ∧ if split then q = E.ode dt (ub (cell (x + r) (y + s) (E.ny + 2))) else
    ∃ a, E.pred2 dt (fun _ _ => ub (cell (x + r) (y + s) (E.ny + 2))) = some a ∧ q = a 0 0

/-- In first order steps with and without `NO_CORNERS` are the same steps. -/
theorem masked2_corners (b : Nat → BT) (nc split : Bool) (threads : Nat) (mk : Nat → Bool) (dt : ℝ) (u u' : Iter.Mem) :
    MovesMasked2 E b nc split threads mk dt u u' ↔ MovesMasked2 E b false split threads mk dt u u' := by
  unfold MovesMasked2 aderWorker2 splitWorker2
  simp only [ader2_corners _ nc, split2_corners _ nc]

/-- **A step of first order in a selected cell of a plane**, in quiet components. -/
theorem masked2_first (W : Weno.Setup 1) (undef : ℝ) (it : Nat) (tol : ℝ) (hv : c.viscous = true) (hE : E.Ok)
    (hX : E.Explicit W undef it tol) (b : Nat → BT) (hb' : ∀ k < 4, b k ≠ .other) (nc split : Bool) (threads : Nat)
    (hT : 0 < threads) (mk : Nat → Bool) (dt : ℝ) (u u' : Iter.Mem) (x y : Nat) (hx : x < E.nx) (hy : y < E.ny)
    (hk : mk (cell x y E.ny) = true) (hrun : RunsAt2 E b split mk dt u x y) (hm : MovesMasked2 E b nc split threads mk dt u u') :
    ∃ (ub w : Nat → Fin c.V → ℝ) (rec : Nat → Nat → Fin c.V → ℝ) (mask : Nat → Bool) (wt : Nat → ℝ) (sources : Bool),
      Pads2 E b u ub ∧ wt 0 = dt ∧ (0 ≤ dt → ∀ t, 0 ≤ wt t) ∧
      (∀ p q, Cross p q → StateAt2 E b split dt u x y (rec (cell (x + p) (y + q) (E.ny + 2)) 0) ∧
        (∀ v, Quiet E dt v → rec (cell (x + p) (y + q) (E.ny + 2)) 0 v = ub (cell (x + p) (y + q) (E.ny + 2)) v) ∧
        mask (cell (x + p) (y + q) (E.ny + 2)) = true) ∧
      ∀ v : Fin c.V, Quiet E dt v → w (cell x y E.ny) v = u (cell x y E.ny * c.V + v) ∧
        rec (cell (x + 1) (y + 1) (E.ny + 2)) 0 v = u (cell x y E.ny * c.V + v) ∧ u' (cell x y E.ny * c.V + v) =
        apply (kern2 E.sys E.T E.fl wt E.dx E.dy sources).app
          (fv2 (kern2 E.sys E.T E.fl wt E.dx E.dy sources) rec E.nx E.ny 1 mask) w (cell x y E.ny) v := by
  rw [masked2_corners] at hm
  have hb : ∀ d q, E.sys.bdot d q 0 = 0 := fun d q => gpr_bdot_zero c hv E.P E.src E.junk d q
  obtain ⟨ub, maskb, hp, hm⟩ := hm
  have hM := mask2_near E.nx E.ny mk maskb x y hx hy hk
  have hgrid := pads2_grid E hE b hb' u ub hp x y hx hy
  have hr := hrun ub hp
  have hcd := fun g s (hs : s < E.ny + 2) => cell_div (E.ny + 2) g s hs
  have h11 : Cross 1 1 := by unfold Cross; omega
  cases split
  · obtain ⟨l, gar, hl, e⟩ := hm
    simp only [Bool.false_eq_true, if_false] at hr
    obtain ⟨step, nw, i1, p1⟩ := hX.pred2 dt
    have hset : ∀ p q, Cross p q → (E.pred2 dt (weno2G E.coef false ub (E.nx + 2) (E.ny + 2) (x + p) (y + q))).isSome :=
      fun p q hpq => by rw [hX.coef, one_weno2]; exact hr p q hpq
    let qh : Nat → Nat → Fin c.V → ℝ := fun g => orGarbage (Grid.extendMask2 E.nx E.ny mk maskb (g / 1))
          (E.pred2 dt (weno2G E.coef false ub (E.nx + 2) (E.ny + 2) (g / 1 / (E.ny + 2)) (g / 1 % (E.ny + 2)))) (gar 0 (g / 1)) (g % 1)
    have hst : ∀ p q, Cross p q → StateAt2 E b false dt u x y (qh (cell (x + p) (y + q) (E.ny + 2)) 0) ∧
        (∀ v, Quiet E dt v → qh (cell (x + p) (y + q) (E.ny + 2)) 0 v = ub (cell (x + p) (y + q) (E.ny + 2)) v) ∧
        Grid.extendMask2 E.nx E.ny mk maskb (cell (x + p) (y + q) (E.ny + 2)) = true := fun p q hpq => by
      have hq := hpq.2.1
      obtain ⟨a, ha⟩ := Option.isSome_iff_exists.1 (hr p q hpq)
      have hget : qh (cell (x + p) (y + q) (E.ny + 2)) = a 0 := by
        simp only [qh]
        rw [Nat.div_one, Nat.mod_one, (hcd _ _ (by omega)).1, (hcd _ _ (by omega)).2, hM p q hpq, hX.coef, one_weno2]
        have ha' := ha
        unfold cell at ha'
        rw [ha']
        rfl
      simp only [hget]
      refine ⟨⟨ub, p, q, hp, hpq, a, ha, rfl⟩, fun v q => ?_, hM p q hpq⟩
      rw [p1] at ha
      exact one_keeps2 hE.tab E.sys v (fun q' => q.src _) (fun d q => by rw [hb]; rfl) dt E.dx E.dy tol it step i1 nw _ a ha
    refine ⟨ub, cellsOf c u, qh, Grid.extendMask2 E.nx E.ny mk maskb, E.wt dt, true, hp, by simp [Env.wt, one_w hE.tab], fun hdt t => ?_, hst,
      fun v q => ⟨rfl, by have := (hst 1 1 h11).2.1 v q; rw [hgrid] at this; exact this, ?_⟩⟩
    · unfold Env.wt
      split_ifs
      · exact mul_nonneg hdt (hE.tab.wpos _).le
      · exact le_rfl
    · rw [e _ (cell_lt hx hy) v,
        ader_cell2 Nat.one_pos _ (E.pred2 dt) _ ub E.nx E.ny _ threads hT (gar 0) gar x y hx hy (fun p q hpq _ => hset p q hpq) l hl]
      rfl
  · obtain ⟨l, hl, e⟩ := hm
    simp only [if_true] at hr
    obtain ⟨hr, hr2⟩ := hr
    have ho : ∀ v : Fin c.V, Quiet E dt v →
        E.ode dt (ub (cell (x + 1) (y + 1) (E.ny + 2))) v = u (cell x y E.ny * c.V + v) := fun v q => by
      rw [q.ode _ (hr _ _ h11), hgrid]; rfl
    let qh : Nat → Nat → Fin c.V → ℝ := fun g => E.block (if (E.half && Grid.extendMask2 E.nx E.ny mk maskb g) = true
        then E.mid2 dt (weno2G E.coef false (fun r => E.ode dt (ub r)) (E.nx + 2) (E.ny + 2) (g / (E.ny + 2)) (g % (E.ny + 2)))
        else weno2G E.coef false (fun r => E.ode dt (ub r)) (E.nx + 2) (E.ny + 2) (g / (E.ny + 2)) (g % (E.ny + 2)))
    have hget : ∀ g s, s < E.ny + 2 → qh (cell g s (E.ny + 2)) 0 = E.ode dt (ub (cell g s (E.ny + 2))) := fun g s hs => by
      simp only [qh]
      rw [hX.coef, one_weno2, hX.mid2, mid2_const hE.tab _ (fun d => hb d _), ite_self, hX.block, (hcd _ _ hs).1, (hcd _ _ hs).2]
      exact rows2_get (fun _ _ : Fin 1 => E.ode dt (ub _)) 0 0
    refine ⟨ub, fun i => E.ode dt (cellsOf c u i), qh, Grid.extendMask2 E.nx E.ny mk maskb, fun _ => dt, false, hp, rfl, fun h _ => h,
      fun p q hpq => ?_, fun v q => ?_⟩
    · have hq := hpq.2.1
      rw [hget _ _ (by omega)]
      exact ⟨⟨ub, p, q, hp, hpq, rfl⟩, fun v q' => q'.ode _ (hr p q hpq), hM p q hpq⟩
    · rw [hget _ _ (by omega)]
      refine ⟨by simp only; rw [← hgrid]; exact ho v q, ho v q, ?_⟩
      rw [e _ (cell_lt hx hy) v, split_para2_partial Nat.one_pos _ (E.ode dt) E.half (E.mid2 dt) E.block _ ub E.nx E.ny _ threads hT l hl]
      unfold split2
      rw [split_get _ _ _ _ _ _ (cell_lt hx hy)]
      have hh := q.ode _ (hr2 maskb)
      unfold before2 at hh
      exact hh

/-- Component `v` of the padding around a cell is that of a cell it sees. -/
theorem pads2_quiet_seen (hE : E.Ok) (hds : ∀ f, E.destress = some f → ∀ q k, k = 0 ∨ 14 ≤ k → f q k = q k) (b : Nat → BT)
    (hb : ∀ k < 4, b k ≠ .other) (u : Iter.Mem) (ub : Nat → Fin c.V → ℝ) (hp : Pads2 E b u ub)
    (v : Fin c.V) (hv : v.1 = 0 ∨ 14 ≤ v.1) (x y : Nat) (hx : x < E.nx) (hy : y < E.ny) (p q : Nat) (hpq : Cross p q) :
    ∃ j < E.nx * E.ny, Seen2 E b x y j ∧ ub (cell (x + p) (y + q) (E.ny + 2)) v = u (j * c.V + v) := by
  obtain ⟨p1, q1, -⟩ := hpq
  obtain ⟨old, m', hm, hub⟩ := hp
  obtain ⟨m'', e, a, -⟩ := Grid.boundaries_2d ⟨1, E.destress⟩ E.nx E.ny (b 0) (b 1) (b 2) (b 3) (memOf c u old) hE.wide.1 hE.wide.2
    (hb 0 (by omega)) (hb 1 (by omega)) (hb 2 (by omega)) (hb 3 (by omega))
  rw [hm] at e
  cases e
  have hsee : Seen2 E b x y (cell (srcOf 1 (b 0) (b 1) E.nx (x + p)) (srcOf 1 (b 2) (b 3) E.ny (y + q)) E.ny) := ⟨p, by omega, q, by omega, rfl⟩
  refine ⟨_, seen2_lt E hE b x y _ hx hy hsee, hsee, ?_⟩
  have := a (x + p) (by simp only; omega) (y + q) (by simp only; omega)
  simp only [mul_one] at this
  rw [hub]
  unfold cell
  rw [this, ghost_quiet _ E.destress hds 1 (by omega) _ _ _ _ _ _ hv, ghost_quiet _ E.destress hds 0 (by omega) _ _ _ _ _ _ hv]
  rfl

/-- **In first order a step takes no level set of a selected cell of a plane out of the range of those around it.** -/
theorem masked2_level (W : Weno.Setup 1) (undef : ℝ) (it : Nat) (tol : ℝ) (hv : c.viscous = true) (hE : E.Ok)
    (hX : E.Explicit W undef it tol) (hfl : E.fl = rusanov c E.P)
    (hds : ∀ f, E.destress = some f → ∀ q k, k = 0 ∨ 14 ≤ k → f q k = q k) (hr : c.multi = true ∨ ¬ E.P.reaction > -1)
    (b : Nat → BT) (hb' : ∀ k < 4, b k ≠ .other) (nc split : Bool) (threads : Nat) (hT : 0 < threads) (mk : Nat → Bool)
    (dt : ℝ) (hdt : 0 ≤ dt) (hdx : 0 < E.dx) (hdy : 0 < E.dy) (u u' : Iter.Mem) (x y : Nat) (hx : x < E.nx) (hy : y < E.ny)
    (hk : mk (cell x y E.ny) = true) (hu : ∀ j < E.nx * E.ny, Seen2 E b x y j → 0 < u (j * c.V)) (hrun : RunsAt2 E b split mk dt u x y)
    (a₁ a₂ : ℝ) (h12 : a₁ + a₂ ≤ 1 / 2)
    (hcfl : ∀ q, StateAt2 E b split dt u x y q → dt * speed c E.P q 0 ≤ a₁ * E.dx ∧ dt * speed c E.P q 1 ≤ a₂ * E.dy)
    (hm : MovesMasked2 E b nc split threads mk dt u u') (v : Nat) (hl : IsLevel c v) (lo hi : ℝ)
    (hb : ∀ j < E.nx * E.ny, Seen2 E b x y j → lo ≤ u (j * c.V + v) ∧ u (j * c.V + v) ≤ hi) :
    lo ≤ u' (cell x y E.ny * c.V + v) ∧ u' (cell x y E.ny * c.V + v) ≤ hi := by
  have hV := Iter.V_ge c hv
  let w : Fin c.V := ⟨v, hl.2⟩
  let v0 : Fin c.V := ⟨0, by omega⟩
  have qw := quiet_level E hv hE hr dt w hl
  have h14 : 14 ≤ w.1 := (level_ge hv hl).2.2.1.trans (level_ge hv hl).1
  have q0 := quiet_mass E hv hE dt v0 rfl
  obtain ⟨ub, w', rec, mask, wt, sources, hp, hwt, hw0, hst, hc⟩ := masked2_first E W undef it tol hv hE hX b hb' nc split threads hT mk dt u u'
    x y hx hy hk hrun hm
  have hub := fun z hz => pads2_quiet_seen E hE hds b hb' u ub hp z hz x y hx hy
  have := (hc w qw).2.2
  change u' (cell x y E.ny * c.V + v) = _ at this
  rw [this, hfl]
  refine plane_bounds hE.tab hv E.P E.src E.junk wt dt hwt hdt E.dx E.dy hdx hdy sources rec E.nx E.ny mask w' x y hx hy w v0
    hl rfl qw.src (fun p q p1 q1 pq => ?_) a₁ a₂ h12
    (fun p q p1 q1 pq => hcfl _ (hst p q ⟨p1, q1, pq⟩).1) lo hi (fun p q p1 q1 pq => ?_) ?_
  · rw [(hst p q ⟨p1, q1, pq⟩).2.1 v0 q0]
    obtain ⟨j, hj, hs, e⟩ := hub v0 (Or.inl rfl) p q ⟨p1, q1, pq⟩
    rw [e]
    exact hu j hj hs
  · rw [(hst p q ⟨p1, q1, pq⟩).2.1 w qw]
    obtain ⟨j, hj, hs, e⟩ := hub w (Or.inr h14) p q ⟨p1, q1, pq⟩
    rw [e]
    exact hb j hj hs
  · rw [(hc w qw).1, (hc w qw).2.1]

/-- **In first order a step leaves a positive density in a selected cell of a plane** if those around it are positive. -/
theorem masked2_dense (W : Weno.Setup 1) (undef : ℝ) (it : Nat) (tol : ℝ) (hv : c.viscous = true) (hE : E.Ok)
    (hX : E.Explicit W undef it tol) (hfl : E.fl = rusanov c E.P)
    (hds : ∀ f, E.destress = some f → ∀ q k, k = 0 ∨ 14 ≤ k → f q k = q k)
    (b : Nat → BT) (hb' : ∀ k < 4, b k ≠ .other) (nc split : Bool) (threads : Nat) (hT : 0 < threads) (mk : Nat → Bool)
    (dt : ℝ) (hdt : 0 ≤ dt) (hdx : 0 < E.dx) (hdy : 0 < E.dy) (u u' : Iter.Mem) (x y : Nat) (hx : x < E.nx) (hy : y < E.ny)
    (hk : mk (cell x y E.ny) = true) (hu : ∀ j < E.nx * E.ny, Seen2 E b x y j → 0 < u (j * c.V)) (hrun : RunsAt2 E b split mk dt u x y)
    (a₁ a₂ : ℝ) (h12 : a₁ + a₂ ≤ 1)
    (hcfl : ∀ q, StateAt2 E b split dt u x y q → dt * speed c E.P q 0 < a₁ * E.dx ∧ dt * speed c E.P q 1 < a₂ * E.dy)
    (hm : MovesMasked2 E b nc split threads mk dt u u') : 0 < u' (cell x y E.ny * c.V) := by
  have hV := Iter.V_ge c hv
  let v : Fin c.V := ⟨0, by omega⟩
  let mx : Fin c.V := ⟨2, by omega⟩
  let my : Fin c.V := ⟨3, by omega⟩
  have q0 := quiet_mass E hv hE dt v rfl
  have hB : ∀ d q x, E.sys.bdot d q x v = 0 := fun d q x => gpr_conservative_components c hv E.P E.src E.junk v (show (0 : Nat) < 5 by omega) d q x
  obtain ⟨ub, w', rec, mask, wt, sources, hp, hwt, hw0, hst, hc⟩ := masked2_first E W undef it tol hv hE hX b hb' nc split threads hT mk dt u u'
    x y hx hy hk hrun hm
  have := (hc v q0).2.2
  change u' (cell x y E.ny * c.V + 0) = _ at this
  rw [Nat.add_zero] at this
  rw [this, hfl]
  refine plane_keeps hE.tab E.sys E.P wt dt hwt (hw0 hdt) E.dx E.dy hdx hdy sources rec E.nx E.ny mask w' x y hx hy v rfl mx my rfl rfl hB
    (fun q => q0.src _) (fun p q p1 q1 pq => ?_) a₁ a₂ h12 (fun p q p1 q1 pq => hcfl _ (hst p q ⟨p1, q1, pq⟩).1)
    ((hc v q0).1.trans (hc v q0).2.1.symm)
  rw [(hst p q ⟨p1, q1, pq⟩).2.1 v q0]
  obtain ⟨j, hj, hs, e⟩ := pads2_quiet_seen E hE hds b hb' u ub hp v (Or.inl rfl) x y hx hy p q ⟨p1, q1, pq⟩
  rw [e]
  exact hu j hj hs

end first

end

end Verif.Run
