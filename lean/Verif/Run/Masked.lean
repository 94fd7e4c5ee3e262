import Verif.Run.Level
import Verif.Run.Lines

/-! # The steppers on part of a line

With several materials every material is stepped on its own grid, in the cells its mask selects (iterator.cpp:119-133).
What such a step does to a selected cell is decided by the cells around it. -/

namespace Verif.Run

open Verif.Sys Verif.Iter Verif.Dg Verif.Fv Verif.Step Verif.Grid Verif.Rot

noncomputable section

variable {c : Sys.Cfg} {n : Nat} (E : Env c n)

/-- `boundaries`, `extend_mask` and the stepper, iterator.cpp:122-132, on a line, for a material with mask `mk`. -/
def MovesMasked (b : Nat → BT) (split : Bool) (threads : Nat) (mk : Nat → Bool) (dt : ℝ) (u u' : Iter.Mem) : Prop :=
  ∃ (ub : Nat → Fin c.V → ℝ) (maskb : Nat → Bool), Pads1 E b u ub ∧
    let mask := Grid.extendMask1 E.nx mk maskb
    if split then ∃ l : List (Nat × Nat × Option (Fin c.V → ℝ)),
      let K := kern1 E.sys E.T E.fl (fun _ => dt) E.dx false
      IsSchedule threads (splitWorker1 E.coef (E.ode dt) E.half (E.mid1 dt) (fun q => q) K ub E.nx mask threads) l ∧
      ∀ i < E.nx, ∀ v : Fin c.V, u' (i * c.V + v) =
        apply (withOde (E.ode dt) K.app) (l.map Prod.snd) (cellsOf c u) i v
    else ∃ (l : List (Nat × Nat × (Fin c.V → ℝ))) (gar : Nat → Nat → Nat → Fin n → Fin c.V → ℝ),
      let K := kern1 E.sys E.T E.fl (E.wt dt) E.dx true
      IsSchedule threads (fun w => aderWorker1 E.coef (E.pred1 dt) K ub E.nx mask threads (gar w) w) l ∧
      ∀ i < E.nx, ∀ v : Fin c.V, u' (i * c.V + v) = apply K.app (l.map Prod.snd) (cellsOf c u) i v

/-- With one material the mask selects every cell. -/
theorem masked_all (b : Nat → BT) (split : Bool) (threads : Nat) (dt : ℝ) (u u' : Iter.Mem) :
    MovesMasked E b split threads (fun _ => true) dt u u' ↔ MovesLine E b split threads dt u u' := Iff.rfl

/-- The stepper computes the fluxes on both sides of a selected cell. -/
theorem mask1_near (nx : Nat) (mk maskb : Nat → Bool) (i : Nat) (hi : i < nx) (h : mk i = true) (g : Nat) (g1 : i ≤ g) (g2 : g ≤ i + 2) :
    Grid.extendMask1 nx mk maskb g = true := by
  have hx : 0 < nx := by omega
  obtain ⟨a1, a2, a3, -⟩ := Grid.extend_mask_1d nx hx mk maskb
  rcases Nat.eq_zero_or_pos g with rfl | h0
  · obtain rfl : i = 0 := by omega
    exact a2 h
  · by_cases e : g = nx + 1
    · subst e
      obtain rfl : i = nx - 1 := by omega
      exact a3 h
    · obtain ⟨j, rfl⟩ : ∃ j, g = j + 1 := ⟨g - 1, by omega⟩
      exact (a1 j (by omega)).2 ⟨i, hi, by unfold Grid.Near; omega, h⟩

/-! ### What any schedule does to one cell -/

section schedule

variable {E' D R : Type}

/-- `ader_stepper_para` in one cell: only the predictors of the cell and its neighbours have to come to an end. -/
theorem ader_cell1 (coef : Coef n E') (pred : (Fin n → E') → Option (Nat → R)) (K : Kern E' D R)
    (ub : Nat → E') (nx : Nat) (mask : Nat → Bool) (T : Nat) (hT : 0 < T) (gar0 : Nat → Nat → R)
    (gar : Nat → Nat → Nat → R) (i : Nat) (hi : i < nx)
    (hpred : ∀ g, i ≤ g → g ≤ i + 2 → mask g = true → (pred (weno1G coef ub ((nx + 2 : Nat) : Int) 0 g)).isSome)
    (l : List (Nat × Nat × D))
    (hl : IsSchedule T (fun w => aderWorker1 coef pred K ub nx mask T (gar w) w) l) (u : Nat → E') :
    apply K.app (l.map Prod.snd) u i = apply K.app (ader1 coef pred K ub nx mask gar0) u i := by
  obtain ⟨-, hord, -, -⟩ := chunks_partition nx T hT
  obtain ⟨w, hw, x, y, hy, hx, hc, e⟩ := schedule_cell nx T 1 hT
    (fun w => ader1 coef pred K (fun r => ub (start nx T w + r)) (start nx T (w + 1) - start nx T w)
      (fun i => mask (start nx T w + i)) (gar w)) l (by simp only [Nat.mul_one]; exact hl)
    (fun w _ c hc => fv1_outside K _ _ _ _ c (by rw [Nat.mul_one] at hc; omega)) i (by omega)
  obtain rfl : y = 0 := by omega
  simp only [Nat.mul_one, Nat.add_zero] at hc e
  rw [apply_get, apply_get, e]
  congr 1
  have hend := (hord w hw).2
  set s := start nx T w with hs
  set f := start nx T (w + 1) with hf
  subst hc
  refine fv1_at_congr K _ _ _ _ n _ _ x (s + x) (by omega) (by omega) ?_ ?_
  · intro k _; rw [Nat.add_assoc]
  · intro k hk t ht hm
    have e : ∀ a, ind2 a t n / n = a ∧ ind2 a t n % n = t := fun a => by
      unfold ind2
      have hn : 0 < n := by omega
      constructor
      · rw [Nat.mul_comm, Nat.mul_add_div hn, Nat.div_eq_of_lt ht, Nat.add_zero]
      · rw [Nat.mul_comm, Nat.mul_add_mod, Nat.mod_eq_of_lt ht]
    simp only [(e _).1, (e _).2]
    rw [weno1G_shift coef ub (nx + 2) (f - s + 2) s (x + k) (by omega) (by omega), ← Nat.add_assoc]
    rw [← Nat.add_assoc] at hm
    obtain ⟨r, hr⟩ := Option.isSome_iff_exists.mp (hpred (s + x + k) (by omega) (by omega) hm)
    rw [hr]
    simp [orGarbage, hm]

/-- Two steps with `ader_stepper_para`, from paddings that agree around a cell. -/
theorem ader1_congr (coef : Coef n E') (pred : (Fin n → E') → Option (Nat → R)) (K : Kern E' D R)
    (ub wb : Nat → E') (nx : Nat) (mask mask' : Nat → Bool) (gar gar' : Nat → Nat → R) (i : Nat) (hi : i < nx)
    (hub : ∀ k ≤ 2 * n, ub (i + k) = wb (i + k)) (hm : ∀ g, i ≤ g → g ≤ i + 2 → mask g = mask' g)
    (hpred : ∀ g, i ≤ g → g ≤ i + 2 → mask g = true → (pred (weno1G coef ub ((nx + 2 : Nat) : Int) 0 g)).isSome) (u w : Nat → E')
    (hu : u i = w i) :
    apply K.app (ader1 coef pred K ub nx mask gar) u i = apply K.app (ader1 coef pred K wb nx mask' gar') w i := by
  rw [apply_get, apply_get, hu]
  congr 1
  refine fv1_at_congr K _ _ _ _ n _ _ i i hi hi (fun k hk => hm _ (by omega) (by omega)) ?_
  intro k hk t ht hmk
  have e : ∀ a, ind2 a t n / n = a ∧ ind2 a t n % n = t := fun a => by
    unfold ind2
    have hn : 0 < n := by omega
    constructor
    · rw [Nat.mul_comm, Nat.mul_add_div hn, Nat.div_eq_of_lt ht, Nat.add_zero]
    · rw [Nat.mul_comm, Nat.mul_add_mod, Nat.mod_eq_of_lt ht]
  have hw : weno1G coef wb ((nx + 2 : Nat) : Int) 0 (i + k) = weno1G coef ub ((nx + 2 : Nat) : Int) 0 (i + k) :=
    weno1G_congr _ _ _ _ _ _ fun r hr => by rw [Nat.add_assoc]; exact (hub _ (by omega)).symm
  simp only [(e _).1, (e _).2, hw]
  obtain ⟨r, hr⟩ := Option.isSome_iff_exists.mp (hpred (i + k) (by omega) (by omega) hmk)
  rw [hr]
  simp [orGarbage, hmk, ← hm (i + k) (by omega) (by omega)]

/-- Two steps with `split_stepper_para`, from paddings that agree around a cell. -/
theorem split1_congr (coef : Coef n E') (ode : E' → E') (half : Bool) (mid : (Fin n → E') → (Fin n → E')) (K : Kern E' D (Fin n → E'))
    (ub wb : Nat → E') (nx : Nat) (mask mask' : Nat → Bool) (i : Nat) (hi : i < nx)
    (hub : ∀ k ≤ 2 * n, ub (i + k) = wb (i + k)) (hn : 0 < n) (hm : ∀ g, i ≤ g → g ≤ i + 2 → mask g = mask' g) (u w : Nat → E')
    (hu : u i = w i) :
    apply (withOde ode K.app) (split1 coef ode half mid (fun q => q) K ub nx mask) u i =
      apply (withOde ode K.app) (split1 coef ode half mid (fun q => q) K wb nx mask') w i := by
  unfold split1
  rw [split_get _ _ _ _ _ _ hi, split_get _ _ _ _ _ _ hi]
  congr 1
  rw [apply_get, apply_get, hu]
  congr 1
  refine fv1_at_congr K _ _ _ _ 1 _ _ i i hi hi (fun k hk => hm _ (by omega) (by omega)) ?_
  intro k hk t ht hmk
  obtain rfl : t = 0 := by omega
  simp only [ind2, Nat.mul_one, Nat.add_zero, ← hm (i + k) (by omega) (by omega)]
  rw [weno1G_congr coef (fun r => ode (ub r)) (fun r => ode (wb r)) _ _ _ fun r hr => by
    rw [Nat.add_assoc, hub _ (by omega)]]

end schedule

/-! ### Steps from fields that agree around a cell -/

/-- The cells that the padding around cell `i` shows: those at a distance of at most `N`, or what the ends put in their place. -/
def Seen (b : Nat → BT) (i j : Nat) : Prop := ∃ k ≤ 2 * n, j = srcOf n (b 0) (b 1) E.nx (i + k)

theorem pads1_seen (hv : c.viscous = true) (hE : E.Ok) (hds : ∀ f, E.destress = some f → OneCell c f) (b : Nat → BT)
    (h0 : b 0 ≠ .other) (h1 : b 1 ≠ .other) (u w : Iter.Mem) (ub wb : Nat → Fin c.V → ℝ) (hu : Pads1 E b u ub) (hw : Pads1 E b w wb)
    (i : Nat) (hi : i < E.nx) (h : ∀ j, Seen E b i j → ∀ v < c.V, u (j * c.V + v) = w (j * c.V + v)) (k : Nat) (hk : k ≤ 2 * n) :
    ub (i + k) = wb (i + k) := by
  obtain ⟨old, m', hm, hub⟩ := hu
  obtain ⟨old1, m1', hm1, hwb⟩ := hw
  obtain ⟨m'', e, a, -⟩ := Grid.boundaries_1d ⟨n, E.destress⟩ E.nx (b 0) (b 1) (memOf c u old) hE.wide.1 h0 h1
  obtain ⟨m1'', e1, a1, -⟩ := Grid.boundaries_1d ⟨n, E.destress⟩ E.nx (b 0) (b 1) (memOf c w old1) hE.wide.1 h0 h1
  rw [hm] at e
  cases e
  rw [hm1] at e1
  cases e1
  funext v
  rw [hub, hwb, a (i + k) (by simp only; omega), a1 (i + k) (by simp only; omega)]
  exact ghost_one hv E.destress hds 0 _ _ _ _ _ _ (fun j hj => h _ ⟨k, hk, rfl⟩ j hj) v v.2

/-- A cell sees itself and its neighbours. -/
theorem seen_near (hE : E.Ok) (b : Nat → BT) (i j : Nat) (hj : j < E.nx) (h1 : i ≤ j + 1) (h2 : j ≤ i + 1) : Seen E b i j := by
  have hn := hE.tab.pos
  refine ⟨n + j - i, by omega, ?_⟩
  unfold srcOf
  rw [if_neg (by omega), if_pos (by omega)]
  omega

/-- The predictor comes to an end in the cell and its neighbours. -/
def SettlesAt (b : Nat → BT) (dt : ℝ) (u : Iter.Mem) (i : Nat) : Prop := ∀ ub, Pads1 E b u ub → ∀ g, i ≤ g → g ≤ i + 2 →
  (E.pred1 dt (weno1G E.coef ub ((E.nx + 2 : Nat) : Int) 0 g)).isSome

/-- **A step depends on what is near**: two fields that agree within `N` cells of a cell that both masks select are the same there
after a step, whatever else they hold, whatever else is selected, and for all numbers and schedules of threads. -/
theorem masked_local (hv : c.viscous = true) (hE : E.Ok) (hds : ∀ f, E.destress = some f → OneCell c f) (b : Nat → BT)
    (h0 : b 0 ≠ .other) (h1 : b 1 ≠ .other) (split : Bool) (threads threads' : Nat) (hT : 0 < threads) (hT' : 0 < threads')
    (mk mk' : Nat → Bool) (dt : ℝ) (u u' w w' : Iter.Mem) (i : Nat) (hi : i < E.nx) (hs : split = false → SettlesAt E b dt u i)
    (hk : mk i = true) (hk' : mk' i = true) (h : ∀ j, Seen E b i j → ∀ v < c.V, u (j * c.V + v) = w (j * c.V + v))
    (hu : MovesMasked E b split threads mk dt u u') (hw : MovesMasked E b split threads' mk' dt w w') (v : Nat) (hvV : v < c.V) :
    u' (i * c.V + v) = w' (i * c.V + v) := by
  obtain ⟨ub, maskb, hp, hu⟩ := hu
  obtain ⟨wb, maskb', hp', hw⟩ := hw
  have hpad := pads1_seen E hv hE hds b h0 h1 u w ub wb hp hp' i hi h
  have hM := mask1_near E.nx mk maskb i hi hk
  have hM' := mask1_near E.nx mk' maskb' i hi hk'
  have hc : cellsOf c u i = cellsOf c w i := by
    funext x
    exact h i (seen_near E hE b i i hi (by omega) (by omega)) x x.2
  have hmm : ∀ g, i ≤ g → g ≤ i + 2 → Grid.extendMask1 E.nx mk maskb g = Grid.extendMask1 E.nx mk' maskb' g :=
    fun g g1 g2 => (hM g g1 g2).trans (hM' g g1 g2).symm
  cases split
  · obtain ⟨l, gar, hl, e⟩ := hu
    obtain ⟨l', gar', hl', e'⟩ := hw
    have hset := hs rfl ub hp
    have hset' : ∀ g, i ≤ g → g ≤ i + 2 → (E.pred1 dt (weno1G E.coef wb ((E.nx + 2 : Nat) : Int) 0 g)).isSome := fun g g1 g2 => by
      rw [← weno1G_congr E.coef ub wb _ _ g fun r hr => by
        obtain ⟨k, rfl⟩ := Nat.exists_eq_add_of_le g1
        rw [Nat.add_assoc]; exact hpad _ (by omega)]
      exact hset g g1 g2
    rw [e i hi ⟨v, hvV⟩, e' i hi ⟨v, hvV⟩, ader_cell1 _ _ _ ub E.nx _ threads hT (gar 0) gar i hi (fun g g1 g2 _ => hset g g1 g2) l hl,
      ader_cell1 _ _ _ wb E.nx _ threads' hT' (gar' 0) gar' i hi (fun g g1 g2 _ => hset' g g1 g2) l' hl',
      ader1_congr E.coef (E.pred1 dt) _ ub wb E.nx _ _ (gar 0) (gar' 0) i hi hpad hmm (fun g g1 g2 _ => hset g g1 g2) _ _ hc]
  · obtain ⟨l, hl, e⟩ := hu
    obtain ⟨l', hl', e'⟩ := hw
    rw [e i hi ⟨v, hvV⟩, e' i hi ⟨v, hvV⟩, split_para1 _ (E.ode dt) E.half (E.mid1 dt) (fun q => q) _ ub E.nx _ threads hT l hl,
      split_para1 _ (E.ode dt) E.half (E.mid1 dt) (fun q => q) _ wb E.nx _ threads' hT' l' hl',
      split1_congr E.coef (E.ode dt) E.half (E.mid1 dt) _ ub wb E.nx _ _ i hi hpad hE.tab.pos hmm _ _ hc]

/-! ### First order -/

section first

variable (E : Env c 1)

/-- `LineRuns` around one cell, for a material with mask `mk`. -/
def RunsAt (b : Nat → BT) (split : Bool) (mk : Nat → Bool) (dt : ℝ) (u : Iter.Mem) (i : Nat) : Prop := ∀ ub, Pads1 E b u ub →
  if split then (∀ g, i ≤ g → g ≤ i + 2 → E.Number dt (ub g)) ∧ ∀ maskb,
    E.Number dt (before1 E.coef (E.ode dt) E.half (E.mid1 dt) (kern1 E.sys E.T E.fl (fun _ => dt) E.dx false) ub E.nx
      (Grid.extendMask1 E.nx mk maskb) (cellsOf c u) i)
  else ∀ g, i ≤ g → g ≤ i + 2 → (E.pred1 dt (fun _ => ub g)).isSome

/-- The states from which the fluxes of cell `i` are computed. -/
def StateAt (b : Nat → BT) (split : Bool) (dt : ℝ) (u : Iter.Mem) (i : Nat) (q : Fin c.V → ℝ) : Prop :=
  ∃ ub g, Pads1 E b u ub ∧ i ≤ g ∧ g ≤ i + 2 ∧
    if split then q = E.ode dt (ub g) else ∃ a, E.pred1 dt (fun _ => ub g) = some a ∧ q = a 0 0

/-- **A step of first order in a selected cell**, in quiet components. -/
theorem masked_first (W : Weno.Setup 1) (undef : ℝ) (it : Nat) (tol : ℝ) (hv : c.viscous = true) (hE : E.Ok)
    (hX : E.Explicit W undef it tol) (b : Nat → BT) (h0 : b 0 ≠ .other) (h1 : b 1 ≠ .other) (split : Bool) (threads : Nat)
    (hT : 0 < threads) (mk : Nat → Bool) (dt : ℝ) (u u' : Iter.Mem) (i : Nat) (hi : i < E.nx) (hk : mk i = true)
    (hrun : RunsAt E b split mk dt u i) (hm : MovesMasked E b split threads mk dt u u') :
    ∃ (ub w : Nat → Fin c.V → ℝ) (rec : Nat → Fin 1 → Fin c.V → ℝ) (mask : Nat → Bool) (wt : Nat → ℝ) (sources : Bool),
      Pads1 E b u ub ∧ wt 0 = dt ∧ (0 ≤ dt → ∀ t, 0 ≤ wt t) ∧ (∀ g, i ≤ g → g ≤ i + 2 → StateAt E b split dt u i (rec g 0) ∧
        (∀ v, Quiet E dt v → rec g 0 v = ub g v) ∧ mask g = true) ∧
      ∀ v : Fin c.V, Quiet E dt v → w i v = u (i * c.V + v) ∧ rec (i + 1) 0 v = u (i * c.V + v) ∧ u' (i * c.V + v) =
        apply (kern1 E.sys E.T E.fl wt E.dx sources).app (fv1 (kern1 E.sys E.T E.fl wt E.dx sources) rec E.nx 1 mask) w i v := by
  have hb : ∀ d q, E.sys.bdot d q 0 = 0 := fun d q => gpr_bdot_zero c hv E.P E.src E.junk d q
  obtain ⟨ub, maskb, hp, hm⟩ := hm
  have hM := mask1_near E.nx mk maskb i hi hk
  have hgrid := pads1_grid E hE b h0 h1 u ub hp
  have hr := hrun ub hp
  cases split
  · obtain ⟨l, gar, hl, e⟩ := hm
    simp only [Bool.false_eq_true, if_false] at hr
    obtain ⟨step, nw, i1, p1⟩ := hX.pred1 dt
    have hset : ∀ j, i ≤ j → j ≤ i + 2 → (E.pred1 dt (weno1G E.coef ub ((E.nx + 2 : Nat) : Int) 0 j)).isSome := fun j j1 j2 => by
      rw [hX.coef, one_weno1]; exact hr j j1 j2
    let qh : Nat → Fin 1 → Fin c.V → ℝ := fun g => orGarbage (Grid.extendMask1 E.nx mk maskb (g / 1))
          (E.pred1 dt (weno1G E.coef ub ((E.nx + 2 : Nat) : Int) 0 (g / 1))) (gar 0 (g / 1)) (g % 1)
    have hst : ∀ g, i ≤ g → g ≤ i + 2 → StateAt E b false dt u i (qh g 0) ∧
        (∀ v, Quiet E dt v → qh g 0 v = ub g v) ∧ Grid.extendMask1 E.nx mk maskb g = true := fun g g1 g2 => by
      obtain ⟨a, ha⟩ := Option.isSome_iff_exists.1 (hr g g1 g2)
      have hget : qh g = a 0 := by
        simp only [qh]
        rw [Nat.div_one, Nat.mod_one, hM g g1 g2, hX.coef, one_weno1, ha]
        rfl
      simp only [hget]
      refine ⟨⟨ub, g, hp, g1, g2, a, ha, rfl⟩, fun v q => ?_, hM g g1 g2⟩
      rw [p1] at ha
      exact one_keeps1 hE.tab E.sys v (fun q' => q.src _) (fun d q => by rw [hb]; rfl) dt E.dx tol it step i1 nw _ a ha
    refine ⟨ub, cellsOf c u, qh, Grid.extendMask1 E.nx mk maskb, E.wt dt, true, hp, by simp [Env.wt, one_w hE.tab], fun hdt t => ?_, hst,
      fun v q => ⟨rfl, by have := (hst (i + 1) (by omega) (by omega)).2.1 v q; rw [hgrid i hi] at this; exact this, ?_⟩⟩
    · unfold Env.wt
      split_ifs
      · exact mul_nonneg hdt (hE.tab.wpos _).le
      · exact le_rfl
    · rw [e i hi v, ader_cell1 _ (E.pred1 dt) _ ub E.nx _ threads hT (gar 0) gar i hi (fun j j1 j2 _ => hset j j1 j2) l hl]
      rfl
  · obtain ⟨l, hl, e⟩ := hm
    simp only [if_true] at hr
    obtain ⟨hr, hr2⟩ := hr
    have hget : ∀ g, (if (E.half && Grid.extendMask1 E.nx mk maskb g) = true
        then E.mid1 dt (weno1G E.coef (fun r => E.ode dt (ub r)) ((E.nx + 2 : Nat) : Int) 0 g)
        else weno1G E.coef (fun r => E.ode dt (ub r)) ((E.nx + 2 : Nat) : Int) 0 g) = fun _ => E.ode dt (ub g) := by
      intro g
      rw [hX.coef, one_weno1, hX.mid1, mid1_const hE.tab _ (hb 0 _), ite_self]
    have ho : ∀ v : Fin c.V, Quiet E dt v → E.ode dt (ub (i + 1)) v = u (i * c.V + v) := fun v q => by
      rw [q.ode _ (hr _ (by omega) (by omega)), hgrid i hi]; rfl
    refine ⟨ub, fun i => E.ode dt (cellsOf c u i), fun g _ => E.ode dt (ub g), Grid.extendMask1 E.nx mk maskb, fun _ => dt, false, hp, rfl, fun h _ => h,
      fun g g1 g2 => ⟨⟨ub, g, hp, g1, g2, rfl⟩, fun v q => q.ode _ (hr g g1 g2), hM g g1 g2⟩,
      fun v q => ⟨by simp only; rw [← hgrid i hi]; exact ho v q, ho v q, ?_⟩⟩
    rw [e i hi v, split_para1 _ (E.ode dt) E.half (E.mid1 dt) (fun q => q) _ ub E.nx _ threads hT l hl]
    unfold split1
    rw [split_get _ _ _ _ _ _ hi]
    have hh := q.ode _ (hr2 maskb)
    unfold before1 at hh
    refine hh.trans ?_
    simp only [hget]

/-- Component `v` of the padding around a cell is that of a cell it sees. -/
theorem pads1_quiet_seen (hE : E.Ok) (hds : ∀ f, E.destress = some f → ∀ q k, k = 0 ∨ 14 ≤ k → f q k = q k) (b : Nat → BT)
    (h0 : b 0 ≠ .other) (h1 : b 1 ≠ .other) (u : Iter.Mem) (ub : Nat → Fin c.V → ℝ) (hp : Pads1 E b u ub)
    (v : Fin c.V) (hv : v.1 = 0 ∨ 14 ≤ v.1) (i : Nat) (hi : i < E.nx) (g : Nat) (g1 : i ≤ g) (g2 : g ≤ i + 2) :
    ∃ j < E.nx, Seen E b i j ∧ ub g v = u (j * c.V + v) := by
  obtain ⟨old, m', hm, hub⟩ := hp
  obtain ⟨m'', e, a, -⟩ := Grid.boundaries_1d ⟨1, E.destress⟩ E.nx (b 0) (b 1) (memOf c u old) hE.wide.1 h0 h1
  rw [hm] at e
  cases e
  refine ⟨srcOf 1 (b 0) (b 1) E.nx g, srcOf_lt hE.wide.1 (by omega) (by omega), ⟨g - i, by omega, by rw [Nat.add_sub_cancel' g1]⟩, ?_⟩
  rw [hub, a g (by simp only; omega), ghost_quiet _ E.destress hds 0 (by omega) _ _ _ _ _ _ hv]
  rfl

/-- **In first order a step takes no level set of a selected cell out of the range of those around it**: only the densities
around the cell have to be positive. -/
theorem masked_level (W : Weno.Setup 1) (undef : ℝ) (it : Nat) (tol : ℝ) (hv : c.viscous = true) (hE : E.Ok)
    (hX : E.Explicit W undef it tol) (hfl : E.fl = rusanov c E.P)
    (hds : ∀ f, E.destress = some f → ∀ q k, k = 0 ∨ 14 ≤ k → f q k = q k) (hr : c.multi = true ∨ ¬ E.P.reaction > -1)
    (b : Nat → BT) (h0 : b 0 ≠ .other) (h1 : b 1 ≠ .other) (split : Bool) (threads : Nat) (hT : 0 < threads) (mk : Nat → Bool)
    (dt : ℝ) (hdt : 0 ≤ dt) (hdx : 0 < E.dx) (u u' : Iter.Mem) (i : Nat) (hi : i < E.nx) (hk : mk i = true)
    (hu : ∀ j < E.nx, Seen E b i j → 0 < u (j * c.V)) (hrun : RunsAt E b split mk dt u i)
    (hcfl : ∀ q, StateAt E b split dt u i q → dt * speed c E.P q 0 ≤ 1 / 2 * E.dx)
    (hm : MovesMasked E b split threads mk dt u u') (v : Nat) (hl : IsLevel c v) (lo hi' : ℝ)
    (hb : ∀ j < E.nx, Seen E b i j → lo ≤ u (j * c.V + v) ∧ u (j * c.V + v) ≤ hi') :
    lo ≤ u' (i * c.V + v) ∧ u' (i * c.V + v) ≤ hi' := by
  have hV := Iter.V_ge c hv
  let w : Fin c.V := ⟨v, hl.2⟩
  let v0 : Fin c.V := ⟨0, by omega⟩
  have qw := quiet_level E hv hE hr dt w hl
  have h14 : 14 ≤ w.1 := (level_ge hv hl).2.2.1.trans (level_ge hv hl).1
  have q0 := quiet_mass E hv hE dt v0 rfl
  obtain ⟨ub, w', rec, mask, wt, sources, hp, hwt, hw0, hst, hc⟩ := masked_first E W undef it tol hv hE hX b h0 h1 split threads hT mk dt u u' i hi
    hk hrun hm
  have hub := fun x hx => pads1_quiet_seen E hE hds b h0 h1 u ub hp x hx i hi
  have := (hc w qw).2.2
  change u' (i * c.V + v) = _ at this
  rw [this, hfl]
  refine line_bounds hE.tab hv E.P E.src E.junk wt dt hwt hdt E.dx hdx sources rec E.nx mask w' i hi w v0 hl rfl qw.src
    (fun g g1 g2 => ?_) (fun g g1 g2 => hcfl _ (hst g g1 g2).1) lo hi' (fun g g1 g2 => ?_) ?_
  · rw [(hst g g1 g2).2.1 v0 q0]
    obtain ⟨j, hj, hs, e⟩ := hub v0 (Or.inl rfl) g g1 g2
    rw [e]
    exact hu j hj hs
  · rw [(hst g g1 g2).2.1 w qw]
    obtain ⟨j, hj, hs, e⟩ := hub w (Or.inr h14) g g1 g2
    rw [e]
    exact hb j hj hs
  · rw [(hc w qw).1, (hc w qw).2.1]

/-- **In first order a step leaves a positive density in a selected cell** if those around it are positive. -/
theorem masked_dense (W : Weno.Setup 1) (undef : ℝ) (it : Nat) (tol : ℝ) (hv : c.viscous = true) (hE : E.Ok)
    (hX : E.Explicit W undef it tol) (hfl : E.fl = rusanov c E.P)
    (hds : ∀ f, E.destress = some f → ∀ q k, k = 0 ∨ 14 ≤ k → f q k = q k)
    (b : Nat → BT) (h0 : b 0 ≠ .other) (h1 : b 1 ≠ .other) (split : Bool) (threads : Nat) (hT : 0 < threads) (mk : Nat → Bool)
    (dt : ℝ) (hdt : 0 ≤ dt) (hdx : 0 < E.dx) (u u' : Iter.Mem) (i : Nat) (hi : i < E.nx) (hk : mk i = true)
    (hu : ∀ j < E.nx, Seen E b i j → 0 < u (j * c.V)) (hrun : RunsAt E b split mk dt u i)
    (hcfl : ∀ q, StateAt E b split dt u i q → dt * speed c E.P q 0 < E.dx)
    (hm : MovesMasked E b split threads mk dt u u') : 0 < u' (i * c.V) := by
  have hV := Iter.V_ge c hv
  let v : Fin c.V := ⟨0, by omega⟩
  let m : Fin c.V := ⟨2, by omega⟩
  have q0 := quiet_mass E hv hE dt v rfl
  have hB : ∀ d q x, E.sys.bdot d q x v = 0 := fun d q x => gpr_conservative_components c hv E.P E.src E.junk v (show (0 : Nat) < 5 by omega) d q x
  obtain ⟨ub, w', rec, mask, wt, sources, hp, hwt, hw0, hst, hc⟩ := masked_first E W undef it tol hv hE hX b h0 h1 split threads hT mk dt u u' i hi
    hk hrun hm
  have := (hc v q0).2.2
  change u' (i * c.V + 0) = _ at this
  rw [Nat.add_zero] at this
  rw [this, hfl]
  refine line_keeps hE.tab E.sys E.P wt dt hwt (hw0 hdt) E.dx hdx sources rec E.nx mask w' i hi v rfl m rfl hB (fun q => q0.src _) (fun g g1 g2 => ?_)
    (fun g g1 g2 => hcfl _ (hst g g1 g2).1) ((hc v q0).1.trans (hc v q0).2.1.symm)
  rw [(hst g g1 g2).2.1 v q0]
  obtain ⟨j, hj, hs, e⟩ := pads1_quiet_seen E hE hds b h0 h1 u ub hp v (Or.inl rfl) i hi g g1 g2
  rw [e]
  exact hu j hj hs

end first

end

end Verif.Run
