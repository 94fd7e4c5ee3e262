import Verif.Run.Column

/-! # Runs on periodic grids commute with shifts of the grid -/

namespace Verif.Run

open Verif.Step Verif.Dg Verif.Fv Verif.Sys Verif.Iter Verif.Grid

noncomputable section

variable {c : Sys.Cfg} {n : Nat} (E : Env c n)

/-! ### Finite volumes -/

/-- What happens to a cell depends on its block and those of its four neighbours only. -/
theorem fv2_at_move {A D R : Type} (K : Kern A D R) (rec rec' : Nat → R) (nx nx' ny ny' nt : Nat) (mask mask' : Nat → Bool)
    (x x' y y' : Nat) (hx : x < nx) (hx' : x' < nx') (hy : y < ny) (hy' : y' < ny')
    (hm : ∀ p q, p ≤ 2 → q ≤ 2 → p = 1 ∨ q = 1 →
      mask (cell (x + p) (y + q) (ny + 2)) = mask' (cell (x' + p) (y' + q) (ny' + 2)))
    (hr : ∀ p q, p ≤ 2 → q ≤ 2 → p = 1 ∨ q = 1 → ∀ t, t < nt → mask (cell (x + p) (y + q) (ny + 2)) = true →
      rec (ind3 (x + p) (y + q) t (ny + 2) nt) = rec' (ind3 (x' + p) (y' + q) t (ny' + 2) nt)) :
    at' (cell x y ny) (fv2 K rec nx ny nt mask) = at' (cell x' y' ny') (fv2 K rec' nx' ny' nt mask') := by
  rw [fv2_at K rec nx ny nt mask x y hx hy, fv2_at K rec' nx' ny' nt mask' x' y' hx' hy']
  have h0 := hm 0 1 (by omega) (by omega) (by omega)
  have h1 := hm 1 1 (by omega) (by omega) (by omega)
  have h2 := hm 2 1 (by omega) (by omega) (by omega)
  have h3 := hm 1 0 (by omega) (by omega) (by omega)
  have h4 := hm 1 2 (by omega) (by omega) (by omega)
  simp only [Nat.add_zero] at h0 h3
  congr 1
  · refine flatMap_congr' _ _ _ fun t ht => ?_
    have ht := List.mem_range.mp ht
    rw [← h1]
    split
    · next h => rw [hr 1 1 (by omega) (by omega) (by omega) t ht h]
    · rfl
  · refine flatMap_congr' _ _ _ fun t ht => ?_
    have ht := List.mem_range.mp ht
    rw [← h0, ← h1, ← h2, ← h3, ← h4]
    have r0 := hr 0 1 (by omega) (by omega) (by omega) t ht
    have r1 := hr 1 1 (by omega) (by omega) (by omega) t ht
    have r2 := hr 2 1 (by omega) (by omega) (by omega) t ht
    have r3 := hr 1 0 (by omega) (by omega) (by omega) t ht
    have r4 := hr 1 2 (by omega) (by omega) (by omega) t ht
    simp only [Nat.add_zero] at r0 r3
    congr 1
    congr 1
    congr 1
    · split
      · next h => rw [Bool.and_eq_true] at h; rw [r0 h.1, r1 h.2]
      · rfl
    · split
      · next h => rw [Bool.and_eq_true] at h; rw [r3 h.1, r1 h.2]
      · rfl
    · split
      · next h => rw [Bool.and_eq_true] at h; rw [r1 h.1, r2 h.2]
      · rfl
    · split
      · next h => rw [Bool.and_eq_true] at h; rw [r1 h.1, r4 h.2]
      · rfl

/-! ### Padding -/

/-- Periodic on all sides. -/
def allPeriodic : Nat → BT := fun _ => .periodic

theorem src_periodic (N nx k : Nat) (hN : N ≤ nx) (hk : k < nx + 2 * N) :
    srcOf N .periodic .periodic nx k = (k + nx - N) % nx := by
  unfold srcOf
  split_ifs with h1 h2
  · simp only
    exact (Nat.mod_eq_of_lt (by omega)).symm
  · rw [show k + nx - N = k - N + nx by omega, Nat.add_mod_right, Nat.mod_eq_of_lt (by omega)]
  · simp only
    rw [show k + nx - N = k - N - nx + nx + nx by omega, Nat.add_mod_right, Nat.add_mod_right, Nat.mod_eq_of_lt (by omega)]

theorem src_shift (N nx k x r : Nat) (hN : N ≤ nx) (hx : x < nx) (hr : r ≤ 2 * N) :
    (srcOf N .periodic .periodic nx (x + r) + k) % nx = srcOf N .periodic .periodic nx ((x + k) % nx + r) := by
  have := Nat.mod_lt (x + k) (show 0 < nx by omega)
  rw [src_periodic N nx _ hN (by omega), src_periodic N nx _ hN (by omega), Nat.mod_add_mod,
    show (x + k) % nx + r + nx - N = (x + k) % nx + (r + nx - N) by omega, Nat.mod_add_mod]
  congr 1
  omega

theorem ghost_periodic (ds : Option (Grid.Cell ℝ → Grid.Cell ℝ)) (d : Nat) (nx k : Nat) (q : Grid.Cell ℝ) :
    ghostOf ⟨n, ds⟩ d .periodic .periodic nx k q = q := ghost_open ds d _ _ (Or.inr rfl) (Or.inr rfl) nx k q

theorem pads_shift1 (hE : E.Ok) (k : Nat) (u w : Iter.Mem) (h : Copies c E.nx (fun i => (i + k) % E.nx) u w)
    (ub wb : Nat → Fin c.V → ℝ) (hu : Pads1 E allPeriodic u ub) (hw : Pads1 E allPeriodic w wb) (x : Nat) (hx : x < E.nx)
    (r : Nat) (hr : r ≤ 2 * n) : ub (x + r) = wb ((x + k) % E.nx + r) := by
  obtain ⟨old, m', hm, hub⟩ := hu
  obtain ⟨old1, m1', hm1, hwb⟩ := hw
  have hN := hE.wide.1
  have hn := hE.tab.pos
  obtain ⟨m'', e, a, -⟩ := Grid.boundaries_1d ⟨n, E.destress⟩ E.nx .periodic .periodic (memOf c u old) hN (by decide) (by decide)
  obtain ⟨m1'', e1, a1, -⟩ := Grid.boundaries_1d ⟨n, E.destress⟩ E.nx .periodic .periodic (memOf c w old1) hN (by decide) (by decide)
  have hm' := hm.symm.trans e
  cases hm'
  have hm1' := hm1.symm.trans e1
  cases hm1'
  funext v
  have hx' := Nat.mod_lt (x + k) (show 0 < E.nx by omega)
  rw [hub, hwb, a _ (show x + r < E.nx + 2 * n by omega), a1 _ (show (x + k) % E.nx + r < E.nx + 2 * n by omega),
    ghost_periodic, ghost_periodic]
  have s1 := srcOf_lt (b0 := .periodic) (b1 := .periodic) hN (by omega) (show x + r < E.nx + 2 * n by omega)
  have := h _ s1 v v.2
  simp only [src_shift n E.nx k x r hN hx hr] at this
  exact this

/-- A shift of the plane. -/
def shift2 (nx ny k l i : Nat) : Nat := cell ((i / ny + k) % nx) ((i % ny + l) % ny) ny

theorem pads_shift2 (hE : E.Ok) (k l : Nat) (u w : Iter.Mem) (h : Copies c (E.nx * E.ny) (shift2 E.nx E.ny k l) u w)
    (ub wb : Nat → Fin c.V → ℝ) (hu : Pads2 E allPeriodic u ub) (hw : Pads2 E allPeriodic w wb) (x : Nat) (hx : x < E.nx)
    (y : Nat) (hy : y < E.ny) (r s : Nat) (hr : r ≤ 2 * n) (hs : s ≤ 2 * n) :
    ub ((x + r) * (E.ny + 2 * n) + (y + s)) = wb (((x + k) % E.nx + r) * (E.ny + 2 * n) + ((y + l) % E.ny + s)) := by
  obtain ⟨old, m', hm, hub⟩ := hu
  obtain ⟨old1, m1', hm1, hwb⟩ := hw
  obtain ⟨hN, hM⟩ := hE.wide
  have hn := hE.tab.pos
  obtain ⟨m'', e, a, -⟩ := Grid.boundaries_2d ⟨n, E.destress⟩ E.nx E.ny .periodic .periodic .periodic .periodic (memOf c u old) hN hM
    (by decide) (by decide) (by decide) (by decide)
  obtain ⟨m1'', e1, a1, -⟩ := Grid.boundaries_2d ⟨n, E.destress⟩ E.nx E.ny .periodic .periodic .periodic .periodic (memOf c w old1) hN
    hM (by decide) (by decide) (by decide) (by decide)
  have hm' := hm.symm.trans e
  cases hm'
  have hm1' := hm1.symm.trans e1
  cases hm1'
  funext v
  have hx' := Nat.mod_lt (x + k) (show 0 < E.nx by omega)
  have hy' := Nat.mod_lt (y + l) (show 0 < E.ny by omega)
  rw [hub, hwb, a _ (show x + r < E.nx + 2 * n by omega) _ (show y + s < E.ny + 2 * n by omega),
    a1 _ (show (x + k) % E.nx + r < E.nx + 2 * n by omega) _ (show (y + l) % E.ny + s < E.ny + 2 * n by omega),
    ghost_periodic, ghost_periodic, ghost_periodic, ghost_periodic]
  have s1 := srcOf_lt (b0 := .periodic) (b1 := .periodic) hN (by omega) (show x + r < E.nx + 2 * n by omega)
  have s2 := srcOf_lt (b0 := .periodic) (b1 := .periodic) hM (by omega) (show y + s < E.ny + 2 * n by omega)
  have := h _ (Grid.flat_lt s1 s2) v v.2
  obtain ⟨d1, d2⟩ := cell_div E.ny (srcOf n .periodic .periodic E.nx (x + r)) _ s2
  unfold cell at d1 d2
  simp only [shift2, d1, d2, src_shift n E.nx k x r hN hx hr, src_shift n E.ny l y s hM hy hs] at this
  exact this

/-! ### One call of the steppers -/

theorem gap_zero {A : Type} (coef : Coef n A) (f : Nat → A) (m i : Nat) (hi : i < m) : weno1G coef f (m : Int) 0 i =
    coef true true (decide (n > 2)) (decide (n > 2) && decide (n % 2 = 0)) fun r => f (i + r) := weno1G_gap_zero coef f m i hi

theorem weno_shift1 {A : Type} (coef : Coef n A) (ub wb : Nat → A) (nx x x' p : Nat) (hx : x < nx) (hx' : x' < nx) (hp : p ≤ 2)
    (h : ∀ r ≤ 2 * n, ub (x + r) = wb (x' + r)) :
    weno1G coef ub ((nx + 2 : Nat) : Int) 0 (x + p) = weno1G coef wb ((nx + 2 : Nat) : Int) 0 (x' + p) := by
  rw [gap_zero coef _ (nx + 2) _ (by omega), gap_zero coef _ (nx + 2) _ (by omega)]
  congr 1
  funext r
  have := r.2
  rw [Nat.add_assoc, Nat.add_assoc]
  exact h _ (by omega)

theorem weno_shift2 {A : Type} (coef : Coef n A) (ub wb : Nat → A) (nx ny x x' y y' p q : Nat) (hn : 0 < n) (hx : x < nx)
    (hx' : x' < nx) (hy : y < ny) (hy' : y' < ny) (hp : p ≤ 2) (hq : q ≤ 2)
    (h : ∀ r ≤ 2 * n, ∀ s ≤ 2 * n, ub ((x + r) * (ny + 2 * n) + (y + s)) = wb ((x' + r) * (ny + 2 * n) + (y' + s))) :
    weno2G coef false ub (nx + 2) (ny + 2) (x + p) (y + q) = weno2G coef false wb (nx + 2) (ny + 2) (x' + p) (y' + q) := by
  have hW : ny + 2 + 2 * (n - 1) = ny + 2 * n := by omega
  funext ii jj
  simp only [weno2G, Bool.false_and, Bool.false_eq_true, if_false, hW]
  rw [gap_zero coef _ (ny + 2) _ (by omega), gap_zero coef _ (ny + 2) _ (by omega)]
  congr 1
  funext s
  rw [gap_zero coef _ (nx + 2) _ (by omega), gap_zero coef _ (nx + 2) _ (by omega)]
  congr 1
  funext r
  have := r.2
  have := s.2
  rw [Nat.add_assoc, Nat.add_assoc, Nat.add_assoc, Nat.add_assoc]
  exact h _ (by omega) _ (by omega)

/-- **One call of the steppers on a periodic line commutes with shifts**, whatever the predictor and the half step do in a
cell. -/
theorem moves_shift1 (hE : E.Ok) (k : Nat) (split : Bool) (threads threads' : Nat) (hT : 0 < threads) (hT' : 0 < threads')
    (dt : ℝ) (u w u' w' : Iter.Mem) (h : Copies c E.nx (fun i => (i + k) % E.nx) u w)
    (hset : split = false → Settles E allPeriodic dt w) (hu : MovesLine E allPeriodic split threads dt u u')
    (hw : MovesLine E allPeriodic split threads' dt w w') : Copies c E.nx (fun i => (i + k) % E.nx) u' w' := by
  have hn := hE.tab.pos
  have hx0 : 0 < E.nx := by have := hE.wide.1; omega
  obtain ⟨ub, maskb, hp, hu⟩ := hu
  obtain ⟨wb, maskw, hq, hw⟩ := hw
  have hpad := pads_shift1 E hE k u w h ub wb hp hq
  have hM := mask1_true E.nx hx0 maskb
  have hM' := mask1_true E.nx hx0 maskw
  have cells : ∀ x < E.nx, cellsOf c u x = cellsOf c w ((x + k) % E.nx) := fun x hx => funext fun v => h x hx v v.2
  suffices hcell : ∀ x < E.nx, ∀ v : Fin c.V, u' (x * c.V + v) = w' ((x + k) % E.nx * c.V + v) from
    fun i hi k' hk' => hcell i hi ⟨k', hk'⟩
  intro x hx v
  have hx' := Nat.mod_lt (x + k) hx0
  set x' := (x + k) % E.nx with hx'def
  have hm : ∀ p, p ≤ 2 → Grid.extendMask1 E.nx (fun _ => true) maskb (x + p) = Grid.extendMask1 E.nx (fun _ => true) maskw (x' + p) :=
    fun p hp => by rw [hM _ (by omega), hM' _ (by omega)]
  cases split
  · obtain ⟨l, gar, hl, e⟩ := hu
    obtain ⟨l', gar', hl', e'⟩ := hw
    have hs' := hset rfl wb hq
    have hs : ∀ i < E.nx + 2, (E.pred1 dt (weno1G E.coef ub ((E.nx + 2 : Nat) : Int) 0 i)).isSome := by
      intro i hi
      obtain ⟨a, p, ha, hp, rfl⟩ : ∃ a p, a < E.nx ∧ p ≤ 2 ∧ i = a + p := by
        by_cases h : i < E.nx
        · exact ⟨i, 0, h, by omega, rfl⟩
        · exact ⟨E.nx - 1, i - (E.nx - 1), by omega, by omega, by omega⟩
      have ha' := Nat.mod_lt (a + k) hx0
      rw [weno_shift1 E.coef ub wb E.nx a _ p ha ha' hp (hpad a ha)]
      exact hs' _ (by omega)
    rw [e x hx v, e' x' hx' v, ader_para1 _ (E.pred1 dt) _ ub E.nx _ threads hT (gar 0) gar (fun i hi _ => hs i hi) l hl,
      ader_para1 _ (E.pred1 dt) _ wb E.nx _ threads' hT' (gar' 0) gar' (fun i hi _ => hs' i hi) l' hl']
    rw [apply_get, apply_get, cells x hx]
    unfold ader1
    rw [fv1_at_congr _ _ _ E.nx E.nx n _ _ x x' hx hx' hm]
    intro p hp t ht hmask
    have d1 : ∀ a, ind2 a t n / n = a ∧ ind2 a t n % n = t := fun a => by
      unfold ind2
      constructor
      · rw [Nat.mul_comm, Nat.mul_add_div hn, Nat.div_eq_of_lt ht, Nat.add_zero]
      · rw [Nat.mul_comm, Nat.mul_add_mod, Nat.mod_eq_of_lt ht]
    obtain ⟨r, hr⟩ := Option.isSome_iff_exists.1 (hs' (x' + p) (by omega))
    simp only [(d1 _).1, (d1 _).2, weno_shift1 E.coef ub wb E.nx x x' p hx hx' hp (hpad x hx), hr, hM (x + p) (by omega),
      hM' (x' + p) (by omega), orGarbage, if_true, Option.getD_some]
  · obtain ⟨l, hl, e⟩ := hu
    obtain ⟨l', hl', e'⟩ := hw
    rw [e x hx v, e' x' hx' v, split_para1 _ (E.ode dt) E.half (E.mid1 dt) (fun q => q) _ ub E.nx _ threads hT l hl,
      split_para1 _ (E.ode dt) E.half (E.mid1 dt) (fun q => q) _ wb E.nx _ threads' hT' l' hl']
    unfold split1
    rw [split_get _ _ _ _ _ _ hx, split_get _ _ _ _ _ _ hx', apply_get, apply_get, cells x hx]
    rw [fv1_at_congr _ _ _ E.nx E.nx 1 _ _ x x' hx hx' hm]
    intro p hp t ht hmask
    obtain rfl : t = 0 := by omega
    simp only [ind2, Nat.mul_one, Nat.add_zero, hM (x + p) (by omega), hM' (x' + p) (by omega),
      weno_shift1 E.coef (fun r => E.ode dt (ub r)) (fun r => E.ode dt (wb r)) E.nx x x' p hx hx' hp
        (fun r hr => congrArg (E.ode dt) (hpad x hx r hr))]

/-- The predictor comes to an end within `DG_IT` iterations in every cell of the plane. -/
def Settles2 (b : Nat → BT) (dt : ℝ) (u : Iter.Mem) : Prop := ∀ ub, Pads2 E b u ub → ∀ i < E.nx + 2, ∀ j < E.ny + 2,
  (E.pred2 dt (weno2G E.coef false ub (E.nx + 2) (E.ny + 2) i j)).isSome

theorem around (m i : Nat) (h0 : 0 < m) (hi : i < m + 2) : ∃ a p, a < m ∧ p ≤ 2 ∧ i = a + p := by
  by_cases h : i < m
  · exact ⟨i, 0, h, by omega, rfl⟩
  · exact ⟨m - 1, i - (m - 1), by omega, by omega, by omega⟩

/-- **One call of the steppers on a periodic plane commutes with shifts**, without `NO_CORNERS`. -/
theorem moves_shift2 (hE : E.Ok) (k l : Nat) (split : Bool) (threads threads' : Nat) (hT : 0 < threads) (hT' : 0 < threads')
    (dt : ℝ) (u w u' w' : Iter.Mem) (h : Copies c (E.nx * E.ny) (shift2 E.nx E.ny k l) u w)
    (hset : split = false → Settles2 E allPeriodic dt w) (hu : MovesPlane E allPeriodic false split threads dt u u')
    (hw : MovesPlane E allPeriodic false split threads' dt w w') : Copies c (E.nx * E.ny) (shift2 E.nx E.ny k l) u' w' := by
  have hn := hE.tab.pos
  have hx0 : 0 < E.nx := by have := hE.wide.1; omega
  have hy0 : 0 < E.ny := by have := hE.wide.2; omega
  obtain ⟨ub, maskb, hp, hu⟩ := hu
  obtain ⟨wb, maskw, hq, hw⟩ := hw
  have hpad := pads_shift2 E hE k l u w h ub wb hp hq
  have hM := mask2_true E.nx E.ny hx0 hy0 maskb
  have hM' := mask2_true E.nx E.ny hx0 hy0 maskw
  have cells : ∀ x < E.nx, ∀ y < E.ny, cellsOf c u (cell x y E.ny) =
      cellsOf c w (cell ((x + k) % E.nx) ((y + l) % E.ny) E.ny) := by
    intro x hx y hy
    funext v
    have := h _ (cell_lt hx hy) v v.2
    simp only [shift2, (cell_div E.ny x y hy).1, (cell_div E.ny x y hy).2] at this
    exact this
  suffices hcell : ∀ x < E.nx, ∀ y < E.ny, ∀ v : Fin c.V, u' (cell x y E.ny * c.V + v) =
      w' (cell ((x + k) % E.nx) ((y + l) % E.ny) E.ny * c.V + v) by
    intro i hi k' hk'
    have hx : i / E.ny < E.nx := (Nat.div_lt_iff_lt_mul hy0).2 hi
    have := hcell _ hx _ (Nat.mod_lt i hy0) ⟨k', hk'⟩
    rw [show cell (i / E.ny) (i % E.ny) E.ny = i from Nat.div_add_mod' i E.ny] at this
    exact this
  intro x hx y hy v
  have hx' := Nat.mod_lt (x + k) hx0
  have hy' := Nat.mod_lt (y + l) hy0
  have hpad' := hpad x hx y hy
  have hcells := cells x hx y hy
  set x' := (x + k) % E.nx with hx'def
  set y' := (y + l) % E.ny with hy'def
  have hm : ∀ p q, p ≤ 2 → q ≤ 2 → p = 1 ∨ q = 1 →
      Grid.extendMask2 E.nx E.ny (fun _ => true) maskb (cell (x + p) (y + q) (E.ny + 2)) =
        Grid.extendMask2 E.nx E.ny (fun _ => true) maskw (cell (x' + p) (y' + q) (E.ny + 2)) := by
    intro p q hp hq hpq
    rw [hM _ _ ⟨by omega, by omega, by omega⟩, hM' _ _ ⟨by omega, by omega, by omega⟩]
  cases split
  · obtain ⟨L, gar, hl, e⟩ := hu
    obtain ⟨L', gar', hl', e'⟩ := hw
    have hs' := hset rfl wb hq
    have hs : ∀ i < E.nx + 2, ∀ j < E.ny + 2, (E.pred2 dt (weno2G E.coef false ub (E.nx + 2) (E.ny + 2) i j)).isSome := by
      intro i hi j hj
      obtain ⟨a, p, ha, hp, rfl⟩ := around E.nx i hx0 hi
      obtain ⟨b, q, hb, hq, rfl⟩ := around E.ny j hy0 hj
      have ha' := Nat.mod_lt (a + k) hx0
      have hb' := Nat.mod_lt (b + l) hy0
      rw [weno_shift2 E.coef ub wb E.nx E.ny a _ b _ p q hn ha ha' hb hb' hp hq
        fun r hr s hs => hpad a ha b hb r s hr hs]
      exact hs' _ (by omega) _ (by omega)
    rw [e _ (cell_lt hx hy) v, e' _ (cell_lt hx' hy') v,
      ader_para2_partial hn _ (E.pred2 dt) _ ub E.nx E.ny _ threads hT (gar 0) gar (fun i j hi hj _ => hs i hi j hj) L hl,
      ader_para2_partial hn _ (E.pred2 dt) _ wb E.nx E.ny _ threads' hT' (gar' 0) gar' (fun i j hi hj _ => hs' i hi j hj) L' hl']
    rw [apply_get, apply_get, hcells]
    unfold ader2
    rw [fv2_at_move _ _ _ E.nx E.nx E.ny E.ny n _ _ x x' y y' hx hx' hy hy' hm]
    intro p q hp hq hpq t ht hmask
    have d1 : ∀ a, (a * n + t) / n = a ∧ (a * n + t) % n = t := fun a => by
      constructor
      · rw [Nat.mul_comm, Nat.mul_add_div hn, Nat.div_eq_of_lt ht, Nat.add_zero]
      · rw [Nat.mul_comm, Nat.mul_add_mod, Nat.mod_eq_of_lt ht]
    have i3 : ∀ a b, ind3 a b t (E.ny + 2) n = cell a b (E.ny + 2) * n + t := fun _ _ => rfl
    obtain ⟨c1, c2⟩ := cell_div (E.ny + 2) (x + p) (y + q) (by omega)
    obtain ⟨c1', c2'⟩ := cell_div (E.ny + 2) (x' + p) (y' + q) (by omega)
    obtain ⟨r, hr⟩ := Option.isSome_iff_exists.1 (hs' (x' + p) (by omega) (y' + q) (by omega))
    simp only [i3, (d1 _).1, (d1 _).2, c1, c2, c1', c2', weno_shift2 E.coef ub wb E.nx E.ny x x' y y' p q hn hx hx' hy hy' hp hq
      fun r hr s hs => hpad' r s hr hs, hr, hM (x + p) (y + q) ⟨by omega, by omega, by omega⟩,
      hM' (x' + p) (y' + q) ⟨by omega, by omega, by omega⟩, orGarbage, if_true, Option.getD_some]
  · obtain ⟨L, hl, e⟩ := hu
    obtain ⟨L', hl', e'⟩ := hw
    rw [e _ (cell_lt hx hy) v, e' _ (cell_lt hx' hy') v,
      split_para2_partial hn _ (E.ode dt) E.half (E.mid2 dt) E.block _ ub E.nx E.ny _ threads hT L hl,
      split_para2_partial hn _ (E.ode dt) E.half (E.mid2 dt) E.block _ wb E.nx E.ny _ threads' hT' L' hl']
    unfold split2
    rw [split_get _ _ _ _ _ _ (cell_lt hx hy), split_get _ _ _ _ _ _ (cell_lt hx' hy'), apply_get, apply_get, hcells]
    rw [fv2_at_move _ _ _ E.nx E.nx E.ny E.ny 1 _ _ x x' y y' hx hx' hy hy' hm]
    intro p q hp hq hpq t ht hmask
    obtain rfl : t = 0 := by omega
    have i3 : ∀ a b, ind3 a b 0 (E.ny + 2) 1 = cell a b (E.ny + 2) := fun a b => by unfold ind3 cell; ring
    obtain ⟨c1, c2⟩ := cell_div (E.ny + 2) (x + p) (y + q) (by omega)
    obtain ⟨c1', c2'⟩ := cell_div (E.ny + 2) (x' + p) (y' + q) (by omega)
    simp only [i3, c1, c2, c1', c2', weno_shift2 E.coef (fun r => E.ode dt (ub r)) (fun r => E.ode dt (wb r)) E.nx E.ny x x' y y' p q
      hn hx hx' hy hy' hp hq fun r hr s hs => congrArg (E.ode dt) (hpad' r s hr hs),
      hM (x + p) (y + q) ⟨by omega, by omega, by omega⟩, hM' (x' + p) (y' + q) ⟨by omega, by omega, by omega⟩]

/-! ### Planes with `NO_CORNERS` -/

theorem sum_turn (n k : Nat) (f : Nat → ℝ) : ∑ x ∈ Finset.range n, f ((x + k) % n) = ∑ x ∈ Finset.range n, f x := by
  induction k with
  | zero => exact Finset.sum_congr rfl fun x hx => by rw [Nat.add_zero, Nat.mod_eq_of_lt (Finset.mem_range.1 hx)]
  | succ k ih =>
    rw [← ih]
    rcases n with _ | m
    · rfl
    · rw [Finset.sum_range_succ, Finset.sum_range_succ' (fun x => f ((x + k) % (m + 1)))]
      congr 1
      · exact Finset.sum_congr rfl fun x _ => by rw [show x + (k + 1) = x + 1 + k by omega]
      · rw [show m + (k + 1) = 0 + k + (m + 1) by omega, Nat.add_mod_right]

/-- A shift leaves totals alone. -/
theorem total_shift (nx ny k l : Nat) (u w : Iter.Mem) (h : Copies c (nx * ny) (shift2 nx ny k l) u w) (v : Nat)
    (hv : v < c.V) : total c (nx * ny) u v = total c (nx * ny) w v := by
  unfold total
  rw [sum_cells nx ny fun i => u (i * c.V + v), sum_cells nx ny fun i => w (i * c.V + v),
    ← sum_turn nx k fun x => ∑ y ∈ Finset.range ny, w (cell x y ny * c.V + v)]
  refine Finset.sum_congr rfl fun x hx => ?_
  rw [← sum_turn ny l fun y => w (cell ((x + k) % nx) y ny * c.V + v)]
  refine Finset.sum_congr rfl fun y hy' => ?_
  have hx := Finset.mem_range.1 hx
  have hy' := Finset.mem_range.1 hy'
  have := h _ (cell_lt hx hy') v hv
  simpa only [shift2, (cell_div ny x y hy').1, (cell_div ny x y hy').2] using this

/-- **With the shipped `NO_CORNERS = true` steps on planes do not commute with shifts.**  Six or more rows of two cells at
densities 2, 3, 1, 1, …, 1 and the same plane shifted by two rows, 1, 1, 2, 3, 1, …, 1, both periodic on all sides: after
one call of `split_stepper` with the same step the results are not shifts of one another by two rows, whatever the step, the
mesh and the speeds that Rusanov's flux uses. -/
theorem shift_corners_false (nx : Nat) (hn : 6 ≤ nx) {T : Tab 2} (W : Weno.Setup 2) (undef : ℝ) (mae : St → Fin 3 → ℝ)
    (dx dy : ℝ) (h : T.Ok) (hW : W.Clean) (hx : W.x = T.nodes) (dt : ℝ) (hdx : dx ≠ 0) (hdt : dt ≠ 0) :
    let E := planeEnv nx T W undef mae dx dy
    let u := planeField nx (nx - 2)
    let w := planeField nx 0
    let φ := shift2 nx 2 (nx - 2) 0
    let K := kern2 E.sys E.T E.fl (fun _ => dt) E.dx E.dy false
    let mask := fun maskb => Grid.extendMask2 E.nx E.ny (fun _ => true) maskb
    let mid := fun ub maskb f => before2 E.coef true (E.ode dt) E.half (E.mid2 dt) E.block K ub E.nx E.ny (mask maskb) f
    let out := fun ub maskb f =>
      apply (withOde (E.ode dt) K.app) (split2 E.coef true (E.ode dt) E.half (E.mid2 dt) E.block K ub E.nx E.ny (mask maskb)) f
    Copies lineCfg (nx * 2) φ u w ∧ (∃ ub wb, Pad2 E u ub ∧ Pad2 E w wb) ∧
    ∀ ub wb, Pad2 E u ub → Pad2 E w wb → ∀ maskb maskw,
      (∃ i < nx * 2, mid ub maskb (cellsOf lineCfg u) i ≠ mid wb maskw (cellsOf lineCfg w) (φ i)) ∧
      ((∀ i < nx * 2, E.Number dt (mid ub maskb (cellsOf lineCfg u) i)) →
        (∀ i < nx * 2, E.Number dt (mid wb maskw (cellsOf lineCfg w) i)) → ∀ u' w' : Iter.Mem,
        (∀ i < nx * 2, ∀ v : Fin lineCfg.V, u' (i * lineCfg.V + v) = out ub maskb (cellsOf lineCfg u) i v) →
        (∀ i < nx * 2, ∀ v : Fin lineCfg.V, w' (i * lineCfg.V + v) = out wb maskw (cellsOf lineCfg w) i v) →
        ¬ Copies lineCfg (nx * 2) φ u' w') := by
  intro E u w φ K mask mid out
  have hc : Copies lineCfg (nx * 2) φ u w := by
    intro i hi k hk
    change k < 14 at hk
    change planeField nx (nx - 2) (i * 14 + k) = planeField nx 0 (shift2 nx 2 (nx - 2) 0 i * 14 + k)
    have hm : shift2 nx 2 (nx - 2) 0 i / 2 = (i / 2 + (nx - 2)) % nx := by
      unfold shift2 cell
      omega
    unfold planeField
    rw [show (i * 14 + k) % 14 = k by omega, show ∀ a, (a * 14 + k) % 14 = k from fun a => by omega,
      show (i * 14 + k) / 14 = i by omega, show ∀ a, (a * 14 + k) / 14 = a from fun a => by omega, hm, Nat.add_zero, Nat.mod_mod]
  have pads : ∀ sh, ∃ ub, Pad2 E (planeField nx sh) ub := by
    intro sh
    obtain ⟨m', hm, -⟩ := Grid.boundaries_periodic ⟨2, none⟩ nx 2 (memOf lineCfg (planeField nx sh) fun _ _ => 0)
      (by simp only; omega) (by decide)
    exact ⟨fun k v => m' (true, k) v, fun _ _ => 0, m', hm, fun _ _ => rfl⟩
  obtain ⟨ub0, h0⟩ := pads (nx - 2)
  obtain ⟨wb0, h1⟩ := pads 0
  refine ⟨hc, ⟨ub0, wb0, h0, h1⟩, fun ub wb hu hw maskb maskw => ?_⟩
  obtain ⟨k1, k2⟩ := corners_keep nx W undef mae dx dy hn h hW hx dt ub maskb hu
  obtain ⟨l1, l2⟩ := leak_of_pad nx W undef mae dx dy (by omega) h hW hx dt hdx hdt wb maskw hw
  have hT := total_shift nx 2 (nx - 2) 0 u w hc 4 (show 4 < lineCfg.V by decide)
  refine ⟨?_, fun nu nw u' w' hu' hw' hcc => ?_⟩
  · by_contra hno
    push Not at hno
    have e := total_shift (c := lineCfg) nx 2 (nx - 2) 0
      (memOfCells lineCfg (by decide) (mid ub maskb (cellsOf lineCfg u)))
      (memOfCells lineCfg (by decide) (mid wb maskw (cellsOf lineCfg w)))
      (fun i hi k hk => by
        rw [memOfCells_get _ _ _ ⟨k, hk⟩, memOfCells_get _ _ _ ⟨k, hk⟩]
        exact congrFun (hno i hi) ⟨k, hk⟩) 4 (show 4 < lineCfg.V by decide)
    have t : ∀ f : Nat → Fin lineCfg.V → ℝ, total lineCfg (nx * 2) (memOfCells lineCfg (by decide) f) 4 =
        ∑ i ∈ Finset.range (nx * 2), f i ⟨4, by decide⟩ := fun f => by
      unfold total
      exact Finset.sum_congr rfl fun i _ => memOfCells_get _ _ _ ⟨4, by decide⟩
    rw [t, t] at e
    exact l1 (e.symm.trans (k1.trans hT))
  · have e := total_shift nx 2 (nx - 2) 0 u' w' hcc 4 (show 4 < lineCfg.V by decide)
    exact l2 nw w' hw' (e.symm.trans ((k2 nu u' hu').trans hT))

/-! ### Whole runs -/

/-- The time step of a field whose cells are those of another one in another order. -/
theorem timestep_copies (c : Sys.Cfg) (mae : Sys.Par → St → Nat → Option ℝ) (P : Sys.Par) (ncell m : Nat) (φ : Nat → Nat)
    (hφ : ∀ i < ncell, φ i < m) (hs : ∀ j < m, ∃ i < ncell, φ i = j) (u w : Iter.Mem) (h : Copies c ncell φ u w)
    (hloc : ∀ q q' : St, (∀ k < c.V, q k = q' k) → ∀ d, mae P q d = mae P q' d) (dX : List ℝ) (CFL t tf : ℝ) (count : Nat) :
    timestep c mae [u] [fun _ => true] dX CFL t tf count [some P] 1 ncell =
      timestep c mae [w] [fun _ => true] dX CFL t tf count [some P] 1 m := by
  unfold timestep
  congr 2
  obtain ⟨a1, a2, a3⟩ := maxSpeed_spec c mae [u] [fun _ => true] dX [some P] 1 ncell
  obtain ⟨b1, b2, b3⟩ := maxSpeed_spec c mae [w] [fun _ => true] dX [some P] 1 m
  set r := maxSpeed c mae [u] [fun _ => true] dX [some P] 1 ncell
  set r' := maxSpeed c mae [w] [fun _ => true] dX [some P] 1 m
  have hc : ∀ i < ncell, cellSpeed mae dX P (view c u i) = cellSpeed mae dX P (view c w (φ i)) := by
    intro i hi
    unfold cellSpeed
    have e : mae P (view c u i) = mae P (view c w (φ i)) := funext fun d => hloc _ _ (fun k hk => h i hi k hk) d
    rw [e]
  apply le_antisymm
  · rcases a3 with a3 | ⟨mat, ind, P', hL, hs'⟩
    · rw [a3]; exact b1
    · obtain ⟨l1, l2, l3, -⟩ := hL
      obtain rfl : mat = 0 := by omega
      obtain rfl : P = P' := by simpa using l3
      have e : cellSpeed mae dX P (view c u ind) = some r := hs'
      rw [hc ind l2] at e
      exact b2 0 (φ ind) P ⟨Nat.one_pos, hφ ind l2, rfl, rfl⟩ r e
  · rcases b3 with b3 | ⟨mat, ind, P', hL, hs'⟩
    · rw [b3]; exact a1
    · obtain ⟨l1, l2, l3, -⟩ := hL
      obtain rfl : mat = 0 := by omega
      obtain rfl : P = P' := by simpa using l3
      obtain ⟨i, hi, rfl⟩ := hs ind l2
      have e : cellSpeed mae dX P (view c w (φ i)) = some r' := hs'
      rw [← hc i hi] at e
      exact a2 0 i P ⟨Nat.one_pos, hi, rfl, rfl⟩ r' e

/-- The time step of every pass is the one of `timestep`, iterator.cpp:112, for one material. -/
def Timed {W' : Type} (P : Sys.Par) (mae : Sys.Par → St → Nat → Option ℝ) (dX : List ℝ) (CFL : ℝ) (ncell : Nat)
    (b : Body Iter.Mem W') (tf : ℝ) (u0 : Iter.Mem) (w0 : W') : Prop :=
  ∀ m s, Reach b tf u0 w0 m s → s.t < tf →
    timestep c mae [s.u] [fun _ => true] dX CFL s.t tf s.count [some P] 1 ncell = .fin (b.step s.u s.w s.t s.count).2.2

/-- Two runs whose steppers and ends of passes keep a rearrangement of the cells. -/
theorem run_copies {W1 W2 : Type} (F : Tail c) (hv : c.viscous = true) (φ : Nat → Nat) (hφ : ∀ i < F.ncell, φ i < F.ncell)
    (hs : ∀ j < F.ncell, ∃ i < F.ncell, φ i = j) (P : Sys.Par) (mae : Sys.Par → St → Nat → Option ℝ)
    (hloc : ∀ q q' : St, (∀ k < c.V, q k = q' k) → ∀ d, mae P q d = mae P q' d) (dX : List ℝ) (CFL : ℝ)
    (b : Body Iter.Mem W1) (b' : Body Iter.Mem W2) (tf : ℝ) (u0 u0' : Iter.Mem) (w0 : W1) (w0' : W2)
    (hu0 : Copies c F.ncell φ u0 u0') (ht : Timed (c := c) P mae dX CFL F.ncell b tf u0 w0)
    (ht' : Timed (c := c) P mae dX CFL F.ncell b' tf u0' w0')
    (mv mv' : ℝ → Iter.Mem → Iter.Mem → Prop)
    (hb : ∀ m s, Reach b tf u0 w0 m s → s.t < tf → ∃ u1, mv (b.step s.u s.w s.t s.count).2.2 s.u u1 ∧
      finish F (s.count + 1) u1 = some (b.step s.u s.w s.t s.count).1)
    (hb' : ∀ m s, Reach b' tf u0' w0' m s → s.t < tf → ∃ u1, mv' (b'.step s.u s.w s.t s.count).2.2 s.u u1 ∧
      finish F (s.count + 1) u1 = some (b'.step s.u s.w s.t s.count).1)
    (hmv : ∀ m s s' u1 w1, Reach b' tf u0' w0' m s' → s'.t < tf → Copies c F.ncell φ s s'.u →
      mv (b'.step s'.u s'.w s'.t s'.count).2.2 s u1 → mv' (b'.step s'.u s'.w s'.t s'.count).2.2 s'.u w1 → Copies c F.ncell φ u1 w1)
    (hnan : ∀ u w, Copies c F.ncell φ u w → b.isNaN u = b'.isNaN w) {m : Nat} {s : Vars Iter.Mem W1}
    (hs' : Reach b tf u0 w0 m s) :
    ∃ s', Reach b' tf u0' w0' m s' ∧ Twin (Copies c F.ncell φ) s s' ∧
      ∀ ret v, pass b tf s = .done ret v → ∃ ret' v', pass b' tf s' = .done ret' v' ∧
        ∀ k, Option.Rel (Copies c F.ncell φ) (ret k) (ret' k) := by
  have hk : Keeps b b' tf (Copies c F.ncell φ) u0 w0 u0' w0' := by
    intro m s s' hr hr' htw hlt
    have hlt' : s'.t < tf := htw.t ▸ hlt
    have e1 := ht m s hr hlt
    have e2 := ht' m s' hr' hlt'
    rw [timestep_copies c mae P F.ncell F.ncell φ hφ hs s.u s'.u htw.u hloc, htw.t, htw.count, e2] at e1
    have e : (b'.step s'.u s'.w s'.t s'.count).2.2 = (b.step s.u s.w s.t s.count).2.2 := by
      rw [htw.t, htw.count]
      injection e1
    obtain ⟨u1, a1, a2⟩ := hb m s hr hlt
    obtain ⟨w1, c1, c2⟩ := hb' m s' hr' hlt'
    rw [← e] at a1
    have := finish_copy F hv F.ncell φ hφ hs (s.count + 1) u1 w1 _ _ (hmv m s.u s' u1 w1 hr' hlt' htw.u a1 c1) a2
      (by rw [htw.count]; exact c2)
    exact ⟨this, e.symm⟩
  obtain ⟨s', r1, r2, r3⟩ := runs_twin hnan u0 w0 u0' w0' hu0 hk hs'
  exact ⟨s', r1, r2, fun ret v hd => by
    obtain ⟨ret', v', q1, -, q3⟩ := r3 ret v hd
    exact ⟨ret', v', q1, q3⟩⟩

theorem shift_onto (nx k : Nat) (hx : 0 < nx) (j : Nat) (hj : j < nx) : ∃ i < nx, (i + k) % nx = j := by
  refine ⟨(j + (nx - k % nx)) % nx, Nat.mod_lt _ hx, ?_⟩
  rw [Nat.mod_add_mod]
  have h1 := Nat.div_add_mod' k nx
  have h2 := Nat.mod_lt k hx
  rw [show j + (nx - k % nx) + k = j + (k / nx + 1) * nx by rw [Nat.add_mul]; omega, Nat.add_mul_mod_self_right,
    Nat.mod_eq_of_lt hj]

/-- **Shifted data on a periodic line give the shifted run**: the field after every pass, every snapshot and every slot
returned are those of the other run, shifted by the same number of cells, at the same times. -/
theorem run_shift1 {W1 W2 : Type} (F : Tail c) (hv : c.viscous = true) (hE : E.Ok) (hF : F.ncell = E.nx) (k : Nat) (split : Bool)
    (threads threads' : Nat) (hT : 0 < threads) (hT' : 0 < threads') (mae : Sys.Par → St → Nat → Option ℝ)
    (hloc : ∀ q q' : St, (∀ k < c.V, q k = q' k) → ∀ d, mae E.P q d = mae E.P q' d) (CFL : ℝ)
    (b : Body Iter.Mem W1) (b' : Body Iter.Mem W2) (tf : ℝ) (u0 u0' : Iter.Mem) (w0 : W1) (w0' : W2)
    (hu0 : Copies c E.nx (fun i => (i + k) % E.nx) u0 u0') (ht : Timed (c := c) E.P mae [E.dx] CFL E.nx b tf u0 w0)
    (ht' : Timed (c := c) E.P mae [E.dx] CFL E.nx b' tf u0' w0')
    (hb : FollowsLine E F allPeriodic split threads b tf u0 w0) (hb' : FollowsLine E F allPeriodic split threads' b' tf u0' w0')
    (hset : split = false → ∀ m s', Reach b' tf u0' w0' m s' → s'.t < tf →
      Settles E allPeriodic (b'.step s'.u s'.w s'.t s'.count).2.2 s'.u)
    (hnan : ∀ u w, Copies c E.nx (fun i => (i + k) % E.nx) u w → b.isNaN u = b'.isNaN w) {m : Nat} {s : Vars Iter.Mem W1}
    (hs : Reach b tf u0 w0 m s) :
    ∃ s', Reach b' tf u0' w0' m s' ∧ Twin (Copies c E.nx (fun i => (i + k) % E.nx)) s s' ∧
      ∀ ret v, pass b tf s = .done ret v → ∃ ret' v', pass b' tf s' = .done ret' v' ∧
        ∀ j, Option.Rel (Copies c E.nx (fun i => (i + k) % E.nx)) (ret j) (ret' j) := by
  have hx0 : 0 < E.nx := by have := hE.wide.1; have := hE.tab.pos; omega
  rw [← hF] at hu0 ht ht' hnan hx0 ⊢
  refine run_copies F hv (fun i => (i + k) % F.ncell) (fun i _ => Nat.mod_lt _ hx0) (fun j hj => shift_onto _ k hx0 j hj) E.P mae
    hloc [E.dx] CFL b b' tf u0 u0' w0 w0' hu0 ht ht' (MovesLine E allPeriodic split threads)
    (MovesLine E allPeriodic split threads') hb hb' (fun m s s' u1 w1 hr hlt hc h1 h2 => ?_) hnan hs
  rw [hF] at hc ⊢
  exact moves_shift1 E hE k split threads threads' hT hT' _ s s'.u u1 w1 hc (fun h => hset h m s' hr hlt) h1 h2

/-- **Shifted data on a periodic plane give the shifted run**, without `NO_CORNERS`. -/
theorem run_shift2 {W1 W2 : Type} (F : Tail c) (hv : c.viscous = true) (hE : E.Ok) (hF : F.ncell = E.nx * E.ny) (k l : Nat)
    (split : Bool) (threads threads' : Nat) (hT : 0 < threads) (hT' : 0 < threads') (mae : Sys.Par → St → Nat → Option ℝ)
    (hloc : ∀ q q' : St, (∀ k < c.V, q k = q' k) → ∀ d, mae E.P q d = mae E.P q' d) (CFL : ℝ)
    (b : Body Iter.Mem W1) (b' : Body Iter.Mem W2) (tf : ℝ) (u0 u0' : Iter.Mem) (w0 : W1) (w0' : W2)
    (hu0 : Copies c (E.nx * E.ny) (shift2 E.nx E.ny k l) u0 u0')
    (ht : Timed (c := c) E.P mae [E.dx, E.dy] CFL (E.nx * E.ny) b tf u0 w0)
    (ht' : Timed (c := c) E.P mae [E.dx, E.dy] CFL (E.nx * E.ny) b' tf u0' w0')
    (hb : FollowsPlane E F allPeriodic false split threads b tf u0 w0)
    (hb' : FollowsPlane E F allPeriodic false split threads' b' tf u0' w0')
    (hset : split = false → ∀ m s', Reach b' tf u0' w0' m s' → s'.t < tf →
      Settles2 E allPeriodic (b'.step s'.u s'.w s'.t s'.count).2.2 s'.u)
    (hnan : ∀ u w, Copies c (E.nx * E.ny) (shift2 E.nx E.ny k l) u w → b.isNaN u = b'.isNaN w) {m : Nat}
    {s : Vars Iter.Mem W1} (hs : Reach b tf u0 w0 m s) :
    ∃ s', Reach b' tf u0' w0' m s' ∧ Twin (Copies c (E.nx * E.ny) (shift2 E.nx E.ny k l)) s s' ∧
      ∀ ret v, pass b tf s = .done ret v → ∃ ret' v', pass b' tf s' = .done ret' v' ∧
        ∀ j, Option.Rel (Copies c (E.nx * E.ny) (shift2 E.nx E.ny k l)) (ret j) (ret' j) := by
  have hx0 : 0 < E.nx := by have := hE.wide.1; have := hE.tab.pos; omega
  have hy0 : 0 < E.ny := by have := hE.wide.2; have := hE.tab.pos; omega
  rw [← hF] at hu0 ht ht' hnan ⊢
  refine run_copies F hv (shift2 E.nx E.ny k l) ?_ ?_ E.P mae
    hloc [E.dx, E.dy] CFL b b' tf u0 u0' w0 w0' hu0 ht ht' (MovesPlane E allPeriodic false split threads)
    (MovesPlane E allPeriodic false split threads') hb hb' (fun m s s' u1 w1 hr hlt hc h1 h2 => ?_) hnan hs
  · intro i _
    rw [hF]
    exact cell_lt (Nat.mod_lt _ hx0) (Nat.mod_lt _ hy0)
  · intro j hj
    rw [hF] at hj ⊢
    obtain ⟨a, ha, ea⟩ := shift_onto E.nx k hx0 (j / E.ny) ((Nat.div_lt_iff_lt_mul hy0).2 hj)
    obtain ⟨b, hb, eb⟩ := shift_onto E.ny l hy0 (j % E.ny) (Nat.mod_lt _ hy0)
    refine ⟨cell a b E.ny, cell_lt ha hb, ?_⟩
    unfold shift2
    rw [(cell_div E.ny a b hb).1, (cell_div E.ny a b hb).2, ea, eb]
    exact Nat.div_add_mod' j E.ny
  · rw [hF] at hc ⊢
    exact moves_shift2 E hE k l split threads threads' hT hT' _ s s'.u u1 w1 hc (fun h => hset h m s' hr hlt) h1 h2

/-! ### An example -/

/-- The step length `timestep` returns before the final time. -/
def stepLength (c : Sys.Cfg) (mae : Sys.Par → St → Nat → Option ℝ) (P : Sys.Par) (dX : List ℝ) (CFL : ℝ) (hC : 0 < CFL) (ncell : Nat)
    (tf : ℝ) (u : Iter.Mem) (t : ℝ) (count : Nat) : ℝ :=
  if h : t < tf then (timestep_spec c mae [u] [fun _ => true] dX [some P] CFL t tf count 1 ncell hC h).choose else 0

/-- Any data on a periodic plane of 8 by 6 cells and the same shifted by 3 and 2 cells: with the split scheme, `timestep` and
three threads for the one and one thread for the other, both runs exist, and the one is the other shifted. -/
example (T : Tab 2) (h : T.Ok) (W : Weno.Setup 2)
    (fl : Nat → (Fin lineCfg.V → ℝ) → (Fin lineCfg.V → ℝ) → (Fin lineCfg.V → ℝ)) (u0 u0' : Iter.Mem)
    (hu : Copies lineCfg (8 * 6) (shift2 8 6 3 2) u0 u0') :
    ∃ b b' : Body Iter.Mem Unit, ∀ m s, Reach b 1 u0 () m s →
      ∃ s', Reach b' 1 u0' () m s' ∧ Twin (Copies lineCfg (8 * 6) (shift2 8 6 3 2)) s s' := by
  have hVpos : 0 < lineCfg.V := by have := Iter.V_ge lineCfg rfl; omega
  let E := boxEnv T h W fl (fun _ => .nan) fun _ => .nan
  have hE : E.Ok := ⟨h, ⟨by simp [E, boxEnv], by simp [E, boxEnv]⟩, fun _ => ⟨0, rfl⟩,
    fun A => (Grid.svd_exists A).choose_spec.choose_spec.choose_spec.1⟩
  have hF : boxTail.Ok := ⟨(lineTail_ok 2).svd, (lineTail_ok 2).sv, (lineTail_ok 2).mats⟩
  let mae : Sys.Par → St → Nat → Option ℝ := fun _ q d => some (|q (2 + d)| + q 0 ^ 2 + 1)
  have hloc : ∀ q q' : St, (∀ k < lineCfg.V, q k = q' k) → ∀ d, d < 2 → mae E.P q d = mae E.P q' d := by
    intro q q' e d hd
    simp only [mae]
    rw [e 0 hVpos, e (2 + d) (by change 2 + d < 14; omega)]
  let mae' : Sys.Par → St → Nat → Option ℝ := fun P q d => if d < 2 then mae P q d else some 0
  have hloc' : ∀ q q' : St, (∀ k < lineCfg.V, q k = q' k) → ∀ d, mae' E.P q d = mae' E.P q' d := by
    intro q q' e d
    simp only [mae']
    split_ifs with hd
    · exact hloc q q' e d hd
    · rfl
  have ex : ∀ (threads : Nat) (dt : ℝ) (u : Iter.Mem) (count : Nat), ∃ u1 u', MovesPlane E allPeriodic false true threads dt u u1 ∧
      finish boxTail (count + 1) u1 = some u' := fun threads dt u count => by
    obtain ⟨u1, h1⟩ := movesPlane_exists E hVpos hE allPeriodic (by decide) (by decide) (by decide) (by decide) false threads dt u
    obtain ⟨u', h', -⟩ := finish_spec boxTail rfl hF (count + 1) u1
    exact ⟨u1, u', h1, h'⟩
  let dtOf := stepLength lineCfg mae' E.P [E.dx, E.dy] (9 / 10) (by norm_num) (8 * 6) 1
  have hdt : ∀ (u : Iter.Mem) (t : ℝ) (count : Nat), t < 1 →
      timestep lineCfg mae' [u] [fun _ => true] [E.dx, E.dy] (9 / 10) t 1 count [some E.P] 1 (8 * 6) = .fin (dtOf u t count) := by
    intro u t count ht
    simp only [dtOf, stepLength, dif_pos ht]
    exact (timestep_spec lineCfg mae' [u] [fun _ => true] [E.dx, E.dy] [some E.P] (9 / 10) t 1 count 1 (8 * 6) (by norm_num)
      ht).choose_spec.1
  let body : Nat → Body Iter.Mem Unit := fun threads =>
    ⟨fun u _ t count => ((ex threads (dtOf u t count) u count).choose_spec.choose, (), dtOf u t count), fun _ => false⟩
  refine ⟨body 3, body 1, fun m s hs => ?_⟩
  obtain ⟨s', h1, h2, -⟩ := run_shift2 E boxTail rfl hE rfl 3 2 true 3 1 (by norm_num) (by norm_num) mae' hloc' (9 / 10)
    (body 3) (body 1) 1 u0 u0' () () hu (fun m s _ ht => hdt s.u s.t s.count ht) (fun m s _ ht => hdt s.u s.t s.count ht)
    (fun m s _ _ => ⟨_, (ex 3 _ s.u s.count).choose_spec.choose_spec.1, (ex 3 _ s.u s.count).choose_spec.choose_spec.2⟩)
    (fun m s _ _ => ⟨_, (ex 1 _ s.u s.count).choose_spec.choose_spec.1, (ex 1 _ s.u s.count).choose_spec.choose_spec.2⟩)
    (fun h => (nomatch h)) (fun _ _ _ => rfl) hs
  exact ⟨s', h1, h2⟩

end

end Verif.Run
