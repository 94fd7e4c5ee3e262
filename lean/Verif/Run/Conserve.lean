import Verif.Run.Periodic
import Verif.Sys.Flux

/-! # Totals over whole periodic runs

One material, `LSET = 0`, periodic boundaries, any number of passes. -/

namespace Verif.Run

open Verif.Sys Verif.Iter Verif.Dg Verif.Fv Verif.Step

noncomputable section

/-- What the steppers depend on. -/
structure Env (c : Cfg) (n : Nat) where
  P : Par
  T : Tab n
  nx : Nat
  ny : Nat
  dx : ℝ
  dy : ℝ
  /-- the function selected by `FLUX` -/
  fl : Nat → (Fin c.V → ℝ) → (Fin c.V → ℝ) → (Fin c.V → ℝ)
  src : St → St
  junk : St
  destress : Option (Grid.Cell ℝ → Grid.Cell ℝ)
  coef : Coef n (Fin c.V → ℝ)
  pred1 : ℝ → (Fin n → Fin c.V → ℝ) → Option (Nat → Fin n → Fin c.V → ℝ)
  pred2 : ℝ → (Fin n → Fin n → Fin c.V → ℝ) → Option (Nat → Nat → Fin c.V → ℝ)
  half : Bool
  mid1 : ℝ → (Fin n → Fin c.V → ℝ) → (Fin n → Fin c.V → ℝ)
  mid2 : ℝ → (Fin n → Fin n → Fin c.V → ℝ) → (Fin n → Fin n → Fin c.V → ℝ)
  block : (Fin n → Fin n → Fin c.V → ℝ) → Nat → Fin c.V → ℝ
  svd : M3 → M3 × V3 × M3
  steps : Nat
  fuel : Nat
  /-- stands for the NaN a cell gets for which the source terms give no number -/
  bad : (Fin c.V → ℝ) → (Fin c.V → ℝ)

variable {c : Cfg} {n : Nat} (E : Env c n)

/-- The tables are those of the set-up, the source is that of the equations, Eigen decomposes. -/
structure Env.Ok : Prop where
  tab : E.T.Ok
  wide : n ≤ E.nx ∧ n ≤ E.ny
  src : ∀ Q, ∃ rate, E.src Q = Relax.source c E.P rate Q
  svd : ∀ A, Grid.IsSVD A (E.svd A).1 (E.svd A).2.2 (E.svd A).2.1

/-- The equations. -/
def Env.sys : Dg.Sys (Fin c.V) := gpr c E.P E.src E.junk

/-- `dt * WGHTS(t)`, fv.cpp:50. -/
def Env.wt (dt : ℝ) (t : Nat) : ℝ := if h : t < n then dt * E.T.w ⟨t, h⟩ else 0

/-- `ode_launcher(·, dt / 2, MP)` on one cell, steppers.cpp:54-55 and 65. -/
def Env.ode (dt : ℝ) (q : Fin c.V → ℝ) : Fin c.V → ℝ :=
  match Relax.odeCell c E.P E.svd E.steps E.fuel (dt / 2) (ofVec c q) with
  | some Q => fun v => Q v
  | none => E.bad q

/-- The source terms give numbers. -/
def Env.Number (dt : ℝ) (q : Fin c.V → ℝ) : Prop :=
  (Relax.odeCell c E.P E.svd E.steps E.fuel (dt / 2) (ofVec c q)).isSome

/-- The cells of a field. -/
def cellsOf (c : Cfg) (u : Mem) : Nat → Fin c.V → ℝ := fun i v => u (i * c.V + v)

/-- The memory `boundaries` works on: the grid, and whatever `ub` held. -/
def memOf (c : Cfg) (u : Mem) (old : Nat → Grid.Cell ℝ) : Grid.Mem ℝ := fun l =>
  if l.1 then old l.2 else view c u l.2

/-- `ub` after `boundaries` with periodic ends, iterator.cpp:122. -/
def Pad1 (u : Mem) (ub : Nat → Fin c.V → ℝ) : Prop := ∃ old m',
  Grid.boundaries1D ⟨n, E.destress⟩ E.nx .periodic .periodic (memOf c u old) = some m' ∧
    ∀ k v, ub k v = m' (true, k) v

def Pad2 (u : Mem) (ub : Nat → Fin c.V → ℝ) : Prop := ∃ old m',
  Grid.boundaries2D ⟨n, E.destress⟩ E.nx E.ny .periodic .periodic .periodic .periodic (memOf c u old) = some m' ∧
    ∀ k v, ub k v = m' (true, k) v

/-- Unsplit stepping of a line, iterator.cpp:121-132: `u'` is the new grid, for some number of threads and some schedule. -/
def AderLine (dt : ℝ) (u u' : Mem) : Prop := ∃ (ub : Nat → Fin c.V → ℝ) (maskb : Nat → Bool) (threads : Nat) (l : List (Nat × Nat × (Fin c.V → ℝ)))
  (gar : Nat → Nat → Nat → Fin n → Fin c.V → ℝ), Pad1 E u ub ∧
  let K := kern1 E.sys E.T E.fl (E.wt dt) E.dx true
  let mask := Grid.extendMask1 E.nx (fun _ => true) maskb
  0 < threads ∧
  IsSchedule threads (fun w => aderWorker1 E.coef (E.pred1 dt) K ub E.nx mask threads (gar w) w) l ∧
  (∀ i < E.nx + 2, (E.pred1 dt (weno1G E.coef ub ((E.nx + 2 : Nat) : Int) 0 i)).isSome) ∧
  ∀ i < E.nx, ∀ v : Fin c.V, u' (i * c.V + v) = apply K.app (l.map Prod.snd) (cellsOf c u) i v

/-- Split stepping of a line; all source terms give numbers. -/
def SplitLine (dt : ℝ) (u u' : Mem) : Prop := ∃ ub maskb threads l, Pad1 E u ub ∧
  let K := kern1 E.sys E.T E.fl (fun _ => dt) E.dx false
  let mask := Grid.extendMask1 E.nx (fun _ => true) maskb
  let w := before1 E.coef (E.ode dt) E.half (E.mid1 dt) K ub E.nx mask (cellsOf c u)
  0 < threads ∧
  IsSchedule threads (splitWorker1 E.coef (E.ode dt) E.half (E.mid1 dt) (fun q => q) K ub E.nx mask threads) l ∧
  (∀ i < E.nx, E.Number dt (cellsOf c u i) ∧ E.Number dt (w i)) ∧
  ∀ i < E.nx, ∀ v : Fin c.V,
    u' (i * c.V + v) = apply (withOde (E.ode dt) K.app) (l.map Prod.snd) (cellsOf c u) i v

/-- Unsplit stepping of a plane without `NO_CORNERS`. -/
def AderPlane (dt : ℝ) (u u' : Mem) : Prop := ∃ (ub : Nat → Fin c.V → ℝ) (maskb : Nat → Bool) (threads : Nat) (l : List (Nat × Nat × (Fin c.V → ℝ)))
  (gar : Nat → Nat → Nat → Nat → Fin c.V → ℝ), Pad2 E u ub ∧
  let K := kern2 E.sys E.T E.fl (E.wt dt) E.dx E.dy true
  let mask := Grid.extendMask2 E.nx E.ny (fun _ => true) maskb
  0 < threads ∧
  IsSchedule threads (fun w => aderWorker2 E.coef false (E.pred2 dt) K ub E.nx E.ny mask threads (gar w) w) l ∧
  (∀ i j, Side E.nx E.ny i j → (E.pred2 dt (weno2G E.coef false ub (E.nx + 2) (E.ny + 2) i j)).isSome) ∧
  ∀ i < E.nx * E.ny, ∀ v : Fin c.V, u' (i * c.V + v) = apply K.app (l.map Prod.snd) (cellsOf c u) i v

/-- Split stepping of a plane without `NO_CORNERS`. -/
def SplitPlane (dt : ℝ) (u u' : Mem) : Prop := ∃ ub maskb threads l, Pad2 E u ub ∧
  let K := kern2 E.sys E.T E.fl (fun _ => dt) E.dx E.dy false
  let mask := Grid.extendMask2 E.nx E.ny (fun _ => true) maskb
  let w := before2 E.coef false (E.ode dt) E.half (E.mid2 dt) E.block K ub E.nx E.ny mask (cellsOf c u)
  0 < threads ∧
  IsSchedule threads (splitWorker2 E.coef false (E.ode dt) E.half (E.mid2 dt) E.block K ub E.nx E.ny mask threads) l ∧
  (∀ i < E.nx * E.ny, E.Number dt (cellsOf c u i) ∧ E.Number dt (w i)) ∧
  ∀ i < E.nx * E.ny, ∀ v : Fin c.V,
    u' (i * c.V + v) = apply (withOde (E.ode dt) K.app) (l.map Prod.snd) (cellsOf c u) i v

/-- Any of the steppers, on a grid of `ncell` cells. -/
def Stepped (ncell : Nat) (dt : ℝ) (u u' : Mem) : Prop :=
  (ncell = E.nx ∧ (AderLine E dt u u' ∨ SplitLine E dt u u')) ∨
  (ncell = E.nx * E.ny ∧ (AderPlane E dt u u' ∨ SplitPlane E dt u u'))

/-- The total of a component. -/
def total (c : Cfg) (ncell : Nat) (u : Mem) (k : Nat) : ℝ := ∑ i ∈ Finset.range ncell, u (i * c.V + k)

/-- The rate at which the total of a component grows per cell: the body force, for momentum. -/
def force (P : Par) (k : Nat) : ℝ := if h : 2 ≤ k ∧ k < 5 then P.δp ⟨k - 2, by omega⟩ else 0

/-! ### The parts -/

theorem weights_one {T : Tab n} (h : T.Ok) : ∑ s, T.w s = 1 := by
  have := h.exact 1 (by
    rw [Polynomial.degree_one]
    have := h.pos
    exact_mod_cast (by omega : 0 < 2 * n))
  simpa using this

theorem wt_sum (h : E.T.Ok) (dt : ℝ) : ∑ t ∈ Finset.range n, E.wt dt t = dt := by
  rw [Finset.sum_range]
  rw [Finset.sum_congr rfl fun (t : Fin n) _ => show E.wt dt t = dt * E.T.w t by unfold Env.wt; rw [dif_pos t.2],
    ← Finset.mul_sum, weights_one h, mul_one]

theorem src_force (hv : c.viscous = true) (h : E.Ok) (v : Fin c.V) (h5 : v.1 < 5) (q : Fin c.V → ℝ) :
    E.sys.source q v = force E.P v := by
  change E.src (ofVec c q) v = _
  obtain ⟨rate, hr⟩ := h.src (ofVec c q)
  rw [hr, Relax.source_val c E.P rate _ hv]
  have h14 := Relax.mV_ge' c hv
  unfold force
  split_ifs <;> first | rfl | omega

theorem ode_force (hv : c.viscous = true) (h : E.Ok) (dt : ℝ) (q : Fin c.V → ℝ) (hq : E.Number dt q) (v : Fin c.V)
    (h5 : v.1 < 5) : E.ode dt q v = q v + force E.P v * (dt / 2) := by
  obtain ⟨Q, hQ⟩ := Option.isSome_iff_exists.1 hq
  unfold Env.ode
  rw [hQ]
  simp only [Relax.odeCell, Option.bind_eq_some_iff] at hQ
  obtain ⟨R, hR, hQ⟩ := hQ
  obtain ⟨k1, k2, -⟩ := Relax.odeAnalytic_spec c E.P E.svd _ _ R hv (h.svd _) hR
  have h14 := Relax.mV_ge' c hv
  have hQR : Q v = R v := by
    unfold Relax.odeNumerical at hQ
    simp only at hQ
    split_ifs at hQ with a1 a2 a3
    · rw [Option.map_eq_some_iff] at hQ
      obtain ⟨y, -, rfl⟩ := hQ
      unfold setAt
      rw [if_neg (by omega)]
    · rw [Option.some.inj hQ]
    · rw [Option.some.inj hQ]
  have hofv : ofVec c q v = q v := by
    unfold ofVec
    rw [dif_pos v.2]
  simp only
  rw [hQR]
  unfold force
  split_ifs with hv'
  · have := k2 ⟨v.1 - 2, by omega⟩
    simp only [show 2 + (v.1 - 2) = v.1 by omega] at this
    rw [this, hofv]
  · rw [k1 v (by omega) (by omega), hofv]
    ring

theorem mask1_true (nx : Nat) (hx : 0 < nx) (maskb : Nat → Bool) (i : Nat) (hi : i < nx + 2) :
    Grid.extendMask1 nx (fun _ => true) maskb i = true := by
  obtain ⟨a1, a2, a3, -⟩ := Grid.extend_mask_1d nx hx (fun _ => true) maskb
  rcases Nat.eq_zero_or_pos i with rfl | h0
  · exact a2 rfl
  · by_cases h : i = nx + 1
    · subst h; exact a3 rfl
    · obtain ⟨j, rfl⟩ : ∃ j, i = j + 1 := ⟨i - 1, by omega⟩
      exact (a1 j (by omega)).2 ⟨j, by omega, by unfold Grid.Near; omega, rfl⟩

theorem mask2_true (nx ny : Nat) (hx : 0 < nx) (hy : 0 < ny) (maskb : Nat → Bool) (i j : Nat) (h : Side nx ny i j) :
    Grid.extendMask2 nx ny (fun _ => true) maskb (cell i j (ny + 2)) = true := by
  obtain ⟨a1, a2, a3, -⟩ := Grid.extend_mask_2d nx ny hx hy (fun _ => true) maskb
  obtain ⟨h1, h2, h3⟩ := h
  change Grid.extendMask2 nx ny (fun _ => true) maskb (i * (ny + 2) + j) = true
  rcases Nat.eq_zero_or_pos i with rfl | hi0
  · obtain ⟨j, rfl⟩ : ∃ j', j = j' + 1 := ⟨j - 1, by omega⟩
    exact (a3 j (by omega)).1
  · obtain ⟨i, rfl⟩ : ∃ i', i = i' + 1 := ⟨i - 1, by omega⟩
    by_cases hin : i = nx
    · subst hin
      obtain ⟨j, rfl⟩ : ∃ j', j = j' + 1 := ⟨j - 1, by omega⟩
      exact (a3 j (by omega)).2
    · rcases Nat.eq_zero_or_pos j with rfl | hj0
      · exact (a2 i (by omega)).1
      · obtain ⟨j, rfl⟩ : ∃ j', j = j' + 1 := ⟨j - 1, by omega⟩
        by_cases hjn : j = ny
        · subst hjn
          exact (a2 i (by omega)).2
        · exact (a1 i (by omega) j (by omega)).2 ⟨i, by omega, j, by omega, Or.inl ⟨rfl, Or.inl rfl⟩, rfl⟩

theorem pad1_periodic (h : E.Ok) (u : Mem) (ub : Nat → Fin c.V → ℝ) (hp : Pad1 E u ub) (k : Nat) (hk : k < 2 * n) :
    ub (E.nx + k) = ub k := by
  obtain ⟨old, m', hm, hub⟩ := hp
  have hN := h.wide.1
  obtain ⟨m'', e, a, -⟩ := Grid.boundaries_1d ⟨n, E.destress⟩ E.nx .periodic .periodic (memOf c u old) hN (by decide)
    (by decide)
  rw [hm] at e
  cases e
  have g : ∀ k (q : Grid.Cell ℝ), Grid.ghostOf ⟨n, E.destress⟩ 0 .periodic .periodic E.nx k q = q := by
    intro k q
    unfold Grid.ghostOf Grid.wall
    split_ifs <;> rfl
  funext v
  rw [hub, hub, a _ (show E.nx + k < E.nx + 2 * n by omega), a _ (show k < E.nx + 2 * n by omega), g, g]
  have : Grid.srcOf n .periodic .periodic E.nx (E.nx + k) = Grid.srcOf n .periodic .periodic E.nx k := by
    unfold Grid.srcOf
    split_ifs <;> first | omega | (simp only; omega)
  simp only [this]

theorem pad2_periodic (h : E.Ok) (u : Mem) (ub : Nat → Fin c.V → ℝ) (hp : Pad2 E u ub) :
    (∀ k < 2 * n, ∀ l < E.ny + 2 * n, ub ((E.nx + k) * (E.ny + 2 * n) + l) = ub (k * (E.ny + 2 * n) + l)) ∧
    ∀ k < E.nx + 2 * n, ∀ l < 2 * n, ub (k * (E.ny + 2 * n) + (E.ny + l)) = ub (k * (E.ny + 2 * n) + l) := by
  obtain ⟨old, m', hm, hub⟩ := hp
  obtain ⟨hx, hy⟩ := h.wide
  have hn := h.tab.pos
  obtain ⟨m'', e, a⟩ := Grid.boundaries_periodic ⟨n, E.destress⟩ E.nx E.ny (memOf c u old) hx hy
  rw [hm] at e
  cases e
  have pick : ∀ N m k : Nat, 0 < N → N ≤ m → k % m = ((k + m - N) % m + N) % m ∧ (k + m - N) % m < m := by
    intro N m k h1 h2
    refine ⟨?_, Nat.mod_lt _ (by omega)⟩
    rw [Nat.mod_add_mod, show k + m - N + N = k + m by omega, Nat.add_mod_right]
  constructor
  · intro k hk l hl
    funext v
    obtain ⟨e1, b1⟩ := pick n E.nx k hn hx
    obtain ⟨e2, b2⟩ := pick n E.ny l hn hy
    rw [hub, hub, a (E.nx + k) (by simp only; omega) l hl _ b1 _ b2 (by rw [Nat.add_mod_left]; exact e1) e2,
      a k (by simp only; omega) l hl _ b1 _ b2 e1 e2]
  · intro k hk l hl
    funext v
    obtain ⟨e1, b1⟩ := pick n E.nx k hn hx
    obtain ⟨e2, b2⟩ := pick n E.ny l hn hy
    rw [hub, hub, a k hk (E.ny + l) (by simp only; omega) _ b1 _ b2 e1 (by rw [Nat.add_mod_left]; exact e2),
      a k hk l (by simp only; omega) _ b1 _ b2 e1 e2]

theorem sum_cells (nx ny : Nat) (f : Nat → ℝ) :
    ∑ i ∈ Finset.range (nx * ny), f i = ∑ x ∈ Finset.range nx, ∑ y ∈ Finset.range ny, f (cell x y ny) := by
  induction nx with
  | zero => simp
  | succ nx ih => rw [Nat.add_mul, one_mul, Finset.sum_range_add, ih, Finset.sum_range_succ]; rfl

/-- One call of the steppers. -/
theorem stepped_total (hv : c.viscous = true) (h : E.Ok) (ncell : Nat) (dt : ℝ) (u u' : Mem)
    (hs : Stepped E ncell dt u u') (k : Nat) (h5 : k < 5) :
    total c ncell u' k = total c ncell u k + ncell * (dt * force E.P k) := by
  have hV := Iter.V_ge c hv
  have hn := h.tab.pos
  have hx0 : 0 < E.nx := by have := h.wide.1; omega
  have hy0 : 0 < E.ny := by have := h.wide.2; omega
  have hw := weights_one h.tab
  obtain ⟨v, hvk⟩ : ∃ v : Fin c.V, v.1 = k := ⟨⟨k, by omega⟩, rfl⟩
  subst hvk
  have hB : ∀ d q x, E.sys.bdot d q x v = 0 := fun d q x =>
    gpr_conservative_components c hv E.P E.src E.junk v h5 d q x
  have hsrc := fun q => src_force E hv h v h5 q
  unfold total
  rcases hs with ⟨rfl, hs | hs⟩ | ⟨rfl, hs | hs⟩
  · obtain ⟨ub, maskb, threads, l, gar, hp, hT, hl, hpred, hu'⟩ := hs
    rw [Finset.sum_congr rfl fun i hi => hu' i (Finset.mem_range.1 hi) v,
      ader_para1 E.coef (E.pred1 dt) _ ub E.nx _ threads hT (gar 0) gar (fun i hi _ => hpred i hi) l hl,
      ader1_periodic E.sys E.T E.fl (E.wt dt) E.dx E.coef (E.pred1 dt) ub E.nx _ (gar 0) (cellsOf c u) v hB
        (mask1_true E.nx hx0 maskb) (pad1_periodic E h u ub hp) (fun i hi => hpred i (by omega)) (force E.P v) dt hsrc hw
        (wt_sum E h.tab dt) hn]
    rfl
  · obtain ⟨ub, maskb, threads, l, hp, hT, hl, hnum, hu'⟩ := hs
    rw [Finset.sum_congr rfl fun i hi => hu' i (Finset.mem_range.1 hi) v,
      split_para1 E.coef (E.ode dt) E.half (E.mid1 dt) (fun q => q) _ ub E.nx _ threads hT l hl,
      split1_periodic E.sys E.T E.fl (fun _ => dt) E.dx E.coef (E.ode dt) E.half (E.mid1 dt) ub E.nx _ (cellsOf c u) v hB
        (mask1_true E.nx hx0 maskb) (pad1_periodic E h u ub hp) (force E.P v * (dt / 2))
        (fun i hi => ode_force E hv h dt _ (hnum i hi).1 v h5) (fun i hi => ode_force E hv h dt _ (hnum i hi).2 v h5) hw hn]
    simp only [cellsOf]
    ring
  · obtain ⟨ub, maskb, threads, l, gar, hp, hT, hl, hpred, hu'⟩ := hs
    obtain ⟨px, py⟩ := pad2_periodic E h u ub hp
    have hM := mask2_true E.nx E.ny hx0 hy0 maskb
    rw [Finset.sum_congr rfl fun i hi => hu' i (Finset.mem_range.1 hi) v,
      ader_para2_partial hn E.coef (E.pred2 dt) _ ub E.nx E.ny _ threads hT (gar 0) gar ?_ l hl, sum_cells, sum_cells,
      ader2_periodic E.sys E.T E.fl (E.wt dt) E.dx E.dy E.coef (E.pred2 dt) ub E.nx E.ny _ (gar 0) (cellsOf c u) v hB
        hM px py hpred (force E.P v) dt hsrc hw (wt_sum E h.tab dt) hn]
    · simp only [cellsOf]
      push_cast
      ring
    · intro i j hi hj hm
      obtain ⟨-, -, -, c1, c2, c3, c4⟩ := Grid.extend_mask_2d E.nx E.ny hx0 hy0 (fun _ => true) maskb
      refine hpred i j ⟨hi, hj, ?_⟩
      by_contra hcon
      have hcor : (i = 0 ∨ i = E.nx + 1) ∧ (j = 0 ∨ j = E.ny + 1) := by omega
      unfold cell at hm
      rcases hcor with ⟨rfl | rfl, rfl | rfl⟩
      · simp only [c1] at hm; cases hm
      · simp only [c2] at hm; cases hm
      · simp only [c3] at hm; cases hm
      · simp only [c4] at hm; cases hm
  · obtain ⟨ub, maskb, threads, l, hp, hT, hl, hnum, hu'⟩ := hs
    obtain ⟨px, py⟩ := pad2_periodic E h u ub hp
    have hM := mask2_true E.nx E.ny hx0 hy0 maskb
    rw [Finset.sum_congr rfl fun i hi => hu' i (Finset.mem_range.1 hi) v,
      split_para2_partial hn E.coef (E.ode dt) E.half (E.mid2 dt) E.block _ ub E.nx E.ny _ threads hT l hl, sum_cells,
      sum_cells,
      split2_periodic E.sys E.T E.fl (fun _ => dt) E.dx E.dy E.coef (E.ode dt) E.half (E.mid2 dt) E.block ub E.nx E.ny _
        (cellsOf c u) v hB hM px py (force E.P v * (dt / 2))
        (fun i hi => ode_force E hv h dt _ (hnum i hi).1 v h5) (fun i hi => ode_force E hv h dt _ (hnum i hi).2 v h5) hw hn]
    simp only [cellsOf]
    push_cast
    ring

/-! ### Whole runs -/

/-- Every pass of the run uses one of the steppers and ends as `iterator.cpp:140-151` does. -/
def Conforms {W : Type} (F : Tail c) (b : Body Mem W) (tf : ℝ) (u0 : Mem) (w0 : W) : Prop :=
  ∀ m s, Reach b tf u0 w0 m s → s.t < tf → ∃ u1, Stepped E F.ncell (b.step s.u s.w s.t s.count).2.2 s.u u1 ∧
    finish F (s.count + 1) u1 = some (b.step s.u s.w s.t s.count).1

/-- All cells are unstrained. -/
def Unstrained (c : Cfg) (ncell : Nat) (u : Mem) : Prop := ∀ i < ncell, ∃ f : ℝ, getA (view c u i) = f • (1 : M3)

theorem matAt_single (F : Tail c) (hM : F.MPs = [some E.P]) (hl : c.lset = 0) (u : Mem) (i : Nat) :
    matAt F u i = some (some E.P) := by
  unfold matAt materialIndex
  rw [hM, hl]
  rfl

/-- The totals after one more pass. -/
theorem pass_total (F : Tail c) (hv : c.viscous = true) (hE : E.Ok) (hF : F.Ok) (hM : F.MPs = [some E.P])
    (hl : c.lset = 0) (dt : ℝ) (count : Nat) (u u1 u' : Mem) (h1 : Stepped E F.ncell dt u u1)
    (h2 : finish F count u1 = some u') :
    (∀ k < 5, k ≠ 1 → total c F.ncell u' k = total c F.ncell u k + F.ncell * (dt * force E.P k)) ∧
    ((∀ i < F.ncell, 0 < u' (i * c.V) ∧ 0 ≤ C0 E.P.toParams (u' (i * c.V))) →
      total c F.ncell u' 1 ≤ total c F.ncell u 1) ∧
    (total c F.ncell u' 1 = total c F.ncell u 1 ∨ Unstrained c F.ncell u') := by
  have hV := Iter.V_ge c hv
  have h14 := Relax.mV_ge' c hv
  have ht := stepped_total E hv hE F.ncell dt u u1 h1
  obtain ⟨w, hw, a1, -, -, -, a5, a6, -⟩ := finish_spec F hv hF count u1
  rw [h2] at hw
  cases hw
  have t1 : total c F.ncell u1 1 = total c F.ncell u 1 := by
    rw [ht 1 (by omega)]
    unfold force
    rw [dif_neg (by omega), mul_zero, mul_zero, add_zero]
  refine ⟨fun k hk h1 => ?_, fun hpos => ?_, ?_⟩
  · rw [← ht k hk]
    refine Finset.sum_congr rfl fun i hi => a1 i (Finset.mem_range.1 hi) k (by omega) (by omega) fun _ => by omega
  · rw [← t1]
    refine Finset.sum_le_sum fun i hi => ?_
    have hi := Finset.mem_range.1 hi
    have d := a1 i hi 0 (by omega) (Or.inl rfl) fun _ => by omega
    rw [Nat.add_zero] at d
    have := hpos i hi
    rw [d] at this
    exact a5 i hi E.P (matAt_single E F hM hl u1 i) this.1 this.2
  · rcases a6 with h | h
    · left
      rw [← t1]
      exact Finset.sum_congr rfl fun i hi => h i (Finset.mem_range.1 hi)
    · exact Or.inr fun i hi => h i hi E.P (matAt_single E F hM hl u1 i)

/-- **Periodic runs conserve.**  After any number of passes the total mass is that of the start, the total momentum has
changed by the impulse of the body force, the total energy has not grown as long as densities are positive, and it is
that of the start unless some pass set all cells to the unstrained state. -/
theorem run_conserves {W : Type} (F : Tail c) (b : Body Mem W) (hv : c.viscous = true) (hE : E.Ok) (hF : F.Ok)
    (hM : F.MPs = [some E.P]) (hl : c.lset = 0) (tf : ℝ) (u0 : Mem) (w0 : W) (hb : Conforms E F b tf u0 w0) {m : Nat}
    {s : Vars Mem W} (hs : Reach b tf u0 w0 m s) :
    total c F.ncell s.u 0 = total c F.ncell u0 0 ∧
    (∀ i : Fin 3, total c F.ncell s.u (2 + i) = total c F.ncell u0 (2 + i) + F.ncell * (s.t * E.P.δp i)) ∧
    ((∀ m' s', Reach b tf u0 w0 m' s' → m' ≤ m → ∀ i < F.ncell,
        0 < s'.u (i * c.V) ∧ 0 ≤ C0 E.P.toParams (s'.u (i * c.V))) →
      total c F.ncell s.u 1 ≤ total c F.ncell u0 1) ∧
    (total c F.ncell s.u 1 = total c F.ncell u0 1 ∨
      ∃ m' s', m' ≤ m ∧ Reach b tf u0 w0 m' s' ∧ 0 < m' ∧ Unstrained c F.ncell s'.u) := by
  have main : (∀ k < 5, k ≠ 1 → total c F.ncell s.u k = total c F.ncell u0 k + F.ncell * (s.t * force E.P k)) ∧
    ((∀ m' s', Reach b tf u0 w0 m' s' → m' ≤ m → ∀ i < F.ncell,
        0 < s'.u (i * c.V) ∧ 0 ≤ C0 E.P.toParams (s'.u (i * c.V))) →
      total c F.ncell s.u 1 ≤ total c F.ncell u0 1) ∧
    (total c F.ncell s.u 1 = total c F.ncell u0 1 ∨
      ∃ m' s', m' ≤ m ∧ Reach b tf u0 w0 m' s' ∧ 0 < m' ∧ Unstrained c F.ncell s'.u) := by
    induction hs with
    | start => exact ⟨fun k _ _ => by simp, fun _ => le_refl _, Or.inl rfl⟩
    | @step m s s' hs hp ih =>
      obtain ⟨i1, i2, i3⟩ := ih
      have hr' := Reach.step hs hp
      obtain ⟨ht, -, eu, -, et, -⟩ := pass_next b tf hp
      obtain ⟨u1, h1, h2⟩ := hb m s hs ht
      rw [← eu] at h2
      obtain ⟨p1, p2, p3⟩ := pass_total E F hv hE hF hM hl _ _ _ u1 _ h1 h2
      refine ⟨fun k hk hk1 => ?_, fun hpos => ?_, ?_⟩
      · rw [p1 k hk hk1, i1 k hk hk1, et]
        ring
      · exact (p2 (hpos _ _ hr' le_rfl)).trans (i2 fun m' s'' h hm => hpos m' s'' h (by omega))
      · rcases p3 with p3 | p3
        · rcases i3 with i3 | ⟨m', s'', h1, h2, h3⟩
          · exact Or.inl (p3.trans i3)
          · exact Or.inr ⟨m', s'', by omega, h2, h3⟩
        · exact Or.inr ⟨m + 1, s', le_rfl, hr', by omega, p3⟩
  obtain ⟨a1, a2, a3⟩ := main
  refine ⟨?_, fun i => ?_, a2, a3⟩
  · rw [a1 0 (by omega) (by omega)]
    unfold force
    rw [dif_neg (by omega), mul_zero, mul_zero, add_zero]
  · rw [a1 (2 + i) (by omega) (by omega)]
    unfold force
    rw [dif_pos (by omega)]
    simp only [Nat.add_sub_cancel_left]

/-- Snapshots are among the fields covered: each is the field after some pass. -/
theorem snapshot_reached {U W : Type} (b : Body U W) (tf : ℝ) (u0 : U) (w0 : W) {m : Nat} {s : Vars U W}
    (hs : Reach b tf u0 w0 m s) (k : Nat) (x : U) (hx : s.ret k = some x) :
    ∃ m' s', 0 < m' ∧ m' ≤ m ∧ Reach b tf u0 w0 m' s' ∧ s'.u = x := by
  induction hs with
  | start => cases hx
  | @step m s s' hs hp ih =>
    obtain ⟨_, _, _, _, _, _, hc⟩ := pass_next b tf hp
    have old : s.ret k = some x → ∃ m' s', 0 < m' ∧ m' ≤ m + 1 ∧ Reach b tf u0 w0 m' s' ∧ s'.u = x := fun h => by
      obtain ⟨m', s'', h0, h1, h2⟩ := ih h
      exact ⟨m', s'', h0, by omega, h2⟩
    rcases hc with ⟨_, _, _, er⟩ | ⟨_, _, er⟩
    · rw [er] at hx
      by_cases hk : k = s.push
      · subst hk
        rw [Function.update_self] at hx
        exact ⟨m + 1, s', by omega, le_rfl, Reach.step hs hp, Option.some.inj hx⟩
      · rw [Function.update_of_ne hk] at hx
        exact old hx
    · rw [er] at hx
      exact old hx

/-! ### A run -/

/-- One viscous fluid without level sets. -/
def lineCfg : Cfg := ⟨true, false, false, 0, fun _ _ _ _ => (0, 0)⟩

/-- A line of `n + 3` cells, with a predictor that keeps the reconstruction. -/
def lineEnv (T : Tab n) (W : Weno.Setup n) (fl : Nat → (Fin lineCfg.V → ℝ) → (Fin lineCfg.V → ℝ) → (Fin lineCfg.V → ℝ)) :
    Env lineCfg n where
  P := samplePar sample
  T := T
  nx := n + 3
  ny := n
  dx := 1 / 10
  dy := 1
  fl := fl
  src := Relax.source lineCfg (samplePar sample) 0
  junk := fun _ => 7
  destress := none
  coef := realCoef W.T 0
  pred1 := fun _ w => some fun _ => w
  pred2 := fun _ _ => none
  half := true
  mid1 := fun _ w => w
  mid2 := fun _ w => w
  block := fun _ _ _ => 0
  svd := fun A => ((Grid.svd_exists A).choose, (Grid.svd_exists A).choose_spec.choose_spec.choose,
    (Grid.svd_exists A).choose_spec.choose)
  steps := 4
  fuel := 7
  bad := fun q => q

theorem lineEnv_ok {T : Tab n} (h : T.Ok) (W : Weno.Setup n)
    (fl : Nat → (Fin lineCfg.V → ℝ) → (Fin lineCfg.V → ℝ) → (Fin lineCfg.V → ℝ)) : (lineEnv T W fl).Ok :=
  ⟨h, ⟨Nat.le_add_right _ _, le_rfl⟩, fun _ => ⟨0, rfl⟩,
   fun A => (Grid.svd_exists A).choose_spec.choose_spec.choose_spec.1⟩

def lineTail (n : Nat) : Tail lineCfg where
  ncell := n + 3
  MPs := [some (samplePar sample)]
  rot := true
  svd := fun A => ((Grid.svd_exists A).choose_spec.choose_spec.choose, (Grid.svd_exists A).choose_spec.choose)
  sv := fun A => (Grid.svd_exists A).choose_spec.choose_spec.choose
  tol := 1 / 2

theorem lineTail_ok (n : Nat) : (lineTail n).Ok :=
  ⟨fun A => ⟨_, (Grid.svd_exists A).choose_spec.choose_spec.choose_spec.1⟩,
   fun A => ⟨_, _, (Grid.svd_exists A).choose_spec.choose_spec.choose_spec.1⟩, by simp [lineTail, lineCfg]⟩

/-- Any field, any flux, four threads: such runs exist, and their mass is that of the start. -/
example {T : Tab n} (h : T.Ok) (W : Weno.Setup n)
    (fl : Nat → (Fin lineCfg.V → ℝ) → (Fin lineCfg.V → ℝ) → (Fin lineCfg.V → ℝ)) (u0 : Mem) :
    ∃ b : Body Mem Unit, Conforms (lineEnv T W fl) (lineTail n) b 1 u0 () ∧
      ∀ m s, Reach b 1 u0 () m s → total lineCfg (n + 3) s.u 0 = total lineCfg (n + 3) u0 0 := by
  have hE := lineEnv_ok h W fl
  have ex : ∀ (u : Mem) (count : Nat), ∃ u1 u', AderLine (lineEnv T W fl) (1 / 10) u u1 ∧
      finish (lineTail n) (count + 1) u1 = some u' := by
    intro u count
    obtain ⟨m', hm, -⟩ := Grid.boundaries_1d ⟨n, none⟩ (n + 3) .periodic .periodic (memOf lineCfg u fun _ _ => 0)
      (Nat.le_add_right n 3) (by decide) (by decide)
    let ub : Nat → Fin lineCfg.V → ℝ := fun k v => m' (true, k) v
    let K := kern1 (lineEnv T W fl).sys T fl ((lineEnv T W fl).wt (1 / 10)) (1 / 10) true
    let mask := Grid.extendMask1 (n + 3) (fun _ => true) fun _ => false
    obtain ⟨l, hl⟩ := schedule_exists 4 fun w => aderWorker1 (lineEnv T W fl).coef ((lineEnv T W fl).pred1 (1 / 10)) K ub
      (n + 3) mask 4 (fun _ _ _ _ => 0) w
    let w := apply K.app (l.map Prod.snd) (cellsOf lineCfg u)
    have hV : 0 < lineCfg.V := by have := Iter.V_ge lineCfg rfl; omega
    let u1 : Mem := fun k => w (k / lineCfg.V) ⟨k % lineCfg.V, Nat.mod_lt _ hV⟩
    obtain ⟨u', h', -⟩ := finish_spec (lineTail n) rfl (lineTail_ok n) (count + 1) u1
    refine ⟨u1, u', ⟨ub, fun _ => false, 4, l, fun _ _ _ _ _ => 0, ⟨fun _ _ => 0, m', hm, fun _ _ => rfl⟩, by norm_num, hl,
      fun _ _ => rfl, fun i _ v => ?_⟩, h'⟩
    change w _ _ = w i v
    have e1 : (i * lineCfg.V + v) / lineCfg.V = i := by
      rw [Nat.mul_comm, Nat.mul_add_div hV, Nat.div_eq_of_lt v.2, Nat.add_zero]
    have e2 : (i * lineCfg.V + v) % lineCfg.V = v := by
      rw [Nat.mul_comm, Nat.mul_add_mod, Nat.mod_eq_of_lt v.2]
    simp only [e1, e2]
  let b : Body Mem Unit := ⟨fun u _ _ count => ((ex u count).choose_spec.choose, (), 1 / 10), fun _ => false⟩
  have hb : Conforms (lineEnv T W fl) (lineTail n) b 1 u0 () := fun m s _ _ =>
    ⟨_, Or.inl ⟨rfl, Or.inl (ex s.u s.count).choose_spec.choose_spec.1⟩, (ex s.u s.count).choose_spec.choose_spec.2⟩
  exact ⟨b, hb, fun m s hs => (run_conserves (lineEnv T W fl) (lineTail n) b rfl hE (lineTail_ok n) rfl rfl 1 u0 () hb hs).1⟩

end

end Verif.Run
