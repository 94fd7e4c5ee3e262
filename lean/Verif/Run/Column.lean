import Verif.Run.Lines
import Verif.Run.Twin
import Verif.Run.Corner

/-! # A plane run whose data do not vary along y is a line run -/

namespace Verif.Run

open Verif.Step Verif.Dg Verif.Fv Verif.Sys Verif.Iter Verif.Grid

noncomputable section

/-! ### The time step -/

section Time

variable (c : Sys.Cfg) (mae : Sys.Par → St → Nat → Option ℝ)

/-- The fastest cell of a plane made of columns and of the line, when `κ` relates the speeds: `timestep` adds up the speeds
along the axes, iterator.cpp:67-70. -/
theorem speed_columns (P : Sys.Par) (nx ny : Nat) (hy : 0 < ny) (u w : Iter.Mem) (h : Columns c nx ny u w) (dx dy κ : ℝ) (hκ : 0 < κ)
    (hloc : ∀ q q' : St, (∀ k < c.V, q k = q' k) → ∀ d, mae P q d = mae P q' d)
    (hsp : ∀ j < nx, cellSpeed mae [dx, dy] P (view c w j) = (cellSpeed mae [dx] P (view c w j)).map (κ * ·)) :
    maxSpeed c mae [u] [fun _ => true] [dx, dy] [some P] 1 (nx * ny) =
      κ * maxSpeed c mae [w] [fun _ => true] [dx] [some P] 1 nx := by
  obtain ⟨a1, a2, a3⟩ := maxSpeed_spec c mae [u] [fun _ => true] [dx, dy] [some P] 1 (nx * ny)
  obtain ⟨b1, b2, b3⟩ := maxSpeed_spec c mae [w] [fun _ => true] [dx] [some P] 1 nx
  set r := maxSpeed c mae [u] [fun _ => true] [dx, dy] [some P] 1 (nx * ny)
  set r' := maxSpeed c mae [w] [fun _ => true] [dx] [some P] 1 nx
  have hc : ∀ i < nx * ny, cellSpeed mae [dx, dy] P (view c u i) = (cellSpeed mae [dx] P (view c w (i / ny))).map (κ * ·) := by
    intro i hi
    rw [← hsp (i / ny) (by rw [Nat.div_lt_iff_lt_mul hy]; exact hi)]
    unfold cellSpeed
    have e : mae P (view c u i) = mae P (view c w (i / ny)) := funext fun d => hloc _ _ (fun k hk => h i hi k hk) d
    rw [e]
  apply le_antisymm
  · rcases a3 with a3 | ⟨mat, ind, P', hL, hs⟩
    · rw [a3]; positivity
    · obtain ⟨l1, l2, l3, -⟩ := hL
      obtain rfl : mat = 0 := by omega
      obtain rfl : P = P' := by simpa using l3
      have hs' : cellSpeed mae [dx, dy] P (view c u ind) = some r := hs
      rw [hc ind l2, Option.map_eq_some_iff] at hs'
      obtain ⟨x, hx, e⟩ := hs'
      rw [← e]
      exact mul_le_mul_of_nonneg_left
        (b2 0 (ind / ny) P ⟨Nat.one_pos, by rw [Nat.div_lt_iff_lt_mul hy]; exact l2, rfl, rfl⟩ x hx) hκ.le
  · rcases b3 with b3 | ⟨mat, ind, P', hL, hs⟩
    · rw [b3, mul_zero]; exact a1
    · obtain ⟨l1, l2, l3, -⟩ := hL
      obtain rfl : mat = 0 := by omega
      obtain rfl : P = P' := by simpa using l3
      have hi : ind * ny < nx * ny := Nat.mul_lt_mul_of_pos_right l2 hy
      refine a2 0 (ind * ny) P ⟨Nat.one_pos, hi, rfl, rfl⟩ _ ?_
      have hs' : cellSpeed mae [dx] P (view c w ind) = some r' := hs
      have e := hc (ind * ny) hi
      rw [Nat.mul_div_cancel _ hy, hs'] at e
      exact e

/-- **The time steps agree** when the `CFL` of the plane is `κ` times that of the line, where `κ` is by how much the speeds
of a cell added up along both axes exceed the one along x. -/
theorem timestep_columns (P : Sys.Par) (nx ny : Nat) (hy : 0 < ny) (u w : Iter.Mem) (h : Columns c nx ny u w) (dx dy κ : ℝ)
    (hκ : 0 < κ) (hloc : ∀ q q' : St, (∀ k < c.V, q k = q' k) → ∀ d, mae P q d = mae P q' d)
    (hsp : ∀ j < nx, cellSpeed mae [dx, dy] P (view c w j) = (cellSpeed mae [dx] P (view c w j)).map (κ * ·))
    (CFL t tf : ℝ) (count : Nat) :
    timestep c mae [u] [fun _ => true] [dx, dy] (κ * CFL) t tf count [some P] 1 (nx * ny) =
      timestep c mae [w] [fun _ => true] [dx] CFL t tf count [some P] 1 nx := by
  unfold timestep
  rw [speed_columns c mae P nx ny hy u w h dx dy κ hκ hloc hsp]
  congr 1
  unfold quotient
  simp only [mul_eq_zero, hκ.ne', false_or, mul_pos_iff_of_pos_left hκ]
  have : κ * CFL < 0 ↔ CFL < 0 := by constructor <;> intro h <;> nlinarith
  simp only [this, mul_div_mul_left _ _ hκ.ne']

/-- Square cells and a speed that is the same along both axes: `κ = 2`. -/
example (P : Sys.Par) (nx ny : Nat) (hy : 0 < ny) (u w : Iter.Mem) (h : Columns c nx ny u w) (dx : ℝ) (speed : ℝ → ℝ)
    (CFL t tf : ℝ) (count : Nat) (hV : 0 < c.V) :
    timestep c (fun _ q _ => some (speed (q 0))) [u] [fun _ => true] [dx, dx] (2 * CFL) t tf count [some P] 1 (nx * ny) =
      timestep c (fun _ q _ => some (speed (q 0))) [w] [fun _ => true] [dx] CFL t tf count [some P] 1 nx := by
  refine timestep_columns c _ P nx ny hy u w h dx dx 2 two_pos (fun q q' e d => by simp only [e 0 hV]) (fun j _ => ?_) CFL t tf
    count
  simp [cellSpeed, List.range_succ]
  ring

end Time

/-! ### Whole runs -/

variable {c : Sys.Cfg} {n : Nat} (E : Env c n)

/-- Every pass of the run uses one of the steppers on the line and ends as `iterator.cpp:140-151` does. -/
def FollowsLine {W' : Type} (F : Tail c) (bt : Nat → BT) (split : Bool) (threads : Nat) (b : Body Iter.Mem W') (tf : ℝ)
    (u0 : Iter.Mem) (w0 : W') : Prop :=
  ∀ m s, Reach b tf u0 w0 m s → s.t < tf →
    ∃ u1, MovesLine E bt split threads (b.step s.u s.w s.t s.count).2.2 s.u u1 ∧
      finish F (s.count + 1) u1 = some (b.step s.u s.w s.t s.count).1

/-- Likewise on the plane. -/
def FollowsPlane {W' : Type} (F : Tail c) (bt : Nat → BT) (nc split : Bool) (threads : Nat) (b : Body Iter.Mem W') (tf : ℝ)
    (u0 : Iter.Mem) (w0 : W') : Prop :=
  ∀ m s, Reach b tf u0 w0 m s → s.t < tf →
    ∃ u1, MovesPlane E bt nc split threads (b.step s.u s.w s.t s.count).2.2 s.u u1 ∧
      finish F (s.count + 1) u1 = some (b.step s.u s.w s.t s.count).1

/-- **A plane run whose data do not vary along y is a line run.**  With `NO_CORNERS` off, open ends along y and equal time
steps, the field after every pass and every snapshot of the plane are columns of those of the line, at the same times, for
any numbers and schedules of threads. -/
theorem run_columns {W1 W2 : Type} (F : Tail c) (W : Weno.Setup n) (undef : ℝ) (it : Nat) (tol : ℝ) (hv : c.viscous = true)
    (hE : E.Ok) (hX : E.Explicit W undef it tol) (hds : ∀ f, E.destress = some f → OneCell c f) (bt : Nat → BT)
    (h0 : bt 0 ≠ .other) (h1 : bt 1 ≠ .other) (h2 : Open (bt 2)) (h3 : Open (bt 3)) (split : Bool) (threads threads' : Nat)
    (hT : 0 < threads) (hT' : 0 < threads') (hF : F.ncell = E.nx * E.ny) (b : Body Iter.Mem W1) (b' : Body Iter.Mem W2)
    (tf : ℝ) (u0 u0' : Iter.Mem) (w0 : W1) (w0' : W2) (hu0 : Columns c E.nx E.ny u0 u0')
    (hb : FollowsPlane E F bt false split threads b tf u0 w0)
    (hb' : FollowsLine E (F.on E.nx) bt split threads' b' tf u0' w0')
    (hdt : ∀ m s s', Reach b tf u0 w0 m s → Reach b' tf u0' w0' m s' → Twin (Columns c E.nx E.ny) s s' → s.t < tf →
      (b.step s.u s.w s.t s.count).2.2 = (b'.step s'.u s'.w s'.t s'.count).2.2)
    (hset : split = false → ∀ m s', Reach b' tf u0' w0' m s' → s'.t < tf →
      Settles E bt (b'.step s'.u s'.w s'.t s'.count).2.2 s'.u)
    (hnan : ∀ u w, Columns c E.nx E.ny u w → b.isNaN u = b'.isNaN w) {m : Nat} {s : Vars Iter.Mem W1}
    (hs : Reach b tf u0 w0 m s) :
    ∃ s', Reach b' tf u0' w0' m s' ∧ Twin (Columns c E.nx E.ny) s s' ∧
      ∀ ret v, pass b tf s = .done ret v → ∃ ret' v', pass b' tf s' = .done ret' v' ∧
        ∀ k, Option.Rel (Columns c E.nx E.ny) (ret k) (ret' k) := by
  have hx0 : 0 < E.nx := by have := hE.wide.1; have := hE.tab.pos; omega
  have hy0 : 0 < E.ny := by have := hE.wide.2; have := hE.tab.pos; omega
  have hk : Keeps b b' tf (Columns c E.nx E.ny) u0 w0 u0' w0' := by
    intro m s s' hs hs' ht hlt
    have hlt' : s'.t < tf := ht.t ▸ hlt
    have e := hdt m s s' hs hs' ht hlt
    refine ⟨?_, e⟩
    obtain ⟨u1, a1, a2⟩ := hb m s hs hlt
    obtain ⟨w1, c1, c2⟩ := hb' m s' hs' hlt'
    rw [e] at a1
    have hcol := moves_columns E W undef it tol hv hE hX hds bt h0 h1 h2 h3 split threads threads' hT hT' _ s.u s'.u u1 w1
      ht.u (fun hsp => hset hsp m s' hs' hlt') a1 c1
    rw [← ht.count] at c2
    have := finish_copy F hv E.nx (· / E.ny) (fun i hi => by rw [hF] at hi; exact (Nat.div_lt_iff_lt_mul hy0).2 hi)
      (fun j hj => ⟨j * E.ny, by rw [hF]; exact Nat.mul_lt_mul_of_pos_right hj hy0, Nat.mul_div_cancel _ hy0⟩)
      (s.count + 1) u1 w1 _ _ (by rw [hF]; exact hcol) a2 c2
    rw [hF] at this
    rw [← ht.count]
    exact this
  obtain ⟨s', r1, r2, r3⟩ := runs_twin hnan u0 w0 u0' w0' hu0 hk hs
  exact ⟨s', r1, r2, fun ret v hd => by
    obtain ⟨ret', v', q1, -, q3⟩ := r3 ret v hd
    exact ⟨ret', v', q1, q3⟩⟩

/-! ### `NO_CORNERS` -/

theorem total_columns (nx ny : Nat) (u w : Iter.Mem) (h : Columns c nx ny u w) (k : Nat) (hk : k < c.V) :
    total c (nx * ny) u k = ny * total c nx w k := by
  unfold total
  rw [sum_cells, Finset.mul_sum]
  refine Finset.sum_congr rfl fun x hx => ?_
  have : ∀ y ∈ Finset.range ny, u (cell x y ny * c.V + k) = w (x * c.V + k) := fun y hy => by
    have hx' := Finset.mem_range.1 hx
    have hy' := Finset.mem_range.1 hy
    have := h (cell x y ny) (Grid.flat_lt hx' hy') k hk
    simp only [(cell_div ny x y hy').1] at this
    exact this
  rw [Finset.sum_congr rfl this]
  simp

/-- **With the shipped `NO_CORNERS = true` it is not so.**  The plane of `corners_leak` does not vary along y.  After one
call of `split_stepper` it is not made of columns of what any stepper makes of the line. -/
theorem columns_corners_false (nx : Nat) (hn : 4 ≤ nx) {T : Tab 2} (W : Weno.Setup 2) (undef : ℝ) (mae : St → Fin 3 → ℝ) (dx dy : ℝ) (h : T.Ok)
    (hW : W.Clean) (hx : W.x = T.nodes) (dt : ℝ) (hdx : dx ≠ 0) (hdt : dt ≠ 0) :
    let E := planeEnv nx T W undef mae dx dy
    ∃ w : Iter.Mem, Columns lineCfg nx 2 (planeField nx 0) w ∧ ∃ ub, Pad2 E (planeField nx 0) ub ∧ ∀ maskb,
    let K := kern2 E.sys E.T E.fl (fun _ => dt) E.dx E.dy false
    let mask := Grid.extendMask2 E.nx E.ny (fun _ => true) maskb
    let w1 := before2 E.coef true (E.ode dt) E.half (E.mid2 dt) E.block K ub E.nx E.ny mask (cellsOf lineCfg (planeField nx 0))
    (∀ i < nx * 2, E.Number dt (w1 i)) → ∀ u' : Iter.Mem, (∀ i < nx * 2, ∀ v : Fin lineCfg.V, u' (i * lineCfg.V + v) =
        apply (withOde (E.ode dt) K.app) (split2 E.coef true (E.ode dt) E.half (E.mid2 dt) E.block K ub E.nx E.ny mask)
          (cellsOf lineCfg (planeField nx 0)) i v) →
      ∀ w', Stepped E nx dt w w' → ¬ Columns lineCfg nx 2 u' w' := by
  intro E
  obtain ⟨hE, -, -, ub, hp, -, hl⟩ := corners_leak nx W undef mae dx dy hn h hW hx dt hdx hdt
  let w : Iter.Mem := fun k => if k % 14 = 0 then dens (k / 14) else base (k % 14)
  have hc : Columns lineCfg nx 2 (planeField nx 0) w := by
    intro i hi k hk
    change k < 14 at hk
    change (planeField nx 0) (i * 14 + k) = w (i / 2 * 14 + k)
    unfold planeField
    simp only [w]
    have e1 : (i * 14 + k) % 14 = k := by omega
    have e2 : (i / 2 * 14 + k) % 14 = k := by omega
    have e3 : (i * 14 + k) / 14 = i := by omega
    have e4 : (i / 2 * 14 + k) / 14 = i / 2 := by omega
    rw [e1, e2, e3, e4, Nat.add_zero, Nat.mod_eq_of_lt (show i / 2 < nx by omega)]
  refine ⟨w, hc, ub, hp, ?_⟩
  intro maskb K mask w1 hN u' hu' w' hw' hcol
  refine (hl maskb).2 hN u' hu' ?_
  have e1 := total_columns nx 2 _ _ hcol 4 (by decide)
  have e2 := total_columns nx 2 _ _ hc 4 (by decide)
  have e3 := stepped_total E rfl hE nx dt w w' hw' 4 (by norm_num)
  have e4 : force E.P 4 = 0 := by simp [force, E, planeEnv, samplePar]
  rw [e4] at e3
  rw [e3] at e1
  change total lineCfg (nx * 2) u' 4 = total lineCfg (nx * 2) (planeField nx 0) 4
  rw [e1, e2]
  simp

/-! ### An example -/

/-- A field from a table of cells. -/
def memOfCells (c : Sys.Cfg) (hV : 0 < c.V) (w : Nat → Fin c.V → ℝ) : Iter.Mem :=
  fun k => w (k / c.V) ⟨k % c.V, Nat.mod_lt _ hV⟩

theorem memOfCells_get (hV : 0 < c.V) (w : Nat → Fin c.V → ℝ) (i : Nat) (v : Fin c.V) :
    memOfCells c hV w (i * c.V + v) = w i v := by
  unfold memOfCells
  have e1 : (i * c.V + v) / c.V = i := by
    rw [Nat.mul_comm, Nat.mul_add_div hV, Nat.div_eq_of_lt v.2, Nat.add_zero]
  have e2 : (i * c.V + v) % c.V = v := by
    rw [Nat.mul_comm, Nat.mul_add_mod, Nat.mod_eq_of_lt v.2]
  simp only [e1, e2]

/-- The split stepper runs on every line. -/
theorem movesLine_exists (hV : 0 < c.V) (hE : E.Ok) (bt : Nat → BT) (h0 : bt 0 ≠ .other) (h1 : bt 1 ≠ .other) (threads : Nat)
    (dt : ℝ) (u : Iter.Mem) : ∃ u', MovesLine E bt true threads dt u u' := by
  obtain ⟨m', hm, -⟩ := Grid.boundaries_1d ⟨n, E.destress⟩ E.nx (bt 0) (bt 1) (memOf c u fun _ _ => 0) hE.wide.1 h0 h1
  obtain ⟨l, hl⟩ := schedule_exists threads (splitWorker1 E.coef (E.ode dt) E.half (E.mid1 dt) (fun q => q)
    (kern1 E.sys E.T E.fl (fun _ => dt) E.dx false) (fun k v => m' (true, k) v) E.nx
    (Grid.extendMask1 E.nx (fun _ => true) fun _ => false) threads)
  refine ⟨memOfCells c hV (apply (withOde (E.ode dt) (kern1 E.sys E.T E.fl (fun _ => dt) E.dx false).app) (l.map Prod.snd)
    (cellsOf c u)), fun k v => m' (true, k) v, fun _ => false, ⟨fun _ _ => 0, m', hm, fun _ _ => rfl⟩, ?_⟩
  simp only [if_true]
  exact ⟨l, hl, fun i _ v => memOfCells_get hV _ i v⟩

/-- And on every plane. -/
theorem movesPlane_exists (hV : 0 < c.V) (hE : E.Ok) (bt : Nat → BT) (h0 : bt 0 ≠ .other) (h1 : bt 1 ≠ .other)
    (h2 : bt 2 ≠ .other) (h3 : bt 3 ≠ .other) (nc : Bool) (threads : Nat) (dt : ℝ) (u : Iter.Mem) :
    ∃ u', MovesPlane E bt nc true threads dt u u' := by
  obtain ⟨m', hm, -⟩ := Grid.boundaries_2d ⟨n, E.destress⟩ E.nx E.ny (bt 0) (bt 1) (bt 2) (bt 3) (memOf c u fun _ _ => 0)
    hE.wide.1 hE.wide.2 h0 h1 h2 h3
  obtain ⟨l, hl⟩ := schedule_exists threads (splitWorker2 E.coef nc (E.ode dt) E.half (E.mid2 dt) E.block
    (kern2 E.sys E.T E.fl (fun _ => dt) E.dx E.dy false) (fun k v => m' (true, k) v) E.nx E.ny
    (Grid.extendMask2 E.nx E.ny (fun _ => true) fun _ => false) threads)
  refine ⟨memOfCells c hV (apply (withOde (E.ode dt) (kern2 E.sys E.T E.fl (fun _ => dt) E.dx E.dy false).app) (l.map Prod.snd)
    (cellsOf c u)), fun k v => m' (true, k) v, fun _ => false, ⟨fun _ _ => 0, m', hm, fun _ _ => rfl⟩, ?_⟩
  simp only [if_true]
  exact ⟨l, hl, fun i _ v => memOfCells_get hV _ i v⟩

/-- Any data along a line of 8 cells between a slip wall and an open end, and the same on 6 columns: with the split scheme,
three threads on the plane and one on the line, both runs exist, and the plane is made of columns of the line throughout. -/
example (T : Tab 2) (h : T.Ok) (W : Weno.Setup 2)
    (fl : Nat → (Fin lineCfg.V → ℝ) → (Fin lineCfg.V → ℝ) → (Fin lineCfg.V → ℝ)) (u0 u0' : Iter.Mem)
    (hu : Columns lineCfg 8 6 u0 u0') :
    ∃ b b' : Body Iter.Mem Unit, ∀ m s, Reach b 1 u0 () m s →
      ∃ s', Reach b' 1 u0' () m s' ∧ Twin (Columns lineCfg 8 6) s s' := by
  have hVpos : 0 < lineCfg.V := by have := Iter.V_ge lineCfg rfl; omega
  let E := boxEnv T h W fl (fun _ => .nan) fun _ => .nan
  have hE : E.Ok := ⟨h, ⟨by simp [E, boxEnv], by simp [E, boxEnv]⟩, fun _ => ⟨0, rfl⟩,
    fun A => (Grid.svd_exists A).choose_spec.choose_spec.choose_spec.1⟩
  have hF : boxTail.Ok := ⟨(lineTail_ok 2).svd, (lineTail_ok 2).sv, (lineTail_ok 2).mats⟩
  have hF' : (boxTail.on 8).Ok := ⟨(lineTail_ok 2).svd, (lineTail_ok 2).sv, (lineTail_ok 2).mats⟩
  have hX : E.Explicit W 0 4 0 := ⟨rfl, fun dt => ⟨_, _, fun w => (isStep1_exists h boxSys _ dt (1 / 10)).choose_spec, rfl⟩,
     fun dt => ⟨_, _, fun w => (isStep2_exists h boxSys _ dt (1 / 10) 1).choose_spec, rfl⟩, fun _ => rfl, fun _ => rfl, rfl⟩
  let bt : Nat → BT := fun k => if k = 0 then .slip else if k = 1 then .transmissive else .periodic
  have ex : ∀ (u : Iter.Mem) (count : Nat), ∃ u1 u', MovesPlane E bt false true 3 (1 / 10) u u1 ∧
      finish boxTail (count + 1) u1 = some u' := fun u count => by
    obtain ⟨u1, h1⟩ := movesPlane_exists E hVpos hE bt (by decide) (by decide) (by decide) (by decide) false 3 (1 / 10) u
    obtain ⟨u', h', -⟩ := finish_spec boxTail rfl hF (count + 1) u1
    exact ⟨u1, u', h1, h'⟩
  have ex' : ∀ (u : Iter.Mem) (count : Nat), ∃ u1 u', MovesLine E bt true 1 (1 / 10) u u1 ∧
      finish (boxTail.on 8) (count + 1) u1 = some u' := fun u count => by
    obtain ⟨u1, h1⟩ := movesLine_exists E hVpos hE bt (by decide) (by decide) 1 (1 / 10) u
    obtain ⟨u', h', -⟩ := finish_spec (boxTail.on 8) rfl hF' (count + 1) u1
    exact ⟨u1, u', h1, h'⟩
  let b : Body Iter.Mem Unit := ⟨fun u _ _ count => ((ex u count).choose_spec.choose, (), 1 / 10), fun _ => false⟩
  let b' : Body Iter.Mem Unit := ⟨fun u _ _ count => ((ex' u count).choose_spec.choose, (), 1 / 10), fun _ => false⟩
  refine ⟨b, b', fun m s hs => ?_⟩
  obtain ⟨s', h1, h2, -⟩ := run_columns E boxTail W 0 4 0 rfl hE hX (fun f hf => (nomatch hf)) bt (by decide) (by decide)
    (Or.inr rfl) (Or.inr rfl) true 3 1 (by norm_num) (by norm_num) rfl b b' 1 u0 u0' () () hu
    (fun m s _ _ => ⟨_, (ex s.u s.count).choose_spec.choose_spec.1, (ex s.u s.count).choose_spec.choose_spec.2⟩)
    (fun m s _ _ => ⟨_, (ex' s.u s.count).choose_spec.choose_spec.1, (ex' s.u s.count).choose_spec.choose_spec.2⟩)
    (fun _ _ _ _ _ _ _ => rfl) (fun h => (nomatch h)) (fun _ _ _ => rfl) hs
  exact ⟨s', h1, h2⟩

end

end Verif.Run
