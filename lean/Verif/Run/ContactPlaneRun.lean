import Verif.Run.ContactPlane

/-! # Runs with two materials next to each other on a plane -/

namespace Verif.Run

open Verif.Sys Verif.Iter Verif.Dg Verif.Fv Verif.Step Verif.Grid Verif.Rot

noncomputable section

variable {c : Sys.Cfg}

/-- `renormalize_levelsets` on a plane with one level set, fill.cpp:340: `u1` is `u` with the distance function in the place of the
level set. -/
def Renormed2 (c : Sys.Cfg) (nx ny : Nat) (dx dy eps : ℝ) (u u1 : Iter.Mem) : Prop :=
  ∃ g fuel d, nx * ny < fuel ∧
    March.renormalize ⟨March.gridOf [nx, ny], fun a => if a = 0 then dx else dy, fun _ => 0, eps⟩ fuel
      [(fun j => u (j * c.V + (c.V - 1)), g)] = .ok [d] ∧
    ∀ j < nx * ny, d j = some (u1 (j * c.V + (c.V - 1))) ∧ ∀ v < c.V - 1, u1 (j * c.V + v) = u (j * c.V + v)

/-- One pass with two materials on a plane and `split_stepper`, iterator.cpp:110-151, as `TwoPass`. -/
def TwoPass2 (E0 E1 : Env c 1) (Z : StarSet c) (F : Tail c) (eps : ℝ) (b : Nat → BT) (nc : Bool) (threads layers count : Nat) (dt0 dt : ℝ)
    (u u' : Iter.Mem) : Prop :=
  ∃ (u1 u2 : Iter.Mem) (junk : Nat → Nat → ℝ) (lev : Nat → ℝ) (order : Nat → List Nat),
    Renormed2 c E0.nx E0.ny E0.dx E0.dy eps u u1 ∧
    (∀ j < E0.nx * E0.ny, lev j = u1 (j * c.V + (c.V - 1))) ∧ (∀ m, (order m).Perm (List.range (E0.nx * E0.ny))) ∧
    MovesMulti2 [some E0, some E1] (levFronts2 E0.nx E0.ny E0.dx E0.dy lev junk (starOf Z [some E0.P, some E1.P] dt0) order layers)
      E0.nx E0.ny E0.dx E0.dy b nc true threads dt u1 u2 ∧
    finish F count u2 = some u'

/-- Every pass of the run is such a pass. -/
def FollowsTwo2 {W' : Type} (E0 E1 : Env c 1) (Z : StarSet c) (F : Tail c) (eps : ℝ) (bt : Nat → BT) (nc : Bool) (threads layers : Nat)
    (b : Body Iter.Mem W') (tf : ℝ) (u0 : Iter.Mem) (w0 : W') : Prop :=
  ∀ m s, Reach b tf u0 w0 m s → s.t < tf → ∃ dt0,
    TwoPass2 E0 E1 Z F eps bt nc threads layers (s.count + 1) dt0 (b.step s.u s.w s.t s.count).2.2 s.u (b.step s.u s.w s.t s.count).1

theorem distance_plane_crosses (nx ny k : Nat) (hny : 0 < ny) (dx dy x0 eps : ℝ) (hdx : 0 < dx) (hdy : 0 < dy) (heps : 0 ≤ eps) (hk : 2 ≤ k)
    (hkx : k + 1 < nx) (lev phi : Nat → ℝ) (hphi : ∀ j < nx * ny, phi j = lev (j / ny)) (hc : Crosses nx k dx x0 eps lev) (g : March.Garbage)
    (fuel : Nat) (hfuel : nx * ny < fuel) :
    ∃ d, March.renormalize ⟨March.gridOf [nx, ny], fun a => if a = 0 then dx else dy, fun _ => 0, eps⟩ fuel [(phi, g)] = .ok [d] ∧
      ∀ j < nx * ny, d j = some ((((j / ny : ℕ) : ℝ) + 1 / 2) * dx - x0) := by
  obtain ⟨c1, c2, c3⟩ := hc
  obtain ⟨r, hr, hd⟩ := March.distance_front_first (n := nx) (m := ny) (k := k) hny (dx := fun a => if a = 0 then dx else dy) (f := lev)
    (eps := eps) (fun d => by split_ifs <;> assumption) heps (by omega) (by omega) c1 c2 phi hphi g fuel hfuel
  refine ⟨r.dist, ?_, fun j hj => ?_⟩
  · simp only [March.renormalize, hr]
    rfl
  · rw [hd j hj]
    simp only [if_true]
    rw [c3]
    congr 1
    ring

/-- What is fixed in a run with two materials side by side on a plane that move with the velocities `w` and `w'`. -/
structure ContactPlane (c : Sys.Cfg) (E0 E1 : Env c 1) (Z : StarSet c) (F : Tail c) (b : Nat → BT) (w w' : V3) (Q0 Q1 : St) (W : Weno.Setup 1)
    (undef : ℝ) (it : Nat) (tol : ℝ) : Prop where
  viscous : c.viscous = true
  thermal : c.thermal = false
  multi : c.multi = false
  lset : c.lset = 1
  rest0 : Rests c E0.P w Q0
  rest1 : Rests c E1.P w' Q1
  slides : Slides Z.stick w w'
  pressures : pressure c E0.P Q0 = pressure c E1.P Q1
  nx : E1.nx = E0.nx
  ny : E1.ny = E0.ny
  width : 3 ≤ E0.ny
  dx : E1.dx = E0.dx
  dxpos : 0 < E0.dx
  dypos : 0 < E0.dy
  ok0 : E0.Ok
  ok1 : E1.Ok
  explicit0 : E0.Explicit W undef it tol
  explicit1 : E1.Explicit W undef it tol
  rusanov0 : E0.fl = rusanov c E0.P
  rusanov1 : E1.fl = rusanov c E1.P
  ends : ∀ s < 2, b s ≠ .periodic
  mirrors0 : ∀ s < 2, ∀ x, Mirrors E0 (withLevel c Q0 x) 0 (b s)
  mirrors1 : ∀ s < 2, ∀ x, Mirrors E1 (withLevel c Q1 x) 0 (b s)
  sides0 : ∀ s < 4, 2 ≤ s → ∀ x, Mirrors E0 (withLevel c Q0 x) 1 (b s)
  sides1 : ∀ s < 4, 2 ≤ s → ∀ x, Mirrors E1 (withLevel c Q1 x) 1 (b s)
  fuel : 1 ≤ Z.fuel
  startol : 0 < Z.tol
  solid0 : 0 < E0.P.b02
  solid1 : 0 < E1.P.b02
  tail : F.Ok
  mats : F.MPs = [some E0.P, some E1.P]
  cells : F.ncell = E0.nx * E0.ny
  norot : F.rot = false
  contort : 0 ≤ F.tol

theorem planeFronts_eq (nx ny : Nat) (dx dy x0 : ℝ) (junk : Nat → Nat → ℝ) (star : Nat → St → St → Nat → List ℝ → St) (order : Nat → List Nat)
    (layers : Nat) : planeFronts nx ny dx dy x0 junk star order layers =
      levFronts2 nx ny dx dy (fun i => (((i / ny : Nat) : ℝ) + 1 / 2) * dx - x0) junk star order layers := by
  have : ∀ m i : Nat, (if m = 0 then (((i / ny : Nat) : ℝ) + 1 / 2) * dx - x0 else x0 - (((i / ny : Nat) : ℝ) + 1 / 2) * dx) =
      Fill.indicator 1 (fun _ => (((i / ny : Nat) : ℝ) + 1 / 2) * dx - x0) m 2 := by
    intro m i
    by_cases h : m = 0 <;> simp [Fill.indicator, h]
  unfold planeFronts levFronts2
  simp only [this]

section run

variable {E0 E1 : Env c 1} {Z : StarSet c} {F : Tail c} {bt : Nat → BT} {w w' : V3} {Q0 Q1 : St} {W : Weno.Setup 1} {undef : ℝ} {it : Nat} {tol : ℝ}
  (C : ContactPlane c E0 E1 Z F bt w w' Q0 Q1 W undef it tol) (k : Nat) (x0 eps : ℝ) (heps : 0 ≤ eps) (hL : Lies E0.nx k E0.dx eps x0)
  (threads : Nat) (hT : 0 < threads) (layers : Nat) (hlay : 1 ≤ layers) (nc : Bool)

include C in
theorem contact_finish2 (lev : Nat → ℝ) (hs : (∀ j < k, lev j < 0) ∧ ∀ j < E0.nx, k ≤ j → 0 ≤ lev j) (count : Nat) (u u' : Iter.Mem)
    (hu : Halves2 c E0.nx E0.ny k Q0 Q1 lev u) (h : finish F count u = some u') : Halves2 c E0.nx E0.ny k Q0 Q1 lev u' := by
  obtain ⟨hV, hmV⟩ := contact_V C.viscous C.thermal C.multi C.lset
  have key := finish_calm F C.viscous C.tail C.multi C.norot C.contort count u u' (fun i hi => ?_) h
  · intro x hx y hy v hv
    rw [key _ (by rw [C.cells]; exact cell_lt hx hy) v hv]
    exact hu x hx y hy v hv
  · rw [C.cells] at hi
    obtain ⟨x, y, hx, hy, rfl⟩ := cells_cover hi
    have hA : getA (view c u (cell x y E0.ny)) = getA (if x < k then Q0 else Q1) := Relax.getA_congr _ _ fun w _ h2 => by
      unfold view
      rw [hu x hx y hy w (by omega), level_head C.viscous C.thermal C.multi C.lset _ _ _ h2]
    have h0 : u (cell x y E0.ny * c.V) = (if x < k then Q0 else Q1) 0 := by
      have := hu x hx y hy 0 (by omega)
      rw [level_head C.viscous C.thermal C.multi C.lset _ _ _ (by omega)] at this
      exact this
    have hlast : u (cell x y E0.ny * c.V + (c.V - 1)) = lev x := by rw [hu x hx y hy _ (by omega), level_last]
    have hidx : materialIndex c (view c u (cell x y E0.ny)) = if x < k then 0 else 1 := by
      rw [two_index C.lset]
      unfold view
      rw [hlast]
      by_cases h : x < k
      · rw [if_pos h, if_neg (not_le.2 (hs.1 x h))]
      · rw [if_neg h, if_pos (hs.2 x hx (by omega))]
    rw [hA, h0]
    unfold matAt
    rw [hidx, C.mats]
    by_cases h : x < k
    · simp only [if_pos h]
      refine ⟨by rw [C.rest0.mass]; exact mul_pos C.rest0.dense C.rest0.det, C.rest0.det, C.rest0.ease.strain, fun P hP => ?_⟩
      have : P = E0.P := by simpa using hP.symm
      rw [this, C.rest0.mass]
    · simp only [if_neg h]
      refine ⟨by rw [C.rest1.mass]; exact mul_pos C.rest1.dense C.rest1.det, C.rest1.det, C.rest1.ease.strain, fun P hP => ?_⟩
      have : P = E1.P := by simpa using hP.symm
      rw [this, C.rest1.mass]

include C heps hL

/-- After `renormalize_levelsets` the level set is the distance from the line at `x0`. -/
theorem contact_renormed2 (lev : Nat → ℝ) (hc : Crosses E0.nx k E0.dx x0 eps lev) (u u1 : Iter.Mem)
    (hu : Halves2 c E0.nx E0.ny k Q0 Q1 lev u) (h : Renormed2 c E0.nx E0.ny E0.dx E0.dy eps u u1) :
    Halves2 c E0.nx E0.ny k Q0 Q1 (fun j => ((j : ℝ) + 1 / 2) * E0.dx - x0) u1 := by
  obtain ⟨hV, hmV⟩ := contact_V C.viscous C.thermal C.multi C.lset
  have hw := C.width
  obtain ⟨g, fuel, d, hf, hr, hd⟩ := h
  obtain ⟨d', hr', hd'⟩ := distance_plane_crosses E0.nx E0.ny k (by omega) E0.dx E0.dy x0 eps C.dxpos C.dypos heps hL.1 hL.2.1 lev
    (fun j => u (j * c.V + (c.V - 1)))
    (fun j hj => by
      obtain ⟨x, y, hx, hy, rfl⟩ := cells_cover hj
      rw [hu x hx y hy _ (by omega), level_last, (cell_div E0.ny x y hy).1]) hc g fuel hf
  rw [hr] at hr'
  have e : d = d' := by simpa using hr'
  subst e
  intro x hx y hy v hv
  by_cases hv' : v = c.V - 1
  · have := (hd _ (cell_lt hx hy)).1
    rw [hd' _ (cell_lt hx hy), (cell_div E0.ny x y hy).1] at this
    rw [hv', ← Option.some.inj this, level_last]
  · rw [(hd _ (cell_lt hx hy)).2 v (by omega), hu x hx y hy v hv, level_head C.viscous C.thermal C.multi C.lset _ _ _ (by omega),
      level_head C.viscous C.thermal C.multi C.lset _ _ _ (by omega)]

theorem contact_renormed2_exists (lev : Nat → ℝ) (hc : Crosses E0.nx k E0.dx x0 eps lev) (u : Iter.Mem)
    (hu : Halves2 c E0.nx E0.ny k Q0 Q1 lev u) : ∃ u1, Renormed2 c E0.nx E0.ny E0.dx E0.dy eps u u1 := by
  obtain ⟨hV, hmV⟩ := contact_V C.viscous C.thermal C.multi C.lset
  have hw := C.width
  let φ : Nat → ℝ := fun j => (((j / E0.ny : Nat) : ℝ) + 1 / 2) * E0.dx - x0
  let u1 : Iter.Mem := fun j => if j % c.V = c.V - 1 then φ (j / c.V) else u j
  have hlast : ∀ j, u1 (j * c.V + (c.V - 1)) = φ j := by
    intro j
    have e1 : (j * c.V + (c.V - 1)) % c.V = c.V - 1 := by rw [hV]; omega
    have e2 : (j * c.V + (c.V - 1)) / c.V = j := by rw [hV]; omega
    simp only [u1, e1, if_true, e2]
  have hhead : ∀ j, ∀ v < c.V - 1, u1 (j * c.V + v) = u (j * c.V + v) := by
    intro j v hv
    have e1 : (j * c.V + v) % c.V ≠ c.V - 1 := by rw [hV] at hv ⊢; omega
    simp only [u1, e1, if_false]
  let g : March.Garbage := ⟨fun _ => 0, fun _ => 0, fun _ => 0, fun _ => 0, fun _ => 0⟩
  obtain ⟨d, hr, hd⟩ := distance_plane_crosses E0.nx E0.ny k (by omega) E0.dx E0.dy x0 eps C.dxpos C.dypos heps hL.1 hL.2.1 lev
    (fun j => u (j * c.V + (c.V - 1)))
    (fun j hj => by
      obtain ⟨x, y, hx, hy, rfl⟩ := cells_cover hj
      rw [hu x hx y hy _ (by omega), level_last, (cell_div E0.ny x y hy).1]) hc g (E0.nx * E0.ny + 1) (by omega)
  exact ⟨u1, g, E0.nx * E0.ny + 1, d, by omega, hr, fun j hj => ⟨by rw [hd j hj, hlast], hhead j⟩⟩

include hT

/-- Such a pass exists. -/
theorem contact_exists2 (lev : Nat → ℝ) (hc : Crosses E0.nx k E0.dx x0 eps lev) (count : Nat) (dt0 dt : ℝ) (u : Iter.Mem)
    (hu : Halves2 c E0.nx E0.ny k Q0 Q1 lev u) (hds0 : ∀ f, E0.destress = some f → OneCell c f)
    (hds1 : ∀ f, E1.destress = some f → OneCell c f) : ∃ u', TwoPass2 E0 E1 Z F eps bt false threads layers count dt0 dt u u' := by
  obtain ⟨h1, h2⟩ := crosses_range C.dxpos heps hL.1 hL.2.1 hc
  obtain ⟨u1, hten⟩ := contact_renormed2_exists C k x0 eps heps hL lev hc u hu
  have hu1 := contact_renormed2 C k x0 eps heps hL lev hc u u1 hu hten
  obtain ⟨hV, hmV⟩ := contact_V C.viscous C.thermal C.multi C.lset
  have hlast : ∀ x < E0.nx, ∀ y < E0.ny, u1 (cell x y E0.ny * c.V + (c.V - 1)) = ((x : ℝ) + 1 / 2) * E0.dx - x0 := fun x hx y hy => by
    rw [hu1 x hx y hy _ (by omega), level_last]
  have hno : ∀ s < 4, bt s ≠ .other := fun s hs => by
    by_cases h : s < 2
    · exact (C.mirrors0 s h 0).1
    · exact (C.sides0 s hs (by omega) 0).1
  obtain ⟨⟨u2, hmv⟩, -⟩ := two_plane C.lset E0.nx E0.ny C.width E0.dx E0.dy x0 C.dxpos C.dypos (fun _ _ => 0)
    (starOf Z [some E0.P, some E1.P] dt0) (fun _ => List.range (E0.nx * E0.ny)) (fun _ => .refl _) layers k hL.1 hL.2.1 h1 h2 u1 hlast E0 E1
    C.viscous C.ok0 C.ok1 ⟨rfl, rfl⟩ ⟨C.nx, C.ny⟩ hds0 hds1 bt hno threads hT dt
  rw [planeFronts_eq] at hmv
  obtain ⟨u', hf, -⟩ := finish_spec F C.viscous C.tail count u2
  refine ⟨u', u1, u2, fun _ _ => 0, _, _, hten, fun j hj => ?_, fun _ => .refl _, hmv, hf⟩
  obtain ⟨x, y, hx, hy, rfl⟩ := cells_cover hj
  rw [hlast x hx y hy]
  simp only [(cell_div E0.ny x y hy).1]

include hlay

/-- One pass. -/
theorem contact_two2 (lev : Nat → ℝ) (hc : Crosses E0.nx k E0.dx x0 eps lev) (count : Nat) (dt0 dt : ℝ) (u u' : Iter.Mem)
    (hu : Halves2 c E0.nx E0.ny k Q0 Q1 lev u) (hdt : 0 ≤ dt) (hs0 : dt * waveSpeed (c := c) E0.P Q0 ≤ E0.dx)
    (hs1 : dt * waveSpeed (c := c) E1.P Q1 ≤ E0.dx) (k' : Nat) (hL' : Lies E0.nx k' E0.dx eps (x0 + w 0 * dt))
    (h : TwoPass2 E0 E1 Z F eps bt nc threads layers count dt0 dt u u') :
    Halves2 c E0.nx E0.ny k' Q0 Q1 (levNext E0.nx E0.dx x0 (w 0) (waveSpeed (c := c) E0.P Q0) (waveSpeed (c := c) E1.P Q1) dt) u' ∧
      Crosses E0.nx k' E0.dx (x0 + w 0 * dt) eps
        (levNext E0.nx E0.dx x0 (w 0) (waveSpeed (c := c) E0.P Q0) (waveSpeed (c := c) E1.P Q1) dt) := by
  obtain ⟨h1, h2⟩ := crosses_range C.dxpos heps hL.1 hL.2.1 hc
  have cn := crosses_next E0.nx k k' E0.dx x0 eps (w 0) (waveSpeed (c := c) E0.P Q0) (waveSpeed (c := c) E1.P Q1) dt C.dxpos
    (rests_speed C.rest0) (C.slides.1 ▸ rests_speed C.rest1) hL hL' hs0 hs1
  obtain ⟨h1', h2'⟩ := crosses_range C.dxpos heps hL'.1 hL'.2.1 cn
  obtain ⟨u1, u2, junk, lev', order, hr, hl, ho, hmv, hf⟩ := h
  have hu1 := contact_renormed2 C k x0 eps heps hL lev hc u u1 hu hr
  have hu2 := contact_pass2 C.viscous C.thermal C.multi C.lset E0 E1 w w' Q0 Q1 C.rest0 C.rest1 C.pressures E0.nx E0.ny C.width E0.dx E0.dy x0
    C.dxpos C.dypos k hL.1 hL.2.1 h1 h2 ⟨rfl, rfl⟩ ⟨C.nx, C.ny⟩ rfl C.dx W undef it tol C.ok0 C.ok1 C.explicit0 C.explicit1 C.rusanov0 C.rusanov1
    bt C.ends C.mirrors0 C.mirrors1 C.sides0 C.sides1 threads hT Z C.fuel
    C.startol C.solid0 C.solid1 C.slides layers hlay order ho junk lev' dt0 dt u1 u2 hl hu1 hdt hs0 hs1 k' h1' h2' nc hmv
  exact ⟨contact_finish2 C k' _ ⟨cn.1, fun j hj hkj => heps.trans (cn.2.1 j hj hkj).le⟩ count u2 u' hu2 hf, cn⟩

/-- The field of a contact at the line `x` across the plane, as `ContactAt`. -/
def ContactAt2 (c : Sys.Cfg) (nx ny : Nat) (dx eps : ℝ) (Q0 Q1 : St) (x : ℝ) (exact : Prop) (u : Iter.Mem) : Prop :=
  ∃ (k : Nat) (lev : Nat → ℝ), Lies nx k dx eps x ∧ Halves2 c nx ny k Q0 Q1 lev u ∧ Crosses nx k dx x eps lev ∧
    (exact → ∀ i, 0 < i → i + 1 < nx → lev i = ((i : ℝ) + 1 / 2) * dx - x)

/-- **A contact across a plane is carried along with the velocity, exactly**, as `run_contact`; velocities along the surface have no
effect, and the materials may slide past each other unless `RIEMANN_STICK` is set. -/
theorem run_contact_plane {W' : Type} (b : Body Iter.Mem W') (tf : ℝ) (u0 : Iter.Mem) (w0 : W') (lev : Nat → ℝ)
    (hc : Crosses E0.nx k E0.dx x0 eps lev) (hu0 : Halves2 c E0.nx E0.ny k Q0 Q1 lev u0)
    (hb : FollowsTwo2 E0 E1 Z F eps bt nc threads layers b tf u0 w0)
    {m : Nat} (hcfl : ∀ m' s, m' < m → Reach b tf u0 w0 m' s → s.t < tf → 0 ≤ (b.step s.u s.w s.t s.count).2.2 ∧
      (b.step s.u s.w s.t s.count).2.2 * waveSpeed (c := c) E0.P Q0 ≤ E0.dx ∧
      (b.step s.u s.w s.t s.count).2.2 * waveSpeed (c := c) E1.P Q1 ≤ E0.dx)
    (hpos : ∀ m' s, m' ≤ m → Reach b tf u0 w0 m' s → ∃ k', Lies E0.nx k' E0.dx eps (x0 + w 0 * s.t))
    {s : Vars Iter.Mem W'} (hs : Reach b tf u0 w0 m s) :
    ContactAt2 c E0.nx E0.ny E0.dx eps Q0 Q1 (x0 + w 0 * s.t) (0 < m) s.u ∧
    ∀ j x, s.ret j = some x → ∃ m' s', m' ≤ m ∧ Reach b tf u0 w0 m' s' ∧ s'.u = x ∧
      ContactAt2 c E0.nx E0.ny E0.dx eps Q0 Q1 (x0 + w 0 * s'.t) True x := by
  have main : ∀ m' s, Reach b tf u0 w0 m' s → m' ≤ m → ContactAt2 c E0.nx E0.ny E0.dx eps Q0 Q1 (x0 + w 0 * s.t) (0 < m') s.u := by
    intro m' s hs
    induction hs with
    | start => exact fun _ => ⟨k, lev, by simpa using hL, hu0, by simpa using hc, fun h => by omega⟩
    | @step m' s s' hs hp ih =>
      intro hm
      have hs' := Reach.step hs hp
      obtain ⟨ht, -, eu, -, et, -⟩ := pass_next b tf hp
      obtain ⟨k1, lev', i0, i1, i2, -⟩ := ih (by omega)
      obtain ⟨dt0, h⟩ := hb m' s hs ht
      rw [← eu] at h
      obtain ⟨c0, c1, c2⟩ := hcfl m' s (by omega) hs ht
      obtain ⟨k2, hk2⟩ := hpos (m' + 1) s' hm hs'
      rw [et, mul_add, ← add_assoc] at hk2 ⊢
      obtain ⟨a1, a2⟩ := contact_two2 C k1 (x0 + w 0 * s.t) eps heps i0 threads hT layers hlay nc lev' i2 _ dt0 _ s.u s'.u i1 c0 c1 c2 k2 hk2 h
      refine ⟨k2, _, hk2, a1, a2, fun _ i hi hi' => ?_⟩
      unfold levNext
      rw [if_neg (by omega), if_neg (by omega), add_zero, sub_zero]
  refine ⟨main m s hs le_rfl, fun j x hx => ?_⟩
  obtain ⟨m', s', hm', hle, hr, rfl⟩ := snapshot_reached b tf u0 w0 hs j x hx
  obtain ⟨k', lev', a0, a1, a2, a3⟩ := main m' s' hr hle
  exact ⟨m', s', hle, hr, rfl, k', lev', a0, a1, a2, fun _ => a3 hm'⟩

end run

/-! ### Two gases in a channel -/

/-- Six rows of five cells in first order. -/
def channelEnv (P : Sys.Par) (T : Tab 1) (h : T.Ok) (W : Weno.Setup 1) : Env paceCfg 1 := { contactEnv P T h W with ny := 5 }

def channelTail : Tail paceCfg := { contactTail with ncell := 30 }

/-- A state as `boat` with the velocity `y` in the second direction. -/
def skiff (r e v y : ℝ) : St := fun i => if i = 1 then e + r * (v ^ 2 + y ^ 2) / 2 else if i = 3 then r * y else boat r e v i

theorem skiff_A (r e v y : ℝ) : getA (skiff r e v y) = 1 := by
  ext i j
  fin_cases i <;> fin_cases j <;> simp [getA, skiff, boat, stateAtRest]

theorem skiff_rests (P : Sys.Par) (r e v y : ℝ) (hm : P.multi = false) (hr : 0 < P.ρ0) (h0 : r = P.ρ0) (hd : P.δp = 0)
    (hi : ¬ P.reaction > -1) : Rests paceCfg P ![v, y, 0] (skiff r e v y) := by
  refine ⟨⟨?_, by simp [paceCfg], hd, hi⟩, fun i => ?_, hr, by rw [skiff_A]; simp, ?_, hm⟩
  · rw [skiff_A]
    ext i j
    fin_cases i <;> fin_cases j <;> simp [AdevG] <;> norm_num
  · fin_cases i <;> simp [skiff, boat, stateAtRest]
  · rw [skiff_A]; simp [skiff, boat, h0]

theorem skiff_pressure (P : Sys.Par) (r e v y : ℝ) (hm : P.multi = false) (hr : r ≠ 0) (hi : ¬ P.reaction > -1) :
    pressure paceCfg P (skiff r e v y) = pressureMG P.toParams r (e / r) := by
  have hd : devGsq (getA (skiff r e v y)) = 0 := by
    rw [skiff_A]; simp [devGsq, dot3]; norm_num
  have hE3 : E3 (vel (skiff r e v y)) = (v ^ 2 + y ^ 2) / 2 := by
    simp only [E3, sq3, vel, getRv, skiff, boat, stateAtRest]
    norm_num
    field_simp
  have h2 : E2A P.toParams (skiff r e v y 0) (getA (skiff r e v y)) = 0 := by rw [E2A, hd, mul_zero]
  have h1 : skiff r e v y 1 / skiff r e v y 0 - (v ^ 2 + y ^ 2) / 2 = e / r := by
    simp only [skiff, boat]
    norm_num
    field_simp
    ring
  simp only [pressure, internalEnergy, hE3, h2, hm, hi, h1]
  simp [paceCfg, skiff, boat]

theorem skiffs_pressure (v y y' : ℝ) :
    pressure paceCfg (samplePar sample) (skiff 1 5 v y) = pressure paceCfg heavyPar (skiff 3 (5 / 2) v y') := by
  rw [skiff_pressure _ _ _ _ _ rfl (by norm_num) (by norm_num [samplePar]),
    skiff_pressure _ _ _ _ _ rfl (by norm_num) (by norm_num [heavyPar, samplePar])]
  norm_num [heavyPar, samplePar, sample, pressureMG, eRef, pRef, gammaMG]

theorem channel_case (T : Tab 1) (h : T.Ok) (W : Weno.Setup 1) (S : Riemann.Solvers) (svd : M3 → M3 × V3 × M3) (v y y' : ℝ)
    (bt : Nat → BT) (hbt : ∀ s < 2, bt s = .transmissive) (hbs : ∀ s < 4, 2 ≤ s → bt s = .periodic) :
    ContactPlane paceCfg (channelEnv (samplePar sample) T h W) (channelEnv heavyPar T h W) ⟨false, true, 1 / 10 ^ 8, S, svd, fun _ _ => 0, 11⟩
      channelTail bt ![v, y, 0] ![v, y', 0] (skiff 1 5 v y) (skiff 3 (5 / 2) v y') W 0 4 0 := by
  have hok : ∀ P, (channelEnv P T h W).Ok := fun P => ⟨h, ⟨by simp [channelEnv, contactEnv], by simp [channelEnv]⟩, fun _ => ⟨0, rfl⟩,
    fun A => (Grid.svd_exists A).choose_spec.choose_spec.choose_spec.1⟩
  have hX : ∀ P, (channelEnv P T h W).Explicit W 0 4 0 := fun P =>
    ⟨rfl, fun dt => ⟨_, _, fun _ => (isStep1_exists h _ _ dt (1 / 10)).choose_spec, rfl⟩,
     fun dt => ⟨_, _, fun _ => (isStep2_exists h _ _ dt (1 / 10) 1).choose_spec, rfl⟩, fun _ => rfl, fun _ => rfl, rfl⟩
  have light : Rests paceCfg (channelEnv (samplePar sample) T h W).P ![v, y, 0] (skiff 1 5 v y) :=
    skiff_rests (samplePar sample) _ _ _ _ rfl (by norm_num [samplePar, sample]) rfl rfl (by norm_num [samplePar])
  have heavy : Rests paceCfg (channelEnv heavyPar T h W).P ![v, y', 0] (skiff 3 (5 / 2) v y') :=
    skiff_rests heavyPar _ _ _ _ rfl (by norm_num [heavyPar, samplePar]) rfl rfl (by norm_num [heavyPar, samplePar])
  have press : pressure paceCfg (channelEnv (samplePar sample) T h W).P (skiff 1 5 v y) =
      pressure paceCfg (channelEnv heavyPar T h W).P (skiff 3 (5 / 2) v y') := skiffs_pressure v y y'
  exact {
    viscous := rfl
    thermal := rfl
    multi := rfl
    lset := rfl
    rest0 := light
    rest1 := heavy
    slides := ⟨rfl, fun h => nomatch h⟩
    pressures := press
    nx := rfl
    ny := rfl
    width := by norm_num [channelEnv]
    dx := rfl
    dxpos := by change (0 : ℝ) < 1 / 10; norm_num
    dypos := by change (0 : ℝ) < 1; norm_num
    ok0 := hok _
    ok1 := hok _
    explicit0 := hX _
    explicit1 := hX _
    rusanov0 := rfl
    rusanov1 := rfl
    ends := fun s hs => by rw [hbt s hs]; decide
    mirrors0 := fun s hs x => by rw [hbt s hs]; exact mirrors_open _ _ 0 _ (Or.inl rfl)
    mirrors1 := fun s hs x => by rw [hbt s hs]; exact mirrors_open _ _ 0 _ (Or.inl rfl)
    sides0 := fun s hs h2 x => by rw [hbs s hs h2]; exact mirrors_open _ _ 1 _ (Or.inr rfl)
    sides1 := fun s hs h2 x => by rw [hbs s hs h2]; exact mirrors_open _ _ 1 _ (Or.inr rfl)
    fuel := by norm_num
    startol := by norm_num
    solid0 := by change (0 : ℝ) < 1; norm_num
    solid1 := by change (0 : ℝ) < 1; norm_num
    tail := ⟨fun A => ⟨_, (Grid.svd_exists A).choose_spec.choose_spec.choose_spec.1⟩,
      fun A => ⟨_, _, (Grid.svd_exists A).choose_spec.choose_spec.choose_spec.1⟩, by simp [channelTail, contactTail, paceCfg]⟩
    mats := rfl
    cells := rfl
    norot := rfl
    contort := by norm_num [channelTail, contactTail] }

/-- Two gases at velocity one along a channel that is periodic across, one moving across it in one direction and the other in the
opposite one: a pass carries the surface over the centres of a row of cells,
which held the second gas and then hold the first one. -/
example (T : Tab 1) (h : T.Ok) (W : Weno.Setup 1) (S : Riemann.Solvers) (svd : M3 → M3 × V3 × M3) :
    ∃ (eps dt : ℝ) (lev lev' : Nat → ℝ) (u u' : Iter.Mem), 0 < eps ∧ 0 < dt ∧
      Halves2 paceCfg 6 5 3 (skiff 1 5 1 2) (skiff 3 (5 / 2) 1 (-3)) lev u ∧
      TwoPass2 (channelEnv (samplePar sample) T h W) (channelEnv heavyPar T h W) ⟨false, true, 1 / 10 ^ 8, S, svd, fun _ _ => 0, 11⟩ channelTail
        eps (fun s => if s < 2 then .transmissive else .periodic) false 3 2 1 dt dt u u' ∧
      Halves2 paceCfg 6 5 4 (skiff 1 5 1 2) (skiff 3 (5 / 2) 1 (-3)) lev' u' := by
  have C := channel_case T h W S svd 1 2 (-3) (fun s => if s < 2 then .transmissive else .periodic) (fun s hs => if_pos hs)
    (fun s _ hs => if_neg (by omega))
  set E0 := channelEnv (samplePar sample) T h W with hE0
  set E1 := channelEnv heavyPar T h W with hE1
  set Z : StarSet paceCfg := ⟨false, true, 1 / 10 ^ 8, S, svd, fun _ _ => 0, 11⟩ with hZ
  let s0 := waveSpeed (c := paceCfg) E0.P (skiff 1 5 1 2)
  let s1 := waveSpeed (c := paceCfg) E1.P (skiff 3 (5 / 2) 1 (-3))
  obtain ⟨dt, hdt, hsmall, hd0, hd1⟩ : ∃ dt : ℝ, 0 < dt ∧ dt ≤ 1 / 10 ∧ dt * s0 ≤ 1 / 10 ∧ dt * s1 ≤ 1 / 10 := by
    have hpos : 0 < 1 + |s0| + |s1| := by positivity
    refine ⟨1 / 10 / (1 + |s0| + |s1|), by positivity, ?_, ?_, ?_⟩
    · rw [div_le_iff₀ hpos]
      nlinarith [abs_nonneg s0, abs_nonneg s1]
    · rw [div_mul_eq_mul_div, div_le_iff₀ hpos]
      nlinarith [le_abs_self s0, abs_nonneg s1]
    · rw [div_mul_eq_mul_div, div_le_iff₀ hpos]
      nlinarith [le_abs_self s1, abs_nonneg s0]
  have hL : Lies E0.nx 3 E0.dx (dt / 4) (7 / 20 - dt / 2) := by
    change Lies 6 3 (1 / 10) (dt / 4) (7 / 20 - dt / 2)
    refine ⟨by norm_num, by norm_num, ?_, ?_⟩ <;> push_cast <;> linarith
  have hL' : Lies E0.nx 4 E0.dx (dt / 4) (7 / 20 - dt / 2 + (![(1 : ℝ), 2, 0] : V3) 0 * dt) := by
    change Lies 6 4 (1 / 10) (dt / 4) (7 / 20 - dt / 2 + 1 * dt)
    refine ⟨by norm_num, by norm_num, ?_, ?_⟩ <;> push_cast <;> linarith
  let lev : Nat → ℝ := fun i => ((i : ℝ) + 1 / 2) * (1 / 10) - (7 / 20 - dt / 2)
  have hc : Crosses 6 3 (1 / 10) (7 / 20 - dt / 2) (dt / 4) lev := by
    refine ⟨fun j hj => ?_, fun j hj hk => ?_, ?_⟩
    · interval_cases j <;> simp only [lev] <;> push_cast <;> linarith
    · interval_cases j <;> simp only [lev] <;> push_cast <;> linarith
    · simp only [lev]
      norm_num
      ring
  let u : Iter.Mem := fun a => withLevel paceCfg (if a / 15 / 5 < 3 then skiff 1 5 1 2 else skiff 3 (5 / 2) 1 (-3)) (lev (a / 15 / 5)) (a % 15)
  have hu : Halves2 paceCfg 6 5 3 (skiff 1 5 1 2) (skiff 3 (5 / 2) 1 (-3)) lev u := by
    intro x hx y hy v hv
    have hv15 : v < 15 := hv
    have e1 : (cell x y 5 * 15 + v) / 15 / 5 = x := by unfold cell; omega
    have e2 : (cell x y 5 * 15 + v) % 15 = v := by omega
    change u (cell x y 5 * 15 + v) = _
    simp only [u, e1, e2]
  obtain ⟨u', hp⟩ := contact_exists2 C 3 _ (dt / 4) (by positivity) hL 3 (by norm_num) 2 lev hc 1 dt dt u hu (fun f hf => nomatch hf)
    (fun f hf => nomatch hf)
  exact ⟨dt / 4, dt, lev, _, u, u', by positivity, hdt, hu, hp,
    (contact_two2 C 3 _ (dt / 4) (by positivity) hL 3 (by norm_num) 2 (by norm_num) false lev hc 1 dt dt u u' hu hdt.le hd0 hd1 4 hL' hp).1⟩

end

end Verif.Run
