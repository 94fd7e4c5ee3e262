import Verif.Run.Contact

/-! # Runs with two materials next to each other -/

namespace Verif.Run

open Verif.Sys Verif.Iter Verif.Dg Verif.Fv Verif.Step Verif.Grid Verif.Rot

noncomputable section

variable {c : Sys.Cfg}

/-- `renormalize_levelsets` on a line with one level set, fill.cpp:340: `u1` is `u` with the distance function in the place of the
level set. -/
def Renormed (c : Sys.Cfg) (nx : Nat) (dx eps : ℝ) (u u1 : Iter.Mem) : Prop :=
  ∃ g fuel d, nx < fuel ∧
    March.renormalize ⟨March.gridOf [nx], fun _ => dx, fun _ => 0, eps⟩ fuel [(fun j => u (j * c.V + (c.V - 1)), g)] = .ok [d] ∧
    ∀ j < nx, d j = some (u1 (j * c.V + (c.V - 1))) ∧ ∀ v < c.V - 1, u1 (j * c.V + v) = u (j * c.V + v)

/-- One pass with two materials on a line and `split_stepper`, iterator.cpp:110-151: `fill_ghost_cells` renormalises the level set
and fills the grids with star states computed with the time step `dt0` of the pass before; the steppers; `make_u`; and the end
of the pass. -/
def TwoPass (E0 E1 : Env c 1) (Z : StarSet c) (F : Tail c) (eps : ℝ) (b : Nat → BT) (threads layers count : Nat) (dt0 dt : ℝ)
    (u u' : Iter.Mem) : Prop :=
  ∃ (u1 u2 : Iter.Mem) (junk lev : Nat → ℝ) (order : Nat → List Nat), Renormed c E0.nx E0.dx eps u u1 ∧
    (∀ j < E0.nx, lev j = u1 (j * c.V + (c.V - 1))) ∧ (∀ m, (order m).Perm (List.range E0.nx)) ∧
    MovesMulti [some E0, some E1] (levFronts E0.nx E0.dx lev junk (starOf Z [some E0.P, some E1.P] dt0) order layers) E0.nx E0.dx b true
      threads dt u1 u2 ∧
    finish F count u2 = some u'

/-- Every pass of the run is such a pass. -/
def FollowsTwo {W' : Type} (E0 E1 : Env c 1) (Z : StarSet c) (F : Tail c) (eps : ℝ) (bt : Nat → BT) (threads layers : Nat)
    (b : Body Iter.Mem W') (tf : ℝ) (u0 : Iter.Mem) (w0 : W') : Prop :=
  ∀ m s, Reach b tf u0 w0 m s → s.t < tf → ∃ dt0,
    TwoPass E0 E1 Z F eps bt threads layers (s.count + 1) dt0 (b.step s.u s.w s.t s.count).2.2 s.u (b.step s.u s.w s.t s.count).1

/-- The level set is negative below cell `k`, larger than `eps` from there on, and vanishes at `x0` if it is interpolated linearly
between the cells `k - 1` and `k`. -/
def Crosses (nx k : Nat) (dx x0 eps : ℝ) (lev : Nat → ℝ) : Prop :=
  (∀ j < k, lev j < 0) ∧ (∀ j < nx, k ≤ j → eps < lev j) ∧
    dx * (lev k / (lev k - lev (k - 1))) = ((k : ℝ) + 1 / 2) * dx - x0

theorem distance_line_crosses (nx k : Nat) (dx x0 eps : ℝ) (hdx : 0 < dx) (heps : 0 ≤ eps) (hk : 2 ≤ k) (hkx : k + 1 < nx) (lev phi : Nat → ℝ)
    (hphi : ∀ j < nx, phi j = lev j) (hc : Crosses nx k dx x0 eps lev) (g : March.Garbage) (fuel : Nat) (hfuel : nx < fuel) :
    ∃ d, March.renormalize ⟨March.gridOf [nx], fun _ => dx, fun _ => 0, eps⟩ fuel [(phi, g)] = .ok [d] ∧
      ∀ j < nx, d j = some (((j : ℝ) + 1 / 2) * dx - x0) := by
  obtain ⟨c1, c2, c3⟩ := hc
  obtain ⟨r, hr, hd⟩ := March.distance_front (n := nx) (k := k) (dx := fun _ => dx) (phi := phi) (eps := eps) (fun _ => hdx) heps
    (by omega) (by omega) (fun i hi => by rw [hphi i (by omega)]; exact c1 i hi) (fun i hi hki => by rw [hphi i hi]; exact c2 i hi hki)
    g fuel hfuel
  refine ⟨r.dist, ?_, fun j hj => ?_⟩
  · simp only [March.renormalize, hr]
    rfl
  · rw [hd j hj, hphi k (by omega), hphi (k - 1) (by omega), c3]
    congr 1
    ring

theorem crosses_range {nx k : Nat} {dx x0 eps : ℝ} (hdx : 0 < dx) (heps : 0 ≤ eps) (hk : 2 ≤ k) (hkx : k + 1 < nx) {lev : Nat → ℝ}
    (hc : Crosses nx k dx x0 eps lev) : ((k : ℝ) - 1 / 2) * dx < x0 ∧ x0 < ((k : ℝ) + 1 / 2) * dx := by
  obtain ⟨c1, c2, c3⟩ := hc
  have a := c1 (k - 1) (by omega)
  have b := lt_of_le_of_lt heps (c2 k (by omega) le_rfl)
  have h1 : 0 < lev k / (lev k - lev (k - 1)) := div_pos b (by linarith)
  have h2 : lev k / (lev k - lev (k - 1)) < 1 := by rw [div_lt_one (by linarith)]; linarith
  constructor <;> nlinarith

/-- The surface is at `x`, behind the centre of cell `k - 1` and more than `eps` before that of cell `k`, and at least two cells from
the ends. -/
def Lies (nx k : Nat) (dx eps x : ℝ) : Prop :=
  2 ≤ k ∧ k + 1 < nx ∧ ((k : ℝ) - 1 / 2) * dx < x ∧ eps < ((k : ℝ) + 1 / 2) * dx - x

theorem lies_unique {nx k l : Nat} {dx eps x : ℝ} (hdx : 0 < dx) (heps : 0 ≤ eps) (hk : Lies nx k dx eps x) (hl : Lies nx l dx eps x) : k = l := by
  obtain ⟨-, -, a1, a2⟩ := hk
  obtain ⟨-, -, b1, b2⟩ := hl
  rcases lt_trichotomy k l with h | h | h
  · have : (k : ℝ) + 1 ≤ l := by exact_mod_cast h
    nlinarith
  · exact h
  · have : (l : ℝ) + 1 ≤ k := by exact_mod_cast h
    nlinarith

theorem crosses_next (nx k k' : Nat) (dx x0 eps w s0 s1 dt : ℝ) (hdx : 0 < dx) (hw0 : |w| ≤ s0) (hw1 : |w| ≤ s1)
    (hL : Lies nx k dx eps x0) (hL' : Lies nx k' dx eps (x0 + w * dt)) (hs0 : dt * s0 ≤ dx) (hs1 : dt * s1 ≤ dx) :
    Crosses nx k' dx (x0 + w * dt) eps (levNext nx dx x0 w s0 s1 dt) := by
  obtain ⟨hk, hkx, h1, he⟩ := hL
  obtain ⟨hk', hkx', h1', he'⟩ := hL'
  have hk2 : (2 : ℝ) ≤ k := by exact_mod_cast hk
  have a0 := abs_le.1 hw0
  have a1 := abs_le.1 hw1
  refine ⟨fun j hj => ?_, fun j hj hkj => ?_, ?_⟩
  · unfold levNext
    rw [if_neg (show ¬ j + 1 = nx by omega)]
    have : (j : ℝ) + 1 ≤ k' := by exact_mod_cast hj
    by_cases h0 : j = 0
    · subst h0
      rw [if_pos rfl]
      push_cast
      nlinarith
    · rw [if_neg h0]
      nlinarith
  · unfold levNext
    rw [if_neg (show ¬ j = 0 by omega)]
    have : (k' : ℝ) ≤ j := by exact_mod_cast hkj
    by_cases h0 : j + 1 = nx
    · rw [if_pos h0]
      have : (k : ℝ) + 1 ≤ j := by exact_mod_cast (show k + 1 ≤ j by omega)
      nlinarith
    · rw [if_neg h0]
      nlinarith
  · unfold levNext
    have e : ((k' - 1 : Nat) : ℝ) = (k' : ℝ) - 1 := by push_cast [show 1 ≤ k' by omega]; rfl
    rw [if_neg (show ¬ k' = 0 by omega), if_neg (show ¬ k' + 1 = nx by omega), if_neg (show ¬ k' - 1 = 0 by omega),
      if_neg (show ¬ k' - 1 + 1 = nx by omega), e]
    rw [show ((k' : ℝ) + 1 / 2) * dx - (x0 + w * dt) + 0 - 0 - (((k' : ℝ) - 1 + 1 / 2) * dx - (x0 + w * dt) + 0 - 0) = dx by ring]
    field_simp
    ring

/-- What is fixed in a run with two materials side by side that move with the velocities `w` and `w'`. -/
structure Contact (c : Sys.Cfg) (E0 E1 : Env c 1) (Z : StarSet c) (F : Tail c) (b : Nat → BT) (w w' : V3) (Q0 Q1 : St) (W : Weno.Setup 1)
    (undef : ℝ) (it : Nat) (tol : ℝ) : Prop where
  viscous : c.viscous = true
  thermal : c.thermal = false
  multi : c.multi = false
  lset : c.lset = 1
  rest0 : Rests c E0.P w Q0
  rest1 : Rests c E1.P w' Q1
  slides : Slides Z.stick w w'
  pressures : pressure c E0.P Q0 = pressure c E1.P Q1
  nx : E1.nx = E0.nx
  dx : E1.dx = E0.dx
  dxpos : 0 < E0.dx
  ok0 : E0.Ok
  ok1 : E1.Ok
  explicit0 : E0.Explicit W undef it tol
  explicit1 : E1.Explicit W undef it tol
  rusanov0 : E0.fl = rusanov c E0.P
  rusanov1 : E1.fl = rusanov c E1.P
  ends : ∀ s < 2, b s ≠ .periodic
  mirrors0 : ∀ s < 2, ∀ x, Mirrors E0 (withLevel c Q0 x) 0 (b s)
  mirrors1 : ∀ s < 2, ∀ x, Mirrors E1 (withLevel c Q1 x) 0 (b s)
  fuel : 1 ≤ Z.fuel
  startol : 0 < Z.tol
  solid0 : 0 < E0.P.b02
  solid1 : 0 < E1.P.b02
  tail : F.Ok
  mats : F.MPs = [some E0.P, some E1.P]
  cells : F.ncell = E0.nx
  norot : F.rot = false
  contort : 0 ≤ F.tol

section run

variable {E0 E1 : Env c 1} {Z : StarSet c} {F : Tail c} {bt : Nat → BT} {w w' : V3} {Q0 Q1 : St} {W : Weno.Setup 1} {undef : ℝ} {it : Nat} {tol : ℝ}
  (C : Contact c E0 E1 Z F bt w w' Q0 Q1 W undef it tol) (k : Nat) (x0 eps : ℝ) (heps : 0 ≤ eps) (hL : Lies E0.nx k E0.dx eps x0)
  (threads : Nat) (hT : 0 < threads) (layers : Nat) (hlay : 1 ≤ layers)

include C in
theorem contact_finish (lev : Nat → ℝ) (hs : (∀ j < k, lev j < 0) ∧ ∀ j < E0.nx, k ≤ j → 0 ≤ lev j) (count : Nat) (u u' : Iter.Mem)
    (hu : Halves c E0.nx k Q0 Q1 lev u) (h : finish F count u = some u') : Halves c E0.nx k Q0 Q1 lev u' := by
  obtain ⟨hV, hmV⟩ := contact_V C.viscous C.thermal C.multi C.lset
  have key := finish_calm F C.viscous C.tail C.multi C.norot C.contort count u u' (fun i hi => ?_) h
  · intro i hi v hv
    rw [key i (by rw [C.cells]; exact hi) v hv]
    exact hu i hi v hv
  · rw [C.cells] at hi
    have hA : getA (view c u i) = getA (if i < k then Q0 else Q1) := Relax.getA_congr _ _ fun w _ h2 => by
      unfold view
      rw [hu i hi w (by omega), level_head C.viscous C.thermal C.multi C.lset _ _ _ h2]
    have h0 : u (i * c.V) = (if i < k then Q0 else Q1) 0 := by
      have := hu i hi 0 (by omega)
      rw [level_head C.viscous C.thermal C.multi C.lset _ _ _ (by omega)] at this
      exact this
    have hlast : u (i * c.V + (c.V - 1)) = lev i := by rw [hu i hi _ (by omega), level_last]
    have hidx : materialIndex c (view c u i) = if i < k then 0 else 1 := by
      rw [two_index C.lset]
      unfold view
      rw [hlast]
      by_cases h : i < k
      · rw [if_pos h, if_neg (not_le.2 (hs.1 i h))]
      · rw [if_neg h, if_pos (hs.2 i hi (by omega))]
    rw [hA, h0]
    unfold matAt
    rw [hidx, C.mats]
    by_cases h : i < k
    · simp only [if_pos h]
      refine ⟨by rw [C.rest0.mass]; exact mul_pos C.rest0.dense C.rest0.det, C.rest0.det, C.rest0.ease.strain, fun P hP => ?_⟩
      have : P = E0.P := by simpa using hP.symm
      rw [this, C.rest0.mass]
    · simp only [if_neg h]
      refine ⟨by rw [C.rest1.mass]; exact mul_pos C.rest1.dense C.rest1.det, C.rest1.det, C.rest1.ease.strain, fun P hP => ?_⟩
      have : P = E1.P := by simpa using hP.symm
      rw [this, C.rest1.mass]

include C heps hL

/-- After `renormalize_levelsets` the level set is the distance from `x0`. -/
theorem contact_renormed (lev : Nat → ℝ) (hc : Crosses E0.nx k E0.dx x0 eps lev) (u u1 : Iter.Mem) (hu : Halves c E0.nx k Q0 Q1 lev u)
    (h : Renormed c E0.nx E0.dx eps u u1) : Halves c E0.nx k Q0 Q1 (fun j => ((j : ℝ) + 1 / 2) * E0.dx - x0) u1 := by
  obtain ⟨hV, hmV⟩ := contact_V C.viscous C.thermal C.multi C.lset
  obtain ⟨g, fuel, d, hf, hr, hd⟩ := h
  obtain ⟨d', hr', hd'⟩ := distance_line_crosses E0.nx k E0.dx x0 eps C.dxpos heps hL.1 hL.2.1 lev (fun j => u (j * c.V + (c.V - 1)))
    (fun j hj => by rw [hu j hj _ (by omega), level_last]) hc g fuel hf
  rw [hr] at hr'
  have e : d = d' := by simpa using hr'
  subst e
  intro i hi v hv
  by_cases hv' : v = c.V - 1
  · have := (hd i hi).1
    rw [hd' i hi] at this
    rw [hv', ← Option.some.inj this, level_last]
  · rw [(hd i hi).2 v (by omega), hu i hi v hv, level_head C.viscous C.thermal C.multi C.lset _ _ _ (by omega),
      level_head C.viscous C.thermal C.multi C.lset _ _ _ (by omega)]

theorem contact_renormed_exists (lev : Nat → ℝ) (hc : Crosses E0.nx k E0.dx x0 eps lev) (u : Iter.Mem) (hu : Halves c E0.nx k Q0 Q1 lev u) :
    ∃ u1, Renormed c E0.nx E0.dx eps u u1 := by
  obtain ⟨hV, hmV⟩ := contact_V C.viscous C.thermal C.multi C.lset
  let φ : Nat → ℝ := fun j => ((j : ℝ) + 1 / 2) * E0.dx - x0
  let u1 : Iter.Mem := fun j => if j % c.V = c.V - 1 then φ (j / c.V) else u j
  have hlast : ∀ j, u1 (j * c.V + (c.V - 1)) = φ j := by
    intro j
    have e1 : (j * c.V + (c.V - 1)) % c.V = c.V - 1 := by rw [hV]; omega
    have e2 : (j * c.V + (c.V - 1)) / c.V = j := by rw [hV]; omega
    simp only [u1, e1, if_true, e2]
  have hhead : ∀ j, ∀ v < c.V - 1, u1 (j * c.V + v) = u (j * c.V + v) := by
    intro j v hv
    have e1 : (j * c.V + v) % c.V ≠ c.V - 1 := by rw [hV] at hv ⊢; omega
    simp only [u1, e1, if_false]
  let g : March.Garbage := ⟨fun _ => 0, fun _ => 0, fun _ => 0, fun _ => 0, fun _ => 0⟩
  obtain ⟨d, hr, hd⟩ := distance_line_crosses E0.nx k E0.dx x0 eps C.dxpos heps hL.1 hL.2.1 lev (fun j => u (j * c.V + (c.V - 1)))
    (fun j hj => by rw [hu j hj _ (by omega), level_last]) hc g (E0.nx + 1) (by omega)
  exact ⟨u1, g, E0.nx + 1, d, by omega, hr, fun j hj => ⟨by rw [hd j hj, hlast], hhead j⟩⟩

include hT

/-- Such a pass exists. -/
theorem contact_exists (lev : Nat → ℝ) (hc : Crosses E0.nx k E0.dx x0 eps lev) (count : Nat) (dt0 dt : ℝ) (u : Iter.Mem)
    (hu : Halves c E0.nx k Q0 Q1 lev u) (hds0 : ∀ f, E0.destress = some f → OneCell c f) (hds1 : ∀ f, E1.destress = some f → OneCell c f) :
    ∃ u', TwoPass E0 E1 Z F eps bt threads layers count dt0 dt u u' := by
  obtain ⟨h1, h2⟩ := crosses_range C.dxpos heps hL.1 hL.2.1 hc
  obtain ⟨u1, hten⟩ := contact_renormed_exists C k x0 eps heps hL lev hc u hu
  have hu1 := contact_renormed C k x0 eps heps hL lev hc u u1 hu hten
  obtain ⟨hV, hmV⟩ := contact_V C.viscous C.thermal C.multi C.lset
  have hlast : ∀ j < E0.nx, u1 (j * c.V + (c.V - 1)) = ((j : ℝ) + 1 / 2) * E0.dx - x0 := fun j hj => by
    rw [hu1 j hj _ (by omega), level_last]
  obtain ⟨⟨u2, hmv⟩, -⟩ := two_line C.lset E0.nx E0.dx x0 C.dxpos (fun _ => 0) (starOf Z [some E0.P, some E1.P] dt0)
    (fun _ => List.range E0.nx) (fun _ => .refl _) layers k hL.1 hL.2.1 h1 h2 u1 hlast E0 E1 C.viscous C.ok0 C.ok1 rfl C.nx hds0 hds1
    bt (C.mirrors0 0 (by omega) 0).1 (C.mirrors0 1 (by omega) 0).1 threads hT dt
  rw [twoFronts_eq] at hmv
  obtain ⟨u', hf, -⟩ := finish_spec F C.viscous C.tail count u2
  exact ⟨u', u1, u2, fun _ => 0, _, _, hten, fun j hj => (hlast j hj).symm, fun _ => .refl _, hmv, hf⟩

include hlay

/-- One pass. -/
theorem contact_two (lev : Nat → ℝ) (hc : Crosses E0.nx k E0.dx x0 eps lev) (count : Nat) (dt0 dt : ℝ) (u u' : Iter.Mem)
    (hu : Halves c E0.nx k Q0 Q1 lev u) (hdt : 0 ≤ dt) (hs0 : dt * waveSpeed (c := c) E0.P Q0 ≤ E0.dx)
    (hs1 : dt * waveSpeed (c := c) E1.P Q1 ≤ E0.dx) (k' : Nat) (hL' : Lies E0.nx k' E0.dx eps (x0 + w 0 * dt))
    (h : TwoPass E0 E1 Z F eps bt threads layers count dt0 dt u u') :
    Halves c E0.nx k' Q0 Q1 (levNext E0.nx E0.dx x0 (w 0) (waveSpeed (c := c) E0.P Q0) (waveSpeed (c := c) E1.P Q1) dt) u' ∧
      Crosses E0.nx k' E0.dx (x0 + w 0 * dt) eps
        (levNext E0.nx E0.dx x0 (w 0) (waveSpeed (c := c) E0.P Q0) (waveSpeed (c := c) E1.P Q1) dt) := by
  obtain ⟨h1, h2⟩ := crosses_range C.dxpos heps hL.1 hL.2.1 hc
  have cn := crosses_next E0.nx k k' E0.dx x0 eps (w 0) (waveSpeed (c := c) E0.P Q0) (waveSpeed (c := c) E1.P Q1) dt C.dxpos
    (rests_speed C.rest0) (C.slides.1 ▸ rests_speed C.rest1) hL hL' hs0 hs1
  obtain ⟨h1', h2'⟩ := crosses_range C.dxpos heps hL'.1 hL'.2.1 cn
  obtain ⟨u1, u2, junk, lev', order, hr, hl, ho, hmv, hf⟩ := h
  have hu1 := contact_renormed C k x0 eps heps hL lev hc u u1 hu hr
  have hu2 := contact_pass C.viscous C.thermal C.multi C.lset E0 E1 w w' Q0 Q1 C.rest0 C.rest1 C.pressures E0.nx E0.dx x0 C.dxpos k hL.1 hL.2.1 h1 h2
    rfl C.nx rfl C.dx W undef it tol C.ok0 C.ok1 C.explicit0 C.explicit1 C.rusanov0 C.rusanov1 bt C.ends C.mirrors0 C.mirrors1 threads hT Z C.fuel
    C.startol C.solid0 C.solid1 C.slides layers hlay order ho junk lev' dt0 dt u1 u2 hl hu1 hdt hs0 hs1 k' h1' h2' hmv
  exact ⟨contact_finish C k' _ ⟨cn.1, fun j hj hkj => heps.trans (cn.2.1 j hj hkj).le⟩ count u2 u' hu2 hf, cn⟩

/-- The field of a contact at `x`: the states on both sides are pure, and `exact` says that the level set is the distance from `x` in
all cells but the two at the ends. -/
def ContactAt (c : Sys.Cfg) (nx : Nat) (dx eps : ℝ) (Q0 Q1 : St) (x : ℝ) (exact : Prop) (u : Iter.Mem) : Prop :=
  ∃ (k : Nat) (lev : Nat → ℝ), Lies nx k dx eps x ∧ Halves c nx k Q0 Q1 lev u ∧ Crosses nx k dx x eps lev ∧
    (exact → ∀ i, 0 < i → i + 1 < nx → lev i = ((i : ℝ) + 1 / 2) * dx - x)

/-- **A contact is carried along with the velocity, exactly.**  If pressures and velocities on both sides are equal
(the velocities along the line only, where the materials do not stick to each other), then after any
number of passes, and in every snapshot, the cells before the point `x0 + w t` hold the first state and those behind it the
second one, and from the first pass on the level set of every cell but the two at the ends is its distance from that point; as
long as this point is two cells from the ends and not within `eps` before the centre of a cell after a pass. -/
theorem run_contact {W' : Type} (b : Body Iter.Mem W') (tf : ℝ) (u0 : Iter.Mem) (w0 : W') (lev : Nat → ℝ)
    (hc : Crosses E0.nx k E0.dx x0 eps lev) (hu0 : Halves c E0.nx k Q0 Q1 lev u0) (hb : FollowsTwo E0 E1 Z F eps bt threads layers b tf u0 w0)
    {m : Nat} (hcfl : ∀ m' s, m' < m → Reach b tf u0 w0 m' s → s.t < tf → 0 ≤ (b.step s.u s.w s.t s.count).2.2 ∧
      (b.step s.u s.w s.t s.count).2.2 * waveSpeed (c := c) E0.P Q0 ≤ E0.dx ∧
      (b.step s.u s.w s.t s.count).2.2 * waveSpeed (c := c) E1.P Q1 ≤ E0.dx)
    (hpos : ∀ m' s, m' ≤ m → Reach b tf u0 w0 m' s → ∃ k', Lies E0.nx k' E0.dx eps (x0 + w 0 * s.t))
    {s : Vars Iter.Mem W'} (hs : Reach b tf u0 w0 m s) :
    ContactAt c E0.nx E0.dx eps Q0 Q1 (x0 + w 0 * s.t) (0 < m) s.u ∧
    ∀ j x, s.ret j = some x → ∃ m' s', m' ≤ m ∧ Reach b tf u0 w0 m' s' ∧ s'.u = x ∧
      ContactAt c E0.nx E0.dx eps Q0 Q1 (x0 + w 0 * s'.t) True x := by
  have main : ∀ m' s, Reach b tf u0 w0 m' s → m' ≤ m → ContactAt c E0.nx E0.dx eps Q0 Q1 (x0 + w 0 * s.t) (0 < m') s.u := by
    intro m' s hs
    induction hs with
    | start => exact fun _ => ⟨k, lev, by simpa using hL, hu0, by simpa using hc, fun h => by omega⟩
    | @step m' s s' hs hp ih =>
      intro hm
      have hs' := Reach.step hs hp
      obtain ⟨ht, -, eu, -, et, -⟩ := pass_next b tf hp
      obtain ⟨k1, lev', i0, i1, i2, -⟩ := ih (by omega)
      obtain ⟨dt0, h⟩ := hb m' s hs ht
      rw [← eu] at h
      obtain ⟨c0, c1, c2⟩ := hcfl m' s (by omega) hs ht
      obtain ⟨k2, hk2⟩ := hpos (m' + 1) s' hm hs'
      rw [et, mul_add, ← add_assoc] at hk2 ⊢
      obtain ⟨a1, a2⟩ := contact_two C k1 (x0 + w 0 * s.t) eps heps i0 threads hT layers hlay lev' i2 _ dt0 _ s.u s'.u i1 c0 c1 c2 k2 hk2 h
      refine ⟨k2, _, hk2, a1, a2, fun _ i hi hi' => ?_⟩
      unfold levNext
      rw [if_neg (by omega), if_neg (by omega), add_zero, sub_zero]
  refine ⟨main m s hs le_rfl, fun j x hx => ?_⟩
  obtain ⟨m', s', hm', hle, hr, rfl⟩ := snapshot_reached b tf u0 w0 hs j x hx
  obtain ⟨k', lev', a0, a1, a2, a3⟩ := main m' s' hr hle
  exact ⟨m', s', hle, hr, rfl, k', lev', a0, a1, a2, fun _ => a3 hm'⟩

end run

/-! ### A gas beside another -/

/-- A line of six cells in first order. -/
def contactEnv (P : Sys.Par) (T : Tab 1) (h : T.Ok) (W : Weno.Setup 1) : Env paceCfg 1 where
  P := P
  T := T
  nx := 6
  ny := 1
  dx := 1 / 10
  dy := 1
  fl := rusanov paceCfg P
  src := Relax.source paceCfg P 0
  junk := fun _ => 7
  destress := none
  coef := realCoef W.T 0
  pred1 := fun dt => Step.pred1 false 4 0
      (fun w => (isStep1_exists h (gpr paceCfg P (Relax.source paceCfg P 0) fun _ => 7) (initialCondition1 T (rows1 w)) dt (1 / 10)).choose)
      fun w => standardInitialGuess1 1 (rows1 w)
  pred2 := fun dt => Step.pred2 false 4 0
      (fun w => (isStep2_exists h (gpr paceCfg P (Relax.source paceCfg P 0) fun _ => 7) (initialCondition2 T (rows2 w)) dt (1 / 10) 1).choose)
      fun w => standardInitialGuess2 1 (rows2 w)
  half := true
  mid1 := fun dt => Step.mid1 (gpr paceCfg P (Relax.source paceCfg P 0) fun _ => 7) T dt (1 / 10)
  mid2 := fun dt => Step.mid2 (gpr paceCfg P (Relax.source paceCfg P 0) fun _ => 7) T dt (1 / 10) 1
  block := rows2
  svd := fun A => ((Grid.svd_exists A).choose, (Grid.svd_exists A).choose_spec.choose_spec.choose,
    (Grid.svd_exists A).choose_spec.choose)
  steps := 4
  fuel := 7
  bad := fun q => q

/-- A second gas: three times as dense and with another adiabatic index. -/
def heavyPar : Sys.Par := samplePar { sample with ρ0 := 3, γ := 3 }

/-- An unstretched state of density `r`, internal energy `e` per volume and velocity `v` in the first direction. -/
def boat (r e v : ℝ) : St := fun i => if i = 0 then r else if i = 1 then e + r * v ^ 2 / 2 else if i = 2 then r * v else stateAtRest i

theorem boat_A (r e v : ℝ) : getA (boat r e v) = 1 := by
  ext i j
  fin_cases i <;> fin_cases j <;> simp [getA, boat, stateAtRest]

theorem boat_rests (P : Sys.Par) (r e v : ℝ) (hm : P.multi = false) (hr : 0 < P.ρ0) (h0 : r = P.ρ0) (hd : P.δp = 0)
    (hi : ¬ P.reaction > -1) : Rests paceCfg P ![v, 0, 0] (boat r e v) := by
  refine ⟨⟨?_, by simp [paceCfg], hd, hi⟩, fun i => ?_, hr, by rw [boat_A]; simp, ?_, hm⟩
  · rw [boat_A]
    ext i j
    fin_cases i <;> fin_cases j <;> simp [AdevG] <;> norm_num
  · fin_cases i <;> simp [boat, stateAtRest]
  · rw [boat_A]; simp [boat, h0]

theorem boat_pressure (P : Sys.Par) (r e v : ℝ) (hm : P.multi = false) (hr : r ≠ 0) (hi : ¬ P.reaction > -1) :
    pressure paceCfg P (boat r e v) = pressureMG P.toParams r (e / r) := by
  have hd : devGsq (getA (boat r e v)) = 0 := by
    rw [boat_A]; simp [devGsq, dot3]; norm_num
  have hE3 : E3 (vel (boat r e v)) = v ^ 2 / 2 := by
    simp only [E3, sq3, vel, getRv, boat, stateAtRest]
    norm_num
    field_simp
  have h2 : E2A P.toParams (boat r e v 0) (getA (boat r e v)) = 0 := by rw [E2A, hd, mul_zero]
  have h1 : boat r e v 1 / boat r e v 0 - v ^ 2 / 2 = e / r := by
    simp only [boat]
    norm_num
    field_simp
    ring
  simp only [pressure, internalEnergy, hE3, h2, hm, hi, h1]
  simp [paceCfg, boat]

/-- At these energies the two gases have the same pressure. -/
theorem gases_pressure (v : ℝ) : pressure paceCfg (samplePar sample) (boat 1 5 v) = pressure paceCfg heavyPar (boat 3 (5 / 2) v) := by
  rw [boat_pressure _ _ _ _ rfl (by norm_num) (by norm_num [samplePar]), boat_pressure _ _ _ _ rfl (by norm_num) (by norm_num [heavyPar, samplePar])]
  norm_num [heavyPar, samplePar, sample, pressureMG, eRef, pRef, gammaMG]

def contactTail : Tail paceCfg where
  ncell := 6
  MPs := [some (samplePar sample), some heavyPar]
  rot := false
  svd := fun A => ((Grid.svd_exists A).choose_spec.choose_spec.choose, (Grid.svd_exists A).choose_spec.choose)
  sv := fun A => (Grid.svd_exists A).choose_spec.choose_spec.choose
  tol := 1 / 2

/-- Level set values of a surface three fifths of the way from the third to the fourth cell, far from being distances elsewhere. -/
def contactLev (j : Nat) : ℝ := if j < 3 then -3 * (3 - (j : ℝ)) ^ 2 else 2 * ((j : ℝ) - 2)

def contactField : Iter.Mem := fun a => withLevel paceCfg (if a / 15 < 3 then boat 1 5 0 else boat 3 (5 / 2) 0) (contactLev (a / 15)) (a % 15)

theorem contact_case (T : Tab 1) (h : T.Ok) (W : Weno.Setup 1) (S : Riemann.Solvers) (svd : M3 → M3 × V3 × M3) (v : ℝ) (bt : Nat → BT)
    (hbt : ∀ s, bt s = .transmissive ∨ (v = 0 ∧ bt s = .stick)) :
    Contact paceCfg (contactEnv (samplePar sample) T h W) (contactEnv heavyPar T h W) ⟨false, true, 1 / 10 ^ 8, S, svd, fun _ _ => 0, 11⟩
      contactTail bt ![v, 0, 0] ![v, 0, 0] (boat 1 5 v) (boat 3 (5 / 2) v) W 0 4 0 := by
  have hmir : ∀ (P : Sys.Par) (r e x : ℝ) (s : Nat), Mirrors (contactEnv P T h W) (withLevel paceCfg (boat r e v) x) 0 (bt s) := by
    intro P r e x s
    rcases hbt s with hb | ⟨rfl, hb⟩ <;> rw [hb]
    · exact mirrors_open _ _ 0 _ (Or.inl rfl)
    · refine mirrors_wall _ _ rfl 0 (by omega) (fun k h1 h2 => ?_) _ (Or.inr (Or.inl rfl))
      rw [level_head rfl rfl rfl rfl _ x k (by omega)]
      interval_cases k <;> simp [boat, stateAtRest]
  have hok : ∀ P, (contactEnv P T h W).Ok := fun P => ⟨h, ⟨by simp [contactEnv], by simp [contactEnv]⟩, fun _ => ⟨0, rfl⟩,
    fun A => (Grid.svd_exists A).choose_spec.choose_spec.choose_spec.1⟩
  have hX : ∀ P, (contactEnv P T h W).Explicit W 0 4 0 := fun P =>
    ⟨rfl, fun dt => ⟨_, _, fun _ => (isStep1_exists h _ _ dt (1 / 10)).choose_spec, rfl⟩,
     fun dt => ⟨_, _, fun _ => (isStep2_exists h _ _ dt (1 / 10) 1).choose_spec, rfl⟩, fun _ => rfl, fun _ => rfl, rfl⟩
  have light : Rests paceCfg (contactEnv (samplePar sample) T h W).P ![v, 0, 0] (boat 1 5 v) :=
    boat_rests (samplePar sample) _ _ _ rfl (by norm_num [samplePar, sample]) rfl rfl (by norm_num [samplePar])
  have heavy : Rests paceCfg (contactEnv heavyPar T h W).P ![v, 0, 0] (boat 3 (5 / 2) v) :=
    boat_rests heavyPar _ _ _ rfl (by norm_num [heavyPar, samplePar]) rfl rfl (by norm_num [heavyPar, samplePar])
  have press : pressure paceCfg (contactEnv (samplePar sample) T h W).P (boat 1 5 v) =
    pressure paceCfg (contactEnv heavyPar T h W).P (boat 3 (5 / 2) v) := gases_pressure v
  exact {
    viscous := rfl
    thermal := rfl
    multi := rfl
    lset := rfl
    rest0 := light
    rest1 := heavy
    slides := ⟨rfl, fun _ => rfl⟩
    pressures := press
    nx := rfl
    dx := rfl
    dxpos := by change (0 : ℝ) < 1 / 10; norm_num
    ok0 := hok _
    ok1 := hok _
    explicit0 := hX _
    explicit1 := hX _
    rusanov0 := rfl
    rusanov1 := rfl
    ends := fun s _ => by rcases hbt s with hb | ⟨-, hb⟩ <;> rw [hb] <;> decide
    mirrors0 := fun s _ x => hmir _ _ _ x s
    mirrors1 := fun s _ x => hmir _ _ _ x s
    fuel := by norm_num
    startol := by norm_num
    solid0 := by change (0 : ℝ) < 1; norm_num
    solid1 := by change (0 : ℝ) < 1; norm_num
    tail := ⟨fun A => ⟨_, (Grid.svd_exists A).choose_spec.choose_spec.choose_spec.1⟩,
      fun A => ⟨_, _, (Grid.svd_exists A).choose_spec.choose_spec.choose_spec.1⟩, by simp [contactTail, paceCfg]⟩
    mats := rfl
    cells := rfl
    norot := rfl
    contort := by norm_num [contactTail] }

theorem contact_crosses : Crosses 6 3 (1 / 10) (31 / 100) (1 / 100) contactLev := by
  refine ⟨fun j hj => ?_, fun j hj hk => ?_, ?_⟩
  · interval_cases j <;> norm_num [contactLev]
  · interval_cases j <;> norm_num [contactLev]
  · norm_num [contactLev]

theorem contact_lies : Lies 6 3 (1 / 10) (1 / 100) (31 / 100) := by
  refine ⟨by norm_num, by norm_num, by norm_num, by norm_num⟩

/-- Two gases of different densities between a wall and an open end: such runs exist, and in them nothing happens. -/
example (T : Tab 1) (h : T.Ok) (W : Weno.Setup 1) (S : Riemann.Solvers) (svd : M3 → M3 × V3 × M3) :
    ∃ b : Body Iter.Mem Unit, FollowsTwo (contactEnv (samplePar sample) T h W) (contactEnv heavyPar T h W)
        ⟨false, true, 1 / 10 ^ 8, S, svd, fun _ _ => 0, 11⟩ contactTail (1 / 100) (fun s => if s = 0 then .stick else .transmissive) 3 2 b 1
        contactField () ∧
      ∀ m s, Reach b 1 contactField () m s → ∀ i < 6, ∀ v < 14, s.u (i * 15 + v) = contactField (i * 15 + v) := by
  have C := contact_case T h W S svd 0 (fun s => if s = 0 then .stick else .transmissive) (fun s => by split_ifs <;> simp)
  set E0 := contactEnv (samplePar sample) T h W with hE0
  set E1 := contactEnv heavyPar T h W with hE1
  set Z : StarSet paceCfg := ⟨false, true, 1 / 10 ^ 8, S, svd, fun _ _ => 0, 11⟩ with hZ
  let bt : Nat → BT := fun s => if s = 0 then .stick else .transmissive
  let s0 := waveSpeed (c := paceCfg) E0.P (boat 1 5 0)
  let s1 := waveSpeed (c := paceCfg) E1.P (boat 3 (5 / 2) 0)
  let dt : ℝ := 1 / 10 / (1 + |s0| + |s1|)
  have hpos : 0 < 1 + |s0| + |s1| := by positivity
  have hdt : 0 ≤ dt := by positivity
  have hd0 : dt * s0 ≤ 1 / 10 := by
    simp only [dt]
    rw [div_mul_eq_mul_div, div_le_iff₀ hpos]
    nlinarith [le_abs_self s0, abs_nonneg s1]
  have hd1 : dt * s1 ≤ 1 / 10 := by
    simp only [dt]
    rw [div_mul_eq_mul_div, div_le_iff₀ hpos]
    nlinarith [le_abs_self s1, abs_nonneg s0]
  have hL : Lies E0.nx 3 E0.dx (1 / 100) (31 / 100) := contact_lies
  have hstill : ∀ t : ℝ, (31 / 100 : ℝ) + (![(0 : ℝ), 0, 0] : V3) 0 * t = 31 / 100 := fun t => by simp
  have hu0 : Halves paceCfg 6 3 (boat 1 5 0) (boat 3 (5 / 2) 0) contactLev contactField := by
    intro i hi v hv
    have hv15 : v < 15 := hv
    have e1 : (i * 15 + v) / 15 = i := by omega
    have e2 : (i * 15 + v) % 15 = v := by omega
    change contactField (i * 15 + v) = _
    simp only [contactField, e1, e2]
  classical
  let next : Iter.Mem → Nat → Iter.Mem := fun u count =>
    if hx : ∃ u', TwoPass E0 E1 Z contactTail (1 / 100) bt 3 2 (count + 1) dt dt u u' then hx.choose else u
  let b : Body Iter.Mem Unit := ⟨fun u _ t count => (next u count, (), dt), fun _ => false⟩
  have hnext : ∀ u count lev, Halves paceCfg 6 3 (boat 1 5 0) (boat 3 (5 / 2) 0) lev u → Crosses 6 3 (1 / 10) (31 / 100) (1 / 100) lev →
      TwoPass E0 E1 Z contactTail (1 / 100) bt 3 2 (count + 1) dt dt u (next u count) := by
    intro u count lev hu hc
    have hx := contact_exists C 3 (31 / 100) (1 / 100) (by norm_num) hL 3 (by norm_num) 2
      lev hc (count + 1) dt dt u hu (fun f hf => nomatch hf) (fun f hf => nomatch hf)
    simp only [next]
    rw [dif_pos hx]
    exact hx.choose_spec
  have hinv : ∀ m s, Reach b 1 contactField () m s → ∃ lev, Halves paceCfg 6 3 (boat 1 5 0) (boat 3 (5 / 2) 0) lev s.u ∧
      Crosses 6 3 (1 / 10) (31 / 100) (1 / 100) lev := by
    intro m s hs
    induction hs with
    | start => exact ⟨_, hu0, contact_crosses⟩
    | @step m s s' hs hp ih =>
      obtain ⟨ht, -, eu, -⟩ := pass_next b 1 hp
      obtain ⟨lev, i1, i2⟩ := ih
      rw [eu]
      have := contact_two C 3 (31 / 100) (1 / 100) (by norm_num) hL 3 (by norm_num) 2 (by norm_num) lev i2 _ dt dt s.u _ i1 hdt hd0 hd1 3
        (by rw [hstill]; exact hL) (hnext s.u s.count lev i1 i2)
      rw [hstill] at this
      exact ⟨_, this⟩
  have hb : FollowsTwo E0 E1 Z contactTail (1 / 100) bt 3 2 b 1 contactField () := by
    intro m s hs _
    obtain ⟨lev, i1, i2⟩ := hinv m s hs
    exact ⟨dt, hnext s.u s.count lev i1 i2⟩
  refine ⟨b, hb, fun m s hs i hi v hv => ?_⟩
  obtain ⟨⟨k', lev', a0, a1, -⟩, -⟩ := run_contact C 3 (31 / 100) (1 / 100) (by norm_num) hL 3 (by norm_num) 2 (by norm_num) b 1 contactField ()
    contactLev contact_crosses hu0 hb (fun _ _ _ _ _ => ⟨hdt, hd0, hd1⟩) (fun _ _ _ _ => ⟨3, by rw [hstill]; exact hL⟩) hs
  rw [hstill] at a0
  obtain rfl := lies_unique C.dxpos (by norm_num) a0 hL
  have e1 := a1 i hi v (show v < 15 by omega)
  have e2 := hu0 i hi v (show v < 15 by omega)
  rw [level_head rfl rfl rfl rfl _ _ _ hv] at e1 e2
  exact e1.trans e2.symm

/-- The same gases at velocity one between open ends, with the surface just before the centre of a cell: a pass carries it over
the centre, and the cell, which held the second gas, then holds the first one. -/
example (T : Tab 1) (h : T.Ok) (W : Weno.Setup 1) (S : Riemann.Solvers) (svd : M3 → M3 × V3 × M3) :
    ∃ (eps dt : ℝ) (lev lev' : Nat → ℝ) (u u' : Iter.Mem), 0 < eps ∧ 0 < dt ∧
      Halves paceCfg 6 3 (boat 1 5 1) (boat 3 (5 / 2) 1) lev u ∧
      TwoPass (contactEnv (samplePar sample) T h W) (contactEnv heavyPar T h W) ⟨false, true, 1 / 10 ^ 8, S, svd, fun _ _ => 0, 11⟩ contactTail eps
        (fun _ => .transmissive) 3 2 1 dt dt u u' ∧
      Halves paceCfg 6 4 (boat 1 5 1) (boat 3 (5 / 2) 1) lev' u' := by
  have C := contact_case T h W S svd 1 (fun _ => .transmissive) (fun s => Or.inl rfl)
  set E0 := contactEnv (samplePar sample) T h W with hE0
  set E1 := contactEnv heavyPar T h W with hE1
  set Z : StarSet paceCfg := ⟨false, true, 1 / 10 ^ 8, S, svd, fun _ _ => 0, 11⟩ with hZ
  let s0 := waveSpeed (c := paceCfg) E0.P (boat 1 5 1)
  let s1 := waveSpeed (c := paceCfg) E1.P (boat 3 (5 / 2) 1)
  obtain ⟨dt, hdt, hsmall, hd0, hd1⟩ : ∃ dt : ℝ, 0 < dt ∧ dt ≤ 1 / 10 ∧ dt * s0 ≤ 1 / 10 ∧ dt * s1 ≤ 1 / 10 := by
    have hpos : 0 < 1 + |s0| + |s1| := by positivity
    refine ⟨1 / 10 / (1 + |s0| + |s1|), by positivity, ?_, ?_, ?_⟩
    · rw [div_le_iff₀ hpos]
      nlinarith [abs_nonneg s0, abs_nonneg s1]
    · rw [div_mul_eq_mul_div, div_le_iff₀ hpos]
      nlinarith [le_abs_self s0, abs_nonneg s1]
    · rw [div_mul_eq_mul_div, div_le_iff₀ hpos]
      nlinarith [le_abs_self s1, abs_nonneg s0]
  have hL : Lies E0.nx 3 E0.dx (dt / 4) (7 / 20 - dt / 2) := by
    change Lies 6 3 (1 / 10) (dt / 4) (7 / 20 - dt / 2)
    refine ⟨by norm_num, by norm_num, ?_, ?_⟩ <;> push_cast <;> linarith
  have hL' : Lies E0.nx 4 E0.dx (dt / 4) (7 / 20 - dt / 2 + (![(1 : ℝ), 0, 0] : V3) 0 * dt) := by
    change Lies 6 4 (1 / 10) (dt / 4) (7 / 20 - dt / 2 + 1 * dt)
    refine ⟨by norm_num, by norm_num, ?_, ?_⟩ <;> push_cast <;> linarith
  let lev : Nat → ℝ := fun i => ((i : ℝ) + 1 / 2) * (1 / 10) - (7 / 20 - dt / 2)
  have hc : Crosses 6 3 (1 / 10) (7 / 20 - dt / 2) (dt / 4) lev := by
    refine ⟨fun j hj => ?_, fun j hj hk => ?_, ?_⟩
    · interval_cases j <;> simp only [lev] <;> push_cast <;> linarith
    · interval_cases j <;> simp only [lev] <;> push_cast <;> linarith
    · simp only [lev]
      norm_num
      ring
  let u : Iter.Mem := fun a => withLevel paceCfg (if a / 15 < 3 then boat 1 5 1 else boat 3 (5 / 2) 1) (lev (a / 15)) (a % 15)
  have hu : Halves paceCfg 6 3 (boat 1 5 1) (boat 3 (5 / 2) 1) lev u := by
    intro i hi v hv
    have hv15 : v < 15 := hv
    have e1 : (i * 15 + v) / 15 = i := by omega
    have e2 : (i * 15 + v) % 15 = v := by omega
    change u (i * 15 + v) = _
    simp only [u, e1, e2]
  obtain ⟨u', hp⟩ := contact_exists C 3 _ (dt / 4) (by positivity) hL 3 (by norm_num) 2 lev hc 1 dt dt u hu (fun f hf => nomatch hf) (fun f hf => nomatch hf)
  exact ⟨dt / 4, dt, lev, _, u, u', by positivity, hdt, hu, hp,
    (contact_two C 3 _ (dt / 4) (by positivity) hL 3 (by norm_num) 2 (by norm_num) lev hc 1 dt dt u u' hu hdt.le hd0 hd1 4 hL' hp).1⟩

end

end Verif.Run
