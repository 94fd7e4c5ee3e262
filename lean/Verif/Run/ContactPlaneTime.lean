import Verif.Run.ContactPlaneRun

/-! # The time steps of a run with two materials next to each other on a plane -/

namespace Verif.Run

open Verif.Sys Verif.Iter Verif.Dg Verif.Fv Verif.Step Verif.Grid Verif.Rot

noncomputable section

variable {c : Sys.Cfg}

/-- `dt` is the time step that `timestep` gives for the grids and masks made by `fill_ghost_cells`, iterator.cpp:113-117, on a plane. -/
def ChoosesTwo2 (E0 E1 : Env c 1) (Z : StarSet c) (eps : ℝ) (layers : Nat) (mae : Sys.Par → St → Nat → Option ℝ) (CFL t tf : ℝ) (count : Nat)
    (dt0 dt : ℝ) (u : Iter.Mem) : Prop :=
  ∃ (u1 : Iter.Mem) (junk : Nat → Nat → ℝ) (lev : Nat → ℝ) (order : Nat → List Nat) (g0 g1 : Iter.Mem) (mk0 mk1 : Nat → Bool),
    Renormed2 c E0.nx E0.ny E0.dx E0.dy eps u u1 ∧
    (∀ j < E0.nx * E0.ny, lev j = u1 (j * c.V + (c.V - 1))) ∧ (∀ m, (order m).Perm (List.range (E0.nx * E0.ny))) ∧
    Fills2 c (levFronts2 E0.nx E0.ny E0.dx E0.dy lev junk (starOf Z [some E0.P, some E1.P] dt0) order layers) E0.nx E0.ny E0.dx E0.dy 2 0 u1
      g0 mk0 ∧
    Fills2 c (levFronts2 E0.nx E0.ny E0.dx E0.dy lev junk (starOf Z [some E0.P, some E1.P] dt0) order layers) E0.nx E0.ny E0.dx E0.dy 2 1 u1
      g1 mk1 ∧
    timestep c mae [g0, g1] [mk0, mk1] [E0.dx, E0.dy] CFL t tf count [some E0.P, some E1.P] 2 (E0.nx * E0.ny) = .fin dt

/-- The sum of the speeds over the cell sizes, which `timestep` takes on planes. -/
def waveRate (c : Sys.Cfg) (P : Sys.Par) (Q : St) (dx dy : ℝ) : ℝ := Eig.maxAbsEigs c P Q 0 / dx + Eig.maxAbsEigs c P Q 1 / dy

theorem speed_nonneg (P : Sys.Par) (Q : St) (d : Fin 3) : 0 ≤ Eig.maxAbsEigs c P Q d := by
  unfold Eig.maxAbsEigs
  simp only
  generalize hr : Real.sqrt _ = r
  have : 0 ≤ r := by rw [← hr]; exact Real.sqrt_nonneg _
  split_ifs with h0 <;> linarith

theorem courant_rate {CFL dx dy : ℝ} (hC1 : CFL ≤ 1) (hdx : 0 < dx) (hdy : 0 < dy) (count : Nat) (P : Sys.Par) (Q : St) (dt : ℝ)
    (hdt : 0 < dt) (h : dt * waveRate c P Q dx dy ≤ if count ≤ 5 then CFL / 5 else CFL) : dt * waveSpeed (c := c) P Q ≤ dx := by
  have h1 : (if count ≤ 5 then CFL / 5 else CFL) ≤ 1 := by split_ifs <;> linarith
  have h2 : 0 ≤ dt * (Eig.maxAbsEigs c P Q 1 / dy) := mul_nonneg hdt.le (div_nonneg (speed_nonneg P Q 1) hdy.le)
  unfold waveRate at h
  rw [mul_add] at h
  have h3 : dt * (waveSpeed (c := c) P Q / dx) ≤ 1 := by unfold waveSpeed; linarith
  rwa [mul_div_assoc', div_le_one hdx] at h3

section time

variable {E0 E1 : Env c 1} {Z : StarSet c} {F : Tail c} {bt : Nat → BT} {w w' : V3} {Q0 Q1 : St} {W : Weno.Setup 1} {undef : ℝ} {it : Nat} {tol : ℝ}
  (C : ContactPlane c E0 E1 Z F bt w w' Q0 Q1 W undef it tol) (k : Nat) (x0 eps : ℝ) (heps : 0 ≤ eps) (hL : Lies E0.nx k E0.dx eps x0)
  (threads : Nat) (hT : 0 < threads) (layers : Nat) (hlay : 1 ≤ layers) (nc : Bool) (mae : Sys.Par → St → Nat → Option ℝ)
  (hmae : ∀ P q, mae P q 0 = some (Eig.maxAbsEigs c P q 0) ∧ mae P q 1 = some (Eig.maxAbsEigs c P q 1)) (CFL : ℝ) (hC : 0 < CFL)

include C heps hL hlay hmae hC

/-- **The step of a contact on a plane** is positive, does not pass the final time, obeys the Courant condition with the wave speeds of
the two materials, and is the largest such step. -/
theorem contact_chooses2 (lev : Nat → ℝ) (hc : Crosses E0.nx k E0.dx x0 eps lev) (u : Iter.Mem) (hu : Halves2 c E0.nx E0.ny k Q0 Q1 lev u)
    (t tf : ℝ) (ht : t < tf) (count : Nat) (dt0 dt : ℝ) (h : ChoosesTwo2 E0 E1 Z eps layers mae CFL t tf count dt0 dt u) :
    0 < dt ∧ t + dt ≤ tf ∧ dt * waveRate c E0.P Q0 E0.dx E0.dy ≤ (if count ≤ 5 then CFL / 5 else CFL) ∧
      dt * waveRate c E1.P Q1 E0.dx E0.dy ≤ (if count ≤ 5 then CFL / 5 else CFL) ∧
      (t + dt = tf ∨ dt * max (waveRate c E0.P Q0 E0.dx E0.dy) (waveRate c E1.P Q1 E0.dx E0.dy) = if count ≤ 5 then CFL / 5 else CFL) := by
  obtain ⟨hV, hmV⟩ := contact_V C.viscous C.thermal C.multi C.lset
  obtain ⟨h1, h2⟩ := crosses_range C.dxpos heps hL.1 hL.2.1 hc
  obtain ⟨u1, junk, lev', order, g0, g1, mk0, mk1, hr, hl, ho, f0, f1, hdt⟩ := h
  have hu1 := contact_renormed2 C k x0 eps heps hL lev hc u u1 hu hr
  obtain ⟨grid0, grid1, mask⟩ := contact_grids2 C.viscous C.thermal C.multi C.lset E0 E1 w w' Q0 Q1 C.rest0 C.rest1 C.pressures
    E0.nx E0.ny C.width E0.dx E0.dy x0 C.dxpos C.dypos k hL.1 hL.2.1 h1 h2 Z C.fuel C.startol C.solid0 C.solid1 C.slides layers hlay order ho junk lev' dt0
    u1 hl hu1 g0 g1 mk0 mk1 f0 f1
  obtain ⟨dt', e, d0, d1, b1, b2⟩ := timestep_spec c mae [g0, g1] [mk0, mk1] [E0.dx, E0.dy] [some E0.P, some E1.P] CFL t tf count 2
    (E0.nx * E0.ny) hC ht
  rw [hdt] at e
  obtain rfl : dt = dt' := by simpa using e
  have hspeed : ∀ (P : Sys.Par) (Q : St) (g : Iter.Mem) (j : Nat) (x : ℝ), P.multi = false → ¬ P.reaction > -1 →
      (∀ v < c.V, g (j * c.V + v) = withLevel c Q x v) →
      cellSpeed mae [E0.dx, E0.dy] P (view c g j) = some (waveRate c P Q E0.dx E0.dy) := by
    intro P Q g j x hP hR hg
    have : ∀ d, Eig.maxAbsEigs c P (view c g j) d = Eig.maxAbsEigs c P Q d := fun d => by
      refine agree_speed C.thermal P hP hR (fun v hv => ?_) d
      unfold view
      rw [hg v (by omega), level_head C.viscous C.thermal C.multi C.lset Q x v (by omega)]
    simp [cellSpeed, hmae, this, waveRate, List.range_succ]
  have hk := hL.1
  have hkx := hL.2.1
  have hw := C.width
  have p0 : ¬ E0.P.reaction > -1 := C.rest0.ease.inert
  have p1 : ¬ E1.P.reaction > -1 := C.rest1.ease.inert
  have z0 : 0 < E0.ny := by omega
  have c0 := b1 0 (cell 0 0 E0.ny) E0.P ⟨by omega, cell_lt (by omega) z0, rfl, (mask 0 (by omega) 0 z0).1.2 (by omega)⟩ _
    (hspeed E0.P Q0 g0 _ _ C.rest0.single p0 (grid0 0 (by omega) 0 z0 (by omega)))
  have c1 := b1 1 (cell (E0.nx - 1) 0 E0.ny) E1.P ⟨by omega, cell_lt (by omega) z0, rfl, (mask _ (by omega) 0 z0).2.2 (by omega)⟩ _
    (hspeed E1.P Q1 g1 _ _ C.rest1.single p1 (grid1 (E0.nx - 1) (by omega) 0 z0 (by omega)))
  refine ⟨d0, d1, c0, c1, b2.imp_right ?_⟩
  rintro ⟨m, j, P, s, ⟨l1, l2, l3, l4⟩, hs, he⟩
  obtain ⟨x, y, hx, hy, rfl⟩ := cells_cover l2
  obtain rfl | rfl : m = 0 ∨ m = 1 := by omega
  · obtain rfl : E0.P = P := by simpa using l3
    have hs' : cellSpeed mae [E0.dx, E0.dy] E0.P (view c g0 (cell x y E0.ny)) = some s := hs
    rw [hspeed E0.P Q0 g0 _ _ C.rest0.single p0 (grid0 x hx y hy (((mask x hx y hy).1.1 l4).trans (by omega)))] at hs'
    obtain rfl := Option.some.inj hs'
    rw [max_eq_left, he]
    rw [← he] at c1
    exact le_of_mul_le_mul_left c1 d0
  · obtain rfl : E1.P = P := by simpa using l3
    have hs' : cellSpeed mae [E0.dx, E0.dy] E1.P (view c g1 (cell x y E0.ny)) = some s := hs
    rw [hspeed E1.P Q1 g1 _ _ C.rest1.single p1 (grid1 x hx y hy (by have := (mask x hx y hy).2.1 l4; omega))] at hs'
    obtain rfl := Option.some.inj hs'
    rw [max_eq_right, he]
    rw [← he] at c0
    exact le_of_mul_le_mul_left c0 d0

omit hlay hmae in
/-- There is a step. -/
theorem contact_step_exists2 (lev : Nat → ℝ) (hc : Crosses E0.nx k E0.dx x0 eps lev) (u : Iter.Mem)
    (hu : Halves2 c E0.nx E0.ny k Q0 Q1 lev u) (t tf : ℝ) (ht : t < tf) (count : Nat) (dt0 : ℝ) :
    ∃ dt, ChoosesTwo2 E0 E1 Z eps layers mae CFL t tf count dt0 dt u := by
  obtain ⟨h1, h2⟩ := crosses_range C.dxpos heps hL.1 hL.2.1 hc
  obtain ⟨u1, hr⟩ := contact_renormed2_exists C k x0 eps heps hL lev hc u hu
  have hu1 := contact_renormed2 C k x0 eps heps hL lev hc u u1 hu hr
  obtain ⟨hV, hmV⟩ := contact_V C.viscous C.thermal C.multi C.lset
  have hul : ∀ x < E0.nx, ∀ y < E0.ny, u1 (cell x y E0.ny * c.V + (c.V - 1)) = ((x : ℝ) + 1 / 2) * E0.dx - x0 := fun x hx y hy => by
    rw [hu1 x hx y hy _ (by omega), level_last]
  have fl := plane_fills C.lset E0.nx E0.ny C.width E0.dx E0.dy x0 C.dxpos C.dypos (fun _ _ => 0) (starOf Z [some E0.P, some E1.P] dt0)
    (fun _ => List.range (E0.nx * E0.ny)) (fun _ => .refl _) layers k hL.1 hL.2.1 h1 h2 u1 hul
  obtain ⟨g0, mk0, f0, -⟩ := fl 0 (by omega)
  obtain ⟨g1, mk1, f1, -⟩ := fl 1 (by omega)
  rw [planeFronts_eq] at f0 f1
  obtain ⟨dt, e, -⟩ := timestep_spec c mae [g0, g1] [mk0, mk1] [E0.dx, E0.dy] [some E0.P, some E1.P] CFL t tf count 2 (E0.nx * E0.ny) hC ht
  refine ⟨dt, u1, _, _, _, g0, g1, mk0, mk1, hr, fun j hj => ?_, fun _ => .refl _, f0, f1, e⟩
  obtain ⟨x, y, hx, hy, rfl⟩ := cells_cover hj
  rw [hul x hx y hy]
  simp only [(cell_div E0.ny x y hy).1]

include hT

/-- **A contact across a plane is carried along exactly, with the time steps of the code.**  With `CFL ≤ 1` the step lengths chosen by
`timestep` are short enough for `run_contact_plane`. -/
theorem run_contact_plane_timed (hC1 : CFL ≤ 1) {W' : Type} (b : Body Iter.Mem W') (tf : ℝ) (u0 : Iter.Mem) (w0 : W') (lev : Nat → ℝ)
    (hc : Crosses E0.nx k E0.dx x0 eps lev) (hu0 : Halves2 c E0.nx E0.ny k Q0 Q1 lev u0)
    (hb : FollowsTwo2 E0 E1 Z F eps bt nc threads layers b tf u0 w0)
    (hch : ∀ m s, Reach b tf u0 w0 m s → s.t < tf →
      ∃ dt0, ChoosesTwo2 E0 E1 Z eps layers mae CFL s.t tf s.count dt0 (b.step s.u s.w s.t s.count).2.2 s.u)
    {m : Nat} (hpos : ∀ m' s, m' ≤ m → Reach b tf u0 w0 m' s → ∃ k', Lies E0.nx k' E0.dx eps (x0 + w 0 * s.t))
    {s : Vars Iter.Mem W'} (hs : Reach b tf u0 w0 m s) :
    ContactAt2 c E0.nx E0.ny E0.dx eps Q0 Q1 (x0 + w 0 * s.t) (0 < m) s.u ∧
    ∀ j x, s.ret j = some x → ∃ m' s', m' ≤ m ∧ Reach b tf u0 w0 m' s' ∧ s'.u = x ∧
      ContactAt2 c E0.nx E0.ny E0.dx eps Q0 Q1 (x0 + w 0 * s'.t) True x := by
  have hdx := C.dxpos
  have hdy := C.dypos
  have hK := fun count P Q dt => courant_rate (c := c) hC1 hdx hdy count P Q dt
  have key : ∀ n, n ≤ m → ∀ m' s, m' < n → Reach b tf u0 w0 m' s → s.t < tf → 0 ≤ (b.step s.u s.w s.t s.count).2.2 ∧
      (b.step s.u s.w s.t s.count).2.2 * waveSpeed (c := c) E0.P Q0 ≤ E0.dx ∧
      (b.step s.u s.w s.t s.count).2.2 * waveSpeed (c := c) E1.P Q1 ≤ E0.dx := by
    intro n
    induction n with
    | zero => exact fun _ m' s hm => absurd hm (Nat.not_lt_zero _)
    | succ n ih =>
      intro hn m' s hm hs ht
      rcases Nat.lt_or_ge m' n with h | h
      · exact ih (by omega) m' s h hs ht
      obtain rfl : m' = n := by omega
      obtain ⟨⟨k1, lev1, i0, i1, i2, -⟩, -⟩ := run_contact_plane C k x0 eps heps hL threads hT layers hlay nc b tf u0 w0 lev hc hu0 hb
        (ih (by omega)) (fun m'' s'' h'' => hpos m'' s'' (by omega)) hs
      obtain ⟨dt0, h⟩ := hch m' s hs ht
      obtain ⟨a1, -, a3, a4, -⟩ := contact_chooses2 C k1 _ eps heps i0 layers hlay mae hmae CFL hC lev1 i2 s.u i1 s.t tf ht s.count dt0 _ h
      exact ⟨a1.le, hK _ _ _ _ a1 a3, hK _ _ _ _ a1 a4⟩
  exact run_contact_plane C k x0 eps heps hL threads hT layers hlay nc b tf u0 w0 lev hc hu0 hb (key m le_rfl) hpos hs

end time

def channelField : Iter.Mem := fun a =>
  withLevel paceCfg (if a / 15 / 5 < 3 then skiff 1 5 0 2 else skiff 3 (5 / 2) 0 (-3)) (contactLev (a / 15 / 5)) (a % 15)

/-- Two gases of different densities that slide past each other in a channel, and the steps that `timestep` chooses with `CFL = 9 / 10`. -/
example (T : Tab 1) (h : T.Ok) (W : Weno.Setup 1) (S : Riemann.Solvers) (svd : M3 → M3 × V3 × M3) :
    let bt : Nat → BT := fun s => if s < 2 then .transmissive else .periodic
    let mae : Sys.Par → St → Nat → Option ℝ := fun P q d => some (Eig.maxAbsEigs paceCfg P q (dir d))
    ∃ b : Body Iter.Mem Unit, FollowsTwo2 (channelEnv (samplePar sample) T h W) (channelEnv heavyPar T h W)
        ⟨false, true, 1 / 10 ^ 8, S, svd, fun _ _ => 0, 11⟩ channelTail (1 / 100) bt false 3 2 b 1 channelField () ∧
      (∀ m s, Reach b 1 channelField () m s → s.t < 1 → ∃ dt0, ChoosesTwo2 (channelEnv (samplePar sample) T h W) (channelEnv heavyPar T h W)
        ⟨false, true, 1 / 10 ^ 8, S, svd, fun _ _ => 0, 11⟩ (1 / 100) 2 mae (9 / 10) s.t 1 s.count dt0 (b.step s.u s.w s.t s.count).2.2 s.u) ∧
      ∀ m s, Reach b 1 channelField () m s → ∀ i < 30, ∀ v < 14, s.u (i * 15 + v) = channelField (i * 15 + v) := by
  intro bt mae
  have C := channel_case T h W S svd 0 2 (-3) bt (fun s hs => if_pos hs) (fun s _ hs => if_neg (by omega))
  set E0 := channelEnv (samplePar sample) T h W with hE0
  set E1 := channelEnv heavyPar T h W with hE1
  set Z : StarSet paceCfg := ⟨false, true, 1 / 10 ^ 8, S, svd, fun _ _ => 0, 11⟩ with hZ
  have hL : Lies E0.nx 3 E0.dx (1 / 100) (31 / 100) := contact_lies
  have hdx : E0.dx = 1 / 10 := rfl
  have hstill : ∀ t : ℝ, (31 / 100 : ℝ) + (![(0 : ℝ), 2, 0] : V3) 0 * t = 31 / 100 := fun t => by simp
  have hu0 : Halves2 paceCfg 6 5 3 (skiff 1 5 0 2) (skiff 3 (5 / 2) 0 (-3)) contactLev channelField := by
    intro x hx y hy v hv
    have hv15 : v < 15 := hv
    have e1 : (cell x y 5 * 15 + v) / 15 / 5 = x := by unfold cell; omega
    have e2 : (cell x y 5 * 15 + v) % 15 = v := by omega
    change channelField (cell x y 5 * 15 + v) = _
    simp only [channelField, e1, e2]
  have hmae : ∀ P q, mae P q 0 = some (Eig.maxAbsEigs paceCfg P q 0) ∧ mae P q 1 = some (Eig.maxAbsEigs paceCfg P q 1) :=
    fun _ _ => ⟨rfl, rfl⟩
  classical
  let Next : Iter.Mem → ℝ → Nat → Iter.Mem × ℝ → Prop := fun u t count p =>
    TwoPass2 E0 E1 Z channelTail (1 / 100) bt false 3 2 (count + 1) 0 p.2 u p.1 ∧
      ChoosesTwo2 E0 E1 Z (1 / 100) 2 mae (9 / 10) t 1 count 0 p.2 u
  let next : Iter.Mem → ℝ → Nat → Iter.Mem × ℝ := fun u t count => if hx : ∃ p, Next u t count p then hx.choose else (u, 0)
  let b : Body Iter.Mem Unit := ⟨fun u _ t count => ((next u t count).1, (), (next u t count).2), fun _ => false⟩
  have hnext : ∀ u t count lev, t < 1 → Halves2 paceCfg 6 5 3 (skiff 1 5 0 2) (skiff 3 (5 / 2) 0 (-3)) lev u →
      Crosses 6 3 (1 / 10) (31 / 100) (1 / 100) lev → Next u t count (next u t count) := by
    intro u t count lev ht hu hc
    obtain ⟨dt, hd⟩ := contact_step_exists2 C 3 (31 / 100) (1 / 100) (by norm_num) hL 2 mae (9 / 10) (by norm_num) lev hc u hu t 1 ht count 0
    obtain ⟨u', hx⟩ := contact_exists2 C 3 (31 / 100) (1 / 100) (by norm_num) hL 3 (by norm_num) 2
      lev hc (count + 1) 0 dt u hu (fun f hf => nomatch hf) (fun f hf => nomatch hf)
    have hex : ∃ p, Next u t count p := ⟨(u', dt), hx, hd⟩
    simp only [next]
    rw [dif_pos hex]
    exact hex.choose_spec
  have hinv : ∀ m s, Reach b 1 channelField () m s → ∃ lev, Halves2 paceCfg 6 5 3 (skiff 1 5 0 2) (skiff 3 (5 / 2) 0 (-3)) lev s.u ∧
      Crosses 6 3 (1 / 10) (31 / 100) (1 / 100) lev := by
    intro m s hs
    induction hs with
    | start => exact ⟨_, hu0, contact_crosses⟩
    | @step m s s' hs hp ih =>
      obtain ⟨ht, -, eu, -⟩ := pass_next b 1 hp
      obtain ⟨lev, i1, i2⟩ := ih
      rw [eu]
      obtain ⟨n1, n2⟩ := hnext s.u s.t s.count lev ht i1 i2
      obtain ⟨a1, -, a3, a4, -⟩ := contact_chooses2 C 3 (31 / 100) (1 / 100) (by norm_num) hL 2 (by norm_num) mae hmae (9 / 10)
        (by norm_num) lev i2 s.u i1 s.t 1 ht s.count 0 _ n2
      have hK := fun P Q => courant_rate (c := paceCfg) (CFL := 9 / 10) (by norm_num) C.dxpos C.dypos s.count P Q _ a1
      have := contact_two2 C 3 (31 / 100) (1 / 100) (by norm_num) hL 3 (by norm_num) 2 (by norm_num) false lev i2 _ 0 _ s.u _ i1 a1.le
        (hK _ _ a3) (hK _ _ a4) 3 (by rw [hstill]; exact hL) n1
      rw [hstill] at this
      exact ⟨_, this⟩
  have hb : FollowsTwo2 E0 E1 Z channelTail (1 / 100) bt false 3 2 b 1 channelField () := by
    intro m s hs ht
    obtain ⟨lev, i1, i2⟩ := hinv m s hs
    exact ⟨0, (hnext s.u s.t s.count lev ht i1 i2).1⟩
  have hch : ∀ m s, Reach b 1 channelField () m s → s.t < 1 →
      ∃ dt0, ChoosesTwo2 E0 E1 Z (1 / 100) 2 mae (9 / 10) s.t 1 s.count dt0 (b.step s.u s.w s.t s.count).2.2 s.u := by
    intro m s hs ht
    obtain ⟨lev, i1, i2⟩ := hinv m s hs
    exact ⟨0, (hnext s.u s.t s.count lev ht i1 i2).2⟩
  refine ⟨b, hb, hch, fun m s hs i hi v hv => ?_⟩
  obtain ⟨⟨k', lev', a0, a1, -⟩, -⟩ := run_contact_plane_timed C 3 (31 / 100) (1 / 100) (by norm_num) hL 3 (by norm_num) 2 (by norm_num) false
    mae hmae (9 / 10) (by norm_num) (by norm_num) b 1 channelField () contactLev contact_crosses hu0 hb hch
    (fun _ _ _ _ => ⟨3, by rw [hstill]; exact hL⟩) hs
  rw [hstill] at a0
  obtain rfl := lies_unique C.dxpos (by norm_num) a0 hL
  obtain ⟨x, y, hx, hy, rfl⟩ := cells_cover (nx := 6) (ny := 5) hi
  have e1 := a1 x hx y hy v (show v < 15 by omega)
  have e2 := hu0 x hx y hy v (show v < 15 by omega)
  rw [level_head rfl rfl rfl rfl _ _ _ hv] at e1 e2
  exact e1.trans e2.symm

end

end Verif.Run
