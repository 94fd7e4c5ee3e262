import Verif.Run.ContactRun

/-! # The time steps of a run with two materials next to each other -/

namespace Verif.Run

open Verif.Sys Verif.Iter Verif.Dg Verif.Fv Verif.Step Verif.Grid Verif.Rot

noncomputable section

variable {c : Sys.Cfg}

/-- `dt` is the time step that `timestep` gives for the grids and masks made by `fill_ghost_cells`, iterator.cpp:113-117. -/
def ChoosesTwo (E0 E1 : Env c 1) (Z : StarSet c) (eps : ℝ) (layers : Nat) (mae : Sys.Par → St → Nat → Option ℝ) (CFL t tf : ℝ) (count : Nat)
    (dt0 dt : ℝ) (u : Iter.Mem) : Prop :=
  ∃ (u1 : Iter.Mem) (junk lev : Nat → ℝ) (order : Nat → List Nat) (g0 g1 : Iter.Mem) (mk0 mk1 : Nat → Bool), Renormed c E0.nx E0.dx eps u u1 ∧
    (∀ j < E0.nx, lev j = u1 (j * c.V + (c.V - 1))) ∧ (∀ m, (order m).Perm (List.range E0.nx)) ∧
    Fills c (levFronts E0.nx E0.dx lev junk (starOf Z [some E0.P, some E1.P] dt0) order layers) E0.nx E0.dx 2 0 u1 g0 mk0 ∧
    Fills c (levFronts E0.nx E0.dx lev junk (starOf Z [some E0.P, some E1.P] dt0) order layers) E0.nx E0.dx 2 1 u1 g1 mk1 ∧
    timestep c mae [g0, g1] [mk0, mk1] [E0.dx] CFL t tf count [some E0.P, some E1.P] 2 E0.nx = .fin dt

section time

variable {E0 E1 : Env c 1} {Z : StarSet c} {F : Tail c} {bt : Nat → BT} {w w' : V3} {Q0 Q1 : St} {W : Weno.Setup 1} {undef : ℝ} {it : Nat} {tol : ℝ}
  (C : Contact c E0 E1 Z F bt w w' Q0 Q1 W undef it tol) (k : Nat) (x0 eps : ℝ) (heps : 0 ≤ eps) (hL : Lies E0.nx k E0.dx eps x0)
  (threads : Nat) (hT : 0 < threads) (layers : Nat) (hlay : 1 ≤ layers) (mae : Sys.Par → St → Nat → Option ℝ)
  (hmae : ∀ P q, mae P q 0 = some (Eig.maxAbsEigs c P q 0)) (CFL : ℝ) (hC : 0 < CFL)

include C heps hL hlay hmae hC

/-- **The step of a contact** is positive, does not pass the final time, obeys the Courant condition with the wave speeds of the two
materials, and is the largest such step. -/
theorem contact_chooses (lev : Nat → ℝ) (hc : Crosses E0.nx k E0.dx x0 eps lev) (u : Iter.Mem) (hu : Halves c E0.nx k Q0 Q1 lev u)
    (t tf : ℝ) (ht : t < tf) (count : Nat) (dt0 dt : ℝ) (h : ChoosesTwo E0 E1 Z eps layers mae CFL t tf count dt0 dt u) :
    0 < dt ∧ t + dt ≤ tf ∧ dt * waveSpeed (c := c) E0.P Q0 ≤ (if count ≤ 5 then CFL / 5 else CFL) * E0.dx ∧
      dt * waveSpeed (c := c) E1.P Q1 ≤ (if count ≤ 5 then CFL / 5 else CFL) * E0.dx ∧
      (t + dt = tf ∨ dt * max (waveSpeed (c := c) E0.P Q0) (waveSpeed (c := c) E1.P Q1) = (if count ≤ 5 then CFL / 5 else CFL) * E0.dx) := by
  obtain ⟨hV, hmV⟩ := contact_V C.viscous C.thermal C.multi C.lset
  obtain ⟨h1, h2⟩ := crosses_range C.dxpos heps hL.1 hL.2.1 hc
  obtain ⟨u1, junk, lev', order, g0, g1, mk0, mk1, hr, hl, ho, f0, f1, hdt⟩ := h
  have hu1 := contact_renormed C k x0 eps heps hL lev hc u u1 hu hr
  obtain ⟨grid0, grid1, mask0, mask1, own0, own1⟩ := contact_grids C.viscous C.thermal C.multi C.lset E0 E1 w w' Q0 Q1 C.rest0 C.rest1 C.pressures
    E0.nx E0.dx x0 C.dxpos k hL.1 hL.2.1 h1 h2 Z C.fuel C.startol C.solid0 C.solid1 C.slides layers hlay order ho junk lev' dt0 u1 hl hu1 g0 g1 mk0 mk1 f0 f1
  obtain ⟨dt', e, d0, d1, b1, b2⟩ := timestep_spec c mae [g0, g1] [mk0, mk1] [E0.dx] [some E0.P, some E1.P] CFL t tf count 2 E0.nx hC ht
  rw [hdt] at e
  obtain rfl : dt = dt' := by simpa using e
  have hdx := C.dxpos
  have hspeed : ∀ (P : Sys.Par) (Q : St) (g : Iter.Mem) (j : Nat) (x : ℝ), P.multi = false → ¬ P.reaction > -1 →
      (∀ v < c.V, g (j * c.V + v) = withLevel c Q x v) → cellSpeed mae [E0.dx] P (view c g j) = some (waveSpeed (c := c) P Q / E0.dx) := by
    intro P Q g j x hP hR hg
    have : Eig.maxAbsEigs c P (view c g j) 0 = waveSpeed (c := c) P Q := by
      refine agree_speed C.thermal P hP hR (fun v hv => ?_) 0
      unfold view
      rw [hg v (by omega), level_head C.viscous C.thermal C.multi C.lset Q x v (by omega)]
    simp [cellSpeed, hmae, this]
  have hk := hL.1
  have hkx := hL.2.1
  have p0 : ¬ E0.P.reaction > -1 := C.rest0.ease.inert
  have p1 : ¬ E1.P.reaction > -1 := C.rest1.ease.inert
  have c0 := b1 0 0 E0.P ⟨by omega, by omega, rfl, own0 0 (by omega) (by omega)⟩ _
    (hspeed E0.P Q0 g0 0 _ C.rest0.single p0 (grid0 0 (by omega) (by omega)))
  have c1 := b1 1 (E0.nx - 1) E1.P ⟨by omega, by omega, rfl, own1 _ (by omega) (by omega)⟩ _
    (hspeed E1.P Q1 g1 _ _ C.rest1.single p1 (grid1 (E0.nx - 1) (by omega) (by omega)))
  rw [mul_div_assoc', div_le_iff₀ hdx] at c0 c1
  refine ⟨d0, d1, c0, c1, b2.imp_right ?_⟩
  rintro ⟨m, j, P, s, ⟨l1, l2, l3, l4⟩, hs, he⟩
  obtain rfl | rfl : m = 0 ∨ m = 1 := by omega
  · obtain rfl : E0.P = P := by simpa using l3
    have hs' : cellSpeed mae [E0.dx] E0.P (view c g0 j) = some s := hs
    rw [hspeed E0.P Q0 g0 j _ C.rest0.single p0 (grid0 j l2 ((mask0 j l2 l4).trans (by omega)))] at hs'
    obtain rfl := Option.some.inj hs'
    rw [mul_div_assoc', div_eq_iff hdx.ne'] at he
    rw [max_eq_left, he]
    rw [← he] at c1
    exact le_of_mul_le_mul_left c1 d0
  · obtain rfl : E1.P = P := by simpa using l3
    have hs' : cellSpeed mae [E0.dx] E1.P (view c g1 j) = some s := hs
    rw [hspeed E1.P Q1 g1 j _ C.rest1.single p1 (grid1 j l2 (by have := mask1 j l2 l4; omega))] at hs'
    obtain rfl := Option.some.inj hs'
    rw [mul_div_assoc', div_eq_iff hdx.ne'] at he
    rw [max_eq_right, he]
    rw [← he] at c0
    exact le_of_mul_le_mul_left c0 d0

omit hlay hmae in
/-- There is a step. -/
theorem contact_step_exists (lev : Nat → ℝ) (hc : Crosses E0.nx k E0.dx x0 eps lev) (u : Iter.Mem) (hu : Halves c E0.nx k Q0 Q1 lev u)
    (t tf : ℝ) (ht : t < tf) (count : Nat) (dt0 : ℝ) : ∃ dt, ChoosesTwo E0 E1 Z eps layers mae CFL t tf count dt0 dt u := by
  obtain ⟨h1, h2⟩ := crosses_range C.dxpos heps hL.1 hL.2.1 hc
  obtain ⟨u1, hr⟩ := contact_renormed_exists C k x0 eps heps hL lev hc u hu
  have hu1 := contact_renormed C k x0 eps heps hL lev hc u u1 hu hr
  obtain ⟨hV, hmV⟩ := contact_V C.viscous C.thermal C.multi C.lset
  have hul : ∀ j < E0.nx, u1 (j * c.V + (c.V - 1)) = ((j : ℝ) + 1 / 2) * E0.dx - x0 := fun j hj => by
    rw [hu1 j hj _ (by omega), level_last]
  have fl := lev_fills C.lset E0.nx E0.dx x0 C.dxpos (fun _ => 0) (starOf Z [some E0.P, some E1.P] dt0) (fun _ => List.range E0.nx)
    (fun _ => .refl _) layers k hL.1 hL.2.1 h1 h2 u1 hul (fun j => u1 (j * c.V + (c.V - 1))) hul
  obtain ⟨g0, mk0, f0, -⟩ := fl 0 (by omega)
  obtain ⟨g1, mk1, f1, -⟩ := fl 1 (by omega)
  obtain ⟨dt, e, -⟩ := timestep_spec c mae [g0, g1] [mk0, mk1] [E0.dx] [some E0.P, some E1.P] CFL t tf count 2 E0.nx hC ht
  exact ⟨dt, u1, _, _, _, g0, g1, mk0, mk1, hr, fun _ _ => rfl, fun _ => .refl _, f0, f1, e⟩

include hT

/-- **A contact is carried along exactly, with the time steps of the code.**  With `CFL ≤ 1` the step lengths chosen by `timestep` are
short enough for `run_contact`, so that nothing has to be assumed of them. -/
theorem run_contact_timed (hC1 : CFL ≤ 1) {W' : Type} (b : Body Iter.Mem W') (tf : ℝ) (u0 : Iter.Mem) (w0 : W') (lev : Nat → ℝ)
    (hc : Crosses E0.nx k E0.dx x0 eps lev) (hu0 : Halves c E0.nx k Q0 Q1 lev u0) (hb : FollowsTwo E0 E1 Z F eps bt threads layers b tf u0 w0)
    (hch : ∀ m s, Reach b tf u0 w0 m s → s.t < tf →
      ∃ dt0, ChoosesTwo E0 E1 Z eps layers mae CFL s.t tf s.count dt0 (b.step s.u s.w s.t s.count).2.2 s.u)
    {m : Nat} (hpos : ∀ m' s, m' ≤ m → Reach b tf u0 w0 m' s → ∃ k', Lies E0.nx k' E0.dx eps (x0 + w 0 * s.t))
    {s : Vars Iter.Mem W'} (hs : Reach b tf u0 w0 m s) :
    ContactAt c E0.nx E0.dx eps Q0 Q1 (x0 + w 0 * s.t) (0 < m) s.u ∧
    ∀ j x, s.ret j = some x → ∃ m' s', m' ≤ m ∧ Reach b tf u0 w0 m' s' ∧ s'.u = x ∧
      ContactAt c E0.nx E0.dx eps Q0 Q1 (x0 + w 0 * s'.t) True x := by
  have hdx := C.dxpos
  have hK : ∀ count : Nat, (if count ≤ 5 then CFL / 5 else CFL) * E0.dx ≤ E0.dx := fun count => by
    split_ifs <;> nlinarith
  have key : ∀ n, n ≤ m → ∀ m' s, m' < n → Reach b tf u0 w0 m' s → s.t < tf → 0 ≤ (b.step s.u s.w s.t s.count).2.2 ∧
      (b.step s.u s.w s.t s.count).2.2 * waveSpeed (c := c) E0.P Q0 ≤ E0.dx ∧
      (b.step s.u s.w s.t s.count).2.2 * waveSpeed (c := c) E1.P Q1 ≤ E0.dx := by
    intro n
    induction n with
    | zero => exact fun _ m' s hm => absurd hm (Nat.not_lt_zero _)
    | succ n ih =>
      intro hn m' s hm hs ht
      rcases Nat.lt_or_ge m' n with h | h
      · exact ih (by omega) m' s h hs ht
      obtain rfl : m' = n := by omega
      obtain ⟨⟨k1, lev1, i0, i1, i2, -⟩, -⟩ := run_contact C k x0 eps heps hL threads hT layers hlay b tf u0 w0 lev hc hu0 hb
        (ih (by omega)) (fun m'' s'' h'' => hpos m'' s'' (by omega)) hs
      obtain ⟨dt0, h⟩ := hch m' s hs ht
      obtain ⟨a1, -, a3, a4, -⟩ := contact_chooses C k1 _ eps heps i0 layers hlay mae hmae CFL hC lev1 i2 s.u i1 s.t tf ht s.count dt0 _ h
      exact ⟨a1.le, a3.trans (hK _), a4.trans (hK _)⟩
  exact run_contact C k x0 eps heps hL threads hT layers hlay b tf u0 w0 lev hc hu0 hb (key m le_rfl) hpos hs

end time

/-- Two gases of different densities at rest between a wall and an open end, and the steps that `timestep` chooses with `CFL = 9 / 10`. -/
example (T : Tab 1) (h : T.Ok) (W : Weno.Setup 1) (S : Riemann.Solvers) (svd : M3 → M3 × V3 × M3) :
    ∃ b : Body Iter.Mem Unit, FollowsTwo (contactEnv (samplePar sample) T h W) (contactEnv heavyPar T h W)
        ⟨false, true, 1 / 10 ^ 8, S, svd, fun _ _ => 0, 11⟩ contactTail (1 / 100) (fun s => if s = 0 then .stick else .transmissive) 3 2 b 1
        contactField () ∧
      (∀ m s, Reach b 1 contactField () m s → s.t < 1 → ∃ dt0, ChoosesTwo (contactEnv (samplePar sample) T h W) (contactEnv heavyPar T h W)
        ⟨false, true, 1 / 10 ^ 8, S, svd, fun _ _ => 0, 11⟩ (1 / 100) 2 (fun P q d => some (Eig.maxAbsEigs paceCfg P q (dir d))) (9 / 10) s.t 1
        s.count dt0 (b.step s.u s.w s.t s.count).2.2 s.u) ∧
      ∀ m s, Reach b 1 contactField () m s → ∀ i < 6, ∀ v < 14, s.u (i * 15 + v) = contactField (i * 15 + v) := by
  have C := contact_case T h W S svd 0 (fun s => if s = 0 then .stick else .transmissive) (fun s => by split_ifs <;> simp)
  set E0 := contactEnv (samplePar sample) T h W with hE0
  set E1 := contactEnv heavyPar T h W with hE1
  set Z : StarSet paceCfg := ⟨false, true, 1 / 10 ^ 8, S, svd, fun _ _ => 0, 11⟩ with hZ
  set mae : Sys.Par → St → Nat → Option ℝ := fun P q d => some (Eig.maxAbsEigs paceCfg P q (dir d)) with hmae
  let bt : Nat → BT := fun s => if s = 0 then .stick else .transmissive
  have hL : Lies E0.nx 3 E0.dx (1 / 100) (31 / 100) := contact_lies
  have hdx : E0.dx = 1 / 10 := rfl
  have hstill : ∀ t : ℝ, (31 / 100 : ℝ) + (![(0 : ℝ), 0, 0] : V3) 0 * t = 31 / 100 := fun t => by simp
  have hu0 : Halves paceCfg 6 3 (boat 1 5 0) (boat 3 (5 / 2) 0) contactLev contactField := by
    intro i hi v hv
    have hv15 : v < 15 := hv
    have e1 : (i * 15 + v) / 15 = i := by omega
    have e2 : (i * 15 + v) % 15 = v := by omega
    change contactField (i * 15 + v) = _
    simp only [contactField, e1, e2]
  classical
  let Next : Iter.Mem → ℝ → Nat → Iter.Mem × ℝ → Prop := fun u t count p =>
    TwoPass E0 E1 Z contactTail (1 / 100) bt 3 2 (count + 1) 0 p.2 u p.1 ∧ ChoosesTwo E0 E1 Z (1 / 100) 2 mae (9 / 10) t 1 count 0 p.2 u
  let next : Iter.Mem → ℝ → Nat → Iter.Mem × ℝ := fun u t count => if hx : ∃ p, Next u t count p then hx.choose else (u, 0)
  let b : Body Iter.Mem Unit := ⟨fun u _ t count => ((next u t count).1, (), (next u t count).2), fun _ => false⟩
  have hnext : ∀ u t count lev, t < 1 → Halves paceCfg 6 3 (boat 1 5 0) (boat 3 (5 / 2) 0) lev u →
      Crosses 6 3 (1 / 10) (31 / 100) (1 / 100) lev → Next u t count (next u t count) := by
    intro u t count lev ht hu hc
    obtain ⟨dt, hd⟩ := contact_step_exists C 3 (31 / 100) (1 / 100) (by norm_num) hL 2 mae (9 / 10) (by norm_num) lev hc u hu t 1 ht count 0
    obtain ⟨u', hx⟩ := contact_exists C 3 (31 / 100) (1 / 100) (by norm_num) hL 3 (by norm_num) 2
      lev hc (count + 1) 0 dt u hu (fun f hf => nomatch hf) (fun f hf => nomatch hf)
    have hex : ∃ p, Next u t count p := ⟨(u', dt), hx, hd⟩
    simp only [next]
    rw [dif_pos hex]
    exact hex.choose_spec
  have hinv : ∀ m s, Reach b 1 contactField () m s → ∃ lev, Halves paceCfg 6 3 (boat 1 5 0) (boat 3 (5 / 2) 0) lev s.u ∧
      Crosses 6 3 (1 / 10) (31 / 100) (1 / 100) lev := by
    intro m s hs
    induction hs with
    | start => exact ⟨_, hu0, contact_crosses⟩
    | @step m s s' hs hp ih =>
      obtain ⟨ht, -, eu, -⟩ := pass_next b 1 hp
      obtain ⟨lev, i1, i2⟩ := ih
      rw [eu]
      obtain ⟨n1, n2⟩ := hnext s.u s.t s.count lev ht i1 i2
      obtain ⟨a1, -, a3, a4, -⟩ := contact_chooses C 3 (31 / 100) (1 / 100) (by norm_num) hL 2 (by norm_num) mae (fun _ _ => rfl) (9 / 10)
        (by norm_num) lev i2 s.u i1 s.t 1 ht s.count 0 _ n2
      have hK : (if s.count ≤ 5 then (9 / 10 : ℝ) / 5 else 9 / 10) * E0.dx ≤ E0.dx := by
        rw [hdx]; split_ifs <;> norm_num
      have := contact_two C 3 (31 / 100) (1 / 100) (by norm_num) hL 3 (by norm_num) 2 (by norm_num) lev i2 _ 0 _ s.u _ i1 a1.le (a3.trans hK)
        (a4.trans hK) 3 (by rw [hstill]; exact hL) n1
      rw [hstill] at this
      exact ⟨_, this⟩
  have hb : FollowsTwo E0 E1 Z contactTail (1 / 100) bt 3 2 b 1 contactField () := by
    intro m s hs ht
    obtain ⟨lev, i1, i2⟩ := hinv m s hs
    exact ⟨0, (hnext s.u s.t s.count lev ht i1 i2).1⟩
  have hch : ∀ m s, Reach b 1 contactField () m s → s.t < 1 →
      ∃ dt0, ChoosesTwo E0 E1 Z (1 / 100) 2 mae (9 / 10) s.t 1 s.count dt0 (b.step s.u s.w s.t s.count).2.2 s.u := by
    intro m s hs ht
    obtain ⟨lev, i1, i2⟩ := hinv m s hs
    exact ⟨0, (hnext s.u s.t s.count lev ht i1 i2).2⟩
  refine ⟨b, hb, hch, fun m s hs i hi v hv => ?_⟩
  obtain ⟨⟨k', lev', a0, a1, -⟩, -⟩ := run_contact_timed C 3 (31 / 100) (1 / 100) (by norm_num) hL 3 (by norm_num) 2 (by norm_num) mae
    (fun _ _ => rfl) (9 / 10) (by norm_num) (by norm_num) b 1 contactField () contactLev contact_crosses hu0 hb hch
    (fun _ _ _ _ => ⟨3, by rw [hstill]; exact hL⟩) hs
  rw [hstill] at a0
  obtain rfl := lies_unique C.dxpos (by norm_num) a0 hL
  have e1 := a1 i hi v (show v < 15 by omega)
  have e2 := hu0 i hi v (show v < 15 by omega)
  rw [level_head rfl rfl rfl rfl _ _ _ hv] at e1 e2
  exact e1.trans e2.symm

end

end Verif.Run
