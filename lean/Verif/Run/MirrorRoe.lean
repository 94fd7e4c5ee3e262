import Verif.Run.Mirror
import Verif.Rot.Hyper

/-! # Mirror images of runs with the fluxes of Roe and Osher

The interface functions of fluxes.cpp:22-64 call Eigen's eigenvalue solver; they are the same from both sides wherever the
eigenvectors of the matrices at the interface span. -/

namespace Verif.Run

open Verif.Step Verif.Dg Verif.Fv Verif.Sys Verif.Iter Verif.Grid Verif.Rot

noncomputable section

variable {c : Sys.Cfg} {n : Nat}

/-- `D_ROE` as the function selected by `FLUX`, fluxes.cpp:46-64. -/
def roe (c : Sys.Cfg) (P : Sys.Par) (T : Tab n) (es : EigSolver) (d : Nat) (ql qr : Fin c.V → ℝ) : Fin c.V → ℝ := fun v =>
  dRoe c P T es (ofVec c ql) (ofVec c qr) (dir d) v

/-- `D_OSH` as the function selected by `FLUX`, fluxes.cpp:22-44. -/
def osher (c : Sys.Cfg) (P : Sys.Par) (T : Tab n) (es : EigSolver) (d : Nat) (ql qr : Fin c.V → ℝ) : Fin c.V → ℝ := fun v =>
  dOsh c P T es (ofVec c ql) (ofVec c qr) (dir d) v

/-- The interfaces at which `D_ROE` has its eigenvectors. -/
def RoeOk (c : Sys.Cfg) (P : Sys.Par) (T : Tab n) (ql qr : Fin c.V → ℝ) : Prop :=
  Spans c.V (roeMatrix c P T (ofVec c ql) (ofVec c qr) 0)

/-- The interfaces at which `D_OSH` has its eigenvectors. -/
def OsherOk (c : Sys.Cfg) (P : Sys.Par) (T : Tab n) (ql qr : Fin c.V → ℝ) : Prop :=
  ∀ k, Spans c.V (systemMatrix c P (fun i => ofVec c qr i + T.nodes k * (ofVec c ql i - ofVec c qr i)) 0)

section

variable {P : Sys.Par} {T : Tab n} (hv : c.viscous = true) (hm : c.multi = false) (hmix : c.mix (mirPar P) = c.mix P) (h : T.Ok)
  (hs : T.Sym) {es es' : EigSolver} (he : EigOk c.V es) (he' : EigOk c.V es')
include hv hm hmix h hs he he'

/-- **Without `MULTI` the interface function of Roe is the same from both sides**, whatever eigenvectors Eigen picks on either. -/
theorem roe_fluxMirrored : FluxMirrored (RoeOk c P T) (eps c) (roe c P T es) (roe c (mirPar P) T es') := by
  intro ql qr hG v
  simp only [roe, mir_ofVec]
  exact roe_mirrored hv hmix hm h hs es es' _ _ (he _ hG) (he' _ (spans_mirror (sgn c) (sgn_sq c)
    (fun i hi j hj => mir_roeMatrix hv hmix h hs _ _ i j hi hj) hG)) v v.2

/-- **Without `MULTI` the interface function of Osher is the same from both sides.** -/
theorem osher_fluxMirrored : FluxMirrored (OsherOk c P T) (eps c) (osher c P T es) (osher c (mirPar P) T es') := by
  intro ql qr hG v
  simp only [osher, mir_ofVec]
  exact osher_mirrored hv hmix hm h hs es es' _ _ (fun k => he _ (hG k)) (fun k => he' _ (spans_mirror (sgn c) (sgn_sq c)
    (fun i hi j hj => mir_systemMatrix _ hv hmix i j hi hj) (hG k))) v v.2

end

variable {E' E : Env c n} {G : (Fin c.V → ℝ) → (Fin c.V → ℝ) → Prop}

/-- **The two lines stay mirror images of each other with any of the other two fluxes**: with this `run_mirror` and
`run_symmetric` hold for `D_ROE` and `D_OSH`, too. -/
theorem env_mirror_eig (hv : c.viscous = true) (hm : c.multi = false) (hmix : c.mix (mirPar E.P) = c.mix E.P) (hE : E.T.Ok)
    (hT : E.T.Sym) (hM : E'.Mirror E G) {es es' : EigSolver} (he : EigOk c.V es) (he' : EigOk c.V es') :
    ({ E' with fl := roe c E'.P E'.T es' } : Env c n).Mirror { E with fl := roe c E.P E.T es } (RoeOk c E.P E.T) ∧
    ({ E' with fl := osher c E'.P E'.T es' } : Env c n).Mirror { E with fl := osher c E.P E.T es } (OsherOk c E.P E.T) := by
  refine ⟨⟨hM.P, hM.T, hM.nx, hM.dx, ?_, hM.src, hM.ds, hM.half, hM.steps, hM.fuel, hM.bad⟩,
    ⟨hM.P, hM.T, hM.nx, hM.dx, ?_, hM.src, hM.ds, hM.half, hM.steps, hM.fuel, hM.bad⟩⟩
  · show FluxMirrored _ _ (roe c E.P E.T es) (roe c E'.P E'.T es')
    rw [hM.P, hM.T]
    exact roe_fluxMirrored hv hm hmix hE hT he he'
  · show FluxMirrored _ _ (osher c E.P E.T es) (osher c E'.P E'.T es')
    rw [hM.P, hM.T]
    exact osher_fluxMirrored hv hm hmix hE hT he he'

/-- On a uniform body at rest the schemes meet one interface only. -/
theorem facesLine_rest (Q : St) (W : Weno.Setup n) (undef : ℝ) (hv : c.viscous = true) (hE : E.Ok)
    (hS : E.Steady W undef (restCell c Q)) (hQ : Newton.AtEase c E.P Q) (hd : (getA Q).det ≠ 0) (b : Nat → BT)
    (h0 : Mirrors E Q 0 (b 0)) (h1 : Mirrors E Q 0 (b 1)) (split : Bool) (dt : ℝ) (u : Iter.Mem) (hu : Uniform c E.nx Q u)
    (hG : G (restCell c Q) (restCell c Q)) : FacesLine G E b split dt u := by
  intro wb hp f hf
  have hn := hE.tab.pos
  have hub := pads1_rest E Q hE b h0 h1 u hu wb hp
  have ho := ode_rest E Q hv hE hd hQ dt
  have hw : ∀ i < E.nx + 2, weno1G E.coef wb ((E.nx + 2 : Nat) : Int) 0 i = fun _ => restCell c Q := fun i hi => by
    funext k
    rw [hS.coef]
    exact weno1G_const W undef _ _ 0 i (Weno.active_zero n _ i) _ (fun r hr => hub _ (by omega)) k
  have hw' : ∀ i < E.nx + 2, weno1G E.coef (fun r => E.ode dt (wb r)) ((E.nx + 2 : Nat) : Int) 0 i = fun _ => restCell c Q :=
    fun i hi => by
    funext k
    rw [hS.coef]
    exact weno1G_const W undef _ _ 0 i (Weno.active_zero n _ i) _ (fun r hr => by rw [hub _ (by omega), ho]) k
  cases split
  · intro t ht p p' e e'
    obtain ⟨r, hr, hc⟩ := hS.pred1 dt
    rw [hw f (by omega), hr] at e
    rw [hw (f + 1) (by omega), hr] at e'
    cases e
    cases e'
    rw [trace_const hE.tab 1 _ _ (hc t ht), trace_const hE.tab 0 _ _ (hc t ht)]
    exact hG
  · simp only [if_true, hw' f (by omega), hw' (f + 1) (by omega), hS.mid1, ite_self]
    rw [trace_const hE.tab 1 _ _ fun _ => rfl, trace_const hE.tab 0 _ _ fun _ => rfl]
    exact hG

/-! ### Examples -/

theorem ofVec_stream (e u : ℝ) : ofVec (cfgOf false) (restCell (cfgOf false) (stream e u)) = stream e u := by
  funext i
  unfold ofVec restCell
  split_ifs with h
  · rfl
  · have h' : (cfgOf false).V = 16 := rfl
    rw [h'] at h
    unfold stream stateAtRest
    rw [if_neg (by omega), if_neg (by omega), if_neg (by omega), if_neg (by omega), if_neg (by omega)]

/-- An interface with a jump between two streams that run into each other or apart. -/
example {T : Tab n} (h : T.Ok) (e u : ℝ) (he : u * u / 2 ≤ e) :
    OsherOk (cfgOf false) (samplePar sample) T (restCell (cfgOf false) (stream e u)) (restCell (cfgOf false) (stream e (-u))) := by
  intro k
  rw [ofVec_stream, ofVec_stream, stream_between]
  obtain ⟨h0, h1⟩ := Dg.nodes_inside h k
  have : (2 * T.nodes k - 1) * (2 * T.nodes k - 1) ≤ 1 := by nlinarith
  exact stream_spans _ _ (by nlinarith [mul_le_mul_of_nonneg_right this (mul_self_nonneg u)])

theorem rest_line : ofVec lineCfg (restCell lineCfg stateAtRest) = stateAtRest := by
  funext i
  unfold ofVec restCell
  split_ifs with h
  · rfl
  · have h' : lineCfg.V = 14 := rfl
    rw [h'] at h
    unfold stateAtRest
    rw [if_neg (by omega), if_neg (by omega), if_neg (by omega)]

theorem rest_spans : Spans lineCfg.V (systemMatrix lineCfg (samplePar sample) stateAtRest 0) := by
  have e : stateAtRest = stream 5 0 := by
    funext i
    unfold stream
    split_ifs with h1 h2
    · subst h1; simp [stateAtRest]
    · subst h2; simp [stateAtRest]
    · rfl
  obtain ⟨hA, hR, hk, -⟩ := stream_facts 5 0 (by norm_num)
  rw [← e] at hA hR hk
  have hR' : Verif.Eig.Regular lineCfg (samplePar sample) stateAtRest :=
    ⟨hR.dens, hR.grun, hR.shear, hR.sound, fun h => (nomatch h)⟩
  exact spans_plain _ _ _ rfl rfl rfl (by simp [samplePar]) hR'
    (Riemann.unit_pos lineCfg (samplePar sample) _ rfl rfl hR.dens hA (by rw [hk]; norm_num))

theorem rest_ease : Newton.AtEase lineCfg (samplePar sample) stateAtRest := by
  have hA : getA stateAtRest = 1 := by
    ext i j
    fin_cases i <;> fin_cases j <;> simp [getA, stateAtRest]
  refine ⟨?_, by simp [lineCfg], rfl, by norm_num [samplePar]⟩
  rw [hA]
  ext i j
  fin_cases i <;> fin_cases j <;> simp [AdevG] <;> norm_num

/-- A line of 8 cells at rest between slip walls, with the predictors and half steps of the code and the flux of Osher, meets the
condition on its interfaces for both schemes. -/
example (T : Tab 2) (h : T.Ok) (W : Weno.Setup 2) (es : EigSolver) (split : Bool) (dt : ℝ) : ∃ E : Env lineCfg 2,
    E.fl = osher lineCfg E.P E.T es ∧ ∀ u, Uniform lineCfg 8 stateAtRest u →
      FacesLine (OsherOk lineCfg E.P E.T) E (fun _ => .slip) split dt u := by
  have hVpos : 0 < lineCfg.V := by have := Iter.V_ge lineCfg rfl; omega
  obtain ⟨nm1, hn1, -⟩ := Newton.isMaxNorm_exists (n := 2 * 2 * lineCfg.V) (by positivity) fun _ => .nan
  obtain ⟨nm2, hn2, -⟩ := Newton.isMaxNorm_exists (n := 2 * (2 * 2) * lineCfg.V) (by positivity) fun _ => .nan
  let E := boxEnv T h W (osher lineCfg (samplePar sample) T es) nm1 nm2
  have hE : E.Ok := ⟨h, ⟨by simp [E, boxEnv], by simp [E, boxEnv]⟩, fun _ => ⟨0, rfl⟩,
    fun A => (Grid.svd_exists A).choose_spec.choose_spec.choose_spec.1⟩
  have hC : E.Code false 4 0 (fun _ => true) 7 nm1 nm2 (fun _ _ v _ => ((), v)) (fun _ _ v _ => ((), v)) () id id :=
    ⟨hn1, hn2, le_rfl, by norm_num, fun dt => ⟨_, fun w => (isStep1_exists h boxSys _ dt (1 / 10)).choose_spec, rfl⟩,
     fun dt => ⟨_, fun w => (isStep2_exists h boxSys _ dt (1 / 10) 1).choose_spec, rfl⟩, fun _ => rfl, fun _ => rfl, rfl⟩
  have hQ : Newton.AtEase lineCfg E.P stateAtRest := rest_ease
  have hS := code_steady E stateAtRest hC W 0 rfl rfl hE hQ
  have hA : getA stateAtRest = 1 := by
    ext i j
    fin_cases i <;> fin_cases j <;> simp [getA, stateAtRest]
  have hM : Mirrors E stateAtRest 0 .slip := mirrors_wall E stateAtRest rfl 0 (by norm_num)
    (fun k h1 h2 => by unfold stateAtRest; rw [if_neg (by omega), if_neg (by omega), if_neg (by omega)]) .slip (Or.inl rfl)
  refine ⟨E, rfl, fun u hu => facesLine_rest stateAtRest W 0 rfl hE hS hQ (by rw [hA]; simp) _ hM hM split dt u hu fun k => ?_⟩
  rw [rest_line]
  have e : (fun i => stateAtRest i + E.T.nodes k * (stateAtRest i - stateAtRest i)) = stateAtRest := by
    funext i; ring
  rw [e]
  exact rest_spans

end

end Verif.Run
