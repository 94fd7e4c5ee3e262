import Verif.Run.MirrorRoe
import Verif.Step.Zoom
import Verif.Relax.Zoom

/-! # Larger bodies

The run on cells `lam` times as large, of a material `lam` times as slow, to `lam` times the final time.  One material, any boundary
types, any steppers, lines and planes, any number of passes. -/

namespace Verif.Run

open Verif.Step Verif.Dg Verif.Fv Verif.Sys Verif.Iter Verif.Grid Verif.Rot Verif.Relax

noncomputable section

variable {c : Sys.Cfg} {n : Nat} {P : Sys.Par} {lam : ℝ}

/-! ### What does not change -/

theorem zoom_solveMulti (hmix : c.mix (zoomPar lam P) = c.mix P) (Q : St) : solveMulti c (zoomPar lam P) Q = solveMulti c P Q := by
  have hi : internalEnergy c (zoomPar lam P) Q = internalEnergy c P Q := rfl
  unfold solveMulti
  rw [hi, hmix]
  rfl

theorem zoom_flux (hmix : c.mix (zoomPar lam P) = c.mix P) (Q : St) (d : Fin 3) (r : St) :
    flux c (zoomPar lam P) Q d r = flux c P Q d r := by
  have h1 : ∀ r, fluxBase c (zoomPar lam P) Q d r = fluxBase c P Q d r := fun r => by
    unfold fluxBase
    rw [zoom_pressure hmix]
  have h2 : ∀ r, fluxViscous (zoomPar lam P) Q d r = fluxViscous P Q d r := fun r => rfl
  have h3 : ∀ r, fluxThermal c (zoomPar lam P) Q d r = fluxThermal c P Q d r := fun r => by
    unfold fluxThermal
    rw [zoom_pressure hmix]
    rfl
  unfold flux
  simp only [h1, h2, h3]

theorem zoom_dEdrho (hmix : c.mix (zoomPar lam P) = c.mix P) (Q : St) : dEdrho c (zoomPar lam P) Q = dEdrho c P Q := by
  unfold dEdrho
  rw [zoom_pressure hmix, zoom_solveMulti hmix]
  rfl

theorem zoom_dEdp (hmix : c.mix (zoomPar lam P) = c.mix P) (Q : St) : dEdp c (zoomPar lam P) Q = dEdp c P Q := by
  unfold dEdp
  rw [zoom_solveMulti hmix]
  rfl

theorem zoom_systemMatrix (hmix : c.mix (zoomPar lam P) = c.mix P) (Q : St) (d : Fin 3) :
    systemMatrix c (zoomPar lam P) Q d = systemMatrix c P Q d := by
  have h1 : dFdPBase c (zoomPar lam P) Q d = dFdPBase c P Q d := by
    unfold dFdPBase
    rw [zoom_pressure hmix, zoom_dEdrho hmix, zoom_dEdp hmix]
  have h2 : ∀ M, dFdPViscous (zoomPar lam P) Q d M = dFdPViscous P Q d M := fun _ => rfl
  have h3 : ∀ M, dFdPThermal c (zoomPar lam P) Q d M = dFdPThermal c P Q d M := fun M => by
    unfold dFdPThermal
    rw [zoom_pressure hmix]
    rfl
  have h4 : ∀ M, dFdPMulti c (zoomPar lam P) Q d M = dFdPMulti c P Q d M := fun _ => rfl
  have h5 : dFdP c (zoomPar lam P) Q d = dFdP c P Q d := by
    unfold dFdP
    simp only [h1, h2, h3, h4]
  have h6 : dPdQ c (zoomPar lam P) Q = dPdQ c P Q := by
    unfold dPdQ
    rw [zoom_dEdrho hmix, zoom_dEdp hmix]
    rfl
  unfold systemMatrix
  rw [h5, h6]

theorem zoom_maxAbsEigs (hmix : c.mix (zoomPar lam P) = c.mix P) (Q : St) (d : Fin 3) :
    Eig.maxAbsEigs c (zoomPar lam P) Q d = Eig.maxAbsEigs c P Q d := by
  have h0 : Eig.c0 c (zoomPar lam P) Q = Eig.c0 c P Q := by
    unfold Eig.c0
    rw [zoom_pressure hmix, zoom_dEdrho hmix, zoom_dEdp hmix]
  have h1 : Eig.xi1 c (zoomPar lam P) Q d = Eig.xi1 c P Q d := by
    unfold Eig.xi1
    rw [zoom_pressure hmix]
    rfl
  have h2 : Eig.xi2 c (zoomPar lam P) Q d = Eig.xi2 c P Q d := by
    unfold Eig.xi2
    rw [zoom_pressure hmix, h0]
    rfl
  unfold Eig.maxAbsEigs Eig.tensor3 Eig.tensor4
  rw [h1, h2]

/-- The three interface functions. -/
theorem zoom_interface (hmix : c.mix (zoomPar lam P) = c.mix P) (T : Tab n) (es : EigSolver) :
    rusanov c (zoomPar lam P) = rusanov c P ∧ roe c (zoomPar lam P) T es = roe c P T es ∧
      osher c (zoomPar lam P) T es = osher c P T es := by
  have e : Eig.maxAbsEigs c (zoomPar lam P) = Eig.maxAbsEigs c P := funext fun Q => funext fun d => zoom_maxAbsEigs hmix Q d
  refine ⟨?_, ?_, ?_⟩
  · funext d ql qr v
    simp only [rusanov, dRus, zoom_flux hmix, e]
  · funext d ql qr v
    simp only [roe, dRoe, zoom_flux hmix, zoom_systemMatrix hmix]
  · funext d ql qr v
    simp only [osher, dOsh, zoom_flux hmix, zoom_systemMatrix hmix]

/-! ### The steppers -/

/-- The larger body. -/
def Env.zoom (lam : ℝ) (E : Env c n) : Env c n :=
  { E with
    P := zoomPar lam E.P
    dx := lam * E.dx
    dy := lam * E.dy
    src := fun Q v => E.src Q v / lam
    pred1 := fun dt => E.pred1 (dt / lam)
    pred2 := fun dt => E.pred2 (dt / lam)
    mid1 := fun dt => E.mid1 (dt / lam)
    mid2 := fun dt => E.mid2 (dt / lam) }

variable {E : Env c n}

theorem zoom_ok (hl : 0 < lam) (hP : Fits E.P) (hmix : c.mix (zoomPar lam E.P) = c.mix E.P) (h : E.Ok) : (E.zoom lam).Ok := by
  refine ⟨h.tab, h.wide, fun Q => ?_, h.svd⟩
  obtain ⟨rate, e⟩ := h.src Q
  refine ⟨rate / lam, ?_⟩
  change (fun v => E.src Q v / lam) = _
  rw [e]
  exact (zoom_source hl hP hmix rate Q).symm

theorem zoom_sys (hmix : c.mix (zoomPar lam E.P) = c.mix E.P) : (E.zoom lam).sys = slow lam E.sys := by
  unfold Env.sys gpr slow
  simp only [Env.zoom, zoom_flux hmix]

theorem zoom_linB (hv : c.viscous = true) : LinB E.sys := fun d q a x => gpr_bdot_smul c hv E.P E.src E.junk d q x a

theorem zoom_ode (hl : 0 < lam) (hP : Fits E.P) (hmix : c.mix (zoomPar lam E.P) = c.mix E.P) (dt : ℝ) :
    (E.zoom lam).ode (lam * dt) = E.ode dt := by
  funext q
  have e := zoom_odeCell hl hP hmix E.svd E.steps E.fuel (dt / 2) (ofVec c q)
  rw [← mul_div_assoc] at e
  unfold Env.ode
  change (match Relax.odeCell c (zoomPar lam E.P) E.svd E.steps E.fuel (lam * dt / 2) (ofVec c q) with
    | some Q => fun v : Fin c.V => Q v
    | none => E.bad q) = _
  rw [e]
  cases odeCell c E.P E.svd E.steps E.fuel (dt / 2) (ofVec c q) <;> rfl

theorem zoom_wt (dt : ℝ) : (E.zoom lam).wt (lam * dt) = fun t => lam * E.wt dt t := by
  funext t
  unfold Env.wt
  change (if h : t < n then lam * dt * E.T.w ⟨t, h⟩ else 0) = _
  split_ifs
  · ring
  · simp

/-- The source is that of the equations, with the reaction rate of the code wherever that is a number. -/
def Env.Sourced (E : Env c n) : Prop := ∀ Q, ∃ rate, E.src Q = Relax.source c E.P rate Q ∧
  ∀ r, reactionRate c E.P Q = some r → rate = r

theorem zoom_sourced (hl : 0 < lam) (hP : Fits E.P) (hmix : c.mix (zoomPar lam E.P) = c.mix E.P) (h : E.Sourced) :
    (E.zoom lam).Sourced := by
  intro Q
  obtain ⟨rate, e, h1⟩ := h Q
  refine ⟨rate / lam, ?_, fun r hr => ?_⟩
  · change (fun v => E.src Q v / lam) = _
    rw [e]
    exact (zoom_source hl hP hmix rate Q).symm
  · change reactionRate c (zoomPar lam E.P) Q = some r at hr
    rw [zoom_reactionRate hl hmix] at hr
    obtain ⟨r', h2, h3⟩ := Option.map_eq_some_iff.1 hr
    rw [h1 r' h2, h3]

/-- The predictors, half steps and blocks of the larger body are those of the code, with `STIFF` or without. -/
theorem zoom_code {σ : Type} {stiff : Bool} {it : Nat} {tol : ℝ} {z : Newton.Ext → Bool} {fuel : Nat}
    {nm1 : Newton.Vec (n * n * c.V) → Newton.Ext} {nm2 : Newton.Vec (n * (n * n) * c.V) → Newton.Ext}
    {solve1 : σ → Newton.Vec (n * n * c.V) → Newton.Vec (n * n * c.V) → Newton.Ext → σ × Newton.Vec (n * n * c.V)}
    {solve2 : σ → Newton.Vec (n * (n * n) * c.V) → Newton.Vec (n * (n * n) * c.V) → Newton.Ext →
      σ × Newton.Vec (n * (n * n) * c.V)} {jac : σ}
    {bad1 : Newton.Vec (n * n * c.V) → Newton.Vec (n * n * c.V)}
    {bad2 : Newton.Vec (n * (n * n) * c.V) → Newton.Vec (n * (n * n) * c.V)}
    (hl : lam ≠ 0) (hv : c.viscous = true) (hmix : c.mix (zoomPar lam E.P) = c.mix E.P)
    (h : E.Code stiff it tol z fuel nm1 nm2 solve1 solve2 jac bad1 bad2) :
    (E.zoom lam).Code stiff it tol z fuel nm1 nm2 solve1 solve2 jac bad1 bad2 := by
  have hb := zoom_linB (E := E) hv
  have hd : ∀ dt, ∃ r, dt = lam * r ∧ dt / lam = r := fun dt => ⟨dt / lam, by field_simp, rfl⟩
  refine ⟨h.norm1, h.norm2, h.htol, h.its, fun dt => ?_, fun dt => ?_, fun dt => ?_, fun dt => ?_, h.block⟩
  · obtain ⟨r, e1, e2⟩ := hd dt
    obtain ⟨step, h1, h2⟩ := h.pred1 r
    refine ⟨step, fun w => ?_, ?_⟩
    · rw [zoom_sys hmix, e1]
      exact (isStep1_slow hl hb _ r E.dx (step w)).2 (h1 w)
    · change E.pred1 (dt / lam) = _
      rw [zoom_sys hmix, e2, h2, e1]
      congr 1
      exact (newton1_slow hl hb r E.dx nm1 tol z fuel solve1 jac bad1).symm
  · obtain ⟨r, e1, e2⟩ := hd dt
    obtain ⟨step, h1, h2⟩ := h.pred2 r
    refine ⟨step, fun w => ?_, ?_⟩
    · rw [zoom_sys hmix, e1]
      exact (isStep2_slow hl hb _ r E.dx E.dy (step w)).2 (h1 w)
    · change E.pred2 (dt / lam) = _
      rw [zoom_sys hmix, e2, h2, e1]
      congr 1
      exact (newton2_slow hl hb r E.dx E.dy nm2 tol z fuel solve2 jac bad2).symm
  · obtain ⟨r, e1, e2⟩ := hd dt
    change E.mid1 (dt / lam) = _
    rw [zoom_sys hmix, e2, e1, h.mid1]
    exact (mid1_slow hl r E.dx).symm
  · obtain ⟨r, e1, e2⟩ := hd dt
    change E.mid2 (dt / lam) = _
    rw [zoom_sys hmix, e2, e1, h.mid2]
    exact (mid2_slow hl r E.dx E.dy).symm

/-- **One call of the steppers does the same to both bodies.** -/
theorem moves_zoom (hl : 0 < lam) (hP : Fits E.P) (hmix : c.mix (zoomPar lam E.P) = c.mix E.P) (b : Nat → BT) (nc : Bool)
    (threads ncell : Nat) (dt : ℝ) (u u' : Iter.Mem) :
    Moves (E.zoom lam) b nc threads ncell (lam * dt) u u' ↔ Moves E b nc threads ncell dt u u' := by
  have hl' := hl.ne'
  have k1 : ∀ wt s, kern1 (E.zoom lam).sys (E.zoom lam).T (E.zoom lam).fl (fun t => lam * wt t) (E.zoom lam).dx s =
      kern1 E.sys E.T E.fl wt E.dx s := fun wt s => by
    rw [zoom_sys hmix]
    exact kern1_slow hl' E.fl wt E.dx s
  have k2 : ∀ wt s, kern2 (E.zoom lam).sys (E.zoom lam).T (E.zoom lam).fl (fun t => lam * wt t) (E.zoom lam).dx (E.zoom lam).dy s =
      kern2 E.sys E.T E.fl wt E.dx E.dy s := fun wt s => by
    rw [zoom_sys hmix]
    exact kern2_slow hl' E.fl wt E.dx E.dy s
  have p1 : (E.zoom lam).pred1 (lam * dt) = E.pred1 dt := congrArg E.pred1 (mul_div_cancel_left₀ dt hl')
  have p2 : (E.zoom lam).pred2 (lam * dt) = E.pred2 dt := congrArg E.pred2 (mul_div_cancel_left₀ dt hl')
  have m1 : (E.zoom lam).mid1 (lam * dt) = E.mid1 dt := congrArg E.mid1 (mul_div_cancel_left₀ dt hl')
  have m2 : (E.zoom lam).mid2 (lam * dt) = E.mid2 dt := congrArg E.mid2 (mul_div_cancel_left₀ dt hl')
  unfold Moves
  simp only [zoom_wt, k1, k2, p1, p2, m1, m2, zoom_ode hl hP hmix]
  exact Iff.rfl

/-! ### The end of a pass and the length of a step -/

/-- The materials of the larger body. -/
def Tail.zoom (lam : ℝ) (F : Tail c) : Tail c := { F with MPs := F.MPs.map (Option.map (zoomPar lam)) }

theorem zoom_matter (MPs : List (Option Sys.Par)) (g : Sys.Par → Iter.Mem → Nat → Iter.Mem)
    (hg : ∀ P u i, g (zoomPar lam P) u i = g P u i) :
    matterCell c (MPs.map (Option.map (zoomPar lam))) g = matterCell c MPs g := by
  funext u i
  unfold matterCell
  rw [List.getElem?_map]
  rcases MPs[materialIndex c (view c u i)]? with _ | _ | P
  · rfl
  · rfl
  · exact congrArg some (hg P u i)

theorem finish_zoom (F : Tail c) : finish (F.zoom lam) = finish F := by
  have h1 := zoom_matter (c := c) (lam := lam) F.MPs (renormCell c) fun _ _ _ => rfl
  have h2 := zoom_matter (c := c) (lam := lam) F.MPs (rotateCell c F.svd) fun _ _ _ => rfl
  have h3 := zoom_matter (c := c) (lam := lam) F.MPs (resetCell c) fun _ _ _ => rfl
  funext count u
  unfold finish rotateSome resetSome renormDistortion rotateDistortion resetDistortion
  simp only [Tail.zoom, h1, h2, h3]

/-- The outcome of `timestep`, `lam` times as long. -/
def stretch (lam : ℝ) : Iter.Ext → Iter.Ext
  | .fin x => .fin (lam * x)
  | e => e

theorem cellSpeed_zoom (mae : Sys.Par → St → Nat → Option ℝ) (hm : ∀ Q d, mae (zoomPar lam P) Q d = mae P Q d) (dX : List ℝ)
    (Q : St) : cellSpeed mae (dX.map (lam * ·)) (zoomPar lam P) Q = (cellSpeed mae dX P Q).map (· / lam) := by
  unfold cellSpeed
  rw [List.length_map]
  have h0 : (some 0 : Option ℝ) = (some 0).map (· / lam) := by simp
  have hd : ∀ d, (dX.map (lam * ·)).getD d 0 = lam * dX.getD d 0 := fun d => by
    rw [List.getD_eq_getElem?_getD, List.getD_eq_getElem?_getD, List.getElem?_map]
    cases dX[d]? <;> simp
  conv_lhs => rw [h0]
  generalize (some 0 : Option ℝ) = a
  generalize List.range dX.length = l
  induction l generalizing a with
  | nil => rfl
  | cons x l ih =>
    rw [List.foldl_cons, List.foldl_cons, ← ih]
    congr 1
    rw [hm]
    rcases a with _ | a
    · rfl
    · rcases mae P Q x with _ | m
      · rfl
      · simp only [Option.map_some, hd, add_div, div_div, mul_comm _ lam]

theorem foldl_over {α : Type} (f f' : ℝ → α → ℝ) (h : ∀ a x, f' (a / lam) x = f a x / lam) (l : List α) (a : ℝ) :
    l.foldl f' (a / lam) = l.foldl f a / lam := by
  induction l generalizing a with
  | nil => rfl
  | cons x l ih => rw [List.foldl_cons, List.foldl_cons, h, ih]

theorem maxSpeed_zoom (hl : 0 < lam) (mae : Sys.Par → St → Nat → Option ℝ) (hm : ∀ Q d, mae (zoomPar lam P) Q d = mae P Q d)
    (dX : List ℝ) (grids : List Iter.Mem) (masks : List (Nat → Bool)) (nmat ncell : Nat) :
    maxSpeed c mae grids masks (dX.map (lam * ·)) [some (zoomPar lam P)] nmat ncell =
      maxSpeed c mae grids masks dX [some P] nmat ncell / lam := by
  have hmax : ∀ a o, maxNan (a / lam) (o.map (· / lam)) = maxNan a o / lam := by
    intro a o
    rcases o with _ | o
    · rfl
    · simp only [Option.map_some, maxNan, div_lt_div_iff_of_pos_right hl]
      split_ifs <;> rfl
  unfold maxSpeed
  have key := foldl_over (lam := lam) (fun MAX mat => match ([some P].getD mat none) with
    | none => MAX
    | some P => (List.range ncell).foldl (fun MAX ind =>
        if (masks.getD mat fun _ => false) ind then
          maxNan MAX (cellSpeed mae dX P (view c (grids.getD mat fun _ => 0) ind))
        else MAX) MAX) (fun MAX mat => match ([some (zoomPar lam P)].getD mat none) with
    | none => MAX
    | some P => (List.range ncell).foldl (fun MAX ind =>
        if (masks.getD mat fun _ => false) ind then
          maxNan MAX (cellSpeed mae (dX.map (lam * ·)) P (view c (grids.getD mat fun _ => 0) ind))
        else MAX) MAX) (fun a mat => by
      rcases mat with _ | mat
      · refine foldl_over _ _ (fun a ind => ?_) _ _
        rw [cellSpeed_zoom mae hm, hmax]
        split_ifs <;> rfl
      · rfl) (List.range nmat) 0
  rw [zero_div] at key
  exact key

/-- **The larger body is given steps `lam` times as long.** -/
theorem timestep_zoom (hl : 0 < lam) (mae : Sys.Par → St → Nat → Option ℝ) (hm : ∀ Q d, mae (zoomPar lam P) Q d = mae P Q d)
    (dX : List ℝ) (CFL t tf : ℝ) (count : Nat) (grids : List Iter.Mem) (masks : List (Nat → Bool)) (nmat ncell : Nat) :
    timestep c mae grids masks (dX.map (lam * ·)) CFL (lam * t) (lam * tf) count [some (zoomPar lam P)] nmat ncell =
      stretch lam (timestep c mae grids masks dX CFL t tf count [some P] nmat ncell) := by
  unfold timestep
  rw [maxSpeed_zoom hl mae hm]
  generalize maxSpeed c mae grids masks dX [some P] nmat ncell = M
  have hq : quotient CFL (M / lam) = stretch lam (quotient CFL M) := by
    unfold quotient
    simp only [div_eq_zero_iff, hl.ne', or_false]
    split_ifs
    · rfl
    · rfl
    · rfl
    · simp only [stretch]
      congr 1
      field_simp
  rw [hq]
  generalize quotient CFL M = q
  cases q with
  | fin x =>
    simp only [stretch, clip]
    have e : (if count ≤ 5 then lam * x * 0.2 else lam * x) = lam * (if count ≤ 5 then x * 0.2 else x) := by
      split_ifs <;> ring
    rw [e]
    generalize (if count ≤ 5 then x * 0.2 else x) = y
    have h : lam * t + lam * y > lam * tf ↔ t + y > tf := by
      rw [← mul_add]
      exact mul_lt_mul_iff_right₀ hl
    simp only [h]
    split_ifs <;> simp only [mul_sub]
  | posInf => simp only [stretch, clip, mul_sub]
  | negInf => rfl
  | nan => rfl

/-! ### Whole runs -/

section

variable {U W : Type} (b : Body U W) (tf : ℝ) (u0 : U) (w0 : W)

/-- The same passes, `lam` times as long. -/
def slowBody (lam : ℝ) (b : Body U W) : Body U W :=
  ⟨fun u w t count => let r := b.step u w (t / lam) count; (r.1, r.2.1, lam * r.2.2), b.isNaN⟩

/-- The same state of the loop, at `lam` times the time. -/
def slowVars (lam : ℝ) (s : Vars U W) : Vars U W := { s with t := lam * s.t }

def slowPass (lam : ℝ) : Pass U W → Pass U W
  | .next s => .next (slowVars lam s)
  | .done ret s => .done ret (slowVars lam s)
  | .overrun => .overrun

theorem slowBody_inv (hl : lam ≠ 0) : slowBody lam (slowBody lam⁻¹ b) = b := by
  unfold slowBody
  have e : ∀ t : ℝ, t / lam / lam⁻¹ = t := fun t => by field_simp
  have e' : ∀ t : ℝ, lam * (lam⁻¹ * t) = t := fun t => by field_simp
  simp only [e, e', Prod.mk.eta]

theorem pass_slow (hl : 0 < lam) (s : Vars U W) : pass (slowBody lam b) (lam * tf) (slowVars lam s) = slowPass lam (pass b tf s) := by
  have h1 : lam * s.t < lam * tf ↔ s.t < tf := mul_lt_mul_iff_right₀ hl
  have hst : (slowBody lam b).step s.u s.w (lam * s.t) s.count =
      ((b.step s.u s.w s.t s.count).1, (b.step s.u s.w s.t s.count).2.1, lam * (b.step s.u s.w s.t s.count).2.2) := by
    unfold slowBody
    simp only [mul_div_cancel_left₀ s.t hl.ne']
  unfold pass
  change (if lam * s.t < lam * tf then _ else _) = _
  simp only [h1]
  change (if s.t < tf then
    (match snapshot (lam * tf) (lam * s.t + ((slowBody lam b).step s.u s.w (lam * s.t) s.count).2.2)
      ((slowBody lam b).step s.u s.w (lam * s.t) s.count).1 s.push s.ret with
    | none => Pass.overrun
    | some p => if b.isNaN ((slowBody lam b).step s.u s.w (lam * s.t) s.count).1 then
        bail s.u ⟨((slowBody lam b).step s.u s.w (lam * s.t) s.count).1, ((slowBody lam b).step s.u s.w (lam * s.t) s.count).2.1,
          lam * s.t + ((slowBody lam b).step s.u s.w (lam * s.t) s.count).2.2, s.count + 1, p.2, p.1⟩
      else .next ⟨((slowBody lam b).step s.u s.w (lam * s.t) s.count).1, ((slowBody lam b).step s.u s.w (lam * s.t) s.count).2.1,
          lam * s.t + ((slowBody lam b).step s.u s.w (lam * s.t) s.count).2.2, s.count + 1, p.2, p.1⟩) else
    (match store s.ret 99 s.u with
    | none => Pass.overrun
    | some ret => .done ret (slowVars lam s))) = _
  rw [hst]
  generalize b.step s.u s.w s.t s.count = r
  have hsn : snapshot (lam * tf) (lam * s.t + lam * r.2.2) r.1 s.push s.ret = snapshot tf (s.t + r.2.2) r.1 s.push s.ret := by
    have : lam * s.t + lam * r.2.2 ≥ ((s.push + 1 : Nat) : ℝ) / 100 * (lam * tf) ↔
        s.t + r.2.2 ≥ ((s.push + 1 : Nat) : ℝ) / 100 * tf := by
      rw [← mul_add, mul_left_comm]
      exact mul_le_mul_iff_right₀ hl
    unfold snapshot
    simp only [this]
  by_cases ht : s.t < tf
  · simp only [if_pos ht, hsn]
    rcases snapshot tf (s.t + r.2.2) r.1 s.push s.ret with _ | p
    · rfl
    · by_cases hn : b.isNaN r.1 = true
      · simp only [if_pos hn]
        unfold bail
        simp only
        rcases store p.1 p.2 s.u with _ | r1
        · rfl
        · simp only
          rcases store r1 (p.2 + 1) r.1 with _ | r2
          · rfl
          · simp only [slowPass, slowVars, mul_add]
      · simp only [if_neg hn, slowPass, slowVars, mul_add]
  · simp only [if_neg ht]
    rcases store s.ret 99 s.u with _ | r1 <;> rfl

/-- The two loops pass through the same states. -/
theorem reach_slow (hl : 0 < lam) (m : Nat) (s' : Vars U W) :
    Reach (slowBody lam b) (lam * tf) u0 w0 m s' ↔ ∃ s, Reach b tf u0 w0 m s ∧ s' = slowVars lam s := by
  constructor
  · intro h
    induction h with
    | start => exact ⟨_, .start, by simp [slowVars]⟩
    | @step m s s' hs hp ih =>
      obtain ⟨r, h1, rfl⟩ := ih
      rw [pass_slow b tf hl] at hp
      rcases e : pass b tf r with v | ⟨ret, v⟩ | _
      · rw [e] at hp
        cases hp
        exact ⟨v, .step h1 e, rfl⟩
      · rw [e] at hp; cases hp
      · rw [e] at hp; cases hp
  · rintro ⟨s, h, rfl⟩
    induction h with
    | start =>
      have := Reach.start (b := slowBody lam b) (tf := lam * tf) (u0 := u0) (w0 := w0)
      simpa [slowVars] using this
    | @step m s s' hs hp ih => exact .step ih (by rw [pass_slow b tf hl, hp]; rfl)

end

theorem follows_slow {W' : Type} (hl : 0 < lam) (hP : Fits E.P) (hmix : c.mix (zoomPar lam E.P) = c.mix E.P) (F : Tail c)
    (bt : Nat → BT) (nc : Bool) (threads : Nat) (b : Body Iter.Mem W') (tf : ℝ) (u0 : Iter.Mem) (w0 : W') :
    Follows (E.zoom lam) (F.zoom lam) bt nc threads (slowBody lam b) (lam * tf) u0 w0 ↔ Follows E F bt nc threads b tf u0 w0 := by
  have e : ∀ s : Vars Iter.Mem W', (slowBody lam b).step (slowVars lam s).u (slowVars lam s).w (slowVars lam s).t (slowVars lam s).count =
      ((b.step s.u s.w s.t s.count).1, (b.step s.u s.w s.t s.count).2.1, lam * (b.step s.u s.w s.t s.count).2.2) := fun s => by
    simp only [slowBody, slowVars, mul_div_cancel_left₀ s.t hl.ne']
  have hlt : ∀ s : Vars Iter.Mem W', (slowVars lam s).t < lam * tf ↔ s.t < tf := fun s => mul_lt_mul_iff_right₀ hl
  unfold Follows
  constructor
  · intro h m s hs ht
    obtain ⟨u1, h1, h2⟩ := h m _ ((reach_slow b tf u0 w0 hl m _).2 ⟨s, hs, rfl⟩) ((hlt s).2 ht)
    rw [e] at h1 h2
    rw [finish_zoom] at h2
    exact ⟨u1, (moves_zoom hl hP hmix bt nc threads _ _ _ u1).1 h1, h2⟩
  · intro h m s' hs ht
    obtain ⟨s, hs0, rfl⟩ := (reach_slow b tf u0 w0 hl m _).1 hs
    obtain ⟨u1, h1, h2⟩ := h m s hs0 ((hlt s).1 ht)
    refine ⟨u1, ?_, ?_⟩
    · rw [e]
      exact (moves_zoom hl hP hmix bt nc threads _ _ _ u1).2 h1
    · rw [e, finish_zoom]
      exact h2

theorem timed_slow {W' : Type} (hl : 0 < lam) (mae : Sys.Par → St → Nat → Option ℝ)
    (hm : ∀ Q d, mae (zoomPar lam P) Q d = mae P Q d) (dX : List ℝ) (CFL : ℝ) (ncell : Nat) (b : Body Iter.Mem W') (tf : ℝ)
    (u0 : Iter.Mem) (w0 : W') :
    Timed (c := c) (zoomPar lam P) mae (dX.map (lam * ·)) CFL ncell (slowBody lam b) (lam * tf) u0 w0 ↔
      Timed (c := c) P mae dX CFL ncell b tf u0 w0 := by
  have e : ∀ s : Vars Iter.Mem W', (slowBody lam b).step (slowVars lam s).u (slowVars lam s).w (slowVars lam s).t (slowVars lam s).count =
      ((b.step s.u s.w s.t s.count).1, (b.step s.u s.w s.t s.count).2.1, lam * (b.step s.u s.w s.t s.count).2.2) := fun s => by
    simp only [slowBody, slowVars, mul_div_cancel_left₀ s.t hl.ne']
  have hlt : ∀ s : Vars Iter.Mem W', (slowVars lam s).t < lam * tf ↔ s.t < tf := fun s => mul_lt_mul_iff_right₀ hl
  have hinj : ∀ (x : ℝ) q, stretch lam q = .fin (lam * x) ↔ q = .fin x := by
    intro x q
    cases q <;> simp [stretch, hl.ne']
  have key : ∀ s : Vars Iter.Mem W', timestep c mae [(slowVars lam s).u] [fun _ => true] (dX.map (lam * ·)) CFL (slowVars lam s).t
      (lam * tf) (slowVars lam s).count [some (zoomPar lam P)] 1 ncell =
      stretch lam (timestep c mae [s.u] [fun _ => true] dX CFL s.t tf s.count [some P] 1 ncell) := fun s =>
    timestep_zoom hl mae hm dX CFL s.t tf s.count _ _ _ _
  unfold Timed
  constructor
  · intro h m s hs ht
    have := h m _ ((reach_slow b tf u0 w0 hl m _).2 ⟨s, hs, rfl⟩) ((hlt s).2 ht)
    rw [e, key] at this
    exact (hinj _ _).1 this
  · intro h m s' hs ht
    obtain ⟨s, hs0, rfl⟩ := (reach_slow b tf u0 w0 hl m _).1 hs
    rw [e, key]
    exact (hinj _ _).2 (h m s hs0 ((hlt s).1 ht))

/-- **Similar problems have similar solutions**: to every possible run of the larger, slower body there is a possible run of the
body itself with the same number of passes, whose field after every pass and whose snapshots are the same, at times `lam` times
as early; and the other way round. -/
theorem run_similar {W' : Type} (hl : 0 < lam) (hP : Fits E.P) (hmix : c.mix (zoomPar lam E.P) = c.mix E.P) (F : Tail c)
    (bt : Nat → BT) (nc : Bool) (threads : Nat) (mae : Sys.Par → St → Nat → Option ℝ)
    (hm : ∀ Q d, mae (zoomPar lam E.P) Q d = mae E.P Q d) (dX : List ℝ) (CFL tf : ℝ) (u0 : Iter.Mem) (w0 : W') :
    (∀ b' : Body Iter.Mem W', Follows (E.zoom lam) (F.zoom lam) bt nc threads b' (lam * tf) u0 w0 →
      Timed (c := c) (E.zoom lam).P mae (dX.map (lam * ·)) CFL F.ncell b' (lam * tf) u0 w0 →
      ∃ b : Body Iter.Mem W', b.isNaN = b'.isNaN ∧ Follows E F bt nc threads b tf u0 w0 ∧
        Timed (c := c) E.P mae dX CFL F.ncell b tf u0 w0 ∧
        (∀ m s', Reach b' (lam * tf) u0 w0 m s' → ∃ s, Reach b tf u0 w0 m s ∧ s'.u = s.u ∧ s'.t = lam * s.t ∧
          s'.count = s.count ∧ s'.push = s.push ∧ s'.ret = s.ret ∧
          ∀ ret v', pass b' (lam * tf) s' = .done ret v' → ∃ v, pass b tf s = .done ret v ∧ v'.t = lam * v.t)) ∧
    (∀ b : Body Iter.Mem W', Follows E F bt nc threads b tf u0 w0 → Timed (c := c) E.P mae dX CFL F.ncell b tf u0 w0 →
      ∃ b' : Body Iter.Mem W', b'.isNaN = b.isNaN ∧ Follows (E.zoom lam) (F.zoom lam) bt nc threads b' (lam * tf) u0 w0 ∧
        Timed (c := c) (E.zoom lam).P mae (dX.map (lam * ·)) CFL F.ncell b' (lam * tf) u0 w0 ∧
        (∀ m s, Reach b tf u0 w0 m s → ∃ s', Reach b' (lam * tf) u0 w0 m s' ∧ s'.u = s.u ∧ s'.t = lam * s.t ∧
          s'.count = s.count ∧ s'.push = s.push ∧ s'.ret = s.ret ∧
          ∀ ret v, pass b tf s = .done ret v → ∃ v', pass b' (lam * tf) s' = .done ret v' ∧ v'.t = lam * v.t)) := by
  constructor
  · intro b' h1 h2
    obtain ⟨b, rfl⟩ : ∃ b, b' = slowBody lam b := ⟨_, (slowBody_inv b' hl.ne').symm⟩
    refine ⟨b, rfl, (follows_slow hl hP hmix F bt nc threads b tf u0 w0).1 h1,
      (timed_slow hl mae hm dX CFL F.ncell b tf u0 w0).1 h2, fun m s' hs' => ?_⟩
    obtain ⟨s, hs, rfl⟩ := (reach_slow b tf u0 w0 hl m _).1 hs'
    refine ⟨s, hs, rfl, rfl, rfl, rfl, rfl, fun ret v' h => ?_⟩
    rw [pass_slow b tf hl] at h
    rcases e : pass b tf s with v | ⟨ret1, v⟩ | _
    · rw [e] at h; cases h
    · rw [e] at h
      cases h
      exact ⟨v, rfl, rfl⟩
    · rw [e] at h; cases h
  · intro b h1 h2
    refine ⟨slowBody lam b, rfl, (follows_slow hl hP hmix F bt nc threads b tf u0 w0).2 h1,
      (timed_slow hl mae hm dX CFL F.ncell b tf u0 w0).2 h2, fun m s hs => ?_⟩
    refine ⟨slowVars lam s, (reach_slow b tf u0 w0 hl m _).2 ⟨s, hs, rfl⟩, rfl, rfl, rfl, rfl, rfl, fun ret v h => ?_⟩
    rw [pass_slow b tf hl, h]
    exact ⟨slowVars lam v, rfl, rfl⟩

/-! ### An example -/

theorem movesLine_moves (b : Nat → BT) (nc split : Bool) (threads : Nat) (dt : ℝ) (u u' : Iter.Mem)
    (h : MovesLine E b split threads dt u u') : Moves E b nc threads E.nx dt u u' := by
  obtain ⟨ub, maskb, h1, h2⟩ := h
  refine Or.inl ⟨rfl, ub, maskb, h1, ?_⟩
  cases split
  · obtain ⟨l, gar, h3⟩ := h2
    exact Or.inl ⟨l, gar, h3⟩
  · obtain ⟨l, h3⟩ := h2
    exact Or.inr ⟨l, h3⟩

/-- Any data on a line of 8 cells of a shear thinning fluid under gravity, between a slip wall and an open end, and the same data
on cells a thousand times as large: the runs exist, and the larger body passes through the same fields, a thousand times slower. -/
example (T : Tab 2) (h : T.Ok) (W : Weno.Setup 2) (u0 : Iter.Mem) :
    ∃ (b b' : Body Iter.Mem Unit) (E : Env lineCfg 2) (F : Tail lineCfg) (bt : Nat → BT),
      Follows E F bt true 3 b 1 u0 () ∧ Follows (E.zoom 1000) (F.zoom 1000) bt true 3 b' (1000 * 1) u0 () ∧
      ∀ m s, Reach b 1 u0 () m s → ∃ s', Reach b' (1000 * 1) u0 () m s' ∧ s'.u = s.u ∧ s'.t = 1000 * s.t := by
  obtain ⟨svd, hs, -⟩ := mirror_svd_exists
  have hs' : ∀ A, Relax.SvdAt svd A := fun A => ⟨(hs A).1, (hs A).2⟩
  let P : Sys.Par := { samplePar sample with δp := ![-981 / 100, 0, 0], powerLaw := true, n := 1 / 2, μ := 3 }
  let bt : Nat → BT := fun k => if k = 0 then .slip else .transmissive
  obtain ⟨b, n1, k1⟩ := mirRun_exists h W P hs' bt (by decide) (by decide) 3
  have hP : Fits P := ⟨fun _ _ h => (nomatch h), fun _ h => (nomatch h), fun _ => by simp [P], by simp [P]⟩
  have hF : Follows (mirEnv T h W P svd) (mirTail P) bt true 3 b 1 u0 () := by
    intro m s hr ht
    obtain ⟨u1, h1, h2⟩ := (k1 u0).2 m s hr ht
    exact ⟨u1, movesLine_moves bt true true 3 _ s.u u1 h1, h2⟩
  have hm : ∀ Q d, mirMae (zoomPar 1000 P) Q d = mirMae P Q d := fun Q d => congrArg some (zoom_maxAbsEigs (c := lineCfg) rfl _ _)
  obtain ⟨b', -, f', -, r⟩ := (run_similar (E := mirEnv T h W P svd) (lam := 1000) (by norm_num) hP rfl (mirTail P) bt true 3 mirMae hm
    [(mirEnv T h W P svd).dx] (9 / 10) 1 u0 ()).2 b hF (k1 u0).1
  refine ⟨b, b', _, _, bt, hF, f', fun m s hr => ?_⟩
  obtain ⟨s', r1, r2, r3, -⟩ := r m s hr
  exact ⟨s', r1, r2, r3⟩

end

end Verif.Run
