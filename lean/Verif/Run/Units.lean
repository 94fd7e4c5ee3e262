import Verif.Run.SplitFirst
import Verif.Run.MaterialsPlane
import Verif.Run.Mirror
import Verif.Relax.Units

/-! # Runs in other units

`N = 1` and the split stepper, on lines and planes, one material, no `MOVING` wall, any number of passes. -/

namespace Verif.Run

open Verif.Step Verif.Dg Verif.Fv Verif.Sys Verif.Iter Verif.Grid Verif.Rot

noncomputable section

variable {c : Sys.Cfg} {x : Units}

/-- A vector of state in the other units. -/
def Units.vec (x : Units) (c : Sys.Cfg) (q : Fin c.V → ℝ) : Fin c.V → ℝ := fun v => x.at c v * q v

theorem vec_st (q : Fin c.V → ℝ) : ofVec c (Units.vec x c q) = x.st c (ofVec c q) := by
  funext k
  by_cases h : k < c.V
  · simp only [ofVec, Units.st, Units.vec, h, dif_pos]
  · simp only [ofVec, Units.st, h, dif_neg, not_false_eq_true, mul_zero]

theorem vec_sub (p q : Fin c.V → ℝ) : Units.vec x c p - Units.vec x c q = Units.vec x c (p - q) := by
  funext v
  simp only [Units.vec, Pi.sub_apply]
  ring

theorem vec_mean (p q : Fin c.V → ℝ) : Units.vec x c p + (1 / 2 : ℝ) • (Units.vec x c q - Units.vec x c p) =
    Units.vec x c (p + (1 / 2 : ℝ) • (q - p)) := by
  funext v
  simp only [Units.vec, Pi.add_apply, Pi.sub_apply, Pi.smul_apply, smul_eq_mul]
  ring

/-- The cell `q'` is the cell `q` in the other units. -/
def InUnits (x : Units) (c : Sys.Cfg) (q' q : Nat → ℝ) : Prop := ∀ k < c.V, q' k = x.at c k * q k

/-- The field `u` is the field `w` in the other units. -/
def Same (x : Units) (c : Sys.Cfg) (ncell : Nat) (u w : Iter.Mem) : Prop :=
  ∀ i < ncell, ∀ k < c.V, u (i * c.V + k) = x.at c k * w (i * c.V + k)

/-- `E'` is `E` in the other units. -/
structure Env.InUnits (x : Units) (E' E : Env c 1) : Prop where
  P : E'.P = x.par E.P
  T : E'.T = E.T
  nx : E'.nx = E.nx
  ny : E'.ny = E.ny
  dx : E'.dx = x.b * E.dx
  dy : E'.dy = x.b * E.dy
  fl : ∀ d ql qr v, E'.fl d (Units.vec x c ql) (Units.vec x c qr) v = x.fx c v * E.fl d ql qr v
  ds : Option.Rel (fun f' f => ∀ q' q, Run.InUnits x c q' q → Run.InUnits x c (f' q') (f q)) E'.destress E.destress
  svd : E'.svd = E.svd
  steps : E'.steps = E.steps
  fuel : E'.fuel = E.fuel
  bad : ∀ q, E'.bad (Units.vec x c q) = Units.vec x c (E.bad q)

/-! ### Ends -/

theorem negAt_units {q' q : Nat → ℝ} (h : InUnits x c q' q) (j : Nat) : InUnits x c (negAt q' j) (negAt q j) := by
  intro k hk
  simp only [negAt, Function.update_apply]
  split_ifs with e
  · subst e; rw [h _ hk]; ring
  · exact h k hk

theorem wall_units (ds' ds : Option (Grid.Cell ℝ → Grid.Cell ℝ))
    (hds : Option.Rel (fun f' f => ∀ q' q, InUnits x c q' q → InUnits x c (f' q') (f q)) ds' ds) (d : Nat) (b : BT) (hb : b ≠ .moving)
    {q' q : Nat → ℝ} (h : InUnits x c q' q) : InUnits x c (wall ⟨1, ds'⟩ d b q' q') (wall ⟨1, ds⟩ d b q q) := by
  have hd : ∀ {q' q : Nat → ℝ}, InUnits x c q' q → InUnits x c (Grid.Cfg.ds ⟨1, ds'⟩ q') (Grid.Cfg.ds ⟨1, ds⟩ q) := by
    intro q' q h
    unfold Grid.Cfg.ds
    cases hds with
    | none => exact h
    | some hf => exact hf _ _ h
  cases b
  · exact h
  · exact h
  · exact hd (negAt_units h _)
  · exact hd (negAt_units (negAt_units (negAt_units h _) _) _)
  · exact absurd rfl hb
  · exact negAt_units (negAt_units (negAt_units (negAt_units (negAt_units (negAt_units (negAt_units h _) _) _) _) _) _) _
  · exact h

theorem ghost_units (ds' ds : Option (Grid.Cell ℝ → Grid.Cell ℝ))
    (hds : Option.Rel (fun f' f => ∀ q' q, InUnits x c q' q → InUnits x c (f' q') (f q)) ds' ds) (d : Nat) (b0 b1 : BT)
    (h0 : b0 ≠ .moving) (h1 : b1 ≠ .moving) (nx k : Nat) {q' q : Nat → ℝ} (h : InUnits x c q' q) :
    InUnits x c (ghostOf ⟨1, ds'⟩ d b0 b1 nx k q') (ghostOf ⟨1, ds⟩ d b0 b1 nx k q) := by
  unfold ghostOf
  split_ifs
  · exact wall_units _ _ hds d _ h0 h
  · exact h
  · exact wall_units _ _ hds d _ h1 h

variable {E' E : Env c 1}

theorem pads1_units (hU : E'.InUnits x E) (hE : E.Ok) (b : Nat → BT) (h0 : b 0 ≠ .other ∧ b 0 ≠ .moving)
    (h1 : b 1 ≠ .other ∧ b 1 ≠ .moving) (u w : Iter.Mem) (h : Same x c E.nx u w) (ub wb : Nat → Fin c.V → ℝ)
    (hu : Pads1 E' b u ub) (hw : Pads1 E b w wb) (r : Nat) (hr : r < E.nx + 2) : ub r = Units.vec x c (wb r) := by
  obtain ⟨old, m', hm, hub⟩ := hu
  obtain ⟨old1, m1', hm1, hwb⟩ := hw
  have w0 : 1 ≤ E.nx ∧ 1 ≤ E.ny := hE.wide
  rw [hU.nx] at hm
  obtain ⟨m'', e, a, -⟩ := Grid.boundaries_1d ⟨1, E'.destress⟩ E.nx (b 0) (b 1) (memOf c u old) hE.wide.1 h0.1 h1.1
  obtain ⟨m1'', e1, a1, -⟩ := Grid.boundaries_1d ⟨1, E.destress⟩ E.nx (b 0) (b 1) (memOf c w old1) hE.wide.1 h0.1 h1.1
  rw [hm] at e
  cases e
  rw [hm1] at e1
  cases e1
  funext v
  unfold Units.vec
  rw [hub, hwb, a r (by simp only; omega), a1 r (by simp only; omega)]
  exact ghost_units _ _ hU.ds 0 _ _ h0.2 h1.2 _ _ (fun k hk => h _ (srcOf_lt hE.wide.1 (by omega) (by omega)) k hk) v v.2

theorem pads2_units (hU : E'.InUnits x E) (hE : E.Ok) (b : Nat → BT) (hb : ∀ k < 4, b k ≠ .other ∧ b k ≠ .moving)
    (u w : Iter.Mem) (h : Same x c (E.nx * E.ny) u w) (ub wb : Nat → Fin c.V → ℝ)
    (hu : Pads2 E' b u ub) (hw : Pads2 E b w wb) (r : Nat) (hr : r < E.nx + 2) (s : Nat) (hs : s < E.ny + 2) :
    ub (cell r s (E.ny + 2)) = Units.vec x c (wb (cell r s (E.ny + 2))) := by
  obtain ⟨old, m', hm, hub⟩ := hu
  obtain ⟨old1, m1', hm1, hwb⟩ := hw
  have w0 : 1 ≤ E.nx ∧ 1 ≤ E.ny := hE.wide
  rw [hU.nx, hU.ny] at hm
  have b0 := hb 0 (by omega)
  have b1 := hb 1 (by omega)
  have b2 := hb 2 (by omega)
  have b3 := hb 3 (by omega)
  obtain ⟨m'', e, a, -⟩ := Grid.boundaries_2d ⟨1, E'.destress⟩ E.nx E.ny (b 0) (b 1) (b 2) (b 3) (memOf c u old) hE.wide.1 hE.wide.2
    b0.1 b1.1 b2.1 b3.1
  obtain ⟨m1'', e1, a1, -⟩ := Grid.boundaries_2d ⟨1, E.destress⟩ E.nx E.ny (b 0) (b 1) (b 2) (b 3) (memOf c w old1) hE.wide.1 hE.wide.2
    b0.1 b1.1 b2.1 b3.1
  rw [hm] at e
  cases e
  rw [hm1] at e1
  cases e1
  funext v
  have q1 := a r (by simp only; omega) s (by simp only; omega)
  have q2 := a1 r (by simp only; omega) s (by simp only; omega)
  simp only [Nat.mul_one] at q1 q2
  unfold Units.vec cell
  rw [hub, hwb, q1, q2]
  refine ghost_units _ _ hU.ds 1 _ _ b2.2 b3.2 _ _ (fun i hi => ?_) v v.2
  refine ghost_units _ _ hU.ds 0 _ _ b0.2 b1.2 _ _ (fun k hk => ?_) i hi
  exact h _ (cell_lt (srcOf_lt hE.wide.1 (by omega) (by omega)) (srcOf_lt hE.wide.2 (by omega) (by omega))) k hk

/-! ### A step -/

theorem ode_units (hU : E'.InUnits x E) (hf : x.Fit c E.P) (hP : Relax.Fits E.P) (dt : ℝ) (q : Fin c.V → ℝ) :
    E'.ode dt (Units.vec x c q) = Units.vec x c (E.ode dt q) := by
  unfold Env.ode
  rw [hU.P, hU.svd, hU.steps, hU.fuel, vec_st, Relax.units_odeCell hf hP]
  cases Relax.odeCell c E.P E.svd E.steps E.fuel (dt / 2) (ofVec c q) with
  | none => exact hU.bad q
  | some Q => rfl

theorem sysdot_units (hv : c.viscous = true) (E' E : Env c 1) (d : Nat) (q y : Fin c.V → ℝ) (v : Fin c.V) :
    E'.sys.bdot d (Units.vec x c q) (Units.vec x c y) v = x.fx c v * E.sys.bdot d q y v := by
  change bdot c (ofVec c (Units.vec x c q)) (ofVec c (Units.vec x c y)) (dir d) E'.junk v =
    x.fx c v * bdot c (ofVec c q) (ofVec c y) (dir d) E.junk v
  have hj : ∀ (Q y r r' : St), bdot c Q y (dir d) r v = bdot c Q y (dir d) r' v := fun Q y r r' => by
    unfold bdot
    simp only [hv, if_true, v.2]
  rw [vec_st, vec_st, hj _ _ E'.junk fun k => x.fx c k * E.junk k, units_bdot _ hv]

theorem face_units (hU : E'.InUnits x E) (hv : c.viscous = true) (d : Nat) (ql qr : Fin c.V → ℝ) (v : Fin c.V) :
    intoRight E' d (Units.vec x c ql) (Units.vec x c qr) v = x.fx c v * intoRight E d ql qr v ∧
    outOfLeft E' d (Units.vec x c ql) (Units.vec x c qr) v = x.fx c v * outOfLeft E d ql qr v := by
  unfold intoRight outOfLeft
  rw [hU.fl, vec_mean, vec_sub, sysdot_units hv E' E]
  constructor <;> ring

theorem share_units (dt dx : ℝ) (k : Nat) (f : ℝ) : dt / (2 * (x.b * dx)) * (x.fx c k * f) = x.at c k * (dt / (2 * dx) * f) := by
  have hb := x.hb.ne'
  unfold Units.fx
  rw [show 2 * (x.b * dx) = x.b * (2 * dx) by ring, ← div_div]
  field_simp

theorem line_units (hU : E'.InUnits x E) (hf : x.Fit c E.P) (hP : Relax.Fits E.P) (dt : ℝ) (ub wb : Nat → Fin c.V → ℝ) (i : Nat)
    (h : ∀ p ≤ 2, ub (i + p) = Units.vec x c (wb (i + p))) : firstLine E' dt ub i = Units.vec x c (firstLine E dt wb i) := by
  unfold firstLine
  simp only [Nat.add_zero]
  have h0 := h 0 (by omega)
  rw [Nat.add_zero] at h0
  rw [h0, h 1 (by omega), h 2 (by omega), ode_units hU hf hP, ode_units hU hf hP, ode_units hU hf hP]
  refine Eq.trans ?_ (ode_units hU hf hP dt _)
  refine congrArg _ (funext fun v => ?_)
  rw [(face_units hU hf.viscous 0 _ _ v).1, (face_units hU hf.viscous 0 _ _ v).2, hU.dx, share_units, share_units]
  unfold Units.vec
  ring

theorem plane_units (hU : E'.InUnits x E) (hf : x.Fit c E.P) (hP : Relax.Fits E.P) (dt : ℝ) (ub wb : Nat → Fin c.V → ℝ) (i j : Nat)
    (h : ∀ p q, p ≤ 2 → q ≤ 2 → ub (cell (i + p) (j + q) (E.ny + 2)) = Units.vec x c (wb (cell (i + p) (j + q) (E.ny + 2)))) :
    firstPlane E' dt ub i j = Units.vec x c (firstPlane E dt wb i j) := by
  unfold firstPlane
  simp only [hU.ny]
  have o : ∀ p q, p ≤ 2 → q ≤ 2 → E'.ode dt (ub (cell (i + p) (j + q) (E.ny + 2))) =
      Units.vec x c (E.ode dt (wb (cell (i + p) (j + q) (E.ny + 2)))) := fun p q h1 h2 => by
    rw [h p q h1 h2, ode_units hU hf hP]
  rw [o 0 1 (by omega) (by omega), o 1 1 (by omega) (by omega), o 2 1 (by omega) (by omega), o 1 0 (by omega) (by omega),
    o 1 2 (by omega) (by omega)]
  refine Eq.trans ?_ (ode_units hU hf hP dt _)
  refine congrArg _ (funext fun v => ?_)
  rw [(face_units hU hf.viscous 0 _ _ v).1, (face_units hU hf.viscous 0 _ _ v).2, (face_units hU hf.viscous 1 _ _ v).1,
    (face_units hU hf.viscous 1 _ _ v).2, hU.dx, hU.dy, share_units, share_units, share_units, share_units]
  unfold Units.vec
  ring

theorem ok_units (hU : E'.InUnits x E) (hE : E.Ok) (hs : ∀ Q, ∃ rate, E'.src Q = Relax.source c E'.P rate Q) : E'.Ok :=
  ⟨hU.T ▸ hE.tab, by rw [hU.nx, hU.ny]; exact hE.wide, hs, by rw [hU.svd]; exact hE.svd⟩

/-- **A split step on a line in other units**, in the cells that the mask selects. -/
theorem moves_units (W : Weno.Setup 1) (undef : ℝ) (it : Nat) (tol : ℝ) (hU : E'.InUnits x E) (hf : x.Fit c E.P)
    (hP : Relax.Fits E.P) (hE : E.Ok) (hE' : E'.Ok) (hX : E.Explicit W undef it tol) (hX' : E'.Explicit W undef it tol) (b : Nat → BT)
    (h0 : b 0 ≠ .other ∧ b 0 ≠ .moving) (h1 : b 1 ≠ .other ∧ b 1 ≠ .moving) (threads threads' : Nat) (hT : 0 < threads)
    (hT' : 0 < threads') (mk : Nat → Bool) (dt : ℝ) (u w u' w' : Iter.Mem) (h : Same x c E.nx u w)
    (hu : MovesMasked E' b true threads mk dt u u') (hw : MovesMasked E b true threads' mk dt w w') (i : Nat) (hi : i < E.nx)
    (hk : mk i = true) (k : Nat) (hkV : k < c.V) : u' (i * c.V + k) = x.at c k * w' (i * c.V + k) := by
  obtain ⟨ub, p1, e1⟩ := split_first1 E' W undef it tol hf.viscous hE' hX' b h0.1 h1.1 threads hT mk dt u u' hu
  obtain ⟨wb, p2, e2⟩ := split_first1 E W undef it tol hf.viscous hE hX b h0.1 h1.1 threads' hT' mk dt w w' hw
  have hp := pads1_units hU hE b h0 h1 u w h ub wb p1 p2
  rw [e1 i (by rw [hU.nx]; exact hi) hk ⟨k, hkV⟩, e2 i hi hk ⟨k, hkV⟩, line_units hU hf hP dt ub wb i fun p h => hp _ (by omega)]
  rfl

/-- **A split step on a plane in other units.** -/
theorem moves2_units (W : Weno.Setup 1) (undef : ℝ) (it : Nat) (tol : ℝ) (hU : E'.InUnits x E) (hf : x.Fit c E.P)
    (hP : Relax.Fits E.P) (hE : E.Ok) (hE' : E'.Ok) (hX : E.Explicit W undef it tol) (hX' : E'.Explicit W undef it tol) (b : Nat → BT)
    (hb : ∀ k < 4, b k ≠ .other ∧ b k ≠ .moving) (nc nc' : Bool) (threads threads' : Nat) (hT : 0 < threads)
    (hT' : 0 < threads') (mk : Nat → Bool) (dt : ℝ) (u w u' w' : Iter.Mem) (h : Same x c (E.nx * E.ny) u w)
    (hu : MovesMasked2 E' b nc true threads mk dt u u') (hw : MovesMasked2 E b nc' true threads' mk dt w w') (i : Nat)
    (hi : i < E.nx * E.ny) (hk : mk i = true) (k : Nat) (hkV : k < c.V) : u' (i * c.V + k) = x.at c k * w' (i * c.V + k) := by
  obtain ⟨ub, p1, e1⟩ := split_first2 E' W undef it tol hf.viscous hE' hX' b (fun k hk => (hb k hk).1) nc threads hT mk dt u u' hu
  obtain ⟨wb, p2, e2⟩ := split_first2 E W undef it tol hf.viscous hE hX b (fun k hk => (hb k hk).1) nc' threads' hT' mk dt w w' hw
  have hp := pads2_units hU hE b hb u w h ub wb p1 p2
  have hy0 : 0 < E.ny := hE.wide.2
  obtain ⟨r, s, hr, hs, rfl⟩ : ∃ r s, r < E.nx ∧ s < E.ny ∧ i = cell r s E.ny :=
    ⟨i / E.ny, i % E.ny, (Nat.div_lt_iff_lt_mul hy0).2 hi, Nat.mod_lt _ hy0, by unfold cell; rw [Nat.div_add_mod']⟩
  have e1' := e1 r (by rw [hU.nx]; exact hr) s (by rw [hU.ny]; exact hs) (by rw [hU.ny]; exact hk) ⟨k, hkV⟩
  rw [hU.ny] at e1'
  rw [e1', e2 r hr s hs hk ⟨k, hkV⟩, plane_units hU hf hP dt ub wb r s fun p q h1 h2 => hp _ (by omega) _ (by omega)]
  rfl

/-! ### The end of a pass -/

/-- The end of a pass in the other units. -/
structure Tail.InUnits (x : Units) (F' F : Tail c) : Prop where
  ncell : F'.ncell = F.ncell
  MPs : F'.MPs = F.MPs.map (Option.map fun P => x.par P)
  rot : F'.rot = F.rot
  tol : F'.tol = F.tol
  svd : F'.svd = F.svd
  sv : F'.sv = F.sv

theorem A_units (hv : c.viscous = true) {q' q : Nat → ℝ} (h : InUnits x c q' q) : getA q' = getA q := by
  have := Iter.V_ge c hv
  rw [← units_A (x := x) (c := c) q]
  exact Rot.getA_congr fun k _ h2 => h k (by omega)

theorem units_0' {q' q : Nat → ℝ} (h : InUnits x c q' q) : q' 0 = x.a * q 0 := by
  have h5 := mV_pos c
  have hV : 0 < c.V := by unfold Sys.Cfg.V; split_ifs <;> omega
  exact h 0 hV

theorem at_mV (hv : c.viscous = true) (hm : c.multi = true) : x.at c c.mV = x.a := by
  have h14 : 14 ≤ c.mV ∧ (c.thermal = true → 17 ≤ c.mV) := by
    unfold Sys.Cfg.mV
    simp only [hv, if_true]
    constructor
    · omega
    · intro h; simp [h]
  unfold Units.at
  rw [if_neg (by omega), if_neg (by omega), if_neg (by omega), if_neg (by omega), if_neg (fun h => by have := h14.2 h.1; omega),
    if_pos ⟨hm, rfl⟩]

theorem limit_units (hv : c.viscous = true) (nx : Nat) (u w : Iter.Mem) (h : Same x c nx u w) :
    Same x c nx (limitConcentration c nx u) (limitConcentration c nx w) := by
  cases hm : c.multi
  · rw [limit_concentration_off c nx u hm, limit_concentration_off c nx w hm]
    exact h
  · intro i hi k hk
    have h0 : u (i * c.V) = x.a * w (i * c.V) := units_0' (c := c) (q' := view c u i) (q := view c w i) (h i hi)
    rw [limit_val c nx u hm i k hk, limit_val c nx w hm i k hk, h0, h i hi k hk]
    simp only [hi, true_and]
    split_ifs with e
    · subst e
      rw [at_mV hv hm, ← mul_min_of_nonneg _ _ x.ha.le, mul_max_of_nonneg _ _ x.ha.le, mul_zero]
    · rfl

theorem index_units (hv : c.viscous = true) {q' q : Nat → ℝ} (h : InUnits x c q' q) : materialIndex c q' = materialIndex c q := by
  refine materialIndex_congr c _ _ fun k hk hk' => ?_
  obtain ⟨h1, h2, h3, h4⟩ := level_ge hv ⟨hk', hk⟩
  have h17 : c.thermal = true → 17 ≤ c.mV := fun h => by unfold Sys.Cfg.mV; simp [hv, h]
  rw [h k hk]
  unfold Units.at
  rw [if_neg (by omega), if_neg (by omega), if_neg (by omega), if_neg (by omega), if_neg (fun h => by have := h17 h.1; omega),
    if_neg (fun h => by have := h2 h.1; omega), one_mul]

theorem matter_units (hv : c.viscous = true) (MPs : List (Option Sys.Par)) (g g' : Sys.Par → Iter.Mem → Nat → Iter.Mem)
    (hL : Local c.V (matterCell c (MPs.map (Option.map fun P => x.par P)) g')) (hL' : Local c.V (matterCell c MPs g))
    (hg : ∀ P (u w : Iter.Mem) i, InUnits x c (view c u i) (view c w i) → InUnits x c (view c (g' (x.par P) u i) i) (view c (g P w i) i))
    (nx : Nat) (u w u' w' : Iter.Mem) (h : Same x c nx u w)
    (hu : (List.range nx).foldlM (matterCell c (MPs.map (Option.map fun P => x.par P)) g') u = some u')
    (hw : (List.range nx).foldlM (matterCell c MPs g) w = some w') : Same x c nx u' w' := by
  intro i hi k hk
  have hc : InUnits x c (view c u i) (view c w i) := h i hi
  have e := index_units hv hc
  rcases matter_spec c _ g' hL nx u u' hu i hi with ⟨a, b⟩ | ⟨P, a, b⟩ <;>
  rcases matter_spec c MPs g hL' nx w w' hw i hi with ⟨a', b'⟩ | ⟨P', a', b'⟩ <;>
  rw [e, List.getElem?_map, a'] at a
  · rw [b k hk, b' k hk]; exact h i hi k hk
  · cases a
  · cases a
  · cases a
    rw [b k hk, b' k hk]
    exact hg _ u w i hc k hk

theorem at_dist {k : Nat} (h5 : 5 ≤ k) (h14 : k < 14) : x.at c k = 1 := by
  unfold Units.at
  rw [if_neg (by omega), if_neg (by omega), if_neg (by omega), if_pos h14]

theorem renorm_units (hv : c.viscous = true) (P : Sys.Par) (u w : Iter.Mem) (i : Nat) (h : InUnits x c (view c u i) (view c w i)) :
    InUnits x c (view c (renormCell c (x.par P) u i) i) (view c (renormCell c P w i) i) := by
  intro k hk
  have h0 : u (i * c.V) = x.a * w (i * c.V) := units_0' h
  have hk' : u (i * c.V + k) = x.at c k * w (i * c.V + k) := h k hk
  unfold view
  rw [renormCell_val, renormCell_val, A_units hv h, h0, hk']
  have e : x.a * w (i * c.V) / ((x.par P).ρ0 * (getA (view c w i)).det) = w (i * c.V) / (P.ρ0 * (getA (view c w i)).det) := by
    change x.a * w (i * c.V) / (x.a * P.ρ0 * (getA (view c w i)).det) = _
    rw [mul_assoc, mul_div_mul_left _ _ x.ha.ne']
  have e0 : 0 < x.a * w (i * c.V) ↔ 0 < w (i * c.V) := mul_pos_iff_of_pos_left x.ha
  simp only [e, e0]
  split_ifs
  · exact mul_assoc _ _ _
  · rfl

theorem reset_units (hv : c.viscous = true) (P : Sys.Par) (u w : Iter.Mem) (i : Nat) (h : InUnits x c (view c u i) (view c w i)) :
    InUnits x c (view c (resetCell c (x.par P) u i) i) (view c (resetCell c P w i) i) := by
  intro k hk
  have hV := Iter.V_ge c hv
  have h0 : u (i * c.V) = x.a * w (i * c.V) := units_0' h
  have h1 : u (i * c.V + 1) = x.p * w (i * c.V + 1) := h 1 (by omega)
  have hk' : u (i * c.V + k) = x.at c k * w (i * c.V + k) := h k hk
  unfold view
  rw [resetCell_val, resetCell_val, A_units hv h, h0, h1, hk']
  have e : E2A (x.par P).toParams (x.a * w (i * c.V)) (getA (view c w i)) = x.b ^ 2 * E2A P.toParams (w (i * c.V)) (getA (view c w i)) := by
    have := units_E2A (x := x) (c := c) (view c w i) P.toParams
    rw [units_A] at this
    exact this
  have er : x.a * w (i * c.V) / (x.par P).ρ0 = w (i * c.V) / P.ρ0 := mul_div_mul_left _ _ x.ha.ne'
  rw [e, er]
  split_ifs with a1 a2 a3
  · subst a1
    change _ = x.p * _
    unfold Units.p
    ring
  · rw [at_dist (by omega) (by omega), one_mul]
  · rw [mul_zero]
  · rfl

theorem rotateCell_units (hv : c.viscous = true) (svd : M3 → V3 × M3) (P : Sys.Par) (u w : Iter.Mem) (i : Nat)
    (h : InUnits x c (view c u i) (view c w i)) :
    InUnits x c (view c (rotateCell c svd (x.par P) u i) i) (view c (rotateCell c svd P w i) i) := by
  intro k hk
  unfold view
  by_cases h9 : 5 ≤ k ∧ k < 14
  · rw [at_dist h9.1 h9.2, one_mul]
    obtain ⟨a, b, rfl⟩ := slot9 k h9.1 h9.2
    rw [rotateCell_in, rotateCell_in, A_units hv h]
  · rw [rotateCell_out _ _ _ _ _ _ (by omega), rotateCell_out _ _ _ _ _ _ (by omega)]
    exact h k hk

theorem contorted_units (hv : c.viscous = true) (sv : M3 → V3) (nx : Nat) (u w : Iter.Mem) (h : Same x c nx u w) (tol : ℝ) :
    contorted c sv nx u tol = contorted c sv nx w tol := by
  have key : ∀ i < nx, getA (view c u i) = getA (view c w i) := fun i hi => A_units hv (q' := view c u i) (h i hi)
  unfold contorted
  rw [Bool.eq_iff_iff, List.any_eq_true, List.any_eq_true]
  constructor
  · rintro ⟨i, hi, hx⟩
    exact ⟨i, hi, by rw [← key i (List.mem_range.1 hi)]; exact hx⟩
  · rintro ⟨i, hi, hx⟩
    exact ⟨i, hi, by rw [key i (List.mem_range.1 hi)]; exact hx⟩

/-- **The end of a pass in other units.** -/
theorem finish_units (F' F : Tail c) (hv : c.viscous = true) (hM : F'.InUnits x F) (count : Nat)
    (u w u' w' : Iter.Mem) (h : Same x c F.ncell u w) (hu : finish F' count u = some u') (hw : finish F count w = some w') :
    Same x c F.ncell u' w' := by
  unfold finish at hu hw
  simp only [Option.bind_eq_bind] at hu hw
  obtain ⟨u1, e1, hu⟩ := Option.bind_eq_some_iff.1 hu
  obtain ⟨u2, e2, e3⟩ := Option.bind_eq_some_iff.1 hu
  obtain ⟨w1, d1, hw⟩ := Option.bind_eq_some_iff.1 hw
  obtain ⟨w2, d2, d3⟩ := Option.bind_eq_some_iff.1 hw
  rw [hM.ncell, hM.MPs] at e1
  have l1 : Same x c F.ncell u1 w1 := matter_units hv F.MPs _ _ (renorm_local c hv _) (renorm_local c hv _) (renorm_units hv)
    F.ncell _ _ u1 w1 (limit_units hv F.ncell u w h) e1 d1
  have l2 : Same x c F.ncell u2 w2 := by
    unfold rotateSome at e2 d2
    rw [hM.rot] at e2
    split_ifs at e2 d2 with hr
    · unfold rotateDistortion at e2 d2
      rw [hM.ncell, hM.MPs, hM.svd] at e2
      exact matter_units hv F.MPs _ _ (rotate_local c hv _ _) (rotate_local c hv _ _)
        (rotateCell_units hv F.svd) F.ncell _ _ u2 w2 l1 e2 d2
    · cases e2
      cases d2
      exact l1
  have e := contorted_units hv F.sv F.ncell u2 w2 l2 F.tol
  unfold resetSome at e3 d3
  rw [hM.ncell, hM.tol, hM.sv, e, hM.MPs] at e3
  split_ifs at e3 d3 with hr
  · exact matter_units hv F.MPs _ _ (reset_local c hv _) (reset_local c hv _) (reset_units hv) F.ncell _ _ u' w' l2 e3 d3
  · cases e3
    cases d3
    exact l2

/-! ### Whole runs -/

theorem cellSpeed_units (mae : Sys.Par → St → Nat → Option ℝ) (P : Sys.Par) (q' q : St)
    (hmae : ∀ d, mae (x.par P) q' d = (mae P q d).map (x.b * ·)) (dX : List ℝ) :
    cellSpeed mae (dX.map (x.b * ·)) (x.par P) q' = cellSpeed mae dX P q := by
  unfold cellSpeed
  rw [List.length_map]
  have hb := x.hb.ne'
  congr 1
  funext tmp d
  have e : (dX.map (x.b * ·)).getD d 0 = x.b * dX.getD d 0 := by
    simp only [List.getD_eq_getElem?_getD, List.getElem?_map]
    cases dX[d]? <;> simp
  rw [hmae d, e]
  cases tmp with
  | none => rfl
  | some a =>
    cases mae P q d with
    | none => rfl
    | some s => simp only [Option.map_some, mul_div_mul_left _ _ hb]

theorem timestep_units (mae : Sys.Par → St → Nat → Option ℝ) (P : Sys.Par) (ncell : Nat) (u w : Iter.Mem) (h : Same x c ncell u w)
    (hmae : ∀ q' q : St, InUnits x c q' q → ∀ d, mae (x.par P) q' d = (mae P q d).map (x.b * ·)) (dX : List ℝ) (CFL t tf : ℝ)
    (count : Nat) : timestep c mae [u] [fun _ => true] (dX.map (x.b * ·)) CFL t tf count [some (x.par P)] 1 ncell =
      timestep c mae [w] [fun _ => true] dX CFL t tf count [some P] 1 ncell := by
  unfold timestep
  congr 2
  unfold maxSpeed
  simp only [List.range_one, List.foldl_cons, List.foldl_nil, List.getD_cons_zero, if_true]
  have : ∀ l : List Nat, (∀ i ∈ l, i < ncell) → ∀ M, l.foldl (fun MAX ind =>
      maxNan MAX (cellSpeed mae (dX.map (x.b * ·)) (x.par P) (view c u ind))) M =
      l.foldl (fun MAX ind => maxNan MAX (cellSpeed mae dX P (view c w ind))) M := by
    intro l
    induction l with
    | nil => intro _ _; rfl
    | cons i l ih =>
      intro hl M
      rw [List.foldl_cons, List.foldl_cons, cellSpeed_units mae P (view c u i) (view c w i)
        (hmae _ _ (h i (hl i List.mem_cons_self))), ih fun j hj => hl j (List.mem_cons_of_mem _ hj)]
  exact this _ (fun i hi => List.mem_range.1 hi) 0

/-- **The same run in other units**: on a line, the field after every pass, every snapshot and every slot returned are those of the
other run in the other units, at the same times. -/
theorem run_units {W1 W2 : Type} (F' F : Tail c) (W : Weno.Setup 1) (undef : ℝ) (it : Nat) (tol : ℝ) (hU : E'.InUnits x E)
    (hf : x.Fit c E.P) (hP : Relax.Fits E.P) (hE : E.Ok) (hE' : E'.Ok) (hX : E.Explicit W undef it tol) (hX' : E'.Explicit W undef it tol)
    (hF : F.ncell = E.nx) (hUF : F'.InUnits x F) (bt : Nat → BT) (h0 : bt 0 ≠ .other ∧ bt 0 ≠ .moving)
    (h1 : bt 1 ≠ .other ∧ bt 1 ≠ .moving) (threads threads' : Nat) (hT : 0 < threads) (hT' : 0 < threads')
    (mae : Sys.Par → St → Nat → Option ℝ)
    (hmae : ∀ q' q : St, InUnits x c q' q → ∀ d, mae (x.par E.P) q' d = (mae E.P q d).map (x.b * ·)) (CFL : ℝ)
    (b : Body Iter.Mem W1) (b' : Body Iter.Mem W2) (tf : ℝ) (u0 u0' : Iter.Mem) (w0 : W1) (w0' : W2)
    (hu0 : Same x c E.nx u0 u0') (ht : Timed (c := c) (x.par E.P) mae [x.b * E.dx] CFL E.nx b tf u0 w0)
    (ht' : Timed (c := c) E.P mae [E.dx] CFL E.nx b' tf u0' w0')
    (hb : FollowsLine E' F' bt true threads b tf u0 w0) (hb' : FollowsLine E F bt true threads' b' tf u0' w0')
    (hnan : ∀ u w, Same x c E.nx u w → b.isNaN u = b'.isNaN w) {m : Nat} {s : Vars Iter.Mem W1} (hs : Reach b tf u0 w0 m s) :
    ∃ s', Reach b' tf u0' w0' m s' ∧ Twin (Same x c E.nx) s s' ∧
      ∀ ret v, pass b tf s = .done ret v → ∃ ret' v', pass b' tf s' = .done ret' v' ∧
        ∀ k, Option.Rel (Same x c E.nx) (ret k) (ret' k) := by
  have hk : Keeps b b' tf (Same x c E.nx) u0 w0 u0' w0' := by
    intro m s s' hr hr' htw hlt
    have hlt' : s'.t < tf := htw.t ▸ hlt
    have e1 := ht m s hr hlt
    have e2 := ht' m s' hr' hlt'
    have tu := timestep_units mae E.P E.nx s.u s'.u htw.u hmae [E.dx] CFL s.t tf s.count
    rw [show [x.b * E.dx] = [E.dx].map (x.b * ·) from rfl, tu, htw.t, htw.count, e2] at e1
    have e : (b'.step s'.u s'.w s'.t s'.count).2.2 = (b.step s.u s.w s.t s.count).2.2 := by
      rw [htw.t, htw.count]
      injection e1
    obtain ⟨u1, a1, a2⟩ := hb m s hr hlt
    obtain ⟨w1, c1, c2⟩ := hb' m s' hr' hlt'
    rw [← e] at a1
    have mv : Same x c E.nx u1 w1 := fun i hi k hk => moves_units W undef it tol hU hf hP hE hE' hX hX' bt h0 h1 threads threads' hT hT'
      (fun _ => true) _ s.u s'.u u1 w1 htw.u ((masked_all E' bt true threads _ _ _).2 a1) ((masked_all E bt true threads' _ _ _).2 c1)
      i hi rfl k hk
    rw [← hF] at mv ⊢
    exact ⟨finish_units F' F hf.viscous hUF (s.count + 1) u1 w1 _ _ mv a2 (by rw [htw.count]; exact c2), e.symm⟩
  obtain ⟨s', r1, r2, r3⟩ := runs_twin hnan u0 w0 u0' w0' hu0 hk hs
  exact ⟨s', r1, r2, fun ret v hd => by
    obtain ⟨ret', v', q1, -, q3⟩ := r3 ret v hd
    exact ⟨ret', v', q1, q3⟩⟩

/-- **The same run in other units, on a plane.** -/
theorem run2_units {W1 W2 : Type} (F' F : Tail c) (W : Weno.Setup 1) (undef : ℝ) (it : Nat) (tol : ℝ) (hU : E'.InUnits x E)
    (hf : x.Fit c E.P) (hP : Relax.Fits E.P) (hE : E.Ok) (hE' : E'.Ok) (hX : E.Explicit W undef it tol) (hX' : E'.Explicit W undef it tol)
    (hF : F.ncell = E.nx * E.ny) (hUF : F'.InUnits x F) (bt : Nat → BT) (hbt : ∀ k < 4, bt k ≠ .other ∧ bt k ≠ .moving)
    (nc nc' : Bool) (threads threads' : Nat) (hT : 0 < threads) (hT' : 0 < threads')
    (mae : Sys.Par → St → Nat → Option ℝ)
    (hmae : ∀ q' q : St, InUnits x c q' q → ∀ d, mae (x.par E.P) q' d = (mae E.P q d).map (x.b * ·)) (CFL : ℝ)
    (b : Body Iter.Mem W1) (b' : Body Iter.Mem W2) (tf : ℝ) (u0 u0' : Iter.Mem) (w0 : W1) (w0' : W2)
    (hu0 : Same x c (E.nx * E.ny) u0 u0')
    (ht : Timed (c := c) (x.par E.P) mae [x.b * E.dx, x.b * E.dy] CFL (E.nx * E.ny) b tf u0 w0)
    (ht' : Timed (c := c) E.P mae [E.dx, E.dy] CFL (E.nx * E.ny) b' tf u0' w0')
    (hb : FollowsPlane E' F' bt nc true threads b tf u0 w0) (hb' : FollowsPlane E F bt nc' true threads' b' tf u0' w0')
    (hnan : ∀ u w, Same x c (E.nx * E.ny) u w → b.isNaN u = b'.isNaN w) {m : Nat} {s : Vars Iter.Mem W1} (hs : Reach b tf u0 w0 m s) :
    ∃ s', Reach b' tf u0' w0' m s' ∧ Twin (Same x c (E.nx * E.ny)) s s' ∧
      ∀ ret v, pass b tf s = .done ret v → ∃ ret' v', pass b' tf s' = .done ret' v' ∧
        ∀ k, Option.Rel (Same x c (E.nx * E.ny)) (ret k) (ret' k) := by
  have hk : Keeps b b' tf (Same x c (E.nx * E.ny)) u0 w0 u0' w0' := by
    intro m s s' hr hr' htw hlt
    have hlt' : s'.t < tf := htw.t ▸ hlt
    have e1 := ht m s hr hlt
    have e2 := ht' m s' hr' hlt'
    have tu := timestep_units mae E.P (E.nx * E.ny) s.u s'.u htw.u hmae [E.dx, E.dy] CFL s.t tf s.count
    rw [show [x.b * E.dx, x.b * E.dy] = [E.dx, E.dy].map (x.b * ·) from rfl, tu, htw.t, htw.count, e2] at e1
    have e : (b'.step s'.u s'.w s'.t s'.count).2.2 = (b.step s.u s.w s.t s.count).2.2 := by
      rw [htw.t, htw.count]
      injection e1
    obtain ⟨u1, a1, a2⟩ := hb m s hr hlt
    obtain ⟨w1, c1, c2⟩ := hb' m s' hr' hlt'
    rw [← e] at a1
    have mv : Same x c (E.nx * E.ny) u1 w1 := fun i hi k hk => moves2_units W undef it tol hU hf hP hE hE' hX hX' bt hbt nc nc' threads
      threads' hT hT' (fun _ => true) _ s.u s'.u u1 w1 htw.u ((masked2_all E' bt nc true threads _ _ _).2 a1)
      ((masked2_all E bt nc' true threads' _ _ _).2 c1) i hi rfl k hk
    rw [← hF] at mv ⊢
    exact ⟨finish_units F' F hf.viscous hUF (s.count + 1) u1 w1 _ _ mv a2 (by rw [htw.count]; exact c2), e.symm⟩
  obtain ⟨s', r1, r2, r3⟩ := runs_twin hnan u0 w0 u0' w0' hu0 hk hs
  exact ⟨s', r1, r2, fun ret v hd => by
    obtain ⟨ret', v', q1, -, q3⟩ := r3 ret v hd
    exact ⟨ret', v', q1, q3⟩⟩

/-- Rusanov's flux in other units. -/
theorem rusanov_units (P : Sys.Par) (hf : x.Fit c P) (d : Nat) (ql qr : Fin c.V → ℝ) (v : Fin c.V) :
    rusanov c (x.par P) d (Units.vec x c ql) (Units.vec x c qr) v = x.fx c v * rusanov c P d ql qr v := by
  unfold rusanov dRus
  simp only [vec_st, units_maxAbsEigs _ hf]
  have e : (fun i => max (x.b * Eig.maxAbsEigs c P (ofVec c ql) (dir d)) (x.b * Eig.maxAbsEigs c P (ofVec c qr) (dir d)) *
      (x.st c (ofVec c ql) i - x.st c (ofVec c qr) i)) = fun i => x.fx c i *
      (max (Eig.maxAbsEigs c P (ofVec c ql) (dir d)) (Eig.maxAbsEigs c P (ofVec c qr) (dir d)) * (ofVec c ql i - ofVec c qr i)) := by
    funext i
    rw [← mul_max_of_nonneg _ _ x.hb.le]
    unfold Units.fx Units.st
    ring
  rw [e, units_flux _ hf, units_flux _ hf]

theorem destress_units (hv : c.viscous = true) (svd : M3 → M3 × V3 × M3) {q' q : Nat → ℝ} (h : InUnits x c q' q) :
    InUnits x c (Grid.destress svd q') (Grid.destress svd q) := by
  intro k hk
  unfold Grid.destress
  rw [A_units hv h]
  by_cases h9 : 5 ≤ k ∧ k < 14
  · rw [at_dist h9.1 h9.2, one_mul]
    obtain ⟨a, b, rfl⟩ := slot9 k h9.1 h9.2
    have g : ∀ (B : M3) (q : St), setA B q (5 + (3 * (a : Nat) + b)) = B a b := fun B q => by
      have := congrFun (congrFun (Rot.setA_getA B q) a) b
      rw [← this]
      unfold getA
      congr 1
    rw [g, g]
  · rw [Rot.setA_other _ _ _ (by omega), Rot.setA_other _ _ _ (by omega)]
    exact h k hk

/-- **The `MOVING` wall moves with speed 1, in whatever units**: in units of another length the padding is another one. -/
theorem moving_units_false (N : Nat) (hv : c.viscous = true) (d : Nat) (hb : x.b ≠ 1) (q : Nat → ℝ) (h0 : q 0 ≠ 0) :
    ¬ InUnits x c (wall ⟨N, none⟩ d .moving (x.st c q) (x.st c q)) (wall ⟨N, none⟩ d .moving q q) := by
  have hV := Iter.V_ge c hv
  have ha := x.ha.ne'
  have e : ∀ q : Nat → ℝ, wall ⟨N, none⟩ d .moving q q 2 = q 2 * -1 + 2 * q 0 := fun q => by
    change moving ⟨N, none⟩ q q 2 = _
    simp [moving, negMom, negAt, Grid.Cfg.ds]
  intro h
  have h2 := h 2 (by omega)
  rw [e, e] at h2
  have : x.a * (2 * q 0) * (1 - x.b) = 0 := by
    change x.a * x.b * q 2 * -1 + 2 * (x.a * q 0) = x.a * x.b * (q 2 * -1 + 2 * q 0) at h2
    linear_combination h2
  rcases mul_eq_zero.1 this with h | h
  · exact (mul_ne_zero ha (mul_ne_zero two_ne_zero h0)) h
  · exact hb (by linarith)

/-! ### Examples -/

section

variable {T : Tab 1} (h : T.Ok) (W : Weno.Setup 1) (P : Sys.Par)

/-- A line of four cells of any material in first order, with cells of length `dx`. -/
def unitEnv (dx : ℝ) : Env lineCfg 1 :=
  let S := gpr lineCfg P (Relax.source lineCfg P 0) fun _ => 7
  { lineEnv T W (rusanov lineCfg P) with
    P := P
    dx := dx
    dy := dx
    src := Relax.source lineCfg P 0
    pred1 := fun dt => Step.pred1 false 4 0 (fun w => (isStep1_exists h S (initialCondition1 T (rows1 w)) dt dx).choose)
      fun _ _ _ => 0
    pred2 := fun dt => Step.pred2 false 4 0 (fun w => (isStep2_exists h S (initialCondition2 T (rows2 w)) dt dx dx).choose)
      fun _ _ _ => 0
    mid1 := fun dt => Step.mid1 S T dt dx
    mid2 := fun dt => Step.mid2 S T dt dx dx
    block := rows2 }

def unitTail : Tail lineCfg := { lineTail 1 with MPs := [some P] }

theorem unitEnv_ok (dx : ℝ) : (unitEnv h W P dx).Ok :=
  ⟨h, ⟨by simp [unitEnv, lineEnv], by simp [unitEnv, lineEnv]⟩, fun _ => ⟨0, rfl⟩,
   fun A => (Grid.svd_exists A).choose_spec.choose_spec.choose_spec.1⟩

theorem unitEnv_explicit (dx : ℝ) : (unitEnv h W P dx).Explicit W 0 4 0 :=
  ⟨rfl, fun dt => ⟨_, _, fun _ => (isStep1_exists h _ _ dt dx).choose_spec, rfl⟩,
   fun dt => ⟨_, _, fun _ => (isStep2_exists h _ _ dt dx dx).choose_spec, rfl⟩, fun _ => rfl, fun _ => rfl, rfl⟩

theorem unitEnv_units (hf : x.Fit lineCfg P) (dx : ℝ) : (unitEnv h W (x.par P) (x.b * dx)).InUnits x (unitEnv h W P dx) :=
  { P := rfl, T := by simp only [unitEnv, lineEnv], nx := by simp only [unitEnv, lineEnv]
    ny := by simp only [unitEnv, lineEnv]
    dx := by simp only [unitEnv]
    dy := by simp only [unitEnv]
    fl := fun d ql qr v => rusanov_units P hf d ql qr v
    ds := by change Option.Rel _ none none; exact Option.Rel.none
    svd := by simp only [unitEnv, lineEnv]
    steps := by simp only [unitEnv, lineEnv]
    fuel := by simp only [unitEnv, lineEnv]
    bad := fun q => by change Units.vec x lineCfg q = Units.vec x lineCfg q; rfl }

theorem unitTail_units : (unitTail (x.par P)).InUnits x (unitTail P) := ⟨rfl, rfl, rfl, rfl, rfl, rfl⟩

/-- The signal speed of `timestep`. -/
def unitMae : Sys.Par → St → Nat → Option ℝ := fun P q d => some (Eig.maxAbsEigs lineCfg P (ofVec lineCfg fun v => q v) (dir d))

theorem unitMae_units (hf : x.Fit lineCfg P) (q' q : St) (hq : InUnits x lineCfg q' q) (d : Nat) :
    unitMae (x.par P) q' d = (unitMae P q d).map (x.b * ·) := by
  unfold unitMae
  have e : (fun v : Fin lineCfg.V => q' v) = Units.vec x lineCfg fun v : Fin lineCfg.V => q v := funext fun v => hq v v.2
  rw [e, vec_st, units_maxAbsEigs _ hf, Option.map_some]

theorem unitRun_exists (dx : ℝ) (bt : Nat → BT) (h0 : bt 0 ≠ .other) (h1 : bt 1 ≠ .other) (threads : Nat) :
    ∃ b : Body Iter.Mem Unit, (∀ u, b.isNaN u = false) ∧ ∀ u0,
      Timed (c := lineCfg) P unitMae [dx] (9 / 10) 4 b 1 u0 () ∧
      FollowsLine (unitEnv h W P dx) (unitTail P) bt true threads b 1 u0 () := by
  have hVpos : 0 < lineCfg.V := by have := Iter.V_ge lineCfg rfl; omega
  obtain ⟨E, hE⟩ : ∃ E, E = unitEnv h W P dx := ⟨_, rfl⟩
  have hEo : E.Ok := hE ▸ unitEnv_ok h W P dx
  have hto : (unitTail P).Ok := ⟨(lineTail_ok 1).svd, (lineTail_ok 1).sv, by simp [unitTail, lineCfg]⟩
  have ex : ∀ (dt : ℝ) (u : Iter.Mem) (count : Nat), ∃ u1 u', MovesLine E bt true threads dt u u1 ∧
      finish (unitTail P) (count + 1) u1 = some u' := fun dt u count => by
    obtain ⟨u1, h1⟩ := movesLine_exists E hVpos hEo bt h0 h1 threads dt u
    obtain ⟨u', h', -⟩ := finish_spec (unitTail P) rfl hto (count + 1) u1
    exact ⟨u1, u', h1, h'⟩
  let dtOf := stepLength lineCfg unitMae P [dx] (9 / 10) (by norm_num) 4 1
  have hdt : ∀ (u : Iter.Mem) (t : ℝ) (count : Nat), t < 1 →
      timestep lineCfg unitMae [u] [fun _ => true] [dx] (9 / 10) t 1 count [some P] 1 4 = .fin (dtOf u t count) := by
    intro u t count ht
    simp only [dtOf, stepLength, dif_pos ht]
    exact (timestep_spec lineCfg unitMae [u] [fun _ => true] [dx] [some P] (9 / 10) t 1 count 1 4 (by norm_num)
      ht).choose_spec.1
  refine ⟨⟨fun u _ t count => ((ex (dtOf u t count) u count).choose_spec.choose, (), dtOf u t count), fun _ => false⟩,
    fun _ => rfl, fun u0 => ⟨?_, ?_⟩⟩
  · exact fun m s _ ht => hdt s.u s.t s.count ht
  · rw [← hE]
    exact fun m s _ _ => ⟨_, (ex _ s.u s.count).choose_spec.choose_spec.1, (ex _ s.u s.count).choose_spec.choose_spec.2⟩

/-- Kilogrammes and metres are so many grammes and centimetres. -/
def cgs : Units := ⟨1 / 1000, 100, 1, by norm_num, by norm_num, by norm_num⟩

/-- A material under gravity. -/
def heavy : Sys.Par := { samplePar sample with δp := ![-981 / 100, 0, 0] }

/-- Any data on a line of four cells under gravity, between a slip wall and an open end, in SI units and in grammes and
centimetres: both runs exist, and the one is the other in the other units throughout. -/
example (u0 u0' : Iter.Mem) (hu : Same cgs lineCfg 4 u0 u0') :
    let bt : Nat → BT := fun k => if k = 0 then .slip else .transmissive
    ∃ b b' : Body Iter.Mem Unit, FollowsLine (unitEnv h W (cgs.par heavy) (100 * (1 / 10))) (unitTail (cgs.par heavy)) bt true 3 b 1 u0 () ∧
      FollowsLine (unitEnv h W heavy (1 / 10)) (unitTail heavy) bt true 1 b' 1 u0' () ∧
      ∀ m s, Reach b 1 u0 () m s → ∃ s', Reach b' 1 u0' () m s' ∧ Twin (Same cgs lineCfg 4) s s' := by
  intro bt
  have hf : cgs.Fit lineCfg heavy := ⟨rfl, fun h => absurd h (by norm_num [heavy, samplePar]), fun h => (nomatch h), fun _ _ _ => by simp [lineCfg]⟩
  have hP : Relax.Fits heavy := ⟨fun _ _ _ => by norm_num [heavy, samplePar, sample], fun _ h => (nomatch h), fun h => (nomatch h),
    by norm_num [heavy, samplePar, sample]⟩
  obtain ⟨b, n1, k1⟩ := unitRun_exists h W (cgs.par heavy) (100 * (1 / 10)) bt (by decide) (by decide) 3
  obtain ⟨b', n2, k2⟩ := unitRun_exists h W heavy (1 / 10) bt (by decide) (by decide) 1
  refine ⟨b, b', (k1 u0).2, (k2 u0').2, fun m s hr => ?_⟩
  obtain ⟨s', r1, r2, -⟩ := run_units (unitTail (cgs.par heavy)) (unitTail heavy) W 0 4 0 (unitEnv_units h W heavy hf (1 / 10)) hf hP
    (unitEnv_ok h W heavy _) (unitEnv_ok h W (cgs.par heavy) _) (unitEnv_explicit h W heavy _) (unitEnv_explicit h W (cgs.par heavy) _) rfl
    (unitTail_units heavy) bt ⟨by decide, by decide⟩ ⟨by decide, by decide⟩ 3 1 (by norm_num) (by norm_num) unitMae (unitMae_units heavy hf)
    (9 / 10) b b' 1 u0 u0' () () hu (k1 u0).1 (k2 u0').1 (k1 u0).2 (k2 u0').2 (fun u w _ => by rw [n1, n2]) hr
  exact ⟨s', r1, r2⟩

/-- A split step of any field on a line between two walls, in every second cell. -/
example (u : Iter.Mem) : ∃ (u' : Iter.Mem) (ub : Nat → Fin lineCfg.V → ℝ), Pads1 (unitEnv h W heavy (1 / 10)) (fun _ => .slip) u ub ∧
    ∀ i < 4, i % 2 = 0 → ∀ v : Fin lineCfg.V, u' (i * lineCfg.V + v) = firstLine (unitEnv h W heavy (1 / 10)) (1 / 100) ub i v := by
  obtain ⟨u', hm⟩ := movesMasked_exists (unitEnv h W heavy (1 / 10)) (by decide) (unitEnv_ok h W heavy _) (fun _ => .slip) (by decide)
    (by decide) 2 (fun i => decide (i % 2 = 0)) (1 / 100) u
  obtain ⟨ub, h1, h2⟩ := split_first1 _ W 0 4 0 rfl (unitEnv_ok h W heavy _) (unitEnv_explicit h W heavy _) _ (by decide) (by decide) 2
    (by norm_num) _ _ u u' hm
  exact ⟨u', ub, h1, fun i hi he => h2 i hi (by simpa using he)⟩

/-- The same on a plane of four rows of three cells, in every cell but the first. -/
example (u : Iter.Mem) : let E : Env lineCfg 1 := { unitEnv h W heavy (1 / 10) with ny := 3 }
    ∃ (u' : Iter.Mem) (ub : Nat → Fin lineCfg.V → ℝ), Pads2 E (fun _ => .slip) u ub ∧
    ∀ x < 4, ∀ y < 3, cell x y 3 ≠ 0 → ∀ v : Fin lineCfg.V, u' (cell x y 3 * lineCfg.V + v) = firstPlane E (1 / 100) ub x y v := by
  intro E
  have hE : E.Ok := ⟨h, ⟨by simp [E, unitEnv, lineEnv], by simp [E]⟩, fun _ => ⟨0, rfl⟩,
    fun A => (Grid.svd_exists A).choose_spec.choose_spec.choose_spec.1⟩
  have hX : E.Explicit W 0 4 0 := ⟨(unitEnv_explicit h W heavy (1 / 10)).coef, (unitEnv_explicit h W heavy (1 / 10)).pred1,
    (unitEnv_explicit h W heavy (1 / 10)).pred2, fun _ => rfl, fun _ => rfl, rfl⟩
  obtain ⟨u', hm⟩ := movesMasked2_exists E (by decide) hE (fun _ => .slip) (by decide) true 2 (fun i => decide (i ≠ 0)) (1 / 100) u
  obtain ⟨ub, h1, h2⟩ := split_first2 E W 0 4 0 rfl hE hX _ (by decide) true 2 (by norm_num) _ _ u u' hm
  exact ⟨u', ub, h1, fun x hx y hy he => h2 x hx y hy (decide_eq_true he)⟩

/-- A state next to a `MOVING` end, in metres and in centimetres. -/
example : ¬ InUnits ⟨1, 100, 1, by norm_num, by norm_num, by norm_num⟩ lineCfg
    (wall ⟨1, none⟩ 0 .moving (Units.st ⟨1, 100, 1, by norm_num, by norm_num, by norm_num⟩ lineCfg fun _ => 1000)
      (Units.st ⟨1, 100, 1, by norm_num, by norm_num, by norm_num⟩ lineCfg fun _ => 1000))
    (wall ⟨1, none⟩ 0 .moving (fun _ => 1000) fun _ => 1000) :=
  moving_units_false 1 rfl 0 (by norm_num) _ (by norm_num)

end

end

end Verif.Run
