import Verif.Run.Shift
import Verif.Rot.Mirror
import Verif.Rot.MirrorSvd

/-! # Runs on a line and their mirror images

One material, `STIFF = 0`, no `MOVING` wall, no `ROTATE_DISTORTION`, any number of passes. -/

namespace Verif.Run

open Verif.Step Verif.Dg Verif.Fv Verif.Sys Verif.Iter Verif.Grid Verif.Rot

noncomputable section

variable {c : Sys.Cfg} {n : Nat}

/-- The cell `q'` is the mirror image of the cell `q`. -/
def Img (c : Sys.Cfg) (q' q : Nat → ℝ) : Prop := ∀ k < c.V, q' k = sgn c k * q k

/-- The line `u` is the mirror image of the line `w`. -/
def Mirror1 (c : Sys.Cfg) (nx : Nat) (u w : Iter.Mem) : Prop :=
  ∀ i < nx, ∀ k < c.V, u (i * c.V + k) = sgn c k * w ((nx - 1 - i) * c.V + k)

/-- The signs of the components the schemes see. -/
abbrev eps (c : Sys.Cfg) : Fin c.V → ℝ := fun v => sgn c v

/-- `E'` is `E` in the mirror, as far as interfaces between states of the kind `G` go; Eigen may decompose differently in the two
runs. -/
structure Env.Mirror (E' E : Env c n) (G : (Fin c.V → ℝ) → (Fin c.V → ℝ) → Prop) : Prop where
  P : E'.P = mirPar E.P
  T : E'.T = E.T
  nx : E'.nx = E.nx
  dx : E'.dx = E.dx
  fl : FluxMirrored G (eps c) E.fl E'.fl
  src : ∀ Q, E'.src (mir c Q) = mir c (E.src Q)
  ds : Option.Rel (fun f' f => ∀ q' q, Img c q' q → Img c (f' q') (f q)) E'.destress E.destress
  half : E'.half = E.half
  steps : E'.steps = E.steps
  fuel : E'.fuel = E.fuel
  bad : ∀ q, E'.bad (Step.flip (eps c) q) = Step.flip (eps c) (E.bad q)

/-! ### Ends of the line -/

theorem negAt_img {q' q : Nat → ℝ} (h : Img c q' q) (j : Nat) : Img c (negAt q' j) (negAt q j) := by
  intro k hk
  simp only [negAt, Function.update_apply]
  split_ifs with e
  · subst e; rw [h _ hk]; ring
  · exact h k hk

theorem wall_img (ds' ds : Option (Grid.Cell ℝ → Grid.Cell ℝ))
    (hds : Option.Rel (fun f' f => ∀ q' q, Img c q' q → Img c (f' q') (f q)) ds' ds) (d : Nat) (b : BT) (hb : b ≠ .moving)
    {q' q : Nat → ℝ} (h : Img c q' q) : Img c (wall ⟨n, ds'⟩ d b q' q') (wall ⟨n, ds⟩ d b q q) := by
  have hd : ∀ {q' q : Nat → ℝ}, Img c q' q → Img c (Grid.Cfg.ds ⟨n, ds'⟩ q') (Grid.Cfg.ds ⟨n, ds⟩ q) := by
    intro q' q h
    unfold Grid.Cfg.ds
    cases hds with
    | none => exact h
    | some hf => exact hf _ _ h
  cases b
  · exact h
  · exact h
  · exact hd (negAt_img h _)
  · exact hd (negAt_img (negAt_img (negAt_img h _) _) _)
  · exact absurd rfl hb
  · exact negAt_img (negAt_img (negAt_img (negAt_img (negAt_img (negAt_img (negAt_img h _) _) _) _) _) _) _
  · exact h

/-- The two ends change places. -/
def swapEnds (b : Nat → BT) : Nat → BT := fun k => if k = 0 then b 1 else if k = 1 then b 0 else b k

theorem src_mirror (N nx : Nat) (hx : N ≤ nx) (b0 b1 : BT) (h0 : 0 < N) (k : Nat) (hk : k < nx + 2 * N) :
    srcOf N b1 b0 nx k = nx - 1 - srcOf N b0 b1 nx (nx + 2 * N - 1 - k) := by
  unfold srcOf
  by_cases h1 : k < N
  · rw [if_pos h1, if_neg (by omega), if_neg (by omega)]
    cases b1 <;> simp only <;> omega
  · rw [if_neg h1]
    by_cases h2 : k < N + nx
    · rw [if_pos h2, if_neg (by omega), if_pos (by omega)]
      omega
    · rw [if_neg h2, if_pos (by omega)]
      cases b0 <;> simp only <;> omega

variable {E' E : Env c n} {G : (Fin c.V → ℝ) → (Fin c.V → ℝ) → Prop}

theorem pads_mirror (hM : E'.Mirror E G) (hn : 0 < n) (hx : n ≤ E.nx) (b : Nat → BT) (h0 : b 0 ≠ .other ∧ b 0 ≠ .moving)
    (h1 : b 1 ≠ .other ∧ b 1 ≠ .moving) (u w : Iter.Mem) (h : Mirror1 c E.nx u w) (ub wb : Nat → Fin c.V → ℝ)
    (hu : Pads1 E' (swapEnds b) u ub) (hw : Pads1 E b w wb) (r : Nat) (hr : r < E.nx + 2 * n) :
    ub r = Step.flip (eps c) (wb (E.nx + 2 * n - 1 - r)) := by
  obtain ⟨old, m', hm, hub⟩ := hu
  obtain ⟨old1, m1', hm1, hwb⟩ := hw
  rw [hM.nx] at hm
  obtain ⟨m'', e, a, -⟩ := Grid.boundaries_1d ⟨n, E'.destress⟩ E.nx (b 1) (b 0) (memOf c u old) hx h1.1 h0.1
  obtain ⟨m1'', e1, a1, -⟩ := Grid.boundaries_1d ⟨n, E.destress⟩ E.nx (b 0) (b 1) (memOf c w old1) hx h0.1 h1.1
  change Grid.boundaries1D ⟨n, E'.destress⟩ E.nx (b 1) (b 0) (memOf c u old) = some m' at hm
  rw [hm] at e
  cases e
  rw [hm1] at e1
  cases e1
  funext v
  have hs : srcOf n (b 1) (b 0) E.nx r < E.nx := srcOf_lt hx (by omega) hr
  have hs' : srcOf n (b 0) (b 1) E.nx (E.nx + 2 * n - 1 - r) < E.nx := srcOf_lt hx (by omega) (by omega)
  have em := src_mirror n E.nx hx (b 0) (b 1) hn r hr
  have hc : Img c (memOf c u old (false, srcOf n (b 1) (b 0) E.nx r))
      (memOf c w old1 (false, srcOf n (b 0) (b 1) E.nx (E.nx + 2 * n - 1 - r))) := by
    intro k hk
    have := h _ hs k hk
    rw [show E.nx - 1 - srcOf n (b 1) (b 0) E.nx r = srcOf n (b 0) (b 1) E.nx (E.nx + 2 * n - 1 - r) by omega] at this
    exact this
  unfold Step.flip
  rw [hub, hwb, a r hr, a1 _ (by change _ < E.nx + 2 * n; omega)]
  change ghostOf ⟨n, E'.destress⟩ 0 (b 1) (b 0) E.nx r _ v =
    sgn c v * ghostOf ⟨n, E.destress⟩ 0 (b 0) (b 1) E.nx (E.nx + 2 * n - 1 - r) _ v
  unfold ghostOf
  by_cases g1 : r < n
  · rw [if_pos g1, if_neg (show ¬ E.nx + 2 * n - 1 - r < n by omega), if_neg (show ¬ E.nx + 2 * n - 1 - r < n + E.nx by omega)]
    exact wall_img _ _ hM.ds 0 _ h1.2 hc v v.2
  · rw [if_neg g1]
    by_cases g2 : r < n + E.nx
    · rw [if_pos g2, if_neg (show ¬ E.nx + 2 * n - 1 - r < n by omega), if_pos (show E.nx + 2 * n - 1 - r < n + E.nx by omega)]
      exact hc v v.2
    · rw [if_neg g2, if_pos (show E.nx + 2 * n - 1 - r < n by omega)]
      exact wall_img _ _ hM.ds 0 _ h0.2 hc v v.2

/-- `DESTRESS` does not spoil the mirror: the rotation it uses does not depend on the choice of singular vectors. -/
theorem destress_img (hv : c.viscous = true) (svd' svd : M3 → M3 × V3 × M3) (hs : ∀ A, Relax.SvdAt svd A)
    (hs' : ∀ A, Relax.SvdAt svd' A) {q' q : Nat → ℝ} (h : Img c q' q) : Img c (Grid.destress svd' q') (Grid.destress svd q) := by
  have hV := Iter.V_ge c hv
  have hA : getA q' = mirrorM * getA q * mirrorM.transpose := by
    rw [← mir_A c]
    exact Rot.getA_congr fun k _ h2 => h k (by omega)
  have hdet : (getA q').det = (getA q).det := by rw [hA, ← mir_A c, mir_det]
  have key : (2 * (getA q').det ^ (1 / 3 : ℝ)) • ((svd' (getA q')).1 * (svd' (getA q')).2.2.transpose) - getA q' =
      mirrorM * ((2 * (getA q).det ^ (1 / 3 : ℝ)) • ((svd (getA q)).1 * (svd (getA q)).2.2.transpose) - getA q) *
        mirrorM.transpose := by
    rw [hdet, Matrix.mul_sub, Matrix.sub_mul, ← hA]
    congr 1
    by_cases h0 : (getA q).det = 0
    · rw [h0, Real.zero_rpow (by norm_num), mul_zero, zero_smul, zero_smul, Matrix.mul_zero, Matrix.zero_mul]
    · rw [Matrix.mul_smul, Matrix.smul_mul]
      congr 1
      obtain ⟨⟨u1, w1, p1, e1⟩, o1⟩ := hs (getA q)
      obtain ⟨i2, o2⟩ := hs' (getA q')
      have orth : ∀ U : M3, U.transpose * U = 1 → (mirrorM * U).transpose * (mirrorM * U) = 1 := fun U hU => by
        rw [Matrix.transpose_mul, Matrix.mul_assoc, ← Matrix.mul_assoc mirrorM.transpose, mirrorM_orth, Matrix.one_mul, hU]
      have i1 : IsSVD (getA q') (mirrorM * (svd (getA q)).1) (mirrorM * (svd (getA q)).2.2) (svd (getA q)).2.1 := by
        refine ⟨orth _ u1, orth _ w1, p1, ?_⟩
        rw [hA]
        conv_lhs => rw [e1]
        simp only [Matrix.transpose_mul, Matrix.mul_assoc]
      have es := Relax.svd_values _ _ _ _ _ _ _ i2 i1 o2 o1
      rw [es] at i2
      have hpos : ∀ i, 0 < (svd (getA q)).2.1 i := by
        intro i
        refine lt_of_le_of_ne (p1 i) fun h => h0 ?_
        have hd := Iter.svd_det (getA q) _ _ _ (hs (getA q)).ok
        have : (svd (getA q)).2.1 0 * (svd (getA q)).2.1 1 * (svd (getA q)).2.1 2 = 0 := by
          fin_cases i <;> simp only [Fin.zero_eta, Fin.mk_one, Fin.reduceFinMk] at h <;> rw [← h] <;> ring
        rw [this, abs_eq_zero] at hd
        exact hd
      have := Relax.svd_apply _ _ _ _ _ _ 1 i2 i1 hpos (fun _ _ _ => rfl)
      rw [show Matrix.diagonal (1 : V3) = 1 from Matrix.diagonal_one, Matrix.mul_one, Matrix.mul_one] at this
      rw [this]
      simp only [Matrix.transpose_mul, Matrix.mul_assoc]
  intro k hk
  unfold Grid.destress
  rw [key]
  generalize (2 * (getA q).det ^ (1 / 3 : ℝ)) • ((svd (getA q)).1 * (svd (getA q)).2.2.transpose) - getA q = B
  by_cases h9 : 5 ≤ k ∧ k < 14
  · obtain ⟨a, b, rfl⟩ := slot9 k h9.1 h9.2
    have g : ∀ (B : M3) (q : St), setA B q (5 + (3 * (a : Nat) + b)) = B a b := fun B q => by
      have := congrFun (congrFun (Rot.setA_getA B q) a) b
      rw [← this]
      unfold getA
      congr 1
    rw [g, g, mirrorM_mat]
    have : sgn c (5 + (3 * (a : Nat) + b)) = sg a * sg b := by
      fin_cases a <;> fin_cases b <;> norm_num [sgn, sg]
    rw [this]
  · rw [Rot.setA_other _ _ _ (by omega), Rot.setA_other _ _ _ (by omega)]
    exact h k hk

/-! ### Source terms -/

/-- Eigen's decomposition with the larger stretches first. -/
def Env.SvdOk (E : Env c n) : Prop := ∀ A, Relax.SvdAt E.svd A

/-- Eigen's singular vectors are mirrored too, up to their signs, or the relaxation does not depend on their choice. -/
def Calm (E' E : Env c n) (q : Fin c.V → ℝ) : Prop :=
  let A := getA (ofVec c q)
  (∃ δ : V3, (∀ i, δ i * δ i = 1) ∧ E'.svd (mirrorM * A * mirrorM.transpose) =
    (mirrorM * (E.svd A).1 * Matrix.diagonal δ, (E.svd A).2.1, mirrorM * (E.svd A).2.2 * Matrix.diagonal δ)) ∨
  (1e-12 ≤ (Relax.invariants (E.svd A).2.1).2 → Relax.Distinct (E.svd A).2.1)

theorem ode_mirror (hv : c.viscous = true) (hM : E'.Mirror E G) (hmix : c.mix (mirPar E.P) = c.mix E.P) (hs : E.SvdOk)
    (hs' : E'.SvdOk) (dt : ℝ) (q : Fin c.V → ℝ) (hq : Calm E' E q) :
    E'.ode dt (Step.flip (eps c) q) = Step.flip (eps c) (E.ode dt q) := by
  have e : Relax.odeCell c E'.P E'.svd E'.steps E'.fuel (dt / 2) (ofVec c (Step.flip (eps c) q)) =
      (Relax.odeCell c E.P E.svd E.steps E.fuel (dt / 2) (ofVec c q)).map fun Q => mir c Q := by
    rw [hM.P, hM.steps, hM.fuel, mir_ofVec, ← rotate_mirror]
    simp only [← rotate_mirror]
    refine Relax.ode_turn_of c E.P mirrorM hv hmix mirrorM_orth E.svd E'.svd E.steps E.fuel (dt / 2) _ fun Q1 h1 => ?_
    rcases hq with ⟨δ, hδ, hq⟩ | hq
    · refine Relax.turn_covariant c E.P mirrorM E.svd E'.svd (dt / 2) Q1 δ hδ ?_
      rw [h1]
      exact hq
    · exact Relax.turn_distortion c E.P mirrorM mirrorM_orth E.svd E'.svd (dt / 2) Q1 (hs _) (hs' _) (by rw [h1]; exact hq)
  unfold Env.ode
  rw [e]
  cases Relax.odeCell c E.P E.svd E.steps E.fuel (dt / 2) (ofVec c q) with
  | none => exact hM.bad q
  | some Q => rfl

/-! ### One call of the steppers -/

theorem sys_mirrored (hv : c.viscous = true) (hM : E'.Mirror E G) (hmix : c.mix (mirPar E.P) = c.mix E.P) :
    Mirrored (eps c) E.sys E'.sys := by
  unfold Env.sys
  rw [hM.P]
  exact gpr_mirrored c hv hmix E.src E'.src hM.src E.junk E'.junk

/-- The source terms of the split scheme do not depend on the choice of singular vectors, before and after the transport. -/
def CalmLine (E' E : Env c n) (b : Nat → BT) (dt : ℝ) (w : Iter.Mem) : Prop := ∀ wb maskb, Pads1 E b w wb →
  (∀ r < E.nx + 2 * n, Calm E' E (wb r)) ∧ (∀ i < E.nx, Calm E' E (cellsOf c w i)) ∧
    ∀ i < E.nx, Calm E' E (before1 E.coef (E.ode dt) E.half (E.mid1 dt) (kern1 E.sys E.T E.fl (fun _ => dt) E.dx false) wb E.nx
      (Grid.extendMask1 E.nx (fun _ => true) maskb) (cellsOf c w) i)

/-- The interfaces the schemes meet in one call lie between states of the kind `G`: those of the split scheme after its first half
step, or those of the predicted states. -/
def FacesLine (G : (Fin c.V → ℝ) → (Fin c.V → ℝ) → Prop) (E : Env c n) (b : Nat → BT) (split : Bool) (dt : ℝ) (w : Iter.Mem) : Prop :=
  ∀ wb, Pads1 E b w wb → ∀ f ≤ E.nx,
    if split then
      let R := fun b => if E.half then E.mid1 dt (weno1G E.coef (fun r => E.ode dt (wb r)) ((E.nx + 2 : Nat) : Int) 0 b)
        else weno1G E.coef (fun r => E.ode dt (wb r)) ((E.nx + 2 : Nat) : Int) 0 b
      G (trace E.T 1 (R f)) (trace E.T 0 (R (f + 1)))
    else ∀ t < n, ∀ p p', E.pred1 dt (weno1G E.coef wb ((E.nx + 2 : Nat) : Int) 0 f) = some p →
      E.pred1 dt (weno1G E.coef wb ((E.nx + 2 : Nat) : Int) 0 (f + 1)) = some p' → G (trace E.T 1 (p t)) (trace E.T 0 (p' t))

theorem facesLine_true (E : Env c n) (b : Nat → BT) (split : Bool) (dt : ℝ) (w : Iter.Mem) :
    FacesLine (fun _ _ => True) E b split dt w := by
  intro wb _ f _
  cases split
  · intro _ _ _ _ _ _; trivial
  · trivial

/-- **One call of the steppers on the mirrored line does what it does on the line, mirrored.** -/
theorem moves_mirror (W : Weno.Setup n) (hW : W.Sym) (undef : ℝ) (it : Nat) (tol : ℝ) (hv : c.viscous = true) (hE : E.Ok)
    (hT0 : E.T.Sym) (hM : E'.Mirror E G) (hmix : c.mix (mirPar E.P) = c.mix E.P) (hX : E.Explicit W undef it tol)
    (hX' : E'.Explicit W undef it tol) (b : Nat → BT) (h0 : b 0 ≠ .other ∧ b 0 ≠ .moving) (h1 : b 1 ≠ .other ∧ b 1 ≠ .moving)
    (split : Bool) (threads threads' : Nat) (hT : 0 < threads) (hT' : 0 < threads') (dt : ℝ) (u w u' w' : Iter.Mem)
    (h : Mirror1 c E.nx u w) (hset : split = false → Settles E b dt w)
    (hcalm : split = true → E.SvdOk ∧ E'.SvdOk ∧ CalmLine E' E b dt w) (hfaces : FacesLine G E b split dt w)
    (hu : MovesLine E' (swapEnds b) split threads dt u u') (hw : MovesLine E b split threads' dt w w') :
    Mirror1 c E.nx u' w' := by
  have hn := hE.tab.pos
  have hx0 : 0 < E.nx := by have := hE.wide.1; omega
  have hS := sys_mirrored hv hM hmix
  obtain ⟨ub, maskb, hp, hu⟩ := hu
  obtain ⟨wb, maskw, hq, hw⟩ := hw
  have hpad := pads_mirror hM hn hE.wide.1 b h0 h1 u w h ub wb hp hq
  have hM1 := mask1_true E.nx hx0 maskb
  have hM1' := mask1_true E.nx hx0 maskw
  rw [hM.nx] at hu
  have cells : ∀ x < E.nx, cellsOf c u x = Step.flip (eps c) (cellsOf c w (E.nx - 1 - x)) := fun x hx => funext fun v =>
    h x hx v v.2
  have hm : ∀ x < E.nx, ∀ a, a ≤ 2 → Grid.extendMask1 E.nx (fun _ => true) maskb (x + a) =
      Grid.extendMask1 E.nx (fun _ => true) maskw (E.nx - 1 - x + (2 - a)) := by
    intro x hx a ha
    rw [hM1 _ (by omega), hM1' _ (by omega)]
  intro x hx k hk
  have hx' : E.nx - 1 - x < E.nx := by omega
  have idx : ∀ a, a ≤ 2 → E.nx + 1 - (x + a) = E.nx - 1 - x + (2 - a) := fun a ha => by omega
  cases split
  · obtain ⟨l, gar, hl, e⟩ := hu
    obtain ⟨l', gar', hl', e'⟩ := hw
    have hs := hset rfl wb hq
    obtain ⟨step, nw, i1, p1⟩ := hX.pred1 dt
    obtain ⟨step', nw', i1', p1'⟩ := hX'.pred1 dt
    rw [hM.T, hM.dx] at i1'
    rw [hX'.coef, hM.T, hM.dx] at hl
    rw [hX.coef] at hl' hs
    rw [hM.T, hM.dx] at e
    have hwt : E'.wt dt = E.wt dt := by
      unfold Env.wt
      rw [hM.T]
    rw [hwt] at hl e
    have hrec : ∀ i < E.nx + 2, ∃ a r,
        E'.pred1 dt (weno1G (realCoef W.T undef) ub ((E.nx + 2 : Nat) : Int) 0 i) = some a ∧
        E.pred1 dt (weno1G (realCoef W.T undef) wb ((E.nx + 2 : Nat) : Int) 0 (E.nx + 1 - i)) = some r ∧
        ∀ t < n, Flips (eps c) (a t) (r t) := by
      intro i hi
      obtain ⟨r, hr⟩ := Option.isSome_iff_exists.1 (hs (E.nx + 1 - i) (by omega))
      have key := pred1_flip hE.tab hT0 hS dt E.dx tol it step' step i1' i1 nw' nw _ _
        (weno_flip W hW undef hS.unit ub wb E.nx i hi hpad)
      rw [← p1, ← p1', hr] at key
      generalize E'.pred1 dt (weno1G (realCoef W.T undef) ub ((E.nx + 2 : Nat) : Int) 0 i) = o at key
      cases key with
      | some hab => exact ⟨_, r, rfl, hr, hab⟩
    rw [e x hx ⟨k, hk⟩, e' _ hx' ⟨k, hk⟩,
      ader_para1 _ (E'.pred1 dt) _ ub E.nx _ threads hT (gar 0) gar
        (fun i hi _ => by obtain ⟨a, r, ha, -⟩ := hrec i hi; rw [ha]; rfl) l hl,
      ader_para1 _ (E.pred1 dt) _ wb E.nx _ threads' hT' (gar' 0) gar' (fun i hi _ => hs i hi) l' hl']
    unfold ader1
    refine congrFun (fv_flip hE.tab hT0 hS hM.fl _ _ E.nx n _ _ x (E.nx - 1 - x) hx hx' (hm x hx) ?_ ?_ _ _ (cells x hx)) ⟨k, hk⟩
    all_goals intro a t ha ht hmask
    all_goals have d1 : ∀ a, (a * n + t) / n = a ∧ (a * n + t) % n = t := fun a =>
      ⟨by rw [Nat.mul_comm, Nat.mul_add_div hn, Nat.div_eq_of_lt ht, Nat.add_zero],
        by rw [Nat.mul_comm, Nat.mul_add_mod, Nat.mod_eq_of_lt ht]⟩
    all_goals have i2 : ∀ a, ind2 a t n = a * n + t := fun _ => rfl
    · obtain ⟨p, r, hp', hr, har⟩ := hrec (x + a) (by omega)
      rw [idx a ha] at hr
      have hmask' := hmask
      rw [hm x hx a ha] at hmask'
      simp only [i2, (d1 _).1, (d1 _).2, hp', hr, hmask, hmask', orGarbage, if_true, Option.getD_some]
      exact har t ht
    · intro hmask2
      obtain ⟨p, hp'⟩ := Option.isSome_iff_exists.1 (hs (E.nx - 1 - x + a) (by omega))
      obtain ⟨r, hr⟩ := Option.isSome_iff_exists.1 (hs (E.nx - 1 - x + a + 1) (by omega))
      simp only [i2, (d1 _).1, (d1 _).2, hp', hr, hmask, hmask2, orGarbage, if_true, Option.getD_some]
      have := hfaces wb hq (E.nx - 1 - x + a) (by omega)
      simp only [Bool.false_eq_true, if_false, hX.coef] at this
      exact this t ht p r hp' hr
  · obtain ⟨l, hl, e⟩ := hu
    obtain ⟨l', hl', e'⟩ := hw
    obtain ⟨s1, s2, hc⟩ := hcalm rfl
    obtain ⟨c1, c2, c3⟩ := hc wb maskw hq
    have hode : ∀ q, Calm E' E q → E'.ode dt (Step.flip (eps c) q) = Step.flip (eps c) (E.ode dt q) :=
      ode_mirror hv hM hmix s1 s2 dt
    rw [hM.dx, hM.T] at hl e
    rw [e x hx ⟨k, hk⟩, e' _ hx' ⟨k, hk⟩,
      split_para1 _ (E'.ode dt) E'.half (E'.mid1 dt) (fun q => q) _ ub E.nx _ threads hT l hl,
      split_para1 _ (E.ode dt) E.half (E.mid1 dt) (fun q => q) _ wb E.nx _ threads' hT' l' hl']
    unfold split1
    rw [split_get _ _ _ _ _ _ hx, split_get _ _ _ _ _ _ hx']
    have key := fv_flip (fl := E.fl) (fl' := E'.fl) (wt := fun _ => dt) (dx := E.dx) (sources := false) hE.tab hT0 hS hM.fl
      (fun b => if E'.half && Grid.extendMask1 E.nx (fun _ => true) maskb b then
        E'.mid1 dt (weno1G E'.coef (fun r => E'.ode dt (ub r)) ((E.nx + 2 : Nat) : Int) 0 b)
        else weno1G E'.coef (fun r => E'.ode dt (ub r)) ((E.nx + 2 : Nat) : Int) 0 b)
      (fun b => if E.half && Grid.extendMask1 E.nx (fun _ => true) maskw b then
        E.mid1 dt (weno1G E.coef (fun r => E.ode dt (wb r)) ((E.nx + 2 : Nat) : Int) 0 b)
        else weno1G E.coef (fun r => E.ode dt (wb r)) ((E.nx + 2 : Nat) : Int) 0 b)
      E.nx 1 _ _ x (E.nx - 1 - x) hx hx' (hm x hx) ?_ ?_ (fun i => E'.ode dt (cellsOf c u i)) (fun i => E.ode dt (cellsOf c w i)) ?_
    · change E'.ode dt (apply _ _ _ x) ⟨k, hk⟩ = sgn c k * E.ode dt (apply _ _ _ (E.nx - 1 - x)) ⟨k, hk⟩
      rw [key]
      exact congrFun (hode _ (c3 _ hx')) ⟨k, hk⟩
    · intro a t ha ht hmask
      obtain rfl : t = 0 := by omega
      have i2 : ∀ a, ind2 a 0 1 = a := fun a => by unfold ind2; ring
      have hmask' := hmask
      rw [hm x hx a ha] at hmask'
      simp only [i2, hmask, hmask', Bool.and_true, hM.half, hX.mid1, hX'.mid1, hX.coef, hX'.coef, hM.T, hM.dx]
      have hwn := weno_flip W hW undef hS.unit (fun r => E'.ode dt (ub r)) (fun r => E.ode dt (wb r)) E.nx (x + a) (by omega)
        fun r hr => by
          rw [hpad r hr]
          exact hode _ (c1 _ (by omega))
      rw [idx a ha] at hwn
      split_ifs
      · exact mid1_flip hE.tab hT0 hS dt E.dx _ _ hwn
      · exact hwn
    · intro a t ha ht hmask hmask2
      obtain rfl : t = 0 := by omega
      have i2 : ∀ a, ind2 a 0 1 = a := fun a => by unfold ind2; ring
      simp only [i2, hmask, hmask2, Bool.and_true]
      have := hfaces wb hq (E.nx - 1 - x + a) (by omega)
      simpa only [if_true] using this
    · rw [cells x hx]
      exact hode _ (c2 _ hx')

/-! ### The end of a pass -/

/-- The end of a pass in the mirror; Eigen may decompose differently. -/
structure Tail.Mirror (F' F : Tail c) : Prop where
  ncell : F'.ncell = F.ncell
  MPs : F'.MPs = F.MPs.map (Option.map fun P => mirPar P)
  rot : F'.rot = F.rot
  tol : F'.tol = F.tol
  svd : F.rot = true → ∀ A, F'.svd (mirrorM * A * mirrorM.transpose) = ((F.svd A).1, mirrorM * (F.svd A).2 * mirrorM.transpose)

theorem getA_img (hv : c.viscous = true) {q' q : Nat → ℝ} (h : Img c q' q) :
    getA q' = mirrorM * getA q * mirrorM.transpose := by
  have := Iter.V_ge c hv
  rw [← mir_A c]
  exact Rot.getA_congr fun k _ h2 => h k (by omega)

theorem det_img (hv : c.viscous = true) {q' q : Nat → ℝ} (h : Img c q' q) : (getA q').det = (getA q).det := by
  rw [getA_img hv h, ← mir_A c, mir_det]

theorem img_0 {q' q : Nat → ℝ} (h : Img c q' q) : q' 0 = q 0 := by
  have h5 := mV_pos c
  have hV : 0 < c.V := by unfold Sys.Cfg.V; split_ifs <;> omega
  have := h 0 hV
  simpa [sgn] using this

theorem limit_mirror (hv : c.viscous = true) (nx : Nat) (u w : Iter.Mem) (h : Mirror1 c nx u w) :
    Mirror1 c nx (limitConcentration c nx u) (limitConcentration c nx w) := by
  cases hm : c.multi
  · rw [limit_concentration_off c nx u hm, limit_concentration_off c nx w hm]
    exact h
  · intro i hi k hk
    have h0 : u (i * c.V) = w ((nx - 1 - i) * c.V) := img_0 (c := c) (q' := view c u i) (q := view c w (nx - 1 - i)) (h i hi)
    rw [limit_val c nx u hm i k hk, limit_val c nx w hm (nx - 1 - i) k hk, h0, h i hi k hk]
    have hj : nx - 1 - i < nx := by omega
    simp only [hi, hj, true_and]
    split_ifs with e
    · subst e
      rw [sgn_mV hv, one_mul, one_mul]
    · rfl

theorem index_img (hv : c.viscous = true) {q' q : Nat → ℝ} (h : Img c q' q) : materialIndex c q' = materialIndex c q := by
  refine materialIndex_congr c _ _ fun k hk hk' => ?_
  rw [h k hk, sgn_high c k, one_mul]
  · have := Iter.V_ge c hv
    unfold Sys.Cfg.V Sys.Cfg.mV at *
    split_ifs at * <;> omega
  · intro ht
    unfold Sys.Cfg.V Sys.Cfg.mV at *
    simp only [hv, ht] at *
    split_ifs at * <;> omega

theorem matter_mirror (hv : c.viscous = true) (MPs : List (Option Sys.Par)) (g g' : Sys.Par → Iter.Mem → Nat → Iter.Mem)
    (hL : Local c.V (matterCell c (MPs.map (Option.map fun P => mirPar P)) g')) (hL' : Local c.V (matterCell c MPs g))
    (hg : ∀ P (u w : Iter.Mem) i j, Img c (view c u i) (view c w j) → Img c (view c (g' (mirPar P) u i) i) (view c (g P w j) j))
    (nx : Nat) (u w u' w' : Iter.Mem) (h : Mirror1 c nx u w)
    (hu : (List.range nx).foldlM (matterCell c (MPs.map (Option.map fun P => mirPar P)) g') u = some u')
    (hw : (List.range nx).foldlM (matterCell c MPs g) w = some w') : Mirror1 c nx u' w' := by
  intro i hi k hk
  have hj : nx - 1 - i < nx := by omega
  have hc : Img c (view c u i) (view c w (nx - 1 - i)) := h i hi
  have e := index_img hv hc
  rcases matter_spec c _ g' hL nx u u' hu i hi with ⟨a, b⟩ | ⟨P, a, b⟩ <;>
  rcases matter_spec c MPs g hL' nx w w' hw (nx - 1 - i) hj with ⟨a', b'⟩ | ⟨P', a', b'⟩ <;>
  rw [e, List.getElem?_map, a'] at a
  · rw [b k hk, b' k hk]; exact h i hi k hk
  · cases a
  · cases a
  · cases a
    rw [b k hk, b' k hk]
    exact hg _ u w i (nx - 1 - i) hc k hk

theorem renorm_mirror (hv : c.viscous = true) (P : Sys.Par) (u w : Iter.Mem) (i j : Nat) (h : Img c (view c u i) (view c w j)) :
    Img c (view c (renormCell c (mirPar P) u i) i) (view c (renormCell c P w j) j) := by
  intro k hk
  have h0 : u (i * c.V) = w (j * c.V) := img_0 h
  have hk' : u (i * c.V + k) = sgn c k * w (j * c.V + k) := h k hk
  unfold view
  rw [renormCell_val, renormCell_val, det_img hv h, h0, hk']
  simp only [Nat.add_le_add_iff_left, Nat.add_lt_add_iff_left]
  split_ifs
  · exact mul_assoc _ _ _
  · rfl

theorem reset_mirror (hv : c.viscous = true) (P : Sys.Par) (u w : Iter.Mem) (i j : Nat) (h : Img c (view c u i) (view c w j)) :
    Img c (view c (resetCell c (mirPar P) u i) i) (view c (resetCell c P w j) j) := by
  intro k hk
  have hV := Iter.V_ge c hv
  have h0 : u (i * c.V) = w (j * c.V) := img_0 h
  have h1 : u (i * c.V + 1) = w (j * c.V + 1) := by
    have := h 1 (by omega)
    simpa [sgn, view] using this
  have hk' : u (i * c.V + k) = sgn c k * w (j * c.V + k) := h k hk
  unfold view
  rw [resetCell_val, resetCell_val, getA_img hv h, h0, h1, hk']
  have e : E2A (mirPar P).toParams (w (j * c.V)) (mirrorM * getA (view c w j) * mirrorM.transpose) =
      E2A P.toParams (w (j * c.V)) (getA (view c w j)) := by
    unfold E2A
    rw [devGsq_rotate _ _ mirrorM_orth]
    rfl
  rw [e]
  split_ifs with a1 a2
  · subst a1; simp [sgn]
  · rcases a2 with rfl | rfl | rfl <;> simp [sgn] <;> rfl
  · simp
  · rfl

theorem rotateCell_mirror (hv : c.viscous = true) (svd' svd : M3 → V3 × M3)
    (hs : ∀ A, svd' (mirrorM * A * mirrorM.transpose) = ((svd A).1, mirrorM * (svd A).2 * mirrorM.transpose)) (P : Sys.Par)
    (u w : Iter.Mem) (i j : Nat) (h : Img c (view c u i) (view c w j)) :
    Img c (view c (rotateCell c svd' (mirPar P) u i) i) (view c (rotateCell c svd P w j) j) := by
  intro k hk
  unfold view
  by_cases h9 : 5 ≤ k ∧ k < 14
  · obtain ⟨a, b, rfl⟩ := slot9 k h9.1 h9.2
    rw [rotateCell_in, rotateCell_in, getA_img hv h, hs]
    simp only [mirrorM_mat]
    have : sgn c (5 + (3 * (a : Nat) + b)) = sg b * sg a := by
      fin_cases a <;> fin_cases b <;> norm_num [sgn, sg]
    rw [this]
    ring
  · rw [rotateCell_out _ _ _ _ _ _ (by omega), rotateCell_out _ _ _ _ _ _ (by omega)]
    exact h k hk

theorem anisotropy_mirror (hv : c.viscous = true) (sv' sv : M3 → V3) (hs : ∀ A, ∃ U W, IsSVD A U W (sv A))
    (hs' : ∀ A, ∃ U W, IsSVD A U W (sv' A)) {q' q : Nat → ℝ} (h : Img c q' q) :
    anisotropy (sv' (getA q')) = anisotropy (sv (getA q)) := by
  obtain ⟨U, W, h1⟩ := hs (getA q)
  obtain ⟨U', W', h2⟩ := hs' (getA q')
  rw [anisotropy_svd _ _ _ _ h1, anisotropy_svd _ _ _ _ h2, det_img hv h, getA_img hv h]
  have e : (mirrorM * getA q * mirrorM.transpose).transpose * (mirrorM * getA q * mirrorM.transpose) =
      mirrorM * ((getA q).transpose * getA q) * mirrorM.transpose := by
    simp only [Matrix.transpose_mul, Matrix.transpose_transpose, Matrix.mul_assoc]
    rw [← Matrix.mul_assoc mirrorM.transpose mirrorM, mirrorM_orth, Matrix.one_mul]
  rw [e, Matrix.trace_mul_comm, ← Matrix.mul_assoc, mirrorM_orth, Matrix.one_mul]

theorem contorted_mirror (hv : c.viscous = true) (sv' sv : M3 → V3) (hs : ∀ A, ∃ U W, IsSVD A U W (sv A))
    (hs' : ∀ A, ∃ U W, IsSVD A U W (sv' A)) (nx : Nat) (u w : Iter.Mem) (h : Mirror1 c nx u w) (tol : ℝ) :
    contorted c sv' nx u tol = contorted c sv nx w tol := by
  have key : ∀ i < nx, anisotropy (sv' (getA (view c u i))) = anisotropy (sv (getA (view c w (nx - 1 - i)))) := fun i hi =>
    anisotropy_mirror hv sv' sv hs hs' (q' := view c u i) (h i hi)
  unfold contorted
  rw [Bool.eq_iff_iff, List.any_eq_true, List.any_eq_true]
  constructor
  · rintro ⟨i, hi, hx⟩
    have hi := List.mem_range.1 hi
    refine ⟨nx - 1 - i, List.mem_range.2 (by omega), ?_⟩
    rw [← key i hi]
    exact hx
  · rintro ⟨j, hj, hx⟩
    have hj := List.mem_range.1 hj
    refine ⟨nx - 1 - j, List.mem_range.2 (by omega), ?_⟩
    rw [key _ (by omega), show nx - 1 - (nx - 1 - j) = j by omega]
    exact hx

/-- **The end of a pass on the mirrored line.** -/
theorem finish_mirror (F' F : Tail c) (hv : c.viscous = true) (hM : F'.Mirror F) (hF : F.Ok) (hF' : F'.Ok) (count : Nat)
    (u w u' w' : Iter.Mem) (h : Mirror1 c F.ncell u w) (hu : finish F' count u = some u') (hw : finish F count w = some w') :
    Mirror1 c F.ncell u' w' := by
  unfold finish at hu hw
  simp only [Option.bind_eq_bind] at hu hw
  obtain ⟨u1, e1, hu⟩ := Option.bind_eq_some_iff.1 hu
  obtain ⟨u2, e2, e3⟩ := Option.bind_eq_some_iff.1 hu
  obtain ⟨w1, d1, hw⟩ := Option.bind_eq_some_iff.1 hw
  obtain ⟨w2, d2, d3⟩ := Option.bind_eq_some_iff.1 hw
  rw [hM.ncell, hM.MPs] at e1
  have l1 : Mirror1 c F.ncell u1 w1 := matter_mirror hv F.MPs _ _ (renorm_local c hv _) (renorm_local c hv _) (renorm_mirror hv)
    F.ncell _ _ u1 w1 (limit_mirror hv F.ncell u w h) e1 d1
  have l2 : Mirror1 c F.ncell u2 w2 := by
    unfold rotateSome at e2 d2
    rw [hM.rot] at e2
    split_ifs at e2 d2 with hr
    · unfold rotateDistortion at e2 d2
      rw [hM.ncell, hM.MPs] at e2
      exact matter_mirror hv F.MPs _ _ (rotate_local c hv _ _) (rotate_local c hv _ _)
        (rotateCell_mirror hv F'.svd F.svd (hM.svd hr.2)) F.ncell _ _ u2 w2 l1 e2 d2
    · cases e2
      cases d2
      exact l1
  have e := contorted_mirror hv F'.sv F.sv hF.sv hF'.sv F.ncell u2 w2 l2 F.tol
  unfold resetSome at e3 d3
  rw [hM.ncell, hM.tol, e, hM.MPs] at e3
  split_ifs at e3 d3 with hr
  · exact matter_mirror hv F.MPs _ _ (reset_local c hv _) (reset_local c hv _) (reset_mirror hv) F.ncell _ _ u' w' l2 e3 d3
  · cases e3
    cases d3
    exact l2

/-! ### Whole runs -/

theorem timestep_mirror (mae : Sys.Par → St → Nat → Option ℝ) (P : Sys.Par) (nx : Nat) (u w : Iter.Mem) (h : Mirror1 c nx u w)
    (hmae : ∀ q' q : St, Img c q' q → mae (mirPar P) q' 0 = mae P q 0) (dx CFL t tf : ℝ) (count : Nat) :
    timestep c mae [u] [fun _ => true] [dx] CFL t tf count [some (mirPar P)] 1 nx =
      timestep c mae [w] [fun _ => true] [dx] CFL t tf count [some P] 1 nx := by
  unfold timestep
  congr 2
  obtain ⟨a1, a2, a3⟩ := maxSpeed_spec c mae [u] [fun _ => true] [dx] [some (mirPar P)] 1 nx
  obtain ⟨b1, b2, b3⟩ := maxSpeed_spec c mae [w] [fun _ => true] [dx] [some P] 1 nx
  set r := maxSpeed c mae [u] [fun _ => true] [dx] [some (mirPar P)] 1 nx
  set r' := maxSpeed c mae [w] [fun _ => true] [dx] [some P] 1 nx
  have hc : ∀ i < nx, cellSpeed mae [dx] (mirPar P) (view c u i) = cellSpeed mae [dx] P (view c w (nx - 1 - i)) := by
    intro i hi
    have e := hmae (view c u i) (view c w (nx - 1 - i)) (h i hi)
    simp only [cellSpeed, List.length_singleton, List.range_one, List.foldl_cons, List.foldl_nil, e]
  apply le_antisymm
  · rcases a3 with a3 | ⟨mat, ind, P', hL, hs'⟩
    · rw [a3]; exact b1
    · obtain ⟨l1, l2, l3, -⟩ := hL
      obtain rfl : mat = 0 := by omega
      obtain rfl : mirPar P = P' := by simpa using l3
      have e : cellSpeed mae [dx] (mirPar P) (view c u ind) = some r := hs'
      rw [hc ind l2] at e
      exact b2 0 (nx - 1 - ind) P ⟨Nat.one_pos, by omega, rfl, rfl⟩ r e
  · rcases b3 with b3 | ⟨mat, ind, P', hL, hs'⟩
    · rw [b3]; exact a1
    · obtain ⟨l1, l2, l3, -⟩ := hL
      obtain rfl : mat = 0 := by omega
      obtain rfl : P = P' := by simpa using l3
      have e : cellSpeed mae [dx] P (view c w ind) = some r' := hs'
      have hi : nx - 1 - ind < nx := by omega
      have := hc _ hi
      rw [show nx - 1 - (nx - 1 - ind) = ind by omega, e] at this
      exact a2 0 (nx - 1 - ind) (mirPar P) ⟨Nat.one_pos, hi, rfl, rfl⟩ r' this

/-- **The mirror image of the data gives the mirror image of the run**: the field after every pass, every snapshot and every
slot returned are the mirror images of those of the other run, at the same times. -/
theorem run_mirror {W1 W2 : Type} (F' F : Tail c) (W : Weno.Setup n) (hW : W.Sym) (undef : ℝ) (it : Nat) (tol : ℝ)
    (hv : c.viscous = true) (hE : E.Ok) (hT0 : E.T.Sym) (hM : E'.Mirror E G) (hmix : c.mix (mirPar E.P) = c.mix E.P)
    (hX : E.Explicit W undef it tol) (hX' : E'.Explicit W undef it tol) (hF : F.ncell = E.nx) (hMF : F'.Mirror F) (hFo : F.Ok)
    (hFo' : F'.Ok) (bt : Nat → BT) (h0 : bt 0 ≠ .other ∧ bt 0 ≠ .moving) (h1 : bt 1 ≠ .other ∧ bt 1 ≠ .moving)
    (split : Bool) (threads threads' : Nat) (hT : 0 < threads) (hT' : 0 < threads') (mae : Sys.Par → St → Nat → Option ℝ)
    (hmae : ∀ q' q : St, Img c q' q → mae (mirPar E.P) q' 0 = mae E.P q 0) (CFL : ℝ)
    (b : Body Iter.Mem W1) (b' : Body Iter.Mem W2) (tf : ℝ) (u0 u0' : Iter.Mem) (w0 : W1) (w0' : W2)
    (hu0 : Mirror1 c E.nx u0 u0') (ht : Timed (c := c) (mirPar E.P) mae [E.dx] CFL E.nx b tf u0 w0)
    (ht' : Timed (c := c) E.P mae [E.dx] CFL E.nx b' tf u0' w0')
    (hb : FollowsLine E' F' (swapEnds bt) split threads b tf u0 w0) (hb' : FollowsLine E F bt split threads' b' tf u0' w0')
    (hset : split = false → ∀ m s', Reach b' tf u0' w0' m s' → s'.t < tf →
      Settles E bt (b'.step s'.u s'.w s'.t s'.count).2.2 s'.u)
    (hcalm : split = true → E.SvdOk ∧ E'.SvdOk ∧ ∀ m s', Reach b' tf u0' w0' m s' → s'.t < tf →
      CalmLine E' E bt (b'.step s'.u s'.w s'.t s'.count).2.2 s'.u)
    (hfaces : ∀ m s', Reach b' tf u0' w0' m s' → s'.t < tf →
      FacesLine G E bt split (b'.step s'.u s'.w s'.t s'.count).2.2 s'.u)
    (hnan : ∀ u w, Mirror1 c E.nx u w → b.isNaN u = b'.isNaN w) {m : Nat} {s : Vars Iter.Mem W1} (hs : Reach b tf u0 w0 m s) :
    ∃ s', Reach b' tf u0' w0' m s' ∧ Twin (Mirror1 c E.nx) s s' ∧
      ∀ ret v, pass b tf s = .done ret v → ∃ ret' v', pass b' tf s' = .done ret' v' ∧
        ∀ k, Option.Rel (Mirror1 c E.nx) (ret k) (ret' k) := by
  have hk : Keeps b b' tf (Mirror1 c E.nx) u0 w0 u0' w0' := by
    intro m s s' hr hr' htw hlt
    have hlt' : s'.t < tf := htw.t ▸ hlt
    have e1 := ht m s hr hlt
    have e2 := ht' m s' hr' hlt'
    rw [timestep_mirror mae E.P E.nx s.u s'.u htw.u hmae, htw.t, htw.count, e2] at e1
    have e : (b'.step s'.u s'.w s'.t s'.count).2.2 = (b.step s.u s.w s.t s.count).2.2 := by
      rw [htw.t, htw.count]
      injection e1
    obtain ⟨u1, a1, a2⟩ := hb m s hr hlt
    obtain ⟨w1, c1, c2⟩ := hb' m s' hr' hlt'
    rw [← e] at a1
    have mv := moves_mirror W hW undef it tol hv hE hT0 hM hmix hX hX' bt h0 h1 split threads threads' hT hT' _ s.u s'.u u1 w1
      htw.u (fun hsp => hset hsp m s' hr' hlt') (fun hsp => ⟨(hcalm hsp).1, (hcalm hsp).2.1, (hcalm hsp).2.2 m s' hr' hlt'⟩)
      (hfaces m s' hr' hlt') a1 c1
    rw [← hF] at mv ⊢
    exact ⟨finish_mirror F' F hv hMF hFo hFo' (s.count + 1) u1 w1 _ _ mv a2 (by rw [htw.count]; exact c2), e.symm⟩
  obtain ⟨s', r1, r2, r3⟩ := runs_twin hnan u0 w0 u0' w0' hu0 hk hs
  exact ⟨s', r1, r2, fun ret v hd => by
    obtain ⟨ret', v', q1, -, q3⟩ := r3 ret v hd
    exact ⟨ret', v', q1, q3⟩⟩

/-- **Symmetric problems have symmetric solutions**: if the data are their own mirror image, both ends are of one kind and no
body force acts along the line, then the field after every pass and every snapshot is its own mirror image. -/
theorem run_symmetric {W1 : Type} (F : Tail c) (W : Weno.Setup n) (hW : W.Sym) (undef : ℝ) (it : Nat) (tol : ℝ)
    (hv : c.viscous = true) (hE : E.Ok) (hT0 : E.T.Sym) (hM : E.Mirror E G) (hX : E.Explicit W undef it tol) (hF : F.ncell = E.nx)
    (hMF : F.Mirror F) (hFo : F.Ok) (bt : Nat → BT) (h01 : bt 0 = bt 1) (h0 : bt 0 ≠ .other ∧ bt 0 ≠ .moving)
    (split : Bool) (threads : Nat) (hT : 0 < threads) (mae : Sys.Par → St → Nat → Option ℝ)
    (hmae : ∀ q' q : St, Img c q' q → mae E.P q' 0 = mae E.P q 0) (CFL : ℝ)
    (b : Body Iter.Mem W1) (tf : ℝ) (u0 : Iter.Mem) (w0 : W1) (hu0 : Mirror1 c E.nx u0 u0)
    (ht : Timed (c := c) E.P mae [E.dx] CFL E.nx b tf u0 w0) (hb : FollowsLine E F bt split threads b tf u0 w0)
    (hset : split = false → ∀ m s, Reach b tf u0 w0 m s → s.t < tf → Settles E bt (b.step s.u s.w s.t s.count).2.2 s.u)
    (hcalm : split = true → E.SvdOk ∧ ∀ m s, Reach b tf u0 w0 m s → s.t < tf →
      CalmLine E E bt (b.step s.u s.w s.t s.count).2.2 s.u)
    (hfaces : ∀ m s, Reach b tf u0 w0 m s → s.t < tf → FacesLine G E bt split (b.step s.u s.w s.t s.count).2.2 s.u)
    (hnan : ∀ u w, Mirror1 c E.nx u w → b.isNaN u = b.isNaN w) {m : Nat} {s : Vars Iter.Mem W1} (hs : Reach b tf u0 w0 m s) :
    Mirror1 c E.nx s.u s.u ∧ (∀ k x, s.ret k = some x → Mirror1 c E.nx x x) ∧ total c E.nx s.u 2 = 0 := by
  have hP : mirPar E.P = E.P := hM.P.symm
  have hsw : swapEnds bt = bt := by
    funext k
    unfold swapEnds
    split_ifs with h1 h2
    · rw [h1, h01]
    · rw [h2, h01]
    · rfl
  obtain ⟨s', r1, r2, -⟩ := run_mirror (E' := E) F F W hW undef it tol hv hE hT0 hM (by rw [hP]) hX hX hF hMF hFo hFo bt h0
    (by rw [← h01]; exact h0) split threads threads hT hT mae (by rw [hP]; exact hmae) CFL b b tf u0 u0 w0 w0 hu0
    (by rw [hP]; exact ht) ht (by rw [hsw]; exact hb) hb hset (fun h => ⟨(hcalm h).1, (hcalm h).1, (hcalm h).2⟩) hfaces hnan hs
  obtain rfl := reach_det b tf u0 w0 hs r1
  refine ⟨r2.u, fun k x hk => ?_, ?_⟩
  · have := r2.ret k
    rw [hk] at this
    cases this with
    | some h => exact h
  · have hV := Iter.V_ge c hv
    have h2 : ∀ i ∈ Finset.range E.nx, s.u (i * c.V + 2) = -s.u ((E.nx - 1 - i) * c.V + 2) := fun i hi => by
      have := r2.u i (Finset.mem_range.1 hi) 2 (by omega)
      rw [this]
      simp [sgn]
    have e : total c E.nx s.u 2 = -total c E.nx s.u 2 := by
      unfold total
      conv_lhs => rw [Finset.sum_congr rfl h2]
      rw [Finset.sum_neg_distrib, Finset.sum_range_reflect (fun i => s.u (i * c.V + 2))]
    linarith

/-! ### Examples -/

/-- A line of 8 cells of any material, with the flux of Rusanov. -/
def mirEnv (T : Tab 2) (h : T.Ok) (W : Weno.Setup 2) (P : Sys.Par) (svd : M3 → M3 × V3 × M3) : Env lineCfg 2 :=
  let S := gpr lineCfg P (Relax.source lineCfg P 0) fun _ => 7
  { boxEnv T h W (rusanov lineCfg P) (fun _ => .nan) fun _ => .nan with
    P := P
    src := Relax.source lineCfg P 0
    svd := svd
    pred1 := fun dt => Step.pred1 false 4 0 (fun w => (isStep1_exists h S (initialCondition1 T (rows1 w)) dt (1 / 10)).choose)
      fun _ _ _ => 0
    pred2 := fun dt => Step.pred2 false 4 0 (fun w => (isStep2_exists h S (initialCondition2 T (rows2 w)) dt (1 / 10) 1).choose)
      fun _ _ _ => 0
    mid1 := fun dt => Step.mid1 S T dt (1 / 10)
    mid2 := fun dt => Step.mid2 S T dt (1 / 10) 1 }

def mirTail (P : Sys.Par) : Tail lineCfg := { boxTail.on 8 with MPs := [some P] }

theorem mirTail_ok (P : Sys.Par) : (mirTail P).Ok := ⟨(lineTail_ok 2).svd, (lineTail_ok 2).sv, by simp [mirTail, lineCfg]⟩

theorem mirTail_mirror (P : Sys.Par) : (mirTail (mirPar P)).Mirror (mirTail P) :=
  ⟨rfl, rfl, rfl, rfl, fun h => (nomatch h)⟩

section

variable {T : Tab 2} (h : T.Ok) (W : Weno.Setup 2) (P : Sys.Par) {svd : M3 → M3 × V3 × M3}

theorem mirEnv_ok (hs : ∀ A, Relax.SvdAt svd A) : (mirEnv T h W P svd).Ok :=
  ⟨h, ⟨by simp [mirEnv, boxEnv], by simp [mirEnv, boxEnv]⟩, fun _ => ⟨0, rfl⟩, fun A => (hs A).ok⟩

theorem mirEnv_explicit : (mirEnv T h W P svd).Explicit W 0 4 0 :=
  ⟨rfl, fun dt => ⟨_, _, fun _ => (isStep1_exists h _ _ dt (1 / 10)).choose_spec, rfl⟩,
   fun dt => ⟨_, _, fun _ => (isStep2_exists h _ _ dt (1 / 10) 1).choose_spec, rfl⟩, fun _ => rfl, fun _ => rfl, rfl⟩

theorem mirEnv_mirror : (mirEnv T h W (mirPar P) svd).Mirror (mirEnv T h W P svd) fun _ _ => True :=
  ⟨rfl, rfl, rfl, rfl, rusanov_mirrored lineCfg rfl rfl rfl, fun Q => mir_source lineCfg Q rfl rfl 0, Option.Rel.none, rfl, rfl, rfl,
   fun _ => rfl⟩

/-- The signal speed of `timestep`. -/
def mirMae : Sys.Par → St → Nat → Option ℝ := fun P q _ =>
  some (Eig.maxAbsEigs lineCfg P (ofVec lineCfg fun v => q v) 0)

theorem mirMae_img (q' q : St) (hq : Img lineCfg q' q) : mirMae (mirPar P) q' 0 = mirMae P q 0 := by
  unfold mirMae
  have e : (fun v : Fin lineCfg.V => q' v) =
      Step.flip (fun v : Fin lineCfg.V => sgn lineCfg v) fun v : Fin lineCfg.V => q v := funext fun v => hq v v.2
  rw [e, mir_ofVec, mir_maxAbsEigs _ rfl rfl]

/-- A run of the split scheme on the line. -/
theorem mirRun_exists (hs : ∀ A, Relax.SvdAt svd A) (bt : Nat → BT) (h0 : bt 0 ≠ .other) (h1 : bt 1 ≠ .other) (threads : Nat) :
    ∃ b : Body Iter.Mem Unit, (∀ u, b.isNaN u = false) ∧ ∀ u0,
      Timed (c := lineCfg) P mirMae [(mirEnv T h W P svd).dx] (9 / 10) 8 b 1 u0 () ∧
      FollowsLine (mirEnv T h W P svd) (mirTail P) bt true threads b 1 u0 () := by
  have hVpos : 0 < lineCfg.V := by have := Iter.V_ge lineCfg rfl; omega
  obtain ⟨E, hE⟩ : ∃ E, E = mirEnv T h W P svd := ⟨_, rfl⟩
  have hEo : E.Ok := hE ▸ mirEnv_ok h W P hs
  have ex : ∀ (dt : ℝ) (u : Iter.Mem) (count : Nat), ∃ u1 u', MovesLine E bt true threads dt u u1 ∧
      finish (mirTail P) (count + 1) u1 = some u' := fun dt u count => by
    obtain ⟨u1, h1⟩ := movesLine_exists E hVpos hEo bt h0 h1 threads dt u
    obtain ⟨u', h', -⟩ := finish_spec (mirTail P) rfl (mirTail_ok P) (count + 1) u1
    exact ⟨u1, u', h1, h'⟩
  let dtOf := stepLength lineCfg mirMae P [E.dx] (9 / 10) (by norm_num) 8 1
  have hdt : ∀ (u : Iter.Mem) (t : ℝ) (count : Nat), t < 1 →
      timestep lineCfg mirMae [u] [fun _ => true] [E.dx] (9 / 10) t 1 count [some P] 1 8 = .fin (dtOf u t count) := by
    intro u t count ht
    simp only [dtOf, stepLength, dif_pos ht]
    exact (timestep_spec lineCfg mirMae [u] [fun _ => true] [E.dx] [some P] (9 / 10) t 1 count 1 8 (by norm_num)
      ht).choose_spec.1
  refine ⟨⟨fun u _ t count => ((ex (dtOf u t count) u count).choose_spec.choose, (), dtOf u t count), fun _ => false⟩,
    fun _ => rfl, fun u0 => ⟨?_, ?_⟩⟩
  · rw [← hE]
    exact fun m s _ ht => hdt s.u s.t s.count ht
  · rw [← hE]
    exact fun m s _ _ => ⟨_, (ex _ s.u s.count).choose_spec.choose_spec.1, (ex _ s.u s.count).choose_spec.choose_spec.2⟩

end

/-- The two decompositions of the mirror. -/
theorem calm_of_mirror {P P' : Sys.Par} {T : Tab 2} (h : T.Ok) (W : Weno.Setup 2) (svd : M3 → M3 × V3 × M3)
    (hm : ∀ A, ∃ δ : V3, (∀ i, δ i * δ i = 1) ∧
      svd (reflM * A * reflM) = (reflM * (svd A).1 * Matrix.diagonal δ, (svd A).2.1, reflM * (svd A).2.2 * Matrix.diagonal δ))
    (q : Fin lineCfg.V → ℝ) : Calm (mirEnv T h W P' svd) (mirEnv T h W P svd) q := by
  obtain ⟨δ, h1, h2⟩ := hm (getA (ofVec lineCfg q))
  refine Or.inl ⟨δ, h1, ?_⟩
  have e : mirrorM = reflM := rfl
  rw [e, reflM_t]
  exact h2

/-- Any data on a line of 8 cells under gravity, between a slip wall and an open end, and their mirror image with the ends
swapped and the gravity reversed: with the split scheme, `timestep` and three threads for the one and one thread for the other,
both runs exist, and the one is the mirror image of the other throughout. -/
example (T : Tab 2) (h : T.Ok) (hT : T.Sym) (W : Weno.Setup 2) (hW : W.Sym) (u0 u0' : Iter.Mem) (hu : Mirror1 lineCfg 8 u0 u0') :
    ∃ b b' : Body Iter.Mem Unit, ∀ m s, Reach b 1 u0 () m s →
      ∃ s', Reach b' 1 u0' () m s' ∧ Twin (Mirror1 lineCfg 8) s s' := by
  obtain ⟨svd, hs, hm⟩ := mirror_svd_exists
  have hs' : ∀ A, Relax.SvdAt svd A := fun A => ⟨(hs A).1, (hs A).2⟩
  let P : Sys.Par := { samplePar sample with δp := ![-981 / 100, 0, 0] }
  let bt : Nat → BT := fun k => if k = 0 then .slip else .transmissive
  obtain ⟨b, n1, k1⟩ := mirRun_exists h W (mirPar P) hs' (swapEnds bt) (by decide) (by decide) 3
  obtain ⟨b', n2, k2⟩ := mirRun_exists h W P hs' bt (by decide) (by decide) 1
  refine ⟨b, b', fun m s hr => ?_⟩
  obtain ⟨s', r1, r2, -⟩ := run_mirror (mirTail (mirPar P)) (mirTail P) W hW 0 4 0 rfl (mirEnv_ok h W P hs') hT
    (mirEnv_mirror h W P) rfl (mirEnv_explicit h W P) (mirEnv_explicit h W (mirPar P)) rfl (mirTail_mirror P) (mirTail_ok P)
    (mirTail_ok _) bt ⟨by decide, by decide⟩ ⟨by decide, by decide⟩ true 3 1 (by norm_num) (by norm_num) mirMae (mirMae_img P)
    (9 / 10) b b' 1 u0 u0' () () hu (k1 u0).1 (k2 u0').1 (k1 u0).2 (k2 u0').2 (fun h => (nomatch h))
    (fun _ => ⟨hs', hs', fun m s' _ _ wb maskb _ => ⟨fun r _ => calm_of_mirror h W svd hm _, fun i _ => calm_of_mirror h W svd hm _,
      fun i _ => calm_of_mirror h W svd hm _⟩⟩) (fun _ _ _ _ => facesLine_true _ _ _ _ _) (fun u w _ => by rw [n1, n2]) hr
  exact ⟨s', r1, r2⟩

/-- Symmetric data between two slip walls. -/
example (T : Tab 2) (h : T.Ok) (hT : T.Sym) (W : Weno.Setup 2) (hW : W.Sym) (u0 : Iter.Mem) (hu : Mirror1 lineCfg 8 u0 u0) :
    ∃ b : Body Iter.Mem Unit, ∀ m s, Reach b 1 u0 () m s → Mirror1 lineCfg 8 s.u s.u ∧ total lineCfg 8 s.u 2 = 0 := by
  obtain ⟨svd, hs, hm⟩ := mirror_svd_exists
  have hs' : ∀ A, Relax.SvdAt svd A := fun A => ⟨(hs A).1, (hs A).2⟩
  have hP : mirPar (samplePar sample) = samplePar sample := by
    simp [mirPar, Relax.turnPar, samplePar]
  obtain ⟨b, n1, k1⟩ := mirRun_exists h W (samplePar sample) hs' (fun _ => .slip) (by decide) (by decide) 3
  refine ⟨b, fun m s hr => ?_⟩
  have hMM := mirEnv_mirror h W (samplePar sample) (svd := svd)
  have hMT := mirTail_mirror (samplePar sample)
  have hmae := mirMae_img (samplePar sample)
  rw [hP] at hMM hMT hmae
  obtain ⟨r1, -, r2⟩ := run_symmetric (mirTail (samplePar sample)) W hW 0 4 0 rfl (mirEnv_ok h W _ hs') hT
    hMM (mirEnv_explicit h W _) rfl hMT (mirTail_ok _)
    (fun _ => .slip) rfl ⟨by decide, by decide⟩ true 3 (by norm_num) mirMae hmae
    (9 / 10) b 1 u0 () hu (k1 u0).1 (k1 u0).2 (fun h => (nomatch h))
    (fun _ => ⟨hs', fun m s' _ _ wb maskb _ => ⟨fun r _ => calm_of_mirror h W svd hm _, fun i _ => calm_of_mirror h W svd hm _,
      fun i _ => calm_of_mirror h W svd hm _⟩⟩) (fun _ _ _ _ => facesLine_true _ _ _ _ _) (fun u w _ => by rw [n1, n1]) hr
  exact ⟨r1, r2⟩

end

end Verif.Run
