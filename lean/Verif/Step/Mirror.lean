import Verif.Step.Line
import Verif.Dg.Mirror

/-! # The schemes on a line under the mirror

`ε v` is the sign with which component `v` is mirrored. -/

namespace Verif.Step

open Verif.Fv Verif.Dg Verif.Basis

variable {n : Nat} {ι : Type} {T : Tab n} {S S' : Sys ι} {ε : ι → ℝ}

/-- The mirror image of a state. -/
def flip (ε : ι → ℝ) (q : ι → ℝ) : ι → ℝ := fun v => ε v * q v

/-- The system `S'` is the mirror image of the system `S`. -/
structure Mirrored (ε : ι → ℝ) (S S' : Sys ι) : Prop where
  unit : ∀ v, ε v * ε v = 1
  flux : ∀ q v, S'.flux 0 (flip ε q) v = -(ε v * S.flux 0 q v)
  source : ∀ q v, S'.source (flip ε q) v = ε v * S.source q v
  bdot : ∀ q x v, S'.bdot 0 (flip ε q) (flip ε x) v = -(ε v * S.bdot 0 q x v)
  odd : ∀ q x v, S.bdot 0 q (-x) v = -S.bdot 0 q x v

/-- The block `w'` is the mirror image of the block `w`. -/
def Flips (ε : ι → ℝ) (w' w : Fin n → ι → ℝ) : Prop := ∀ k, w' k = flip ε (w k.rev)

theorem sum_rev (f : Fin n → ℝ) : ∑ k : Fin n, f k.rev = ∑ k, f k := Fintype.sum_equiv Fin.revPerm _ _ fun _ => rfl

theorem flip_flip (hε : ∀ v, ε v * ε v = 1) (q : ι → ℝ) : flip ε (flip ε q) = q := by
  funext v
  unfold flip
  rw [← mul_assoc, hε, one_mul]

theorem Flips.symm (hε : ∀ v, ε v * ε v = 1) {w' w : Fin n → ι → ℝ} (h : Flips ε w' w) : Flips ε w w' := fun k => by
  rw [h, flip_flip hε, Fin.rev_rev]

/-- Differences along the block change sign. -/
theorem diff_flip (h : T.Ok) (hs : T.Sym) (w' w : Fin n → ι → ℝ) (hw : Flips ε w' w) (a : Fin n) :
    (fun v => ∑ k, T.dervals a k * w' k v) = flip ε (-fun v => ∑ k, T.dervals a.rev k * w k v) := by
  funext v
  have hw' : ∀ k, w' k = flip ε (w k.rev) := hw
  simp only [hw', flip, Pi.neg_apply]
  rw [← sum_rev, ← Finset.sum_neg_distrib, Finset.mul_sum]
  refine Finset.sum_congr rfl fun k _ => ?_
  have := dervals_rev h hs a k.rev
  rw [Fin.rev_rev] at this
  rw [Fin.rev_rev, this]
  ring

theorem Mirrored.bdot_diff (hS : Mirrored ε S S') (q x : ι → ℝ) (v : ι) :
    S'.bdot 0 (flip ε q) (flip ε (-x)) v = ε v * S.bdot 0 q x v := by
  rw [hS.bdot, hS.odd]
  ring

/-! ### Reconstruction -/

/-- **Mirrored data have the mirrored reconstruction.** -/
theorem weno_flip (W : Weno.Setup n) (hW : W.Sym) (undef : ℝ) (hε : ∀ v, ε v * ε v = 1) (ub wb : Nat → ι → ℝ) (nx i : Nat)
    (hi : i < nx + 2) (h : ∀ r < nx + 2 * n, ub r = flip ε (wb (nx + 2 * n - 1 - r))) :
    Flips ε (weno1G (realCoef W.T undef) ub ((nx + 2 : Nat) : Int) 0 i)
      (weno1G (realCoef W.T undef) wb ((nx + 2 : Nat) : Int) 0 (nx + 1 - i)) := by
  intro k
  funext v
  have hn := W.pos
  unfold flip
  rw [weno1G_real, weno1G_real]
  unfold Weno.weno1
  refine Weno.coeffs_rev W hW undef (ε v) (hε v) _ _ (fun r hr => ?_) (nx + 2) (nx + 1 - i) i (by omega) hi k
  simp only
  rw [h _ (by omega)]
  unfold flip
  congr 3
  omega

/-! ### Half step -/

theorem mid1_flip (h : T.Ok) (hs : T.Sym) (hS : Mirrored ε S S') (dt dx : ℝ) (w' w : Fin n → ι → ℝ) (hw : Flips ε w' w) :
    Flips ε (mid1 S' T dt dx w') (mid1 S T dt dx w) := by
  intro a
  funext v
  have hF : ∀ k, S'.flux 0 (w' k) v = -(ε v * S.flux 0 (w k.rev) v) := fun k => by rw [hw k, hS.flux]
  have e1 : ∑ k, T.dervals a k * S'.flux 0 (w' k) v = ε v * ∑ k, T.dervals a.rev k * S.flux 0 (w k) v := by
    simp only [hF]
    rw [← sum_rev, Finset.mul_sum]
    refine Finset.sum_congr rfl fun k _ => ?_
    have := dervals_rev h hs a k.rev
    rw [Fin.rev_rev] at this
    rw [Fin.rev_rev, this]
    ring
  have e2 : S'.bdot 0 (w' a) (fun v => ∑ k, T.dervals a k * w' k v) v =
      ε v * S.bdot 0 (w a.rev) (fun v => ∑ k, T.dervals a.rev k * w k v) v := by
    rw [diff_flip h hs w' w hw a, hw a, hS.bdot_diff]
  unfold mid1
  simp only [flip]
  rw [e1, e2, show w' a v = ε v * w a.rev v from congrFun (hw a) v]
  ring

/-! ### Prediction -/

/-- Rows of the space-time block against those of the mirrored one. -/
def Flips2 (n : Nat) (ε : ι → ℝ) (q p : Nat → ι → ℝ) : Prop := ∀ t i : Fin n, q (t * n + i) = flip ε (p (t * n + i.rev))

theorem rhs1_flip (h : T.Ok) (hs : T.Sym) (hS : Mirrored ε S S') (q p Wq Wp : Nat → ι → ℝ) (hq : Flips2 n ε q p)
    (hW : Flips2 n ε Wq Wp) (dt dx : ℝ) (t i : Fin n) (v : ι) :
    rhs1 S' T q Wq dt dx t i v = ε v * rhs1 S T p Wp dt dx t i.rev v := by
  have hF : ∀ k : Fin n, S'.flux 0 (q (t * n + k)) v = -(ε v * S.flux 0 (p (t * n + k.rev)) v) := fun k => by
    rw [hq t k, hS.flux]
  have e1 : ∑ k : Fin n, T.der i k * S'.flux 0 (q (t * n + k)) v = ε v * ∑ k : Fin n, T.der i.rev k * S.flux 0 (p (t * n + k)) v := by
    simp only [hF]
    rw [← sum_rev, Finset.mul_sum]
    refine Finset.sum_congr rfl fun k _ => ?_
    have := der_rev h hs i k.rev
    rw [Fin.rev_rev] at this
    rw [Fin.rev_rev, this]
    ring
  have e2 : dqdx1 T q dx t i = flip ε (-dqdx1 T p dx t i.rev) := by
    have := diff_flip h hs (fun k : Fin n => q (t * n + k)) (fun k => p (t * n + k)) (hq t) i
    funext v
    have := congrFun this v
    simp only [flip, Pi.neg_apply] at this
    simp only [dqdx1, flip, Pi.neg_apply, this]
    ring
  unfold rhs1
  simp only
  rw [e1, e2, hq t i, hS.bdot_diff, hS.source, w_rev h hs, show Wq (t * n + i) v = ε v * Wp (t * n + i.rev) v from congrFun (hW t i) v]
  ring

theorem step_flip (h : T.Ok) (hs : T.Sym) (hS : Mirrored ε S S') (Wq Wp : Nat → ι → ℝ) (hW : Flips2 n ε Wq Wp) (dt dx : ℝ)
    (step' step : (Nat → ι → ℝ) → (Nat → ι → ℝ)) (h' : IsStep1 T S' Wq dt dx step') (h1 : IsStep1 T S Wp dt dx step)
    (q p : Nat → ι → ℝ) (hq : Flips2 n ε q p) : Flips2 n ε (step' q) (step p) := by
  obtain ⟨U, hU, r1, c1, e1⟩ := u1_entry T (fun _ _ => 0)
  let b : Nat → ι → ℝ := fun r v => if hh : r / n < n ∧ r % n < n then rhs1 S T p Wp dt dx ⟨r / n, hh.1⟩ ⟨r % n, hh.2⟩ v else 0
  let b' : Nat → ι → ℝ := fun r v => if hh : r / n < n ∧ r % n < n then rhs1 S' T q Wq dt dx ⟨r / n, hh.1⟩ ⟨r % n, hh.2⟩ v else 0
  have hb : ∀ t i : Fin n, b (t * n + i) = rhs1 S T p Wp dt dx t i := by
    intro t i
    obtain ⟨a1, a2⟩ := row_div t i
    funext v
    simp only [b, a1, a2, t.2, i.2, and_self, dite_true, Fin.eta]
  have hb' : ∀ t i : Fin n, b' (t * n + i) = rhs1 S' T q Wq dt dx t i := by
    intro t i
    obtain ⟨a1, a2⟩ := row_div t i
    funext v
    simp only [b', a1, a2, t.2, i.2, and_self, dite_true, Fin.eta]
  have s := h1 _ U hU p b hb
  have s' := h' _ U hU q b' hb'
  let y : Nat → ι → ℝ := fun r => flip ε (step p (r / n * n + (n - 1 - r % n)))
  have hy : ∀ t i : Fin n, y (t * n + i) = flip ε (step p (t * n + i.rev)) := by
    intro t i
    obtain ⟨a1, a2⟩ := row_div t i
    simp only [y, a1, a2, Fin.val_rev]
    congr 3
    omega
  have s2 : Solves U y b' := by
    rw [solves1_iff r1 c1 e1] at s ⊢
    intro t i v
    have := s t i.rev v
    rw [hb] at this
    rw [hb', rhs1_flip h hs hS q p Wq Wp hq hW, ← this, Finset.mul_sum]
    refine Finset.sum_congr rfl fun k _ => ?_
    rw [hy, w_rev h hs]
    unfold flip
    ring
  intro t i
  rw [← hy]
  exact solve1_unique h r1 c1 e1 _ _ b' s' s2 _ (row_lt t i).2

theorem exceeds_flip (hn : 0 < n) (hε : ∀ v, ε v * ε v = 1) (tol : ℝ) (q q' p p' : Nat → ι → ℝ) (hq : Flips2 n ε q p)
    (hq' : Flips2 n ε q' p') : exceedsReal (n * n) tol q q' = exceedsReal (n * n) tol p p' := by
  have ha : ∀ v (x : ℝ), |ε v * x| = |x| := fun v x => by
    have : |ε v| = 1 := by
      have := hε v
      rcases mul_self_eq_one_iff.1 this with h | h <;> rw [h] <;> simp
    rw [abs_mul, this, one_mul]
  have key : ∀ q q' p p' : Nat → ι → ℝ, Flips2 n ε q p → Flips2 n ε q' p' →
      (∃ r, r < n * n ∧ ∃ v, |q r v - q' r v| > tol * (1 + |q' r v|)) → ∃ r, r < n * n ∧ ∃ v, |p r v - p' r v| > tol * (1 + |p' r v|) := by
    rintro q q' p p' hq hq' ⟨r, hr, v, h⟩
    have h1 : r / n < n := Nat.div_lt_of_lt_mul hr
    have e := congrFun (hq ⟨r / n, h1⟩ ⟨r % n, Nat.mod_lt _ hn⟩) v
    have e' := congrFun (hq' ⟨r / n, h1⟩ ⟨r % n, Nat.mod_lt _ hn⟩) v
    simp only [Nat.div_add_mod' r n, flip] at e e'
    rw [e, e', ← mul_sub, ha, ha] at h
    exact ⟨_, (row_lt ⟨r / n, h1⟩ (⟨r % n, Nat.mod_lt _ hn⟩ : Fin n).rev).2, v, h⟩
  have back : ∀ q p : Nat → ι → ℝ, Flips2 n ε q p → Flips2 n ε p q := fun q p h t i => by
    rw [h, flip_flip hε, Fin.rev_rev]
  rw [Bool.eq_iff_iff, exceedsReal_iff, exceedsReal_iff]
  exact ⟨key q q' p p' hq hq', key p p' q q' (back _ _ hq) (back _ _ hq')⟩

theorem iterate_flip (hn : 0 < n) (hε : ∀ v, ε v * ε v = 1) (tol : ℝ) (step' step : (Nat → ι → ℝ) → (Nat → ι → ℝ))
    (hst : ∀ q p, Flips2 n ε q p → Flips2 n ε (step' q) (step p)) (nw' nw : Nat → ι → ℝ) (it : Nat) :
    ∀ q p, Flips2 n ε q p → Option.Rel (Flips2 n ε) (iterate step' (exceedsReal (n * n) tol) (fun _ => false) nw' it q)
      (iterate step (exceedsReal (n * n) tol) (fun _ => false) nw it p) := by
  induction it with
  | zero => exact fun q p _ => Option.Rel.none
  | succ it ih =>
    intro q p hq
    have hs' := hst q p hq
    unfold iterate
    simp only [exceeds_flip hn hε tol _ _ _ _ hs' hq, Bool.false_eq_true, if_false]
    split_ifs with hc
    · exact ih _ _ hs'
    · exact Option.Rel.some hs'

/-- The predictor of the unsplit scheme without `STIFF` commutes with the mirror, and so does its failure to come to an end. -/
theorem pred1_flip (h : T.Ok) (hs : T.Sym) (hS : Mirrored ε S S') (dt dx tol : ℝ) (it : Nat)
    (step' step : (Fin n → ι → ℝ) → (Nat → ι → ℝ) → (Nat → ι → ℝ))
    (h' : ∀ w, IsStep1 T S' (initialCondition1 T (rows1 w)) dt dx (step' w))
    (h1 : ∀ w, IsStep1 T S (initialCondition1 T (rows1 w)) dt dx (step w))
    (nw' nw : (Fin n → ι → ℝ) → (Nat → ι → ℝ)) (w' w : Fin n → ι → ℝ) (hw : Flips ε w' w) :
    Option.Rel (fun a b => ∀ t < n, Flips ε (a t) (b t)) (pred1 false it tol step' nw' w') (pred1 false it tol step nw w) := by
  have hn := h.pos
  have hw1 : ∀ (w : Fin n → ι → ℝ) (i : Fin n), rows1 w i = w i := fun w i => by
    funext v; simp [rows1]
  have hW : Flips2 n ε (initialCondition1 T (rows1 w')) (initialCondition1 T (rows1 w)) := by
    intro t i
    funext v
    unfold flip
    rw [initialCondition1_row, initialCondition1_row, hw1, hw1, hw, w_rev h hs]
    unfold flip
    ring
  have hg : Flips2 n ε (standardInitialGuess1 n (rows1 w')) (standardInitialGuess1 n (rows1 w)) := by
    intro t i
    unfold standardInitialGuess1
    rw [(row_div t i).2, (row_div t i.rev).2, hw1, hw1, hw]
  have key := iterate_flip hn hS.unit tol (step' w') (step w)
    (fun q p hq => step_flip h hs hS _ _ hW dt dx _ _ (h' _) (h1 _) q p hq) (nw' w') (nw w) it _ _ hg
  unfold pred1
  simp only [Bool.false_eq_true, if_false]
  change Option.Rel _ (Option.map _ (iterate _ _ _ _ _ (standardInitialGuess1 n (rows1 w'))))
    (Option.map _ (iterate _ _ _ _ _ (standardInitialGuess1 n (rows1 w))))
  revert key
  generalize iterate (step' w') _ _ _ _ _ = o'
  generalize iterate (step w) _ _ _ _ _ = o
  rintro (hab | _)
  · exact Option.Rel.some fun t ht k => (by assumption : Flips2 n ε _ _) ⟨t, ht⟩ k
  · exact Option.Rel.none

/-! ### The finite volume update -/

variable {fl fl' : Nat → (ι → ℝ) → (ι → ℝ) → (ι → ℝ)} {wt : Nat → ℝ} {dx : ℝ} {sources : Bool}

/-- The interface function does not tell left from right, between states of the kind `G`. -/
def FluxMirrored (G : (ι → ℝ) → (ι → ℝ) → Prop) (ε : ι → ℝ) (fl fl' : Nat → (ι → ℝ) → (ι → ℝ) → (ι → ℝ)) : Prop :=
  ∀ ql qr, G ql qr → ∀ v, fl' 0 (flip ε qr) (flip ε ql) v = -(ε v * fl 0 ql qr v)

variable {G : (ι → ℝ) → (ι → ℝ) → Prop}

theorem trace_flip (h : T.Ok) (hs : T.Sym) (e : Fin 2) (w' w : Fin n → ι → ℝ) (hw : Flips ε w' w) :
    trace T e w' = flip ε (trace T e.rev w) := by
  funext v
  have hw' : ∀ k, w' k = flip ε (w k.rev) := hw
  simp only [trace, hw', flip]
  rw [← sum_rev, Finset.mul_sum]
  refine Finset.sum_congr rfl fun k _ => ?_
  rw [endvals_rev h hs, Fin.rev_rev]
  ring

theorem bint_flip (h : T.Ok) (hs : T.Sym) (hS : Mirrored ε S S') (ql qr : ι → ℝ) (v : ι) :
    bint S' T 0 (flip ε qr) (flip ε ql) v = ε v * bint S T 0 ql qr v := by
  rw [bint_get, bint_get, ← sum_rev, Finset.mul_sum]
  refine Finset.sum_congr rfl fun k _ => ?_
  have e1 : flip ε qr + T.nodes k.rev • (flip ε ql - flip ε qr) = flip ε (ql + T.nodes k • (qr - ql)) := by
    funext v
    simp only [flip, Pi.add_apply, Pi.smul_apply, Pi.sub_apply, smul_eq_mul, hs k]
    ring
  have e2 : flip ε ql - flip ε qr = flip ε (-(qr - ql)) := by
    funext v
    simp only [flip, Pi.neg_apply, Pi.sub_apply]
    ring
  rw [e1, e2, hS.bdot_diff, w_rev h hs]
  ring

theorem cen_flip (h : T.Ok) (hs : T.Sym) (hS : Mirrored ε S S') (t : Nat) (q p : Fin n → ι → ℝ) (hq : Flips ε q p) (v : ι) :
    (((kern1 S' T fl' wt dx sources).cen t q).map (· v)).sum = ε v * (((kern1 S T fl wt dx sources).cen t p).map (· v)).sum := by
  simp only [kern1, List.map_map, Function.comp_def, sum_finRange]
  rw [← sum_rev, Finset.mul_sum]
  refine Finset.sum_congr rfl fun k _ => ?_
  have e : S'.bdot 0 (q k.rev) (fun v => ∑ j, T.dervals k.rev j * q j v) v =
      ε v * S.bdot 0 (p k) (fun v => ∑ j, T.dervals k j * p j v) v := by
    rw [diff_flip h hs q p hq, hq, Fin.rev_rev, hS.bdot_diff]
  have e' : (if sources = true then S'.source (q k.rev) else 0) v = ε v * (if sources = true then S.source (p k) else 0) v := by
    cases sources
    · simp
    · simp only [if_true]
      rw [hq, Fin.rev_rev, hS.source]
  simp only [Pi.smul_apply, Pi.sub_apply, smul_eq_mul]
  rw [e, e', w_rev h hs]
  ring

theorem face_flip (h : T.Ok) (hs : T.Sym) (hS : Mirrored ε S S') (hf : FluxMirrored G ε fl fl') (t : Nat)
    (ql qr pl pr : Fin n → ι → ℝ) (hl : Flips ε ql pr) (hr : Flips ε qr pl) (hG : G (trace T 1 pl) (trace T 0 pr)) (v : ι) :
    ((kern1 S' T fl' wt dx sources).face 0 t ql qr).1 v = ε v * ((kern1 S T fl wt dx sources).face 0 t pl pr).2 v ∧
    ((kern1 S' T fl' wt dx sources).face 0 t ql qr).2 v = ε v * ((kern1 S T fl wt dx sources).face 0 t pl pr).1 v := by
  rw [(kern1_face S' T fl' wt dx sources t ql qr v).1, (kern1_face S' T fl' wt dx sources t ql qr v).2,
    (kern1_face S T fl wt dx sources t pl pr v).1, (kern1_face S T fl wt dx sources t pl pr v).2,
    trace_flip h hs 1 ql pr hl, trace_flip h hs 0 qr pl hr]
  rw [show (1 : Fin 2).rev = 0 from rfl, show (0 : Fin 2).rev = 1 from rfl, bint_flip h hs hS, hf _ _ hG]
  constructor <;> ring

/-- **The finite volume update of a cell and of its mirror image.** -/
theorem fv_flip (h : T.Ok) (hs : T.Sym) (hS : Mirrored ε S S') (hf : FluxMirrored G ε fl fl') (rec' rec : Nat → Fin n → ι → ℝ)
    (nx nt : Nat) (mask' mask : Nat → Bool) (x x' : Nat) (hx : x < nx) (hx' : x' < nx)
    (hm : ∀ a, a ≤ 2 → mask' (x + a) = mask (x' + (2 - a)))
    (hr : ∀ a t, a ≤ 2 → t < nt → mask' (x + a) = true → Flips ε (rec' (ind2 (x + a) t nt)) (rec (ind2 (x' + (2 - a)) t nt)))
    (hG : ∀ a t, a < 2 → t < nt → mask (x' + a) = true → mask (x' + a + 1) = true →
      G (trace T 1 (rec (ind2 (x' + a) t nt))) (trace T 0 (rec (ind2 (x' + a + 1) t nt))))
    (u' u : Nat → ι → ℝ) (hu : u' x = flip ε (u x')) :
    apply (kern1 S' T fl' wt dx sources).app (fv1 (kern1 S' T fl' wt dx sources) rec' nx nt mask') u' x =
      flip ε (apply (kern1 S T fl wt dx sources).app (fv1 (kern1 S T fl wt dx sources) rec nx nt mask) u x') := by
  funext v
  unfold flip at hu ⊢
  rw [apply_get, fv1_at _ rec' nx nt mask' x hx, apply_get, fv1_at _ rec nx nt mask x' hx']
  change List.foldl (fun (u d : ι → ℝ) => u + d) _ _ v = _ * List.foldl (fun (u d : ι → ℝ) => u + d) _ _ v
  simp only [foldl_add_get, List.map_append, List.sum_append, sum_flatMap_range, if_single_sum]
  have m0 : mask' x = mask (x' + 2) := hm 0 (by omega)
  have m1 : mask' (x + 1) = mask (x' + 1) := hm 1 (by omega)
  have m2 : mask' (x + 2) = mask x' := hm 2 (by omega)
  rw [hu, mul_add, mul_add, Finset.mul_sum, Finset.mul_sum, m0, m1, m2]
  congr 1
  congr 1
  · refine Finset.sum_congr rfl fun t ht => ?_
    cases h1 : mask (x' + 1)
    · simp
    · simp only [if_true]
      exact cen_flip h hs hS t _ _ (hr 1 t (by omega) (Finset.mem_range.1 ht) (m1.trans h1)) v
  · refine Finset.sum_congr rfl fun t ht => ?_
    cases h1 : mask (x' + 1)
    · simp
    · have r1 := hr 1 t (by omega) (Finset.mem_range.1 ht) (m1.trans h1)
      have fl0 := fun h0 => (face_flip (fl := fl) (fl' := fl') (wt := wt) (dx := dx) (sources := sources) h hs hS hf t _ _ _ _
        (hr 0 t (by omega) (Finset.mem_range.1 ht) h0) r1 (hG 1 t (by omega) (Finset.mem_range.1 ht) h1 (m0.symm.trans h0)) v).2
      have fl2 := fun h2 => (face_flip (fl := fl) (fl' := fl') (wt := wt) (dx := dx) (sources := sources) h hs hS hf t _ _ _ _
        r1 (hr 2 t (by omega) (Finset.mem_range.1 ht) h2) (hG 0 t (by omega) (Finset.mem_range.1 ht) (m2.symm.trans h2) h1) v).1
      simp only [Nat.add_zero, show 2 - 0 = 2 from rfl, show 2 - 1 = 1 from rfl, show 2 - 2 = 0 from rfl] at fl0 fl2
      simp only [Bool.and_true, Bool.true_and]
      cases h0 : mask (x' + 2) <;> cases h2 : mask x'
      · simp
      · simp only [if_true, Bool.false_eq_true, if_false]; rw [fl2 (m2.trans h2)]; ring
      · simp only [if_true, Bool.false_eq_true, if_false]; rw [fl0 (m0.trans h0)]; ring
      · simp only [if_true]; rw [fl0 (m0.trans h0), fl2 (m2.trans h2)]; ring

end Verif.Step
