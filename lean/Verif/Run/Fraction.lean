import Verif.Run.Level
import Verif.Run.MirrorRoe

/-! # Mass fractions

`flux` sets the component of the mass fraction instead of adding to it (C40), so the interface functions see only the right side of
a face there.  What that does to a step. -/

namespace Verif.Run

open Verif.Sys Verif.Iter Verif.Dg Verif.Fv Verif.Step Verif.Grid Verif.Rot

noncomputable section

variable {c : Sys.Cfg}

/-- What an interface function has to say about mass fractions: their flux on the right. -/
def RightOnly (c : Sys.Cfg) (fl : Nat → (Fin c.V → ℝ) → (Fin c.V → ℝ) → (Fin c.V → ℝ)) : Prop :=
  ∀ ql qr (v v0 m : Fin c.V), v.1 = c.mV → v0.1 = 0 → m.1 = 2 → fl 0 ql qr v = qr v * (qr m / qr v0)

/-- All three interface functions do so. -/
theorem right_only (hm : c.multi = true) (P : Sys.Par) {n : Nat} (T : Tab n) (es : EigSolver) :
    RightOnly c (rusanov c P) ∧ RightOnly c (roe c P T es) ∧ RightOnly c (osher c P T es) := by
  have key := fun ql qr => interface_multi_false c P T (Eig.maxAbsEigs c P) es hm (ofVec c ql) (ofVec c qr) (dir 0)
  have e : ∀ (ql qr : Fin c.V → ℝ) (v v0 m : Fin c.V), v.1 = c.mV → v0.1 = 0 → m.1 = 2 →
      ofVec c qr c.mV * (ofVec c qr (2 + (dir 0).1) / ofVec c qr 0) = qr v * (qr m / qr v0) := fun ql qr v v0 m hv h0 h2 => by
    rw [ofVec_at qr v _ hv, ofVec_at qr v0 _ h0, show 2 + (dir 0).1 = 2 from rfl, ofVec_at qr m _ h2]
  refine ⟨fun ql qr v v0 m hv h0 h2 => ?_, fun ql qr v v0 m hv h0 h2 => ?_, fun ql qr v v0 m hv h0 h2 => ?_⟩ <;>
    rw [← e ql qr v v0 m hv h0 h2]
  · unfold rusanov; rw [hv]; exact (key ql qr).1
  · unfold roe; rw [hv]; exact (key ql qr).2.1
  · unfold osher; rw [hv]; exact (key ql qr).2.2.1

variable (E : Env c 1)

/-- **What a step of first order does to the mass fraction of a cell of a line**, without reactions and body forces: it looks
downstream, at half the velocity. -/
theorem fraction_step (W : Weno.Setup 1) (undef : ℝ) (it : Nat) (tol : ℝ) (hv : c.viscous = true) (hm : c.multi = true) (hE : E.Ok)
    (hX : E.Explicit W undef it tol) (hfl : RightOnly c E.fl) (hr : ¬ E.P.reaction > -1) (hf : E.P.δp = 0)
    (b : Nat → BT) (h0 : b 0 ≠ .other) (h1 : b 1 ≠ .other) (split : Bool) (threads : Nat) (hT : 0 < threads) (dt : ℝ)
    (u u' : Iter.Mem) (hrun : LineRuns E b split dt u) (hmv : MovesLine E b split threads dt u u') (i : Nat) (hi : i + 1 < E.nx) :
    let carried := fun j => u (j * c.V + c.mV) * (u (j * c.V + 2) / u (j * c.V))
    u' (i * c.V + c.mV) = u (i * c.V + c.mV) - dt / (2 * E.dx) * (carried (i + 1) - carried i) := by
  intro carried
  have hV := Iter.V_ge c hv
  have h14 := Relax.mV_ge' c hv
  have hmV : c.mV < c.V := by unfold Cfg.V; rw [hm]; simp; omega
  let v : Fin c.V := ⟨c.mV, hmV⟩
  let v0 : Fin c.V := ⟨0, by omega⟩
  let m : Fin c.V := ⟨2, by omega⟩
  have qv : Quiet E dt v := quiet_tail E hv hE dt v le_rfl fun h => absurd h hr
  have q0 : Quiet E dt v0 := quiet_mass E hv hE dt v0 rfl
  have qm : Quiet E dt m := quiet_head E hv hE dt m (show (2 : Nat) < 5 by omega) (by simp [force, m, hf])
  obtain ⟨ub, w, rec, mask, wt, sources, hp, hwt, hst, hgrid, hM, e⟩ :=
    line_first E W undef it tol hv hE hX b h0 h1 split threads hT dt u u' hrun hmv
  have hb0 : ∀ d q, E.sys.bdot d q 0 v = 0 := fun d q => by
    unfold Env.sys; rw [gpr_bdot_zero c hv]; rfl
  have hbv : ∀ d q x, E.sys.bdot d q x v = 0 := fun d q x => by
    change bdot c _ _ (dir d) E.junk c.mV = 0
    unfold bdot
    rw [if_pos hv, if_neg (by unfold Cfg.V; rw [hm]; simp), if_neg (by omega), if_pos hmV]
  have := e i (by omega) v qv
  change u' (i * c.V + c.mV) = _ at this
  rw [this, one_cell1 hE.tab E.sys E.fl wt E.dx sources rec E.nx mask w i (by omega) v hb0 (fun q => qv.src _), hwt,
    hM i (by omega), hM (i + 1) (by omega), hM (i + 2) (by omega), (hgrid i (by omega) v qv).1, bint_zero E.sys E.T v hbv,
    bint_zero E.sys E.T v hbv, hfl _ _ v v0 m rfl rfl rfl, hfl _ _ v v0 m rfl rfl rfl]
  have g := fun j (hj : j < E.nx) => And.intro (hgrid j hj v qv).2 (And.intro (hgrid j hj v0 q0).2 (hgrid j hj m qm).2)
  rw [(g i (by omega)).1, (g i (by omega)).2.1, (g i (by omega)).2.2, (g (i + 1) hi).1, (g (i + 1) hi).2.1, (g (i + 1) hi).2.2]
  simp only [Bool.and_self, if_true, carried, v, v0, m, Nat.add_zero]
  ring

/-- **Mass fractions do not obey a maximum principle**: a cell with nothing burnt, upstream of one with something burnt, holds less
than nothing after the step, however small the step is. -/
theorem fraction_negative (W : Weno.Setup 1) (undef : ℝ) (it : Nat) (tol : ℝ) (hv : c.viscous = true) (hm : c.multi = true) (hE : E.Ok)
    (hX : E.Explicit W undef it tol) (hfl : RightOnly c E.fl) (hr : ¬ E.P.reaction > -1) (hf : E.P.δp = 0)
    (b : Nat → BT) (h0 : b 0 ≠ .other) (h1 : b 1 ≠ .other) (split : Bool) (threads : Nat) (hT : 0 < threads) (dt : ℝ)
    (u u' : Iter.Mem) (hrun : LineRuns E b split dt u) (hmv : MovesLine E b split threads dt u u') (i : Nat) (hi : i + 1 < E.nx)
    (hdt : 0 < dt) (hdx : 0 < E.dx) (hz : u (i * c.V + c.mV) = 0) (hp : 0 < u ((i + 1) * c.V + c.mV))
    (hρ : 0 < u ((i + 1) * c.V)) (hvel : 0 < u ((i + 1) * c.V + 2)) : u' (i * c.V + c.mV) < 0 := by
  rw [fraction_step E W undef it tol hv hm hE hX hfl hr hf b h0 h1 split threads hT dt u u' hrun hmv i hi]
  simp only [hz, zero_mul, sub_zero, zero_sub, neg_lt_zero]
  have := div_pos hvel hρ
  positivity

/-- The end of the pass hides it: the cell then holds nothing burnt, or more. -/
theorem fraction_clipped (F : Tail c) (hv : c.viscous = true) (hm : c.multi = true) (hF : F.Ok) (count : Nat) (u u' : Iter.Mem)
    (h : finish F count u = some u') (i : Nat) (hi : i < F.ncell) (hρ : 0 ≤ u (i * c.V)) (hneg : u (i * c.V + c.mV) < 0) :
    u (i * c.V + c.mV) < u' (i * c.V + c.mV) := by
  obtain ⟨w, hw, -, a2, -⟩ := finish_spec F hv hF count u
  rw [h] at hw
  cases hw
  exact lt_of_lt_of_le hneg (a2 hm i hi hρ).1

/-- The gas of the example before: the first cell holds less than no burnt mass after any step. -/
example (T : Tab 1) (h : T.Ok) (W : Weno.Setup 1) (dt : ℝ) (hdt : 0 < dt) (threads : Nat) (hT : 0 < threads) :
    let E := mixEnv T h W (rusanov mixCfg (samplePar sample))
    (∃ u', MovesLine E (fun _ => .transmissive) false threads dt mixField u') ∧
      ∀ u', MovesLine E (fun _ => .transmissive) false threads dt mixField u' → u' (0 * 16 + 14) < 0 := by
  intro E
  have hE : E.Ok := mix_ok T h W _
  refine ⟨movesLine_ader_exists E (by decide) hE _ (by decide) (by decide) threads dt _, fun u' hm => ?_⟩
  refine fraction_negative E W 0 4 0 rfl rfl hE (mix_explicit T h W _) (right_only rfl _ T ⟨fun _ _ _ => 0, fun _ _ => 0, fun _ _ _ => 0⟩).1
    (mix_ease 0).inert rfl _ (by decide) (by decide) false threads hT dt mixField u' (mix_runs T h W _ dt) hm 0
    (show 0 + 1 < 4 by omega) hdt (show (0 : ℝ) < 1 / 10 by norm_num) ?_ ?_ ?_ ?_
  · exact (mixField_get 0 ⟨14, by decide⟩).trans (by simp [mixQ])
  · exact lt_of_lt_of_eq (by norm_num) ((mixField_get 1 ⟨14, by decide⟩).trans (by simp [mixQ] : mixQ 1 ⟨14, _⟩ = 1 / 2)).symm
  · exact lt_of_lt_of_eq (by norm_num) ((mixField_get 1 ⟨0, by decide⟩).trans (by simp [mixQ] : mixQ 1 ⟨0, _⟩ = 1)).symm
  · exact lt_of_lt_of_eq (by norm_num) ((mixField_get 1 ⟨2, by decide⟩).trans (by simp [mixQ, base] : mixQ 1 ⟨2, _⟩ = 1)).symm

end

end Verif.Run
