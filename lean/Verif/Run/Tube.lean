import Verif.Run.Materials
import Verif.Run.Pace

/-! # Two gases in a tube

Cases in which the hypotheses of the theorems about passes with several materials hold. -/

namespace Verif.Run

open Verif.Sys Verif.Iter Verif.Dg Verif.Fv Verif.Step Verif.Grid Verif.Rot

noncomputable section

/-- Twelve cells in second order, any densities, the surface between the sixth and the seventh cell, any star states: the pass with
three threads exists, and the fourth cell gets the level set of the step of the first gas alone, and all of that step's values if
it still belongs to it. -/
example (T : Tab 2) (h : T.Ok) (W : Weno.Setup 2) (d : Nat → ℝ) (M dt : ℝ) (star : Nat → St → St → Nat → List ℝ → St) :
    let E : Env paceCfg 2 := { paceEnv T h W with nx := 12 }
    let F := twoFronts 12 (1 / 10) (3 / 5) (fun _ => 0) star (fun _ => List.range 12) 2
    let u := paceField d M fun j => ((j : ℝ) + 1 / 2) * (1 / 10) - 3 / 5
    ∃ u' w', MovesMulti [some E, some E] F 12 (1 / 10) (fun _ => .transmissive) true 3 dt u u' ∧
      MovesLine E (fun _ => .transmissive) true 3 dt u w' ∧ u' (3 * 15 + 14) = w' (3 * 15 + 14) ∧
      (w' (3 * 15 + 14) < 0 → ∀ v < 15, u' (3 * 15 + v) = w' (3 * 15 + v)) := by
  intro E F u
  have hE : E.Ok := ⟨h, ⟨by simp [E], by simp [E, paceEnv]⟩, fun _ => ⟨0, rfl⟩,
    fun A => (Grid.svd_exists A).choose_spec.choose_spec.choose_spec.1⟩
  obtain ⟨⟨u', hu'⟩, key⟩ := two_line (c := paceCfg) rfl 12 (1 / 10) (3 / 5) (by norm_num) (fun _ => 0) star (fun _ => List.range 12)
    (fun _ => .refl _) 2 6 (by norm_num) (by norm_num) (by norm_num) (by norm_num) u
    (fun j _ => (paceField_get d M _ j ⟨14, by decide⟩).trans (by simp [paceQ])) E E rfl hE hE rfl rfl (fun f hf => nomatch hf)
    (fun f hf => nomatch hf) (fun _ => .transmissive) (by decide) (by decide) 3 (by norm_num) dt
  obtain ⟨w', hw'⟩ := movesLine_exists E (by decide) hE (fun _ => .transmissive) (by decide) (by decide) 3 dt u
  refine ⟨u', w', hu', hw', (key true u' hu' 3 (by norm_num)).1 w' hw' (fun hc => nomatch hc) ?_⟩
  rintro j ⟨k, hk, rfl⟩
  change srcOf 2 .transmissive .transmissive 12 (3 + k) < 6
  unfold srcOf
  rw [if_neg (by omega), if_pos (by omega)]
  omega

/-- Gas of density 1 and velocity 1 with level set `f`. -/
def tubeQ (f : ℝ) : Fin mixCfg.V → ℝ := fun v => if v.1 = 0 then 1 else if v.1 = 14 then 0 else if v.1 = 15 then f else base v

/-- The level set is the distance from the middle of a line of four cells. -/
def tubeLevel (j : Nat) : ℝ := ((j : ℝ) + 1 / 2) * (1 / 10) - 1 / 5

def tubeField : Iter.Mem := fun k => tubeQ (tubeLevel (k / 16)) ⟨k % 16, Nat.mod_lt _ (by omega)⟩

theorem tubeField_get (j : Nat) (v : Fin mixCfg.V) : tubeField (j * 16 + v) = tubeQ (tubeLevel j) v := by
  have hv : v.1 < 16 := v.2
  have e1 : (j * 16 + v) / 16 = j := by omega
  have e2 : (j * 16 + v) % 16 = v := by omega
  simp only [tubeField, e1, e2]

theorem tube_ease (f : ℝ) : Newton.AtEase mixCfg (samplePar sample) (ofVec mixCfg (tubeQ f)) := by
  refine ⟨?_, by simp [mixCfg], rfl, by norm_num [samplePar]⟩
  have g : ∀ k, 5 ≤ k → k < 14 → ofVec mixCfg (tubeQ f) k = base k := fun k h1 h2 => by
    rw [ofVec_at (tubeQ f) ⟨k, show k < 16 by omega⟩ k rfl]
    simp only [tubeQ]
    rw [if_neg (by omega), if_neg (by omega), if_neg (by omega)]
  have : getA (ofVec mixCfg (tubeQ f)) = 1 := by
    ext i j
    simp only [getA, Matrix.of_apply]
    rw [g _ (by omega) (by omega)]
    fin_cases i <;> fin_cases j <;> simp [base]
  rw [this]
  ext i j
  fin_cases i <;> fin_cases j <;> simp [AdevG] <;> norm_num

section tube

variable (T : Tab 1) (h : T.Ok) (W : Weno.Setup 1)
  (fl : Nat → (Fin mixCfg.V → ℝ) → (Fin mixCfg.V → ℝ) → (Fin mixCfg.V → ℝ))

theorem tube_pred (dt f : ℝ) : ∃ a, (mixEnv T h W fl).pred1 dt (fun _ => tubeQ f) = some a ∧ a 0 0 = tubeQ f := by
  obtain ⟨a, ha, hc⟩ := pred1_constant h mixSys (tubeQ f)
    (funext fun v => Newton.source_atEase mixCfg (samplePar sample) 0 _ rfl (tube_ease f) v)
    (gpr_bdot_zero mixCfg rfl _ _ _ 0 _) dt (1 / 10) 0 le_rfl false 4 (by norm_num)
    (fun w => (isStep1_exists h mixSys (initialCondition1 T (rows1 w)) dt (1 / 10)).choose)
    (fun _ => (isStep1_exists h mixSys _ dt (1 / 10)).choose_spec)
    (fun w => standardInitialGuess1 1 (rows1 w)) (fun _ _ => rfl)
  exact ⟨a, ha, hc 0 (by omega) 0⟩

/-- The star state is the state on the side of the material: both gases are the same and move with the surface. -/
def tubeFronts : Fronts := twoFronts 4 (1 / 10) (1 / 5) (fun _ => 0) (fun _ QL _ _ _ => QL) (fun _ => List.range 4) 1

/-- The grids of both materials hold the gas everywhere. -/
theorem tube_fills (m : Nat) (hm : m < 2) (g : Iter.Mem) (mk : Nat → Bool) (hg : Fills mixCfg tubeFronts 4 (1 / 10) 2 m tubeField g mk)
    (j : Nat) (hj : j < 4) (v : Fin mixCfg.V) : g (j * 16 + v) = tubeQ (tubeLevel j) v := by
  have hv : v.1 < 16 := v.2
  by_cases hl : v.1 = 15
  · have := (fills_keeps tubeFronts 4 (1 / 10) 2 m tubeField g mk hg j hj).1 v ⟨by rw [hl]; decide, v.2⟩
    exact this.trans (tubeField_get j v)
  · obtain ⟨g2, mk2, hf2, e⟩ := two_fills (c := mixCfg) rfl 4 (1 / 10) (1 / 5) (by norm_num) (fun _ => 0) (fun _ QL _ _ _ => QL)
      (fun _ => List.range 4) (fun _ => .refl _) 1 2 (by norm_num) (by norm_num) (by norm_num) (by norm_num) tubeField
      (fun j _ => (tubeField_get j ⟨15, by decide⟩).trans (by simp [tubeQ, tubeLevel])) m hm
    obtain ⟨grid, hgrid, eg⟩ := hg
    obtain ⟨grid2, hgrid2, eg2⟩ := hf2
    change Fill.ghostCells mixCfg [4] [1 / 10] m 2 _ _ _ _ _ _ = _ at hgrid hgrid2
    have hsame : some (grid, mk) = some (grid2, mk2) := hgrid.symm.trans hgrid2
    cases hsame
    have hgv : g (j * 16 + v) = g2 (j * 16 + v) := (eg j hj v v.2).trans (eg2 j hj v v.2).symm
    have hlt : v.1 < mixCfg.V - 1 := show v.1 < 16 - 1 by omega
    have hq : ∀ a, tubeQ (tubeLevel a) v = tubeQ (tubeLevel j) v := fun a => by simp only [tubeQ, if_neg hl]
    rw [hgv]
    refine (e j hj v hlt).trans ?_
    split_ifs
    · exact (tubeField_get _ v).trans (hq _)
    · exact tubeField_get j v
    · exact (tubeField_get _ v).trans (hq _)
    · exact tubeField_get j v

theorem tube_pad (m : Nat) (hm : m < 2) (g : Iter.Mem) (mk : Nat → Bool) (hg : Fills mixCfg tubeFronts 4 (1 / 10) 2 m tubeField g mk)
    (ub : Nat → Fin mixCfg.V → ℝ) (hp : Pads1 (mixEnv T h W fl) (fun _ => .transmissive) g ub) (r : Nat)
    (hr : r < 4 + 2) : ∃ j < 4, ub r = tubeQ (tubeLevel j) := by
  obtain ⟨old, m', hm', hub⟩ := hp
  obtain ⟨m'', e, a, -⟩ := Grid.boundaries_1d ⟨1, none⟩ 4 .transmissive .transmissive (memOf mixCfg g old) (by decide)
    (by decide) (by decide)
  change boundaries1D ⟨1, none⟩ 4 .transmissive .transmissive _ = _ at hm'
  rw [hm'] at e
  cases e
  have hs := srcOf_lt (N := 1) (nx := 4) (b0 := .transmissive) (b1 := .transmissive) (by omega) (by omega) (show r < 4 + 2 * 1 by omega)
  refine ⟨_, hs, ?_⟩
  funext v
  rw [hub, a r hr, ghost_open _ _ _ _ (Or.inl rfl) (Or.inl rfl)]
  exact tube_fills m hm g mk hg _ hs v

/-- For small time steps both materials are clear everywhere. -/
theorem tube_clear : ∃ τ > 0, ∀ dt, 0 ≤ dt → dt ≤ τ → ∀ m < 2, ∀ i < 4,
    Clear (mixEnv T h W fl) tubeFronts (1 / 10) 2 m (fun _ => .transmissive) false (1 / 2) dt tubeField i := by
  have s0 : ∀ j, 0 ≤ speed mixCfg (samplePar sample) (tubeQ (tubeLevel j)) 0 := fun j => (abs_nonneg _).trans (speed_ge (samplePar sample) _ _)
  have hS : 0 ≤ ∑ j ∈ Finset.range 4, speed mixCfg (samplePar sample) (tubeQ (tubeLevel j)) 0 := Finset.sum_nonneg fun j _ => s0 j
  refine ⟨1 / 20 / (1 + ∑ j ∈ Finset.range 4, speed mixCfg (samplePar sample) (tubeQ (tubeLevel j)) 0), by positivity,
    fun dt d0 d1 m hm i hi g mk hf hk => ⟨fun j hj _ => ?_, fun ub hp => ?_, ?_⟩⟩
  · have := tube_fills m hm g mk hf j hj ⟨0, by decide⟩
    rw [show j * mixCfg.V = j * 16 + 0 from rfl, this]
    simp [tubeQ]
  · simp only [Bool.false_eq_true, if_false]
    intro r _ r2
    obtain ⟨j, -, e⟩ := tube_pad T h W fl m hm g mk hf ub hp r (by omega)
    obtain ⟨a, ha, -⟩ := tube_pred T h W fl dt (tubeLevel j)
    rw [e, ha]
    rfl
  · rintro q ⟨ub, r, hp, _, r2, a, ha, rfl⟩
    obtain ⟨j, hj, e⟩ := tube_pad T h W fl m hm g mk hf ub hp r (by omega)
    obtain ⟨a', ha', hc⟩ := tube_pred T h W fl dt (tubeLevel j)
    rw [e, ha'] at ha
    cases ha
    rw [hc]
    change dt * speed mixCfg (samplePar sample) _ 0 ≤ 1 / 2 * (1 / 10)
    have := Finset.single_le_sum (f := fun j => speed mixCfg (samplePar sample) (tubeQ (tubeLevel j)) 0) (fun j _ => s0 j) (Finset.mem_range.2 hj)
    rw [le_div_iff₀ (by positivity)] at d1
    nlinarith

end tube

/-- The predictor scheme runs on every line, for every mask. -/
theorem movesMasked_ader_exists {c : Sys.Cfg} {n : Nat} (E : Env c n) (hV : 0 < c.V) (hE : E.Ok) (bt : Nat → BT) (h0 : bt 0 ≠ .other)
    (h1 : bt 1 ≠ .other) (threads : Nat) (mk : Nat → Bool) (dt : ℝ) (u : Iter.Mem) : ∃ u', MovesMasked E bt false threads mk dt u u' := by
  obtain ⟨m', hm, -⟩ := Grid.boundaries_1d ⟨n, E.destress⟩ E.nx (bt 0) (bt 1) (memOf c u fun _ _ => 0) hE.wide.1 h0 h1
  obtain ⟨l, hl⟩ := schedule_exists threads fun w => aderWorker1 E.coef (E.pred1 dt) (kern1 E.sys E.T E.fl (E.wt dt) E.dx true)
    (fun k v => m' (true, k) v) E.nx (Grid.extendMask1 E.nx mk fun _ => false) threads (fun _ _ _ _ => 0) w
  refine ⟨memOfCells c hV (apply (kern1 E.sys E.T E.fl (E.wt dt) E.dx true).app (l.map Prod.snd) (cellsOf c u)),
    fun k v => m' (true, k) v, fun _ => false, ⟨fun _ _ => 0, m', hm, fun _ _ => rfl⟩, ?_⟩
  simp only [Bool.false_eq_true, if_false]
  exact ⟨l, fun _ _ _ _ _ => 0, hl, fun i _ v => memOfCells_get hV _ i v⟩

/-- Two gases on four cells in first order: for all small time steps and any number of threads the pass exists, the level set stays
between its smallest and its largest value, and cells that still belong to the first gas next to where it was have a positive density. -/
example (T : Tab 1) (h : T.Ok) (W : Weno.Setup 1) :
    let E := mixEnv T h W (rusanov mixCfg (samplePar sample))
    ∃ τ > 0, ∀ dt, 0 ≤ dt → dt ≤ τ → ∀ threads > 0,
      (∃ u', MovesMulti [some E, some E] tubeFronts 4 (1 / 10) (fun _ => .transmissive) false threads dt tubeField u') ∧
      ∀ u', MovesMulti [some E, some E] tubeFronts 4 (1 / 10) (fun _ => .transmissive) false threads dt tubeField u' →
        Between mixCfg 4 15 (-3 / 20) (3 / 20) u' ∧ (materialIndex mixCfg (view mixCfg u' 2) = 0 → 0 < u' (2 * 16)) := by
  intro E
  have hE : E.Ok := mix_ok T h W _
  obtain ⟨τ, hτ, hclear⟩ := tube_clear T h W (rusanov mixCfg (samplePar sample))
  have hlev : ∀ j, tubeField (j * 16 + 15) = tubeLevel j := fun j => (tubeField_get j ⟨15, by decide⟩).trans (by simp [tubeQ])
  have hEs : ∀ (m : Nat) (E' : Env mixCfg 1), ([some E, some E] : List (Option (Env mixCfg 1)))[m]? = some (some E') → m < 2 ∧ E' = E := by
    intro m E' hm
    match m, hm with
    | 0, hm => exact ⟨by omega, by simpa using hm.symm⟩
    | 1, hm => exact ⟨by omega, by simpa using hm.symm⟩
  refine ⟨τ, hτ, fun dt d0 d1 threads hT => ⟨?_, fun u' hm => ⟨?_, fun hidx => ?_⟩⟩⟩
  · have hfill := fun m hm => two_fills (c := mixCfg) rfl 4 (1 / 10) (1 / 5) (by norm_num) (fun _ => 0) (fun _ QL _ _ _ => QL)
      (fun _ => List.range 4) (fun _ => .refl _) 1 2 (by norm_num) (by norm_num) (by norm_num) (by norm_num) tubeField
      (fun j _ => (hlev j).trans (by simp [tubeLevel])) m hm
    obtain ⟨g0, mk0, hf0, -⟩ := hfill 0 (by omega)
    obtain ⟨g1, mk1, hf1, -⟩ := hfill 1 (by omega)
    obtain ⟨g0', hg0⟩ := movesMasked_ader_exists E (by decide) hE (fun _ => .transmissive) (by decide) (by decide) threads mk0 dt g0
    obtain ⟨g1', hg1⟩ := movesMasked_ader_exists E (by decide) hE (fun _ => .transmissive) (by decide) (by decide) threads mk1 dt g1
    obtain ⟨u', hu'⟩ := make_u_defined mixCfg 4 ((List.range 2).map fun m => if m = 0 then g0' else g1')
      ((List.range 2).map fun m => if m = 0 then mk0 else mk1) ([some E, some E].map (Option.map Env.P)) tubeField (by simp [mixCfg]) (by simp)
    refine ⟨u', fun m => if m = 0 then g0 else g1, _, _, fun m E' hm => ?_, fun m hm => ?_, hu'⟩
    · obtain ⟨hm2, rfl⟩ := hEs m E' hm
      rcases Nat.eq_zero_or_pos m with rfl | h0
      · exact ⟨hf0, hg0⟩
      · obtain rfl : m = 1 := by omega
        exact ⟨hf1, hg1⟩
    · match m, hm with
      | 0, hm => simp at hm
      | 1, hm => simp at hm
  · refine multi_level [some E, some E] tubeFronts 4 (1 / 10) (fun _ => .transmissive) (by decide) (by decide) false threads hT dt d0 tubeField
      u' rfl ?_ ?_ hm 15 ⟨by decide, by decide⟩ _ _ ?_
    · intro m E' hm
      obtain ⟨-, rfl⟩ := hEs m E' hm
      exact ⟨W, 0, 4, 0, hE, mix_explicit T h W _, rfl, show (0 : ℝ) < 1 / 10 by norm_num, rfl, fun f hf => (nomatch hf), Or.inl rfl⟩
    · intro m E' hm i hi
      obtain ⟨hm2, rfl⟩ := hEs m E' hm
      exact hclear dt d0 d1 m hm2 i hi
    · intro i hi
      rw [show i * mixCfg.V + 15 = i * 16 + 15 from rfl, hlev]
      have h0 : (0 : ℝ) ≤ i := Nat.cast_nonneg i
      have h3 : (i : ℝ) ≤ 3 := by exact_mod_cast (by omega : i ≤ 3)
      unfold tubeLevel
      constructor <;> linarith
  · exact multi_dense [some E, some E] tubeFronts (1 / 10) (fun _ => .transmissive) (by decide) (by decide) false threads hT dt d0 tubeField
      u' rfl 0 E rfl W 0 4 0 hE (mix_explicit T h W _) rfl (show (0 : ℝ) < 1 / 10 by norm_num) (fun f hf => nomatch hf) 2 (show 2 < 4 by omega)
      (1 / 2) (by norm_num) (hclear dt d0 d1 0 (by omega) 2 (by omega))
      ⟨1, show 1 < 4 by omega, by omega, by omega, by norm_num [tubeFronts, twoFronts]⟩ hm hidx

end

end Verif.Run
