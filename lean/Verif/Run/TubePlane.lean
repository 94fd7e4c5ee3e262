import Verif.Run.MaterialsPlane
import Verif.Run.Tube

/-! # Two gases on a plane

Cases in which the hypotheses of the theorems about passes with several materials hold. -/

namespace Verif.Run

open Verif.Sys Verif.Iter Verif.Dg Verif.Fv Verif.Step Verif.Grid Verif.Rot

noncomputable section

/-- Twelve by eight cells in second order, any densities, the surface between the sixth and the seventh column, any star states: the
pass with three threads exists, and cells of the fourth column get the level set of the step of the first gas alone, and all of that
step's values if they still belong to it. -/
example (T : Tab 2) (h : T.Ok) (W : Weno.Setup 2) (d : Nat → ℝ) (M dt : ℝ) (star : Nat → St → St → Nat → List ℝ → St) (y : Nat)
    (hy : y < 8) :
    let E : Env paceCfg 2 := { paceEnv T h W with nx := 12, ny := 8 }
    let F := planeFronts 12 8 (1 / 10) 1 (3 / 5) (fun _ _ => 0) star (fun _ => List.range 96) 2
    let u := paceField d M fun j => (((j / 8 : Nat) : ℝ) + 1 / 2) * (1 / 10) - 3 / 5
    let i := cell 3 y 8
    ∃ u' w', MovesMulti2 [some E, some E] F 12 8 (1 / 10) 1 (fun _ => .transmissive) false true 3 dt u u' ∧
      MovesPlane E (fun _ => .transmissive) false true 3 dt u w' ∧ u' (i * 15 + 14) = w' (i * 15 + 14) ∧
      (w' (i * 15 + 14) < 0 → ∀ v < 15, u' (i * 15 + v) = w' (i * 15 + v)) := by
  intro E F u i
  have hE : E.Ok := ⟨h, ⟨by simp [E], by simp [E]⟩, fun _ => ⟨0, rfl⟩,
    fun A => (Grid.svd_exists A).choose_spec.choose_spec.choose_spec.1⟩
  obtain ⟨⟨u', hu'⟩, key⟩ := two_plane (c := paceCfg) rfl 12 8 (by norm_num) (1 / 10) 1 (3 / 5) (by norm_num) one_pos (fun _ _ => 0) star
    (fun _ => List.range 96) (fun _ => .refl _) 2 6 (by norm_num) (by norm_num) (by norm_num) (by norm_num) u
    (fun x hx y hy => (paceField_get d M _ (cell x y 8) ⟨14, by decide⟩).trans (by simp [paceQ, (cell_div 8 x y hy).1])) E E rfl hE hE
    ⟨rfl, rfl⟩ ⟨rfl, rfl⟩ (fun f hf => nomatch hf) (fun f hf => nomatch hf) (fun _ => .transmissive) (fun _ _ => by decide) 3 (by norm_num) dt
  obtain ⟨w', hw'⟩ := movesPlane_exists E (by decide) hE (fun _ => .transmissive) (by decide) (by decide) (by decide) (by decide) false 3 dt u
  refine ⟨u', w', hu', hw', (key true u' hu' 3 (by norm_num) y hy).1 w' hw' (fun hc => nomatch hc) ?_⟩
  rintro j ⟨k, hk, l, hl, rfl⟩
  have h1 : srcOf 2 .transmissive .transmissive 12 (3 + k) < 6 := by
    unfold srcOf
    rw [if_neg (by omega), if_pos (by omega)]
    omega
  have h2 : srcOf 2 .transmissive .transmissive 8 (y + l) < 8 := srcOf_lt (N := 2) (nx := 8) (by omega) (by omega) (by omega)
  change srcOf 2 .transmissive .transmissive 12 (3 + k) * 8 + srcOf 2 .transmissive .transmissive 8 (y + l) < 6 * 8
  omega

/-- The level set is the distance from the middle of a plane of four by three cells. -/
def sheetField : Iter.Mem := fun k => tubeQ (tubeLevel (k / 16 / 3)) ⟨k % 16, Nat.mod_lt _ (by omega)⟩

theorem sheetField_get (x y : Nat) (hy : y < 3) (v : Fin mixCfg.V) : sheetField (cell x y 3 * 16 + v) = tubeQ (tubeLevel x) v := by
  have hv : v.1 < 16 := v.2
  have e1 : (cell x y 3 * 16 + v) / 16 / 3 = x := by unfold cell; omega
  have e2 : (cell x y 3 * 16 + v) % 16 = v := by omega
  simp only [sheetField, e1, e2]

section sheet

variable (T : Tab 1) (h : T.Ok) (W : Weno.Setup 1)
  (fl : Nat → (Fin mixCfg.V → ℝ) → (Fin mixCfg.V → ℝ) → (Fin mixCfg.V → ℝ))

/-- A plane of four by three cells in first order. -/
def sheetEnv : Env mixCfg 1 := { mixEnv T h W fl with ny := 3 }

theorem sheet_ok : (sheetEnv T h W fl).Ok := ⟨h, ⟨by simp [sheetEnv, mixEnv], by simp [sheetEnv]⟩, fun _ => ⟨0, rfl⟩,
    fun A => (Grid.svd_exists A).choose_spec.choose_spec.choose_spec.1⟩

theorem sheet_explicit : (sheetEnv T h W fl).Explicit W 0 4 0 :=
  ⟨rfl, fun dt => ⟨_, _, fun _ => (isStep1_exists h mixSys _ dt (1 / 10)).choose_spec, rfl⟩,
     fun dt => ⟨_, _, fun _ => (isStep2_exists h mixSys _ dt (1 / 10) 1).choose_spec, rfl⟩, fun _ => rfl, fun _ => rfl, rfl⟩

theorem sheet_pred (dt f : ℝ) : ∃ a, (sheetEnv T h W fl).pred2 dt (fun _ _ => tubeQ f) = some a ∧ a 0 0 = tubeQ f := by
  obtain ⟨a, ha, hc⟩ := pred2_constant h mixSys (tubeQ f)
    (funext fun v => Newton.source_atEase mixCfg (samplePar sample) 0 _ rfl (tube_ease f) v)
    (fun d => gpr_bdot_zero mixCfg rfl _ _ _ d _) dt (1 / 10) 1 0 le_rfl false 4 (by norm_num)
    (fun w => (isStep2_exists h mixSys (initialCondition2 T (rows2 w)) dt (1 / 10) 1).choose)
    (fun _ => (isStep2_exists h mixSys _ dt (1 / 10) 1).choose_spec)
    (fun w => standardInitialGuess2 1 (rows2 w)) (fun _ _ => rfl)
  exact ⟨a, ha, hc 0 (by omega) 0 (by omega)⟩

/-- The star state is the state on the side of the material: both gases are the same and move with the surface. -/
def sheetFronts : Fronts := planeFronts 4 3 (1 / 10) 1 (1 / 5) (fun _ _ => 0) (fun _ QL _ _ _ => QL) (fun _ => List.range 12) 1

theorem sheet_level (x : Nat) (y : Nat) (hy : y < 3) : sheetField (cell x y 3 * 16 + 15) = tubeLevel x :=
  (sheetField_get x y hy ⟨15, by decide⟩).trans (by simp [tubeQ])

/-- Both grids can be filled, with states of the gas. -/
theorem sheet_exists (m : Nat) (hm : m < 2) : ∃ g mk, Fills2 mixCfg sheetFronts 4 3 (1 / 10) 1 2 m sheetField g mk ∧
    ∀ x < 4, ∀ y < 3, ∀ v < 15, ∃ x', g (cell x y 3 * 16 + v) = sheetField (cell x' y 3 * 16 + v) := by
  obtain ⟨g, mk, hf, e⟩ := plane_fills (c := mixCfg) rfl 4 3 le_rfl (1 / 10) 1 (1 / 5) (by norm_num) one_pos
    (fun _ _ => 0) (fun _ QL _ _ _ => QL) (fun _ => List.range 12) (fun _ => .refl _) 1 2 (by norm_num) (by norm_num) (by norm_num)
    (by norm_num) sheetField (fun x _ y hy => (sheet_level x y hy).trans (by simp [tubeLevel])) m hm
  refine ⟨g, mk, hf, fun x hx y hy v hv => ?_⟩
  have := e x hx y hy v hv
  split_ifs at this
  · exact ⟨_, this⟩
  · exact ⟨_, this⟩
  · exact ⟨_, this⟩
  · exact ⟨_, this⟩

/-- The grids of both materials hold the gas everywhere. -/
theorem sheet_fills (m : Nat) (hm : m < 2) (g : Iter.Mem) (mk : Nat → Bool)
    (hg : Fills2 mixCfg sheetFronts 4 3 (1 / 10) 1 2 m sheetField g mk)
    (x y : Nat) (hx : x < 4) (hy : y < 3) (v : Fin mixCfg.V) : g (cell x y 3 * 16 + v) = tubeQ (tubeLevel x) v := by
  have hv : v.1 < 16 := v.2
  have hj : cell x y 3 < 4 * 3 := cell_lt hx hy
  by_cases hl : v.1 = 15
  · have := (fills2_keeps sheetFronts 4 3 (1 / 10) 1 2 m sheetField g mk hg _ hj).1 v ⟨by rw [hl]; decide, v.2⟩
    exact this.trans (sheetField_get x y hy v)
  · obtain ⟨g2, mk2, hf2, e⟩ := sheet_exists m hm
    obtain ⟨grid, hgrid, eg⟩ := hg
    obtain ⟨grid2, hgrid2, eg2⟩ := hf2
    change Fill.ghostCells mixCfg [4, 3] [1 / 10, 1] m 2 _ _ _ _ _ _ = _ at hgrid hgrid2
    have hsame : some (grid, mk) = some (grid2, mk2) := hgrid.symm.trans hgrid2
    cases hsame
    have hgv : g (cell x y 3 * 16 + v) = g2 (cell x y 3 * 16 + v) := (eg _ hj v v.2).trans (eg2 _ hj v v.2).symm
    have hlt : v.1 < 15 := by omega
    have hq : ∀ a, tubeQ (tubeLevel a) v = tubeQ (tubeLevel x) v := fun a => by simp only [tubeQ, if_neg hl]
    rw [hgv]
    obtain ⟨x', e'⟩ := e x hx y hy v hlt
    exact e'.trans ((sheetField_get x' y hy v).trans (hq _))

theorem sheet_pad (m : Nat) (hm : m < 2) (g : Iter.Mem) (mk : Nat → Bool)
    (hg : Fills2 mixCfg sheetFronts 4 3 (1 / 10) 1 2 m sheetField g mk)
    (ub : Nat → Fin mixCfg.V → ℝ) (hp : Pads2 (sheetEnv T h W fl) (fun _ => .transmissive) g ub) (r s : Nat)
    (hr : r < 4 + 2) (hs : s < 3 + 2) : ∃ j < 4, ub (cell r s (3 + 2)) = tubeQ (tubeLevel j) := by
  obtain ⟨old, m', hm', hub⟩ := hp
  obtain ⟨m'', e, a, -⟩ := Grid.boundaries_2d ⟨1, none⟩ 4 3 .transmissive .transmissive .transmissive .transmissive (memOf mixCfg g old)
    (by decide) (by decide) (by decide) (by decide) (by decide) (by decide)
  change boundaries2D ⟨1, none⟩ 4 3 .transmissive .transmissive .transmissive .transmissive _ = _ at hm'
  rw [hm'] at e
  cases e
  have h1 := srcOf_lt (N := 1) (nx := 4) (b0 := .transmissive) (b1 := .transmissive) (by omega) (by omega) (show r < 4 + 2 * 1 by omega)
  have h2 := srcOf_lt (N := 1) (nx := 3) (b0 := .transmissive) (b1 := .transmissive) (by omega) (by omega) (show s < 3 + 2 * 1 by omega)
  refine ⟨_, h1, ?_⟩
  funext v
  have := a r hr s hs
  simp only [mul_one] at this
  rw [hub]
  unfold cell
  rw [this, ghost_open _ _ _ _ (Or.inl rfl) (Or.inl rfl), ghost_open _ _ _ _ (Or.inl rfl) (Or.inl rfl)]
  exact sheet_fills m hm g mk hg _ _ h1 h2 v

/-- For small time steps both materials are clear everywhere. -/
theorem sheet_clear : ∃ τ > 0, ∀ dt, 0 ≤ dt → dt ≤ τ → ∀ m < 2, ∀ x < 4, ∀ y < 3,
    Clear2 (sheetEnv T h W fl) sheetFronts (1 / 10) 1 2 m (fun _ => .transmissive) false (1 / 4) (1 / 4) dt sheetField x y := by
  obtain ⟨sp, hsp⟩ : ∃ sp : Nat → Nat → ℝ, ∀ d j, sp d j = speed mixCfg (samplePar sample) (tubeQ (tubeLevel j)) d := ⟨_, fun _ _ => rfl⟩
  have s0 : ∀ d j, 0 ≤ sp d j := fun d j => by rw [hsp]; exact (abs_nonneg _).trans (speed_ge (samplePar sample) _ _)
  have hS : 0 ≤ ∑ j ∈ Finset.range 4, (sp 0 j + sp 1 j) := Finset.sum_nonneg fun j _ => add_nonneg (s0 0 j) (s0 1 j)
  refine ⟨1 / 40 / (1 + ∑ j ∈ Finset.range 4, (sp 0 j + sp 1 j)), by positivity,
    fun dt d0 d1 m hm x hx y hy g mk hf hk => ⟨fun j hj _ => ?_, fun ub hp => ?_, ?_⟩⟩
  · change j < 4 * 3 at hj
    have := sheet_fills m hm g mk hf (j / 3) (j % 3) (by omega) (by omega) ⟨0, by decide⟩
    rw [show cell (j / 3) (j % 3) 3 = j by unfold cell; omega] at this
    rw [show j * mixCfg.V = j * 16 + 0 from rfl, this]
    simp [tubeQ]
  · simp only [Bool.false_eq_true, if_false]
    rintro p q ⟨hp1, hq1, -⟩
    obtain ⟨j, -, e⟩ := sheet_pad T h W fl m hm g mk hf ub hp (x + p) (y + q) (by omega) (by omega)
    obtain ⟨a, ha, -⟩ := sheet_pred T h W fl dt (tubeLevel j)
    change ((sheetEnv T h W fl).pred2 dt (fun _ _ => ub (cell (x + p) (y + q) (3 + 2)))).isSome = true
    rw [e, ha]
    rfl
  · rintro q ⟨ub, r, s, hp, ⟨r1, s1, -⟩, a, ha, rfl⟩
    obtain ⟨j, hj, e⟩ := sheet_pad T h W fl m hm g mk hf ub hp (x + r) (y + s) (by omega) (by omega)
    obtain ⟨a', ha', hc⟩ := sheet_pred T h W fl dt (tubeLevel j)
    change (sheetEnv T h W fl).pred2 dt (fun _ _ => ub (cell (x + r) (y + s) (3 + 2))) = some a at ha
    rw [e, ha'] at ha
    cases ha
    rw [hc]
    change dt * speed mixCfg (samplePar sample) _ 0 ≤ 1 / 4 * (1 / 10) ∧ dt * speed mixCfg (samplePar sample) _ 1 ≤ 1 / 4 * 1
    rw [← hsp, ← hsp]
    have := Finset.single_le_sum (f := fun j => sp 0 j + sp 1 j) (fun j _ => add_nonneg (s0 0 j) (s0 1 j)) (Finset.mem_range.2 hj)
    have := s0 0 j
    have := s0 1 j
    rw [le_div_iff₀ (by positivity)] at d1
    constructor <;> nlinarith

end sheet

/-- Two gases on four by three cells in first order: for all small time steps and any number of threads the pass exists, the level set
stays between its smallest and its largest value, and cells that still belong to the first gas next to where it was have a positive
density. -/
example (T : Tab 1) (h : T.Ok) (W : Weno.Setup 1) :
    let E := sheetEnv T h W (rusanov mixCfg (samplePar sample))
    ∃ τ > 0, ∀ dt, 0 ≤ dt → dt ≤ τ → ∀ threads > 0, ∀ nc,
      (∃ u', MovesMulti2 [some E, some E] sheetFronts 4 3 (1 / 10) 1 (fun _ => .transmissive) nc false threads dt sheetField u') ∧
      ∀ u', MovesMulti2 [some E, some E] sheetFronts 4 3 (1 / 10) 1 (fun _ => .transmissive) nc false threads dt sheetField u' →
        Between mixCfg (4 * 3) 15 (-3 / 20) (3 / 20) u' ∧
          ∀ y < 3, materialIndex mixCfg (view mixCfg u' (cell 2 y 3)) = 0 → 0 < u' (cell 2 y 3 * 16) := by
  intro E
  have hE : E.Ok := sheet_ok T h W _
  obtain ⟨τ, hτ, hclear⟩ := sheet_clear T h W (rusanov mixCfg (samplePar sample))
  have hEs : ∀ (m : Nat) (E' : Env mixCfg 1), ([some E, some E] : List (Option (Env mixCfg 1)))[m]? = some (some E') → m < 2 ∧ E' = E := by
    intro m E' hm
    match m, hm with
    | 0, hm => exact ⟨by omega, by simpa using hm.symm⟩
    | 1, hm => exact ⟨by omega, by simpa using hm.symm⟩
  refine ⟨τ, hτ, fun dt d0 d1 threads hT nc => ⟨?_, fun u' hm => ⟨?_, fun y hy hidx => ?_⟩⟩⟩
  · obtain ⟨g0, mk0, hf0, -⟩ := sheet_exists 0 (by omega)
    obtain ⟨g1, mk1, hf1, -⟩ := sheet_exists 1 (by omega)
    obtain ⟨g0', hg0⟩ := movesMasked2_ader_exists E (by decide) hE (fun _ => .transmissive) (fun _ _ => by decide) nc threads mk0 dt g0
    obtain ⟨g1', hg1⟩ := movesMasked2_ader_exists E (by decide) hE (fun _ => .transmissive) (fun _ _ => by decide) nc threads mk1 dt g1
    obtain ⟨u', hu'⟩ := make_u_defined mixCfg (4 * 3) ((List.range 2).map fun m => if m = 0 then g0' else g1')
      ((List.range 2).map fun m => if m = 0 then mk0 else mk1) ([some E, some E].map (Option.map Env.P)) sheetField (by simp [mixCfg]) (by simp)
    refine ⟨u', fun m => if m = 0 then g0 else g1, _, _, fun m E' hm => ?_, fun m hm => ?_, hu'⟩
    · obtain ⟨hm2, rfl⟩ := hEs m E' hm
      rcases Nat.eq_zero_or_pos m with rfl | h0
      · exact ⟨hf0, hg0⟩
      · obtain rfl : m = 1 := by omega
        exact ⟨hf1, hg1⟩
    · match m, hm with
      | 0, hm => simp at hm
      | 1, hm => simp at hm
  · refine multi2_level [some E, some E] sheetFronts 4 3 (1 / 10) 1 (fun _ => .transmissive) (fun _ _ => by decide) nc false threads hT dt d0
      sheetField u' rfl ?_ (1 / 4) (1 / 4) (by norm_num) ?_ hm 15 ⟨by decide, by decide⟩ _ _ ?_
    · intro m E' hm
      obtain ⟨-, rfl⟩ := hEs m E' hm
      exact ⟨W, 0, 4, 0, hE, sheet_explicit T h W _, rfl, show (0 : ℝ) < 1 / 10 by norm_num, one_pos, rfl, rfl, fun f hf => (nomatch hf),
        Or.inl rfl⟩
    · intro m E' hm x hx y hy
      obtain ⟨hm2, rfl⟩ := hEs m E' hm
      exact hclear dt d0 d1 m hm2 x hx y hy
    · intro i hi
      have := sheet_level (i / 3) (i % 3) (by omega)
      rw [show cell (i / 3) (i % 3) 3 = i by unfold cell; omega] at this
      rw [show i * mixCfg.V + 15 = i * 16 + 15 from rfl, this]
      have h0 : (0 : ℝ) ≤ ((i / 3 : Nat) : ℝ) := Nat.cast_nonneg _
      have h3 : ((i / 3 : Nat) : ℝ) ≤ 3 := by exact_mod_cast (by omega : i / 3 ≤ 3)
      unfold tubeLevel
      constructor <;> linarith
  · have hdiv : ∀ x y, y < 3 → cell x y 3 / 3 = x := fun x y hy => (cell_div 3 x y hy).1
    refine multi2_dense [some E, some E] sheetFronts (1 / 10) 1 (fun _ => .transmissive) (fun _ _ => by decide) nc false threads hT dt d0
      sheetField u' rfl 0 E rfl W 0 4 0 hE (sheet_explicit T h W _) rfl (show (0 : ℝ) < 1 / 10 by norm_num) one_pos (fun f hf => nomatch hf)
      2 y (show 2 < 4 by omega) hy (1 / 4) (1 / 4) (by norm_num) (hclear dt d0 d1 0 (by omega) 2 (by omega) y hy) ?_ hm hidx
    have hφ : ∀ x y, y < 3 → sheetFronts.φ 0 (cell x y 3) = ((x : ℝ) + 1 / 2) * (1 / 10) - 1 / 5 := fun x y hy => by
      simp only [sheetFronts, planeFronts, if_true, hdiv x y hy]
    refine Or.inr ⟨?_, cell 1 y 3, ⟨2, y, 1, y, show 2 < 4 by omega, hy, show 1 < 4 by omega, hy, rfl, rfl, by omega⟩, ?_, fun hiso => ?_⟩
    · change 0 < sheetFronts.φ 0 (cell 2 y 3)
      rw [hφ 2 y hy]
      norm_num
    · rw [hφ 1 y hy]
      norm_num
    · have := hiso.2 (cell 0 y 3) ⟨1, y, 0, y, show 1 < 4 by omega, hy, show 0 < 4 by omega, hy, rfl, rfl, by omega⟩
      rw [hφ 0 y hy] at this
      norm_num at this

end

end Verif.Run
