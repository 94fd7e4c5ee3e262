import Verif.Run.Second

/-! # Examples in second order -/

namespace Verif.Run

open Verif.Sys Verif.Iter Verif.Dg Verif.Fv Verif.Step Verif.Grid Verif.Rot

noncomputable section

/-- The distortion of a medium whose parts all move with one velocity stays what it is. -/
theorem pace_keeps {c : Sys.Cfg} (hv : c.viscous = true) (hmu : c.multi = false) {n : Nat} {T : Tab n} (h : T.Ok) (P : Sys.Par) (src : St → St) (junk : St)
    (wt : Nat → ℝ) (dx : ℝ) (rec : Nat → Fin n → Fin c.V → ℝ) (nx : Nat) (mask : Nat → Bool) (hM : ∀ g < nx + 2, mask g = true)
    (u : Nat → Fin c.V → ℝ) (i : Nat) (hi : i < nx) (A : Fin c.V → ℝ) (w : V3)
    (hA : ∀ g, i ≤ g → g ≤ i + 2 → ∀ k, ∀ v : Fin c.V, 5 ≤ v.1 → v.1 < 14 → rec g k v = A v)
    (hw : ∀ g, i ≤ g → g ≤ i + 2 → ∀ e, vel (ofVec c (trace T e (rec g))) = w) (v : Fin c.V) (h5 : 5 ≤ v.1) (h14 : v.1 < 14) :
    apply (kern1 (gpr c P src junk) T (rusanov c P) wt dx false).app
      (fv1 (kern1 (gpr c P src junk) T (rusanov c P) wt dx false) rec nx 1 mask) u i v = u i v := by
  have hV := Iter.V_ge c hv
  have bz : ∀ q x : Fin c.V → ℝ, (∀ v : Fin c.V, 5 ≤ v.1 → v.1 < 14 → x v = 0) → (gpr c P src junk).bdot 0 q x v = 0 := fun q x hx => by
    have hx' : ∀ k, 5 ≤ k → k < 14 → ofVec c x k = 0 := fun k h1 h2 => by
      rw [ofVec_at x ⟨k, by omega⟩ k rfl]; exact hx _ h1 h2
    change bdot c _ _ (dir 0) junk v = _
    unfold bdot
    rw [if_pos hv]
    split_ifs with h1
    · rw [hx' _ h5 h14, mul_zero]
    · unfold bdotA
      simp only [dir]
      have k1 := hx' (5 + 3 * ((v.1 - 5) / 3) + 1) (by omega) (by omega)
      have k2 := hx' (5 + 3 * ((v.1 - 5) / 3) + 2) (by omega) (by omega)
      split <;> simp_all
    · omega
    · omega
  have hT : ∀ g, i ≤ g → g ≤ i + 2 → ∀ e, ∀ v : Fin c.V, 5 ≤ v.1 → v.1 < 14 → trace T e (rec g) v = A v := fun g g1 g2 e v h1 h2 => by
    unfold trace
    rw [Finset.sum_congr rfl fun k _ => by rw [hA g g1 g2 k v h1 h2], ← Finset.sum_mul, endvals_sum h e, one_mul]
  rw [flat_cell (gpr c P src junk) (rusanov c P) wt dx rec nx mask u i hi v fun k => bz _ _ fun v h1 h2 => by
    rw [Finset.sum_congr rfl fun j _ => by rw [hA (i + 1) (by omega) (by omega) j v h1 h2], ← Finset.sum_mul, dervals_const h k, zero_mul]]
  have hb : ∀ g g', i ≤ g → g ≤ i + 2 → i ≤ g' → g' ≤ i + 2 →
      bint (gpr c P src junk) T 0 (trace T 1 (rec g)) (trace T 0 (rec g')) v = 0 := fun g g' a1 a2 a3 a4 => by
    rw [bint_get]
    refine Finset.sum_eq_zero fun k _ => ?_
    rw [bz _ _ fun v h1 h2 => by rw [Pi.sub_apply, hT g' a3 a4 0 v h1 h2, hT g a1 a2 1 v h1 h2, sub_self], mul_zero]
  have hfl : ∀ g, i ≤ g → g ≤ i + 2 → ∀ e, flux c P (ofVec c (trace T e (rec g))) (dir 0) 0 v =
      if (v.1 - 5) % 3 = 0 then dot3 (fun j => A ⟨5 + 3 * ((v.1 - 5) / 3) + j, by have := j.2; omega⟩) w else 0 := fun g a1 a2 e => by
    have := flux_e5 c P (ofVec c (trace T e (rec g))) hv 0 ⟨(v.1 - 5) / 3, by omega⟩ ⟨(v.1 - 5) % 3, by omega⟩
    rw [show 5 + (3 * ((v.1 - 5) / 3) + (v.1 - 5) % 3) = v.1 by omega] at this
    refine this.trans ?_
    rw [hw g a1 a2 e]
    by_cases h0 : (v.1 - 5) % 3 = 0
    · rw [if_pos (Fin.ext h0), if_pos h0]
      congr 1
      funext j
      change ofVec c _ _ = _
      exact (ofVec_at _ ⟨5 + 3 * ((v.1 - 5) / 3) + j, by have := j.2; omega⟩ _ (by simp only; omega)).trans
        (hT g a1 a2 e _ (by simp only; omega) (by have := j.2; simp only; omega))
    · rw [if_neg (fun h => h0 (congrArg Fin.val h)), if_neg h0]
  have hR : ∀ g g', i ≤ g → g ≤ i + 2 → i ≤ g' → g' ≤ i + 2 → rusanov c P 0 (trace T 1 (rec g)) (trace T 0 (rec g')) v =
      2 * if (v.1 - 5) % 3 = 0 then dot3 (fun j => A ⟨5 + 3 * ((v.1 - 5) / 3) + j, by have := j.2; omega⟩) w else 0 := fun g g' a1 a2 a3 a4 => by
    unfold rusanov dRus
    rw [flux_adds c P _ _ hmu, flux_adds c P (ofVec c (trace T 1 (rec g))) _ hmu, Pi.add_apply, Pi.add_apply, hfl g a1 a2, hfl g' a3 a4,
      ofVec_at _ v _ rfl, ofVec_at _ v _ rfl, hT g' a3 a4 0 v h5 h14, hT g a1 a2 1 v h5 h14, sub_self, mul_zero]
    ring
  rw [hM i (by omega), hM (i + 1) (by omega), hM (i + 2) (by omega), hb i (i + 1) le_rfl (by omega) (by omega) (by omega),
    hb (i + 1) (i + 2) (by omega) (by omega) (by omega) (by omega), hR i (i + 1) le_rfl (by omega) (by omega) (by omega),
    hR (i + 1) (i + 2) (by omega) (by omega) (by omega) (by omega)]
  simp

/-- One viscous fluid with a level set. -/
def paceCfg : Sys.Cfg := ⟨true, false, false, 1, fun _ _ _ _ => (0, 0)⟩

def paceSys : Dg.Sys (Fin paceCfg.V) := gpr paceCfg (samplePar sample) (Relax.source paceCfg (samplePar sample) 0) fun _ => 7

/-- A line of six cells in second order without half step. -/
def paceEnv (T : Tab 2) (h : T.Ok) (W : Weno.Setup 2) : Env paceCfg 2 where
  P := samplePar sample
  T := T
  nx := 6
  ny := 2
  dx := 1 / 10
  dy := 1
  fl := rusanov paceCfg (samplePar sample)
  src := Relax.source paceCfg (samplePar sample) 0
  junk := fun _ => 7
  destress := none
  coef := realCoef W.T 0
  pred1 := fun dt => Step.pred1 false 4 0 (fun w => (isStep1_exists h paceSys (initialCondition1 T (rows1 w)) dt (1 / 10)).choose)
      fun w => standardInitialGuess1 2 (rows1 w)
  pred2 := fun dt => Step.pred2 false 4 0
      (fun w => (isStep2_exists h paceSys (initialCondition2 T (rows2 w)) dt (1 / 10) 1).choose)
      fun w => standardInitialGuess2 2 (rows2 w)
  half := false
  mid1 := fun dt => Step.mid1 paceSys T dt (1 / 10)
  mid2 := fun dt => Step.mid2 paceSys T dt (1 / 10) 1
  block := rows2
  svd := fun A => ((Grid.svd_exists A).choose, (Grid.svd_exists A).choose_spec.choose_spec.choose,
    (Grid.svd_exists A).choose_spec.choose)
  steps := 4
  fuel := 7
  bad := fun q => q

/-- An unstrained fluid of density `d` and momentum `(M, 0, 0)`. -/
def paceQ (d M f : ℝ) : Fin paceCfg.V → ℝ := fun v =>
  if v.1 = 0 then d else if v.1 = 2 then M else if v.1 = 14 then f else if v.1 = 1 ∨ v.1 = 5 ∨ v.1 = 9 ∨ v.1 = 13 then 1 else 0

def paceField (d : Nat → ℝ) (M : ℝ) (f : Nat → ℝ) : Iter.Mem := fun k =>
  paceQ (d (k / 15)) M (f (k / 15)) ⟨k % 15, Nat.mod_lt _ (by omega)⟩

section pace

variable (d : Nat → ℝ) (M : ℝ) (f : Nat → ℝ)

theorem paceField_get (j : Nat) (v : Fin paceCfg.V) : paceField d M f (j * 15 + v) = paceQ (d j) M (f j) v := by
  have hv : v.1 < 15 := v.2
  have e1 : (j * 15 + v) / 15 = j := by omega
  have e2 : (j * 15 + v) % 15 = v := by omega
  simp only [paceField, e1, e2]

theorem pace_strain (d M f : ℝ) (v : Fin paceCfg.V) (h1 : 5 ≤ v.1) (h2 : v.1 < 14) : paceQ d M f v = paceQ 0 0 0 v := by
  simp only [paceQ, show v.1 ≠ 0 by omega, show v.1 ≠ 2 by omega, show v.1 ≠ 14 by omega, if_false]

theorem pace_ease (Q : Fin paceCfg.V → ℝ) (hQ : ∀ v : Fin paceCfg.V, 5 ≤ v.1 → v.1 < 14 → Q v = paceQ 0 0 0 v) :
    getA (ofVec paceCfg Q) = 1 ∧ Newton.AtEase paceCfg (samplePar sample) (ofVec paceCfg Q) := by
  have : getA (ofVec paceCfg Q) = 1 := by
    ext i j
    simp only [getA, Matrix.of_apply]
    rw [ofVec_at Q ⟨5 + (3 * i + j), show 5 + (3 * i.1 + j.1) < 15 by omega⟩ _ rfl, hQ _ (by simp) (by simp only; omega)]
    fin_cases i <;> fin_cases j <;> simp [paceQ]
  refine ⟨this, ?_, by simp [paceCfg], rfl, by norm_num [samplePar]⟩
  rw [this]
  ext i j
  fin_cases i <;> fin_cases j <;> simp [AdevG] <;> norm_num

variable (T : Tab 2) (h : T.Ok) (W : Weno.Setup 2)

theorem pace_ok : (paceEnv T h W).Ok := ⟨h, ⟨by simp [paceEnv], by simp [paceEnv]⟩, fun _ => ⟨0, rfl⟩,
    fun A => (Grid.svd_exists A).choose_spec.choose_spec.choose_spec.1⟩

theorem pace_explicit : (paceEnv T h W).Explicit W 0 4 0 :=
  ⟨rfl, fun dt => ⟨_, _, fun _ => (isStep1_exists h paceSys _ dt (1 / 10)).choose_spec, rfl⟩,
     fun dt => ⟨_, _, fun _ => (isStep2_exists h paceSys _ dt (1 / 10) 1).choose_spec, rfl⟩, fun _ => rfl, fun _ => rfl, rfl⟩

theorem pace_ode (dt : ℝ) (Q : Fin paceCfg.V → ℝ) (hQ : ∀ v : Fin paceCfg.V, 5 ≤ v.1 → v.1 < 14 → Q v = paceQ 0 0 0 v) :
    (paceEnv T h W).ode dt Q = Q ∧ (paceEnv T h W).Number dt Q := by
  obtain ⟨hA, he⟩ := pace_ease Q hQ
  have e := odeCell_rest (c := paceCfg) (samplePar sample) (paceEnv T h W).svd 4 7 (dt / 2) (ofVec paceCfg Q) rfl
    ((pace_ok T h W).svd _) (by rw [hA]; simp) he
  refine ⟨?_, ?_⟩
  · unfold Env.ode
    change (match Relax.odeCell paceCfg (samplePar sample) (paceEnv T h W).svd 4 7 (dt / 2) (ofVec paceCfg Q)
      with | some Q => fun v => Q v | none => _) = Q
    rw [e]
    funext v
    exact ofVec_at Q v _ rfl
  · unfold Env.Number
    change (Relax.odeCell paceCfg (samplePar sample) (paceEnv T h W).svd 4 7 (dt / 2) (ofVec paceCfg Q)).isSome
    rw [e]
    rfl

theorem pace_pad (ub : Nat → Fin paceCfg.V → ℝ) (hp : Pads1 (paceEnv T h W) (fun _ => .transmissive) (paceField d M f) ub) (r : Nat)
    (hr : r < 6 + 4) : ∃ j < 6, j = srcOf 2 .transmissive .transmissive 6 r ∧ ub r = paceQ (d j) M (f j) := by
  obtain ⟨old, m', hm, hub⟩ := hp
  obtain ⟨m'', e, a, -⟩ := Grid.boundaries_1d ⟨2, none⟩ 6 .transmissive .transmissive (memOf paceCfg (paceField d M f) old) (by decide)
    (by decide) (by decide)
  change boundaries1D ⟨2, none⟩ 6 .transmissive .transmissive _ = _ at hm
  rw [hm] at e
  cases e
  refine ⟨_, srcOf_lt (N := 2) (nx := 6) (b0 := .transmissive) (b1 := .transmissive) (by omega) (by omega) (show r < 6 + 2 * 2 by omega), rfl, ?_⟩
  funext v
  rw [hub, a r hr, ghost_open _ _ _ _ (Or.inl rfl) (Or.inl rfl)]
  exact paceField_get d M f _ v

/-- Where a component is the same everywhere the reconstruction shows its value. -/
theorem pace_flat (hW : W.Clean) (dt : ℝ) (ub : Nat → Fin paceCfg.V → ℝ)
    (hp : Pads1 (paceEnv T h W) (fun _ => .transmissive) (paceField d M f) ub) (v : Fin paceCfg.V) (t : ℝ)
    (ht : ∀ j < 6, paceQ (d j) M (f j) v = t) (g : Nat) (hg : g < 6 + 2) (k : Fin 2) : (paceEnv T h W).recon dt ub g k v = t := by
  have e : ∀ r < 6 + 4, (paceEnv T h W).ode dt (ub r) v = t := fun r hr => by
    obtain ⟨j, hj, -, e⟩ := pace_pad d M f T h W ub hp r hr
    rw [e, (pace_ode T h W dt _ fun v h1 h2 => pace_strain _ _ _ v h1 h2).1]
    exact ht j hj
  change weno1G (realCoef W.T 0) (fun r => (paceEnv T h W).ode dt (ub r)) ((6 + 2 : Nat) : Int) 0 g k v = t
  rw [weno1G_real]
  refine (Weno.coeffs_both W hW 0 (fun r => (paceEnv T h W).ode dt (ub (g + r)) v) (6 + 2 : Nat) 0 g (by omega) (by omega) k).trans ?_
  simp only [e (g + 1) (by omega), e (g + 2) (by omega), e g (by omega), sub_self, Weno.mix_self _ _ W.ok.eps, zero_mul, add_zero]

theorem pace_runs (hW : W.Clean) (dt : ℝ) (hM : M = 0 ∨ ∀ j, d j = d 0) :
    SecondRuns (paceEnv T h W) (fun _ => .transmissive) dt (paceField d M f) := by
  have hq : ∀ j, ∀ v : Fin paceCfg.V, 5 ≤ v.1 → v.1 < 14 → paceQ (d j) M (f j) v = paceQ 0 0 0 v := fun j v h1 h2 =>
    pace_strain _ _ _ v h1 h2
  intro ub hp
  refine ⟨fun r hr => ?_, fun maskb i hi => (pace_ode T h W dt _ fun v h1 h2 => ?_).2⟩
  · obtain ⟨j, -, -, e⟩ := pace_pad d M f T h W ub hp r hr
    rw [e]
    exact (pace_ode T h W dt _ (hq j)).2
  · have hi : i < 6 := hi
    have flat := fun v t ht g (hg : g < 6 + 2) k => pace_flat d M f T h W hW dt ub hp v t ht g hg k
    have ftr : ∀ v t, (∀ j < 6, paceQ (d j) M (f j) v = t) → ∀ g < 6 + 2, ∀ e, trace T e ((paceEnv T h W).recon dt ub g) v = t :=
      fun v t ht g hg e => by
        unfold trace
        simp only [flat v t ht g hg, ← Finset.sum_mul, endvals_sum h e, one_mul]
    have key := pace_keeps (c := paceCfg) rfl rfl h (samplePar sample) (Relax.source paceCfg (samplePar sample) 0) (fun _ => 7) (fun _ => dt)
      (1 / 10) ((paceEnv T h W).recon dt ub) 6 (Grid.extendMask1 6 (fun _ => true) maskb) (mask1_true 6 (by omega) maskb)
      (fun i => (paceEnv T h W).ode dt (cellsOf paceCfg (paceField d M f) i)) i hi (paceQ 0 0 0) ![M / d 0, 0, 0]
      (fun g g1 g2 k v h1 h2 => flat v _ (fun j _ => hq j v h1 h2) g (by omega) k) (fun g g1 g2 e => by
        have z : ∀ k, k = 3 ∨ k = 4 → ofVec paceCfg (trace T e ((paceEnv T h W).recon dt ub g)) k = 0 := fun k hk => by
          rw [ofVec_at (c := paceCfg) _ ⟨k, show k < 15 by omega⟩ k rfl]
          refine ftr _ _ (fun j _ => ?_) g (by omega) e
          rcases hk with rfl | rfl <;> simp [paceQ]
        have z2 : ofVec paceCfg (trace T e ((paceEnv T h W).recon dt ub g)) 2 = M := by
          rw [ofVec_at (c := paceCfg) _ ⟨2, show 2 < 15 by omega⟩ 2 rfl]
          exact ftr _ _ (fun j _ => by simp [paceQ]) g (by omega) e
        funext k
        have : vel (ofVec paceCfg (trace T e ((paceEnv T h W).recon dt ub g))) k =
          ofVec paceCfg (trace T e ((paceEnv T h W).recon dt ub g)) (2 + k) / ofVec paceCfg (trace T e ((paceEnv T h W).recon dt ub g)) 0 := rfl
        rw [this]
        fin_cases k
        · change ofVec paceCfg _ 2 / _ = M / d 0
          rw [z2]
          rcases hM with rfl | hM
          · simp
          · rw [ofVec_at (c := paceCfg) _ ⟨0, show 0 < 15 by omega⟩ 0 rfl, ftr _ (d 0) (fun j _ => by simpa [paceQ] using hM j) g (by omega) e]
        · change ofVec paceCfg _ 3 / _ = 0
          rw [z 3 (by omega), zero_div]
        · change ofVec paceCfg _ 4 / _ = 0
          rw [z 4 (by omega), zero_div]) v h1 h2
    have cell : cellsOf paceCfg (paceField d M f) i = paceQ (d i) M (f i) := funext fun v => paceField_get d M f i v
    refine key.trans ?_
    simp only [cell]
    rw [(pace_ode T h W dt _ (hq i)).1, hq i v h1 h2]

end pace

/-- A uniform flow to the right carries a level set that is 0 in the first cell and 1 in the others: the step exists for any number of
threads, and takes the level set above 1 in the third cell. -/
example : ∃ (T : Tab 2) (h : T.Ok) (W : Weno.Setup 2), ∀ dt > 0, ∀ threads > 0,
    (∃ u', MovesLine (paceEnv T h W) (fun _ => .transmissive) true threads dt (paceField 1 1 fun j => if j = 0 then 0 else 1) u') ∧
    ∀ u', MovesLine (paceEnv T h W) (fun _ => .transmissive) true threads dt (paceField 1 1 fun j => if j = 0 then 0 else 1) u' →
      1 < u' (2 * 15 + 14) := by
  obtain ⟨e, he⟩ := Legendre.eigenvalues_exist 2
  obtain ⟨T, -, -, hT, -⟩ := Dg.tab_exists 2 (by norm_num) e he
  obtain ⟨W, hx, hW, -⟩ := Weno.setup_exists 2 (by norm_num) T.nodes hT.inj
  refine ⟨T, hT, W, fun dt hdt threads hth => ⟨movesLine_exists _ (by decide) (pace_ok T hT W) _ (by decide) (by decide) _ _ _, fun u' hm => ?_⟩⟩
  have g := paceField_get 1 1 fun j => if j = 0 then 0 else 1
  refine level_overshoot (paceEnv T hT W) W 0 4 0 rfl (pace_ok T hT W) (pace_explicit T hT W) hW hx rfl rfl
    (Or.inr (by norm_num [paceEnv, samplePar])) rfl _ (by decide) (by decide) threads hth dt hdt (by norm_num [paceEnv]) _ u'
    (pace_runs 1 1 _ T hT W hW dt (Or.inr fun _ => rfl)) hm 14 ⟨by decide, by decide⟩ 0 (by simp [paceEnv]) 1 1 0 1
    (fun k _ => ?_) (fun k _ => ?_) ?_ (fun k _ h1 => ?_) (by norm_num) (by norm_num)
  · exact (g (0 + k) ⟨0, by decide⟩).trans (by simp [paceQ])
  · exact (g (0 + k) ⟨2, by decide⟩).trans (by simp [paceQ])
  · exact (g 0 ⟨14, by decide⟩).trans (by simp [paceQ])
  · exact (g (0 + k) ⟨14, by decide⟩).trans (by simp [paceQ]; omega)

/-- Fluid at rest whose density doubles in every other cell: the hypotheses of `second_dense` hold for every small time step. -/
example : ∃ (T : Tab 2) (h : T.Ok) (W : Weno.Setup 2), ∃ τ > 0, ∀ dt, 0 ≤ dt → dt ≤ τ → ∀ threads > 0,
    (∃ u', MovesLine (paceEnv T h W) (fun _ => .transmissive) true threads dt (paceField (fun j => if j % 2 = 0 then 1 else 2) 0 0) u') ∧
    ∀ u', MovesLine (paceEnv T h W) (fun _ => .transmissive) true threads dt (paceField (fun j => if j % 2 = 0 then 1 else 2) 0 0) u' →
      Dense paceCfg 6 u' := by
  obtain ⟨e, he⟩ := Legendre.eigenvalues_exist 2
  obtain ⟨T, -, -, hT, -⟩ := Dg.tab_exists 2 (by norm_num) e he
  obtain ⟨W, hx, hW, -⟩ := Weno.setup_exists 2 (by norm_num) T.nodes hT.inj
  let ds : Nat → ℝ := fun j => if j % 2 = 0 then 1 else 2
  let R : Nat → Fin paceCfg.V → ℝ := fun r => paceQ (ds (srcOf 2 .transmissive .transmissive 6 r)) 0 0
  let q : Nat × Fin 2 → Fin paceCfg.V → ℝ := fun x => trace T x.2 fun k v => R (x.1 + 1) v +
    Weno.mix W.T.eps (R (x.1 + 1) v - R x.1 v) (R (x.1 + 2) v - R (x.1 + 1) v) * (W.x k - 1 / 2)
  let s : Finset (Nat × Fin 2) := Finset.range 8 ×ˢ Finset.univ
  have s0 : ∀ x ∈ s, 0 ≤ speed paceCfg (samplePar sample) (q x) 0 := fun x _ => (abs_nonneg _).trans (speed_ge (samplePar sample) _ _)
  have hS := Finset.sum_nonneg s0
  have g := fun j v => paceField_get ds 0 0 j v
  have g0 : ∀ j, paceField ds 0 0 (j * 15) = ds j := fun j => (g j ⟨0, by decide⟩).trans (by simp [paceQ])
  have d1 : ∀ j, 1 ≤ ds j ∧ ds j ≤ 2 := fun j => by simp only [ds]; split_ifs <;> norm_num
  refine ⟨T, hT, W, 1 / 40 / (1 + ∑ x ∈ s, speed paceCfg (samplePar sample) (q x) 0), by positivity, fun dt d0 dτ threads hth =>
    ⟨movesLine_exists _ (by decide) (pace_ok T hT W) _ (by decide) (by decide) _ _ _, fun u' hm => ?_⟩⟩
  refine second_dense (paceEnv T hT W) W 0 4 0 rfl (pace_ok T hT W) (pace_explicit T hT W) hW hx rfl rfl (fun f hf => (nomatch hf)) _
    (by decide) (by decide) threads hth dt d0 (by norm_num [paceEnv]) _ u' (fun i _ => ?_) (fun i j _ _ _ => ?_)
    (pace_runs _ 0 _ T hT W hW dt (Or.inl rfl)) ?_ hm
  · change 0 < paceField ds 0 0 (i * 15)
    rw [g0]
    linarith [(d1 i).1]
  · change paceField ds 0 0 (i * 15) < 3 * paceField ds 0 0 (j * 15)
    rw [g0, g0]
    linarith [(d1 i).2, (d1 j).1]
  · rintro _ ⟨ub, r, e, hp, hr, rfl⟩
    have hr : r < 8 := hr
    have hu : ∀ r < 10, (paceEnv T hT W).ode dt (ub r) = R r := fun r hr => by
      obtain ⟨j, -, rfl, e⟩ := pace_pad ds 0 0 T hT W ub hp r hr
      rw [e, (pace_ode T hT W dt _ fun v h1 h2 => pace_strain _ _ _ v h1 h2).1]
      rfl
    have hq : trace T e ((paceEnv T hT W).recon dt ub r) = q (r, e) := by
      refine congrArg (trace T e) (funext fun k => funext fun v => ?_)
      change weno1G (realCoef W.T 0) (fun r => (paceEnv T hT W).ode dt (ub r)) ((6 + 2 : Nat) : Int) 0 r k v = _
      rw [weno1G_real]
      refine (Weno.coeffs_both W hW 0 (fun i => (paceEnv T hT W).ode dt (ub (r + i)) v) (6 + 2 : Nat) 0 r (by omega) (by omega) k).trans ?_
      simp only [hu (r + 1) (by omega), hu (r + 2) (by omega), hu r (by omega), Nat.add_zero]
    change dt * speed paceCfg (samplePar sample) (trace T e ((paceEnv T hT W).recon dt ub r)) 0 < 1 / 2 * (1 / 10)
    rw [hq]
    have := Finset.single_le_sum s0 (show (r, e) ∈ s by simp [s, hr])
    rw [le_div_iff₀ (by positivity)] at dτ
    nlinarith

end

end Verif.Run
