import Verif.Rot.MirrorShear
import Verif.Run.Contact

/-! # Mirror images on planes -/

namespace Verif.Run

open Verif.Sys Verif.Iter Verif.Dg Verif.Fv Verif.Step Verif.Grid Verif.Rot

noncomputable section

variable {c : Sys.Cfg}

/-- The step of a plane whose cells are all alike. -/
theorem timestep_even (mae : Sys.Par → St → Nat → Option ℝ) (P : Sys.Par) (ncell : Nat) (hn : 0 < ncell) (u : Iter.Mem) (dx dy s0 s1 : ℝ)
    (hdx : 0 < dx) (hdy : 0 < dy) (h0 : 0 ≤ s0) (h1 : 0 < s1) (h : ∀ i < ncell, mae P (view c u i) 0 = some s0 ∧ mae P (view c u i) 1 = some s1)
    (CFL t tf : ℝ) (count : Nat) (hC : 0 < CFL) (htf : t + (if count ≤ 5 then CFL / 5 else CFL) / (s0 / dx + s1 / dy) < tf) :
    timestep c mae [u] [fun _ => true] [dx, dy] CFL t tf count [some P] 1 ncell =
      .fin ((if count ≤ 5 then CFL / 5 else CFL) / (s0 / dx + s1 / dy)) := by
  set K : ℝ := if count ≤ 5 then CFL / 5 else CFL with hK
  have hKp : 0 < K := by rw [hK]; split_ifs <;> positivity
  have hS : 0 < s0 / dx + s1 / dy := by positivity
  have ht : t < tf := by have : 0 < K / (s0 / dx + s1 / dy) := by positivity
                         linarith
  obtain ⟨dt, e, d0, d1, b, a⟩ := timestep_spec c mae [u] [fun _ => true] [dx, dy] [some P] CFL t tf count 1 ncell hC ht
  have hcell : ∀ i < ncell, cellSpeed mae [dx, dy] P (view c u i) = some (s0 / dx + s1 / dy) := fun i hi => by
    simp [cellSpeed, List.range_succ, (h i hi).1, (h i hi).2]
  have hb := b 0 0 P ⟨Nat.one_pos, hn, rfl, rfl⟩ _ (hcell 0 hn)
  rw [e]
  congr 1
  rw [eq_div_iff hS.ne']
  rcases a with a | ⟨m, j, P', s, ⟨l1, l2, l3, -⟩, hs, he⟩
  · exfalso
    rw [← le_div_iff₀ hS] at hb
    linarith
  · obtain rfl : m = 0 := by omega
    obtain rfl : P = P' := by simpa using l3
    have hs' : cellSpeed mae [dx, dy] P (view c u j) = some s := hs
    rw [hcell j l2] at hs'
    rw [Option.some.inj hs']
    exact he

/-- **On planes a mirror image takes other time steps.**  Let all cells of a plane hold the same sheared material, and those of another
its mirror image in the first axis.  Unless the run is about to end, `timestep` gives the second one a longer step, so that the
two runs are at different times after one pass. -/
theorem timestep_mirror_false (hv : c.viscous = true) (ht : c.thermal = false) (P : Sys.Par) (hmix : c.mix (mirPar P) = c.mix P)
    (hP : P.multi = false) (hr : ¬ P.reaction > -1) (Q : St) (hρ : 0 < Q 0) (hk : 0 < cs2 P.toParams (Q 0)) (hβ : 0 ≤ P.β)
    (hc : 0 < Eig.c0 c P Q) (s : ℝ) (hs : 0 < s) (hA : getA Q = shearA s) (mae : Sys.Par → St → Nat → Option ℝ)
    (hmae : ∀ P q d, mae P q d = some (Eig.maxAbsEigs c P q (dir d))) (ncell : Nat) (hn : 0 < ncell) (u w : Iter.Mem)
    (hu : ∀ i < ncell, ∀ v < c.V, u (i * c.V + v) = Q v) (hw : ∀ i < ncell, ∀ v < c.V, w (i * c.V + v) = mir c Q v)
    (dx dy : ℝ) (hdx : 0 < dx) (hdy : 0 < dy) (CFL : ℝ) (hC : 0 < CFL) (count : Nat) :
    ∃ d d', 0 < d ∧ d < d' ∧ ∀ t tf, t + d' < tf →
      timestep c mae [u] [fun _ => true] [dx, dy] CFL t tf count [some P] 1 ncell = .fin d ∧
      timestep c mae [w] [fun _ => true] [dx, dy] CFL t tf count [some (mirPar P)] 1 ncell = .fin d' := by
  have hV := Iter.V_ge c hv
  have lt := mirror_second c P Q hv ht hmix hρ hk hβ hc s hs hA
  have eq0 := mir_maxAbsEigs Q hv hmix
  have su : ∀ i < ncell, ∀ d, Eig.maxAbsEigs c P (view c u i) d = Eig.maxAbsEigs c P Q d := fun i hi d =>
    agree_speed ht P hP hr (fun v hv' => hu i hi v (by omega)) d
  have sw : ∀ i < ncell, ∀ d, Eig.maxAbsEigs c (mirPar P) (view c w i) d = Eig.maxAbsEigs c (mirPar P) (mir c Q) d := fun i hi d =>
    agree_speed ht (mirPar P) hP hr (fun v hv' => hw i hi v (by omega)) d
  have nn : ∀ P Q d, 0 ≤ Eig.maxAbsEigs c P Q d := fun P Q d => by
    rw [Eig.maxAbsEigs_eq]; positivity
  have hA' : getA (mir c Q) = shearA (-s) := by
    rw [mir_A, hA]
    ext i j
    rw [mirrorM_mat]
    fin_cases i <;> fin_cases j <;> simp [shearA, sg]
  have pos : 0 < Eig.maxAbsEigs c (mirPar P) (mir c Q) 1 :=
    shear_speed_pos c (mirPar P) (mir c Q) hv ht (by rw [mir_0]; exact hρ.ne') (by rw [mir_0]; exact hk) (-s) hA'
  set K : ℝ := if count ≤ 5 then CFL / 5 else CFL with hK
  have hKp : 0 < K := by rw [hK]; split_ifs <;> positivity
  set s0 := Eig.maxAbsEigs c P Q 0
  set s1 := Eig.maxAbsEigs c P Q 1
  set s1' := Eig.maxAbsEigs c (mirPar P) (mir c Q) 1
  have h0 : 0 ≤ s0 := nn P Q 0
  have h1 : 0 < s1 := pos.trans lt
  have S' : 0 < s0 / dx + s1' / dy := by positivity
  have SS : s0 / dx + s1' / dy < s0 / dx + s1 / dy := by
    have := (div_lt_div_iff_of_pos_right hdy).2 lt
    linarith
  have hlt : K / (s0 / dx + s1 / dy) < K / (s0 / dx + s1' / dy) := div_lt_div_of_pos_left hKp S' SS
  refine ⟨K / (s0 / dx + s1 / dy), K / (s0 / dx + s1' / dy), div_pos hKp (S'.trans SS), hlt, fun t tf htf => ⟨?_, ?_⟩⟩
  · exact timestep_even mae P ncell hn u dx dy s0 s1 hdx hdy h0 h1 (fun i hi => by
      rw [hmae, hmae]; exact ⟨congrArg some (su i hi 0), congrArg some (su i hi 1)⟩) CFL t tf count hC (by rw [← hK]; linarith)
  · exact timestep_even mae (mirPar P) ncell hn w dx dy s0 s1' hdx hdy h0 pos (fun i hi => by
      rw [hmae, hmae]; exact ⟨congrArg some ((sw i hi 0).trans eq0), congrArg some (sw i hi 1)⟩) CFL t tf count hC (by rw [← hK]; exact htf)

/-- Density 1, energy 5, at rest, under simple shear of size 1. -/
def shearState : St := fun i => if i = 0 then 1 else if i = 1 then 5 else if i = 5 ∨ i = 6 ∨ i = 9 ∨ i = 13 then 1 else 0

theorem shearState_facts : getA shearState = shearA 1 ∧ 0 < cs2 (samplePar sample).toParams (shearState 0) ∧
    0 < Eig.c0 lineCfg (samplePar sample) shearState := by
  have hA : getA shearState = shearA 1 := by
    ext i j
    fin_cases i <;> fin_cases j <;> simp [getA, shearState, shearA]
  have h0 : shearState 0 = 1 := rfl
  have hG : devGsq (getA shearState) = 8 / 3 := by
    rw [hA]; simp [devGsq, dot3, shearA]; norm_num
  have hcs : cs2 (samplePar sample).toParams (shearState 0) = 1 := by norm_num [cs2, samplePar, sample, h0]
  have hp : pressure lineCfg (samplePar sample) shearState = 5 := by
    have h2 : E2A (samplePar sample).toParams (shearState 0) (getA shearState) = 0 := by
      rw [E2A, hG, h0]; norm_num [C0, samplePar, sample, gammaMG]
    have h3 : E3 (vel shearState) = 0 := by simp [E3, sq3, vel, getRv, shearState]
    simp only [pressure, internalEnergy, h3, h2]
    norm_num [samplePar, sample, pressureMG, eRef, pRef, gammaMG, shearState, lineCfg]
  refine ⟨hA, by norm_num [hcs], ?_⟩
  unfold Eig.c0
  refine Real.sqrt_pos.2 ?_
  simp only [dEdrho, dEdp, hp, hG, h0]
  norm_num [samplePar, sample, dedrho, dedp, gammaMG, pRef, eRef, dpRef, deRef, dGammaMG, dC0, dcs2, cs2]

/-- Such a material on a plane of 12 cells. -/
example : ∃ d d' : ℝ, 0 < d ∧ d < d' ∧ ∀ t tf, t + d' < tf →
    timestep lineCfg (fun P q d => some (Eig.maxAbsEigs lineCfg P q (dir d))) [fun k => shearState (k % 14)] [fun _ => true] [1 / 4, 1 / 3]
      (9 / 10) t tf 0 [some (samplePar sample)] 1 12 = .fin d ∧
    timestep lineCfg (fun P q d => some (Eig.maxAbsEigs lineCfg P q (dir d))) [fun k => mir lineCfg shearState (k % 14)] [fun _ => true]
      [1 / 4, 1 / 3] (9 / 10) t tf 0 [some (mirPar (samplePar sample))] 1 12 = .fin d' := by
  obtain ⟨hA, hk, hc⟩ := shearState_facts
  have hV : lineCfg.V = 14 := rfl
  refine timestep_mirror_false (c := lineCfg) rfl rfl (samplePar sample) rfl rfl (by norm_num [samplePar]) shearState one_pos hk
    (by norm_num [samplePar, sample]) hc 1 one_pos hA _ (fun P q d => rfl) 12 (by omega) _ _ (fun i _ v hv => ?_) (fun i _ v hv => ?_)
    (1 / 4) (1 / 3) (by norm_num) (by norm_num) (9 / 10) (by norm_num) 0
  all_goals
    rw [hV] at hv ⊢
    have : (i * 14 + v) % 14 = v := by omega
    simp only [this]

end

end Verif.Run
