import Verif.Mix.Model
import Verif.Newton.Solve
import Verif.Sys.Eos

/-!
# C80–C82: mixtures
-/

namespace Verif.Mix

open Verif.Sys Verif.Newton Verif.Newton.Ext

attribute [local instance] Classical.propDecidable

variable {σ : Type}

/-- Two phases with mass fractions `lam` and `1 - lam` share pressure and temperature, and their volumes and energies add up to
those of the mixture. -/
structure Equilibrium (P1 P2 : Params) (ρ e lam p ρ1 ρ2 : ℝ) : Prop where
  volume : lam / ρ1 + (1 - lam) / ρ2 = 1 / ρ
  energy : ∃ e1 e2, pressureMG P1 ρ1 e1 = p ∧ pressureMG P2 ρ2 e2 = p ∧ lam * e1 + (1 - lam) * e2 = e
  temperature : temperatureMG P1 ρ1 p = temperatureMG P2 ρ2 p

theorem second_volume (ρ lam ρ1 : ℝ) (hl : lam ≠ 1) (h : second ρ lam ρ1 ≠ 0) :
    lam / ρ1 + (1 - lam) / second ρ lam ρ1 = 1 / ρ := by
  unfold second at h ⊢
  have hd : 1 / ρ - lam / ρ1 ≠ 0 := by
    intro h0
    rw [h0, div_zero] at h
    exact h rfl
  have h1 : (1 - lam) ≠ 0 := sub_ne_zero.mpr (Ne.symm hl)
  rw [div_div_cancel₀ h1]
  ring

theorem volume_second (ρ lam ρ1 ρ2 : ℝ) (hl : lam ≠ 1) (h : lam / ρ1 + (1 - lam) / ρ2 = 1 / ρ) :
    second ρ lam ρ1 = ρ2 := by
  unfold second
  rw [show 1 / ρ - lam / ρ1 = (1 - lam) / ρ2 by rw [← h]; ring, div_div_cancel₀ (sub_ne_zero.mpr (Ne.symm hl))]

/-- The zeros of `obj` are the equilibria. -/
theorem obj_zero_iff (P1 P2 : Params) (ρ e lam p ρ1 ρ2 : ℝ) (hl : lam ≠ 1) (h1 : ρ1 ≠ 0) (h2 : ρ2 ≠ 0)
    (g1 : gammaMG P1 ρ1 ≠ 0) (g2 : gammaMG P2 ρ2 ≠ 0) :
    Equilibrium P1 P2 ρ e lam p ρ1 ρ2 ↔ second ρ lam ρ1 = ρ2 ∧ ∀ i, obj P1 P2 ρ e lam p ρ1 i = 0 := by
  constructor
  · rintro ⟨hv, ⟨e1, e2, k1, k2, k3⟩, ht⟩
    have hs := volume_second ρ lam ρ1 ρ2 hl hv
    refine ⟨hs, fun i => ?_⟩
    unfold obj
    rw [hs, ← k1, E1_pressure P1 ρ1 e1 h1 g1, k1, ← k2, E1_pressure P2 ρ2 e2 h2 g2, k2, ht]
    fin_cases i
    · simp; linarith
    · simp
  · rintro ⟨hs, h⟩
    have a := h 0
    have b := h 1
    unfold obj at a b
    rw [hs] at a b
    simp at a b
    refine ⟨?_, ⟨E1 P1 ρ1 p, E1 P2 ρ2 p, pressure_E1 P1 ρ1 p h1 g1, pressure_E1 P2 ρ2 p h2 g2, by linarith⟩,
      by linarith⟩
    rw [← hs]
    exact second_volume ρ lam ρ1 hl (hs ▸ h2)

theorem bound_fin (P : Par) (ρ e lam p ρ1 : ℝ) (bad : Vec 2 → Vec 2)
    (h : Sound P.toParams P.mp2 ρ lam ρ1) :
    bound P ρ e lam bad ![fin p, fin ρ1] = fun i => fin (obj P.toParams P.mp2 ρ e lam p ρ1 i) := by
  unfold bound
  have hx : ∃ y : ℝ × ℝ, (![fin p, fin ρ1] : Vec 2) = ![fin y.1, fin y.2] ∧ Sound P.toParams P.mp2 ρ lam y.2 :=
    ⟨(p, ρ1), rfl, h⟩
  rw [dif_pos hx]
  have k := hx.choose_spec.1
  have k0 : p = hx.choose.1 := Ext.fin.inj (congrFun k 0)
  have k1 : ρ1 = hx.choose.2 := Ext.fin.inj (congrFun k 1)
  rw [← k0, ← k1]

/-- **C80.** Whenever the Newton solver inside `solve_multi` meets its tolerance, the volumes of the phases add up to the volume
of the mixture, each phase has the pressure returned, and energy and temperature agree within the tolerance.  Phases whose
equation of state takes the density to a fractional power have positive density. -/
theorem mixture (c : Cfg) (P : Par) (Q : St) (nm : Vec 2 → Ext) (hm : IsMaxNorm nm)
    (hp : ∀ v : Vec 2, (∃ i, v i = nan) → nm v = nan) (tol : ℝ) (ht : 0 ≤ tol) (z : Ext → Bool) (fuel : Nat)
    (hf : 7 ≤ fuel) (solve : σ → Vec 2 → Vec 2 → Ext → σ × Vec 2) (jac : σ) (bad : Vec 2 → Vec 2)
    (hbad : ∀ x, ∃ i, ∀ y, bad x i ≠ fin y) (hl0 : Q c.mV / Q 0 ≠ 0) (hl1 : Q c.mV / Q 0 ≠ 1)
    (hg1 : ∀ r, r ≠ 0 → gammaMG P.toParams r ≠ 0) (hg2 : ∀ r, r ≠ 0 → gammaMG P.mp2 r ≠ 0) (x : Vec 2)
    (hrun : run P (Q 0) (internalEnergy c P Q) (Q c.mV / Q 0) nm tol z fuel solve jac bad = some (x, true))
    (hmix : x = ![fin (c.mix P (Q 0) (internalEnergy c P Q) (Q c.mV / Q 0)).1,
      fin (c.mix P (Q 0) (internalEnergy c P Q) (Q c.mV / Q 0)).2]) :
    let s := solveMulti c P Q
    let lam := Q c.mV / Q 0
    s.2.1 ≠ 0 ∧ s.2.2 ≠ 0 ∧ ((∃ a ∈ exponents P.toParams, ∀ k : ℤ, a ≠ k) → 0 < s.2.1) ∧
      ((∃ a ∈ exponents P.mp2, ∀ k : ℤ, a ≠ k) → 0 < s.2.2) ∧ lam / s.2.1 + (1 - lam) / s.2.2 = 1 / Q 0 ∧
      (∃ e1 e2, pressureMG P.toParams s.2.1 e1 = s.1 ∧ pressureMG P.mp2 s.2.2 e2 = s.1 ∧
        |internalEnergy c P Q - (lam * e1 + (1 - lam) * e2)| ≤ tol) ∧
      |temperatureMG P.toParams s.2.1 s.1 - temperatureMG P.mp2 s.2.2 s.1| ≤ tol := by
  intro s lam
  have hs : s = ((c.mix P (Q 0) (internalEnergy c P Q) lam).1, (c.mix P (Q 0) (internalEnergy c P Q) lam).2,
      second (Q 0) lam (c.mix P (Q 0) (internalEnergy c P Q) lam).2) := by
    simp only [s, solveMulti]
    rw [if_neg hl1, if_neg hl0]
    rfl
  change x = ![fin (c.mix P (Q 0) (internalEnergy c P Q) lam).1, fin (c.mix P (Q 0) (internalEnergy c P Q) lam).2] at hmix
  rw [hs]
  set p := (c.mix P (Q 0) (internalEnergy c P Q) lam).1
  set ρ1 := (c.mix P (Q 0) (internalEnergy c P Q) lam).2
  have key := early_stop_nan nm hm hp (defaultTol tol) ht z fuel hf _ solve jac _ x hrun
  have hS : Sound P.toParams P.mp2 (Q 0) lam ρ1 := by
    by_contra hn
    obtain ⟨i, hi⟩ := hbad x
    obtain ⟨y, hy, -⟩ := key i
    unfold bound at hy
    rw [dif_neg] at hy
    · exact hi y hy
    · rintro ⟨y, hy, hS⟩
      rw [hmix] at hy
      have := congrFun hy 1
      simp at this
      rw [← this] at hS
      exact hn hS
  subst hmix
  rw [bound_fin _ _ _ _ _ _ _ hS] at key
  obtain ⟨y0, h0, k0⟩ := key 0
  obtain ⟨y1, h1, k1⟩ := key 1
  rw [← Ext.fin.inj h0] at k0
  rw [← Ext.fin.inj h1] at k1
  simp only [obj, Matrix.cons_val_zero, Matrix.cons_val_one] at k0 k1
  have pos : ∀ M r, Number M r → (∃ a ∈ exponents M, ∀ k : ℤ, a ≠ k) → 0 < r := by
    rintro M r hN ⟨a, ha, hk⟩
    by_contra hr
    obtain ⟨k, h⟩ := hN.frac (lt_of_le_of_ne (not_lt.1 hr) hN.ne) a ha
    exact hk k h
  refine ⟨hS.first.ne, hS.second.ne, pos _ _ hS.first, pos _ _ hS.second, second_volume _ _ _ hl1 hS.second.ne, ⟨E1 P.toParams ρ1 p, E1 P.mp2 (second (Q 0) lam ρ1) p,
    pressure_E1 _ _ _ hS.first.ne (hg1 _ hS.first.ne),
    pressure_E1 _ _ _ hS.second.ne (hg2 _ hS.second.ne), ?_⟩, k1⟩
  rw [← sub_sub]
  exact k0

/-- **C80.** A pure phase has its own pressure, cut off at zero. -/
theorem pure_phase (c : Cfg) (P : Par) (Q : St) (first : Bool) (hl : Q c.mV / Q 0 = if first then 1 else 0) (hρ : 0 < Q 0) :
    let s := solveMulti c P Q
    let M := if first then P.toParams else P.mp2
    0 < gammaMG M (Q 0) → 0 ≤ s.1 ∧ s.2 = (Q 0, Q 0) ∧
      (0 ≤ pressureMG M (Q 0) (internalEnergy c P Q) ↔ pressureMG M (Q 0) (internalEnergy c P Q) = s.1) ∧
      internalEnergy c P Q ≤ E1 M (Q 0) s.1 := by
  intro s M hg
  have hs : s = (max (pressureMG M (Q 0) (internalEnergy c P Q)) 0, Q 0, Q 0) := by
    cases first
    · simp [s, M, solveMulti, hl]
    · simp [s, M, solveMulti, hl]
  rw [hs]
  refine ⟨le_max_right _ _, rfl, ?_, ?_⟩
  · constructor
    · intro h
      exact (max_eq_left h).symm
    · intro h
      rw [h]
      exact le_max_right _ _
  · have : internalEnergy c P Q = E1 M (Q 0) (pressureMG M (Q 0) (internalEnergy c P Q)) :=
      (E1_pressure M (Q 0) _ hρ.ne' hg.ne').symm
    refine this.le.trans ?_
    unfold E1
    have hd : 0 < Q 0 * gammaMG M (Q 0) := mul_pos hρ hg
    gcongr
    exact le_max_left _ _

/-- **C80.** A mixture of a material with itself: the solver stops at its start, with the pressure of the material and both
densities equal. -/
theorem same_material (P : Par) (hP : P.mp2 = P.toParams) (ρ e lam : ℝ) (hN : Number P.toParams ρ) (hl1 : lam ≠ 1)
    (hg : gammaMG P.toParams ρ ≠ 0) (hpr : 0 ≤ pressureMG P.toParams ρ e) (nm : Vec 2 → Ext) (hm : IsMaxNorm nm) (tol : ℝ)
    (z : Ext → Bool) (fuel : Nat) (solve : σ → Vec 2 → Vec 2 → Ext → σ × Vec 2) (jac : σ) (bad : Vec 2 → Vec 2) :
    run P ρ e lam nm tol z fuel solve jac bad = some (![fin (pressureMG P.toParams ρ e), fin ρ], true) := by
  have hs : second ρ lam ρ = ρ := by
    unfold second
    rw [← sub_div, div_div_cancel₀ (sub_ne_zero.mpr (Ne.symm hl1))]
  have hst : start P ρ e lam = ![fin (pressureMG P.toParams ρ e), fin ρ] := by
    unfold start averagePressure
    rw [hP, ← add_mul, add_sub_cancel, one_mul, max_eq_left hpr]
  unfold run
  rw [hst]
  refine root_stays nm hm _ z fuel _ solve jac _ fun i => ?_
  rw [bound_fin P ρ e lam _ ρ bad ⟨hN, ?_, hs.symm ▸ hP.symm ▸ hN⟩]
  swap
  · rw [← sub_div]
    exact div_ne_zero (sub_ne_zero.mpr (Ne.symm hl1)) hN.ne
  unfold obj
  rw [hs, hP, E1_pressure _ _ _ hN.ne hg]
  fin_cases i
  · simp; ring
  · simp

/-- The hypotheses of `mixture` are met: a state whose two phases are the same gas. -/
example : ∃ (c : Cfg) (P : Par) (Q : St) (nm : Vec 2 → Ext) (x : Vec 2), IsMaxNorm nm ∧
    (∀ v : Vec 2, (∃ i, v i = nan) → nm v = nan) ∧ Q c.mV / Q 0 ≠ 0 ∧ Q c.mV / Q 0 ≠ 1 ∧
    run P (Q 0) (internalEnergy c P Q) (Q c.mV / Q 0) nm 1e-6 (fun _ => false) 7 (fun (s : Unit) _ v _ => (s, v)) ()
      (fun _ _ => nan) = some (x, true) ∧
    x = ![fin (c.mix P (Q 0) (internalEnergy c P Q) (Q c.mV / Q 0)).1,
      fin (c.mix P (Q 0) (internalEnergy c P Q) (Q c.mV / Q 0)).2] := by
  obtain ⟨nm, h1, h2⟩ := isMaxNorm_exists (n := 2) (by norm_num) fun _ => nan
  let c : Cfg := ⟨false, false, true, 2, fun P ρ e _ => (pressureMG P.toParams ρ e, ρ)⟩
  let Q : St := fun i => if i = 0 then 1 else if i = 1 then 5 else if i = 5 then 1 / 2 else 0
  have hl : Q c.mV / Q 0 = 1 / 2 := by norm_num [Q, c, Cfg.mV]
  refine ⟨c, samplePar sample, Q, nm, _, h1, h2, by rw [hl]; norm_num, by rw [hl]; norm_num, ?_, rfl⟩
  refine same_material (samplePar sample) rfl _ _ _
    ⟨by norm_num [Q], fun h => absurd h (by norm_num [Q]), fun h => absurd h (by simp [samplePar, sample])⟩ (by rw [hl]; norm_num)
    (by norm_num [gammaMG, samplePar, sample]) ?_ nm h1 _ _ _ _ _ _
  norm_num [pressureMG, eRef, pRef, gammaMG, samplePar, sample, internalEnergy, Q, c, E3, sq3, vel, getRv]

/-- With integer exponents the equations have solutions in which a phase has negative density, beside the physical one. -/
theorem negative_root : ∃ P1 P2 : Params, P1.eos = .stiffenedGas ∧ P2.eos = .stiffenedGas ∧ P1.γ = 2 ∧ P2.γ = 2 ∧
    P1.pINF = 0 ∧ P2.pINF = 1 ∧ Sound P1 P2 1 (1 / 2) (-1) ∧ second 1 (1 / 2) (-1) = 1 / 3 ∧
      (∀ i, obj P1 P2 1 (9 / 4) (1 / 2) (-3 / 4) (-1) i = 0) ∧
      ∃ p ρ1, 0 < ρ1 ∧ 0 < second 1 (1 / 2) ρ1 ∧ ∀ i, obj P1 P2 1 (9 / 4) (1 / 2) p ρ1 i = 0 := by
  refine ⟨{ sample with γ := 2, pINF := 0, cv := 1, Tref := 0 }, { sample with γ := 2, pINF := 1, cv := 1, Tref := 0 },
    rfl, rfl, rfl, rfl, rfl, rfl, ⟨⟨by norm_num, ?_, fun h => by simp [sample] at h⟩, by norm_num,
      ⟨by norm_num [second], fun h => absurd h (by norm_num [second]), fun h => by simp [sample] at h⟩⟩,
    by norm_num [second], ?_, ?_⟩
  · intro _ x hx
    simp [exponents, sample] at hx
    exact ⟨1, by rw [hx]; norm_num⟩
  · intro i
    fin_cases i <;> norm_num [obj, second, E1, eRef, pRef, gammaMG, temperatureMG, sample]
  · refine ⟨3 / 2, 4 / 5, by norm_num, by norm_num [second], fun i => ?_⟩
    fin_cases i <;> norm_num [obj, second, E1, eRef, pRef, gammaMG, temperatureMG, sample]

end Verif.Mix
