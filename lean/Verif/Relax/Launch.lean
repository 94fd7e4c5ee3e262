import Verif.Relax.React
import Verif.Relax.Long
import Verif.Relax.Thermal

/-! # The source-term half step on a whole grid -/

namespace Verif.Relax

open Verif.Sys Verif.Iter Verif.Grid

noncomputable section

theorem setA_getA (A : M3) (Q : St) : getA (setA A Q) = A := by
  ext i j
  fin_cases i <;> fin_cases j <;> simp [getA, setA, setSeg, setAt]

theorem setA_other (A : M3) (Q : St) (k : Nat) (h : ¬ (5 ≤ k ∧ k < 14)) : setA A Q k = Q k := by
  unfold setA
  rw [setSeg_out _ _ _ _ (by omega), setSeg_out _ _ _ _ (by omega), setSeg_out _ _ _ _ (by omega)]

theorem body_other (P : Par) (dt : ℝ) (Q : St) (k : Nat) (h : ¬ (2 ≤ k ∧ k < 5)) : bodyForces P dt Q k = Q k := by
  unfold bodyForces addSeg addAt
  rw [if_neg (by omega), if_neg (by omega), if_neg (by omega)]

theorem body_val (P : Par) (dt : ℝ) (Q : St) (i : Fin 3) : bodyForces P dt Q (2 + i) = Q (2 + i) + P.δp i * dt := by
  fin_cases i <;> simp [bodyForces, addSeg, addAt]

theorem getA_congr (Q R : St) (h : ∀ k, 5 ≤ k → k < 14 → Q k = R k) : getA Q = getA R := by
  ext i j
  simp only [getA, Matrix.of_apply]
  exact h _ (by omega) (by omega)

/-- What the step does to one cell. -/
structure Kept (c : Cfg) (P : Par) (dt : ℝ) (Q Q' : St) : Prop where
  mass : Q' 0 = Q 0
  energy : Q' 1 = Q 1
  momentum : ∀ i : Fin 3, Q' (2 + i) = Q (2 + i) + P.δp i * dt
  volume : (getA Q').det = (getA Q).det
  levels : ∀ k, c.mV < k → Q' k = Q k
  burn : Q' c.mV ≤ Q c.mV
  pos : 0 ≤ Q c.mV → 0 ≤ Q' c.mV
  inert : ¬ P.reaction > -1 → Q' c.mV = Q c.mV

theorem odeAnalytic_spec (c : Cfg) (P : Par) (svd : M3 → M3 × V3 × M3) (dt : ℝ) (Q Q' : St) (hv : c.viscous = true)
    (hs : IsSVD (getA Q) (svd (getA Q)).1 (svd (getA Q)).2.2 (svd (getA Q)).2.1) (h : odeAnalytic c P svd dt Q = some Q') :
    (∀ k, ¬ (2 ≤ k ∧ k < 14) → ¬ (c.thermal = true ∧ 14 ≤ k ∧ k < 17) → Q' k = Q k) ∧
    (∀ i : Fin 3, Q' (2 + i) = Q (2 + i) + P.δp i * dt) ∧ (getA Q').det = (getA Q).det := by
  simp only [odeAnalytic, hv, if_true, Option.bind_eq_bind, Option.pure_def, Option.bind_eq_some_iff] at h
  obtain ⟨R, hR, hQ'⟩ := h
  simp only [relaxDistortion, Option.map_eq_some_iff] at hR
  obtain ⟨A', hA', rfl⟩ := hR
  have hA0 : getA (bodyForces P dt Q) = getA Q := getA_congr _ _ fun k h1 h2 => body_other P dt Q k (by omega)
  rw [hA0] at hA'
  have hdet := relax_det P _ _ _ A' _ dt hs hA'
  have hT : ∀ k, ¬ (c.thermal = true ∧ 14 ≤ k ∧ k < 17) → Q' k = setA A' (bodyForces P dt Q) k := by
    intro k hk
    rw [← Option.some.inj hQ']
    by_cases ht : c.thermal = true
    · rw [if_pos ht]
      exact thermal_other _ _ _ _ fun h => hk ⟨ht, h⟩
    · rw [if_neg ht]
  refine ⟨fun k h1 h2 => ?_, fun i => ?_, ?_⟩
  · rw [hT k h2, setA_other _ _ _ (by omega), body_other _ _ _ _ (by omega)]
  · rw [hT _ (by omega), setA_other _ _ _ (by omega), body_val]
  · rw [getA_congr Q' (setA A' (bodyForces P dt Q)) fun k h1 h2 => hT k (by omega), setA_getA, hdet]

theorem odeCell_spec (c : Cfg) (P : Par) (svd : M3 → M3 × V3 × M3) (steps fuel : Nat) (dt : ℝ) (Q Q' : St)
    (hv : c.viscous = true) (hs : IsSVD (getA Q) (svd (getA Q)).1 (svd (getA Q)).2.2 (svd (getA Q)).2.1) (hn : 1 ≤ steps)
    (hf : 7 ≤ fuel) (hρ : 0 < Q 0) (hdt : 0 ≤ dt) (hK : 0 ≤ P.Kc) (hB : 0 ≤ P.Bc) (h2 : P.reaction ≤ 2)
    (h : odeCell c P svd steps fuel dt Q = some Q') : Kept c P dt Q Q' := by
  simp only [odeCell, Option.bind_eq_some_iff] at h
  obtain ⟨R, hR, hQ⟩ := h
  obtain ⟨k1, k2, k3⟩ := odeAnalytic_spec c P svd dt Q R hv hs hR
  have h14 := mV_ge' c hv
  have hth : ¬ (c.thermal = true ∧ 14 ≤ c.mV ∧ c.mV < 17) := by
    rintro ⟨ht, _, _⟩
    have := mV_thermal' c hv ht
    omega
  have hth' : ∀ k, c.mV < k → ¬ (c.thermal = true ∧ 14 ≤ k ∧ k < 17) := by
    rintro k hk ⟨ht, _, _⟩
    have := mV_thermal' c hv ht
    omega
  have h0 := k1 0 (by omega) (by omega)
  have hm := k1 c.mV (by omega) hth
  obtain ⟨Q'', e, r1, r2, r3, r4⟩ := react c P steps fuel dt R hn hf (by rw [h0]; exact hρ) hdt hK hB h2
  rw [hQ] at e
  obtain rfl := Option.some.inj e
  refine ⟨?_, ?_, ?_, ?_, ?_, ?_, ?_, ?_⟩
  · rw [r1 0 (by omega), h0]
  · rw [r1 1 (by omega), k1 1 (by omega) (by omega)]
  · intro i; rw [r1 _ (by omega), k2]
  · rw [getA_congr Q' R fun k _ _ => r1 k (by omega), k3]
  · intro k hk; rw [r1 k (by omega), k1 k (by omega) (hth' k hk)]
  · rw [← hm]; exact r3
  · rw [← hm]; exact r2
  · intro hr; rw [r4 (Or.inl hr), hm]

/-- The loop treats every cell on its own. -/
theorem odeLauncher_cells (c : Cfg) (P : Par) (svd : M3 → M3 × V3 × M3) (steps fuel : Nat) (dt : ℝ) (n : Nat) :
    ∀ u u' : Mem, odeLauncher c P svd steps fuel dt n u = some u' →
      (∀ k, n * c.V ≤ k → u' k = u k) ∧
      ∀ i < n, ∃ Q', odeCell c P svd steps fuel dt (view c u i) = some Q' ∧ ∀ k < c.V, u' (i * c.V + k) = Q' k := by
  induction n with
  | zero => intro u u' h; simp [odeLauncher] at h; subst h; simp
  | succ n ih =>
    intro u u' h
    unfold odeLauncher at h
    rw [foldlM_range_succ, Option.bind_eq_some_iff] at h
    obtain ⟨w, hw, h⟩ := h
    obtain ⟨i1, i2⟩ := ih u w hw
    rw [Option.map_eq_some_iff] at h
    obtain ⟨Q', hQ, rfl⟩ := h
    have hview : view c w n = view c u n := by
      funext k
      exact i1 _ (by omega)
    rw [hview] at hQ
    have hs : (n + 1) * c.V = n * c.V + c.V := by ring
    refine ⟨fun k hk => ?_, fun i hi => ?_⟩
    · beta_reduce
      rw [if_neg (by omega)]
      exact i1 k (by omega)
    · rcases Nat.lt_or_ge i n with hin | hin
      · obtain ⟨Q'', e, hk⟩ := i2 i hin
        refine ⟨Q'', e, fun k hkV => ?_⟩
        have : (i + 1) * c.V ≤ n * c.V := Nat.mul_le_mul_right _ hin
        have h2 : (i + 1) * c.V = i * c.V + c.V := by ring
        beta_reduce
        rw [if_neg (by omega)]
        exact hk k hkV
      · obtain rfl : i = n := by omega
        refine ⟨Q', hQ, fun k hkV => ?_⟩
        beta_reduce
        rw [if_pos ⟨by omega, by omega⟩, Nat.add_sub_cancel_left]

/-- **C66.** The half step of the source terms on a grid of any size, if it gives numbers at all: each cell keeps its mass,
its energy, the determinant of its distortion and its level sets, gains momentum `δp dt`, and does not gain reactant; hence
a cell with `ρ = ρ0 det A` still satisfies it, and its material index does not change. -/
theorem ode_keeps (c : Cfg) (P : Par) (svd : M3 → M3 × V3 × M3) (steps fuel : Nat) (dt : ℝ) (n : Nat) (u u' : Mem)
    (hv : c.viscous = true) (hn : 1 ≤ steps) (hf : 7 ≤ fuel)
    (hs : ∀ i < n, IsSVD (getA (view c u i)) (svd (getA (view c u i))).1 (svd (getA (view c u i))).2.2
      (svd (getA (view c u i))).2.1) (hdt : 0 ≤ dt) (hK : 0 ≤ P.Kc) (hB : 0 ≤ P.Bc) (h2 : P.reaction ≤ 2) (hρ : ∀ i < n, 0 < u (i * c.V))
    (h : odeLauncher c P svd steps fuel dt n u = some u') (i : Nat) (hi : i < n) :
    u' (i * c.V) = u (i * c.V) ∧ u' (i * c.V + 1) = u (i * c.V + 1) ∧
    (∀ j : Fin 3, u' (i * c.V + (2 + j)) = u (i * c.V + (2 + j)) + P.δp j * dt) ∧
    (getA (view c u' i)).det = (getA (view c u i)).det ∧
    (∀ k, c.V - c.lset ≤ k → k < c.V → (c.multi = true ∨ ¬ P.reaction > -1) →
      u' (i * c.V + k) = u (i * c.V + k)) ∧
    (c.multi = true → u' (i * c.V + c.mV) ≤ u (i * c.V + c.mV) ∧
      (0 ≤ u (i * c.V + c.mV) → 0 ≤ u' (i * c.V + c.mV))) ∧
    (c.multi = true ∨ ¬ P.reaction > -1 → materialIndex c (view c u' i) = materialIndex c (view c u i)) := by
  obtain ⟨-, hc⟩ := odeLauncher_cells c P svd steps fuel dt n u u' h
  obtain ⟨Q', hQ, hk⟩ := hc i hi
  have K := odeCell_spec c P svd steps fuel dt _ Q' hv (hs i hi) hn hf (hρ i hi) hdt hK hB h2 hQ
  have h14 := mV_ge' c hv
  have hV : c.mV ≤ c.V := by unfold Cfg.V; omega
  have hmu : c.multi = true → c.mV + 1 + c.lset = c.V := by intro h; simp [Cfg.V, h]
  have hnm : c.multi = false → c.mV + c.lset = c.V := by intro h; simp [Cfg.V, h]
  have lev : ∀ k, c.V - c.lset ≤ k → k < c.V → (c.multi = true ∨ ¬ P.reaction > -1) →
      u' (i * c.V + k) = u (i * c.V + k) := by
    intro k h1 h3 hor
    rw [hk k h3]
    by_cases hm : c.multi = true
    · have := hmu hm
      exact K.levels k (by omega)
    · have hr := hor.resolve_left hm
      have := hnm (by simpa using hm)
      rcases Nat.lt_or_ge c.mV k with h4 | h4
      · exact K.levels k h4
      · obtain rfl : k = c.mV := by omega
        exact K.inert hr
  refine ⟨?_, ?_, ?_, ?_, lev, ?_, ?_⟩
  · exact (hk 0 (by omega)).trans K.mass
  · exact (hk 1 (by omega)).trans K.energy
  · intro j; exact (hk _ (by omega)).trans (K.momentum j)
  · rw [← K.volume]
    congr 1
    exact getA_congr _ _ fun k _ h4 => hk k (by omega)
  · intro hm
    have := hmu hm
    rw [hk c.mV (by omega)]
    exact ⟨K.burn, K.pos⟩
  · intro hor
    exact materialIndex_congr c _ _ fun k h1 h3 => lev k h3 h1 hor

/-- An array of two unstrained cells at rest under a body force. -/
def restPair : Mem := fun k => if k % 16 = 0 ∨ k % 16 = 1 ∨ k % 16 = 5 ∨ k % 16 = 9 ∨ k % 16 = 13 then 1 else 0

theorem rest_A (i : Nat) : getA (view (cfgOf false) restPair i) = 1 := by
  ext a b
  have h : ∀ k, restPair (i * 16 + k) = restPair k := by
    intro k; unfold restPair; rw [Nat.mul_add_mod_self_right]
  have hV : (cfgOf false).V = 16 := by decide
  simp only [getA, view, Matrix.of_apply, hV, h]
  fin_cases a <;> fin_cases b <;> simp [restPair]

theorem relaxA_one (P : Par) (dt : ℝ) : relaxA P 1 1 1 dt 1 = some 1 := by
  have : ¬ (invariants 1).2 ≥ 1e-12 := by norm_num [invariants]
  unfold relaxA
  simp only
  rw [if_neg this]

theorem setA_self (A : M3) (Q : St) (h : getA Q = A) : setA A Q = Q := by
  funext k
  by_cases hk : 5 ≤ k ∧ k < 14
  · have := congrFun (congrFun ((setA_getA A Q).trans h.symm) ⟨(k - 5) / 3, by omega⟩) ⟨(k - 5) % 3, by omega⟩
    simp only [getA, Matrix.of_apply] at this
    have e : 5 + (3 * ((k - 5) / 3) + (k - 5) % 3) = k := by omega
    rwa [e] at this
  · exact setA_other A Q k hk

theorem odeCell_rest (P : Par) (steps fuel : Nat) (dt : ℝ) (Q : St) (hr : ¬ P.reaction > -1) (h : getA Q = 1) :
    odeCell (cfgOf false) P (fun _ => (1, 1, 1)) steps fuel dt Q = some (bodyForces P dt Q) := by
  have hA : getA (bodyForces P dt Q) = 1 := by
    rw [← h]; exact getA_congr _ _ fun k _ _ => body_other P dt Q k (by omega)
  simp [odeCell, odeAnalytic, cfgOf, relaxDistortion, hA, relaxA_one, setA_self, odeNumerical, hr]

/-- The hypotheses of `ode_keeps` hold for that array, the step gives numbers, and the cells do start to move. -/
example : ∃ (P : Par) (u' : Mem), odeLauncher (cfgOf false) P (fun _ => (1, 1, 1)) 4 7 1 2 restPair = some u' ∧
    IsSVD (1 : M3) 1 1 1 ∧ (∀ i < 2, 0 < restPair (i * (cfgOf false).V)) ∧ u' 18 = 3 := by
  have hV : (cfgOf false).V = 16 := by decide
  let P : Par := { samplePar sample with δp := fun _ => 3, reaction := -1 }
  have hr : ¬ P.reaction > -1 := by norm_num [P]
  have h0 := odeCell_rest P 4 7 1 _ hr (rest_A 0)
  set w : Mem := fun k => if 0 * (cfgOf false).V ≤ k ∧ k < 0 * (cfgOf false).V + (cfgOf false).V then
    bodyForces P 1 (view (cfgOf false) restPair 0) (k - 0 * (cfgOf false).V) else restPair k with hw
  have hw1 : view (cfgOf false) w 1 = view (cfgOf false) restPair 1 := by
    funext k
    simp only [view, hw]
    rw [if_neg (by omega)]
  have h1 := odeCell_rest P 4 7 1 _ hr (rest_A 1)
  have hrun : odeLauncher (cfgOf false) P (fun _ => (1, 1, 1)) 4 7 1 2 restPair = some fun k =>
      if 1 * (cfgOf false).V ≤ k ∧ k < 1 * (cfgOf false).V + (cfgOf false).V then
        bodyForces P 1 (view (cfgOf false) restPair 1) (k - 1 * (cfgOf false).V) else w k := by
    unfold odeLauncher
    rw [show List.range 2 = [0, 1] by rfl]
    simp only [List.foldlM, Option.bind_eq_bind, h0, Option.map_some, Option.bind_some, Option.pure_def]
    rw [← hw, hw1, h1, Option.map_some, Option.bind_some]
  refine ⟨P, _, hrun, ⟨by simp, by simp, fun _ => by simp, ?_⟩, ?_, ?_⟩
  · ext a b; fin_cases a <;> fin_cases b <;> simp
  · intro i hi
    have : i = 0 ∨ i = 1 := by omega
    rcases this with rfl | rfl <;> simp [restPair, hV]
  · simp [hV, bodyForces, addSeg, addAt, view, restPair, P]

end

end Verif.Relax
