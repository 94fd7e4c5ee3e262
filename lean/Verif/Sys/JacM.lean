import Verif.Sys.JacS

/-!
# C41: main theorems
-/

namespace Verif.Sys

theorem hasDeriv_temperature (P : Params) (r p : ℝ → ℝ) (r' p' t : ℝ) (hr : HasDerivAt r r' t) (hp : HasDerivAt p p' t)
    (h : Regular P (r t)) (hΓ : gammaMG P (r t) ≠ 0) (hcv : P.cv ≠ 0) (hT : P.Tref = 0) :
    HasDerivAt (fun s => temperatureMG P (r s) (p s)) (dTdrho P (r t) (p t) * r' + dTdp P (r t) * p') t := by
  have h2 := (hasDeriv_gammaMG P (r t) h.pos.ne').comp t hr
  have h3 := (hasDeriv_pRef P (r t) h).comp t hr
  have hρ := h.pos.ne'
  unfold temperatureMG
  rw [hT]
  simp only [mul_zero, zero_add]
  refine ((hp.sub h3).div ((hr.mul h2).mul_const P.cv) (mul_ne_zero (mul_ne_zero hρ hΓ) hcv)).congr_deriv ?_
  simp only [Function.comp, Pi.mul_apply, Pi.sub_apply, dTdrho, dTdp, dedp]
  field_simp
  ring

section curve
variable (c : Cfg) (P : Par) (q : ℝ → St) (q' p' : St) (t : ℝ) (h : Along q q' t) (hv : c.viscous = true)
  (hm : P.multi = false) (hr : P.reaction > -1 → c.multi = true) (hR : Regular P.toParams (q t 0))
  (hΓ : gammaMG P.toParams (q t 0) ≠ 0)
  (hp : ∀ k, k < c.V → HasDerivAt (fun s => pvec c P (q s) k) (p' k) t)

include hv hp in
theorem curve_v (k : Fin 3) : HasDerivAt (fun s => vel (q s) k) (p' (2 + k)) t := by
  have := hp (2 + k) (by have := mV_le c; have := mV_ge c hv; omega)
  have e : ∀ s, pvec c P (q s) (2 + k) = vel (q s) k := fun s => congrFun (pvec_vel c hv P (q s)) k
  simpa only [e] using this

include hv hp in
theorem curve_J (ht : c.thermal = true) (k : Fin 3) : HasDerivAt (fun s => getRJ (q s) k / q s 0) (p' (14 + k)) t := by
  have := hp (14 + k) (by have := mV_le c; have := mV_thermal c hv ht; omega)
  have e : ∀ s, pvec c P (q s) (14 + k) = getRJ (q s) k / q s 0 := fun s => congrFun (pvec_J c hv ht P (q s)) k
  simpa only [e] using this

include hv hp in
theorem curve_lam (hmu : c.multi = true) : HasDerivAt (fun s => q s c.mV / q s 0) (p' c.mV) t := by
  have := hp c.mV (V_gt c hmu)
  simpa only [pvec_lam c hv hmu] using this

include hv hp in
theorem curve_p : HasDerivAt (fun s => pressure c P (q s)) (p' 1) t := by
  have := hp 1 (by have := mV_le c; have := mV_ge c hv; omega)
  simpa only [pvec_one c hv] using this

include h hv hp in
theorem curve_0 : p' 0 = q' 0 := by
  have := hp 0 (by have := mV_le c; have := mV_ge c hv; omega)
  simp only [pvec_zero c hv] at this
  exact this.unique (h 0)

include h hv hp in
theorem curve_A : getA p' = getA q' := by
  ext i j
  have := hp (5 + (3 * i + j)) (by have := mV_le c; have := mV_ge c hv; omega)
  have e : ∀ s, pvec c P (q s) (5 + (3 * i + j)) = getA (q s) i j := fun s =>
    congrFun (congrFun (pvec_A c hv P (q s)) i) j
  simp only [e] at this
  exact this.unique (h.getA i j)

/-- A quotient by the density. -/
theorem curve_div (hρ : q t 0 ≠ 0) (h : Along q q' t) (i : Nat) (x : ℝ)
    (hx : HasDerivAt (fun s => q s i / q s 0) x t) : q' i = q t 0 * x + q t i / q t 0 * q' 0 := by
  have := hx.unique ((h i).div (h 0) hρ)
  rw [this]
  field_simp
  ring

include h hv hp hm hr hR hΓ in
/-- The rate of change of the total energy in terms of that of the primitive variables. -/
theorem curve_E : q' 1 = (q t 1 / q t 0 + q t 0 * dEdrho c P (q t)) * p' 0 + q t 0 * dEdp c P (q t) * p' 1 +
    q t 0 * dot3 (vel (q t)) (getRv p') + q t 0 * ∑ i, ∑ j, dEdA P.toParams (q t) i j * getA p' i j +
    (if c.thermal then q t 0 * dot3 (dEdJ P.toParams (q t)) (getRJ p') else 0) +
    (if c.multi then if P.reaction > -1 then P.Qc * q t 0 * p' c.mV else 0 else 0) := by
  have hρ := hR.pos.ne'
  have h1 := curve_p c P q p' t hv hp
  simp only [pressure, hm, Bool.false_eq_true, if_false] at h1
  have h2 := h1.unique (hasDeriv_pressureMG P.toParams (fun s => q s 0) _ _ _ t (h 0)
    (hasDeriv_internalEnergy c P q q' t h hR hΓ) hR hΓ)
  have hEp : dedp P.toParams (q t 0) ≠ 0 := one_div_ne_zero (mul_ne_zero hρ hΓ)
  rw [eq_div_iff hEp] at h2
  have hpr : pressure c P (q t) = pressureMG P.toParams (q t 0) (internalEnergy c P (q t)) := by
    simp [pressure, hm]
  rw [← hpr] at h2
  have hv0 := curve_div q q' t hρ h 2 _ (curve_v c P q p' t hv hp 0)
  have hv1 := curve_div q q' t hρ h 3 _ (curve_v c P q p' t hv hp 1)
  have hv2 := curve_div q q' t hρ h 4 _ (curve_v c P q p' t hv hp 2)
  have hA := curve_A c P q q' p' t h hv hp
  have h0 := curve_0 c P q q' p' t h hv hp
  have hJ : c.thermal = true → ∀ k : Fin 3, q' (14 + k) = q t 0 * p' (14 + k) + q t (14 + k) / q t 0 * q' 0 :=
    fun ht k => curve_div q q' t hρ h (14 + k) _ (curve_J c P q p' t hv hp ht k)
  have hL : c.multi = true → q' c.mV = q t 0 * p' c.mV + q t c.mV / q t 0 * q' 0 :=
    fun hmu => curve_div q q' t hρ h c.mV _ (curve_lam c P q p' t hv hp hmu)
  have e0 : vel (q t) 0 = q t 2 / q t 0 := rfl
  have e1 : vel (q t) 1 = q t 3 / q t 0 := rfl
  have e2 : vel (q t) 2 = q t 4 / q t 0 := rfl
  simp only [dEdrho, dEdp, hm, Bool.false_eq_true, if_false, dot3, hA, h0, getRv, getRJ, dEdJ]
  generalize hS : (∑ i, ∑ j, dEdA P.toParams (q t) i j * getA q' i j) = S at *
  simp only [hv, if_true, hv0, hv1, hv2, e0, e1, e2, hS] at h2
  simp only [e0, e1, e2]
  have hJ0 := fun ht => hJ ht 0
  have hJ1 := fun ht => hJ ht 1
  have hJ2 := fun ht => hJ ht 2
  simp only [Fin.isValue, Fin.val_zero, Fin.val_one, Fin.val_two, Nat.reduceAdd] at hJ0 hJ1 hJ2 h2 ⊢
  by_cases ht : c.thermal = true <;> by_cases hmu : c.multi = true <;> by_cases hre : P.reaction > -1 <;>
    simp only [hmu, hre, imp_false, not_true, true_implies, Bool.false_eq_true] at hr <;>
    simp only [ht, hmu, hre, if_true, if_false, Bool.false_eq_true] at h2 ⊢
  all_goals
    try rw [hJ0 ht, hJ1 ht, hJ2 ht] at h2
    try rw [hL hmu] at h2
    field_simp at h2 ⊢
    refine mul_left_cancel₀ hρ ?_
    linear_combination -h2

variable (hb : P.b02 ≠ 0) (hT : c.thermal = true → P.Tref = 0 ∧ P.cv ≠ 0)

include h hv hp hR hb in
theorem curve_sigma (d k : Fin 3) : HasDerivAt (fun s => sigmaCol P.toParams (q s) d k)
    (dsigmadrho P.toParams (q t) d k * p' 0 + stressRate P (q t) p' d k) t := by
  have := hasDeriv_stress P.toParams q q' t h hR.ref_pos hR.pos hb k d
  rw [curve_0 c P q q' p' t h hv hp, stressRate, curve_A c P q q' p' t h hv hp]
  exact this

include h hv hp hR hΓ hT in
theorem curve_T (ht : c.thermal = true) :
    HasDerivAt (fun s => temperatureMG P.toParams (q s 0) (pressure c P (q s)))
      (dTdrho P.toParams (q t 0) (pressure c P (q t)) * p' 0 + dTdp P.toParams (q t 0) * p' 1) t := by
  rw [curve_0 c P q q' p' t h hv hp]
  exact hasDeriv_temperature P.toParams (fun s => q s 0) _ _ _ t (h 0) (curve_p c P q p' t hv hp) hR hΓ (hT ht).2
    (hT ht).1

include h hv hm hr hR hΓ hp hb hT in
/-- **C41**: `dFdP` is the Jacobian of the flux with respect to the primitive variables: along every curve of states
whose primitive variables change at the rate `p'`, the flux changes at the rate `dFdP p'`. -/
theorem hasDeriv_flux (d : Fin 3) (i : Nat) :
    HasDerivAt (fun s => flux c P (q s) d (fun _ => 0) i) (∑ k ∈ Finset.range c.V, dFdP c P (q t) d i k * p' k) t := by
  have hρ := hR.pos.ne'
  have h14 := mV_ge c hv
  have e0 := curve_0 c P q q' p' t h hv hp
  have eA := curve_A c P q q' p' t h hv hp
  have eE := curve_E c P q q' p' t h hv hm hr hR hΓ hp
  have dv := curve_v c P q p' t hv hp
  have dp := curve_p c P q p' t hv hp
  have dσ := curve_sigma c P q q' p' t h hv hR hp hb d
  have dq : ∀ k : Fin 3, HasDerivAt (fun s => getRv (q s) k) (q t 0 * p' (2 + k) + vel (q t) k * p' 0) t := by
    intro k
    have := curve_div q q' t hρ h (2 + k) _ (dv k)
    rw [e0]
    have h2 := h (2 + k)
    rw [this] at h2
    exact h2
  have hrv : ∀ k, getRv (q t) k = q t 0 * vel (q t) k := by
    intro k; simp only [vel]; field_simp
  have key : HasDerivAt (fun s => flux0 c P (q s) d i) (rowDot c.V (dFdP c P (q t) d) p' i) t := by
    rcases Nat.lt_or_ge i 14 with hi | hi
    · rcases Nat.lt_or_ge i 2 with h2 | h2
      · interval_cases i
        · simp only [flux_e0 c P _ hv, row0 c P _ _ hv]
          refine (dq d).congr_deriv ?_
          ring
        · rw [row1 c P _ _ hv]
          simp only [flux_e1 c P _ hv]
          have hdot : ∀ s, dot3 (sigmaCol P.toParams (q s) d) (getRv (q s)) / q s 0 =
              sigmaCol P.toParams (q s) d 0 * vel (q s) 0 + sigmaCol P.toParams (q s) d 1 * vel (q s) 1 +
              sigmaCol P.toParams (q s) d 2 * vel (q s) 2 := by
            intro s; simp only [dot3, vel]; ring
          simp only [hdot]
          have d1 := ((dv d).mul ((h 1).add dp)).sub
            ((((dσ 0).mul (dv 0)).add ((dσ 1).mul (dv 1))).add ((dσ 2).mul (dv 2)))
          by_cases ht : c.thermal = true
          · simp only [ht, if_true] at eE ⊢
            have dT := curve_T c P q q' p' t h hv hR hΓ hp hT ht
            have dJ := curve_J c P q p' t hv hp ht d
            have hc : ∀ s, P.cα2 * temperatureMG P.toParams (q s 0) (pressure c P (q s)) * getRJ (q s) d / q s 0 =
                P.cα2 * (temperatureMG P.toParams (q s 0) (pressure c P (q s)) * (getRJ (q s) d / q s 0)) := by
              intro s; ring
            simp only [hc]
            refine (d1.add ((dT.mul dJ).const_mul P.cα2)).congr_deriv ?_
            simp only [Pi.add_apply]
            rw [eE]
            by_cases hmu : c.multi = true <;> by_cases hre : P.reaction > -1 <;>
              simp only [hmu, hre, if_true, if_false, Bool.false_eq_true, dot3, dEdJ, getRv, getRJ, Fin.isValue,
                Fin.val_zero, Fin.val_one, Fin.val_two, Nat.reduceAdd] <;> field_simp <;> ring
          · simp only [ht, if_false, Bool.false_eq_true] at eE ⊢
            refine (d1.add_const 0).congr_deriv ?_
            simp only [Pi.add_apply]
            rw [eE]
            by_cases hmu : c.multi = true <;> by_cases hre : P.reaction > -1 <;>
              simp only [hmu, hre, if_true, if_false, Bool.false_eq_true, dot3, getRv, Fin.isValue,
                Fin.val_zero, Fin.val_one, Fin.val_two, Nat.reduceAdd] <;> field_simp <;> ring
      · rcases Nat.lt_or_ge i 5 with h5 | h5
        · obtain ⟨k, rfl⟩ : ∃ k : Fin 3, i = 2 + k := ⟨⟨i - 2, by omega⟩, by simp; omega⟩
          simp only [flux_e2 c P _ hv, row2 c P _ _ hv]
          have d1 := ((dv d).mul (dq k)).sub (dσ k)
          by_cases hkd : k = d
          · simp only [hkd, if_true] at d1 ⊢
            refine (d1.add dp).congr_deriv ?_
            simp only [hrv]
            ring
          · simp only [hkd, if_false]
            refine (d1.add_const 0).congr_deriv ?_
            simp only [hrv]
            ring
        · obtain ⟨a, b, rfl⟩ : ∃ a b : Fin 3, i = 5 + (3 * a + b) :=
            ⟨⟨(i - 5) / 3, by omega⟩, ⟨(i - 5) % 3, by omega⟩, by simp only; omega⟩
          simp only [flux_e5 c P _ hv, row5 c P _ _ hv]
          split_ifs
          · have hA := fun j => h.getA a j
            refine ((((hA 0).mul (dv 0)).add ((hA 1).mul (dv 1))).add ((hA 2).mul (dv 2))).congr_deriv ?_
            simp only [dot3, eA, getRv]
            simp
            ring
          · exact hasDerivAt_const _ _
    · rcases Nat.lt_or_ge i c.mV with hl | hl
      · have ht : c.thermal = true := by
          by_contra hn
          have := (mV_cases c).2 (by simpa using hn) hv
          omega
        have h17 := mV_thermal c hv ht
        obtain ⟨k, rfl⟩ : ∃ k : Fin 3, i = 14 + k := ⟨⟨i - 14, by omega⟩, by simp; omega⟩
        have dT := curve_T c P q q' p' t h hv hR hΓ hp hT ht
        have dJ := curve_J c P q p' t hv hp ht k
        simp only [flux_e14 c P _ hv ht, row14 c P _ _ hv ht]
        have hJ' : HasDerivAt (fun s => getRJ (q s) k) (q t 0 * p' (14 + k) + getRJ (q t) k / q t 0 * p' 0) t := by
          have := curve_div q q' t hρ h (14 + k) _ dJ
          have h2 := h (14 + k)
          rw [this, ← e0] at h2
          exact h2
        have d1 := (dv d).mul hJ'
        split_ifs
        · refine (d1.add dT).congr_deriv ?_
          field_simp
          ring
        · refine (d1.add_const 0).congr_deriv ?_
          field_simp
          ring
      · by_cases hV : c.multi = true ∧ i = c.mV
        · obtain ⟨hmu, rfl⟩ := hV
          simp only [flux_eV c P _ hmu, rowV c P _ _ hv hmu]
          have dl := curve_lam c P q p' t hv hp hmu
          have hl' := h c.mV
          rw [curve_div q q' t hρ h c.mV _ dl, ← e0] at hl'
          refine (hl'.mul (dv d)).congr_deriv ?_
          field_simp
          ring
        · have hi' : c.mV + (if c.multi then 1 else 0) ≤ i := by
            split_ifs with hmu
            · have : i ≠ c.mV := fun e => hV ⟨hmu, e⟩
              omega
            · omega
          simp only [flux_eL c P _ hv d i hi', rowL c P _ _ hv d i hi']
          exact hasDerivAt_const _ _
  exact key

end curve

/-- **C41**: `system_matrix = dF/dQ + B`.  Along every curve of states the flux is differentiable and
`system_matrix q'` is its rate of change plus the non-conservative product `Bdot(q')`. -/
theorem systemMatrix_quasilinear (c : Cfg) (P : Par) (q : ℝ → St) (q' : St) (t : ℝ) (h : Along q q' t)
    (hv : c.viscous = true) (hm : P.multi = false) (hr : P.reaction > -1 → c.multi = true)
    (hR : Regular P.toParams (q t 0)) (hΓ : gammaMG P.toParams (q t 0) ≠ 0) (hb : P.b02 ≠ 0)
    (hT : c.thermal = true → P.Tref = 0 ∧ P.cv ≠ 0) (d : Fin 3) (i : Nat) (hi : i < c.V) (junk : St) :
    ∃ F', HasDerivAt (fun s => flux c P (q s) d (fun _ => 0) i) F' t ∧
      ∑ j ∈ Finset.range c.V, systemMatrix c P (q t) d i j * q' j = F' + bdot c (q t) q' d junk i := by
  refine ⟨_, hasDeriv_flux c P q q' (fun k => ∑ j ∈ Finset.range c.V, dPdQ c P (q t) k j * q' j) t h hv hm hr hR hΓ
    (fun k hk => hasDeriv_pvec c P q q' t h hv hm hr hR hΓ k hk) hb hT d i, ?_⟩
  rw [bdot_eq_block c hv _ _ _ _ _ hi, blockMul]
  simp only [systemMatrix, add_mul, Finset.sum_add_distrib]
  congr 1
  simp only [Finset.sum_mul, Finset.mul_sum]
  rw [Finset.sum_comm]
  refine Finset.sum_congr rfl fun k _ => Finset.sum_congr rfl fun j _ => by ring

/-- Conserved variables along a curve of primitive variables. -/
theorem along_cvec (c : Cfg) (P : Par) (p : ℝ → St) (p' : St) (t : ℝ) (h : Along p p' t) (hv : c.viscous = true)
    (hR : Regular P.toParams (p t 0)) (hΓ : gammaMG P.toParams (p t 0) ≠ 0) :
    ∃ q', Along (fun s => cvec c P (p s)) q' t := by
  classical
  have hρ := hR.pos.ne'
  have hE1 : ∃ y, HasDerivAt (fun s => E1 P.toParams (p s 0) (p s 1)) y t := by
    have h1 := (hasDeriv_eRef P.toParams (p t 0) hR).comp t (h 0)
    have h2 := (hasDeriv_gammaMG P.toParams (p t 0) hρ).comp t (h 0)
    have h3 := (hasDeriv_pRef P.toParams (p t 0) hR).comp t (h 0)
    exact ⟨_, h1.add (((h 1).sub h3).div ((h 0).mul h2) (mul_ne_zero hρ hΓ))⟩
  obtain ⟨y1, hy1⟩ := hE1
  have hy2 := hasDeriv_E2A P.toParams p p' t h hR.ref_pos hR.pos hΓ
  have hy3 : HasDerivAt (fun s => E3 (getRv (p s))) _ t :=
    ((((h 2).mul (h 2)).add ((h 3).mul (h 3))).add ((h 4).mul (h 4))).div_const 2
  have hy4 : HasDerivAt (fun s => E2J P.toParams (getRJ (p s))) _ t :=
    (((((h 14).mul (h 14)).add ((h 15).mul (h 15))).add ((h 16).mul (h 16))).const_mul P.cα2).div_const 2
  have hy5 : HasDerivAt (fun s => ER P (p s c.mV)) _ t := ((h c.mV).sub_const 1).const_mul P.Qc
  have hy : ∃ y, HasDerivAt (fun s => cvecE c P (p s)) y t := by
    simp only [cvecE, totalEnergy]
    by_cases ht : c.thermal = true <;> by_cases hm : c.multi = true <;>
      simp only [ht, hm, if_true, if_false, Bool.false_eq_true]
    · exact ⟨_, (((hy1.add hy3).add hy2).add hy4).add hy5⟩
    · exact ⟨_, (((hy1.add hy3).add hy2).add hy4).add_const 0⟩
    · exact ⟨_, (((hy1.add hy3).add hy2).add_const 0).add hy5⟩
    · exact ⟨_, (((hy1.add hy3).add hy2).add_const 0).add_const 0⟩
  obtain ⟨y, hy⟩ := hy
  refine ⟨fun i => if i = 1 then p' 0 * cvecE c P (p t) + p t 0 * y else
    if Scaled c i then p' i * p t 0 + p t i * p' 0 else p' i, fun i => ?_⟩
  by_cases h1 : i = 1
  · subst h1
    simp only [cvec_one c hv, if_true]
    exact (h 0).mul hy
  · simp only [cvec_other c hv _ _ _ h1, h1, if_false]
    by_cases hs : Scaled c i
    · simp only [hs, if_true]
      exact (h i).mul (h 0)
    · simp only [hs, if_false]
      exact h i

/-- **C41** in the primitive variables themselves: along every curve of primitive states the flux of the conserved
state changes at the rate `dFdP p'`. -/
theorem dFdP_jacobian (c : Cfg) (P : Par) (p : ℝ → St) (p' : St) (t : ℝ) (h : Along p p' t) (hv : c.viscous = true)
    (hm : P.multi = false) (hr : P.reaction > -1 ↔ c.multi = true) (hR : Regular P.toParams (p t 0))
    (hΓ : gammaMG P.toParams (p t 0) ≠ 0) (hb : P.b02 ≠ 0) (hT : c.thermal = true → P.Tref = 0 ∧ P.cv ≠ 0)
    (d : Fin 3) (i : Nat) :
    HasDerivAt (fun s => flux c P (cvec c P (p s)) d (fun _ => 0) i)
      (∑ k ∈ Finset.range c.V, dFdP c P (cvec c P (p t)) d i k * p' k) t := by
  obtain ⟨q', hq⟩ := along_cvec c P p p' t h hv hR hΓ
  refine hasDeriv_flux c P (fun s => cvec c P (p s)) q' p' t hq hv hm hr.mp ?_ ?_ (fun k _ => ?_) hb hT d i
  · rw [cvec_zero c hv]; exact hR
  · rw [cvec_zero c hv]; exact hΓ
  · have h1 : ∀ᶠ s in nhds t, p s 0 ≠ 0 := (h 0).continuousAt.eventually_ne hR.pos.ne'
    have h2 : ∀ᶠ s in nhds t, gammaMG P.toParams (p s 0) ≠ 0 :=
      (show ContinuousAt (fun s => gammaMG P.toParams (p s 0)) t from
        (HasDerivAt.comp (h₂ := gammaMG P.toParams) (h := fun s => p s 0) t
          (hasDeriv_gammaMG P.toParams (p t 0) hR.pos.ne') (h 0)).continuousAt).eventually_ne hΓ
    refine (h k).congr_of_eventuallyEq ?_
    filter_upwards [h1, h2] with s hs1 hs2
    rw [pvec_cvec c P (p s) hv hr hm hs1 hs2]

/-! ### Where C41 fails -/

/-- **C41 fails** for heat-conducting materials with a non-zero reference temperature: on changing the density alone
(any direction) the flux of the impulse changes at a rate other than `dFdP` says. -/
theorem dFdP_thermal_false (c : Cfg) (P : Par) (Q : St) (hv : c.viscous = true) (ht : c.thermal = true)
    (hm : P.multi = false) (hr : P.reaction > -1 → c.multi = true) (hR : Regular P.toParams (Q 0))
    (hΓ : gammaMG P.toParams (Q 0) ≠ 0) (hcv : P.cv ≠ 0) (hT : P.Tref ≠ 0) (d : Fin 3) :
    ¬ ∀ (q : ℝ → St) (q' p' : St), Along q q' 0 → q 0 = Q →
      (∀ k, k < c.V → HasDerivAt (fun s => pvec c P (q s) k) (p' k) 0) →
      HasDerivAt (fun s => flux c P (q s) d (fun _ => 0) (14 + d))
        (∑ k ∈ Finset.range c.V, dFdP c P (q 0) d (14 + d) k * p' k) 0 := by
  intro hall
  let q : ℝ → St := fun s i => if i = 0 then Q 0 + s else Q i
  let q' : St := fun i => if i = 0 then 1 else 0
  have hq0 : q 0 = Q := by funext i; by_cases hi : i = 0 <;> simp [q, hi]
  have h : Along q q' 0 := by
    intro i
    by_cases hi : i = 0
    · simp only [q, q', hi, if_true]
      exact (hasDerivAt_id (0 : ℝ)).const_add (Q 0)
    · simp only [q, q', hi, if_false]
      exact hasDerivAt_const _ _
  have hR' : Regular P.toParams (q 0 0) := by rw [hq0]; exact hR
  have hΓ' : gammaMG P.toParams (q 0 0) ≠ 0 := by rw [hq0]; exact hΓ
  have hρ := hR'.pos.ne'
  set p' : St := fun k => ∑ j ∈ Finset.range c.V, dPdQ c P (q 0) k j * q' j with hp'
  have hp : ∀ k, k < c.V → HasDerivAt (fun s => pvec c P (q s) k) (p' k) 0 :=
    fun k hk => hasDeriv_pvec c P q q' 0 h hv hm hr hR' hΓ' k hk
  have hbad := hall q q' p' h hq0 hp
  have e0 := curve_0 c P q q' p' 0 h hv hp
  have e0' : p' 0 = 1 := by rw [e0]; simp [q']
  have dv := curve_v c P q p' 0 hv hp d
  have dp := curve_p c P q p' 0 hv hp
  have dJ := curve_J c P q p' 0 hv hp ht d
  have hJ' : HasDerivAt (fun s => getRJ (q s) d) (q 0 0 * p' (14 + d) + getRJ (q 0) d / q 0 0 * p' 0) 0 := by
    have := curve_div q q' 0 hρ h (14 + d) _ dJ
    have h2 := h (14 + d)
    rw [this, ← e0] at h2
    exact h2
  -- the temperature with the missing term
  have dT : HasDerivAt (fun s => temperatureMG P.toParams (q s 0) (pressure c P (q s)))
      (dTdrho P.toParams (q 0 0) (pressure c P (q 0)) * p' 0 + dTdp P.toParams (q 0 0) * p' 1 +
        gammaMG P.toParams (q 0 0) / q 0 0 * phi P.toParams (q 0 0) * P.Tref) 0 := by
    have hφ := (HasDerivAt.comp (h₂ := phi P.toParams) (h := fun s => q s 0) 0
      (hasDeriv_phi P.toParams (q 0 0) hR'.ref_pos hR'.pos) (h 0)).mul_const P.Tref
    have ha : Regular { P.toParams with Tref := 0 } (q 0 0) :=
      ⟨hR'.ref_pos, hR'.pos, hR'.alpha, hR'.hugoniot, hR'.jwl, hR'.cc⟩
    have hb := hasDeriv_temperature { P.toParams with Tref := 0 } (fun s => q s 0) _ _ _ 0 (h 0) dp ha hΓ' hcv rfl
    have hs : ∀ s, temperatureMG P.toParams (q s 0) (pressure c P (q s)) =
        phi P.toParams (q s 0) * P.Tref + temperatureMG { P.toParams with Tref := 0 } (q s 0) (pressure c P (q s)) := by
      intro s
      simp only [temperatureMG, mul_zero, zero_add]
      rfl
    simp only [hs]
    refine (hφ.add hb).congr_deriv ?_
    rw [e0]
    have hq1 : q' 0 = 1 := by simp [q']
    rw [hq1]
    simp only [mul_one]
    have e1 : dTdrho { P.toParams with Tref := 0 } (q 0 0) (pressure c P (q 0)) =
        dTdrho P.toParams (q 0 0) (pressure c P (q 0)) := rfl
    have e2 : dTdp { P.toParams with Tref := 0 } (q 0 0) = dTdp P.toParams (q 0 0) := rfl
    rw [e1, e2]
    ring
  have hgood : HasDerivAt (fun s => flux0 c P (q s) d (14 + d)) (rowDot c.V (dFdP c P (q 0) d) p' (14 + d) +
      gammaMG P.toParams (q 0 0) / q 0 0 * phi P.toParams (q 0 0) * P.Tref) 0 := by
    simp only [flux_e14 c P _ hv ht, row14 c P _ _ hv ht, if_true]
    refine ((dv.mul hJ').add dT).congr_deriv ?_
    field_simp
    ring
  have := hbad.unique hgood
  have hz : gammaMG P.toParams (q 0 0) / q 0 0 * phi P.toParams (q 0 0) * P.Tref = 0 := by
    have e : rowDot c.V (dFdP c P (q 0) d) p' (14 + d) =
      ∑ k ∈ Finset.range c.V, dFdP c P (q 0) d (14 + d) k * p' k := rfl
    rw [e] at this
    linarith
  have hφ := (phi_pos P.toParams (q 0 0) hR'.ref_pos hR'.pos).ne'
  exact mul_ne_zero (mul_ne_zero (div_ne_zero hΓ' hρ) hφ) hT hz

/-- **C41 fails without distortion** (`VISCOUS = false`): `dPdQ` contains the density derivative of a shear energy
computed from whatever lies beyond entry 4 of the state, so its pressure row is wrong unless that happens to
vanish. -/
theorem dPdQ_inviscid_false (c : Cfg) (P : Par) (Q : St) (hv : c.viscous = false) (ht : c.thermal = false)
    (hmu : c.multi = false) (hm : P.multi = false) (hr : ¬ P.reaction > -1) (hR : Regular P.toParams (Q 0))
    (hΓ : gammaMG P.toParams (Q 0) ≠ 0) (hC : dC0 P.toParams (Q 0) * devGsq (getA Q) ≠ 0) :
    ¬ ∀ (q : ℝ → St) (q' : St), Along q q' 0 → q 0 = Q →
      HasDerivAt (fun s => pvec c P (q s) 1) (∑ j ∈ Finset.range c.V, dPdQ c P (q 0) 1 j * q' j) 0 := by
  intro hall
  let q : ℝ → St := fun s i => if i = 0 then Q 0 + s else Q i
  let q' : St := fun i => if i = 0 then 1 else 0
  have hq0 : q 0 = Q := by funext i; by_cases hi : i = 0 <;> simp [q, hi]
  have h : Along q q' 0 := by
    intro i
    by_cases hi : i = 0
    · simp only [q, q', hi, if_true]
      exact (hasDerivAt_id (0 : ℝ)).const_add (Q 0)
    · simp only [q, q', hi, if_false]
      exact hasDerivAt_const _ _
  have hbad := hall q q' h hq0
  have e1 : ∀ s, pvec c P (q s) 1 = pressure c P (q s) := by
    intro s; simp [pvec, ht, hmu, setSeg, setAt]
  simp only [e1, pressure, hm, Bool.false_eq_true, if_false] at hbad
  have hR' : Regular P.toParams (q 0 0) := by rw [hq0]; exact hR
  have hΓ' : gammaMG P.toParams (q 0 0) ≠ 0 := by rw [hq0]; exact hΓ
  have hgood := hasDeriv_pressureMG P.toParams (fun s => q s 0) _ _ _ 0 (h 0)
    (hasDeriv_internalEnergy c P q q' 0 h hR' hΓ') hR' hΓ'
  have hu := hbad.unique hgood
  have hρ := hR.pos.ne'
  have hV : 0 < c.V ∧ 1 < c.V ∧ 2 < c.V ∧ 3 < c.V ∧ 4 < c.V := by
    simp [Cfg.V, Cfg.mV, hv, ht, hmu]; omega
  have hsum : ∑ j ∈ Finset.range c.V, dPdQ c P (q 0) 1 j * q' j = dPdQ c P Q 1 0 := by
    rw [hq0, Finset.sum_eq_single 0]
    · simp [q']
    · intro b _ hb; simp [q', hb]
    · intro h0; exact absurd (Finset.mem_range.mpr hV.1) h0
  rw [hsum] at hu
  simp only [hq0, hv, ht, hr, if_false, Bool.false_eq_true] at hu
  simp only [dPdQ, hv, ht, hmu, if_false, Bool.false_eq_true, msetRow, msetCol, msetDiag, mset, dEdrho, dEdp, hm] at hu
  simp [q', sq3] at hu
  have hpr : pressure c P Q = pressureMG P.toParams (Q 0) (internalEnergy c P Q) := by simp [pressure, hm]
  rw [hpr] at hu
  have hEp : dedp P.toParams (Q 0) ≠ 0 := one_div_ne_zero (mul_ne_zero hρ hΓ)
  field_simp at hu
  apply hC
  refine mul_left_cancel₀ (pow_ne_zero 2 hρ) ?_
  linear_combination (-1) * hu

/-- The hypotheses of the C41 theorems hold for every equation of state along a curve on which every component of the
state changes. -/
example (e : Eos) : ∃ (q : ℝ → St) (q' : St), Along q q' 0 ∧ (∀ i, q' i ≠ 0) ∧ (samplePar sample).multi = false ∧
    ((samplePar sample).reaction > -1 ↔ (cfgOf false).multi = true) ∧ Regular { sample with eos := e } (q 0 0) ∧
    gammaMG { sample with eos := e } (q 0 0) ≠ 0 ∧ sample.b02 ≠ 0 ∧ sample.Tref = 0 ∧ sample.cv ≠ 0 := by
  refine ⟨fun t i => 1 + t + i, fun _ => 1, fun i => ?_, fun _ => one_ne_zero, rfl, by simp [samplePar, cfgOf], ?_, ?_,
    by norm_num [sample], rfl, by norm_num [sample]⟩
  · exact (((hasDerivAt_id (0 : ℝ)).const_add 1).add_const (i : ℝ))
  · exact (sample_regular e _ (by norm_num)).1
  · exact (sample_regular e _ (by norm_num)).2

end Verif.Sys
