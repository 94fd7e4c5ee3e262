import Verif.Sys.Convert
import Verif.Sys.Stress
import Verif.Sys.Flux

/-!
# C41: Jacobians and the system matrix
-/

namespace Verif.Sys

/-! ### Rows of matrices built by writes -/

theorem mset_ne (i j : Nat) (x : ℝ) (M : Nat → Nat → ℝ) (a : Nat) (h : a ≠ i) : mset i j x M a = M a := by
  funext b; simp [mset, h]

theorem mset_eq (i j : Nat) (x : ℝ) (M : Nat → Nat → ℝ) : mset i j x M i = Function.update (M i) j x := by
  funext b; simp [mset, Function.update_apply]

theorem madd_ne (i j : Nat) (x : ℝ) (M : Nat → Nat → ℝ) (a : Nat) (h : a ≠ i) : madd i j x M a = M a := by
  funext b; simp [madd, h]

theorem madd_eq (i j : Nat) (x : ℝ) (M : Nat → Nat → ℝ) :
    madd i j x M i = Function.update (M i) j (M i j + x) := by
  funext b
  by_cases h : b = j
  · subst h; simp [madd]
  · simp [madd, h]

theorem sum_tail (f : Nat → ℝ) (n m : Nat) (h : ∀ j, n ≤ j → f j = 0) :
    ∑ j ∈ Finset.range (n + m), f j = ∑ j ∈ Finset.range n, f j := by
  rw [Finset.sum_range_add, Finset.sum_eq_zero (s := Finset.range m), add_zero]
  intro j _
  exact h _ (by omega)

/-! ### The pressure along a curve -/

theorem hasDeriv_pressureMG (P : Params) (r e : ℝ → ℝ) (r' e' t : ℝ) (hr : HasDerivAt r r' t) (he : HasDerivAt e e' t)
    (h : Regular P (r t)) (hΓ : gammaMG P (r t) ≠ 0) :
    HasDerivAt (fun s => pressureMG P (r s) (e s))
      ((e' - dedrho P (r t) (pressureMG P (r t) (e t)) * r') / dedp P (r t)) t := by
  have h1 := (hasDeriv_eRef P (r t) h).comp t hr
  have h2 := (hasDeriv_gammaMG P (r t) h.pos.ne').comp t hr
  have h3 := (hasDeriv_pRef P (r t) h).comp t hr
  have hρ := h.pos.ne'
  unfold pressureMG
  refine ((((he.sub h1).mul hr).mul h2).add h3).congr_deriv ?_
  simp only [Function.comp, Pi.mul_apply, Pi.sub_apply, dedrho, dedp]
  field_simp
  ring

/-- The specific internal energy along a curve. -/
theorem hasDeriv_internalEnergy (c : Cfg) (P : Par) (q : ℝ → St) (q' : St) (t : ℝ) (h : Along q q' t)
    (hR : Regular P.toParams (q t 0)) (hΓ : gammaMG P.toParams (q t 0) ≠ 0) :
    HasDerivAt (fun s => internalEnergy c P (q s))
      (let Q := q t
       let ρ := Q 0
       let v := vel Q
       (q' 1 - Q 1 / ρ * q' 0) / ρ - (v 0 * (q' 2 - v 0 * q' 0) + v 1 * (q' 3 - v 1 * q' 0) +
          v 2 * (q' 4 - v 2 * q' 0)) / ρ -
        (if c.viscous then dC0 P.toParams ρ / 4 * devGsq (getA Q) * q' 0 +
          ∑ i, ∑ j, dEdA P.toParams Q i j * getA q' i j else 0) -
        (if c.thermal then P.cα2 * (Q 14 / ρ * (q' 14 - Q 14 / ρ * q' 0) + Q 15 / ρ * (q' 15 - Q 15 / ρ * q' 0) +
          Q 16 / ρ * (q' 16 - Q 16 / ρ * q' 0)) / ρ else 0) -
        (if P.reaction > -1 then P.Qc * (q' c.mV - Q c.mV / ρ * q' 0) / ρ else 0)) t := by
  have hρ := hR.pos.ne'
  have hdiv : ∀ i, HasDerivAt (fun s => q s i / q s 0) ((q' i - q t i / q t 0 * q' 0) / q t 0) t := by
    intro i
    refine ((h i).div (h 0) hρ).congr_deriv ?_
    field_simp
  have hv : HasDerivAt (fun s => E3 (vel (q s))) _ t :=
    ((((hdiv 2).mul (hdiv 2)).add ((hdiv 3).mul (hdiv 3))).add ((hdiv 4).mul (hdiv 4))).div_const 2
  have hJ : HasDerivAt (fun s => E2J P.toParams fun i => getRJ (q s) i / q s 0) _ t :=
    (((((hdiv 14).mul (hdiv 14)).add ((hdiv 15).mul (hdiv 15))).add ((hdiv 16).mul (hdiv 16))).const_mul
      P.cα2).div_const 2
  have hA := hasDeriv_E2A P.toParams q q' t h hR.ref_pos hR.pos hΓ
  have hl : HasDerivAt (fun s => ER P (q s c.mV / q s 0)) _ t := ((hdiv c.mV).sub_const 1).const_mul P.Qc
  unfold internalEnergy
  by_cases h1 : c.viscous = true <;> by_cases h2 : c.thermal = true <;> by_cases h3 : P.reaction > -1 <;>
    simp only [h1, h2, h3, if_true, if_false, Bool.false_eq_true]
  · refine (((((hdiv 1).sub hv).sub hA).sub hJ).sub hl).congr_deriv ?_
    simp only [vel, getRv]; simp; ring
  · refine (((((hdiv 1).sub hv).sub hA).sub hJ).sub_const 0).congr_deriv ?_
    simp only [vel, getRv]; simp; ring
  · refine (((((hdiv 1).sub hv).sub hA).sub_const 0).sub hl).congr_deriv ?_
    simp only [vel, getRv]; simp; ring
  · refine (((((hdiv 1).sub hv).sub hA).sub_const 0).sub_const 0).congr_deriv ?_
    simp only [vel, getRv]; simp; ring
  · refine (((((hdiv 1).sub hv).sub_const 0).sub hJ).sub hl).congr_deriv ?_
    simp only [vel, getRv]; simp; ring
  · refine (((((hdiv 1).sub hv).sub_const 0).sub hJ).sub_const 0).congr_deriv ?_
    simp only [vel, getRv]; simp; ring
  · refine (((((hdiv 1).sub hv).sub_const 0).sub_const 0).sub hl).congr_deriv ?_
    simp only [vel, getRv]; simp; ring
  · refine (((((hdiv 1).sub hv).sub_const 0).sub_const 0).sub_const 0).congr_deriv ?_
    simp only [vel, getRv]; simp; ring

theorem getA_entries (Q : St) : getA Q 0 0 = Q 5 ∧ getA Q 0 1 = Q 6 ∧ getA Q 0 2 = Q 7 ∧ getA Q 1 0 = Q 8 ∧
    getA Q 1 1 = Q 9 ∧ getA Q 1 2 = Q 10 ∧ getA Q 2 0 = Q 11 ∧ getA Q 2 1 = Q 12 ∧ getA Q 2 2 = Q 13 :=
  ⟨rfl, rfl, rfl, rfl, rfl, rfl, rfl, rfl, rfl⟩

theorem getRJ_entries (Q : St) : getRJ Q 0 = Q 14 ∧ getRJ Q 1 = Q 15 ∧ getRJ Q 2 = Q 16 := ⟨rfl, rfl, rfl⟩

/-! ### `dPdQ` -/

/-- A row of `dPdQ` as a sum over the entries it can be non-zero in. -/
theorem dPdQ_tail (c : Cfg) (P : Par) (Q x : St) (hv : c.viscous = true) (k : Nat)
    (hk : k < c.mV + if c.multi then 1 else 0) :
    ∑ j ∈ Finset.range c.V, dPdQ c P Q k j * x j =
      ∑ j ∈ Finset.range (c.mV + if c.multi then 1 else 0), dPdQ c P Q k j * x j := by
  unfold Cfg.V
  refine sum_tail _ _ _ fun j hj => ?_
  have h14 := mV_ge c hv
  have h17 := mV_thermal c hv
  have : dPdQ c P Q k j = 0 := by
    have hjk : ¬ k = j := by omega
    have hb : 14 ≤ j := by split_ifs at hj <;> omega
    unfold dPdQ
    by_cases h2 : c.thermal = true <;> by_cases h3 : c.multi = true <;> by_cases h4 : P.reaction > -1 <;>
    simp only [h2, h3, h4, hv, if_true, if_false, Bool.false_eq_true, mset, madd, msetRow, msetCol, msetDiag] at hj ⊢
    all_goals
      try have := h17 h2
      simp (disch := omega) only [hjk, show ¬ (j = 0) by omega, show ¬ (j = 1) by omega, show ¬ (j = 2) by omega,
        show ¬ (j = 3) by omega, show ¬ (j = 4) by omega, show ¬ (j = 5) by omega, show ¬ (j = 6) by omega,
        show ¬ (j = 7) by omega, show ¬ (j = 8) by omega, show ¬ (j = 9) by omega, show ¬ (j = 10) by omega,
        show ¬ (j = 11) by omega, show ¬ (j = 12) by omega, show ¬ (j = 13) by omega, and_false, if_false]
      repeat rw [if_neg (by omega)]
  rw [this, zero_mul]

theorem hasDeriv_pressure (c : Cfg) (P : Par) (q : ℝ → St) (q' : St) (t : ℝ) (h : Along q q' t)
    (hm : P.multi = false) (hR : Regular P.toParams (q t 0)) (hΓ : gammaMG P.toParams (q t 0) ≠ 0)
    (hr : P.reaction > -1 → c.multi = true) (hv : c.viscous = true) :
    HasDerivAt (fun s => pressure c P (q s)) (∑ j ∈ Finset.range c.V, dPdQ c P (q t) 1 j * q' j) t := by
  have hp := hasDeriv_pressureMG P.toParams (fun s => q s 0) _ _ _ t (h 0)
    (hasDeriv_internalEnergy c P q q' t h hR hΓ) hR hΓ
  simp only [pressure, hm, Bool.false_eq_true, if_false]
  refine hp.congr_deriv ?_
  have hρ := hR.pos.ne'
  have hEp : dedp P.toParams (q t 0) ≠ 0 := by
    unfold dedp
    exact one_div_ne_zero (mul_ne_zero hρ hΓ)
  rw [dPdQ_tail c P _ _ hv 1 (by have := mV_ge c hv; omega)]
  have hpr : pressure c P (q t) = pressureMG P.toParams (q t 0) (internalEnergy c P (q t)) := by
    simp [pressure, hm]
  obtain ⟨vis, th, mu, ls, mix⟩ := c
  simp only at hv
  subst hv
  generalize hQ : q t = Q at *
  cases th <;> cases mu <;> by_cases h4 : P.reaction > -1 <;>
    simp only [h4, true_implies, Bool.false_eq_true] at hr
  all_goals
    simp only [Cfg.mV, if_true, if_false, Bool.false_eq_true, h4, Nat.reduceAdd, dPdQ, mset, madd, msetRow, msetCol,
      msetDiag, dEdrho, hm, dEdp, ← hpr, sq3]
    simp only [Finset.sum_range_succ, Finset.sum_range_zero, Nat.reduceEqDiff, true_and, false_and,
      if_true, if_false, OfNat.ofNat_ne_zero, OfNat.zero_ne_ofNat, one_ne_zero, zero_ne_one, OfNat.ofNat_ne_one, OfNat.one_ne_ofNat]
    simp only [Fin.sum_univ_three, getA_entries q', dEdJ, getRJ_entries Q]
    field_simp
    ring

/-- Rows of `dPdQ` other than the pressure row. -/
theorem dPdQ_row (c : Cfg) (P : Par) (Q : St) (hv : c.viscous = true) (k j : Nat) (hk : k ≠ 1) [Decidable (Scaled c k)] :
    dPdQ c P Q k j = if Scaled c k then (if j = k then 1 / Q 0 else if j = 0 then -(Q k / Q 0) / Q 0 else 0)
      else if k = j then 1 else 0 := by
  have h17 := mV_thermal c hv
  have h14 := mV_ge c hv
  have hs2 : ∀ m, 2 ≤ m → m < 5 → Scaled c m := fun m h1 h2 => Or.inl ⟨h1, h2⟩
  have hmV : c.thermal = false → c.mV = 14 := by
    intro h; unfold Cfg.mV; rw [hv, h]; rfl
  obtain ⟨vis, th, mu, ls, mix⟩ := c
  simp only at hv
  subst hv
  cases th <;> cases mu <;> by_cases h4 : P.reaction > -1 <;>
    simp only [Cfg.mV, if_true, if_false, Bool.false_eq_true, h4, Nat.reduceAdd, dPdQ, mset, madd, msetRow, msetCol,
      msetDiag, Scaled, hk, false_and, true_and, or_false, false_or]
  all_goals
    rcases Nat.lt_or_ge k 18 with h18 | h18
    · interval_cases k <;> simp [vel, getRv, getRJ] at hk ⊢
      all_goals (split_ifs <;> first | rfl | omega)
    · repeat rw [if_neg (by omega)]
      symm
      rw [if_neg (by omega)]

/-- **C41**: `dPdQ` is the Jacobian of the primitive variables: along any curve of states the primitive variables
change at the rate `dPdQ q'`. -/
theorem hasDeriv_pvec (c : Cfg) (P : Par) (q : ℝ → St) (q' : St) (t : ℝ) (h : Along q q' t) (hv : c.viscous = true)
    (hm : P.multi = false) (hr : P.reaction > -1 → c.multi = true) (hR : Regular P.toParams (q t 0))
    (hΓ : gammaMG P.toParams (q t 0) ≠ 0) (k : Nat) (hk : k < c.V) :
    HasDerivAt (fun s => pvec c P (q s) k) (∑ j ∈ Finset.range c.V, dPdQ c P (q t) k j * q' j) t := by
  classical
  by_cases h1 : k = 1
  · subst h1
    simp only [pvec_one c hv]
    exact hasDeriv_pressure c P q q' t h hm hR hΓ hr hv
  · simp only [pvec_other c hv P _ k h1, dPdQ_row c P _ hv k _ h1]
    have hρ := hR.pos.ne'
    have hV : 0 < c.V := by omega
    by_cases hs : Scaled c k
    · have hk0 : k ≠ 0 := by
        rintro rfl
        have := hs.lo hv (by omega)
        omega
      simp only [hs, if_true]
      have e : ∀ j, (if j = k then 1 / q t 0 else if j = 0 then -(q t k / q t 0) / q t 0 else 0) * q' j =
          (if j = k then 1 / q t 0 * q' k else 0) + if j = 0 then -(q t k / q t 0) / q t 0 * q' 0 else 0 := by
        intro j
        by_cases hj : j = k
        · subst hj; simp [hk0]
        · by_cases hj0 : j = 0
          · subst hj0; simp [hj]
          · simp [hj, hj0]
      simp only [e, Finset.sum_add_distrib, Finset.sum_ite_eq', Finset.mem_range, hk, hV, if_true]
      refine ((h k).div (h 0) hρ).congr_deriv ?_
      field_simp
      ring
    · simp only [hs, if_false]
      have e : ∀ j, (if k = j then (1 : ℝ) else 0) * q' j = if k = j then q' j else 0 := by
        intro j; split_ifs <;> simp
      simp only [e, Finset.sum_ite_eq, Finset.mem_range, hk, if_true]
      exact h k

end Verif.Sys
