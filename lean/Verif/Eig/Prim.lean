import Verif.Eig.Model
import Verif.Sys.Flux
import Verif.Sys.JacS
import Verif.Sys.Stress

/-!
# The system matrix in primitive variables

`dPdQ · system_matrix = (primitive matrix) · dPdQ`, an identity of matrices.
-/

namespace Verif.Eig

open Verif.Sys

noncomputable section

/-- The meaningful indices of a state. -/
theorem index_cases (c : Cfg) (hv : c.viscous = true) (i : Nat) :
    i = 0 ∨ i = 1 ∨ (∃ k : Fin 3, i = 2 + k) ∨ (∃ a b : Fin 3, i = 5 + (3 * a + b)) ∨
      (c.thermal = true ∧ ∃ k : Fin 3, i = 14 + k) ∨ (c.multi = true ∧ i = c.mV) ∨
      c.mV + (if c.multi then 1 else 0) ≤ i := by
  have h14 := mV_ge c hv
  have h17 := mV_cases c
  rcases Nat.lt_or_ge i 2 with h | h
  · omega
  rcases Nat.lt_or_ge i 5 with h' | h'
  · exact Or.inr (Or.inr (Or.inl ⟨⟨i - 2, by omega⟩, by simp; omega⟩))
  rcases Nat.lt_or_ge i 14 with h2 | h2
  · exact Or.inr (Or.inr (Or.inr (Or.inl ⟨⟨(i - 5) / 3, by omega⟩, ⟨(i - 5) % 3, by omega⟩, by simp; omega⟩)))
  rcases Nat.lt_or_ge i c.mV with h3 | h3
  · refine Or.inr (Or.inr (Or.inr (Or.inr (Or.inl ?_))))
    cases ht : c.thermal
    · have := h17.2 ht hv; omega
    · have := h17.1 ht hv
      exact ⟨rfl, ⟨i - 14, by omega⟩, by simp; omega⟩
  · cases hm : c.multi
    · simp; omega
    · by_cases he : i = c.mV
      · simp [he]
      · simp; omega

/-- The rates of the conserved variables in terms of those of the primitive variables. -/
def toCons (c : Cfg) (P : Par) (Q y : St) : St := fun i =>
  if i = 1 then
    (Q 1 / Q 0 + Q 0 * dEdrho c P Q) * y 0 + Q 0 * dEdp c P Q * y 1 + Q 0 * dot3 (vel Q) (getRv y) +
      Q 0 * ∑ a, ∑ b, dEdA P.toParams Q a b * getA y a b +
      (if c.thermal then Q 0 * dot3 (dEdJ P.toParams Q) (getRJ y) else 0) +
      (if c.multi then if P.reaction > -1 then Q 0 * P.Qc * y c.mV else 0 else 0)
  else if 2 ≤ i ∧ i < 5 then Q 0 * y i + Q i / Q 0 * y 0
  else if c.thermal = true ∧ 14 ≤ i ∧ i < 17 then Q 0 * y i + Q i / Q 0 * y 0
  else if c.multi = true ∧ i = c.mV then Q 0 * y i + Q i / Q 0 * y 0
  else y i

/-- The rates of the primitive variables, `dPdQ x`. -/
def toPrim (c : Cfg) (P : Par) (Q x : St) : St := fun i => rowDot c.V (dPdQ c P Q) x i

section
variable (c : Cfg) (P : Par) (Q x y : St) (hv : c.viscous = true)

include hv in
theorem toPrim_scaled (i : Nat) (hi : i < c.V) (h1 : i ≠ 1) (hs : Scaled c i) :
    toPrim c P Q x i = (x i - Q i / Q 0 * x 0) / Q 0 := by
  classical
  have hi0 : i ≠ 0 := by
    rintro rfl
    have := hs.lo hv (by omega)
    omega
  unfold toPrim rowDot
  simp only [dPdQ_row c P Q hv i _ h1, hs, if_true]
  have e : ∀ j, (if j = i then 1 / Q 0 else if j = 0 then -(Q i / Q 0) / Q 0 else 0) * x j =
      (if j = i then 1 / Q 0 * x i else 0) + if j = 0 then -(Q i / Q 0) / Q 0 * x 0 else 0 := by
    intro j
    by_cases hj : j = i
    · subst hj; simp [hi0]
    · by_cases hj0 : j = 0
      · subst hj0; simp [hj]
      · simp [hj, hj0]
  have hV : 0 < c.V := by omega
  simp only [e, Finset.sum_add_distrib, Finset.sum_ite_eq', Finset.mem_range, hi, hV, if_true]
  ring

include hv in
theorem toPrim_plain (i : Nat) (hi : i < c.V) (h1 : i ≠ 1) (hs : ¬ Scaled c i) : toPrim c P Q x i = x i := by
  classical
  unfold toPrim rowDot
  simp only [dPdQ_row c P Q hv i _ h1, hs, if_false]
  have e : ∀ j, (if i = j then (1 : ℝ) else 0) * x j = if i = j then x j else 0 := by
    intro j; split_ifs <;> simp
  simp only [e, Finset.sum_ite_eq, Finset.mem_range, hi, if_true]

include hv in
theorem V_ge14 : 14 ≤ c.V := le_trans (mV_ge c hv) (mV_le c)

/-- The pressure row of `dPdQ`, multiplied out. -/
theorem toPrim_one (hr : P.reaction > -1 → c.multi = true) (hρ : Q 0 ≠ 0) (hE : dEdp c P Q ≠ 0) (hv : c.viscous = true) :
    Q 0 * dEdp c P Q * toPrim c P Q x 1 = x 1 - (Q 1 / Q 0 + Q 0 * dEdrho c P Q) * x 0 -
      dot3 (vel Q) (fun i => x (2 + i) - vel Q i * x 0) -
      Q 0 * ∑ a, ∑ b, dEdA P.toParams Q a b * getA x a b -
      (if c.thermal then dot3 (dEdJ P.toParams Q) (fun i => x (14 + i) - getRJ Q i / Q 0 * x 0) else 0) -
      (if c.multi then if P.reaction > -1 then P.Qc * (x c.mV - Q c.mV / Q 0 * x 0) else 0 else 0) := by
  unfold toPrim rowDot
  rw [dPdQ_tail c P _ _ hv 1 (by have := mV_ge c hv; omega)]
  obtain ⟨vis, th, mu, ls, mix⟩ := c
  simp only at hv
  subst hv
  generalize hEp : dEdp _ P Q = Ep at *
  generalize hEr : dEdrho _ P Q = Er at *
  cases th <;> cases mu <;> by_cases h4 : P.reaction > -1 <;>
    simp only [h4, true_implies, Bool.false_eq_true] at hr
  all_goals
    simp only [Cfg.mV, if_true, if_false, Bool.false_eq_true, h4, Nat.reduceAdd, dPdQ, mset, madd, msetRow, msetCol,
      msetDiag, hEp, hEr, sq3]
    simp only [Finset.sum_range_succ, Finset.sum_range_zero, Nat.reduceEqDiff, true_and, false_and,
      if_true, if_false, OfNat.ofNat_ne_zero, OfNat.zero_ne_ofNat, one_ne_zero, zero_ne_one, OfNat.ofNat_ne_one, OfNat.one_ne_ofNat]
    simp only [Fin.sum_univ_three, getA_entries x, dEdJ, getRJ_entries Q, dot3]
    simp only [Fin.val_zero, Fin.val_one, Fin.val_two, Nat.reduceAdd, Nat.add_zero]
    field_simp
    ring

/-! Entries of `toCons`. -/

theorem toCons_one : toCons c P Q y 1 =
    (Q 1 / Q 0 + Q 0 * dEdrho c P Q) * y 0 + Q 0 * dEdp c P Q * y 1 + Q 0 * dot3 (vel Q) (getRv y) +
      Q 0 * ∑ a, ∑ b, dEdA P.toParams Q a b * getA y a b +
      (if c.thermal then Q 0 * dot3 (dEdJ P.toParams Q) (getRJ y) else 0) +
      (if c.multi then if P.reaction > -1 then Q 0 * P.Qc * y c.mV else 0 else 0) := by
  simp only [toCons, if_true]

theorem toCons_scaled (i : Nat) (h1 : i ≠ 1) (hs : Scaled c i) : toCons c P Q y i = Q 0 * y i + Q i / Q 0 * y 0 := by
  unfold toCons
  rw [if_neg h1]
  split_ifs with h2 h3 h4
  · rfl
  · rfl
  · rfl
  · exfalso
    rcases hs with h | h | h
    · exact h2 h
    · exact h3 h
    · exact h4 h

theorem toCons_plain (i : Nat) (h1 : i ≠ 1) (hs : ¬ Scaled c i) : toCons c P Q y i = y i := by
  unfold toCons
  rw [if_neg h1, if_neg fun h => hs (Or.inl h), if_neg fun h => hs (Or.inr (Or.inl h)),
    if_neg fun h => hs (Or.inr (Or.inr h))]

theorem scaled_v (k : Fin 3) : Scaled c (2 + k) := Or.inl ⟨by omega, by omega⟩

theorem scaled_J (ht : c.thermal = true) (k : Fin 3) : Scaled c (14 + k) := Or.inr (Or.inl ⟨ht, by omega, by omega⟩)

theorem scaled_V (hm : c.multi = true) : Scaled c c.mV := Or.inr (Or.inr ⟨hm, rfl⟩)

include hv in
theorem plain_0 : ¬ Scaled c 0 := fun h => by have := h.lo hv (by omega); omega

include hv in
theorem plain_A (a b : Fin 3) : ¬ Scaled c (5 + (3 * a + b)) := fun h => by
  have := h.lo hv (by omega); omega

include hv in
theorem plain_L (i : Nat) (hi : c.mV + (if c.multi then 1 else 0) ≤ i) : ¬ Scaled c i := by
  have h14 := mV_ge c hv
  have h17 := mV_thermal c hv
  rintro (h | ⟨h, h', h''⟩ | ⟨h, h'⟩)
  · split_ifs at hi <;> omega
  · have := h17 h; split_ifs at hi <;> omega
  · rw [if_pos h] at hi; omega

/-- Going to primitive rates and back. -/
theorem toCons_toPrim (hr : P.reaction > -1 → c.multi = true) (hρ : Q 0 ≠ 0) (hE : dEdp c P Q ≠ 0)
    (hv : c.viscous = true) (i : Nat) (hi : i < c.V) : toCons c P Q (toPrim c P Q x) i = x i := by
  have h14 := V_ge14 c hv
  have hmv := mV_le c
  have e0 : toPrim c P Q x 0 = x 0 := toPrim_plain c P Q x hv 0 (by omega) (by omega) (plain_0 c hv)
  by_cases h1 : i = 1
  · subst h1
    have ev : ∀ k : Fin 3, toPrim c P Q x (2 + k) = (x (2 + k) - Q (2 + k) / Q 0 * x 0) / Q 0 := fun k =>
      toPrim_scaled c P Q x hv _ (by omega) (by omega) (scaled_v c k)
    have eA : getA (toPrim c P Q x) = getA x := by
      ext a b
      exact toPrim_plain c P Q x hv _ (by omega) (by omega) (plain_A c hv a b)
    rw [toCons_one, toPrim_one c P Q x hr hρ hE hv, eA, e0]
    have d1 : Q 0 * dot3 (vel Q) (getRv (toPrim c P Q x)) = dot3 (vel Q) (fun i => x (2 + i) - vel Q i * x 0) := by
      simp only [dot3, getRv, ev, vel]
      field_simp
    rw [d1]
    have d2 : (if c.thermal then Q 0 * dot3 (dEdJ P.toParams Q) (getRJ (toPrim c P Q x)) else 0) =
        if c.thermal then dot3 (dEdJ P.toParams Q) (fun i => x (14 + i) - getRJ Q i / Q 0 * x 0) else 0 := by
      split_ifs with ht
      · have h17 := mV_thermal c hv ht
        have eJ : ∀ k : Fin 3, toPrim c P Q x (14 + k) = (x (14 + k) - Q (14 + k) / Q 0 * x 0) / Q 0 := fun k =>
          toPrim_scaled c P Q x hv _ (by omega) (by omega) (scaled_J c ht k)
        simp only [dot3, getRJ, eJ]
        field_simp
      · rfl
    rw [d2]
    have d3 : (if c.multi then if P.reaction > -1 then Q 0 * P.Qc * toPrim c P Q x c.mV else 0 else 0) =
        if c.multi then if P.reaction > -1 then P.Qc * (x c.mV - Q c.mV / Q 0 * x 0) else 0 else 0 := by
      split_ifs with hm h4
      · rw [toPrim_scaled c P Q x hv _ (V_gt c hm) (by have := mV_ge c hv; omega) (scaled_V c hm)]
        field_simp
      · rfl
      · rfl
    rw [d3]
    ring
  · by_cases hs : Scaled c i
    · rw [toCons_scaled c P Q _ i h1 hs, toPrim_scaled c P Q x hv i hi h1 hs, e0]
      field_simp
      ring
    · rw [toCons_plain c P Q _ i h1 hs, toPrim_plain c P Q x hv i hi h1 hs]

/-- Going to conserved rates and back. -/
theorem toPrim_toCons (hr : P.reaction > -1 → c.multi = true) (hρ : Q 0 ≠ 0) (hE : dEdp c P Q ≠ 0)
    (hv : c.viscous = true) (i : Nat) (hi : i < c.V) : toPrim c P Q (toCons c P Q y) i = y i := by
  have h14 := V_ge14 c hv
  have hmv := mV_le c
  have e0 : toCons c P Q y 0 = y 0 := toCons_plain c P Q y 0 (by omega) (plain_0 c hv)
  by_cases h1 : i = 1
  · subst h1
    refine mul_left_cancel₀ (mul_ne_zero hρ hE) ?_
    have ev : ∀ k : Fin 3, toCons c P Q y (2 + k) = Q 0 * y (2 + k) + Q (2 + k) / Q 0 * y 0 := fun k =>
      toCons_scaled c P Q y _ (by omega) (scaled_v c k)
    have eA : getA (toCons c P Q y) = getA y := by
      ext a b
      exact toCons_plain c P Q y _ (by omega) (plain_A c hv a b)
    rw [toPrim_one c P Q _ hr hρ hE hv, toCons_one, eA, e0]
    have d1 : dot3 (vel Q) (fun i => toCons c P Q y (2 + i) - vel Q i * y 0) = Q 0 * dot3 (vel Q) (getRv y) := by
      simp only [dot3, getRv, ev, vel]
      ring
    rw [d1]
    have d2 : (if c.thermal then dot3 (dEdJ P.toParams Q) (fun i => toCons c P Q y (14 + i) - getRJ Q i / Q 0 * y 0)
        else 0) = if c.thermal then Q 0 * dot3 (dEdJ P.toParams Q) (getRJ y) else 0 := by
      split_ifs with ht
      · have eJ : ∀ k : Fin 3, toCons c P Q y (14 + k) = Q 0 * y (14 + k) + Q (14 + k) / Q 0 * y 0 := fun k =>
          toCons_scaled c P Q y _ (by omega) (scaled_J c ht k)
        simp only [dot3, getRJ, eJ]
        ring
      · rfl
    rw [d2]
    have d3 : (if c.multi then if P.reaction > -1 then P.Qc * (toCons c P Q y c.mV - Q c.mV / Q 0 * y 0) else 0
        else 0) = if c.multi then if P.reaction > -1 then Q 0 * P.Qc * y c.mV else 0 else 0 := by
      split_ifs with hm h4
      · rw [toCons_scaled c P Q y _ (by have := mV_ge c hv; omega) (scaled_V c hm)]
        ring
      · rfl
      · rfl
    rw [d3]
    ring
  · by_cases hs : Scaled c i
    · rw [toPrim_scaled c P Q _ hv i hi h1 hs, toCons_scaled c P Q y i h1 hs, e0]
      field_simp
      ring
    · rw [toPrim_plain c P Q _ hv i hi h1 hs, toCons_plain c P Q y i h1 hs]

/-- The rates of change caused by gradients `y` of the primitive variables along axis `d`, minus transport with the
velocity. -/
def acoustic (c : Cfg) (P : Par) (Q : St) (d : Fin 3) (y : St) : St := fun i =>
  if i = 0 then Q 0 * y (2 + d)
  else if i = 1 then Q 0 * (c0 c P Q * c0 c P Q) * y (2 + d) +
    dot3 (fun k => sigmaCol P.toParams Q d k - Q 0 * dsigmadrho P.toParams Q d k) (getRv y) +
    (if c.thermal then P.cα2 * temperatureMG P.toParams (Q 0) (pressure c P Q) / (Q 0 * dEdp c P Q) * y (14 + d) else 0)
  else if h : 2 ≤ i ∧ i < 5 then
    ((if i = 2 + d then y 1 else 0) - stressRate P Q y d ⟨i - 2, by omega⟩ -
      dsigmadrho P.toParams Q d ⟨i - 2, by omega⟩ * y 0) / Q 0
  else if h : 5 ≤ i ∧ i < 14 then
    if (i - 5) % 3 = d then dot3 (getA Q ⟨(i - 5) / 3, by omega⟩) (getRv y) else 0
  else if c.thermal = true ∧ i = 14 + d then
    (dTdrho P.toParams (Q 0) (pressure c P Q) * y 0 + dTdp P.toParams (Q 0) * y 1) / Q 0
  else 0

theorem ac_0 (d : Fin 3) : acoustic c P Q d y 0 = Q 0 * y (2 + d) := by simp [acoustic]

theorem ac_1 (d : Fin 3) : acoustic c P Q d y 1 = Q 0 * (c0 c P Q * c0 c P Q) * y (2 + d) +
    dot3 (fun k => sigmaCol P.toParams Q d k - Q 0 * dsigmadrho P.toParams Q d k) (getRv y) +
    (if c.thermal then P.cα2 * temperatureMG P.toParams (Q 0) (pressure c P Q) / (Q 0 * dEdp c P Q) * y (14 + d)
      else 0) := by simp [acoustic]

theorem ac_v (d k : Fin 3) : acoustic c P Q d y (2 + k) =
    ((if k = d then y 1 else 0) - stressRate P Q y d k - dsigmadrho P.toParams Q d k * y 0) / Q 0 := by
  have hk := k.2
  unfold acoustic
  rw [if_neg (by omega), if_neg (by omega), dif_pos (by omega)]
  have e : (⟨2 + k.1 - 2, by omega⟩ : Fin 3) = k := by ext; simp
  have e2 : (2 + k.1 = 2 + d.1) ↔ k = d := by rw [Fin.ext_iff]; omega
  simp only [e, e2]

theorem ac_A (d a b : Fin 3) : acoustic c P Q d y (5 + (3 * a + b)) =
    if b = d then dot3 (getA Q a) (getRv y) else 0 := by
  have ha := a.2
  have hb := b.2
  unfold acoustic
  rw [if_neg (by omega), if_neg (by omega), dif_neg (by omega), dif_pos (by omega)]
  have e : (⟨(5 + (3 * a.1 + b.1) - 5) / 3, by omega⟩ : Fin 3) = a := by ext; simp; omega
  have e2 : ((5 + (3 * a.1 + b.1) - 5) % 3 = d.1) ↔ b = d := by rw [Fin.ext_iff]; omega
  simp only [e, e2]

theorem ac_J (ht : c.thermal = true) (d k : Fin 3) : acoustic c P Q d y (14 + k) =
    if k = d then (dTdrho P.toParams (Q 0) (pressure c P Q) * y 0 + dTdp P.toParams (Q 0) * y 1) / Q 0 else 0 := by
  unfold acoustic
  rw [if_neg (by omega), if_neg (by omega), dif_neg (by omega), dif_neg (by omega)]
  have e2 : (14 + k.1 = 14 + d.1) ↔ k = d := by rw [Fin.ext_iff]; omega
  simp only [e2, ht, true_and]

include hv in
theorem ac_tail (d : Fin 3) (i : Nat) (hi : c.mV ≤ i) : acoustic c P Q d y i = 0 := by
  have h14 := mV_ge c hv
  have h17 := mV_thermal c hv
  unfold acoustic
  rw [if_neg (by omega), if_neg (by omega), dif_neg (by omega), dif_neg (by omega), if_neg]
  rintro ⟨ht, h⟩
  have := h17 ht
  omega

end

end

end Verif.Eig
