import Verif.Sys.Jac

/-!
# C41: the Jacobian of the flux and the system matrix
-/

namespace Verif.Sys

/-- Row `a` of a matrix of `n` columns applied to a vector. -/
noncomputable def rowDot (n : Nat) (M : Nat → Nat → ℝ) (x : St) (a : Nat) : ℝ := ∑ k ∈ Finset.range n, M a k * x k

theorem rowDot_zero (n : Nat) (x : St) (a : Nat) : rowDot n (fun _ _ => 0) x a = 0 := by simp [rowDot]

theorem rowDot_mset_ne (n i j : Nat) (v : ℝ) (M : Nat → Nat → ℝ) (x : St) (a : Nat) (h : a ≠ i) :
    rowDot n (mset i j v M) x a = rowDot n M x a := by simp [rowDot, mset, h]

theorem rowDot_madd_ne (n i j : Nat) (v : ℝ) (M : Nat → Nat → ℝ) (x : St) (a : Nat) (h : a ≠ i) :
    rowDot n (madd i j v M) x a = rowDot n M x a := by simp [rowDot, madd, h]

theorem rowDot_mset_eq (n i j : Nat) (v : ℝ) (M : Nat → Nat → ℝ) (x : St) (h : j < n) :
    rowDot n (mset i j v M) x i = rowDot n M x i + (v - M i j) * x j := by
  have e : ∀ k, mset i j v M i k * x k = M i k * x k + if k = j then (v - M i j) * x j else 0 := by
    intro k
    by_cases hk : k = j
    · subst hk; simp [mset]; ring
    · simp [mset, hk]
  simp only [rowDot, e, Finset.sum_add_distrib, Finset.sum_ite_eq', Finset.mem_range, h, if_true]

theorem rowDot_madd_eq (n i j : Nat) (v : ℝ) (M : Nat → Nat → ℝ) (x : St) (h : j < n) :
    rowDot n (madd i j v M) x i = rowDot n M x i + v * x j := by
  have e : ∀ k, madd i j v M i k * x k = M i k * x k + if k = j then v * x j else 0 := by
    intro k
    by_cases hk : k = j
    · subst hk; simp [madd]; ring
    · simp [madd, hk]
  simp only [rowDot, e, Finset.sum_add_distrib, Finset.sum_ite_eq', Finset.mem_range, h, if_true]

theorem mset_ent_ne (i j a b : Nat) (v : ℝ) (M : Nat → Nat → ℝ) (h : ¬ (a = i ∧ b = j)) :
    mset i j v M a b = M a b := by simp [mset, h]

theorem madd_ent_ne (i j a b : Nat) (v : ℝ) (M : Nat → Nat → ℝ) (h : ¬ (a = i ∧ b = j)) :
    madd i j v M a b = M a b := by simp [madd, h]

theorem mset_ent_eq (i j : Nat) (v : ℝ) (M : Nat → Nat → ℝ) : mset i j v M i j = v := by simp [mset]

theorem madd_ent_eq (i j : Nat) (v : ℝ) (M : Nat → Nat → ℝ) : madd i j v M i j = M i j + v := by simp [madd]

/-- The matrix vanishes outside its leading `n × n` block. -/
def Supp (n : Nat) (M : Nat → Nat → ℝ) : Prop := ∀ a b, n ≤ a ∨ n ≤ b → M a b = 0

theorem Supp.mset {n i j : Nat} {v : ℝ} {M : Nat → Nat → ℝ} (h : Supp n M) (hi : i < n) (hj : j < n) :
    Supp n (mset i j v M) := fun a b hab => by
  rw [mset_ent_ne _ _ _ _ _ _ (by omega)]; exact h a b hab

theorem Supp.madd {n i j : Nat} {v : ℝ} {M : Nat → Nat → ℝ} (h : Supp n M) (hi : i < n) (hj : j < n) :
    Supp n (madd i j v M) := fun a b hab => by
  rw [madd_ent_ne _ _ _ _ _ _ (by omega)]; exact h a b hab

theorem Supp.mono {n m : Nat} {M : Nat → Nat → ℝ} (h : Supp n M) (hnm : n ≤ m) : Supp m M :=
  fun a b hab => h a b (by omega)

theorem Supp.zero (n : Nat) : Supp n fun _ _ => 0 := fun _ _ _ => rfl

theorem Supp.base (c : Cfg) (P : Par) (Q : St) (d : Fin 3) : Supp 5 (dFdPBase c P Q d) := by
  have hd := d.2
  simp only [dFdPBase, msetRow, msetCol, maddCol, msetDiag]
  repeat' first
    | exact Supp.zero _
    | (refine Supp.mset ?_ (by omega) (by omega))
    | (refine Supp.madd ?_ (by omega) (by omega))

theorem Supp.viscous (P : Par) (Q : St) (d : Fin 3) (M : Nat → Nat → ℝ) (hM : Supp 5 M) :
    Supp 14 (dFdPViscous P Q d M) := by
  have hd := d.2
  simp only [dFdPViscous, dFdPStress, show List.finRange 3 = [0, 1, 2] from rfl, List.foldl_cons, List.foldl_nil,
    maddRow, maddCol, msetRow, Fin.isValue, Fin.val_zero, Fin.val_one, Fin.val_two]
  repeat' first
    | exact hM.mono (by omega)
    | (refine Supp.mset ?_ (by omega) (by omega))
    | (refine Supp.madd ?_ (by omega) (by omega))

theorem Supp.thermal (c : Cfg) (P : Par) (Q : St) (d : Fin 3) (M : Nat → Nat → ℝ) (hM : Supp 14 M) :
    Supp 17 (dFdPThermal c P Q d M) := by
  have hd := d.2
  simp only [dFdPThermal, msetRow, msetCol, msetDiag]
  repeat' first
    | exact hM.mono (by omega)
    | (refine Supp.mset ?_ (by omega) (by omega))
    | (refine Supp.madd ?_ (by omega) (by omega))

/-- Rate of change of `σ_dk` when the distortion changes at the rate `x` and the density is fixed. -/
noncomputable def stressRate (P : Par) (Q x : St) (d k : Fin 3) : ℝ :=
  ∑ m, ∑ n, dsigmadA (Q 0) (cs2 P.toParams (Q 0)) (getA Q) ((getA Q).transpose * getA Q) (AdevG (getA Q)) d k m n *
    getA x m n

/-- Reduces a row of a matrix of writes. -/
macro "rowSimp" : tactic => `(tactic|
  simp (disch := first | omega | simp) only [rowDot_mset_ne, rowDot_madd_ne, rowDot_mset_eq, rowDot_madd_eq,
    mset_ent_ne, madd_ent_ne, mset_ent_eq, madd_ent_eq, rowDot_zero])

section base
variable (c : Cfg) (P : Par) (Q x : St) (n : Nat) (hn : 14 ≤ n)

include hn in
theorem base_row0 (d : Fin 3) : rowDot n (dFdPBase c P Q d) x 0 = vel Q d * x 0 + Q 0 * x (2 + d) := by
  fin_cases d <;> simp only [dFdPBase, msetRow, msetCol, maddCol, msetDiag, Fin.zero_eta, Fin.mk_one, Fin.reduceFinMk,
    Fin.isValue] <;> rowSimp <;> ring

include hn in
theorem base_row1 (d : Fin 3) : rowDot n (dFdPBase c P Q d) x 1 =
    (Q 1 / Q 0 + Q 0 * dEdrho c P Q) * vel Q d * x 0 + (Q 0 * dEdp c P Q + 1) * vel Q d * x 1 +
      Q 0 * vel Q d * dot3 (vel Q) (getRv x) + (Q 0 * (Q 1 / Q 0) + pressure c P Q) * x (2 + d) := by
  fin_cases d <;> simp only [dFdPBase, msetRow, msetCol, maddCol, msetDiag, Fin.zero_eta, Fin.mk_one, Fin.reduceFinMk,
    Fin.isValue] <;> rowSimp <;> simp only [dot3, getRv] <;> simp <;> ring

include hn in
theorem base_row2 (d k : Fin 3) : rowDot n (dFdPBase c P Q d) x (2 + k) =
    vel Q d * vel Q k * x 0 + Q 0 * vel Q d * x (2 + k) + Q 0 * vel Q k * x (2 + d) + if k = d then x 1 else 0 := by
  fin_cases d <;> fin_cases k <;> simp only [dFdPBase, msetRow, msetCol, maddCol, msetDiag, Fin.zero_eta, Fin.mk_one, Fin.reduceFinMk,
    Fin.isValue] <;> rowSimp <;> simp

end base

theorem Supp.rowDot {m : Nat} {M : Nat → Nat → ℝ} (h : Supp m M) (n : Nat) (x : St) (a : Nat) (ha : m ≤ a) :
    rowDot n M x a = 0 := by
  simp only [Verif.Sys.rowDot]
  exact Finset.sum_eq_zero fun k _ => by rw [h a k (Or.inl ha), zero_mul]

section visc
variable (P : Par) (Q x : St) (n : Nat) (hn : 14 ≤ n) (M : Nat → Nat → ℝ) (hM : Supp 5 M)

theorem visc_row0 (d : Fin 3) : rowDot n (dFdPViscous P Q d M) x 0 = rowDot n M x 0 := by
  simp only [dFdPViscous, dFdPStress, show List.finRange 3 = [0, 1, 2] from rfl, List.foldl_cons, List.foldl_nil,
    maddRow, maddCol, msetRow]
  rowSimp

include hn hM in
theorem visc_row1 (d : Fin 3) : rowDot n (dFdPViscous P Q d M) x 1 = rowDot n M x 1 -
    (vel Q 0 * stressRate P Q x d 0 + vel Q 1 * stressRate P Q x d 1 + vel Q 2 * stressRate P Q x d 2) -
    dot3 (dsigmadrho P.toParams Q d) (vel Q) * x 0 - dot3 (sigmaCol P.toParams Q d) (getRv x) +
    Q 0 * vel Q d * ∑ i, ∑ j, dEdA P.toParams Q i j * getA x i j := by
  have hM' : ∀ a b, 5 ≤ a ∨ 5 ≤ b → M a b = 0 := hM
  simp only [stressRate, Fin.sum_univ_three, getA_entries x]
  fin_cases d <;>
  simp only [dFdPViscous, dFdPStress, show List.finRange 3 = [0, 1, 2] from rfl, List.foldl_cons, List.foldl_nil,
    maddRow, maddCol, msetRow, Fin.zero_eta, Fin.mk_one, Fin.reduceFinMk, Fin.isValue, Fin.val_zero, Fin.val_one,
    Fin.val_two] <;> rowSimp <;> simp (disch := omega) only [hM', dot3, getRv] <;> simp <;> ring

include hn hM in
theorem visc_row2 (d k : Fin 3) : rowDot n (dFdPViscous P Q d M) x (2 + k) = rowDot n M x (2 + k) -
    stressRate P Q x d k - dsigmadrho P.toParams Q d k * x 0 := by
  have hM' : ∀ a b, 5 ≤ a ∨ 5 ≤ b → M a b = 0 := hM
  simp only [stressRate, Fin.sum_univ_three, getA_entries x]
  fin_cases d <;> fin_cases k <;>
  simp only [dFdPViscous, dFdPStress, show List.finRange 3 = [0, 1, 2] from rfl, List.foldl_cons, List.foldl_nil,
    maddRow, maddCol, msetRow, Fin.zero_eta, Fin.mk_one, Fin.reduceFinMk, Fin.isValue, Fin.val_zero, Fin.val_one,
    Fin.val_two] <;> rowSimp <;> simp (disch := omega) only [hM'] <;> simp <;> ring

include hn hM in
theorem visc_row5 (d a b : Fin 3) : rowDot n (dFdPViscous P Q d M) x (5 + (3 * a + b)) =
    if b = d then dot3 (getA Q a) (getRv x) + dot3 (vel Q) (getA x a) else 0 := by
  have hM' : ∀ a b, 5 ≤ a ∨ 5 ≤ b → M a b = 0 := hM
  have hR : ∀ a, 5 ≤ a → rowDot n M x a = 0 := hM.rowDot n x
  simp only [dot3]
  fin_cases d <;> fin_cases a <;> fin_cases b <;>
  simp only [dFdPViscous, dFdPStress, show List.finRange 3 = [0, 1, 2] from rfl, List.foldl_cons, List.foldl_nil,
    maddRow, maddCol, msetRow, Fin.zero_eta, Fin.mk_one, Fin.reduceFinMk, Fin.isValue, Fin.val_zero, Fin.val_one,
    Fin.val_two] <;> rowSimp <;> simp (disch := omega) only [hM', hR, getA_entries x, getRv] <;> simp <;> ring

end visc

section thermal
variable (c : Cfg) (P : Par) (Q x : St) (n : Nat) (hn : 17 ≤ n) (M : Nat → Nat → ℝ) (hM : Supp 14 M)

include hn hM in
theorem therm_row1 (d : Fin 3) : rowDot n (dFdPThermal c P Q d M) x 1 = rowDot n M x 1 +
    dTdrho P.toParams (Q 0) (pressure c P Q) * dEdJ P.toParams Q d * x 0 +
    dTdp P.toParams (Q 0) * dEdJ P.toParams Q d * x 1 +
    Q 0 * vel Q d * dot3 (dEdJ P.toParams Q) (getRJ x) +
    P.cα2 * temperatureMG P.toParams (Q 0) (pressure c P Q) * x (14 + d) := by
  have hM' : ∀ a b, 14 ≤ a ∨ 14 ≤ b → M a b = 0 := hM
  fin_cases d <;>
  simp only [dFdPThermal, msetCol, msetRow, msetDiag, Fin.zero_eta, Fin.mk_one, Fin.reduceFinMk, Fin.isValue] <;>
    rowSimp <;> simp (disch := omega) only [hM', dot3, getRJ] <;>
    simp <;> ring

theorem therm_row (d : Fin 3) (i : Nat) (h1 : i ≠ 1) (h2 : i < 14) :
    rowDot n (dFdPThermal c P Q d M) x i = rowDot n M x i := by
  have hd := d.2
  simp only [dFdPThermal, msetCol, msetRow, msetDiag]
  rowSimp

include hn hM in
theorem therm_row14 (d k : Fin 3) : rowDot n (dFdPThermal c P Q d M) x (14 + k) =
    vel Q d * (getRJ Q k / Q 0) * x 0 + Q 0 * (getRJ Q k / Q 0) * x (2 + d) + Q 0 * vel Q d * x (14 + k) +
      if k = d then dTdrho P.toParams (Q 0) (pressure c P Q) * x 0 + dTdp P.toParams (Q 0) * x 1 else 0 := by
  have hM' : ∀ a b, 14 ≤ a ∨ 14 ≤ b → M a b = 0 := hM
  have hR : ∀ a, 14 ≤ a → rowDot n M x a = 0 := hM.rowDot n x
  fin_cases d <;> fin_cases k <;>
  simp only [dFdPThermal, msetCol, msetRow, msetDiag, Fin.zero_eta, Fin.mk_one, Fin.reduceFinMk, Fin.isValue] <;>
    rowSimp <;> simp (disch := omega) only [hM', hR] <;>
    simp <;> ring

end thermal

section multi
variable (c : Cfg) (P : Par) (Q x : St) (n : Nat) (hv : c.viscous = true) (hn : c.mV < n) (M : Nat → Nat → ℝ)
  (hM : Supp c.mV M)

include hv hn hM in
theorem multi_row1 (d : Fin 3) : rowDot n (dFdPMulti c P Q d M) x 1 = rowDot n M x 1 +
    if P.reaction > -1 then P.Qc * (Q 0 * vel Q d) * x c.mV else 0 := by
  have h14 := mV_ge c hv
  have hd := d.2
  have hM' : ∀ a b, c.mV ≤ a ∨ c.mV ≤ b → M a b = 0 := hM
  simp only [dFdPMulti]
  split_ifs
  · rowSimp
    rw [hM' 1 c.mV (by omega)]
    ring
  · rowSimp
    ring

theorem multi_row (d : Fin 3) (i : Nat) (h1 : i ≠ 1) (h2 : i ≠ c.mV) :
    rowDot n (dFdPMulti c P Q d M) x i = rowDot n M x i := by
  simp only [dFdPMulti]
  split_ifs <;> rowSimp

include hv hn hM in
theorem multi_rowV (d : Fin 3) : rowDot n (dFdPMulti c P Q d M) x c.mV =
    vel Q d * (Q c.mV / Q 0) * x 0 + Q 0 * (Q c.mV / Q 0) * x (2 + d) + Q 0 * vel Q d * x c.mV := by
  have h14 := mV_ge c hv
  have hd := d.2
  have hM' : ∀ a b, c.mV ≤ a ∨ c.mV ≤ b → M a b = 0 := hM
  have hR : ∀ a, c.mV ≤ a → rowDot n M x a = 0 := hM.rowDot n x
  simp only [dFdPMulti]
  split_ifs <;> rowSimp <;> simp (disch := omega) only [hM', hR] <;> ring

end multi

end Verif.Sys
