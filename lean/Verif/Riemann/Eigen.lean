import Verif.Riemann.Symm
import Verif.Riemann.Rest

/-!
# The matrix of `eigen`, eigenvecs.cpp
-/

namespace Verif.Riemann

open Verif.Sys Verif.Eig Verif.Rot

noncomputable section

attribute [local instance] Classical.propDecidable

/-- `Π1`, `Π2`, `Π3`, eigenvecs.cpp:21-32, for `d = 0`. -/
def piM (P : Par) (Q : St) (m : Fin 3) : M3 := Matrix.of fun i j =>
  dsigmadA (Q 0) P.b02 (getA Q) ((getA Q).transpose * getA Q) (AdevG (getA Q)) 0 i j m

/-- `tmp1`, eigenvecs.cpp:33-42. -/
def tmp1 (c : Cfg) (P : Par) (S : Solvers) (Q : St) : Matrix (Fin 5) (Fin (n1 c)) ℝ :=
  (1 / 2 : ℝ) • (X2 c P Q * S.evec (n1 c) (X1 c P Q * X2 c P Q) *
    Matrix.diagonal fun i => (S.eval (n1 c) (X1 c P Q * X2 c P Q) i)⁻¹)

/-- `tmp2`, eigenvecs.cpp:33-43. -/
def tmp2 (c : Cfg) (P : Par) (S : Solvers) (Q : St) : Matrix (Fin (n1 c)) (Fin (n1 c)) ℝ :=
  (1 / 2 : ℝ) • (S.evec (n1 c) (X1 c P Q * X2 c P Q) *
    Matrix.diagonal fun i => Real.sqrt (S.eval (n1 c) (X1 c P Q * X2 c P Q) i)⁻¹)

/-- Columns from `2 n1` on with heat conduction, eigenvecs.cpp:52-65. -/
def restHeat (c : Cfg) (P : Par) (Q : St) (r k : Nat) : ℝ :=
  let Tρ := dTdrho P.toParams (Q 0) (pressure c P Q)
  let Tp := dTdp P.toParams (Q 0)
  let b : V3 := fun i => Tp * dsigmadrho P.toParams Q 0 i + if i = 0 then Tρ else 0
  let κ := 1 / (((piM P Q 0 * getA Q)⁻¹).mulVec b 0 + Tp / Q 0)
  if k = 8 then
    if r = 0 then -κ * Tp else if r = 1 then κ * Tρ
    else if h : 2 ≤ r ∧ r < 5 then κ * (piM P Q 0)⁻¹.mulVec b ⟨r - 2, by omega⟩ else 0
  else if 15 ≤ k ∧ r = k then 1 else 0

/-- The same without heat conduction, eigenvecs.cpp:69-80. -/
def restPlain (P : Par) (Q : St) (r k : Nat) : ℝ :=
  if k = 6 then
    if r = 0 then 1 else if h : 2 ≤ r ∧ r < 5 then -(piM P Q 0)⁻¹.mulVec (dsigmadrho P.toParams Q 0) ⟨r - 2, by omega⟩ else 0
  else if k = 7 then
    if r = 1 then 1 else if h : 2 ≤ r ∧ r < 5 then (piM P Q 0)⁻¹ ⟨r - 2, by omega⟩ 0 else 0
  else if hk : 8 ≤ k ∧ k < 14 then
    if h : 2 ≤ r ∧ r < 5 then -((piM P Q 0)⁻¹ * piM P Q (if k < 11 then 1 else 2)) ⟨r - 2, by omega⟩ ⟨(k - 8) % 3, by omega⟩
    else if r = k - 3 then 1 else 0
  else if 14 ≤ k ∧ r = k then 1 else 0

/-- `eigen(Q, 0, MP)`, eigenvecs.cpp:10-83: row `r`, column `k`.  Rows: density, pressure, the columns of the distortion,
velocity, the rest. -/
def eigenR (c : Cfg) (P : Par) (S : Solvers) (Q : St) (r k : Nat) : ℝ :=
  if hk : k < 2 * n1 c then
    let j : Fin (n1 c) := if h : k < n1 c then ⟨k, h⟩ else ⟨k - n1 c, by omega⟩
    if h : r < 5 then tmp1 c P S Q ⟨r, h⟩ j
    else if h : 11 ≤ r ∧ r < 11 + n1 c then (if k < n1 c then 1 else -1) * tmp2 c P S Q ⟨r - 11, by omega⟩ j
    else 0
  else if c.thermal then restHeat c P Q r k else restPlain P Q r k

/-- The rows of `eigen` in the order of the state vector. -/
def reorder (x : St) : St := fun i =>
  if 2 ≤ i ∧ i < 5 then x (11 + (i - 2)) else if 5 ≤ i ∧ i < 14 then x (2 + 3 * ((i - 5) % 3) + (i - 5) / 3) else x i

/-- Column `k` as rates of the primitive variables. -/
def column (c : Cfg) (P : Par) (S : Solvers) (Q : St) (k : Nat) : St := reorder fun r => eigenR c P S Q r k

theorem reorder_v (x : St) (k : Fin 3) : reorder x (2 + k) = x (11 + k) := by
  unfold reorder
  rw [if_pos (by omega)]
  congr 1
  omega

theorem reorder_A (x : St) (a b : Fin 3) : reorder x (5 + (3 * a + b)) = x (2 + 3 * b + a) := by
  unfold reorder
  rw [if_neg (by omega), if_pos (by omega)]
  congr 1
  omega

theorem reorder_tail (x : St) (i : Nat) (hi : 14 ≤ i) : reorder x i = x i := by
  unfold reorder
  rw [if_neg (by omega), if_neg (by omega)]

section
variable (c : Cfg) (P : Par) (S : Solvers) (Q : St)

/-- An acoustic column as rates. -/
theorem column_mk (hv : c.viscous = true) (k : Fin (n1 c)) (e : Bool) : column c P S Q (k + if e then 0 else n1 c) =
    mk c ((tmp1 c P S Q).col k) ((if e then 1 else -1 : ℝ) • (tmp2 c P S Q).col k) := by
  have h3 := three_le c
  have h4 := n1_le c
  have hk := k.2
  have hj : (if h : (k + if e then 0 else n1 c) < n1 c then (⟨_, h⟩ : Fin (n1 c)) else
      ⟨k + (if e then 0 else n1 c) - n1 c, by split_ifs <;> omega⟩) = k := by
    cases e
    · rw [dif_neg (by simp)]
      ext
      simp
    · rw [dif_pos (by simp)]
      ext
      simp
  have hsg : (if (k.1 + if e then 0 else n1 c) < n1 c then (1 : ℝ) else -1) = if e then 1 else -1 := by
    cases e
    · rw [if_neg (by simp)]; rfl
    · rw [if_pos (by simp)]; rfl
  have hlt : (k.1 + if e then 0 else n1 c) < 2 * n1 c := by split_ifs <;> omega
  have main : ∀ r, eigenR c P S Q r (k + if e then 0 else n1 c) =
      if h : r < 5 then tmp1 c P S Q ⟨r, h⟩ k
      else if h : 11 ≤ r ∧ r < 11 + n1 c then (if e then 1 else -1) * tmp2 c P S Q ⟨r - 11, by omega⟩ k else 0 := by
    intro r
    unfold eigenR
    rw [dif_pos hlt]
    simp only [hsg]
    rw [hj]
  refine mk_ext c _ _ hv _ ?_ ?_ (fun j => ?_) (fun a b => ?_) (fun ht j => ?_) fun i hi => ?_
  · unfold column reorder
    simp [main]
  · unfold column reorder
    simp [main]
  · unfold column
    rw [reorder_v, main, dif_neg (by omega), dif_pos (by omega)]
    simp only [Pi.smul_apply, smul_eq_mul, Matrix.col_apply]
    congr 2
    ext
    simp
  · unfold column
    rw [reorder_A, main]
    by_cases hb : b = 0
    · subst hb
      rw [dif_pos (by simp; omega), if_pos rfl]
      simp only [Matrix.col_apply]
      congr 1
    · have hb' : 0 < b.1 := Nat.pos_of_ne_zero fun h => hb (Fin.ext h)
      rw [dif_neg (by omega), dif_neg (by omega), if_neg hb]
  · have hn : n1 c = 4 := by unfold n1; rw [ht]; rfl
    unfold column
    rw [reorder_tail _ _ (by omega), main, dif_neg (by omega)]
    by_cases hj : j = 0
    · subst hj
      rw [dif_pos (by simp; omega), if_pos rfl]
      simp only [Pi.smul_apply, smul_eq_mul, Matrix.col_apply]
      congr 2
      ext
      simp
      omega
    · have hj' : 0 < j.1 := Nat.pos_of_ne_zero fun h => hj (Fin.ext h)
      rw [dif_neg (by omega), if_neg hj]
  · have h14 := mV_ge c hv
    unfold column
    rw [reorder_tail _ _ (by omega), main, dif_neg (by omega), dif_neg]
    intro h
    by_cases ht : c.thermal = true
    · have := mV_thermal c hv ht
      omega
    · have hn : n1 c = 3 := by unfold n1; rw [if_neg ht]
      omega

/-- **C79.** The first `n1` columns of `eigen` are right eigenvectors of the system matrix with the speeds `v + √λ`, the next
`n1` with the speeds `v - √λ`, where `λ` runs over the eigenvalues of the acoustic tensor. -/
theorem eigen_waves (hv : c.viscous = true) (hm : P.multi = false) (hr : P.reaction > -1 → c.multi = true) (hS : S.Ok)
    (hR : Verif.Eig.Regular c P Q)
    (hdiag : ∃ (W : Matrix (Fin (n1 c)) (Fin (n1 c)) ℝ) (d : Fin (n1 c) → ℝ), W.det ≠ 0 ∧
      (X1 c P Q * X2 c P Q) * W = W * Matrix.diagonal d)
    (hpos : ∀ i, 0 < S.eval (n1 c) (X1 c P Q * X2 c P Q) i) (k : Fin (n1 c)) (e : Bool) (i : Nat) (hi : i < c.V) :
    rowDot c.V (systemMatrix c P Q 0) (toCons c P Q (column c P S Q (k + if e then 0 else n1 c))) i =
      (vel Q 0 + (if e then 1 else -1) * Real.sqrt (S.eval (n1 c) (X1 c P Q * X2 c P Q) k)) *
        toCons c P Q (column c P S Q (k + if e then 0 else n1 c)) i := by
  obtain ⟨-, heig⟩ := hS.eigen _ _ hdiag
  rw [column_mk c P S Q hv]
  unfold tmp1 tmp2
  set Ξ := X1 c P Q * X2 c P Q with hΞ
  set d := S.eval (n1 c) Ξ with hd
  set W := S.evec (n1 c) Ξ with hW
  have hs := Real.sqrt_pos.2 (hpos k)
  have hss := Real.mul_self_sqrt (hpos k).le
  set v : Fin (n1 c) → ℝ := (1 / 2 * (d k)⁻¹) • W.col k with hvv
  have hcol : Ξ.mulVec (W.col k) = d k • W.col k := by
    funext i
    have := congrFun (congrFun heig i) k
    rw [Matrix.mul_diagonal] at this
    rw [Pi.smul_apply, smul_eq_mul, mul_comm, Matrix.col_apply, ← this]
    rfl
  have e1 : ((1 / 2 : ℝ) • (X2 c P Q * W * Matrix.diagonal fun i => (d i)⁻¹)).col k = (X2 c P Q).mulVec v := by
    funext i
    rw [hvv, Matrix.mulVec_smul]
    simp only [Matrix.col_apply, Matrix.smul_apply, Pi.smul_apply, smul_eq_mul, Matrix.mul_diagonal]
    rw [show (X2 c P Q * W) i k = (X2 c P Q).mulVec (W.col k) i from rfl]
    ring
  have e2 : (if e then 1 else -1 : ℝ) • ((1 / 2 : ℝ) • (W * Matrix.diagonal fun i => Real.sqrt (d i)⁻¹)).col k =
      ((if e then 1 else -1) * Real.sqrt (d k)) • v := by
    funext i
    rw [hvv]
    simp only [Matrix.col_apply, Matrix.smul_apply, Matrix.mul_diagonal, Pi.smul_apply, smul_eq_mul, Real.sqrt_inv]
    have : (Real.sqrt (d k))⁻¹ = Real.sqrt (d k) * (d k)⁻¹ := by
      have hdk := (hpos k).ne'
      field_simp
      rw [sq]
      exact hss.symm
    rw [this]
    ring
  rw [e1, e2]
  refine wave_eigen c P Q hv hm hr hR _ _ (wave c P Q hv hm hR _ _ ?_) i hi
  have hsg : (if e then 1 else -1 : ℝ) * (if e then 1 else -1) = 1 := by cases e <;> norm_num
  rw [hvv, Matrix.mulVec_smul, hcol, smul_smul, smul_smul]
  congr 1
  linear_combination -(1 / 2 * (d k)⁻¹ * Real.sqrt (d k) * Real.sqrt (d k)) * hsg - (1 / 2 * (d k)⁻¹) * hss

/-! ### Contact columns -/

/-- The distortion part of the traction rate, with the derivatives as `eigen` computes them. -/
theorem stressRate_pi (hb : P.b02 ≠ 0) (y : St) (k : Fin 3) : stressRate P Q y 0 k =
    cs2 P.toParams (Q 0) / P.b02 * ∑ n, (piM P Q n).mulVec (fun m => getA y m n) k := by
  unfold stressRate
  rw [Finset.sum_comm, Finset.mul_sum]
  refine Finset.sum_congr rfl fun n _ => ?_
  simp only [Matrix.mulVec, dotProduct, Finset.mul_sum, piM, Matrix.of_apply]
  refine Finset.sum_congr rfl fun m _ => ?_
  unfold dsigmadA
  field_simp

/-- Rates without velocity act through the traction rate only. -/
theorem acoustic_still (ht : c.thermal = false) (y : St) (h0 : ∀ k : Fin 3, y (2 + k) = 0) (i : Nat) :
    acoustic c P Q 0 y i = if h : 2 ≤ i ∧ i < 5 then
      ((if i = 2 then y 1 else 0) - stressRate P Q y 0 ⟨i - 2, by omega⟩ -
        dsigmadrho P.toParams Q 0 ⟨i - 2, by omega⟩ * y 0) / Q 0 else 0 := by
  have hy : getRv y = 0 := funext h0
  have hz : dot3 (fun k => sigmaCol P.toParams Q 0 k - Q 0 * dsigmadrho P.toParams Q 0 k) (getRv y) = 0 := by
    rw [hy]; simp [dot3]
  have hz' : ∀ a, dot3 (getA Q a) (getRv y) = 0 := by
    intro a; rw [hy]; simp [dot3]
  have h2 := h0 0
  simp only [Fin.val_zero, add_zero] at h2
  unfold acoustic
  simp only [ht, Fin.val_zero, add_zero, h2, hz, hz']
  by_cases h : 2 ≤ i ∧ i < 5
  · rw [if_neg (by omega), if_neg (by omega), dif_pos h, dif_pos h]
  · rw [dif_neg h, dif_neg h]
    simp

/-- Parts of a column beyond the acoustic ones, without heat conduction. -/
theorem column_rest (ht : c.thermal = false) (k : Nat) (hk : 6 ≤ k) :
    column c P S Q k 0 = (if k = 6 then 1 else 0) ∧ column c P S Q k 1 = (if k = 7 then 1 else 0) ∧
    (∀ j : Fin 3, column c P S Q k (2 + j) = 0) ∧
    ∀ a b : Fin 3, getA (column c P S Q k) a b = restPlain P Q (2 + 3 * b + a) k := by
  have hn : n1 c = 3 := by unfold n1; rw [ht]; rfl
  have main : ∀ r, eigenR c P S Q r k = restPlain P Q r k := by
    intro r
    unfold eigenR
    rw [dif_neg (by omega), ht]
    rfl
  refine ⟨?_, ?_, fun j => ?_, fun a b => ?_⟩
  · unfold column reorder
    simp only [main]
    unfold restPlain
    split_ifs <;> first | rfl | omega | simp_all
  · unfold column reorder
    simp only [main]
    unfold restPlain
    split_ifs <;> first | rfl | omega | simp_all
  · unfold column
    rw [reorder_v, main]
    unfold restPlain
    split_ifs <;> first | rfl | omega
  · have : getA (column c P S Q k) a b = column c P S Q k (5 + (3 * a + b)) := rfl
    rw [this]
    unfold column
    rw [reorder_A, main]

/-- Distortion columns of a contact column. -/
theorem rest_A (hpi : (piM P Q 0).det ≠ 0) (k : Nat) (hk : 6 ≤ k) (j : Fin 3) :
    ∑ n : Fin 3, (piM P Q n).mulVec (fun m : Fin 3 => restPlain P Q (2 + 3 * n + m) k) j =
      if k = 6 then -dsigmadrho P.toParams Q 0 j else if k = 7 then if j = 0 then 1 else 0 else 0 := by
  have hU := isUnit_iff_ne_zero.2 hpi
  have hid : ∀ v : Fin 3 → ℝ, (piM P Q 0).mulVec ((piM P Q 0)⁻¹.mulVec v) = v := by
    intro v
    rw [Matrix.mulVec_mulVec, Matrix.mul_nonsing_inv _ hU, Matrix.one_mulVec]
  have zero : ∀ n : Fin 3, (piM P Q n).mulVec (fun _ => (0 : ℝ)) = 0 := fun n => Matrix.mulVec_zero _
  rw [Fin.sum_univ_three]
  simp only [Fin.val_zero, Fin.val_one, Fin.val_two, mul_zero, add_zero, mul_one, Nat.reduceMul, Nat.reduceAdd]
  have hlow : ∀ m : Fin 3, 2 ≤ 2 + m.1 ∧ 2 + m.1 < 5 := by intro m; omega
  have hsub : ∀ m : Fin 3, (⟨2 + m.1 - 2, by omega⟩ : Fin 3) = m := by intro m; ext; simp
  rcases Nat.lt_or_ge k 8 with h8 | h8
  · have hk' : k = 6 ∨ k = 7 := by omega
    have b1 : (fun m : Fin 3 => restPlain P Q (5 + m) k) = fun _ => (0 : ℝ) := by
      funext m
      unfold restPlain
      split_ifs <;> first | rfl | omega
    have b2 : (fun m : Fin 3 => restPlain P Q (8 + m) k) = fun _ => (0 : ℝ) := by
      funext m
      unfold restPlain
      split_ifs <;> first | rfl | omega
    rw [b1, b2, zero, zero]
    simp only [Pi.zero_apply, add_zero]
    rcases hk' with rfl | rfl
    · have a0 : (fun m : Fin 3 => restPlain P Q (2 + m) 6) = -(piM P Q 0)⁻¹.mulVec (dsigmadrho P.toParams Q 0) := by
        funext m
        unfold restPlain
        rw [if_pos rfl, if_neg (by omega), dif_pos (hlow m), hsub]
        rfl
      rw [a0, Matrix.mulVec_neg, hid, if_pos rfl]
      rfl
    · have a0 : (fun m : Fin 3 => restPlain P Q (2 + m) 7) = (piM P Q 0)⁻¹.mulVec (fun i => if i = 0 then 1 else 0) := by
        funext m
        unfold restPlain
        rw [if_neg (by omega), if_pos rfl, if_neg (by omega), dif_pos (hlow m), hsub]
        simp [Matrix.mulVec, dotProduct]
      rw [a0, hid]
      rfl
  · rw [if_neg (by omega), if_neg (by omega)]
    rcases Nat.lt_or_ge k 14 with h14 | h14
    · set t : Fin 3 := ⟨(k - 8) % 3, by omega⟩ with htd
      have a0 : (fun m : Fin 3 => restPlain P Q (2 + m) k) =
          -(piM P Q 0)⁻¹.mulVec ((piM P Q (if k < 11 then 1 else 2)).mulVec (fun i => if i = t then 1 else 0)) := by
        funext m
        unfold restPlain
        rw [if_neg (by omega), if_neg (by omega), dif_pos ⟨h8, h14⟩, dif_pos (hlow m), hsub, Matrix.mulVec_mulVec]
        simp [Matrix.mulVec, dotProduct, htd]
      rw [a0, Matrix.mulVec_neg, hid]
      by_cases h11 : k < 11
      · have b1 : (fun m : Fin 3 => restPlain P Q (5 + m) k) = fun i => if i = t then 1 else 0 := by
          funext m
          unfold restPlain
          rw [if_neg (by omega), if_neg (by omega), dif_pos ⟨h8, h14⟩, dif_neg (by omega)]
          have : 5 + m.1 = k - 3 ↔ m = t := by rw [Fin.ext_iff, htd]; simp only; omega
          simp only [this]
        have b2 : (fun m : Fin 3 => restPlain P Q (8 + m) k) = fun _ => (0 : ℝ) := by
          funext m
          unfold restPlain
          rw [if_neg (by omega), if_neg (by omega), dif_pos ⟨h8, h14⟩, dif_neg (by omega), if_neg (by omega)]
        rw [b1, b2, zero, if_pos h11]
        simp
      · have b1 : (fun m : Fin 3 => restPlain P Q (5 + m) k) = fun _ => (0 : ℝ) := by
          funext m
          unfold restPlain
          rw [if_neg (by omega), if_neg (by omega), dif_pos ⟨h8, h14⟩, dif_neg (by omega), if_neg (by omega)]
        have b2 : (fun m : Fin 3 => restPlain P Q (8 + m) k) = fun i => if i = t then 1 else 0 := by
          funext m
          unfold restPlain
          rw [if_neg (by omega), if_neg (by omega), dif_pos ⟨h8, h14⟩, dif_neg (by omega)]
          have : 8 + m.1 = k - 3 ↔ m = t := by rw [Fin.ext_iff, htd]; simp only; omega
          simp only [this]
        rw [b1, b2, zero, if_neg h11]
        simp
    · have z : ∀ r, r < 14 → restPlain P Q r k = 0 := by
        intro r hr
        unfold restPlain
        rw [if_neg (by omega), if_neg (by omega), dif_neg (by omega), if_neg (by omega)]
      have b0 : (fun m : Fin 3 => restPlain P Q (2 + m) k) = fun _ => (0 : ℝ) := funext fun m => z _ (by omega)
      have b1 : (fun m : Fin 3 => restPlain P Q (5 + m) k) = fun _ => (0 : ℝ) := funext fun m => z _ (by omega)
      have b2 : (fun m : Fin 3 => restPlain P Q (8 + m) k) = fun _ => (0 : ℝ) := funext fun m => z _ (by omega)
      rw [b0, b1, b2, zero, zero, zero]
      simp

/-- What the acoustic operator does to the columns that should be at rest. -/
theorem contact_rate (ht : c.thermal = false) (hb : P.b02 ≠ 0) (hpi : (piM P Q 0).det ≠ 0) (k : Nat) (hk : 6 ≤ k) (i : Nat) :
    acoustic c P Q 0 (column c P S Q k) i = if h : 2 ≤ i ∧ i < 5 then (1 - cs2 P.toParams (Q 0) / P.b02) *
      (if k = 6 then -dsigmadrho P.toParams Q 0 ⟨i - 2, by omega⟩ else if k = 7 then if i = 2 then 1 else 0 else 0) / Q 0
      else 0 := by
  obtain ⟨h0, h1, h2, h3⟩ := column_rest c P S Q ht k hk
  rw [acoustic_still c P Q ht _ h2]
  by_cases h : 2 ≤ i ∧ i < 5
  · rw [dif_pos h, dif_pos h, stressRate_pi P Q hb]
    simp only [h3]
    rw [rest_A P Q hpi k hk, h0, h1]
    have e : (⟨i - 2, by omega⟩ : Fin 3) = 0 ↔ i = 2 := by rw [Fin.ext_iff]; simp; omega
    simp only [e]
    by_cases h6 : k = 6
    · subst h6
      simp
      ring
    · by_cases h7 : k = 7
      · subst h7
        by_cases hi : i = 2 <;> simp [hi]
      · simp [h6, h7]
  · rw [dif_neg h, dif_neg h]

/-- **C79.** Without heat conduction the columns from the eighth on are right eigenvectors that move with the material. -/
theorem eigen_contacts (hv : c.viscous = true) (ht : c.thermal = false) (hm : P.multi = false)
    (hr : P.reaction > -1 → c.multi = true) (hR : Verif.Eig.Regular c P Q) (hb : P.b02 ≠ 0) (hpi : (piM P Q 0).det ≠ 0) (k : Nat)
    (hk : 6 ≤ k) (h : 8 ≤ k ∨ cs2 P.toParams (Q 0) = P.b02) (i : Nat) (hi : i < c.V) :
    rowDot c.V (systemMatrix c P Q 0) (toCons c P Q (column c P S Q k)) i = vel Q 0 * toCons c P Q (column c P S Q k) i := by
  have := wave_eigen c P Q hv hm hr hR (column c P S Q k) 0 (fun j => ?_) i hi
  · rwa [add_zero] at this
  · rw [contact_rate c P S Q ht hb hpi k hk, zero_mul]
    by_cases h' : 2 ≤ j ∧ j < 5
    · rw [dif_pos h']
      rcases h with h | h
      · rw [if_neg (by omega), if_neg (by omega), mul_zero, zero_div]
      · rw [h, div_self hb, sub_self, zero_mul, zero_div]
    · rw [dif_neg h']

/-- **C79, false in general.** The eighth column is an eigenvector that moves with the material exactly if the shear speed at the
present density is the one at the reference density. -/
theorem contact_pressure_iff (hv : c.viscous = true) (ht : c.thermal = false) (hm : P.multi = false)
    (hr : P.reaction > -1 → c.multi = true) (hR : Verif.Eig.Regular c P Q) (hb : P.b02 ≠ 0) (hpi : (piM P Q 0).det ≠ 0) :
    (∀ i < c.V, rowDot c.V (systemMatrix c P Q 0) (toCons c P Q (column c P S Q 7)) i =
      vel Q 0 * toCons c P Q (column c P S Q 7) i) ↔ cs2 P.toParams (Q 0) = P.b02 := by
  constructor
  · intro he
    have hE : dEdp c P Q ≠ 0 := by
      simp only [dEdp, hm, Bool.false_eq_true, if_false, dedp]
      exact one_div_ne_zero (mul_ne_zero hR.dens hR.grun)
    have h2V : 2 < c.V := by have := V_ge14 c hv; omega
    have key := acoustic_pair c P Q 0 hv hm hr hR (vel Q 0) 0 _ 0 (fun i hi => by rw [he i hi]; ring) 2 h2V
    have e1 := toPrim_toCons c P Q (column c P S Q 7) hr hR.dens hE hv
    rw [acoustic_congr c P Q _ _ 0 hv e1, contact_rate c P S Q ht hb hpi 7 (by omega)] at key
    simp only [sub_self, zero_mul, add_zero] at key
    rw [dif_pos (by omega), if_neg (by omega), if_pos trivial, if_pos trivial, mul_one, div_eq_zero_iff] at key
    rcases key with key | key
    · rw [sub_eq_zero, eq_comm, div_eq_one_iff_eq hb] at key
      exact key
    · exact absurd key hR.dens
  · intro h i hi
    exact eigen_contacts c P S Q hv ht hm hr hR hb hpi 7 (by omega) (Or.inr h) i hi

/-- **C79, false with heat conduction.** Six columns stay zero, so the matrix is singular. -/
theorem eigen_thermal_singular (ht : c.thermal = true) (k : Nat) (h9 : 9 ≤ k) (h15 : k < 15) (r : Nat) :
    eigenR c P S Q r k = 0 := by
  have hn : n1 c = 4 := by unfold n1; rw [ht]; rfl
  unfold eigenR
  rw [dif_neg (by omega), if_pos ht]
  unfold restHeat
  simp only
  rw [if_neg (by omega), if_neg (by omega)]

/-- Row `r` of the product of `eigen` with a vector, without heat conduction. -/
theorem row_sum (hv : c.viscous = true) (ht : c.thermal = false) (x : St) (r : Nat) :
    rowDot c.V (eigenR c P S Q) x r = ((∑ j : Fin (n1 c), eigenR c P S Q r j * x j) +
      ∑ j : Fin (n1 c), eigenR c P S Q r (j + n1 c) * x (j + n1 c)) +
      ((restPlain P Q r 6 * x 6 + restPlain P Q r 7 * x 7) +
        ∑ k : Fin 6, restPlain P Q r (8 + k) * x (8 + k)) +
      ∑ k ∈ Finset.range (c.V - 14), restPlain P Q r (14 + k) * x (14 + k) := by
  have hn : n1 c = 3 := by unfold n1; rw [ht]; rfl
  have hV := V_ge14 c hv
  have main : ∀ k, 6 ≤ k → eigenR c P S Q r k = restPlain P Q r k := by
    intro k hk
    unfold eigenR
    rw [dif_neg (by omega), ht]
    rfl
  unfold rowDot
  rw [show c.V = 14 + (c.V - 14) by omega, Finset.sum_range_add]
  rw [show 14 + (c.V - 14) - 14 = c.V - 14 by omega]
  congr 1
  · have s1 : ∀ f : Nat → ℝ, ∑ j : Fin (n1 c), f j = f 0 + f 1 + f 2 := by
      intro f
      rw [Fin.sum_univ_eq_sum_range, hn]
      simp [Finset.sum_range_succ]
    rw [s1 fun j => eigenR c P S Q r j * x j, s1 fun j => eigenR c P S Q r (j + n1 c) * x (j + n1 c), hn]
    simp only [Finset.sum_range_succ, Finset.sum_range_zero, Fin.sum_univ_six]
    simp only [main 6 (by omega), main 7 (by omega), main 8 (by omega), main 9 (by omega), main 10 (by omega),
      main 11 (by omega), main 12 (by omega), main 13 (by omega)]
    norm_num
    ring
  · exact Finset.sum_congr rfl fun k _ => by rw [main _ (by omega)]

/-- **C79.** Without heat conduction, at a density where the shear speed is the one at the reference density, the matrix of
`eigen` is regular: its columns are a complete set. -/
theorem eigen_regular (hv : c.viscous = true) (ht : c.thermal = false) (hS : S.Ok)
    (hdiag : ∃ (W : Matrix (Fin (n1 c)) (Fin (n1 c)) ℝ) (d : Fin (n1 c) → ℝ), W.det ≠ 0 ∧
      (X1 c P Q * X2 c P Q) * W = W * Matrix.diagonal d)
    (hpos : ∀ i, 0 < S.eval (n1 c) (X1 c P Q * X2 c P Q) i) (hb : P.b02 ≠ 0) (hpi : (piM P Q 0).det ≠ 0)
    (hcs : cs2 P.toParams (Q 0) = P.b02) :
    (Matrix.of fun r k : Fin c.V => eigenR c P S Q r k).det ≠ 0 := by
  intro hdet
  obtain ⟨v, hv0, hmv⟩ := Matrix.exists_mulVec_eq_zero_iff.2 hdet
  apply hv0
  set x : St := fun i => if h : i < c.V then v ⟨i, h⟩ else 0 with hx
  have hrow : ∀ r, r < c.V → rowDot c.V (eigenR c P S Q) x r = 0 := by
    intro r hr
    have := congrFun hmv ⟨r, hr⟩
    simp only [Matrix.mulVec, dotProduct, Matrix.of_apply, Pi.zero_apply] at this
    rw [rowDot, ← Fin.sum_univ_eq_sum_range fun k => eigenR c P S Q r k * x k, ← this]
    refine Finset.sum_congr rfl fun k _ => ?_
    rw [hx]
    simp only [dif_pos k.2]
  have hn : n1 c = 3 := by unfold n1; rw [ht]; rfl
  have hV := V_ge14 c hv
  simp only [row_sum c P S Q hv ht x] at hrow
  obtain ⟨hWdet, heig⟩ := hS.eigen _ _ hdiag
  -- entries of the acoustic columns
  have ea : ∀ (j : Fin (n1 c)) (r : Nat), eigenR c P S Q r j = if h : r < 5 then tmp1 c P S Q ⟨r, h⟩ j
      else if h : 11 ≤ r ∧ r < 11 + n1 c then tmp2 c P S Q ⟨r - 11, by omega⟩ j else 0 := by
    intro j r
    have hj := j.2
    unfold eigenR
    rw [dif_pos (by omega), dif_pos hj, if_pos hj]
    simp only [one_mul]
  have eb : ∀ (j : Fin (n1 c)) (r : Nat), eigenR c P S Q r (j + n1 c) = if h : r < 5 then tmp1 c P S Q ⟨r, h⟩ j
      else if h : 11 ≤ r ∧ r < 11 + n1 c then -tmp2 c P S Q ⟨r - 11, by omega⟩ j else 0 := by
    intro j r
    have hj := j.2
    unfold eigenR
    have e : (if h : j.1 + n1 c < n1 c then (⟨j + n1 c, h⟩ : Fin (n1 c)) else ⟨j.1 + n1 c - n1 c, by omega⟩) = j := by
      rw [dif_neg (by omega)]; ext; simp
    rw [dif_pos (by omega), if_neg (by omega)]
    simp only
    rw [e]
    simp only [neg_one_mul]
  -- level sets and mass fraction
  have x14 : ∀ k, 14 ≤ k → x k = 0 := by
    intro k hk
    by_cases hkV : k < c.V
    · have h := hrow k hkV
      have z0 : ∀ j : Fin (n1 c), eigenR c P S Q k j = 0 := by
        intro j; rw [ea, dif_neg (by omega), dif_neg (by omega)]
      have z1 : ∀ j : Fin (n1 c), eigenR c P S Q k (j + n1 c) = 0 := by
        intro j; rw [eb, dif_neg (by omega), dif_neg (by omega)]
      have z2 : ∀ m, m < 14 → restPlain P Q k m = 0 := by
        intro m hm; unfold restPlain; split_ifs <;> first | rfl | omega
      have z3 : ∀ m, restPlain P Q k (14 + m) = if m = k - 14 then 1 else 0 := by
        intro m; unfold restPlain
        rw [if_neg (by omega), if_neg (by omega), dif_neg (by omega)]
        have : (14 ≤ 14 + m ∧ k = 14 + m) ↔ m = k - 14 := by omega
        simp only [this]
      simp only [z0, z1, z2 6 (by omega), z2 7 (by omega), z3, zero_mul, Finset.sum_const_zero, add_zero, zero_add,
        ite_mul, one_mul] at h
      rw [Finset.sum_eq_zero fun (m : Fin 6) _ => by rw [z2 _ (by omega), zero_mul], zero_add,
        Finset.sum_ite_eq' (Finset.range (c.V - 14)) (k - 14) (fun m => x (14 + m)),
        if_pos (Finset.mem_range.2 (by omega)), show 14 + (k - 14) = k by omega] at h
      exact h
    · rw [hx]; simp only [dif_neg hkV]
  have tail : ∀ r, ∑ k ∈ Finset.range (c.V - 14), restPlain P Q r (14 + k) * x (14 + k) = 0 := fun r =>
    Finset.sum_eq_zero fun k _ => by rw [x14 _ (by omega), mul_zero]
  simp only [tail, add_zero] at hrow
  -- the six distortion columns
  have x8 : ∀ k : Fin 6, x (8 + k) = 0 := by
    intro k
    have h := hrow (5 + k) (by omega)
    have z0 : ∀ j : Fin (n1 c), eigenR c P S Q (5 + k) j = 0 := by
      intro j; rw [ea, dif_neg (by omega), dif_neg (by omega)]
    have z1 : ∀ j : Fin (n1 c), eigenR c P S Q (5 + k) (j + n1 c) = 0 := by
      intro j; rw [eb, dif_neg (by omega), dif_neg (by omega)]
    have z6 : restPlain P Q (5 + k) 6 = 0 := by unfold restPlain; split_ifs <;> first | rfl | omega
    have z7 : restPlain P Q (5 + k) 7 = 0 := by unfold restPlain; split_ifs <;> first | rfl | omega
    have z8 : ∀ m : Fin 6, restPlain P Q (5 + k) (8 + m) = if m = k then 1 else 0 := by
      intro m
      unfold restPlain
      rw [if_neg (by omega), if_neg (by omega), dif_pos (by omega), dif_neg (by omega)]
      have : 5 + k.1 = 8 + m.1 - 3 ↔ m = k := by rw [Fin.ext_iff]; omega
      simp only [this]
    simp only [z0, z1, z6, z7, z8, zero_mul, Finset.sum_const_zero, add_zero, zero_add, ite_mul, one_mul,
      Finset.sum_ite_eq', Finset.mem_univ, if_true] at h
    exact h
  simp only [x8, mul_zero, Finset.sum_const_zero, add_zero] at hrow
  set xa : Fin (n1 c) → ℝ := fun j => x j with hxa
  set xb : Fin (n1 c) → ℝ := fun j => x (j + n1 c) with hxb
  -- velocities
  have hvel : (tmp2 c P S Q).mulVec (xa - xb) = 0 := by
    funext i
    have hi := i.2
    have h := hrow (11 + i) (by omega)
    have z6 : restPlain P Q (11 + i) 6 = 0 := by unfold restPlain; split_ifs <;> first | rfl | omega
    have z7 : restPlain P Q (11 + i) 7 = 0 := by unfold restPlain; split_ifs <;> first | rfl | omega
    have i' : (⟨11 + i.1 - 11, by omega⟩ : Fin (n1 c)) = i := by ext; simp
    have e1 : ∀ j : Fin (n1 c), eigenR c P S Q (11 + i) j = tmp2 c P S Q i j := by
      intro j; rw [ea, dif_neg (by omega), dif_pos (by omega), i']
    have e2 : ∀ j : Fin (n1 c), eigenR c P S Q (11 + i) (j + n1 c) = -tmp2 c P S Q i j := by
      intro j; rw [eb, dif_neg (by omega), dif_pos (by omega), i']
    simp only [z6, z7, e1, e2, zero_mul, add_zero] at h
    rw [← Finset.sum_add_distrib] at h
    simp only [Matrix.mulVec, dotProduct, Pi.sub_apply, Pi.zero_apply, hxa, hxb]
    rw [← h]
    exact Finset.sum_congr rfl fun j _ => by ring
  have hd2 : (tmp2 c P S Q).det ≠ 0 := by
    unfold tmp2
    rw [Matrix.det_smul, Matrix.det_mul, Matrix.det_diagonal]
    refine mul_ne_zero (pow_ne_zero _ (by norm_num)) (mul_ne_zero hWdet (Finset.prod_ne_zero_iff.2 fun i _ => ?_))
    exact (Real.sqrt_pos.2 (inv_pos.2 (hpos i))).ne'
  have hab : xa = xb := by
    have := mulVec_inj hd2 (hvel.trans (Matrix.mulVec_zero _).symm)
    exact sub_eq_zero.1 this
  -- density, pressure and first distortion column
  have y6 := column_rest c P S Q ht 6 (by omega)
  have y7 := column_rest c P S Q ht 7 (by omega)
  have u6 : ∀ i : Fin 5, restPlain P Q i 6 = U5 0 (column c P S Q 6) i := by
    intro i
    fin_cases i
    · simp [U5, y6.1, restPlain]
    · simp [U5, y6.2.1, restPlain]
    · simp [U5, y6.2.2.2]
    · simp [U5, y6.2.2.2]
    · simp [U5, y6.2.2.2]
  have u7 : ∀ i : Fin 5, restPlain P Q i 7 = U5 0 (column c P S Q 7) i := by
    intro i
    fin_cases i
    · simp [U5, y7.1, restPlain]
    · simp [U5, y7.2.1, restPlain]
    · simp [U5, y7.2.2.2]
    · simp [U5, y7.2.2.2]
    · simp [U5, y7.2.2.2]
  have htop : (tmp1 c P S Q).mulVec (xa + xb) + (x 6 • U5 0 (column c P S Q 6) + x 7 • U5 0 (column c P S Q 7)) = 0 := by
    funext i
    have hi := i.2
    have h := hrow i (by omega)
    have e1 : ∀ j : Fin (n1 c), eigenR c P S Q i j = tmp1 c P S Q i j := by
      intro j; rw [ea, dif_pos hi]
    have e2 : ∀ j : Fin (n1 c), eigenR c P S Q i (j + n1 c) = tmp1 c P S Q i j := by
      intro j; rw [eb, dif_pos hi]
    simp only [e1, e2, u6, u7] at h
    rw [← Finset.sum_add_distrib] at h
    simp only [Matrix.mulVec, dotProduct, Pi.add_apply, Pi.smul_apply, smul_eq_mul, Pi.zero_apply, hxa, hxb]
    rw [← h]
    congr 1
    · exact Finset.sum_congr rfl fun j _ => by ring
    · ring
  have still : ∀ k, (k = 6 ∨ k = 7) → (X1 c P Q).mulVec (U5 0 (column c P S Q k)) = 0 := by
    intro k hk
    have hA : ∀ a b : Fin 3, b ≠ 0 → getA (column c P S Q k) a b = 0 := by
      intro a b hb'
      rw [(column_rest c P S Q ht k (by omega)).2.2.2]
      have : 0 < b.1 := Nat.pos_of_ne_zero fun h => hb' (Fin.ext h)
      unfold restPlain
      split_ifs <;> first | rfl | omega
    rw [X1_wave c P Q _ hv hA]
    funext j
    have hz : ∀ i, acoustic c P Q 0 (column c P S Q k) i = 0 := by
      intro i
      rw [contact_rate c P S Q ht hb hpi k (by omega), hcs, div_self hb]
      simp
    unfold Wn
    simp [hz]
  have hsum : xa + xb = 0 := by
    have h := congrArg (X1 c P Q).mulVec htop
    rw [Matrix.mulVec_add (X1 c P Q) ((tmp1 c P S Q).mulVec (xa + xb)), Matrix.mulVec_add (X1 c P Q) (x 6 • _), Matrix.mulVec_smul, Matrix.mulVec_smul, still 6 (Or.inl rfl), still 7 (Or.inr rfl),
      smul_zero, smul_zero, add_zero, add_zero, Matrix.mulVec_zero, Matrix.mulVec_mulVec] at h
    have e : X1 c P Q * tmp1 c P S Q = (1 / 2 : ℝ) • S.evec (n1 c) (X1 c P Q * X2 c P Q) := by
      unfold tmp1
      rw [Matrix.mul_smul, ← Matrix.mul_assoc, ← Matrix.mul_assoc, heig, Matrix.mul_assoc, Matrix.diagonal_mul_diagonal]
      have : (fun i => S.eval (n1 c) (X1 c P Q * X2 c P Q) i * (S.eval (n1 c) (X1 c P Q * X2 c P Q) i)⁻¹) = fun _ => 1 :=
        funext fun i => mul_inv_cancel₀ (hpos i).ne'
      rw [this, Matrix.diagonal_one, Matrix.mul_one]
    rw [e] at h
    have hd : ((1 / 2 : ℝ) • S.evec (n1 c) (X1 c P Q * X2 c P Q)).det ≠ 0 := by
      rw [Matrix.det_smul]
      exact mul_ne_zero (pow_ne_zero _ (by norm_num)) hWdet
    exact mulVec_inj hd (h.trans (Matrix.mulVec_zero _).symm)
  have ha : xa = 0 := by
    rw [← hab] at hsum
    funext j
    have := congrFun hsum j
    simp only [Pi.add_apply, Pi.zero_apply] at this ⊢
    linarith
  rw [hsum, Matrix.mulVec_zero, zero_add] at htop
  have h6 : x 6 = 0 := by
    have := congrFun htop 0
    simpa [U5, y6.1, y7.1] using this
  have h7 : x 7 = 0 := by
    have := congrFun htop 1
    simpa [U5, y6.2.1, y7.2.1] using this
  have hall : ∀ k, x k = 0 := by
    intro k
    by_cases h1 : k < 3
    · exact congrFun ha ⟨k, by omega⟩
    by_cases h2 : k < 6
    · have hb' : xb = 0 := by rw [← hab]; exact ha
      have := congrFun hb' ⟨k - 3, by omega⟩
      simp only [hxb, Pi.zero_apply, hn] at this
      rwa [show k - 3 + 3 = k by omega] at this
    by_cases h3 : k = 6
    · rw [h3]; exact h6
    by_cases h4 : k = 7
    · rw [h4]; exact h7
    by_cases h5 : k < 14
    · have := x8 ⟨k - 8, by omega⟩
      simp only at this
      rwa [show 8 + (k - 8) = k by omega] at this
    · exact x14 k (by omega)
  funext k
  have := hall k
  rw [hx] at this
  simpa [dif_pos k.2] using this

end

/-- Moving material at its reference density: a complete set of eigenvectors. -/
example (v : ℝ) : ∃ S : Solvers, S.Ok ∧
    (Matrix.of fun r k : Fin (cfgOf false).V => eigenR (cfgOf false) (samplePar sample) S (moving v) r k).det ≠ 0 ∧
    ∀ k, 6 ≤ k → ∀ i < (cfgOf false).V, rowDot (cfgOf false).V (systemMatrix (cfgOf false) (samplePar sample) (moving v) 0)
      (toCons (cfgOf false) (samplePar sample) (moving v) (column (cfgOf false) (samplePar sample) S (moving v) k)) i =
      vel (moving v) 0 *
        toCons (cfgOf false) (samplePar sample) (moving v) (column (cfgOf false) (samplePar sample) S (moving v) k) i := by
  obtain ⟨S, hS⟩ := exists_ok
  have hb : (samplePar sample).b02 ≠ 0 := by norm_num [samplePar, sample]
  obtain ⟨hA, hR, hk, -⟩ := moving_facts v
  have hD := unit_defined (cfgOf false) (samplePar sample) S _ rfl rfl rfl hS hR hA (by rw [hk]; norm_num) hb
  have hcs : cs2 (samplePar sample).toParams (moving v 0) = (samplePar sample).b02 := by
    rw [hk]; norm_num [samplePar, sample]
  exact ⟨S, hS, eigen_regular _ _ S _ rfl rfl hS (tensor_real _ _ _ rfl rfl) hD.speeds hb hD.stress hcs, fun k hk' i hi =>
    eigen_contacts _ _ S _ rfl rfl rfl (by simp [samplePar]) hR hb hD.stress k hk' (Or.inr hcs) i hi⟩

/-- Material compressed to twice its reference density. -/
def dense : St := fun i => if i = 0 then 2 else stateAtRest i

/-- **C79, false.** There the eighth column is not an eigenvector that moves with the material. -/
theorem contact_false : ∃ S : Solvers, S.Ok ∧ ¬∀ i < (cfgOf false).V,
    rowDot (cfgOf false).V (systemMatrix (cfgOf false) (samplePar sample) dense 0)
      (toCons (cfgOf false) (samplePar sample) dense (column (cfgOf false) (samplePar sample) S dense 7)) i =
      vel dense 0 * toCons (cfgOf false) (samplePar sample) dense (column (cfgOf false) (samplePar sample) S dense 7) i := by
  obtain ⟨S, hS⟩ := exists_ok
  have hb : (samplePar sample).b02 ≠ 0 := by norm_num [samplePar, sample]
  have hA : getA dense = 1 := by
    ext i j
    fin_cases i <;> fin_cases j <;> simp [getA, dense, stateAtRest]
  have h0 : dense 0 = 2 := rfl
  have hd : devGsq (getA dense) = 0 := by
    rw [hA]; simp [devGsq, dot3]; norm_num
  have hp : pressure (cfgOf false) (samplePar sample) dense = 5 := by
    have h2 : E2A (samplePar sample).toParams (dense 0) (getA dense) = 0 := by rw [E2A, hd, mul_zero]
    have h1 : dense 1 = 5 := by simp [dense, stateAtRest]
    have hE3 : E3 (vel dense) = 0 := by simp [E3, sq3, vel, getRv, dense, stateAtRest]
    simp only [pressure, internalEnergy, hE3, h2, h1]
    norm_num [samplePar, sample, pressureMG, eRef, pRef, gammaMG, h0, cfgOf]
  have hE : 0 ≤ (pressure (cfgOf false) (samplePar sample) dense / (dense 0 * dense 0) -
      dEdrho (cfgOf false) (samplePar sample) dense) / dEdp (cfgOf false) (samplePar sample) dense := by
    simp only [dEdrho, dEdp, hp, hd, h0]
    norm_num [samplePar, sample, dedrho, dedp, gammaMG, pRef, eRef, dpRef, deRef, dGammaMG]
  have hcs : cs2 (samplePar sample).toParams (dense 0) = 2 := by norm_num [cs2, samplePar, sample, h0]
  have hR : Verif.Eig.Regular (cfgOf false) (samplePar sample) dense :=
    ⟨by norm_num [h0], by norm_num [gammaMG, samplePar, sample], by norm_num [hcs], hE, fun h => absurd h (by simp [cfgOf])⟩
  have hD := unit_defined (cfgOf false) (samplePar sample) S _ rfl rfl rfl hS hR hA (by rw [hcs]; norm_num) hb
  refine ⟨S, hS, fun h => ?_⟩
  have := (contact_pressure_iff (cfgOf false) (samplePar sample) S dense rfl rfl rfl (by simp [samplePar]) hR hb hD.stress).1 h
  rw [hcs] at this
  norm_num [samplePar, sample] at this

end

end Verif.Riemann
