import Verif.Riemann.Step
import Verif.Eig.Props
import Verif.Sys.JacM
import Mathlib.LinearAlgebra.Matrix.ToLinearEquiv

/-!
# What the columns of `riemann_constraints` are
-/

namespace Verif.Riemann

open Verif.Sys Verif.Eig Verif.Rot

section
variable (c : Cfg) (P : Par) (S : Solvers) (Q : St)

/-- Density and pressure entries. -/
def hd2 (v : Fin 5 → ℝ) : Fin 2 → ℝ := ![v 0, v 1]
/-- Distortion entries. -/
def tl3 (v : Fin 5 → ℝ) : Fin 3 → ℝ := ![v 2, v 3, v 4]

theorem system_top (v : Fin 5 → ℝ) (i : Fin 3) : (system c P Q).mulVec v ⟨i, by omega⟩ =
    (rhs P Q).mulVec (hd2 v) i - (dsigmadAd P.toParams Q 0).mulVec (tl3 v) i := by
  simp only [Matrix.mulVec, dotProduct, Fin.sum_univ_five, Fin.sum_univ_three, Fin.sum_univ_two, system, rhs, Matrix.of_apply,
    hd2, tl3]
  have hi := i.2
  have e : (⟨i.1, by omega⟩ : Fin 5) = 0 ↔ i = 0 := by rw [Fin.ext_iff, Fin.ext_iff]; rfl
  simp [e]
  ring

theorem matW_eq (v : Fin 5 → ℝ) : (matW c P Q).mulVec v =
    hd2 v - (matB c P Q * (getA Q)⁻¹).mulVec (tl3 v) := by
  funext i
  simp only [Matrix.mulVec, dotProduct, Fin.sum_univ_five, Fin.sum_univ_three, matW, Matrix.of_apply, hd2, tl3,
    Pi.sub_apply]
  fin_cases i <;> simp <;> ring

theorem system_bot (ht : c.thermal = false) (v : Fin 5 → ℝ) (i : Fin 2) : (system c P Q).mulVec v ⟨3 + i, by omega⟩ =
    (matZ c P Q)⁻¹.mulVec ((matW c P Q).mulVec v) i := by
  rw [Matrix.mulVec_mulVec]
  simp only [Matrix.mulVec, dotProduct]
  refine Finset.sum_congr rfl fun j _ => ?_
  congr 1
  simp only [system, Matrix.of_apply, ht, Bool.false_eq_true, if_false]
  rw [dif_neg (by simp)]
  have : (⟨3 + i.1 - 3, by omega⟩ : Fin 2) = i := by ext; simp
  rw [this]

theorem mulVec_inj {n : Type} [Fintype n] [DecidableEq n] {M : Matrix n n ℝ} (h : M.det ≠ 0) {v w : n → ℝ}
    (e : M.mulVec v = M.mulVec w) : v = w := by
  have := congrArg (M⁻¹.mulVec) e
  rwa [Matrix.mulVec_mulVec, Matrix.mulVec_mulVec, Matrix.nonsing_inv_mul _ (isUnit_iff_ne_zero.2 h), Matrix.one_mulVec,
    Matrix.one_mulVec] at this

theorem split_zero {v : Fin 5 → ℝ} (h1 : hd2 v = 0) (h2 : tl3 v = 0) : v = 0 := by
  funext i
  fin_cases i
  · exact congrFun h1 0
  · exact congrFun h1 1
  · exact congrFun h2 0
  · exact congrFun h2 1
  · exact congrFun h2 2

/-- Without heat conduction the linear system behind the columns is always regular. -/
theorem system_regular (ht : c.thermal = false) (hS : (dsigmadAd P.toParams Q 0).det ≠ 0) (hZ : (matZ c P Q).det ≠ 0) :
    (system c P Q).det ≠ 0 := by
  intro hdet
  obtain ⟨v, hv, h0⟩ := Matrix.exists_mulVec_eq_zero_iff.2 hdet
  refine hv ?_
  have htop : (rhs P Q).mulVec (hd2 v) = (dsigmadAd P.toParams Q 0).mulVec (tl3 v) := by
    funext i
    have := system_top c P Q v i
    rw [h0] at this
    simp only [Pi.zero_apply] at this
    linarith
  have hw : tl3 v = ((dsigmadAd P.toParams Q 0)⁻¹ * rhs P Q).mulVec (hd2 v) := by
    rw [← Matrix.mulVec_mulVec, htop, Matrix.mulVec_mulVec, Matrix.nonsing_inv_mul _ (isUnit_iff_ne_zero.2 hS),
      Matrix.one_mulVec]
  have hW : (matW c P Q).mulVec v = 0 := by
    have hz : ((matZ c P Q)⁻¹).det ≠ 0 := by
      rw [Matrix.det_nonsing_inv, Ring.inverse_eq_inv']
      exact inv_ne_zero hZ
    refine mulVec_inj hz ?_
    rw [Matrix.mulVec_zero]
    funext i
    rw [← system_bot c P Q ht, h0]
    rfl
  rw [matW_eq, sub_eq_zero] at hW
  have hu : hd2 v = 0 := by
    refine mulVec_inj hZ ?_
    rw [Matrix.mulVec_zero, matZ, Matrix.sub_mulVec, Matrix.one_mulVec, ← Matrix.mulVec_mulVec, ← hw, ← hW, sub_self]
  refine split_zero hu ?_
  rw [hw, hu, Matrix.mulVec_zero]

/-- What `X` solves. -/
theorem matX_spec (hS : S.Ok) (hreg : (system c P Q).det ≠ 0) (x : Fin (n1 c) → ℝ) :
    (system c P Q).mulVec ((matX c P S Q).mulVec x) = fun r : Fin 5 => if h : r.1 < n1 c then x ⟨r, h⟩ else 0 := by
  rw [Matrix.mulVec_mulVec]
  have : system c P Q * matX c P S Q = Matrix.of fun (r : Fin 5) (j : Fin (n1 c)) => if r.1 = j.1 then (1 : ℝ) else 0 := by
    ext r j
    have := congrFun (hS.solve (system c P Q) (fun r => if r.1 = j.1 then 1 else 0) hreg) r
    rw [Matrix.of_apply, ← this]
    rfl
  rw [this]
  funext r
  simp only [Matrix.mulVec, dotProduct, Matrix.of_apply]
  by_cases h : r.1 < n1 c
  · rw [dif_pos h, Finset.sum_eq_single ⟨r, h⟩]
    · simp
    · intro j _ hj
      rw [if_neg, zero_mul]
      exact fun e => hj (Fin.ext e.symm)
    · simp
  · rw [dif_neg h]
    refine Finset.sum_eq_zero fun j _ => ?_
    rw [if_neg (by omega), zero_mul]

/-! ### Rates in the usual order -/

/-- The primitive rates whose density, pressure and first distortion column are `u`, whose velocity (and normal impulse) is `w`,
and which vanish otherwise. -/
def mk (u : Fin 5 → ℝ) (w : Fin (n1 c) → ℝ) : St := fun i =>
  if i = 0 then u 0
  else if i = 1 then u 1
  else if h : 2 ≤ i ∧ i < 5 then w ⟨i - 2, by have := three_le c; omega⟩
  else if h : 5 ≤ i ∧ i < 14 then if (i - 5) % 3 = 0 then u ⟨2 + (i - 5) / 3, by omega⟩ else 0
  else if c.thermal = true ∧ i = 14 then w ⟨n1 c - 1, by have := three_le c; omega⟩
  else 0

variable (u : Fin 5 → ℝ) (w : Fin (n1 c) → ℝ)

theorem mk_0 : mk c u w 0 = u 0 := by simp [mk]

theorem mk_1 : mk c u w 1 = u 1 := by simp [mk]

theorem mk_v (k : Fin 3) : mk c u w (2 + k) = w (k.castLE (three_le c)) := by
  unfold mk
  rw [if_neg (by omega), if_neg (by omega), dif_pos (by omega)]
  congr 1
  ext
  simp

theorem mk_A (a b : Fin 3) : mk c u w (5 + (3 * a + b)) = if b = 0 then u ⟨2 + a, by omega⟩ else 0 := by
  unfold mk
  rw [if_neg (by omega), if_neg (by omega), dif_neg (by omega), dif_pos (by omega)]
  have e : (5 + (3 * a.1 + b.1) - 5) % 3 = 0 ↔ b = 0 := by rw [Fin.ext_iff]; simp; omega
  have e2 : (⟨2 + (5 + (3 * a.1 + b.1) - 5) / 3, by omega⟩ : Fin 5) = ⟨2 + a, by omega⟩ := by ext; simp; omega
  simp only [e, e2]

theorem mk_getA (a b : Fin 3) : getA (mk c u w) a b = if b = 0 then u ⟨2 + a, by omega⟩ else 0 := mk_A c u w a b

theorem mk_J (ht : c.thermal = true) (k : Fin 3) : mk c u w (14 + k) =
    if k = 0 then w ⟨n1 c - 1, by have := three_le c; omega⟩ else 0 := by
  unfold mk
  rw [if_neg (by omega), if_neg (by omega), dif_neg (by omega), dif_neg (by omega)]
  have e : 14 + k.1 = 14 ↔ k = 0 := by rw [Fin.ext_iff]; simp
  simp only [ht, e, true_and]

theorem mk_tail (hv : c.viscous = true) (i : Nat) (hi : c.mV ≤ i) : mk c u w i = 0 := by
  have h14 := mV_ge c hv
  unfold mk
  rw [if_neg (by omega), if_neg (by omega), dif_neg (by omega), dif_neg (by omega), if_neg]
  rintro ⟨ht, h⟩
  have := mV_thermal c hv ht
  omega

/-- Velocity (and normal impulse) of rates. -/
def Wn (y : St) : Fin (n1 c) → ℝ := fun k => if k.1 < 3 then y (2 + k) else y 14

theorem mk_ext (hv : c.viscous = true) (z : St) (h0 : z 0 = u 0) (h1 : z 1 = u 1)
    (h2 : ∀ k : Fin 3, z (2 + k) = w (k.castLE (three_le c)))
    (h3 : ∀ a b : Fin 3, z (5 + (3 * a + b)) = if b = 0 then u ⟨2 + a, by omega⟩ else 0)
    (h4 : c.thermal = true → ∀ k : Fin 3, z (14 + k) = if k = 0 then w ⟨n1 c - 1, by have := three_le c; omega⟩ else 0)
    (h5 : ∀ i, c.mV ≤ i → z i = 0) : z = mk c u w := by
  funext i
  rcases index_cases c hv i with rfl | rfl | ⟨k, rfl⟩ | ⟨a, b, rfl⟩ | ⟨ht, k, rfl⟩ | ⟨hmu, rfl⟩ | hL
  · rw [h0, mk_0]
  · rw [h1, mk_1]
  · rw [h2, mk_v]
  · rw [h3, mk_A]
  · rw [h4 ht, mk_J c u w ht]
  · rw [h5 _ le_rfl, mk_tail c u w hv _ le_rfl]
  · rw [h5 _ (by split_ifs at hL <;> omega), mk_tail c u w hv _ (by split_ifs at hL <;> omega)]

theorem U5_mk : U5 0 (mk c u w) = u := by
  funext i
  have h := mk_getA c u w
  fin_cases i <;> simp [U5, mk_0, mk_1, h]

theorem Wn_mk : Wn c (mk c u w) = w := by
  funext k
  have hk := k.2
  have h3 := three_le c
  unfold Wn
  split_ifs with h
  · exact (mk_v c u w ⟨k, h⟩)
  · have ht : c.thermal = true := by
      by_contra hc
      have : n1 c = 3 := by unfold n1; rw [if_neg hc]
      omega
    have hn : n1 c = 4 := by unfold n1; rw [ht]; rfl
    refine (mk_J c u w ht 0).trans ?_
    rw [if_pos rfl]
    congr 1
    ext
    simp only
    omega

theorem mk_smul (a : ℝ) : mk c (a • u) (a • w) = fun i => a * mk c u w i := by
  funext i
  unfold mk
  split_ifs <;> simp

theorem mk_sum {ι : Type} [Fintype ι] (u : ι → Fin 5 → ℝ) (w : ι → Fin (n1 c) → ℝ) :
    mk c (∑ k, u k) (∑ k, w k) = fun i => ∑ k, mk c (u k) (w k) i := by
  funext i
  unfold mk
  split_ifs <;> simp

/-- What the thermo-acoustic factors mean, for either configuration. -/
theorem X2_wave (y : St) (hv : c.viscous = true) (hm : P.multi = false) (hR : Verif.Eig.Regular c P Q) :
    (X2 c P Q).mulVec (Wn c y) = U5 0 (acoustic c P Q 0 y) := by
  obtain ⟨v, t, m, l, x⟩ := c
  cases t
  · have := xi2_plain _ P Q y hv rfl
    rw [← this]
    unfold X2 Wn
    congr 1
    funext k
    exact if_pos k.2
  · obtain ⟨h1, h2⟩ := hR.heat rfl
    have := xi2_thermal _ P Q y hv rfl hm hR.dens hR.grun h1 h2
    rw [← this]
    unfold X2 Wn
    congr 1
    funext k
    change Fin 4 at k
    fin_cases k <;> rfl

theorem X1_wave (y : St) (hv : c.viscous = true) (hy : ∀ a b, b ≠ 0 → getA y a b = 0) :
    (X1 c P Q).mulVec (U5 0 y) = Wn c (acoustic c P Q 0 y) := by
  obtain ⟨v, t, m, l, x⟩ := c
  cases t
  · refine (xi1_plain _ P Q y hv rfl hy).trans ?_
    funext k
    exact (if_pos k.2).symm
  · refine (xi1_thermal _ P Q y hv rfl hy).trans ?_
    funext k
    change Fin 4 at k
    fin_cases k <;> rfl

/-- The acoustic operator on such rates. -/
theorem acoustic_mk (hv : c.viscous = true) (hm : P.multi = false) (hR : Verif.Eig.Regular c P Q) :
    acoustic c P Q 0 (mk c u w) = mk c ((X2 c P Q).mulVec w) ((X1 c P Q).mulVec u) := by
  have e2 := X2_wave c P Q (mk c u w) hv hm hR
  have e1 := X1_wave c P Q (mk c u w) hv fun a b hb => by rw [mk_getA, if_neg hb]
  rw [Wn_mk] at e2
  rw [U5_mk] at e1
  have h3 := three_le c
  refine mk_ext c _ _ hv _ ?_ ?_ (fun k => ?_) (fun a b => ?_) (fun ht k => ?_) (fun i hi => ac_tail c P Q _ hv 0 i hi)
  · rw [e2]; rfl
  · rw [e2]; rfl
  · rw [e1]
    unfold Wn
    rw [if_pos (by simp)]
    rfl
  · rw [e2, ac_A]
    by_cases hb : b = 0
    · rw [if_pos hb, if_pos hb]
      have : getA (acoustic c P Q 0 (mk c u w)) a 0 = dot3 (getA Q a) (getRv (mk c u w)) := by
        rw [ac_getA, if_pos rfl]
      rw [← this]
      fin_cases a <;> rfl
    · rw [if_neg hb, if_neg hb]
  · by_cases hk : k = 0
    · rw [if_pos hk, e1, hk]
      have hn : n1 c = 4 := by unfold n1; rw [ht]; rfl
      unfold Wn
      rw [if_neg (by simp only; omega)]
      rfl
    · rw [ac_J c P Q _ ht, if_neg hk, if_neg hk]

end

end Verif.Riemann
