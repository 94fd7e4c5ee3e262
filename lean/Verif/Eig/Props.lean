import Verif.Eig.Form
import Mathlib.LinearAlgebra.Matrix.Charpoly.Eigs
import Mathlib.LinearAlgebra.Matrix.ToLin

/-!
# Wave speeds
-/

namespace Verif.Eig

open Verif.Sys

section
variable (c : Cfg) (P : Par) (Q x y : St)

/-- Velocity rates. -/
def W3 (y : St) : Fin 3 → ℝ := fun k => y (2 + k)
/-- Velocity rates and the rate of the normal component of the thermal impulse. -/
def W4 (d : Fin 3) (y : St) : Fin 4 → ℝ := ![y 2, y 3, y 4, y (14 + d)]
/-- Rates of density, pressure and the distortion column. -/
def U5 (d : Fin 3) (y : St) : Fin 5 → ℝ := ![y 0, y 1, getA y 0 d, getA y 1 d, getA y 2 d]

theorem ac_getA (d a b : Fin 3) : getA (acoustic c P Q d y) a b =
    if b = d then dot3 (getA Q a) (getRv y) else 0 := by
  have : getA (acoustic c P Q d y) a b = acoustic c P Q d y (5 + (3 * a + b)) := rfl
  rw [this, ac_A]

theorem xi2_plain (hv : c.viscous = true) (ht : c.thermal = false) :
    ((xi2 c P Q 0).submatrix id Fin.castSucc).mulVec (W3 y) = U5 0 (acoustic c P Q 0 y) := by
  have h0 := ac_0 c P Q y 0
  have h1 := ac_1 c P Q y 0
  simp only [ht, Bool.false_eq_true, if_false] at h1
  have hA := fun a => ac_getA c P Q y 0 a 0
  ext i
  fin_cases i
  · simp [Matrix.mulVec, dotProduct, xi2, hv, ht, U5, W3, h0]
  · simp [Matrix.mulVec, dotProduct, Fin.sum_univ_three, xi2, hv, ht, U5, W3, h1, dot3, getRv]
    ring
  all_goals
    simp [Matrix.mulVec, dotProduct, Fin.sum_univ_three, xi2, hv, ht, U5, W3, hA, dot3, getRv]

theorem stress_col (hy : ∀ a b, b ≠ 0 → getA y a b = 0) (k : Fin 3) :
    stressRate P Q y 0 k = ∑ m, dsigmadAd P.toParams Q 0 k m * getA y m 0 := by
  unfold stressRate
  refine Finset.sum_congr rfl fun m _ => ?_
  rw [dsigmadA_agree, Fin.sum_univ_three, hy m 1 (by decide), hy m 2 (by decide)]
  ring

theorem xi1_plain (hv : c.viscous = true) (ht : c.thermal = false) (hy : ∀ a b, b ≠ 0 → getA y a b = 0) :
    ((xi1 c P Q 0).submatrix Fin.castSucc id).mulVec (U5 0 y) = W3 (acoustic c P Q 0 y) := by
  have h2 := fun k => ac_v c P Q y 0 k
  have hs := stress_col P Q y hy
  ext i
  have h3 := h2 i
  rw [hs, Fin.sum_univ_three] at h3
  unfold W3
  rw [h3]
  fin_cases i <;>
  simp [Matrix.mulVec, dotProduct, Fin.sum_univ_five, xi1, hv, ht, U5] <;> ring

theorem xi2_thermal (hv : c.viscous = true) (ht : c.thermal = true) (hm : P.multi = false) (hρ : Q 0 ≠ 0)
    (hΓ : gammaMG P.toParams (Q 0) ≠ 0) (hcv : P.cv ≠ 0)
    (hT : 0 ≤ P.cα2 * temperatureMG P.toParams (Q 0) (pressure c P Q) / P.cv) :
    (xi2 c P Q 0).mulVec (W4 0 y) = U5 0 (acoustic c P Q 0 y) := by
  have h0 := ac_0 c P Q y 0
  have h1 := ac_1 c P Q y 0
  simp only [ht, if_true] at h1
  have hA := fun a => ac_getA c P Q y 0 a 0
  have hch : Q 0 * ch P.toParams (Q 0) (temperatureMG P.toParams (Q 0) (pressure c P Q)) *
      ch P.toParams (Q 0) (temperatureMG P.toParams (Q 0) (pressure c P Q)) / dTdp P.toParams (Q 0) =
      P.cα2 * temperatureMG P.toParams (Q 0) (pressure c P Q) / (Q 0 * dEdp c P Q) := by
    have hs := Real.mul_self_sqrt hT
    have : Q 0 * ch P.toParams (Q 0) (temperatureMG P.toParams (Q 0) (pressure c P Q)) *
      ch P.toParams (Q 0) (temperatureMG P.toParams (Q 0) (pressure c P Q)) =
      P.cα2 * temperatureMG P.toParams (Q 0) (pressure c P Q) / P.cv / Q 0 := by
      rw [← hs]
      unfold ch
      field_simp
    rw [this]
    simp only [dTdp, dEdp, hm, Bool.false_eq_true, if_false, dedp]
    field_simp
  ext i
  fin_cases i
  · simp [Matrix.mulVec, dotProduct, xi2, hv, ht, U5, W4, h0]
  · simp [Matrix.mulVec, dotProduct, Fin.sum_univ_four, xi2, hv, ht, U5, W4, h1, dot3, getRv, hch]
    ring
  all_goals
    simp [Matrix.mulVec, dotProduct, Fin.sum_univ_four, xi2, hv, ht, U5, W4, hA, dot3, getRv]

theorem xi1_thermal (hv : c.viscous = true) (ht : c.thermal = true) (hy : ∀ a b, b ≠ 0 → getA y a b = 0) :
    (xi1 c P Q 0).mulVec (U5 0 y) = W4 0 (acoustic c P Q 0 y) := by
  have h0 := ac_v c P Q y 0 0
  have h1 := ac_v c P Q y 0 1
  have h2 := ac_v c P Q y 0 2
  have h3 := ac_J c P Q y ht 0 0
  rw [stress_col P Q y hy, Fin.sum_univ_three] at h0 h1 h2
  ext i
  fin_cases i
  · simp [Matrix.mulVec, dotProduct, Fin.sum_univ_five, xi1, hv, ht, U5, W4] at h0 ⊢
    rw [h0]; ring
  · simp [Matrix.mulVec, dotProduct, Fin.sum_univ_five, xi1, hv, ht, U5, W4] at h1 ⊢
    rw [h1]; ring
  · simp [Matrix.mulVec, dotProduct, Fin.sum_univ_five, xi1, hv, ht, U5, W4] at h2 ⊢
    rw [h2]; ring
  · simp [Matrix.mulVec, dotProduct, Fin.sum_univ_five, xi1, hv, ht, U5, W4] at h3 ⊢
    rw [h3]; ring

/-- The acoustic tensor is the second power of the acoustic operator, seen on the velocities. -/
theorem tensor3_sq (hv : c.viscous = true) (ht : c.thermal = false) :
    (tensor3 c P Q 0).mulVec (W3 y) = W3 (acoustic c P Q 0 (acoustic c P Q 0 y)) := by
  rw [tensor3, ← Matrix.mulVec_mulVec, xi2_plain c P Q y hv ht, xi1_plain c P Q _ hv ht]
  intro a b hb
  rw [ac_getA c P Q y, if_neg hb]

theorem tensor4_sq (hv : c.viscous = true) (ht : c.thermal = true) (hm : P.multi = false) (hρ : Q 0 ≠ 0)
    (hΓ : gammaMG P.toParams (Q 0) ≠ 0) (hcv : P.cv ≠ 0)
    (hT : 0 ≤ P.cα2 * temperatureMG P.toParams (Q 0) (pressure c P Q) / P.cv) :
    (tensor4 c P Q 0).mulVec (W4 0 y) = W4 0 (acoustic c P Q 0 (acoustic c P Q 0 y)) := by
  rw [tensor4, ← Matrix.mulVec_mulVec, xi2_thermal c P Q y hv ht hm hρ hΓ hcv hT, xi1_thermal c P Q _ hv ht]
  intro a b hb
  rw [ac_getA c P Q y, if_neg hb]

/-! ### Linearity -/

theorem stressRate_lin (a b : ℝ) (z : St) (d k : Fin 3) :
    stressRate P Q (fun i => a * y i + b * z i) d k = a * stressRate P Q y d k + b * stressRate P Q z d k := by
  simp only [stressRate, getA, Matrix.of_apply, Finset.mul_sum, ← Finset.sum_add_distrib]
  refine Finset.sum_congr rfl fun m _ => Finset.sum_congr rfl fun n _ => by ring

theorem acoustic_lin (a b : ℝ) (z : St) (d : Fin 3) :
    acoustic c P Q d (fun i => a * y i + b * z i) = fun i => a * acoustic c P Q d y i + b * acoustic c P Q d z i := by
  funext i
  unfold acoustic
  simp only [stressRate_lin, dot3, getRv]
  split_ifs <;> ring

theorem stressRate_congr (z : St) (d k : Fin 3) (h : ∀ i < 14, y i = z i) :
    stressRate P Q y d k = stressRate P Q z d k := by
  have : getA y = getA z := by
    ext a b
    exact h _ (by omega)
  simp only [stressRate, this]

theorem acoustic_congr (z : St) (d : Fin 3) (hv : c.viscous = true) (h : ∀ i < c.V, y i = z i) :
    acoustic c P Q d y = acoustic c P Q d z := by
  have h14 := mV_ge c hv
  have hV := mV_le c
  have hr : getRv y = getRv z := by
    funext k
    exact h _ (by omega)
  have hJ : c.thermal = true → y (14 + d) = z (14 + d) := fun ht => h _ (by have := mV_thermal c hv ht; omega)
  have h0 := h 0 (by omega)
  have h1 := h 1 (by omega)
  have h2 := h (2 + d) (by omega)
  have hs := fun k => stressRate_congr P Q y z d k fun i hi => h i (by omega)
  funext i
  unfold acoustic
  cases ht : c.thermal
  · simp only [hr, h0, h1, h2, hs, Bool.false_eq_true, if_false]
  · simp only [hr, h0, h1, h2, hs, hJ ht, if_true]

theorem toPrim_congr (z : St) (h : ∀ i < c.V, x i = z i) : toPrim c P Q x = toPrim c P Q z := by
  funext i
  unfold toPrim rowDot
  exact Finset.sum_congr rfl fun j hj => by rw [h j (Finset.mem_range.1 hj)]

theorem toPrim_lin (a b : ℝ) (z : St) :
    toPrim c P Q (fun i => a * y i + b * z i) = fun i => a * toPrim c P Q y i + b * toPrim c P Q z i := by
  funext i
  simp only [toPrim, rowDot, Finset.mul_sum, ← Finset.sum_add_distrib]
  exact Finset.sum_congr rfl fun j _ => by ring

end

/-- A non-zero eigenvector shows that its eigenvalue is among those `specMax` looks at. -/
theorem le_specMax {n : Type} [Fintype n] [DecidableEq n] (M : Matrix n n ℝ) (w : n → ℂ) (z : ℂ) (hw : w ≠ 0)
    (h : (M.map (algebraMap ℝ ℂ)).mulVec w = z • w) : ‖z‖ ≤ specMax M := by
  set N := M.map (algebraMap ℝ ℂ)
  have hz : N.charpoly.eval z = 0 := by
    rw [Matrix.eval_charpoly, ← Matrix.exists_mulVec_eq_zero_iff]
    refine ⟨w, hw, ?_⟩
    rw [Matrix.sub_mulVec, h]
    ext i
    simp [Matrix.scalar_apply]
  have hm : z ∈ N.charpoly.roots := (Polynomial.mem_roots N.charpoly_monic.ne_zero).2 hz
  have := Multiset.le_sup (Multiset.mem_map_of_mem (fun z : ℂ => ‖z‖₊) hm)
  exact_mod_cast this

theorem mulVec_complex {n : Type} [Fintype n] (M : Matrix n n ℝ) (a b : n → ℝ) (k : n) :
    (M.map (algebraMap ℝ ℂ)).mulVec (fun k => (a k : ℂ) + b k * Complex.I) k =
      (M.mulVec a k : ℝ) + (M.mulVec b k : ℝ) * Complex.I := by
  simp only [Matrix.mulVec, dotProduct, Matrix.map_apply, Complex.coe_algebraMap, Complex.ofReal_sum,
    Complex.ofReal_mul, Finset.sum_mul, ← Finset.sum_add_distrib]
  exact Finset.sum_congr rfl fun j _ => by ring

/-- The components `W4` collects. -/
def ix (k : Fin 4) : Nat := if k = 3 then 14 else 2 + k

theorem ix_lt (k : Fin 4) : ix k < 17 := by unfold ix; split_ifs <;> omega

theorem W4_ix (y : St) (k : Fin 4) : W4 0 y k = y (ix k) := by fin_cases k <;> rfl

/-- What `max_abs_eigs` needs of a state: the square roots it takes are of non-negative numbers and it divides by
nothing that vanishes. -/
structure Regular (c : Cfg) (P : Par) (Q : St) : Prop where
  dens : Q 0 ≠ 0
  grun : gammaMG P.toParams (Q 0) ≠ 0
  shear : cs2 P.toParams (Q 0) ≠ 0
  sound : 0 ≤ (pressure c P Q / (Q 0 * Q 0) - dEdrho c P Q) / dEdp c P Q
  heat : c.thermal = true → P.cv ≠ 0 ∧ 0 ≤ P.cα2 * temperatureMG P.toParams (Q 0) (pressure c P Q) / P.cv

theorem maxAbsEigs_eq (c : Cfg) (P : Par) (Q : St) (d : Fin 3) : maxAbsEigs c P Q d = |vel Q d| +
    Real.sqrt (if c.thermal then specMax (tensor4 c P Q d) else specMax (tensor3 c P Q d)) := by
  have hvd : vel Q d = Q (2 + d) / Q 0 := rfl
  unfold maxAbsEigs
  rw [← hvd]
  simp only
  by_cases h : vel Q d > 0
  · rw [if_pos h, abs_of_pos h]
  · rw [if_neg h, abs_of_nonpos (not_lt.1 h)]; ring

/-- A complex eigenvector of the system matrix splits into two real states on which the acoustic operator acts as
multiplication by `λ - v`. -/
theorem acoustic_pair (c : Cfg) (P : Par) (Q : St) (d : Fin 3) (hv : c.viscous = true) (hm : P.multi = false)
    (hr : P.reaction > -1 → c.multi = true) (hR : Regular c P Q) (a b : ℝ) (x z : St)
    (he : ∀ i < c.V, rowDot c.V (systemMatrix c P Q d) x i = a * x i + b * z i) :
    ∀ i < c.V, acoustic c P Q d (toPrim c P Q x) i = (a - vel Q d) * toPrim c P Q x i + b * toPrim c P Q z i := by
  have hE : dEdp c P Q ≠ 0 := by
    simp only [dEdp, hm, Bool.false_eq_true, if_false, dedp]
    exact one_div_ne_zero (mul_ne_zero hR.dens hR.grun)
  intro i hi
  have h := toPrim_congr c P Q _ _ fun i hi =>
    (system_primitive c P Q x d hv hm hr hR.dens hR.grun hR.shear hR.sound i hi).symm.trans (he i hi)
  have h := congrFun h i
  rw [toPrim_toCons c P Q _ hr hR.dens hE hv i hi, toPrim_lin] at h
  linear_combination h

theorem toCons_zero (c : Cfg) (P : Par) (Q : St) (hv : c.viscous = true) (y : St) (h : ∀ i < c.V, y i = 0) (i : Nat)
    (hi : i < c.V) : toCons c P Q y i = 0 := by
  have h14 := mV_ge c hv
  have hV := mV_le c
  have h17 := mV_thermal c hv
  have h0 := h 0 (by omega)
  have h1 := h 1 (by omega)
  have gv : getRv y = fun _ => 0 := by funext k; exact h _ (by omega)
  have gA : getA y = fun _ _ => 0 := by ext a b; exact h _ (by omega)
  have gJ : c.thermal = true → getRJ y = fun _ => 0 := by
    intro ht; funext k; have := h17 ht; exact h _ (by omega)
  have gm : c.multi = true → y c.mV = 0 := by
    intro hm
    refine h _ ?_
    unfold Cfg.V
    rw [if_pos hm]
    omega
  have hsplit : (if c.thermal then Q 0 * dot3 (dEdJ P.toParams Q) (getRJ y) else 0) = 0 := by
    split_ifs with ht
    · rw [gJ ht]; simp [dot3]
    · rfl
  have hsp : (if c.multi then if P.reaction > -1 then Q 0 * P.Qc * y c.mV else 0 else 0) = 0 := by
    split_ifs with ht
    · rw [gm ht]; simp
    · rfl
    · rfl
  unfold toCons
  rw [hsplit, hsp, h0, h1, gv, gA, h i hi]
  simp [dot3]

/-- **`max_abs_eigs` bounds the characteristic speeds** along the first axis: every complex eigenvalue of
`system_matrix(Q, 0)` has modulus at most `max_abs_eigs(Q, 0)`. -/
theorem characteristic_bound (c : Cfg) (P : Par) (Q : St) (hv : c.viscous = true) (hm : P.multi = false)
    (hr : P.reaction > -1 → c.multi = true) (hR : Regular c P Q) (l : ℂ) (x : Nat → ℂ) (hx : ∃ i < c.V, x i ≠ 0)
    (he : ∀ i < c.V, ∑ j ∈ Finset.range c.V, ((systemMatrix c P Q 0 i j : ℝ) : ℂ) * x j = l * x i) :
    ‖l‖ ≤ maxAbsEigs c P Q 0 := by
  have hE : dEdp c P Q ≠ 0 := by
    simp only [dEdp, hm, Bool.false_eq_true, if_false, dedp]
    exact one_div_ne_zero (mul_ne_zero hR.dens hR.grun)
  rw [maxAbsEigs_eq]
  set v := vel Q 0 with hvdef
  -- the two real parts
  have her : ∀ i < c.V, rowDot c.V (systemMatrix c P Q 0) (fun j => (x j).re) i =
      l.re * (x i).re + (-l.im) * (x i).im := by
    intro i hi
    have := congrArg Complex.re (he i hi)
    simp only [Complex.re_sum, Complex.mul_re, Complex.ofReal_re, Complex.ofReal_im, zero_mul, sub_zero] at this
    rw [rowDot, this]
    ring
  have hei : ∀ i < c.V, rowDot c.V (systemMatrix c P Q 0) (fun j => (x j).im) i =
      l.re * (x i).im + l.im * (x i).re := by
    intro i hi
    have := congrArg Complex.im (he i hi)
    simp only [Complex.im_sum, Complex.mul_im, Complex.ofReal_re, Complex.ofReal_im, zero_mul, add_zero] at this
    rw [rowDot, this]
  have hyr := acoustic_pair c P Q 0 hv hm hr hR _ _ _ _ her
  have hyi := acoustic_pair c P Q 0 hv hm hr hR _ _ _ _ hei
  set yr := toPrim c P Q fun j => (x j).re with hyrd
  set yi := toPrim c P Q fun j => (x j).im with hyid
  rw [← hvdef] at hyr hyi
  set m : ℂ := l - v with hmd
  have hmr : m.re = l.re - v := by simp [hmd]
  have hmi : m.im = l.im := by simp [hmd]
  rw [← hmr] at hyr hyi
  rw [← hmi] at hyr hyi
  have hl : l = v + m := by rw [hmd]; ring
  have hn : ‖l‖ ≤ |v| + ‖m‖ := by
    rw [hl]
    refine (norm_add_le _ _).trans ?_
    rw [Complex.norm_real, Real.norm_eq_abs]
  refine hn.trans (add_le_add le_rfl ?_)
  by_cases hm0 : m = 0
  · rw [hm0, norm_zero]; exact Real.sqrt_nonneg _
  apply Real.le_sqrt_of_sq_le
  rw [← norm_pow]
  -- acoustic applied twice
  have h2r : acoustic c P Q 0 (acoustic c P Q 0 yr) = fun i =>
      m.re * acoustic c P Q 0 yr i + (-m.im) * acoustic c P Q 0 yi i := by
    rw [← acoustic_lin]
    exact acoustic_congr c P Q _ _ 0 hv hyr
  have h2i : acoustic c P Q 0 (acoustic c P Q 0 yi) = fun i =>
      m.re * acoustic c P Q 0 yi i + m.im * acoustic c P Q 0 yr i := by
    rw [← acoustic_lin]
    exact acoustic_congr c P Q _ _ 0 hv hyi
  have h14 := mV_ge c hv
  have hV := mV_le c
  have h17 := mV_thermal c hv
  have k2 : ∀ i < c.V, ((acoustic c P Q 0 (acoustic c P Q 0 yr) i : ℝ) : ℂ) +
      (acoustic c P Q 0 (acoustic c P Q 0 yi) i : ℝ) * Complex.I = m ^ 2 * (yr i + yi i * Complex.I) := by
    intro i hi
    rw [h2r, h2i]
    simp only [hyr i hi, hyi i hi]
    apply Complex.ext <;> simp [pow_two] <;> ring
  have k1 : ∀ i < c.V, ((acoustic c P Q 0 yr i : ℝ) : ℂ) + (acoustic c P Q 0 yi i : ℝ) * Complex.I =
      m * (yr i + yi i * Complex.I) := by
    intro i hi
    rw [hyr i hi, hyi i hi]
    apply Complex.ext <;> simp; ring
  have split : ∀ a b : ℝ, (a : ℂ) + b * Complex.I = 0 → a = 0 ∧ b = 0 := by
    intro a b h
    have h1 := congrArg Complex.re h
    have h2 := congrArg Complex.im h
    simp at h1 h2
    exact ⟨h1, h2⟩
  have kill : ∀ i < c.V, acoustic c P Q 0 yr i = 0 → acoustic c P Q 0 yi i = 0 → yr i = 0 ∧ yi i = 0 := by
    intro i hi h1 h2
    have := k1 i hi
    rw [h1, h2] at this
    simp only [Complex.ofReal_zero, zero_mul, add_zero] at this
    exact split _ _ ((mul_eq_zero.1 this.symm).resolve_left hm0)
  -- the velocities cannot all vanish
  have nonzero : ¬ ((∀ k : Fin 3, yr (2 + k) = 0 ∧ yi (2 + k) = 0) ∧
      (c.thermal = true → yr 14 = 0 ∧ yi 14 = 0)) := by
    rintro ⟨hk, hT⟩
    have gr : getRv yr = fun _ => 0 := by funext k; exact (hk k).1
    have gi : getRv yi = fun _ => 0 := by funext k; exact (hk k).2
    have r0 := kill 0 (by omega) (by rw [ac_0, (hk 0).1, mul_zero]) (by rw [ac_0, (hk 0).2, mul_zero])
    have r1 := kill 1 (by omega)
      (by
        rw [ac_1, gr, (hk 0).1]
        cases ht : c.thermal
        · simp [dot3]
        · simp [dot3, (hT ht).1])
      (by
        rw [ac_1, gi, (hk 0).2]
        cases ht : c.thermal
        · simp [dot3]
        · simp [dot3, (hT ht).2])
    have all : ∀ i < c.V, yr i = 0 ∧ yi i = 0 := by
      intro i hi
      rcases index_cases c hv i with rfl | rfl | ⟨k, rfl⟩ | ⟨a, b, rfl⟩ | ⟨ht, k, rfl⟩ | ⟨hmu, rfl⟩ | hL
      · exact r0
      · exact r1
      · exact hk k
      · refine kill _ hi ?_ ?_
        · rw [ac_A, gr]; simp [dot3]
        · rw [ac_A, gi]; simp [dot3]
      · refine kill _ hi ?_ ?_
        · rw [ac_J c P Q _ ht, r0.1, r1.1]; simp
        · rw [ac_J c P Q _ ht, r0.2, r1.2]; simp
      · refine kill _ hi ?_ ?_
        · exact ac_tail c P Q _ hv 0 _ le_rfl
        · exact ac_tail c P Q _ hv 0 _ le_rfl
      · refine kill _ hi ?_ ?_
        · exact ac_tail c P Q _ hv 0 _ (by split_ifs at hL <;> omega)
        · exact ac_tail c P Q _ hv 0 _ (by split_ifs at hL <;> omega)
    obtain ⟨i, hi, hxi⟩ := hx
    refine hxi (Complex.ext ?_ ?_)
    · have := toCons_toPrim c P Q (fun j => (x j).re) hr hR.dens hE hv i hi
      exact this.symm.trans (toCons_zero c P Q hv _ (fun i hi => (all i hi).1) i hi)
    · have := toCons_toPrim c P Q (fun j => (x j).im) hr hR.dens hE hv i hi
      exact this.symm.trans (toCons_zero c P Q hv _ (fun i hi => (all i hi).2) i hi)
  cases ht : c.thermal
  · simp only [Bool.false_eq_true, if_false]
    refine le_specMax (tensor3 c P Q 0) (fun k => (W3 yr k : ℂ) + W3 yi k * Complex.I) _ ?_ ?_
    · intro h0
      refine nonzero ⟨fun k => split _ _ (congrFun h0 k), fun h => ?_⟩
      rw [ht] at h
      cases h
    · have er := tensor3_sq c P Q yr hv ht
      have ei := tensor3_sq c P Q yi hv ht
      funext k
      have er := congrFun er k
      have ei := congrFun ei k
      have this : ((W3 (acoustic c P Q 0 (acoustic c P Q 0 yr)) k : ℝ) : ℂ) +
          (W3 (acoustic c P Q 0 (acoustic c P Q 0 yi)) k : ℝ) * Complex.I =
          m ^ 2 * (W3 yr k + W3 yi k * Complex.I) := k2 (2 + k) (by omega)
      rw [← er, ← ei] at this
      simp only [Pi.smul_apply, smul_eq_mul]
      rw [← this]
      exact mulVec_complex _ _ _ _
  · simp only [if_true]
    have hmv := h17 ht
    obtain ⟨hcv, hT⟩ := hR.heat ht
    refine le_specMax (tensor4 c P Q 0) (fun k => (W4 0 yr k : ℂ) + W4 0 yi k * Complex.I) _ ?_ ?_
    · intro h0
      refine nonzero ⟨fun k => ?_, fun _ => split _ _ (congrFun h0 3)⟩
      fin_cases k
      · exact split _ _ (congrFun h0 0)
      · exact split _ _ (congrFun h0 1)
      · exact split _ _ (congrFun h0 2)
    · have er := tensor4_sq c P Q yr hv ht hm hR.dens hR.grun hcv hT
      have ei := tensor4_sq c P Q yi hv ht hm hR.dens hR.grun hcv hT
      funext k
      have er := congrFun er k
      have ei := congrFun ei k
      have this : ((W4 0 (acoustic c P Q 0 (acoustic c P Q 0 yr)) k : ℝ) : ℂ) +
          (W4 0 (acoustic c P Q 0 (acoustic c P Q 0 yi)) k : ℝ) * Complex.I =
          m ^ 2 * (W4 0 yr k + W4 0 yi k * Complex.I) := by
        rw [W4_ix, W4_ix, W4_ix, W4_ix]
        exact k2 _ (by have := ix_lt k; omega)
      rw [← er, ← ei] at this
      simp only [Pi.smul_apply, smul_eq_mul]
      rw [← this]
      exact mulVec_complex _ _ _ _

/-! ### The second axis -/

theorem toCons_smul (c : Cfg) (P : Par) (Q y : St) (a : ℝ) (i : Nat) :
    toCons c P Q (fun i => a * y i) i = a * toCons c P Q y i := by
  have h : ∀ k b, getA (fun i => a * y i) k b = a * getA y k b := fun _ _ => rfl
  unfold toCons
  have hs : ∑ k, ∑ b, dEdA P.toParams Q k b * getA (fun i => a * y i) k b =
      a * ∑ k, ∑ b, dEdA P.toParams Q k b * getA y k b := by
    simp only [h, Finset.mul_sum]
    exact Finset.sum_congr rfl fun k _ => Finset.sum_congr rfl fun b _ => by ring
  rw [hs]
  simp only [dot3, getRv, getRJ]
  split_ifs <;> ring

theorem toCons_congr (c : Cfg) (P : Par) (Q : St) (hv : c.viscous = true) (y z : St) (h : ∀ i < c.V, y i = z i)
    (i : Nat) (hi : i < c.V) : toCons c P Q y i = toCons c P Q z i := by
  have h14 := mV_ge c hv
  have hV := mV_le c
  have h17 := mV_thermal c hv
  have h0 := h 0 (by omega)
  have h1 := h 1 (by omega)
  have gv : getRv y = getRv z := by funext k; exact h _ (by omega)
  have gA : getA y = getA z := by ext a b; exact h _ (by omega)
  have gJ : c.thermal = true → getRJ y = getRJ z := by
    intro ht; funext k; have := h17 ht; exact h _ (by omega)
  have gm : c.multi = true → y c.mV = z c.mV := by
    intro hm
    refine h _ ?_
    unfold Cfg.V
    rw [if_pos hm]
    omega
  have hsplit : (if c.thermal then Q 0 * dot3 (dEdJ P.toParams Q) (getRJ y) else 0) =
      (if c.thermal then Q 0 * dot3 (dEdJ P.toParams Q) (getRJ z) else 0) := by
    split_ifs with ht
    · rw [gJ ht]
    · rfl
  have hsp : (if c.multi then if P.reaction > -1 then Q 0 * P.Qc * y c.mV else 0 else 0) =
      (if c.multi then if P.reaction > -1 then Q 0 * P.Qc * z c.mV else 0 else 0) := by
    split_ifs with ht
    · rw [gm ht]
    · rfl
    · rfl
  unfold toCons
  rw [hsplit, hsp, h0, h1, gv, gA, h i hi]

/-- Unstretched material carries no shear stress. -/
theorem unit_stress (P : Params) (Q : St) (hA : getA Q = 1) (d : Fin 3) :
    sigmaCol P Q d = 0 ∧ dsigmadrho P Q d = 0 ∧
    ∀ i j, dsigmadAd P Q d i j = -Q 0 * cs2 P (Q 0) * ((if i = j then 1 else 0) + if i = d ∧ j = d then 1 / 3 else 0) := by
  have h0 : AdevG (1 : M3) = 0 := by
    ext i j
    fin_cases i <;> fin_cases j <;> simp [AdevG] <;> norm_num
  have hs : sigmaCol P Q d = 0 := by
    simp [sigmaCol, dEdAs, hA, h0]
  refine ⟨hs, by simp [dsigmadrho, hs], fun i j => ?_⟩
  simp only [dsigmadAd, hA, h0]
  fin_cases d <;> fin_cases i <;> fin_cases j <;> norm_num [Matrix.transpose_one, Matrix.one_apply]

theorem dot_unit (a d : Fin 3) : dot3 ((1 : M3) a) (fun k => if k = d then 1 else 0) = if a = d then 1 else 0 := by
  fin_cases a <;> fin_cases d <;> simp [dot3, Matrix.one_apply]

/-- The primitive rates of a longitudinal wave of speed `μ` along axis `d`. -/
noncomputable def longitudinal (c : Cfg) (P : Par) (Q : St) (d : Fin 3) (μ : ℝ) : St := fun i =>
  if i = 0 then Q 0 / μ else if i = 1 then Q 0 * (c0 c P Q * c0 c P Q) / μ else if i = 2 + d then 1
  else if i = 5 + (3 * d + d) then 1 / μ else 0

/-- **Longitudinal waves** of unstretched material travel at `√(c₀² + 4/3 c_s²)` along every axis. -/
theorem longitudinal_wave (c : Cfg) (P : Par) (Q : St) (d : Fin 3) (hv : c.viscous = true) (ht : c.thermal = false)
    (hm : P.multi = false) (hr : P.reaction > -1 → c.multi = true) (hR : Regular c P Q) (hA : getA Q = 1) (μ : ℝ)
    (hμ : μ ≠ 0) (hsq : μ * μ = c0 c P Q * c0 c P Q + 4 / 3 * cs2 P.toParams (Q 0)) :
    ∃ x : St, x 0 ≠ 0 ∧ ∀ i < c.V, rowDot c.V (systemMatrix c P Q d) x i = (vel Q d + μ) * x i := by
  have hE : dEdp c P Q ≠ 0 := by
    simp only [dEdp, hm, Bool.false_eq_true, if_false, dedp]
    exact one_div_ne_zero (mul_ne_zero hR.dens hR.grun)
  have h14 := mV_ge c hv
  have hV := mV_le c
  obtain ⟨hs, hsr, hsA⟩ := unit_stress P.toParams Q hA d
  set y := longitudinal c P Q d μ with hy
  have yd : y (2 + d) = 1 := by
    rw [hy]; unfold longitudinal
    rw [if_neg (by omega), if_neg (by omega), if_pos rfl]
  have yv : ∀ k : Fin 3, y (2 + k) = if k = d then 1 else 0 := by
    intro k
    by_cases h : k = d
    · rw [h, if_pos rfl, yd]
    · have : k.1 ≠ d.1 := fun e => h (Fin.ext e)
      rw [hy]; unfold longitudinal
      rw [if_neg (by omega), if_neg (by omega), if_neg (by omega), if_neg (by omega), if_neg h]
  have y0 : y 0 = Q 0 / μ := by rw [hy]; simp [longitudinal]
  have y1 : y 1 = Q 0 * (c0 c P Q * c0 c P Q) / μ := by rw [hy]; simp [longitudinal]
  have yA : ∀ a b : Fin 3, getA y a b = if a = d ∧ b = d then 1 / μ else 0 := by
    intro a b
    have : getA y a b = y (5 + (3 * a + b)) := rfl
    rw [this, hy]; unfold longitudinal
    rw [if_neg (by omega), if_neg (by omega), if_neg (by omega)]
    congr 1
    rw [eq_iff_iff, Fin.ext_iff, Fin.ext_iff]
    omega
  have yt : ∀ i, 14 ≤ i → y i = 0 := by
    intro i hi
    rw [hy]; unfold longitudinal
    rw [if_neg (by omega), if_neg (by omega), if_neg (by omega), if_neg (by omega)]
  have sr : ∀ k, stressRate P Q y d k = dsigmadAd P.toParams Q d k d * (1 / μ) := by
    intro k
    unfold stressRate
    rw [dsigmadA_agree]
    simp only [yA]
    rw [Finset.sum_eq_single d, Finset.sum_eq_single d]
    · simp
    · intro b _ hb; simp [hb]
    · simp
    · intro b _ hb; simp [hb]
    · simp
  have ac : ∀ i < c.V, acoustic c P Q d y i = μ * y i := by
    intro i hi
    have hρ := hR.dens
    rcases index_cases c hv i with rfl | rfl | ⟨k, rfl⟩ | ⟨a, b, rfl⟩ | ⟨ht', k, rfl⟩ | ⟨hmu, rfl⟩ | hL
    · rw [ac_0, y0, yd]; field_simp
    · rw [ac_1, y1, yd, hs, hsr, ht]
      simp [dot3]
      field_simp
    · rw [ac_v, sr, hsA, hsr, y1, yv]
      by_cases h : k = d
      · simp only [h, if_true, and_self, Pi.zero_apply]
        field_simp
        linear_combination -3 * Q 0 * hsq
      · simp [h]
    · rw [ac_A]
      have : y (5 + (3 * a + b)) = getA y a b := rfl
      rw [this, yA]
      have hg : getRv y = fun k => if k = d then 1 else 0 := by funext k; exact yv k
      rw [hg, hA, dot_unit]
      by_cases hb : b = d
      · by_cases ha : a = d
        · simp [hb, ha, hμ]
        · simp [ha]
      · simp [hb]
    · rw [ht] at ht'; cases ht'
    · rw [ac_tail c P Q y hv d _ le_rfl, yt _ h14, mul_zero]
    · rw [ac_tail c P Q y hv d _ (by split_ifs at hL <;> omega), yt _ (by split_ifs at hL <;> omega), mul_zero]
  refine ⟨toCons c P Q y, ?_, fun i hi => ?_⟩
  · rw [toCons_plain c P Q _ 0 (by omega) (plain_0 c hv), y0]
    exact div_ne_zero hR.dens hμ
  · rw [system_primitive c P Q _ d hv hm hr hR.dens hR.grun hR.shear hR.sound i hi, ← toCons_smul]
    refine toCons_congr c P Q hv _ _ (fun i hi => ?_) i hi
    have e1 := toPrim_toCons c P Q y hr hR.dens hE hv
    rw [acoustic_congr c P Q _ _ d hv e1, e1 i hi, ac i hi]
    ring

/-- Along the second axis the tensor of unstretched material has the sound speed off its diagonal. -/
theorem tensor_second (c : Cfg) (P : Par) (Q : St) (hv : c.viscous = true) (ht : c.thermal = false) (hρ : Q 0 ≠ 0)
    (hA : getA Q = 1) : tensor3 c P Q 1 =
      !![cs2 P.toParams (Q 0), c0 c P Q * c0 c P Q, 0; 0, 4 / 3 * cs2 P.toParams (Q 0), 0;
        0, 0, cs2 P.toParams (Q 0)] := by
  obtain ⟨hs, hsr, hsA⟩ := unit_stress P.toParams Q hA 1
  ext i j
  fin_cases i <;> fin_cases j <;>
    simp [tensor3, Matrix.mul_apply, Fin.sum_univ_five, xi1, xi2, hv, ht, hs, hsr, hsA, hA, Matrix.one_apply] <;> field_simp <;> ring

theorem specMax_second (k a : ℝ) (hk : 0 ≤ k) : specMax !![k, a, 0; 0, 4 / 3 * k, 0; 0, 0, k] = 4 / 3 * k := by
  unfold specMax
  rw [Matrix.charpoly_of_isUpperTriangular]
  · rw [Fin.prod_univ_three, Polynomial.roots_mul, Polynomial.roots_mul, Polynomial.roots_X_sub_C,
      Polynomial.roots_X_sub_C, Polynomial.roots_X_sub_C]
    · have h1 : ((algebraMap ℝ ℂ) k) = ((k : ℝ) : ℂ) := rfl
      have h2 : (4 / 3 * k : ℝ) = ‖(((4 / 3 * k : ℝ)) : ℂ)‖ := by
        rw [Complex.norm_real, Real.norm_of_nonneg (by positivity)]
      have h3 : ‖((k : ℝ) : ℂ)‖₊ ≤ ‖(((4 / 3 * k : ℝ)) : ℂ)‖₊ := by
        rw [← NNReal.coe_le_coe, coe_nnnorm, coe_nnnorm, ← h2, Complex.norm_real, Real.norm_of_nonneg hk]
        linarith
      simp only [Matrix.map_apply, Matrix.of_apply, Matrix.cons_val', Matrix.cons_val_zero, Matrix.cons_val_one,
        Matrix.cons_val, Multiset.map_add, Multiset.map_singleton, Multiset.sup_add, Multiset.sup_singleton,
        Complex.coe_algebraMap]
      rw [sup_eq_right.2 h3, sup_eq_left.2 h3, coe_nnnorm, ← h2]
    all_goals
      simp only [ne_eq, mul_eq_zero, Polynomial.X_sub_C_ne_zero, or_self, not_false_eq_true]
  · intro i j hij
    fin_cases i <;> fin_cases j <;> simp_all

/-- **Wave speeds along the second axis are wrong**: for every unstretched state `max_abs_eigs(Q, 1)` leaves out the
sound speed.  `system_matrix(Q, 1)` has an eigenvalue beyond it, so it does not bound the characteristic speeds, and
for material at rest it disagrees with `max_abs_eigs(Q, 0)` although exchanging the axes leaves the state as it is. -/
theorem second_axis_false (c : Cfg) (P : Par) (Q : St) (hv : c.viscous = true) (ht : c.thermal = false)
    (hm : P.multi = false) (hr : P.reaction > -1 → c.multi = true) (hR : Regular c P Q) (hA : getA Q = 1)
    (hk : 0 < cs2 P.toParams (Q 0)) (hc : 0 < c0 c P Q) (hv1 : 0 ≤ vel Q 1) :
    maxAbsEigs c P Q 1 = vel Q 1 + Real.sqrt (4 / 3 * cs2 P.toParams (Q 0)) ∧
    (∃ l > maxAbsEigs c P Q 1, ∃ x : St, x 0 ≠ 0 ∧
      ∀ i < c.V, rowDot c.V (systemMatrix c P Q 1) x i = l * x i) ∧
    (vel Q 0 = vel Q 1 → maxAbsEigs c P Q 1 < maxAbsEigs c P Q 0) := by
  have e1 : maxAbsEigs c P Q 1 = vel Q 1 + Real.sqrt (4 / 3 * cs2 P.toParams (Q 0)) := by
    rw [maxAbsEigs_eq, ht, tensor_second c P Q hv ht hR.dens hA, specMax_second _ _ hk.le, abs_of_nonneg hv1]
    simp
  have hpos : 0 < c0 c P Q * c0 c P Q + 4 / 3 * cs2 P.toParams (Q 0) := by positivity
  have hlt : Real.sqrt (4 / 3 * cs2 P.toParams (Q 0)) <
      Real.sqrt (c0 c P Q * c0 c P Q + 4 / 3 * cs2 P.toParams (Q 0)) :=
    Real.sqrt_lt_sqrt (by positivity) (by nlinarith)
  have hw := fun d => longitudinal_wave c P Q d hv ht hm hr hR hA _ (Real.sqrt_pos.2 hpos).ne'
    (Real.mul_self_sqrt hpos.le)
  refine ⟨e1, ⟨_, ?_, hw 1⟩, fun h01 => ?_⟩
  · rw [e1]
    linarith
  · obtain ⟨x, hx0, hx⟩ := hw 0
    have h14 := V_ge14 c hv
    have := characteristic_bound c P Q hv hm hr hR
      ((vel Q 0 + Real.sqrt (c0 c P Q * c0 c P Q + 4 / 3 * cs2 P.toParams (Q 0)) : ℝ) : ℂ) (fun i => (x i : ℂ))
      ⟨0, by omega, by exact_mod_cast hx0⟩ (fun i hi => by
        have := hx i hi
        rw [← Complex.ofReal_mul, ← this, rowDot]
        simp)
    rw [Complex.norm_real, Real.norm_of_nonneg (by rw [h01]; positivity)] at this
    rw [e1]
    linarith

/-- Unstretched material at rest, density 1 and pressure 5, meets the hypotheses, with heat conduction or without. -/
theorem rest_facts (t : Bool) : getA stateAtRest = 1 ∧
    Regular { cfgOf false with thermal := t } (samplePar sample) stateAtRest ∧
    0 < cs2 (samplePar sample).toParams (stateAtRest 0) ∧
    0 < c0 { cfgOf false with thermal := t } (samplePar sample) stateAtRest ∧
    vel stateAtRest 0 = 0 ∧ vel stateAtRest 1 = 0 := by
  have hA : getA stateAtRest = 1 := by
    ext i j
    fin_cases i <;> fin_cases j <;> simp [getA, stateAtRest]
  have h0 : stateAtRest 0 = 1 := rfl
  have hp : pressure { cfgOf false with thermal := t } (samplePar sample) stateAtRest = 5 := by
    have h2 : E2A (samplePar sample).toParams (stateAtRest 0) (getA stateAtRest) = 0 := by
      rw [E2A, rest_devGsq, mul_zero]
    have hJ : E2J (samplePar sample).toParams (fun i => getRJ stateAtRest i / stateAtRest 0) = 0 := by
      simp [E2J, sq3, getRJ, stateAtRest]
    simp only [pressure, internalEnergy, rest_E3, h2, hJ]
    cases t <;> norm_num [samplePar, sample, pressureMG, eRef, pRef, gammaMG, stateAtRest, cfgOf]
  have hE : (pressure { cfgOf false with thermal := t } (samplePar sample) stateAtRest /
      (stateAtRest 0 * stateAtRest 0) - dEdrho { cfgOf false with thermal := t } (samplePar sample) stateAtRest) /
      dEdp { cfgOf false with thermal := t } (samplePar sample) stateAtRest = 10 := by
    simp only [dEdrho, dEdp, hp, rest_devGsq, h0]
    norm_num [samplePar, sample, dedrho, dedp, gammaMG, pRef, eRef, dpRef, deRef, dGammaMG]
  have hcs : cs2 (samplePar sample).toParams (stateAtRest 0) = 1 := by norm_num [cs2, samplePar, sample, h0]
  refine ⟨hA, ⟨by norm_num [h0], by norm_num [gammaMG, samplePar, sample], by norm_num [hcs], by rw [hE]; norm_num, ?_⟩,
    by norm_num [hcs], ?_, ?_, ?_⟩
  · intro _
    rw [hp]
    constructor
    · norm_num [samplePar, sample]
    · norm_num [samplePar, sample, temperatureMG, phi, pRef, gammaMG, h0]
  · unfold c0
    rw [hE]
    norm_num
  · simp [vel, getRv, stateAtRest]
  · simp [vel, getRv, stateAtRest]

example : maxAbsEigs (cfgOf false) (samplePar sample) stateAtRest 1 <
    maxAbsEigs (cfgOf false) (samplePar sample) stateAtRest 0 := by
  obtain ⟨hA, hR, hk, hc, h0, h1⟩ := rest_facts false
  exact (second_axis_false (cfgOf false) (samplePar sample) stateAtRest rfl rfl rfl (by simp [samplePar]) hR hA hk hc
    h1.ge).2.2 (h0.trans h1.symm)

end Verif.Eig
