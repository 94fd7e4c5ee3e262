import Verif.Rot.Mirror

/-! # Wave speeds along the second axis in the mirror -/

namespace Verif.Rot

open Verif.Sys Verif.Relax Verif.Eig

noncomputable section

/-- A matrix that shrinks a positive vector of weights has a small spectral radius. -/
theorem specMax_lt {n : Type} [Fintype n] [DecidableEq n] [Nonempty n] (M : Matrix n n ℝ) (w : n → ℝ) (hw : ∀ i, 0 < w i) (r : ℝ)
    (h : ∀ j, ∑ i, w i * |M i j| < r * w j) : specMax M < r := by
  have hr : 0 < r := by
    obtain ⟨j⟩ := ‹Nonempty n›
    have h0 : 0 ≤ ∑ i, w i * |M i j| := Finset.sum_nonneg fun i _ => mul_nonneg (hw i).le (abs_nonneg _)
    by_contra hr
    have := h j
    nlinarith [hw j]
  unfold specMax
  set N := M.map (algebraMap ℝ ℂ) with hN
  have key : ∀ z ∈ N.charpoly.roots, ‖z‖ < r := by
    intro z hz
    have hz' : N.charpoly.eval z = 0 := (Polynomial.mem_roots N.charpoly_monic.ne_zero).1 hz
    rw [Matrix.eval_charpoly, ← Matrix.exists_mulVec_eq_zero_iff] at hz'
    obtain ⟨v, hv, e⟩ := hz'
    have e' : ∀ i, z * v i = ∑ j, (M i j : ℂ) * v j := fun i => by
      have := congrFun e i
      rw [Matrix.sub_mulVec, Pi.sub_apply, Pi.zero_apply, sub_eq_zero, Matrix.scalar_apply, Matrix.mulVec_diagonal] at this
      simpa [Matrix.mulVec, dotProduct, hN] using this
    have hle : ∀ i, ‖z‖ * ‖v i‖ ≤ ∑ j, |M i j| * ‖v j‖ := fun i => by
      rw [← norm_mul, e' i]
      refine (norm_sum_le _ _).trans (Finset.sum_le_sum fun j _ => ?_)
      rw [norm_mul, Complex.norm_real, Real.norm_eq_abs]
    have h1 : ‖z‖ * ∑ i, w i * ‖v i‖ ≤ ∑ j, (∑ i, w i * |M i j|) * ‖v j‖ := by
      calc ‖z‖ * ∑ i, w i * ‖v i‖ = ∑ i, w i * (‖z‖ * ‖v i‖) := by rw [Finset.mul_sum]; exact Finset.sum_congr rfl fun i _ => by ring
        _ ≤ ∑ i, w i * ∑ j, |M i j| * ‖v j‖ := Finset.sum_le_sum fun i _ => mul_le_mul_of_nonneg_left (hle i) (hw i).le
        _ = ∑ j, (∑ i, w i * |M i j|) * ‖v j‖ := by
          simp only [Finset.mul_sum, Finset.sum_mul]
          rw [Finset.sum_comm]
          exact Finset.sum_congr rfl fun j _ => Finset.sum_congr rfl fun i _ => by ring
    obtain ⟨i0, hi0⟩ : ∃ i, v i ≠ 0 := by
      by_contra hc
      push Not at hc
      exact hv (funext hc)
    have h2 : ∑ j, (∑ i, w i * |M i j|) * ‖v j‖ < ∑ j, r * w j * ‖v j‖ := by
      refine Finset.sum_lt_sum (fun j _ => mul_le_mul_of_nonneg_right (h j).le (norm_nonneg _)) ⟨i0, Finset.mem_univ _, ?_⟩
      exact mul_lt_mul_of_pos_right (h i0) (norm_pos_iff.2 hi0)
    have h3 : ∑ j, r * w j * ‖v j‖ = r * ∑ j, w j * ‖v j‖ := by
      rw [Finset.mul_sum]; exact Finset.sum_congr rfl fun j _ => by ring
    have h4 : 0 < ∑ j, w j * ‖v j‖ :=
      Finset.sum_pos' (fun j _ => mul_nonneg (hw j).le (norm_nonneg _)) ⟨i0, Finset.mem_univ _, mul_pos (hw i0) (norm_pos_iff.2 hi0)⟩
    rw [h3] at h2
    exact lt_of_mul_lt_mul_right (h1.trans_lt h2) h4.le
  have hs : ∀ s : Multiset ℂ, (∀ z ∈ s, ‖z‖ < r) → (((s.map fun z => ‖z‖₊).sup : NNReal) : ℝ) < r := by
    intro s
    induction s using Multiset.induction with
    | empty => intro _; simpa using hr
    | cons a s ih =>
      intro hs
      rw [Multiset.map_cons, Multiset.sup_cons]
      rcases le_total ‖a‖₊ (s.map fun z => ‖z‖₊).sup with h | h
      · rw [sup_eq_right.2 h]
        exact ih fun z hz => hs z (Multiset.mem_cons_of_mem hz)
      · rw [sup_eq_left.2 h]
        exact hs a (Multiset.mem_cons_self a s)
  exact hs _ key

/-- A positive block exceeds what it becomes if the odd parts of its entries change sign. -/
theorem specMax_odd (a e b f g h d t : ℝ) (ha : 0 < a) (he : 0 < e) (hb : 0 < b) (hf : 0 < f) (hg : 0 < g) (hh : 0 < h) (ht : 0 < t) (htd : t < d) :
    specMax !![a - e, b - f, 0; g - h, d, 0; 0, 0, t] < specMax !![a + e, b + f, 0; g + h, d, 0; 0, 0, t] := by
  set A := a + e with hA
  set B := b + f with hB
  set G := g + h with hG
  have A0 : 0 < A := by positivity
  have B0 : 0 < B := by positivity
  have G0 : 0 < G := by positivity
  have hd : 0 < d := ht.trans htd
  set r := Real.sqrt ((A - d) ^ 2 + 4 * B * G) with hr
  have hrr : r * r = (A - d) ^ 2 + 4 * B * G := Real.mul_self_sqrt (by positivity)
  have r0 : 0 ≤ r := Real.sqrt_nonneg _
  have hBG : 0 < B * G := by positivity
  have r1 : |A - d| < r := by
    rw [hr]
    refine Real.lt_sqrt_of_sq_lt ?_
    rw [sq_abs]
    nlinarith
  obtain ⟨r2, r3⟩ := abs_lt.1 r1
  set l := (A + d + r) / 2 with hl
  have lA : 0 < l - A := by rw [hl]; linarith
  have ld : 0 < l - d := by rw [hl]; linarith
  have quad : (l - A) * (l - d) = B * G := by rw [hl]; nlinarith
  have low : l ≤ specMax !![A, B, 0; G, d, 0; 0, 0, t] := by
    have := le_specMax !![A, B, 0; G, d, 0; 0, 0, t] ![(B : ℂ), ((l - A : ℝ) : ℂ), 0] (l : ℂ) (fun h => by
      have := congrFun h 0
      simp only [Matrix.cons_val_zero, Pi.zero_apply, Complex.ofReal_eq_zero] at this
      exact B0.ne' this) (by
      ext i
      fin_cases i
      · simp [Matrix.mulVec, dotProduct, Fin.sum_univ_three]
        ring
      · simp [Matrix.mulVec, dotProduct, Fin.sum_univ_three]
        have : (G : ℂ) * B + d * (l - A) = l * (l - A) := by
          exact_mod_cast (show G * B + d * (l - A) = l * (l - A) by linarith)
        exact this
      · simp [Matrix.mulVec, dotProduct, Fin.sum_univ_three])
    rwa [Complex.norm_real, Real.norm_of_nonneg (by linarith)] at this
  refine lt_of_lt_of_le (specMax_lt _ ![G, l - A, 1] (fun i => by fin_cases i <;> simp [G0, sub_pos.1 lA]) l fun j => ?_) low
  have x1 : |a - e| < A := by rw [abs_lt]; constructor <;> linarith
  have x2 : |b - f| < B := by rw [abs_lt]; constructor <;> linarith
  have x3 : |g - h| < G := by rw [abs_lt]; constructor <;> linarith
  fin_cases j
  · simp [Fin.sum_univ_three]
    nlinarith
  · simp [Fin.sum_univ_three, abs_of_pos hd]
    nlinarith
  · simp [Fin.sum_univ_three, abs_of_pos ht]
    linarith

/-- Simple shear. -/
def shearA (s : ℝ) : M3 := !![1, s, 0; 0, 1, 0; 0, 0, 1]

/-- The tensor that `max_abs_eigs(Q, 1)` takes the eigenvalues of, for sheared material. -/
theorem tensor_shear (c : Cfg) (P : Par) (Q : St) (hv : c.viscous = true) (ht : c.thermal = false) (hρ : Q 0 ≠ 0)
    (hk : cs2 P.toParams (Q 0) ≠ 0) (s : ℝ) (hA : getA Q = shearA s) :
    let k := cs2 P.toParams (Q 0)
    let β := P.β
    tensor3 c P Q 1 = !![k * (1 + 2 * s ^ 2) + (1 + 2 * β) * k * (s + 2 / 3 * s ^ 3),
        c0 c P Q * c0 c P Q + β * k * (5 / 3 * s ^ 2 + 2 / 3 * s ^ 4) + k * (7 / 3 * s + 2 * s ^ 3), 0;
      (1 + β) * k * (5 / 3 * s ^ 2 + 2 / 3 * s ^ 4) + k * (10 / 3 * s + 8 / 3 * s ^ 3), k * (4 / 3 + 6 * s ^ 2 + 8 / 3 * s ^ 4), 0;
      0, 0, k * (1 + 2 / 3 * s ^ 2)] := by
  intro k β
  have hG : (shearA s).transpose * shearA s = !![1, s, 0; s, 1 + s ^ 2, 0; 0, 0, 1] := by
    ext i j
    fin_cases i <;> fin_cases j <;> simp [shearA, Matrix.mul_apply, Fin.sum_univ_three]; ring
  have hdev : AdevG (shearA s) = !![2 / 3 * s ^ 2, s + 2 / 3 * s ^ 3, 0; s, 2 / 3 * s ^ 2, 0; 0, 0, -1 / 3 * s ^ 2] := by
    simp only [AdevG, hG]
    have e : (Matrix.of fun i j : Fin 3 => if i = j then !![1, s, 0; s, 1 + s ^ 2, 0; 0, 0, 1] i j - (!![1, s, 0; s, 1 + s ^ 2, 0; 0, 0, 1] 0 0 +
        !![1, s, 0; s, 1 + s ^ 2, 0; 0, 0, 1] 1 1 + !![1, s, 0; s, 1 + s ^ 2, 0; 0, 0, 1] 2 2) / 3
        else !![1, s, 0; s, 1 + s ^ 2, 0; 0, 0, 1] i j) = !![-1 / 3 * s ^ 2, s, 0; s, 2 / 3 * s ^ 2, 0; 0, 0, -1 / 3 * s ^ 2] := by
      ext i j
      fin_cases i <;> fin_cases j <;> simp <;> ring
    rw [e]
    ext i j
    fin_cases i <;> fin_cases j <;> simp [shearA, Matrix.mul_apply, Fin.sum_univ_three] <;> ring
  have hs : sigmaCol P.toParams Q 1 = ![-Q 0 * k * (s + 2 / 3 * s ^ 3), -Q 0 * k * (5 / 3 * s ^ 2 + 2 / 3 * s ^ 4), 0] := by
    funext i
    simp only [sigmaCol, dEdAs, hA, hdev]
    fin_cases i <;> simp [Matrix.mulVec, dotProduct, Fin.sum_univ_three, shearA, k] <;> ring
  have hsr : dsigmadrho P.toParams Q 1 = ![-(1 + β) * k * (s + 2 / 3 * s ^ 3), -(1 + β) * k * (5 / 3 * s ^ 2 + 2 / 3 * s ^ 4), 0] := by
    funext i
    fin_cases i <;> simp [dsigmadrho, hs, dcs2, k, β] <;> field_simp <;> ring
  have hsA : dsigmadAd P.toParams Q 1 = (-Q 0 * k) • !![1 + 2 * s ^ 2, 4 / 3 * s, 0; 10 / 3 * s + 8 / 3 * s ^ 3, 4 / 3 + 8 / 3 * s ^ 2, 0;
      0, 0, 1 + 2 / 3 * s ^ 2] := by
    ext i j
    simp only [dsigmadAd, hA, hG, hdev]
    fin_cases i <;> fin_cases j <;> simp [shearA, k] <;> exact Or.inl (by ring)
  ext i j
  fin_cases i <;> fin_cases j <;>
    simp [tensor3, Matrix.mul_apply, Fin.sum_univ_five, xi1, xi2, hv, ht, hs, hsr, hsA, hA, shearA] <;> field_simp <;> ring

/-- **The speed along the second axis tells left from right.**  For every material under simple shear, `max_abs_eigs(Q, 1)` becomes
smaller if the state is mirrored in the first axis. -/
theorem mirror_second (c : Cfg) (P : Par) (Q : St) (hv : c.viscous = true) (ht : c.thermal = false) (hmix : c.mix (mirPar P) = c.mix P)
    (hρ : 0 < Q 0) (hk : 0 < cs2 P.toParams (Q 0)) (hβ : 0 ≤ P.β) (hc : 0 < c0 c P Q) (s : ℝ) (hs : 0 < s) (hA : getA Q = shearA s) :
    maxAbsEigs c (mirPar P) (mir c Q) 1 < maxAbsEigs c P Q 1 := by
  have hA' : getA (mir c Q) = shearA (-s) := by
    rw [mir_A, hA]
    ext i j
    rw [mirrorM_mat]
    fin_cases i <;> fin_cases j <;> simp [shearA, sg]
  have h1 := tensor_shear c P Q hv ht hρ.ne' hk.ne' s hA
  have h2 := tensor_shear c (mirPar P) (mir c Q) hv ht (by rw [mir_0]; exact hρ.ne') (by rw [mir_0]; exact hk.ne') (-s) hA'
  simp only [mir_0, mir_c0 Q hv hmix, show (mirPar P).toParams = P.toParams from rfl] at h1 h2
  rw [maxAbsEigs_eq, maxAbsEigs_eq, mir_vel, show sg 1 = 1 from rfl, one_mul, ht]
  simp only [Bool.false_eq_true, if_false]
  generalize cs2 P.toParams (Q 0) = k at *
  generalize P.β = β at *
  have key := specMax_odd (k * (1 + 2 * s ^ 2)) ((1 + 2 * β) * k * (s + 2 / 3 * s ^ 3))
    (c0 c P Q * c0 c P Q + β * k * (5 / 3 * s ^ 2 + 2 / 3 * s ^ 4)) (k * (7 / 3 * s + 2 * s ^ 3))
    ((1 + β) * k * (5 / 3 * s ^ 2 + 2 / 3 * s ^ 4)) (k * (10 / 3 * s + 8 / 3 * s ^ 3)) (k * (4 / 3 + 6 * s ^ 2 + 8 / 3 * s ^ 4))
    (k * (1 + 2 / 3 * s ^ 2)) (by positivity) (by positivity) (by positivity) (by positivity) (by positivity) (by positivity) (by positivity)
    (by
      have : 0 < k * (1 / 3 + 16 / 3 * s ^ 2 + 8 / 3 * s ^ 4) := by positivity
      nlinarith)
  have e : tensor3 c (mirPar P) (mir c Q) 1 = !![k * (1 + 2 * s ^ 2) - (1 + 2 * β) * k * (s + 2 / 3 * s ^ 3),
      c0 c P Q * c0 c P Q + β * k * (5 / 3 * s ^ 2 + 2 / 3 * s ^ 4) - k * (7 / 3 * s + 2 * s ^ 3), 0;
      (1 + β) * k * (5 / 3 * s ^ 2 + 2 / 3 * s ^ 4) - k * (10 / 3 * s + 8 / 3 * s ^ 3), k * (4 / 3 + 6 * s ^ 2 + 8 / 3 * s ^ 4), 0;
      0, 0, k * (1 + 2 / 3 * s ^ 2)] := by
    have p2 : (-s) ^ 2 = s ^ 2 := by ring
    have p3 : (-s) ^ 3 = -s ^ 3 := by ring
    have p4 : (-s) ^ 4 = s ^ 4 := by ring
    rw [h2, p2, p3, p4]
    congr 4 <;> ring_nf
  rw [h1, e]
  have hpos : 0 ≤ specMax !![k * (1 + 2 * s ^ 2) - (1 + 2 * β) * k * (s + 2 / 3 * s ^ 3),
      c0 c P Q * c0 c P Q + β * k * (5 / 3 * s ^ 2 + 2 / 3 * s ^ 4) - k * (7 / 3 * s + 2 * s ^ 3), 0;
      (1 + β) * k * (5 / 3 * s ^ 2 + 2 / 3 * s ^ 4) - k * (10 / 3 * s + 8 / 3 * s ^ 3), k * (4 / 3 + 6 * s ^ 2 + 8 / 3 * s ^ 4), 0;
      0, 0, k * (1 + 2 / 3 * s ^ 2)] := NNReal.coe_nonneg _
  have := Real.sqrt_lt_sqrt hpos key
  linarith

/-- Under simple shear the speed along the second axis is positive. -/
theorem shear_speed_pos (c : Cfg) (P : Par) (Q : St) (hv : c.viscous = true) (ht : c.thermal = false) (hρ : Q 0 ≠ 0)
    (hk : 0 < cs2 P.toParams (Q 0)) (s : ℝ) (hA : getA Q = shearA s) : 0 < maxAbsEigs c P Q 1 := by
  have h1 := tensor_shear c P Q hv ht hρ hk.ne' s hA
  have hpos : 0 < cs2 P.toParams (Q 0) * (1 + 2 / 3 * s ^ 2) := by positivity
  have := le_specMax (tensor3 c P Q 1) ![0, 0, 1] ((cs2 P.toParams (Q 0) * (1 + 2 / 3 * s ^ 2) : ℝ) : ℂ) (fun h => by
      simpa using congrFun h 2) (by
      simp only [h1]
      ext i
      fin_cases i <;> simp [Matrix.mulVec, dotProduct, Fin.sum_univ_three])
  rw [Complex.norm_real, Real.norm_of_nonneg hpos.le] at this
  rw [maxAbsEigs_eq, ht]
  simp only [Bool.false_eq_true, if_false]
  have := Real.sqrt_pos.2 (hpos.trans_le this)
  positivity

end

end Verif.Rot
