import Verif.Grid.Walls
import Mathlib.Analysis.Matrix.Spectrum
import Mathlib.Analysis.InnerProductSpace.PiL2
import Mathlib.Data.Fin.Tuple.Sort

/-! # Every matrix has a singular value decomposition: the contract of Eigen's `JacobiSVD` can be met -/

namespace Verif.Grid

open Matrix Verif.Sys

noncomputable section

/-- Eigen's contract: a decomposition with singular values in descending order exists for every matrix. -/
theorem svd_exists (A : M3) : ∃ U V s, IsSVD A U V s ∧ s 1 ≤ s 0 ∧ s 2 ≤ s 1 := by
  have hH : (A.transpose * A).IsHermitian := by
    have := isHermitian_conjTranspose_mul_self A
    rwa [conjTranspose_eq_transpose_of_trivial] at this
  set σ := Tuple.sort fun i => -hH.eigenvalues i with hσ
  have hmono : Monotone ((fun i => -hH.eigenvalues i) ∘ σ) := Tuple.monotone_sort _
  let lam : Fin 3 → ℝ := fun i => hH.eigenvalues (σ i)
  let e : Fin 3 → EuclideanSpace ℝ (Fin 3) := fun i => hH.eigenvectorBasis (σ i)
  have he : ∀ i j, ∑ k, e i k * e j k = if i = j then 1 else 0 := by
    intro i j
    have := orthonormal_iff_ite.1 hH.eigenvectorBasis.orthonormal (σ i) (σ j)
    rw [PiLp.inner_apply] at this
    simp only [RCLike.inner_apply, conj_trivial, EmbeddingLike.apply_eq_iff_eq] at this
    rw [← this]
    exact Finset.sum_congr rfl fun k _ => mul_comm _ _
  have hev : ∀ i, (A.transpose * A) *ᵥ (e i : Fin 3 → ℝ) = lam i • (e i : Fin 3 → ℝ) := fun i =>
    hH.mulVec_eigenvectorBasis (σ i)
  -- images of the eigenvectors
  have hAe : ∀ i j, (A *ᵥ (e i : Fin 3 → ℝ)) ⬝ᵥ (A *ᵥ (e j : Fin 3 → ℝ)) = if i = j then lam i else 0 := by
    intro i j
    rw [dotProduct_mulVec, ← mulVec_transpose, mulVec_mulVec, hev, smul_dotProduct]
    have : (e i : Fin 3 → ℝ) ⬝ᵥ (e j : Fin 3 → ℝ) = if i = j then 1 else 0 := he i j
    rw [this]
    split_ifs <;> simp
  have hlam : ∀ i, 0 ≤ lam i := fun i => by
    have := hAe i i
    rw [if_pos rfl] at this
    rw [← this]
    exact Finset.sum_nonneg fun k _ => mul_self_nonneg _
  let s : Fin 3 → ℝ := fun i => Real.sqrt (lam i)
  have hs : ∀ i, s i * s i = lam i := fun i => Real.mul_self_sqrt (hlam i)
  let w : Fin 3 → EuclideanSpace ℝ (Fin 3) := fun i => WithLp.toLp 2 ((s i)⁻¹ • (A *ᵥ (e i : Fin 3 → ℝ)))
  let S : Set (Fin 3) := {i | s i ≠ 0}
  have hw : Orthonormal ℝ (S.domRestrict w) := by
    rw [orthonormal_iff_ite]
    rintro ⟨i, hi⟩ ⟨j, hj⟩
    simp only [PiLp.inner_apply, RCLike.inner_apply, conj_trivial, Subtype.mk.injEq]
    have : ∑ x, (s j)⁻¹ * (A *ᵥ (e j : Fin 3 → ℝ)) x * ((s i)⁻¹ * (A *ᵥ (e i : Fin 3 → ℝ)) x) =
        (s i)⁻¹ * (s j)⁻¹ * ((A *ᵥ (e i : Fin 3 → ℝ)) ⬝ᵥ (A *ᵥ (e j : Fin 3 → ℝ))) := by
      rw [dotProduct, Finset.mul_sum]
      exact Finset.sum_congr rfl fun x _ => by ring
    refine this.trans ?_
    rw [hAe]
    split_ifs with h
    · subst h
      rw [← hs i]
      have : s i ≠ 0 := hi
      field_simp
    · simp
  obtain ⟨b, hb⟩ := hw.exists_orthonormalBasis_extension_of_card_eq (by simp) 
  have hbo : ∀ i j, ∑ k, b i k * b j k = if i = j then 1 else 0 := by
    intro i j
    have := orthonormal_iff_ite.1 b.orthonormal i j
    rw [PiLp.inner_apply] at this
    simp only [RCLike.inner_apply, conj_trivial] at this
    rw [← this]
    exact Finset.sum_congr rfl fun k _ => mul_comm _ _
  have hAb : ∀ i, A *ᵥ (e i : Fin 3 → ℝ) = s i • (b i : Fin 3 → ℝ) := by
    intro i
    by_cases h : s i = 0
    · rw [h, zero_smul]
      have := hAe i i
      rw [if_pos rfl, ← hs i, h, mul_zero] at this
      exact dotProduct_self_eq_zero.1 this
    · rw [hb i h]
      show _ = s i • ((s i)⁻¹ • (A *ᵥ (e i : Fin 3 → ℝ)))
      rw [smul_smul, mul_inv_cancel₀ h, one_smul]
  let U : M3 := Matrix.of fun a i => b i a
  let V : M3 := Matrix.of fun a i => e i a
  have hU : U.transpose * U = 1 := by
    ext i j
    rw [Matrix.mul_apply, Matrix.one_apply]
    exact hbo i j
  have hV : V.transpose * V = 1 := by
    ext i j
    rw [Matrix.mul_apply, Matrix.one_apply]
    exact he i j
  have hAV : A * V = U * Matrix.diagonal s := by
    ext a i
    rw [Matrix.mul_diagonal]
    have := congrFun (hAb i) a
    simp only [Pi.smul_apply, smul_eq_mul] at this
    rw [Matrix.mul_apply]
    show _ = b i a * s i
    rw [mul_comm, ← this]
    rfl
  refine ⟨U, V, s, ⟨hU, hV, fun i => Real.sqrt_nonneg _, ?_⟩, ?_, ?_⟩
  · rw [← hAV, Matrix.mul_assoc, mul_eq_one_comm.mp hV, Matrix.mul_one]
  · have := hmono (show (0 : Fin 3) ≤ 1 by decide)
    simp only [Function.comp] at this
    exact Real.sqrt_le_sqrt (neg_le_neg_iff.1 this)
  · have := hmono (show (1 : Fin 3) ≤ 2 by decide)
    simp only [Function.comp] at this
    exact Real.sqrt_le_sqrt (neg_le_neg_iff.1 this)

end

end Verif.Grid
