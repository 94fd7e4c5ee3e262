import Verif.Krylov.Solve
import Mathlib.Analysis.InnerProductSpace.GramSchmidtOrtho
import Mathlib.Analysis.InnerProductSpace.Projection.Basic

/-! # The contracts of Eigen's decompositions can be met -/

namespace Verif.Krylov

noncomputable section

attribute [local instance] Classical.propDecidable

open scoped RealInnerProductSpace

theorem isQR_exists : ∃ qr, IsQR qr := by
  have key : ∀ (m k : Nat) (A : Nat → Nat → ℝ), ∃ d : (Nat → Nat → ℝ) × (Nat → Nat → ℝ),
      (∀ a b, a < m → b < m → ∑ l ∈ Finset.range m, d.1 l a * d.1 l b = if a = b then 1 else 0) ∧
      (∀ a b, a < m → b < m → ∑ l ∈ Finset.range m, d.1 a l * d.1 b l = if a = b then 1 else 0) ∧
      (∀ r c, c < r → d.2 r c = 0) ∧
      (∀ r c, r < m → c < k → ∑ l ∈ Finset.range m, d.1 r l * d.2 l c = A r c) := by
    intro m k A
    let col : Nat → EuclideanSpace ℝ (Fin m) := fun c => WithLp.toLp 2 fun r => A r c
    let q := InnerProductSpace.gramSchmidtOrthonormalBasis (𝕜 := ℝ) (E := EuclideanSpace ℝ (Fin m))
      (by simp) fun c : Fin m => col c
    let Q : Matrix (Fin m) (Fin m) ℝ := Matrix.of fun r l => q l r
    have hQ : Q.transpose * Q = 1 := by
      ext a b
      have := orthonormal_iff_ite.1 q.orthonormal b a
      rw [Matrix.mul_apply, Matrix.one_apply]
      simp only [PiLp.inner_apply] at this
      simp only [Matrix.transpose_apply, Q, Matrix.of_apply]
      rw [show (if a = b then (1 : ℝ) else 0) = if b = a then 1 else 0 by simp [eq_comm], ← this]
      exact Finset.sum_congr rfl fun l _ => by simp
    have hQ' : Q * Q.transpose = 1 := mul_eq_one_comm.1 hQ
    refine ⟨(fun r l => if h : r < m ∧ l < m then Q ⟨r, h.1⟩ ⟨l, h.2⟩ else 0,
      fun l c => if h : l < m then ⟪q ⟨l, h⟩, col c⟫ else 0), ?_, ?_, ?_, ?_⟩
    · intro a b ha hb
      have := congrFun (congrFun hQ ⟨a, ha⟩) ⟨b, hb⟩
      rw [Matrix.mul_apply, Matrix.one_apply] at this
      simp only [Fin.mk.injEq] at this
      rw [← this, ← sum_fin_range m fun l => (if h : l < m ∧ a < m then Q ⟨l, h.1⟩ ⟨a, h.2⟩ else 0) *
        (if h : l < m ∧ b < m then Q ⟨l, h.1⟩ ⟨b, h.2⟩ else 0)]
      refine Finset.sum_congr rfl fun l _ => ?_
      rw [dif_pos ⟨l.2, ha⟩, dif_pos ⟨l.2, hb⟩]
      rfl
    · intro a b ha hb
      have := congrFun (congrFun hQ' ⟨a, ha⟩) ⟨b, hb⟩
      rw [Matrix.mul_apply, Matrix.one_apply] at this
      simp only [Fin.mk.injEq] at this
      rw [← this, ← sum_fin_range m fun l => (if h : a < m ∧ l < m then Q ⟨a, h.1⟩ ⟨l, h.2⟩ else 0) *
        (if h : b < m ∧ l < m then Q ⟨b, h.1⟩ ⟨l, h.2⟩ else 0)]
      refine Finset.sum_congr rfl fun l _ => ?_
      rw [dif_pos ⟨ha, l.2⟩, dif_pos ⟨hb, l.2⟩]
      rfl
    · intro r c hrc
      simp only
      split_ifs with h
      · exact InnerProductSpace.gramSchmidtOrthonormalBasis_inv_triangular (𝕜 := ℝ) (by simp)
          (fun c : Fin m => col c) (i := ⟨c, by omega⟩) (j := ⟨r, h⟩) hrc
      · rfl
    · intro r c hr hc
      rw [← sum_fin_range m fun l => (if h : r < m ∧ l < m then Q ⟨r, h.1⟩ ⟨l, h.2⟩ else 0) *
        (if h : l < m then ⟪q ⟨l, h⟩, col c⟫ else 0)]
      have e := congrArg (fun v : EuclideanSpace ℝ (Fin m) => v ⟨r, hr⟩) (q.sum_repr' (col c))
      simp only [WithLp.ofLp_sum, Finset.sum_apply, WithLp.ofLp_smul, Pi.smul_apply, smul_eq_mul] at e
      rw [show A r c = (col c) ⟨r, hr⟩ from rfl, ← e]
      refine Finset.sum_congr rfl fun l _ => ?_
      rw [dif_pos ⟨hr, l.2⟩, dif_pos l.2, mul_comm]
      rfl
  choose f h1 h2 h3 h4 using key
  exact ⟨f, h1, h2, h3, h4⟩

theorem isLsq_exists : ∃ lsq, IsLsq lsq := by
  have key : ∀ (j : Nat) (R : Nat → Nat → ℝ) (b : Nat → ℝ), ∃ x : Nat → ℝ, ∀ y : Nat → ℝ,
      ∑ l ∈ Finset.range j, (∑ c ∈ Finset.range j, R l c * x c - b l) ^ 2 ≤
        ∑ l ∈ Finset.range j, (∑ c ∈ Finset.range j, R l c * y c - b l) ^ 2 := by
    intro j R b
    let T : (Fin j → ℝ) →ₗ[ℝ] EuclideanSpace ℝ (Fin j) :=
      (WithLp.linearEquiv 2 ℝ (Fin j → ℝ)).symm.toLinearMap ∘ₗ (Matrix.of fun l c : Fin j => R l c).mulVecLin
    let U := LinearMap.range T
    let v : EuclideanSpace ℝ (Fin j) := WithLp.toLp 2 fun l => b l
    obtain ⟨x, hx⟩ : ∃ x, T x = U.starProjection v := (Submodule.starProjection_apply_mem U v)
    have hT : ∀ (y : Nat → ℝ), ‖v - T fun c => y c‖ ^ 2 =
        ∑ l ∈ Finset.range j, (∑ c ∈ Finset.range j, R l c * y c - b l) ^ 2 := by
      intro y
      rw [EuclideanSpace.norm_sq_eq, ← sum_fin_range j fun l => (∑ c ∈ Finset.range j, R l c * y c - b l) ^ 2]
      refine Finset.sum_congr rfl fun l _ => ?_
      rw [← sum_fin_range j fun c => R l c * y c, Real.norm_eq_abs, sq_abs]
      show (b l - ∑ c : Fin j, R l c * y c) ^ 2 = _
      ring
    refine ⟨fun c => if h : c < j then x ⟨c, h⟩ else 0, fun y => ?_⟩
    rw [← hT, ← hT]
    refine (sq_le_sq₀ (norm_nonneg _) (norm_nonneg _)).2 ?_
    have e : (fun c : Fin j => (fun c : Nat => if h : c < j then x ⟨c, h⟩ else 0) c) = x := by
      funext c; simp
    rw [e, hx, Submodule.starProjection_minimal]
    exact ciInf_le ⟨0, by rintro _ ⟨w, rfl⟩; exact norm_nonneg _⟩ (⟨T fun c => y c, LinearMap.mem_range_self T _⟩ : U)
  choose f h using key
  exact ⟨f, h⟩

/-- An instance of every hypothesis: two unknowns, a linear part that is neither symmetric nor normal. -/
example : ∃ qr lsq, IsQR qr ∧ IsLsq lsq ∧ ∀ junk c x0 : EuclideanSpace ℝ (Fin 2),
    ‖(Matrix.toEuclideanLin !![1, 2; 0, 3]) (x0 - (jacSolve qr lsq (fun x => Matrix.toEuclideanLin !![1, 2; 0, 3] x + c) x0
      (Matrix.toEuclideanLin !![1, 2; 0, 3] x0 + c) (1 / 8) junk 0 (1 / 1000) []
        (Matrix.toEuclideanLin !![1, 2; 0, 3] x0 + c)).1) + c‖ ≤
      1 / 1000 * max 1 ‖(Matrix.toEuclideanLin !![1, 2; 0, 3]) x0 + c‖ := by
  obtain ⟨qr, hqr⟩ := isQR_exists
  obtain ⟨lsq, hl⟩ := isLsq_exists
  refine ⟨qr, lsq, hqr, hl, fun junk c x0 => ?_⟩
  refine (newton_affine hqr hl _ ?_ junk 0 (1 / 1000) le_rfl (by norm_num) (by simp) c x0 (1 / 8)
    (by norm_num)).resolve_right (no_breakdown _ _)
  rw [injective_iff_map_eq_zero]
  intro v hv
  have h0 := congrArg (fun w : EuclideanSpace ℝ (Fin 2) => w 0) hv
  have h1 := congrArg (fun w : EuclideanSpace ℝ (Fin 2) => w 1) hv
  simp [Matrix.toEuclideanLin, Matrix.mulVec, dotProduct, Fin.sum_univ_two] at h0 h1
  ext i
  fin_cases i
  · simp only [h1] at h0; simpa using h0
  · simpa using h1

end

end Verif.Krylov
