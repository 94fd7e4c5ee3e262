import Verif.Sys.Flux
import Mathlib.LinearAlgebra.Lagrange
import Mathlib.LinearAlgebra.Matrix.NonsingularInverse
import Mathlib.LinearAlgebra.Basis.VectorSpace
import Mathlib.LinearAlgebra.Dimension.Constructions

/-!
# C96: the dissipation of the Roe and Osher fluxes does not depend on the eigenvectors

`EigenSolver` returns some eigenvectors, in some order and with some scaling; of repeated eigenvalues it may return any basis.
-/

namespace Verif.Sys

open Verif.Dg Polynomial

noncomputable section

/-! ### Functions of a matrix -/

section
variable {m : Type} [Fintype m] [DecidableEq m]

theorem pow_eig (J E : Matrix m m ℂ) (l : m → ℂ) (h : J * E = E * Matrix.diagonal l) (k : Nat) :
    J ^ k * E = E * Matrix.diagonal (fun i => l i ^ k) := by
  induction k with
  | zero => simp
  | succ k ih =>
    rw [pow_succ, Matrix.mul_assoc, h, ← Matrix.mul_assoc, ih, Matrix.mul_assoc, Matrix.diagonal_mul_diagonal]
    simp only [pow_succ]

theorem poly_eig (J E : Matrix m m ℂ) (l : m → ℂ) (h : J * E = E * Matrix.diagonal l) (p : ℂ[X]) :
    aeval J p * E = E * Matrix.diagonal (fun i => p.eval (l i)) := by
  induction p using Polynomial.induction_on' with
  | add p q hp hq =>
    rw [map_add, Matrix.add_mul, hp, hq, ← Matrix.mul_add, Matrix.diagonal_add]
    simp only [eval_add]
  | monomial k a =>
    rw [aeval_monomial, Matrix.mul_assoc, pow_eig J E l h, Algebra.algebraMap_eq_smul_one, Matrix.smul_mul, Matrix.one_mul,
      ← Matrix.mul_smul]
    congr 1
    ext i j
    simp [Matrix.diagonal]

/-- **A function of a matrix does not depend on the eigenvectors it is computed with.** -/
theorem fun_unique (f : ℂ → ℂ) (J E E' : Matrix m m ℂ) (l l' x x' : m → ℂ) (h : J * E = E * Matrix.diagonal l)
    (h' : J * E' = E' * Matrix.diagonal l') (hx : E.mulVec x = E'.mulVec x') :
    E.mulVec (fun j => x j * f (l j)) = E'.mulVec (fun j => x' j * f (l' j)) := by
  classical
  let s : Finset ℂ := Finset.univ.image l ∪ Finset.univ.image l'
  let p : ℂ[X] := Lagrange.interpolate s id f
  have hp : ∀ z ∈ s, p.eval z = f z := fun z hz => Lagrange.eval_interpolate_at_node f (Function.injective_id.injOn) hz
  have key : ∀ (F : Matrix m m ℂ) (a y : m → ℂ), J * F = F * Matrix.diagonal a → (∀ j, a j ∈ s) →
      F.mulVec (fun j => y j * f (a j)) = (aeval J p).mulVec (F.mulVec y) := by
    intro F a y hF ha
    rw [Matrix.mulVec_mulVec, poly_eig J F a hF, ← Matrix.mulVec_mulVec]
    congr 1
    funext j
    rw [Matrix.mulVec_diagonal, hp _ (ha j), mul_comm]
  rw [key E l x h fun j => Finset.mem_union_left _ (Finset.mem_image_of_mem _ (Finset.mem_univ j)),
    key E' l' x' h' fun j => Finset.mem_union_right _ (Finset.mem_image_of_mem _ (Finset.mem_univ j)), hx]

end

/-! ### The contract of the solver -/

/-- What the code needs of Eigen at the matrix `J`: the columns of `eigenvectors()` are eigenvectors, and the decomposition solves
the linear systems with them. -/
structure EigSolver.At (es : EigSolver) (nv : Nat) (J : Nat → Nat → ℝ) : Prop where
  eig : ∀ i < nv, ∀ j < nv, ∑ k ∈ Finset.range nv, (J i k : ℂ) * es.vectors J k j = es.vectors J i j * es.values J j
  solve : ∀ b : Nat → ℂ, ∀ i < nv, ∑ j ∈ Finset.range nv, es.vectors J i j * es.solve (es.vectors J) b j = b i

/-- The leading block of a matrix. -/
def blockC (nv : Nat) (E : Nat → Nat → ℂ) : Matrix (Fin nv) (Fin nv) ℂ := Matrix.of fun i j => E i j

variable {nv : Nat} {es es' : EigSolver} {J J' : Nat → Nat → ℝ}

theorem At.mul (h : es.At nv J) : blockC nv (fun i j => (J i j : ℂ)) * blockC nv (es.vectors J) =
    blockC nv (es.vectors J) * Matrix.diagonal fun j : Fin nv => es.values J j := by
  ext i j
  rw [Matrix.mul_diagonal, Matrix.mul_apply]
  have := h.eig i i.2 j j.2
  rw [Finset.sum_range] at this
  exact this

theorem At.vec (h : es.At nv J) (b : Nat → ℂ) :
    (blockC nv (es.vectors J)).mulVec (fun j : Fin nv => es.solve (es.vectors J) b j) = fun i : Fin nv => b i := by
  funext i
  have := h.solve b i i.2
  rw [Finset.sum_range] at this
  exact this

theorem dissipate_block (dq : St) (i : Fin nv) : dissipate nv es J dq i =
    (blockC nv (es.vectors J)).mulVec (fun j : Fin nv => es.solve (es.vectors J) (fun k => (dq k : ℂ)) j *
      (‖es.values J j‖ : ℂ)) i := by
  simp only [dissipate, Finset.sum_range, Matrix.mulVec, dotProduct, blockC, Matrix.of_apply]

/-- **The choice of the eigenvectors does not matter** (C96): two solvers that meet the contract at `J` give the same
dissipation. -/
theorem dissipate_unique (h : es.At nv J) (h' : es'.At nv J) (dq : St) (i : Nat) (hi : i < nv) :
    dissipate nv es J dq i = dissipate nv es' J dq i := by
  have := fun_unique (fun z => (‖z‖ : ℂ)) _ _ _ _ _ _ _ (At.mul h) (At.mul h')
    ((At.vec h fun k => (dq k : ℂ)).trans (At.vec h' fun k => (dq k : ℂ)).symm)
  rw [show i = ((⟨i, hi⟩ : Fin nv) : Nat) from rfl, dissipate_block, dissipate_block]
  exact congrFun this _

/-- The dissipation is linear in the jump. -/
theorem dissipate_lin (h : es.At nv J) (a b : ℝ) (dq dq' : St) (i : Nat) (hi : i < nv) :
    dissipate nv es J (fun k => a * dq k + b * dq' k) i = a * dissipate nv es J dq i + b * dissipate nv es J dq' i := by
  let x (r : St) (j : Fin nv) : ℂ := es.solve (es.vectors J) (fun k => (r k : ℂ)) j
  have hx : (blockC nv (es.vectors J)).mulVec (x fun k => a * dq k + b * dq' k) =
      (blockC nv (es.vectors J)).mulVec ((a : ℂ) • x dq + (b : ℂ) • x dq') := by
    rw [Matrix.mulVec_add, Matrix.mulVec_smul, Matrix.mulVec_smul, At.vec h, At.vec h, At.vec h]
    funext i
    simp
  have := congrFun (fun_unique (fun z => (‖z‖ : ℂ)) _ _ _ _ _ _ _ (At.mul h) (At.mul h) hx) ⟨i, hi⟩
  rw [show i = ((⟨i, hi⟩ : Fin nv) : Nat) from rfl, dissipate_block, dissipate_block, dissipate_block]
  refine this.trans ?_
  simp only [Matrix.mulVec, dotProduct, Finset.mul_sum, ← Finset.sum_add_distrib, Pi.add_apply, Pi.smul_apply, smul_eq_mul, x]
  exact Finset.sum_congr rfl fun j _ => by ring

theorem dissipate_neg (h : es.At nv J) (dq : St) (i : Nat) (hi : i < nv) :
    dissipate nv es J (fun k => -dq k) i = -dissipate nv es J dq i := by
  have := dissipate_lin h (-1) 0 dq dq i hi
  simpa using this

/-- **The code drops nothing** (C96) when it takes the real part: the dissipation is real, though eigenvectors and eigenvalues may
be complex. -/
theorem dissipate_real (h : es.At nv J) (dq : St) (i : Nat) (hi : i < nv) : (dissipate nv es J dq i).im = 0 := by
  let cj : ℂ →+* ℂ := starRingEnd ℂ
  have h1 := At.mul h
  have h2 := At.vec h fun k => (dq k : ℂ)
  have h1' : blockC nv (fun i j => (J i j : ℂ)) * (blockC nv (es.vectors J)).map cj =
      (blockC nv (es.vectors J)).map cj * Matrix.diagonal fun j : Fin nv => cj (es.values J j) := by
    ext i j
    have := congrArg cj (congrFun (congrFun h1 i) j)
    rw [Matrix.mul_diagonal, Matrix.mul_apply, map_sum] at this
    rw [Matrix.mul_diagonal, Matrix.mul_apply, Matrix.map_apply, ← map_mul]
    refine Eq.trans (Finset.sum_congr rfl fun k _ => ?_) this
    rw [map_mul, Matrix.map_apply]
    congr 1
    simp [blockC, cj]
  have h2' : ((blockC nv (es.vectors J)).map cj).mulVec
      (fun j : Fin nv => cj (es.solve (es.vectors J) (fun k => (dq k : ℂ)) j)) = fun i : Fin nv => (dq i : ℂ) := by
    funext i
    have := congrArg cj (congrFun h2 i)
    rw [Matrix.mulVec, dotProduct, map_sum] at this
    rw [Matrix.mulVec, dotProduct]
    refine Eq.trans (Finset.sum_congr rfl fun k _ => ?_) (this.trans ?_)
    · rw [map_mul]; rfl
    · simp [cj]
  have := congrFun (fun_unique (fun z => (‖z‖ : ℂ)) _ _ _ _ _ _ _ h1 h1' (h2.trans h2'.symm)) ⟨i, hi⟩
  rw [← dissipate_block dq ⟨i, hi⟩] at this
  refine Complex.conj_eq_iff_im.1 ?_
  refine Eq.trans ?_ this.symm
  change cj (dissipate nv es J dq ((⟨i, hi⟩ : Fin nv) : Nat)) = _
  rw [dissipate_block, Matrix.mulVec, dotProduct, map_sum, Matrix.mulVec, dotProduct]
  refine Finset.sum_congr rfl fun k _ => ?_
  rw [map_mul, map_mul, Matrix.map_apply]
  congr 2
  simp [cj]

/-- **Upwinding** (C96): where all waves run to the right the dissipation is `J dq`. -/
theorem dissipate_right (h : es.At nv J) (hp : ∀ j < nv, ∃ a : ℝ, 0 ≤ a ∧ es.values J j = a) (dq : St) (i : Nat) (hi : i < nv) :
    dissipate nv es J dq i = ((∑ j ∈ Finset.range nv, J i j * dq j : ℝ) : ℂ) := by
  have h1 : ∀ j < nv, (‖es.values J j‖ : ℂ) = es.values J j := fun j hj => by
    obtain ⟨a, ha, e⟩ := hp j hj
    rw [e, Complex.norm_real, Real.norm_of_nonneg ha]
  unfold dissipate
  calc _ = ∑ j ∈ Finset.range nv, ∑ k ∈ Finset.range nv,
        (J i k : ℂ) * (es.vectors J k j * es.solve (es.vectors J) (fun k => (dq k : ℂ)) j) := by
        refine Finset.sum_congr rfl fun j hj => ?_
        rw [Finset.mem_range] at hj
        rw [h1 j hj, mul_comm (es.solve _ _ _), ← mul_assoc, ← h.eig i hi j hj, Finset.sum_mul]
        exact Finset.sum_congr rfl fun k _ => by ring
    _ = _ := by
        rw [Finset.sum_comm, Complex.ofReal_sum]
        refine Finset.sum_congr rfl fun k hk => ?_
        rw [← Finset.mul_sum, h.solve _ k (Finset.mem_range.1 hk), Complex.ofReal_mul]

/-- Where all waves run to the left it is `-J dq`. -/
theorem dissipate_left (h : es.At nv J) (hp : ∀ j < nv, ∃ a : ℝ, a ≤ 0 ∧ es.values J j = a) (dq : St) (i : Nat) (hi : i < nv) :
    dissipate nv es J dq i = -((∑ j ∈ Finset.range nv, J i j * dq j : ℝ) : ℂ) := by
  have h1 : ∀ j < nv, (‖es.values J j‖ : ℂ) = -es.values J j := fun j hj => by
    obtain ⟨a, ha, e⟩ := hp j hj
    rw [e, Complex.norm_real, Real.norm_of_nonpos ha, Complex.ofReal_neg]
  unfold dissipate
  calc _ = ∑ j ∈ Finset.range nv, ∑ k ∈ Finset.range nv,
        -((J i k : ℂ) * (es.vectors J k j * es.solve (es.vectors J) (fun k => (dq k : ℂ)) j)) := by
        refine Finset.sum_congr rfl fun j hj => ?_
        rw [Finset.mem_range] at hj
        rw [h1 j hj, Finset.sum_neg_distrib, mul_neg, mul_neg, neg_inj, mul_comm (es.solve _ _ _), ← mul_assoc,
          ← h.eig i hi j hj, Finset.sum_mul]
        exact Finset.sum_congr rfl fun k _ => by ring
    _ = _ := by
        rw [Finset.sum_comm, Complex.ofReal_sum, ← Finset.sum_neg_distrib]
        refine Finset.sum_congr rfl fun k hk => ?_
        rw [Finset.sum_neg_distrib, ← Finset.mul_sum, h.solve _ k (Finset.mem_range.1 hk), Complex.ofReal_mul]

/-- **The mirror image of the dissipation** (C96): `J' = -S J S` with signs `S`. -/
theorem dissipate_mirror (s : Nat → ℝ) (hs : ∀ i, s i * s i = 1) (hJ : ∀ i < nv, ∀ j < nv, J' i j = -(s i * s j * J i j))
    (h : es.At nv J) (h' : es'.At nv J') (dq dq' : St) (hd : ∀ i < nv, dq' i = s i * dq i) (i : Nat) (hi : i < nv) :
    dissipate nv es' J' dq' i = (s i : ℂ) * dissipate nv es J dq i := by
  have hsC : ∀ i, (s i : ℂ) * (s i : ℂ) = 1 := fun i => by rw [← Complex.ofReal_mul, hs, Complex.ofReal_one]
  let S : Matrix (Fin nv) (Fin nv) ℂ := Matrix.diagonal fun i : Fin nv => (s i : ℂ)
  have hSS : S * S = 1 := by
    rw [Matrix.diagonal_mul_diagonal]
    simp only [hsC, Matrix.diagonal_one]
  have hJJ : blockC nv (fun i j => (J i j : ℂ)) * S = -(S * blockC nv (fun i j => (J' i j : ℂ))) := by
    ext i j
    rw [Matrix.mul_diagonal, Matrix.neg_apply, Matrix.diagonal_mul]
    simp only [blockC, Matrix.of_apply, hJ i i.2 j j.2]
    push_cast
    linear_combination -((J i j : ℂ) * (s j : ℂ)) * hsC i
  have h1 : blockC nv (fun i j => (J i j : ℂ)) * (S * blockC nv (es'.vectors J')) =
      (S * blockC nv (es'.vectors J')) * Matrix.diagonal fun j : Fin nv => -es'.values J' j := by
    rw [← Matrix.mul_assoc, hJJ, Matrix.neg_mul, Matrix.mul_assoc, At.mul h', Matrix.mul_assoc, ← Matrix.mul_neg,
      ← Matrix.mul_neg]
    congr 3
    ext i j
    by_cases e : i = j <;> simp [Matrix.diagonal, e]
  have h2 : (S * blockC nv (es'.vectors J')).mulVec
      (fun j : Fin nv => es'.solve (es'.vectors J') (fun k => (dq' k : ℂ)) j) = fun i : Fin nv => (dq i : ℂ) := by
    rw [← Matrix.mulVec_mulVec, At.vec h']
    funext i
    rw [Matrix.mulVec_diagonal, hd i i.2]
    push_cast
    linear_combination (dq i : ℂ) * hsC i
  have := congrFun (fun_unique (fun z => (‖z‖ : ℂ)) _ _ _ _ _ _ _ (At.mul h) h1
    ((At.vec h fun k => (dq k : ℂ)).trans h2.symm)) ⟨i, hi⟩
  rw [← dissipate_block dq ⟨i, hi⟩] at this
  change dissipate nv es J dq i = _ at this
  rw [this, ← Matrix.mulVec_mulVec, Matrix.mulVec_diagonal]
  simp only [norm_neg]
  rw [← dissipate_block dq' ⟨i, hi⟩, ← mul_assoc, hsC, one_mul]

/-! ### Solvers that meet the contract -/

/-- The eigenvectors of `J` span: every vector is a sum of eigenvectors. -/
def Spans (nv : Nat) (J : Nat → Nat → ℝ) : Prop :=
  ∀ x : Fin nv → ℂ, ∃ (k : Nat) (r : Fin k → Fin nv → ℂ) (l : Fin k → ℂ),
    (∀ (a : Fin k) (i : Fin nv), ∑ j : Fin nv, (J i j : ℂ) * r a j = l a * r a i) ∧ x = ∑ a, r a

theorem exists_basis (hJ : Spans nv J) : ∃ (E : Matrix (Fin nv) (Fin nv) ℂ) (l : Fin nv → ℂ), IsUnit E.det ∧
    blockC nv (fun i j => (J i j : ℂ)) * E = E * Matrix.diagonal l := by
  let s : Set (Fin nv → ℂ) := {r | ∃ l : ℂ, ∀ i : Fin nv, ∑ j : Fin nv, (J i j : ℂ) * r j = l * r i}
  have hs : ⊤ ≤ Submodule.span ℂ s := by
    intro x _
    obtain ⟨k, r, l, h, rfl⟩ := hJ x
    exact Submodule.sum_mem _ fun a _ => Submodule.subset_span ⟨l a, h a⟩
  let b := Module.Basis.ofSpan hs
  have hcard : Module.finrank ℂ (Fin nv → ℂ) = nv := by simp
  have : Fintype ((linearIndepOn_empty ℂ id).extend (Set.empty_subset s)) := FiniteDimensional.fintypeBasisIndex b
  have e : Fintype.card ((linearIndepOn_empty ℂ id).extend (Set.empty_subset s)) = nv := by
    rw [← Module.finrank_eq_card_basis b, hcard]
  let b' := b.reindex (Fintype.equivFinOfCardEq e)
  have hb : ∀ j, b' j ∈ s := fun j => by
    have : b' j ∈ Set.range b := by
      rw [Module.Basis.reindex_apply]
      exact Set.mem_range_self _
    exact Module.Basis.ofSpan_subset hs this
  choose l hl using hb
  refine ⟨Matrix.of fun i j => b' j i, l, ?_, ?_⟩
  · have := (Pi.basisFun ℂ (Fin nv)).isUnit_det b'
    rw [Module.Basis.det_apply] at this
    convert this using 2
    ext i j
    simp [Module.Basis.toMatrix]
  · ext i j
    rw [Matrix.mul_diagonal, Matrix.mul_apply]
    simp only [blockC, Matrix.of_apply]
    rw [hl j i, mul_comm]

/-- There is a solver that meets the contract at every matrix whose eigenvectors span. -/
theorem exists_solver (nv : Nat) : ∃ es : EigSolver, ∀ J, Spans nv J → es.At nv J := by
  classical
  choose E l hE hl using fun (J : {J : Nat → Nat → ℝ // Spans nv J}) => exists_basis J.2
  refine ⟨⟨fun J i j => if h : Spans nv J ∧ i < nv ∧ j < nv then E ⟨J, h.1⟩ ⟨i, h.2.1⟩ ⟨j, h.2.2⟩ else 0,
    fun J j => if h : Spans nv J ∧ j < nv then l ⟨J, h.1⟩ ⟨j, h.2⟩ else 0,
    fun M b j => if h : j < nv then ((blockC nv M)⁻¹.mulVec fun i => b i) ⟨j, h⟩ else 0⟩, fun J hJ => ⟨fun i hi j hj => ?_,
    fun b i hi => ?_⟩⟩
  · have := congrFun (congrFun (hl ⟨J, hJ⟩) ⟨i, hi⟩) ⟨j, hj⟩
    rw [Matrix.mul_diagonal, Matrix.mul_apply] at this
    simp only [hJ, hi, hj, and_self, and_true, true_and, dite_true, Finset.sum_range, Fin.is_lt]
    exact this
  · have hb : blockC nv (fun i j => if h : Spans nv J ∧ i < nv ∧ j < nv then E ⟨J, h.1⟩ ⟨i, h.2.1⟩ ⟨j, h.2.2⟩ else 0) =
        E ⟨J, hJ⟩ := by
      ext i j
      simp [blockC, hJ]
    have := congrFun (congrArg (fun M : Matrix (Fin nv) (Fin nv) ℂ => M.mulVec fun i : Fin nv => b i)
      (Matrix.mul_nonsing_inv _ (hE ⟨J, hJ⟩))) ⟨i, hi⟩
    simp only [← Matrix.mulVec_mulVec, Matrix.one_mulVec] at this
    rw [← this]
    simp only [hb]
    rw [Matrix.mulVec, dotProduct, Finset.sum_range]
    simp only [hJ, hi, and_self, dite_true, Fin.is_lt]

end

end Verif.Sys
