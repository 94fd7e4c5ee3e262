import Verif.Grid.Svd
import Verif.Relax.Frame
import Mathlib.Analysis.SpecialFunctions.Complex.Arg

/-! # Singular value decompositions that respect the mirror -/

namespace Verif.Rot

open Verif.Sys Verif.Grid Verif.Relax Matrix

noncomputable section

/-- The reflection of the first axis. -/
def reflM : M3 := Matrix.diagonal ![-1, 1, 1]

theorem reflM_sq : reflM * reflM = 1 := by
  ext i j
  fin_cases i <;> fin_cases j <;> simp [reflM, Matrix.mul_apply, Matrix.diagonal]

theorem reflM_t : reflM.transpose = reflM := Matrix.diagonal_transpose _

theorem refl_refl (A : M3) : reflM * (reflM * A * reflM) * reflM = A := by
  rw [show reflM * (reflM * A * reflM) * reflM = (reflM * reflM) * A * (reflM * reflM) by simp only [Matrix.mul_assoc], reflM_sq,
    Matrix.one_mul, Matrix.mul_one]

/-- A number and an angle for every point of the plane. -/
theorem polar (x y : ℝ) : ∃ r a : ℝ, r * Real.cos a = x ∧ r * Real.sin a = y := by
  refine ⟨‖(⟨x, y⟩ : ℂ)‖, Complex.arg ⟨x, y⟩, ?_, ?_⟩
  · exact Complex.norm_mul_cos_arg _
  · exact Complex.norm_mul_sin_arg _

/-- The permuted decomposition. -/
theorem svd_perm (A U W : M3) (s : V3) (h : IsSVD A U W s) (σ : Equiv.Perm (Fin 3)) :
    IsSVD A (U.submatrix id σ) (W.submatrix id σ) (s ∘ σ) := by
  obtain ⟨h1, h2, h3, h4⟩ := h
  have orth : ∀ U : M3, U.transpose * U = 1 → (U.submatrix id σ).transpose * U.submatrix id σ = 1 := by
    intro U hU
    rw [Matrix.transpose_submatrix, ← Matrix.submatrix_mul _ _ σ id σ Function.bijective_id, hU, Matrix.submatrix_one_equiv]
  refine ⟨orth U h1, orth W h2, fun i => h3 _, ?_⟩
  have e : Matrix.diagonal (s ∘ σ) = (Matrix.diagonal s).submatrix σ σ := (Matrix.submatrix_diagonal_equiv s σ).symm
  rw [e, Matrix.transpose_submatrix, Matrix.submatrix_mul_equiv, Matrix.submatrix_mul_equiv, Matrix.submatrix_id_id]
  exact h4

/-- A matrix that is its own mirror image has singular vectors that are mirrored up to their signs. -/
theorem svd_refl (A : M3) (hA : reflM * A * reflM = A) : ∃ U W s, IsSVD A U W s ∧ Sorted s ∧
    ∃ δ : V3, (∀ i, δ i * δ i = 1) ∧ reflM * U = U * Matrix.diagonal δ ∧ reflM * W = W * Matrix.diagonal δ := by
  have z : ∀ i j, A i j = ![-1, 1, 1] i * ![-1, 1, 1] j * A i j := fun i j => by
    conv_lhs => rw [← hA]
    unfold reflM
    rw [Matrix.mul_diagonal, Matrix.diagonal_mul]
    ring
  have z1 : A 0 1 = 0 := by have := z 0 1; norm_num at this; linarith
  have z2 : A 0 2 = 0 := by have := z 0 2; simp at this; linarith
  have z3 : A 1 0 = 0 := by have := z 1 0; norm_num at this; linarith
  have z4 : A 2 0 = 0 := by have := z 2 0; simp at this; linarith
  obtain ⟨q, a2, q1, q2⟩ := polar ((A 1 1 + A 2 2) / 2) ((A 2 1 - A 1 2) / 2)
  obtain ⟨r, a1, r1, r2⟩ := polar ((A 1 1 - A 2 2) / 2) ((A 1 2 + A 2 1) / 2)
  obtain ⟨f, hf⟩ : ∃ f, f = (a1 + a2) / 2 := ⟨_, rfl⟩
  obtain ⟨t, ht⟩ : ∃ t, t = (a1 - a2) / 2 := ⟨_, rfl⟩
  rw [show a2 = f - t by rw [hf, ht]; ring] at q1 q2
  rw [show a1 = f + t by rw [hf, ht]; ring] at r1 r2
  rw [Real.cos_sub] at q1
  rw [Real.sin_sub] at q2
  rw [Real.cos_add] at r1
  rw [Real.sin_add] at r2
  have rot : ∀ x : ℝ, ∃ R : M3, R = !![1, 0, 0; 0, Real.cos x, -Real.sin x; 0, Real.sin x, Real.cos x] ∧ R.transpose * R = 1 ∧
      reflM * R = R * Matrix.diagonal ![-1, 1, 1] := by
    intro x
    have cs := Real.sin_sq_add_cos_sq x
    refine ⟨_, rfl, ?_, ?_⟩
    · ext i j
      fin_cases i <;> fin_cases j <;> simp [Matrix.mul_apply, Fin.sum_univ_three] <;> nlinarith
    · unfold reflM
      ext i j
      rw [Matrix.mul_diagonal, Matrix.diagonal_mul]
      fin_cases i <;> fin_cases j <;> simp
  obtain ⟨U, eU, hU, mU⟩ := rot f
  obtain ⟨W, eW, hW, mW⟩ := rot t
  let d : V3 := ![A 0 0, q + r, q - r]
  have hA' : A = U * Matrix.diagonal d * W.transpose := by
    ext i j
    rw [Matrix.mul_apply, Fin.sum_univ_three]
    simp only [Matrix.mul_diagonal, Matrix.transpose_apply]
    rw [eU, eW]
    fin_cases i <;> fin_cases j <;> simp [d, z1, z2, z3, z4] <;> linarith
  -- signs
  let e : V3 := fun i => if 0 ≤ d i then 1 else -1
  have he : ∀ i, e i * e i = 1 := fun i => by simp only [e]; split_ifs <;> norm_num
  have hed : ∀ i, e i * |d i| = d i := fun i => by
    simp only [e]
    split_ifs with h
    · rw [abs_of_nonneg h]; ring
    · rw [abs_of_neg (by push Not at h; exact h)]; ring
  have h0 : IsSVD A (U * Matrix.diagonal e) W (fun i => |d i|) := by
    refine ⟨?_, hW, fun i => abs_nonneg _, ?_⟩
    · rw [Matrix.transpose_mul, Matrix.diagonal_transpose, Matrix.mul_assoc, ← Matrix.mul_assoc U.transpose, hU, Matrix.one_mul,
        Matrix.diagonal_mul_diagonal]
      simp only [he]
      exact Matrix.diagonal_one
    · rw [Matrix.mul_assoc U, Matrix.diagonal_mul_diagonal]
      simp only [hed]
      exact hA'
  have m0 : reflM * (U * Matrix.diagonal e) = U * Matrix.diagonal e * Matrix.diagonal ![-1, 1, 1] := by
    rw [← Matrix.mul_assoc, mU, Matrix.mul_assoc, Matrix.mul_assoc, Matrix.diagonal_mul_diagonal, Matrix.diagonal_mul_diagonal]
    simp only [mul_comm]
  -- order
  let σ := Tuple.sort fun i => -|d i|
  have hmono : Monotone ((fun i => -|d i|) ∘ σ) := Tuple.monotone_sort _
  have perm : ∀ U : M3, reflM * U = U * Matrix.diagonal ![-1, 1, 1] →
      reflM * U.submatrix id σ = U.submatrix id σ * Matrix.diagonal (![-1, 1, 1] ∘ σ) := by
    intro U h
    ext i j
    have := congrFun (congrFun h i) (σ j)
    unfold reflM at *
    rw [Matrix.mul_diagonal, Matrix.diagonal_mul] at *
    exact this
  refine ⟨_, _, _, svd_perm A _ _ _ h0 σ, ⟨?_, ?_⟩, ![-1, 1, 1] ∘ σ, fun i => ?_, perm _ m0, perm _ mW⟩
  · have := hmono (show (0 : Fin 3) ≤ 1 by decide)
    exact neg_le_neg_iff.1 this
  · have := hmono (show (1 : Fin 3) ≤ 2 by decide)
    exact neg_le_neg_iff.1 this
  · simp only [Function.comp_apply]
    generalize σ i = k
    fin_cases k <;> norm_num

/-- A matrix and its mirror image. -/
def reflSetoid : Setoid M3 where
  r A B := B = A ∨ B = reflM * A * reflM
  iseqv := by
    refine ⟨fun A => Or.inl rfl, ?_, ?_⟩
    · rintro A B (rfl | rfl)
      · exact Or.inl rfl
      · exact Or.inr (refl_refl A).symm
    · rintro A B C (rfl | rfl) (rfl | rfl)
      · exact Or.inl rfl
      · exact Or.inr rfl
      · exact Or.inr rfl
      · exact Or.inl (refl_refl A)

/-- **There is a decomposition with descending singular values that respects the mirror.** -/
theorem mirror_svd_exists : ∃ svd : M3 → M3 × V3 × M3, (∀ A, (IsSVD A (svd A).1 (svd A).2.2 (svd A).2.1 ∧ Sorted (svd A).2.1)) ∧
    ∀ A, ∃ δ : V3, (∀ i, δ i * δ i = 1) ∧
      svd (reflM * A * reflM) = (reflM * (svd A).1 * Matrix.diagonal δ, (svd A).2.1, reflM * (svd A).2.2 * Matrix.diagonal δ) := by
  have one : ∀ i : Fin 3, (1 : V3) i * (1 : V3) i = 1 := fun i => by simp
  have d1 : Matrix.diagonal (1 : V3) = 1 := Matrix.diagonal_one
  -- the mirror image of a decomposition
  let turn : M3 × V3 × M3 → M3 × V3 × M3 := fun d => (reflM * d.1, d.2.1, reflM * d.2.2)
  have hturn : ∀ (B : M3) (d : M3 × V3 × M3), (IsSVD B d.1 d.2.2 d.2.1 ∧ Sorted d.2.1) →
      IsSVD (reflM * B * reflM) (turn d).1 (turn d).2.2 (turn d).2.1 ∧ Sorted (turn d).2.1 := by
    rintro B ⟨U, s, W⟩ ⟨⟨h1, h2, h3, h4⟩, h5⟩
    have orth : ∀ U : M3, U.transpose * U = 1 → (reflM * U).transpose * (reflM * U) = 1 := fun U hU => by
      rw [Matrix.transpose_mul, reflM_t, Matrix.mul_assoc, ← Matrix.mul_assoc reflM, reflM_sq, Matrix.one_mul, hU]
    refine ⟨⟨orth U h1, orth W h2, h3, ?_⟩, h5⟩
    simp only at h4
    rw [h4]
    simp only [turn, Matrix.transpose_mul, reflM_t, Matrix.mul_assoc]
  have hsv : ∀ A : M3, ∃ d : M3 × V3 × M3, IsSVD A d.1 d.2.2 d.2.1 ∧ Sorted d.2.1 := fun A => by
    obtain ⟨U, W, s, h, o⟩ := svd_exists A
    exact ⟨(U, s, W), h, o⟩
  choose sv hsv using hsv
  have hsy : ∀ A : M3, reflM * A * reflM = A → ∃ d : M3 × V3 × M3, (IsSVD A d.1 d.2.2 d.2.1 ∧ Sorted d.2.1) ∧
      ∃ δ : V3, (∀ i, δ i * δ i = 1) ∧ reflM * d.1 = d.1 * Matrix.diagonal δ ∧ reflM * d.2.2 = d.2.2 * Matrix.diagonal δ :=
    fun A hA => by
      obtain ⟨U, W, s, h, o, r⟩ := svd_refl A hA
      exact ⟨(U, s, W), ⟨h, o⟩, r⟩
  let rep : M3 → M3 := fun A => (Quotient.mk reflSetoid A).out
  have hrep : ∀ A, A = rep A ∨ A = reflM * rep A * reflM := fun A => Quotient.mk_out (s := reflSetoid) A
  have hrep' : ∀ A, rep (reflM * A * reflM) = rep A := fun A => by
    have : Quotient.mk reflSetoid (reflM * A * reflM) = Quotient.mk reflSetoid A :=
      Quotient.sound (s := reflSetoid) (show A = reflM * A * reflM ∨ A = reflM * (reflM * A * reflM) * reflM from
        Or.inr (refl_refl A).symm)
    simp only [rep, this]
  classical
  let svd : M3 → M3 × V3 × M3 := fun A =>
    if h : reflM * A * reflM = A then (hsy A h).choose
    else if A = rep A then sv A else turn (sv (rep A))
  refine ⟨svd, fun A => ?_, fun A => ?_⟩
  · simp only [svd]
    split_ifs with h1 h2
    · exact (hsy A h1).choose_spec.1
    · exact hsv A
    · have e := (hrep A).resolve_left h2
      have := hturn _ _ (hsv (rep A))
      rw [← e] at this
      exact this
  · by_cases h1 : reflM * A * reflM = A
    · rw [h1]
      have e : svd A = (hsy A h1).choose := dif_pos h1
      obtain ⟨-, δ, k1, k2, k3⟩ := (hsy A h1).choose_spec
      rw [← e] at k2 k3
      refine ⟨δ, k1, ?_⟩
      have sq : Matrix.diagonal δ * Matrix.diagonal δ = 1 := by
        rw [Matrix.diagonal_mul_diagonal]
        simp only [k1]
        exact Matrix.diagonal_one
      rw [k2, k3, Matrix.mul_assoc, Matrix.mul_assoc, sq, Matrix.mul_one, Matrix.mul_one]
    · refine ⟨1, one, ?_⟩
      rw [d1, Matrix.mul_one, Matrix.mul_one]
      change svd (reflM * A * reflM) = turn (svd A)
      have h1' : ¬ reflM * (reflM * A * reflM) * reflM = reflM * A * reflM := by
        rw [refl_refl]
        exact fun h => h1 h.symm
      have tt : ∀ d, turn (turn d) = d := fun d => by
        simp only [turn, ← Matrix.mul_assoc, reflM_sq, Matrix.one_mul]
      by_cases h2 : A = rep A
      · have e1 : svd A = sv A := by simp only [svd]; rw [dif_neg h1, if_pos h2]
        have e2 : svd (reflM * A * reflM) = turn (sv (rep A)) := by
          simp only [svd]
          rw [dif_neg h1', hrep', if_neg (by rw [← h2]; exact h1)]
        rw [e1, e2, ← h2]
      · have e := (hrep A).resolve_left h2
        have e0 : reflM * A * reflM = rep A := by
          conv_lhs => rw [e]
          exact refl_refl _
        have e1 : svd A = turn (sv (rep A)) := by simp only [svd]; rw [dif_neg h1, if_neg h2]
        have e2 : svd (reflM * A * reflM) = sv (reflM * A * reflM) := by
          simp only [svd]
          rw [dif_neg h1', hrep', if_pos e0]
        rw [e1, e2, tt, e0]

end

end Verif.Rot
