import Verif.Weno.Lemmas

/-!
# The oscillation indicator (C21)
-/

namespace Verif.Weno

open Verif.Poly Verif.Basis Polynomial

variable {n : Nat} {x : Fin n → ℝ} {psi : Fin n → List ℝ}

theorem osc_step (h : IsBasis x psi) (i j : Fin n) (ret : ℝ) (a : Nat) (ha : a < n) :
    oscStep psi i j ret a = some (ret + ∫ t in (0 : ℝ)..1,
      (derivative^[a] (den (psi i))).eval t * (derivative^[a] (den (psi j))).eval t) := by
  obtain ⟨p, e1, l1, d1⟩ := (diff_iterate a (psi i)).1 (by rw [(h.den_eq i).2]; omega)
  obtain ⟨q, e2, l2, d2⟩ := (diff_iterate a (psi j)).1 (by rw [(h.den_eq j).2]; omega)
  rw [(h.den_eq i).2] at l1
  obtain ⟨r, e3, -, d3⟩ := multiply_spec p q (by omega)
  unfold oscStep
  simp only [e1, e2, e3, Option.bind_eq_bind, Option.bind_some]
  congr 2
  rw [evaluate_den, evaluate_den, ← Verif.Legendre.integral_derivative, integrate_den, d3, d1, d2]
  simp only [eval_mul]

theorem osc_fold (h : IsBasis x psi) (i j : Fin n) (g : ℝ) (m : Nat) (hm : m < n) :
    ((List.range m).map (· + 1)).foldlM (oscStep psi i j) g = some (g + ∑ a ∈ Finset.range m,
      ∫ t in (0 : ℝ)..1, (derivative^[a + 1] (den (psi i))).eval t *
        (derivative^[a + 1] (den (psi j))).eval t) := by
  induction m with
  | zero => simp
  | succ m ih =>
    rw [List.range_succ, List.map_append, List.foldlM_append, ih (by omega), Finset.sum_range_succ,
      ← add_assoc]
    simp only [List.map_cons, List.map_nil, List.foldlM_cons, List.foldlM_nil, Option.bind_eq_bind,
      Option.bind_some]
    rw [osc_step h i j _ (m + 1) hm]
    rfl

/-- C21: the indicator is the Gram matrix of all derivatives of the basis — plus whatever the
uninitialised matrix held. -/
theorem oscillation_gram (h : IsBasis x psi) (hn : 0 < n) (garbage : Matrix (Fin n) (Fin n) ℝ)
    (i j : Fin n) : oscillationIndicator garbage psi i j = some (garbage i j +
      ∑ a ∈ Finset.Ico 1 n, ∫ t in (0 : ℝ)..1,
        (derivative^[a] (den (psi i))).eval t * (derivative^[a] (den (psi j))).eval t) := by
  unfold oscillationIndicator
  rw [osc_fold h i j _ (n - 1) (by omega), Finset.sum_Ico_eq_sum_range]
  simp only [Nat.add_comm 1]

/-- Starting from zeroed memory the quadratic form is the sum of the squared `L²` norms of the
derivatives of the reconstructed polynomial, hence non-negative. -/
theorem oscillation_form (h : IsBasis x psi) (hn : 0 < n) (sig : Matrix (Fin n) (Fin n) ℝ)
    (hs : ∀ i j, oscillationIndicator 0 psi i j = some (sig i j)) (w : Fin n → ℝ) :
    w ⬝ᵥ (sig.mulVec w) = ∑ a ∈ Finset.Ico 1 n, ∫ t in (0 : ℝ)..1,
      ((derivative^[a] (∑ j, C (w j) * den (psi j))).eval t) ^ 2 ∧ 0 ≤ w ⬝ᵥ (sig.mulVec w) := by
  have e : w ⬝ᵥ (sig.mulVec w) = ∑ a ∈ Finset.Ico 1 n, ∫ t in (0 : ℝ)..1,
      ((derivative^[a] (∑ j, C (w j) * den (psi j))).eval t) ^ 2 := by
    have hsig : ∀ i j, sig i j = ∑ a ∈ Finset.Ico 1 n, ∫ t in (0 : ℝ)..1,
        (derivative^[a] (den (psi i))).eval t * (derivative^[a] (den (psi j))).eval t := by
      intro i j
      have := hs i j
      rw [oscillation_gram h hn] at this
      rw [← Option.some.inj this]; simp
    have hsq : ∀ a, ∫ t in (0 : ℝ)..1, ((derivative^[a] (∑ j, C (w j) * den (psi j))).eval t) ^ 2 =
        ∑ i, ∑ j, w i * (w j * ∫ t in (0 : ℝ)..1,
          (derivative^[a] (den (psi i))).eval t * (derivative^[a] (den (psi j))).eval t) := by
      intro a
      have hp : ∀ t : ℝ, ((derivative^[a] (∑ j, C (w j) * den (psi j))).eval t) ^ 2 =
          ∑ i, ∑ j, w i * (w j * ((derivative^[a] (den (psi i))).eval t *
            (derivative^[a] (den (psi j))).eval t)) := by
        intro t
        rw [iterate_derivative_sum, eval_finsetSum, sq, Finset.sum_mul_sum]
        refine Finset.sum_congr rfl fun i _ => Finset.sum_congr rfl fun j _ => ?_
        rw [iterate_derivative_C_mul, iterate_derivative_C_mul, eval_mul, eval_mul, eval_C, eval_C]
        ring
      simp only [hp]
      have hint : ∀ i j, IntervalIntegrable (fun t => w i * (w j *
          ((derivative^[a] (den (psi i))).eval t * (derivative^[a] (den (psi j))).eval t)))
          MeasureTheory.volume 0 1 := fun i j =>
        Continuous.intervalIntegrable (by
          have h1 := (derivative^[a] (den (psi i))).continuous
          have h2 := (derivative^[a] (den (psi j))).continuous
          fun_prop) _ _
      rw [intervalIntegral.integral_finsetSum]
      · refine Finset.sum_congr rfl fun i _ => ?_
        rw [intervalIntegral.integral_finsetSum]
        · refine Finset.sum_congr rfl fun j _ => ?_
          rw [intervalIntegral.integral_const_mul, intervalIntegral.integral_const_mul]
        · intro j _; exact hint i j
      · intro i _
        have hc := fun j => (derivative^[a] (den (psi j))).continuous
        exact Continuous.intervalIntegrable (by fun_prop) _ _
    simp only [hsq]
    rw [Finset.sum_comm]
    simp only [dotProduct, Matrix.mulVec_eq_sum, Finset.sum_apply, Pi.smul_apply, MulOpposite.smul_eq_mul_unop, MulOpposite.unop_op, Matrix.transpose_apply]
    refine Finset.sum_congr rfl fun i _ => ?_
    rw [Finset.mul_sum, Finset.sum_comm]
    refine Finset.sum_congr rfl fun j _ => ?_
    rw [hsig, ← Finset.mul_sum, ← Finset.mul_sum]; ring
  refine ⟨e, ?_⟩
  rw [e]
  exact Finset.sum_nonneg fun a _ =>
    intervalIntegral.integral_nonneg (by norm_num) fun t _ => sq_nonneg _

/-- The full claim of C21 is false of the code: for some content of the uninitialised matrix the
denominator of a weight is zero. -/
theorem oscillation_garbage (h : IsBasis x psi) (hn : 0 < n) (eps : ℝ) :
    ∃ (garbage sig : Matrix (Fin n) (Fin n) ℝ) (w : Fin n → ℝ),
      (∀ i j, oscillationIndicator garbage psi i j = some (sig i j)) ∧
      w ⬝ᵥ (sig.mulVec w) + eps = 0 := by
  refine ⟨Matrix.of fun i j => (if i = j then -eps else 0) - ∑ a ∈ Finset.Ico 1 n, ∫ t in (0 : ℝ)..1,
        (derivative^[a] (den (psi i))).eval t * (derivative^[a] (den (psi j))).eval t,
    Matrix.of fun i j => if i = j then -eps else 0, fun i => if i = ⟨0, hn⟩ then 1 else 0, ?_, ?_⟩
  · intro i j
    rw [oscillation_gram h hn]; simp
  · simp [dotProduct, Matrix.mulVec]

end Verif.Weno
