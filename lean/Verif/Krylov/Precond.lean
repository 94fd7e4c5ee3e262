import Verif.Krylov.Exist

/-!
# `lgmres_wrapper`: a matrix and a preconditioner
-/

namespace Verif.Krylov

noncomputable section

attribute [local instance] Classical.propDecidable

open scoped RealInnerProductSpace

variable {E : Type*} [NormedAddCommGroup E] [InnerProductSpace ℝ E]
variable {qr : Nat → Nat → (Nat → Nat → ℝ) → (Nat → Nat → ℝ) × (Nat → Nat → ℝ)}
variable {lsq : Nat → (Nat → Nat → ℝ) → (Nat → ℝ) → Nat → ℝ}

/-- `lgmres_wrapper`, lgmres.cpp:106-127.  `M = none` is a preconditioner without entries, `x0 = none` a starting vector
without entries.  `A` and `M` are applied by `System::call` and `System::prec`, lgmres.h:12-13. -/
def lgmresWrapper (qr : Nat → Nat → (Nat → Nat → ℝ) → (Nat → Nat → ℝ) × (Nat → Nat → ℝ))
    (lsq : Nat → (Nat → Nat → ℝ) → (Nat → ℝ) → Nat → ℝ) (junk : E) (mEPS : ℝ) (A : E →ₗ[ℝ] E) (b : E) (x0 : Option E)
    (M : Option (E →ₗ[ℝ] E)) (tol : ℝ) (maxiter innerM outerK : Nat) (outer : List E) : E × List E :=
  lgmres qr lsq A (M.getD LinearMap.id) junk mEPS tol innerM outerK b maxiter (x0.getD 0, outer)

theorem pass_precond (A M : E →ₗ[ℝ] E) (junk : E) (mEPS tol res0 : ℝ) (outer : List E) (j : Nat) (s : Arn E) :
    pass qr A M junk mEPS tol res0 outer j s = pass qr (M ∘ₗ A) (fun v => v) junk mEPS tol res0 outer j s := rfl

theorem inner_precond (A M : E →ₗ[ℝ] E) (junk : E) (mEPS tol res0 : ℝ) (outer : List E) (k : Nat) : ∀ (j : Nat) (s : Arn E),
    inner qr A M junk mEPS tol res0 outer k j s = inner qr (M ∘ₗ A) (fun v => v) junk mEPS tol res0 outer k j s := by
  induction k with
  | zero => intro j s; rfl
  | succ k ih =>
    intro j s
    unfold inner
    simp only [pass_precond, ih]

/-- A pass with a preconditioner is a pass without one for the preconditioned system. -/
theorem outerPass_precond (A M : E →ₗ[ℝ] E) (junk : E) (mEPS tol : ℝ) (innerM outerK : Nat) (b : E) (s : E × List E) :
    outerPass qr lsq A M junk mEPS tol innerM outerK b s =
      outerPass qr lsq (M ∘ₗ A) (fun v => v) junk mEPS tol innerM outerK (M b) s := by
  have e : M (A s.1 - b) = (M ∘ₗ A) s.1 - M b := map_sub _ _ _
  unfold outerPass
  simp only [inner_precond, e]

/-- **C75.** With a regular preconditioner the residual that does not grow is the preconditioned one. -/
theorem precond_decreases (hqr : IsQR qr) (hl : IsLsq lsq) (A M : E →ₗ[ℝ] E) (hM : Function.Injective M) (junk : E)
    (mEPS tol : ℝ) (hm : 0 ≤ mEPS) (ht : 0 ≤ tol) (innerM outerK : Nat) (b : E) (k : Nat) : ∀ s : E × List E,
    ‖M (b - A (lgmres qr lsq A M junk mEPS tol innerM outerK b k s).1)‖ ≤ ‖M (b - A s.1)‖ := by
  induction k with
  | zero => intro s; exact le_rfl
  | succ k ih =>
    intro s
    rw [lgmres]
    generalize (if ‖b‖ = 0 then 1 else ‖b‖) = bn
    by_cases h : ‖A s.1 - b‖ ≤ tol * bn ∨ ‖A s.1 - b‖ ≤ tol
    · rw [if_pos h]
    · rw [if_neg h]
      refine (ih _).trans ?_
      have hr : (M ∘ₗ A) s.1 ≠ M b := by
        intro h'
        apply h
        right
        rw [hM h', sub_self, norm_zero]
        exact ht
      have := pass_optimal hqr hl (M ∘ₗ A) junk mEPS tol hm innerM outerK (M b) s hr fun _ => 0
      rw [outerPass_precond, map_sub, map_sub]
      simpa using this

/-- **C75.** A regular system with at most `inner_m` unknowns and a regular preconditioner: the result of `lgmres_wrapper` from
its default starting vector meets the tolerance, or its preconditioned residual is below the tolerance relative to that of the
right-hand side, unless the breakdown threshold was met. -/
theorem wrapper_small [FiniteDimensional ℝ E] (hqr : IsQR qr) (hl : IsLsq lsq) (A M : E →ₗ[ℝ] E) (hA : Function.Injective A)
    (hM : Function.Injective M) (junk : E) (mEPS tol : ℝ) (hm : 0 ≤ mEPS) (ht : 0 ≤ tol) (maxiter innerM outerK : Nat)
    (hk : 1 ≤ maxiter) (hdim : Module.finrank ℝ E ≤ innerM) (b : E) :
    ‖b‖ ≤ tol * (if ‖b‖ = 0 then 1 else ‖b‖) ∨ ‖b‖ ≤ tol ∨
    ‖M (b - A (lgmresWrapper qr lsq junk mEPS A b none (some M) tol maxiter innerM outerK []).1)‖ ≤ tol * ‖M b‖ ∨
      Breakdown (M ∘ₗ A) mEPS (M b) := by
  obtain ⟨k, rfl⟩ := Nat.exists_eq_add_of_le' hk
  unfold lgmresWrapper
  rw [lgmres]
  simp only [Option.getD_none, Option.getD_some, map_zero, zero_sub, norm_neg]
  generalize (if ‖b‖ = 0 then 1 else ‖b‖) = bn
  by_cases h1 : ‖b‖ ≤ tol * bn
  · exact Or.inl h1
  by_cases h2 : ‖b‖ ≤ tol
  · exact Or.inr (Or.inl h2)
  right; right
  rw [if_neg (not_or.2 ⟨h1, h2⟩)]
  have hb : (M ∘ₗ A) 0 ≠ M b := by
    rw [map_zero]
    intro h0
    rw [← map_zero M] at h0
    rw [← hM h0, norm_zero] at h2
    exact h2 ht
  have key := pass_small hqr hl (M ∘ₗ A) (hM.comp hA) junk mEPS tol hm ht innerM outerK hdim (M b) 0 hb
  rw [map_zero, sub_zero] at key
  refine key.imp_left fun h => (precond_decreases hqr hl A M hM junk mEPS tol hm ht innerM outerK b k _).trans ?_
  rw [outerPass_precond, map_sub]
  exact h

/-- Without a preconditioner the residual itself does not grow. -/
theorem wrapper_decreases (hqr : IsQR qr) (hl : IsLsq lsq) (A : E →ₗ[ℝ] E) (junk : E) (mEPS tol : ℝ) (hm : 0 ≤ mEPS)
    (ht : 0 ≤ tol) (maxiter innerM outerK : Nat) (b : E) (x0 : Option E) (outer : List E) :
    ‖b - A (lgmresWrapper qr lsq junk mEPS A b x0 none tol maxiter innerM outerK outer).1‖ ≤ ‖b - A (x0.getD 0)‖ :=
  lgmres_decreases hqr hl A junk mEPS tol hm ht innerM outerK b maxiter (x0.getD 0, outer)

/-- At most `outer_k` vectors are handed on, if no more were given. -/
theorem kept (A M : E → E) (junk : E) (mEPS tol : ℝ) (innerM outerK : Nat) (b : E) (k : Nat) : ∀ s : E × List E,
    s.2.length ≤ outerK → (lgmres qr lsq A M junk mEPS tol innerM outerK b k s).2.length ≤ outerK := by
  induction k with
  | zero => intro s h; exact h
  | succ k ih =>
    intro s h
    rw [lgmres]
    generalize (if ‖b‖ = 0 then 1 else ‖b‖) = bn
    by_cases h' : ‖A s.1 - b‖ ≤ tol * bn ∨ ‖A s.1 - b‖ ≤ tol
    · rw [if_pos h']; exact h
    · rw [if_neg h']
      apply ih
      unfold outerPass
      simp only [List.length_drop]
      omega

theorem sample_injective (a b d : ℝ) (ha : a ≠ 0) (hd : d ≠ 0) :
    Function.Injective (Matrix.toEuclideanLin !![a, b; 0, d] : EuclideanSpace ℝ (Fin 2) →ₗ[ℝ] EuclideanSpace ℝ (Fin 2)) := by
  rw [injective_iff_map_eq_zero]
  intro v hv
  have h0 := congrArg (fun w : EuclideanSpace ℝ (Fin 2) => w 0) hv
  have h1 := congrArg (fun w : EuclideanSpace ℝ (Fin 2) => w 1) hv
  simp [Matrix.toEuclideanLin, Matrix.mulVec, dotProduct, Fin.sum_univ_two, hd] at h0 h1
  ext i
  fin_cases i
  · simp only [h1] at h0; simpa [ha] using h0
  · simpa using h1

/-- The hypotheses hold for two unknowns and a preconditioner that is neither symmetric nor the inverse. -/
example : ∃ qr lsq, IsQR qr ∧ IsLsq lsq ∧ ∀ junk b : EuclideanSpace ℝ (Fin 2), 1 < ‖b‖ →
    ‖(Matrix.toEuclideanLin !![2, 1; 0, 1]) (b - Matrix.toEuclideanLin !![1, 2; 0, 3]
      (lgmresWrapper qr lsq junk 0 (Matrix.toEuclideanLin !![1, 2; 0, 3]) b none (some (Matrix.toEuclideanLin !![2, 1; 0, 1]))
        (1 / 1000) 1000 30 3 []).1)‖ ≤ 1 / 1000 * ‖(Matrix.toEuclideanLin !![2, 1; 0, 1]) b‖ := by
  obtain ⟨qr, hqr⟩ := isQR_exists
  obtain ⟨lsq, hl⟩ := isLsq_exists
  refine ⟨qr, lsq, hqr, hl, fun junk b hb => ?_⟩
  rcases wrapper_small hqr hl _ _ (sample_injective 1 2 3 one_ne_zero three_ne_zero) (sample_injective 2 1 1 two_ne_zero one_ne_zero)
    junk 0 (1 / 1000) le_rfl (by norm_num) 1000 30 3 (by norm_num) (by simp) b with h | h | h | h
  · rw [if_neg (by linarith)] at h
    nlinarith
  · norm_num at h
    linarith
  · exact h
  · exact absurd h (no_breakdown _ _)

end

end Verif.Krylov
