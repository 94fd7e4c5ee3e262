import Verif.Legendre.Series
import Mathlib.Analysis.SpecialFunctions.Integrals.Basic
import Mathlib.MeasureTheory.Integral.IntervalIntegral.FundThmCalculus
import Mathlib.Topology.Algebra.Polynomial

/-!
# Orthogonality of the Legendre polynomials
-/

namespace Verif.Legendre

open Polynomial intervalIntegral

theorem P_one (k : Nat) : (P (K := ℝ) k).eval 1 = 1 ∧ (P (K := ℝ) (k + 1)).eval 1 = 1 := by
  induction k with
  | zero => simp [P]
  | succ k ih =>
    refine ⟨ih.2, ?_⟩
    have hb := bonnet_eval (K := ℝ) k 1
    rw [ih.1, ih.2] at hb
    have h : ((k : ℝ) + 2) ≠ 0 := by positivity
    apply mul_left_cancel₀ h
    linarith

theorem P_neg (k : Nat) (x : ℝ) : (P k).eval (-x) = (-1) ^ k * (P k).eval x ∧
    (P (k + 1)).eval (-x) = (-1) ^ (k + 1) * (P (k + 1)).eval x := by
  induction k with
  | zero => simp [P]
  | succ k ih =>
    refine ⟨ih.2, ?_⟩
    have hb := bonnet_eval (K := ℝ) k x
    have hb' := bonnet_eval (K := ℝ) k (-x)
    rw [ih.1, ih.2] at hb'
    have h : ((k : ℝ) + 2) ≠ 0 := by positivity
    apply mul_left_cancel₀ h
    rw [pow_succ, pow_succ] at *
    linear_combination hb' - (-1) ^ k * hb

/-- Degree at most `k`, with a positive coefficient at `k`. -/
theorem P_deg (k : Nat) : ((P (K := ℝ) k).natDegree ≤ k ∧ 0 < (P (K := ℝ) k).coeff k) ∧
    ((P (K := ℝ) (k + 1)).natDegree ≤ k + 1 ∧ 0 < (P (K := ℝ) (k + 1)).coeff (k + 1)) := by
  induction k with
  | zero => simp [P]
  | succ k ih =>
    refine ⟨ih.2, ?_, ?_⟩
    · rw [P]
      refine (natDegree_C_mul_le _ _).trans ((natDegree_sub_le _ _).trans (max_le ?_ ?_))
      · rw [mul_assoc]
        refine (natDegree_C_mul_le _ _).trans (natDegree_mul_le.trans ?_)
        rw [natDegree_X]; have := ih.2.1; omega
      · exact (natDegree_C_mul_le _ _).trans (by have := ih.1.1; omega)
    · rw [P, coeff_C_mul, coeff_sub, mul_assoc, coeff_C_mul, coeff_C_mul]
      rw [show k + 1 + 1 = (k + 1) + 1 from rfl, coeff_X_mul,
        coeff_eq_zero_of_natDegree_lt (lt_of_le_of_lt ih.1.1 (by omega)), mul_zero, sub_zero]
      have := ih.2.2
      positivity

/-- The integral of a polynomial over [-1, 1]. -/
noncomputable def I (f : ℝ[X]) : ℝ := ∫ x in (-1 : ℝ)..1, f.eval x

theorem poly_integrable (f : ℝ[X]) (a b : ℝ) :
    IntervalIntegrable (fun x => f.eval x) MeasureTheory.volume a b :=
  (f.continuous).intervalIntegrable a b

theorem I_add (f g : ℝ[X]) : I (f + g) = I f + I g := by
  unfold I
  rw [← integral_add (poly_integrable f _ _) (poly_integrable g _ _)]
  simp

theorem I_C_mul (a : ℝ) (f : ℝ[X]) : I (C a * f) = a * I f := by
  unfold I
  rw [← integral_const_mul]
  simp

theorem I_sub (f g : ℝ[X]) : I (f - g) = I f - I g := by
  rw [show f - g = f + C (-1) * g by simp [sub_eq_add_neg], I_add, I_C_mul]; ring

theorem I_zero : I 0 = 0 := by simp [I]

theorem I_sum {ι : Type} (s : Finset ι) (f : ι → ℝ[X]) : I (∑ i ∈ s, f i) = ∑ i ∈ s, I (f i) := by
  classical
  induction s using Finset.induction_on with
  | empty => simp [I_zero]
  | insert a s ha ih => rw [Finset.sum_insert ha, Finset.sum_insert ha, I_add, ih]

theorem integral_derivative (f : ℝ[X]) (a b : ℝ) :
    ∫ x in a..b, (derivative f).eval x = f.eval b - f.eval a :=
  integral_eq_sub_of_hasDerivAt (fun x _ => f.hasDerivAt x) (poly_integrable _ a b)

theorem I_P (k : Nat) : I (P (k + 1)) = 0 := by
  have h := legendre_deriv (K := ℝ) k
  have h2 : C (2 * (k : ℝ) + 3) * P (k + 1) = derivative (P (k + 2) - P k) := by
    rw [derivative_sub, h]; ring
  have h3 : I (C (2 * (k : ℝ) + 3) * P (k + 1)) = 0 := by
    rw [h2]; unfold I
    rw [integral_derivative]
    simp only [eval_sub]
    rw [(P_one (k + 1)).2, (P_one k).1]
    have a := (P_neg (k + 1) 1).2
    have b := (P_neg k 1).1
    rw [(P_one (k + 1)).2] at a
    rw [(P_one k).1] at b
    rw [a, b, pow_succ, pow_succ]; ring
  rw [I_C_mul] at h3
  exact (mul_eq_zero.1 h3).resolve_left (by positivity)

theorem orth_aux (m : Nat) : (∀ n, m < n → I (P n * P m) = 0) ∧
    (∀ n, m + 1 < n → I (P n * P (m + 1)) = 0) := by
  induction m with
  | zero =>
    have h0 : ∀ n, 0 < n → I (P n * P 0) = 0 := by
      intro n hn
      obtain ⟨k, rfl⟩ : ∃ k, n = k + 1 := ⟨n - 1, by omega⟩
      rw [P, mul_one]; exact I_P k
    refine ⟨h0, fun n hn => ?_⟩
    obtain ⟨k, rfl⟩ : ∃ k, n = k + 2 := ⟨n - 2, by omega⟩
    -- X P_{k+2} from the recurrence at k+1
    have hb := bonnet (K := ℝ) (k + 1)
    have e : I (C (2 * ((k + 1 : Nat) : ℝ) + 3) * (P (k + 2) * P 1)) = 0 := by
      have : C (2 * ((k + 1 : Nat) : ℝ) + 3) * (P (k + 2) * P 1) =
          C (((k + 1 : Nat) : ℝ) + 2) * P (k + 3) + C (((k + 1 : Nat) : ℝ) + 1) * P (k + 1) := by
        rw [hb]; simp only [P]; ring
      rw [this, I_add, I_C_mul, I_C_mul, I_P, I_P]; ring
    rw [I_C_mul] at e
    exact (mul_eq_zero.1 e).resolve_left (by positivity)
  | succ m ih =>
    refine ⟨ih.2, fun n hn => ?_⟩
    obtain ⟨k, rfl⟩ : ∃ k, n = k + 2 := ⟨n - 2, by omega⟩
    have hb := bonnet (K := ℝ) (k + 1)
    have hm := bonnet (K := ℝ) m
    have e1 : I (C (2 * ((k + 1 : Nat) : ℝ) + 3) * (X * P (k + 2) * P (m + 1))) = 0 := by
      have : C (2 * ((k + 1 : Nat) : ℝ) + 3) * (X * P (k + 2) * P (m + 1)) =
          C (((k + 1 : Nat) : ℝ) + 2) * (P (k + 3) * P (m + 1)) +
            C (((k + 1 : Nat) : ℝ) + 1) * (P (k + 1) * P (m + 1)) := by
        linear_combination (-P (m + 1)) * hb
      rw [this, I_add, I_C_mul, I_C_mul, ih.2 _ (by omega), ih.2 _ (by omega)]; ring
    rw [I_C_mul] at e1
    have e1 := (mul_eq_zero.1 e1).resolve_left (by positivity)
    have e2 : I (C ((m : ℝ) + 2) * (P (k + 2) * P (m + 2))) = 0 := by
      have : C ((m : ℝ) + 2) * (P (k + 2) * P (m + 2)) =
          C (2 * (m : ℝ) + 3) * (X * P (k + 2) * P (m + 1)) -
            C ((m : ℝ) + 1) * (P (k + 2) * P m) := by
        linear_combination P (k + 2) * hm
      rw [this, I_sub, I_C_mul, I_C_mul, e1, ih.1 _ (by omega)]; ring
    rw [I_C_mul] at e2
    exact (mul_eq_zero.1 e2).resolve_left (by positivity)

/-- Orthogonality to every polynomial of smaller degree. -/
theorem orth (n : Nat) (f : ℝ[X]) (hf : f.degree < n) : I (P n * f) = 0 := by
  -- by strong induction on a degree bound: subtract a multiple of P
  have key : ∀ d, ∀ f : ℝ[X], d ≤ n → f.degree < d → I (P n * f) = 0 := by
    intro d
    induction d with
    | zero =>
      intro f _ hf
      have : f = 0 := by
        rw [← degree_eq_bot]
        by_contra h
        have := natDegree_lt_iff_degree_lt (p := f) (n := 0) (fun h' => h (by rw [h', degree_zero]))
        exact absurd (this.2 hf) (by omega)
      rw [this, mul_zero, I_zero]
    | succ d ih =>
      intro f hd hf
      have hP := (P_deg d).1
      set a := f.coeff d / (P (K := ℝ) d).coeff d with ha
      have hg : (f - C a * P d).degree < (d : WithBot ℕ) := by
        rw [degree_lt_iff_coeff_zero]
        intro m hm
        rw [coeff_sub, coeff_C_mul]
        rcases Nat.lt_or_ge d m with h | h
        · rw [coeff_eq_zero_of_degree_lt (lt_of_lt_of_le hf (by exact_mod_cast h)),
            coeff_eq_zero_of_natDegree_lt (lt_of_le_of_lt hP.1 h)]; ring
        · have : m = d := le_antisymm h hm
          subst this
          rw [ha, div_mul_cancel₀ _ hP.2.ne']; ring
      have h1 := ih _ (by omega) hg
      have h2 : I (P n * P d) = 0 := (orth_aux d).1 n (by omega)
      have : P n * f = P n * (f - C a * P d) + C a * (P n * P d) := by ring
      rw [this, I_add, I_C_mul, h1, h2]; ring
  exact key n f le_rfl hf

theorem I_sq_pos (f : ℝ[X]) (hf : f ≠ 0) : 0 < I (f * f) := by
  unfold I
  have hc : Continuous fun x : ℝ => (f * f).eval x := (f * f).continuous
  have h0 : ∃ c ∈ Set.Icc (-1 : ℝ) 1, 0 < (f * f).eval c := by
    by_contra h
    push Not at h
    apply hf
    apply eq_zero_of_infinite_isRoot f
    refine (Set.Icc_infinite (show (-1 : ℝ) < 1 by norm_num)).mono fun x hx => ?_
    have := h x hx
    rw [eval_mul] at this
    exact mul_self_eq_zero.1 (le_antisymm this (mul_self_nonneg _))
  exact integral_pos (by norm_num) hc.continuousOn
    (fun x _ => by rw [eval_mul]; exact mul_self_nonneg _) h0

end Verif.Legendre
