import Verif.Legendre.Orth
import Mathlib.LinearAlgebra.Lagrange

/-!
# Gauss quadrature on the roots of `P n`
-/

namespace Verif.Legendre

open Polynomial

/-- `n ≥ 1` distinct roots of `P n`. -/
structure Roots {n : Nat} (x : Fin n → ℝ) : Prop where
  pos : 0 < n
  inj : Function.Injective x
  root : ∀ k, (P n).eval (x k) = 0

/-- The interpolatory weight. -/
noncomputable def lam {n : Nat} (x : Fin n → ℝ) (k : Fin n) : ℝ := I (Lagrange.basis Finset.univ x k)

variable {n : Nat} {x : Fin n → ℝ}

theorem interp_exact (h : Roots x) (f : ℝ[X]) (hf : f.degree < n) :
    I f = ∑ k, lam x k * f.eval (x k) := by
  have e := Lagrange.eq_interpolate (s := Finset.univ) (v := x) (h.inj.injOn) (by simpa using hf)
  conv_lhs => rw [e]
  rw [Lagrange.interpolate_apply, I_sum]
  refine Finset.sum_congr rfl fun k _ => ?_
  rw [I_C_mul, mul_comm]; rfl

theorem P_ne_zero (n : Nat) : P (K := ℝ) n ≠ 0 := by
  intro h
  have := (P_deg n).1.2
  rw [h, coeff_zero] at this
  exact lt_irrefl _ this

theorem P_degree (n : Nat) : (P (K := ℝ) n).degree = n := by
  have h := (P_deg n).1
  refine le_antisymm (natDegree_le_iff_degree_le.1 h.1) ?_
  exact le_degree_of_ne_zero h.2.ne'

/-- Exactness for all polynomials of degree `< 2n`. -/
theorem gauss_exact (h : Roots x) (f : ℝ[X]) (hf : f.degree < (2 * n : Nat)) :
    I f = ∑ k, lam x k * f.eval (x k) := by
  have hdm := EuclideanDomain.div_add_mod f (P n)
  have hr : (f % P n).degree < (P (K := ℝ) n).degree := EuclideanDomain.mod_lt _ (P_ne_zero n)
  rw [P_degree] at hr
  have hq : (f / P n).degree < (n : WithBot ℕ) := by
    by_contra hc
    push Not at hc
    have h1 : ((2 * n : Nat) : WithBot ℕ) ≤ (P n * (f / P n)).degree := by
      rw [degree_mul, P_degree, show 2 * n = n + n by omega]
      push_cast
      gcongr
    have h2 : P n * (f / P n) = f - f % P n := by rw [eq_sub_iff_add_eq]; exact hdm
    rw [h2] at h1
    have h3 := degree_sub_le f (f % P n)
    have h4 : max f.degree (f % P n).degree < ((2 * n : Nat) : WithBot ℕ) :=
      max_lt hf (lt_of_lt_of_le hr (by exact_mod_cast (by omega : n ≤ 2 * n)))
    exact absurd (h1.trans h3) (not_le.2 h4)
  conv_lhs => rw [← hdm]
  rw [I_add, orth n _ hq, zero_add, interp_exact h _ hr]
  refine Finset.sum_congr rfl fun k _ => ?_
  congr 1
  conv_rhs => rw [← hdm]
  rw [eval_add, eval_mul, h.root k, zero_mul, zero_add]

theorem lam_pos (h : Roots x) (k : Fin n) : 0 < lam x k := by
  have hne : Lagrange.basis Finset.univ x k ≠ 0 :=
    Lagrange.basis_ne_zero h.inj.injOn (Finset.mem_univ k)
  have hp := I_sq_pos _ hne
  have hd := Lagrange.degree_basis (s := Finset.univ) h.inj.injOn (Finset.mem_univ k)
  rw [gauss_exact h] at hp
  · rw [Finset.sum_eq_single k] at hp
    · rwa [eval_mul, Lagrange.eval_basis_self h.inj.injOn (Finset.mem_univ k), mul_one, mul_one] at hp
    · intro j _ hj
      rw [eval_mul, Lagrange.eval_basis_of_ne hj.symm (Finset.mem_univ j)]; ring
    · simp
  · rw [degree_mul, hd, Finset.card_univ, Fintype.card_fin]
    have := h.pos
    exact_mod_cast (by omega : (n - 1) + (n - 1) < 2 * n)

theorem lam_sum (h : Roots x) : ∑ k, lam x k = 2 := by
  have h1 := gauss_exact h 1 (by rw [degree_one]; exact_mod_cast (by have := h.pos; omega))
  simp only [eval_one, mul_one] at h1
  rw [← h1]
  simp [I]; norm_num

/-- `P n` is its leading coefficient times the nodal polynomial. -/
theorem P_eq_nodal (h : Roots x) : P n = C ((P n).coeff n) * Lagrange.nodal Finset.univ x := by
  have hn : (Lagrange.nodal Finset.univ x).natDegree = n := by simp [Lagrange.natDegree_nodal]
  have hm : (Lagrange.nodal Finset.univ x).coeff n = 1 := by
    have := Lagrange.nodal_monic (s := Finset.univ) (v := x)
    rw [Monic, leadingCoeff, hn] at this
    exact this
  rw [← sub_eq_zero]
  refine eq_zero_of_degree_lt_of_eval_index_eq_zero (v := x) Finset.univ h.inj.injOn ?_ ?_
  · rw [Finset.card_univ, Fintype.card_fin, degree_lt_iff_coeff_zero]
    intro m hm'
    rw [coeff_sub, coeff_C_mul]
    rcases Nat.lt_or_ge n m with hl | hl
    · rw [coeff_eq_zero_of_natDegree_lt (lt_of_le_of_lt (P_deg n).1.1 hl),
        coeff_eq_zero_of_natDegree_lt (p := Lagrange.nodal Finset.univ x) (by rw [hn]; exact hl)]; ring
    · have : m = n := le_antisymm hl hm'
      subst this; rw [hm]; ring
  · intro k _
    rw [eval_sub, eval_mul, h.root k, Lagrange.eval_nodal_at_node (Finset.mem_univ k)]; ring

/-- The product the code inverts is a nonzero constant over the weight. -/
theorem lam_formula (h : Roots x) : ∃ c : ℝ, 0 < c ∧
    ∀ k, lam x k * ((P (n - 1)).eval (x k) * (derivative (P n)).eval (x k)) = c := by
  classical
  obtain ⟨m, rfl⟩ : ∃ m, n = m + 1 := ⟨n - 1, by have := h.pos; omega⟩
  have hb := (P_deg m).1
  have ha := (P_deg (m + 1)).1.2
  refine ⟨(P (m + 1)).coeff (m + 1) * (1 / (P (K := ℝ) m).coeff m * I (P m * P m)), ?_, fun k => ?_⟩
  · have := I_sq_pos _ (P_ne_zero m)
    have := hb.2
    positivity
  · simp only [Nat.add_sub_cancel]
    set g := Lagrange.nodal (Finset.univ.erase k) x with hg
    have hgn : g.natDegree = m := by
      rw [hg, Lagrange.natDegree_nodal, Finset.card_erase_of_mem (Finset.mem_univ k)]; simp
    have hgm : g.coeff m = 1 := by
      have := Lagrange.nodal_monic (s := Finset.univ.erase k) (v := x)
      rw [Monic, leadingCoeff, ← hg, hgn] at this
      exact this
    have hlow : (g - C (1 / (P (K := ℝ) m).coeff m) * P m).degree < (m : WithBot ℕ) := by
      rw [degree_lt_iff_coeff_zero]
      intro j hj
      rw [coeff_sub, coeff_C_mul]
      rcases Nat.lt_or_ge m j with hl | hl
      · rw [coeff_eq_zero_of_natDegree_lt (by rw [hgn]; exact hl),
          coeff_eq_zero_of_natDegree_lt (lt_of_le_of_lt hb.1 hl)]; ring
      · have : j = m := le_antisymm hl hj
        subst this
        rw [hgm, one_div, inv_mul_cancel₀ hb.2.ne']; ring
    have e1 : I (P m * g) = 1 / (P (K := ℝ) m).coeff m * I (P m * P m) := by
      have : P m * g = P m * (g - C (1 / (P (K := ℝ) m).coeff m) * P m) +
          C (1 / (P (K := ℝ) m).coeff m) * (P m * P m) := by ring
      rw [this, I_add, I_C_mul, orth m _ hlow, zero_add]
    have e2 : I (P m * g) = lam x k * ((P m).eval (x k) * g.eval (x k)) := by
      rw [gauss_exact h, Finset.sum_eq_single k]
      · rw [eval_mul]
      · intro j _ hj
        have : g.eval (x j) = 0 := Lagrange.eval_nodal_at_node (Finset.mem_erase.2 ⟨hj, Finset.mem_univ j⟩)
        rw [eval_mul, this]; ring
      · simp
      · rw [degree_mul, P_degree]
        have : g.degree ≤ (m : WithBot ℕ) := natDegree_le_iff_degree_le.1 hgn.le
        calc (m : WithBot ℕ) + g.degree ≤ (m : WithBot ℕ) + m := by gcongr
          _ < _ := by exact_mod_cast (by omega : m + m < 2 * (m + 1))
    have e3 : (derivative (P (m + 1))).eval (x k) = (P (m + 1)).coeff (m + 1) * g.eval (x k) := by
      conv_lhs => rw [P_eq_nodal h]
      rw [derivative_C_mul, eval_mul, eval_C,
        Lagrange.eval_nodal_derivative_eval_node_eq (Finset.mem_univ k)]
    rw [e3, ← e1, e2]; ring

theorem P_deriv_neg (n : Nat) (x : ℝ) :
    (derivative (P n)).eval (-x) = -(-1) ^ n * (derivative (P n)).eval x := by
  have h : (P (K := ℝ) n).comp (-X) = C ((-1) ^ n) * P n := by
    apply Polynomial.funext
    intro y
    rw [eval_comp, eval_neg, eval_X, (P_neg n y).1, eval_mul, eval_C]
  have h' := congrArg (fun p => eval x (derivative p)) h
  simp only [derivative_comp, derivative_neg, derivative_X, derivative_C_mul, eval_mul, eval_neg,
    eval_one, eval_comp, eval_X, eval_C] at h'
  linear_combination (-1) * h'

end Verif.Legendre
