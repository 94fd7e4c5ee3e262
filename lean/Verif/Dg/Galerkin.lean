import Verif.Dg.Model
import Verif.Basis.Props
import Verif.Legendre.Props

/-!
# The Galerkin tables (first part of C29)
-/

namespace Verif.Dg

open Verif.Poly Verif.Basis Polynomial

variable {n : Nat}

/-- The tables are the ones `globals.cpp` computes from the nodes and weights, and the quadrature is exact
to degree `2n - 1` (`tab_exists`: this is what `leggauss` provides). -/
structure Tab.Ok (T : Tab n) : Prop where
  pos : 0 < n
  inj : Function.Injective T.nodes
  basis : IsBasis T.nodes T.psi
  dervals : ∀ i j, derivativeValues T.psi T.nodes i j = some (T.dervals i j)
  der : ∀ i j, derivativeProducts T.psi T.nodes T.w i j = some (T.der i j)
  exact : ∀ f : ℝ[X], f.degree < ((2 * n : Nat) : WithBot ℕ) →
    ∑ k, T.w k * f.eval (T.nodes k) = ∫ t in (0 : ℝ)..1, f.eval t
  wpos : ∀ k, 0 < T.w k

/-- The code's Gauss–Legendre nodes and weights give such tables, for every `N ≥ 1`. -/
theorem tab_exists (n : Nat) (hn : 0 < n) (e : Fin n → ℝ)
    (he : Verif.Legendre.IsEigenvalues (Verif.Legendre.legcompanion n) e) :
    ∃ (T : Tab n) (x w : Fin n → ℝ), T.Ok ∧ Verif.Legendre.leggauss n e = some (x, w) ∧
      T.nodes = Verif.Legendre.scaledNodes x ∧ T.w = Verif.Legendre.scaledWeights w := by
  obtain ⟨x, w, hlg, hmono, hwp, -, -, hex⟩ := Verif.Legendre.scaled_gauss_exact n hn e he
  set xs := Verif.Legendre.scaledNodes x
  set ws := Verif.Legendre.scaledWeights w
  obtain ⟨psi, hb, hlen, -⟩ := basis_cardinal xs hmono.injective
  obtain ⟨D, hD, -⟩ := derivative_values_exact xs hmono.injective psi hb
  have hne : ∀ i j, ∃ v, derivativeProducts psi xs ws i j = some v := by
    intro i j
    unfold derivativeProducts
    split_ifs
    · exact ⟨_, rfl⟩
    · have := hD i j
      unfold derivativeValues at this
      obtain ⟨d, hd, -⟩ := Option.map_eq_some_iff.1 this
      exact ⟨_, by rw [hd]; rfl⟩
  choose R hR using hne
  exact ⟨⟨xs, ws, psi, D, R⟩, x, w, ⟨hn, hmono.injective, hb, hD, hR, hex, hwp⟩, hlg, rfl, rfl⟩

variable {T : Tab n}

theorem Tab.Ok.deg (h : T.Ok) (i : Fin n) : (den (T.psi i)).degree < (n : WithBot ℕ) := by
  rw [(h.basis.den_eq i).1]
  have := Lagrange.degree_basis (s := Finset.univ) (v := T.nodes) h.inj.injOn (Finset.mem_univ i)
  rw [this, Finset.card_univ, Fintype.card_fin]
  have := h.pos
  exact_mod_cast (by omega : n - 1 < n)

theorem Tab.Ok.cardinal (h : T.Ok) (i k : Fin n) :
    (den (T.psi i)).eval (T.nodes k) = if i = k then 1 else 0 := by
  rw [(h.basis.den_eq i).1]
  split_ifs with hik
  · subst hik; exact Lagrange.eval_basis_self h.inj.injOn (Finset.mem_univ _)
  · exact Lagrange.eval_basis_of_ne hik (Finset.mem_univ _)

theorem Tab.Ok.dervals_eq (h : T.Ok) (i j : Fin n) :
    T.dervals i j = (derivative (den (T.psi j))).eval (T.nodes i) := by
  obtain ⟨D, hD, hf⟩ := derivative_values_exact T.nodes h.inj T.psi h.basis
  have e : T.dervals i j = D i j := by
    have := h.dervals i j
    rw [hD] at this
    exact (Option.some.inj this).symm
  have := hf (den (T.psi j)) (h.deg j) i
  simp only [h.cardinal] at this
  rw [e, ← this]
  simp

theorem degree_deriv_lt {f : ℝ[X]} (hf : f.degree < (n : WithBot ℕ)) :
    (derivative f).degree < (n : WithBot ℕ) := lt_of_le_of_lt degree_derivative_le hf

/-- Quadrature of a test function times any polynomial of degree `< n`. -/
theorem Tab.Ok.test (h : T.Ok) (i : Fin n) (f : ℝ[X]) (hf : f.degree < (n : WithBot ℕ)) :
    ∫ t in (0 : ℝ)..1, (den (T.psi i) * f).eval t = T.w i * f.eval (T.nodes i) := by
  have hd : (den (T.psi i) * f).degree < ((2 * n : Nat) : WithBot ℕ) := by
    have h1 := h.deg i
    have hn := h.pos
    by_cases h0 : den (T.psi i) = 0
    · rw [h0, zero_mul, degree_zero]; exact WithBot.bot_lt_coe _
    by_cases h0' : f = 0
    · rw [h0', mul_zero, degree_zero]; exact WithBot.bot_lt_coe _
    rw [degree_mul, degree_eq_natDegree h0, degree_eq_natDegree h0']
    rw [degree_eq_natDegree h0] at h1
    rw [degree_eq_natDegree h0'] at hf
    have a := Nat.cast_lt.1 h1
    have b := Nat.cast_lt.1 hf
    exact_mod_cast (by omega : (den (T.psi i)).natDegree + f.natDegree < 2 * n)
  rw [← h.exact _ hd]
  simp only [eval_mul, h.cardinal]
  simp

/-- C29: `derivative_products` is the table of the Galerkin integrals. -/
theorem der_integral (h : T.Ok) (i j : Fin n) :
    T.der i j = ∫ t in (0 : ℝ)..1, (den (T.psi i) * derivative (den (T.psi j))).eval t := by
  have hd := h.der i j
  unfold derivativeProducts at hd
  split_ifs at hd with hij
  · subst hij
    rw [← Option.some.inj hd]
    have e : den (T.psi i) * derivative (den (T.psi i)) =
        derivative (C (1 / 2) * (den (T.psi i)) ^ 2) := by
      rw [derivative_C_mul, derivative_pow]
      simp only [Nat.cast_ofNat, Nat.add_one_sub_one, pow_one]
      have : (C (1 / 2) : ℝ[X]) * (C 2 * den (T.psi i) * derivative (den (T.psi i))) =
          (C (1 / 2) * C 2) * (den (T.psi i) * derivative (den (T.psi i))) := by ring
      rw [this, ← C_mul]; norm_num
    rw [e, Verif.Legendre.integral_derivative]
    simp only [eval_mul, eval_C, eval_pow, evaluate_den]
    ring
  · rw [h.test i _ (degree_deriv_lt (h.deg j)), ← h.dervals_eq]
    obtain ⟨d, hd1, hd2⟩ := Option.map_eq_some_iff.1 hd
    have := h.dervals i j
    unfold derivativeValues at this
    rw [hd1] at this
    rw [← hd2, ← Option.some.inj this]

/-- Both branches of `derivative_products` agree with the quadrature. -/
theorem der_eq (h : T.Ok) (i j : Fin n) : T.der i j = T.w i * T.dervals i j := by
  rw [der_integral h, h.test i _ (degree_deriv_lt (h.deg j)), h.dervals_eq]

/-- C29: summation by parts. -/
theorem summation_by_parts (h : T.Ok) (i j : Fin n) :
    T.der i j + T.der j i =
      evaluate (T.psi i) 1 * evaluate (T.psi j) 1 - evaluate (T.psi i) 0 * evaluate (T.psi j) 0 := by
  rw [der_integral h, der_integral h, ← intervalIntegral.integral_add]
  · have e : ∀ t : ℝ, (den (T.psi i) * derivative (den (T.psi j))).eval t +
        (den (T.psi j) * derivative (den (T.psi i))).eval t =
        (derivative (den (T.psi i) * den (T.psi j))).eval t := by
      intro t; rw [derivative_mul]; simp only [eval_add, eval_mul]; ring
    simp only [e]
    rw [Verif.Legendre.integral_derivative]
    simp only [eval_mul, evaluate_den]
  · exact (den (T.psi i) * derivative (den (T.psi j))).continuous.intervalIntegrable _ _
  · exact (den (T.psi j) * derivative (den (T.psi i))).continuous.intervalIntegrable _ _

/-- C29: `end_value_products` is the table of end-point products. -/
theorem end_products (T : Tab n) (i j : Fin n) :
    endValueProducts T.psi i j = T.endvals 1 i * T.endvals 1 j := rfl

theorem mat_eq (h : T.Ok) (t k : Fin n) :
    T.mat t k = evaluate (T.psi t) 0 * evaluate (T.psi k) 0 + T.w t * T.dervals t k := by
  have := summation_by_parts h t k
  rw [← der_eq h]
  unfold Tab.mat
  rw [Matrix.sub_apply, Matrix.transpose_apply]
  show evaluate (T.psi t) 1 * evaluate (T.psi k) 1 - _ = _
  linarith

/-- The time derivative and the initial value of the polynomial with nodal values `f`. -/
theorem mat_mulVec (h : T.Ok) (f : ℝ[X]) (hf : f.degree < (n : WithBot ℕ)) (t : Fin n) :
    ∑ k, T.mat t k * f.eval (T.nodes k) =
      evaluate (T.psi t) 0 * f.eval 0 + T.w t * (derivative f).eval (T.nodes t) := by
  obtain ⟨D, hD, hfd⟩ := derivative_values_exact T.nodes h.inj T.psi h.basis
  have e : ∀ j, T.dervals t j = D t j := by
    intro j
    have := h.dervals t j
    rw [hD] at this
    exact (Option.some.inj this).symm
  have h0 := (end_values_exact T.nodes h.inj T.psi h.basis f hf).1
  simp only [mat_eq h, add_mul, Finset.sum_add_distrib, mul_assoc]
  rw [← Finset.mul_sum, ← Finset.mul_sum]
  congr 1
  · congr 1
  · rw [← hfd f hf t]
    simp only [e]

theorem der_mulVec (h : T.Ok) (f : ℝ[X]) (hf : f.degree < (n : WithBot ℕ)) (i : Fin n) :
    ∑ j, T.der i j * f.eval (T.nodes j) = T.w i * (derivative f).eval (T.nodes i) := by
  obtain ⟨D, hD, hfd⟩ := derivative_values_exact T.nodes h.inj T.psi h.basis
  have e : ∀ j, T.dervals i j = D i j := by
    intro j
    have := h.dervals i j
    rw [hD] at this
    exact (Option.some.inj this).symm
  rw [← hfd f hf i, Finset.mul_sum]
  exact Finset.sum_congr rfl fun j _ => by rw [der_eq h, e]; ring

theorem dervals_mulVec (h : T.Ok) (f : ℝ[X]) (hf : f.degree < (n : WithBot ℕ)) (i : Fin n) :
    ∑ j, T.dervals i j * f.eval (T.nodes j) = (derivative f).eval (T.nodes i) := by
  have := der_mulVec h f hf i
  simp only [der_eq h, mul_assoc] at this
  rw [← Finset.mul_sum] at this
  exact mul_left_cancel₀ (h.wpos i).ne' this

theorem degree_one_lt (hn : 0 < n) (c : ℝ) : (C c : ℝ[X]).degree < (n : WithBot ℕ) :=
  lt_of_le_of_lt degree_C_le (by exact_mod_cast hn)

theorem mat_const (h : T.Ok) (t : Fin n) : ∑ k, T.mat t k = evaluate (T.psi t) 0 := by
  have := mat_mulVec h (C 1) (degree_one_lt h.pos 1) t
  simpa using this

theorem der_const (h : T.Ok) (i : Fin n) : ∑ j, T.der i j = 0 := by
  have := der_mulVec h (C 1) (degree_one_lt h.pos 1) i
  simpa using this

theorem dervals_const (h : T.Ok) (i : Fin n) : ∑ j, T.dervals i j = 0 := by
  have := dervals_mulVec h (C 1) (degree_one_lt h.pos 1) i
  simpa using this

/-- The polynomial of degree `< n` with given nodal values. -/
theorem exists_poly (h : T.Ok) (v : Fin n → ℝ) :
    ∃ f : ℝ[X], f.degree < (n : WithBot ℕ) ∧ ∀ k, f.eval (T.nodes k) = v k := by
  refine ⟨∑ j, C (v j) * den (T.psi j), ?_, fun k => ?_⟩
  · rw [degree_lt_iff_coeff_zero]
    intro m hm
    rw [finsetSum_coeff]
    refine Finset.sum_eq_zero fun j _ => ?_
    rw [coeff_C_mul, coeff_eq_zero_of_degree_lt (lt_of_lt_of_le (h.deg j) (by exact_mod_cast hm)), mul_zero]
  · rw [eval_finsetSum]
    simp only [eval_mul, eval_C, h.cardinal]
    simp

/-- `DG_MAT` is invertible, so the predictor's linear systems are uniquely solvable. -/
theorem mat_isUnit (h : T.Ok) : IsUnit T.mat.det := by
  rw [isUnit_iff_ne_zero]
  intro hdet
  obtain ⟨v, hv, hmv⟩ := Matrix.exists_mulVec_eq_zero_iff.2 hdet
  apply hv
  obtain ⟨f, hf, hfv⟩ := exists_poly h v
  have hd := degree_deriv_lt hf
  have h1 : ∀ t, evaluate (T.psi t) 0 * f.eval 0 + T.w t * (derivative f).eval (T.nodes t) = 0 := by
    intro t
    rw [← mat_mulVec h f hf t]
    have := congrFun hmv t
    unfold Matrix.mulVec dotProduct at this
    simpa [hfv] using this
  -- test with f itself
  have h2 : f.eval 0 * f.eval 0 + ∫ t in (0 : ℝ)..1, (f * derivative f).eval t = 0 := by
    have hs : ∑ t, f.eval (T.nodes t) *
        (evaluate (T.psi t) 0 * f.eval 0 + T.w t * (derivative f).eval (T.nodes t)) = 0 :=
      Finset.sum_eq_zero fun t _ => by rw [h1 t, mul_zero]
    have e0 := (end_values_exact T.nodes h.inj T.psi h.basis f hf).1
    have hdeg : (f * derivative f).degree < ((2 * n : Nat) : WithBot ℕ) := by
      by_cases h0 : f = 0
      · rw [h0, zero_mul, degree_zero]; exact WithBot.bot_lt_coe _
      by_cases h0' : derivative f = 0
      · rw [h0', mul_zero, degree_zero]; exact WithBot.bot_lt_coe _
      rw [degree_mul, degree_eq_natDegree h0, degree_eq_natDegree h0']
      rw [degree_eq_natDegree h0] at hf
      rw [degree_eq_natDegree h0'] at hd
      have a := Nat.cast_lt.1 hf
      have b := Nat.cast_lt.1 hd
      exact_mod_cast (by omega : f.natDegree + (derivative f).natDegree < 2 * n)
    rw [← h.exact _ hdeg]
    have e1 : f.eval 0 * f.eval 0 = ∑ t, f.eval (T.nodes t) * (evaluate (T.psi t) 0 * f.eval 0) := by
      conv_lhs => rw [show f.eval 0 * f.eval 0 = (∑ j, endValues T.psi 0 j * f.eval (T.nodes j)) * f.eval 0 by rw [e0]]
      rw [Finset.sum_mul]
      exact Finset.sum_congr rfl fun t _ => by
        show evaluate (T.psi t) 0 * _ * _ = _
        ring
    rw [e1, ← Finset.sum_add_distrib]
    refine Eq.trans ?_ hs
    exact Finset.sum_congr rfl fun t _ => by rw [eval_mul]; ring
  have e2 : f * derivative f = derivative (C (1 / 2) * f ^ 2) := by
    rw [derivative_C_mul, derivative_pow]
    simp only [Nat.cast_ofNat, Nat.add_one_sub_one, pow_one]
    have : (C (1 / 2) : ℝ[X]) * (C 2 * f * derivative f) = (C (1 / 2) * C 2) * (f * derivative f) := by ring
    rw [this, ← C_mul]; norm_num
  rw [e2, Verif.Legendre.integral_derivative] at h2
  simp only [eval_mul, eval_C, eval_pow] at h2
  have hf0 : f.eval 0 = 0 := by
    have a := sq_nonneg (f.eval 1)
    have b := sq_nonneg (f.eval 0)
    have : (f.eval 0) ^ 2 = 0 := by nlinarith
    exact pow_eq_zero_iff (two_ne_zero) |>.1 this
  -- then the derivative vanishes at all nodes
  have h3 : ∀ t, (derivative f).eval (T.nodes t) = 0 := by
    intro t
    have := h1 t
    rw [hf0, mul_zero, zero_add] at this
    exact (mul_eq_zero.1 this).resolve_left (h.wpos t).ne'
  have h4 : derivative f = 0 :=
    eq_zero_of_degree_lt_of_eval_index_eq_zero (v := T.nodes) Finset.univ h.inj.injOn
      (by simpa using hd) (fun t _ => h3 t)
  have h5 : f = C (f.eval 0) := by
    have := derivative_eq_zero.1 h4
    rw [eq_C_of_natDegree_eq_zero this]; simp
  funext k
  rw [← hfv k, h5, hf0]; simp

end Verif.Dg
