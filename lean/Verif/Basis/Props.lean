import Verif.Basis.Model
import Verif.Poly.Props
import Mathlib.LinearAlgebra.Lagrange

/-!
# Properties of the nodal basis (C27)

The only assumption is that the nodes are distinct (the code divides by `x(i) - x(j)`);
`Verif.Legendre` shows that the nodes the solver uses are.
-/

namespace Verif.Basis

open Verif.Poly Polynomial

variable {K : Type} [Field K]

theorem lagrange_fold {n : Nat} (x : Fin n → K) (i : Fin n) (l : List (Fin n)) (p : List K) :
    ∃ r, l.foldlM (lagrangeStep x i) p = some r ∧
      r.length = p.length + (l.filter (· ≠ i)).length ∧
      den r = den p * ((l.filter (· ≠ i)).map fun j => Lagrange.basisDivisor (x i) (x j)).prod := by
  induction l generalizing p with
  | nil => exact ⟨p, rfl, by simp, by simp⟩
  | cons j l ih =>
    rw [List.foldlM_cons]
    by_cases hj : j = i
    · obtain ⟨r, e, h1, h2⟩ := ih p
      refine ⟨r, ?_, ?_, ?_⟩
      · simp only [lagrangeStep, if_pos hj]; exact e
      · simp [hj, h1]
      · simp [hj, h2]
    · obtain ⟨q, e, hl, hd⟩ := multiply_spec p [-x j, 1] (by simp)
      obtain ⟨r, e', h1, h2⟩ := ih (divC q (x i - x j))
      refine ⟨r, ?_, ?_, ?_⟩
      · simp only [lagrangeStep, if_neg hj, e, Option.map_some]; exact e'
      · simp only [List.length_cons, List.length_nil] at hl
        simp [hj, h1, divC, hl]; omega
      · have h3 : den (divC q (x i - x j)) = den p * Lagrange.basisDivisor (x i) (x j) := by
          have : den (divC q (x i - x j)) = C (x i - x j)⁻¹ * den q := by
            ext k
            rw [coeff_C_mul, den_coeff, den_coeff]
            unfold divC
            by_cases hk : k < q.length
            · rw [List.getD_eq_getElem _ _ (by simpa using hk), List.getD_eq_getElem _ _ hk,
                List.getElem_map, div_eq_inv_mul]
            · rw [List.getD_eq_default _ _ (by simpa using hk), List.getD_eq_default _ _ (by omega),
                mul_zero]
          rw [this, hd]
          have h4 : den [-x j, 1] = X - C (x j) := by
            simp [den, Finset.sum_range_succ]; ring
          rw [h4, Lagrange.basisDivisor]; ring
        rw [h2, h3]
        simp [hj]; ring

/-- `lagrange` succeeds, returns `n` coefficients, and they are those of Mathlib's Lagrange basis. -/
theorem lagrange_spec {n : Nat} (x : Fin n → K) (i : Fin n) :
    ∃ p, lagrange x i = some p ∧ p.length = n ∧ den p = Lagrange.basis Finset.univ x i := by
  obtain ⟨r, e, h1, h2⟩ := lagrange_fold x i (List.finRange n) [1]
  refine ⟨r, e, ?_, ?_⟩
  · rw [h1]
    have : ((List.finRange n).filter (· ≠ i)).length = n - 1 := by
      have h := List.length_eq_length_filter_add (l := List.finRange n) (fun j => decide (j ≠ i))
      have h5 : (List.filter (fun j => !decide (j ≠ i)) (List.finRange n)).length = 1 := by
        rw [← List.countP_eq_length_filter]
        have : (fun j => !decide (j ≠ i)) = (fun j : Fin n => j == i) := by
          funext j; by_cases h : j = i <;> simp [h]
        rw [this]
        exact List.count_eq_one_of_mem (List.nodup_finRange n) (List.mem_finRange i)
      rw [List.length_finRange] at h
      omega
    have := i.pos
    simp only [List.length_cons, List.length_nil]; omega
  · rw [h2]
    have h1 : den [(1 : K)] = 1 := by simp [den]
    rw [h1, one_mul, Lagrange.basis]
    rw [← List.prod_toFinset _ ((List.nodup_finRange n).filter _)]
    apply Finset.prod_congr _ fun _ _ => rfl
    ext j; simp

theorem IsBasis.den_eq {n : Nat} {x : Fin n → K} {psi : Fin n → List K} (h : IsBasis x psi)
    (i : Fin n) : den (psi i) = Lagrange.basis Finset.univ x i ∧ (psi i).length = n := by
  obtain ⟨p, e, hl, hd⟩ := lagrange_spec x i
  have := h i
  rw [e] at this
  cases this
  exact ⟨hd, hl⟩

/-- A polynomial of degree `< n` is the combination of the basis with its nodal values. -/
theorem IsBasis.interp {n : Nat} {x : Fin n → K} {psi : Fin n → List K} (h : IsBasis x psi)
    (hx : Function.Injective x) (f : K[X]) (hf : f.degree < n) :
    ∑ j, C (f.eval (x j)) * den (psi j) = f := by
  have := Lagrange.eq_interpolate (s := Finset.univ) (v := x) (hx.injOn) (by simpa using hf)
  conv_rhs => rw [this]
  rw [Lagrange.interpolate_apply]
  exact Finset.sum_congr rfl fun j _ => by rw [(h.den_eq j).1]

/-! ### C27 -/

/-- `basis_polys()` succeeds for any nodes; with distinct nodes each polynomial has `n` coefficients
(degree `< n`), is 1 at its own node and 0 at the others. -/
theorem basis_cardinal {n : Nat} (x : Fin n → K) (hx : Function.Injective x) :
    ∃ psi, IsBasis x psi ∧ (∀ i, (psi i).length = n) ∧
      ∀ i j, evaluate (psi i) (x j) = if i = j then 1 else 0 := by
  choose psi h using lagrange_spec x
  refine ⟨psi, fun i => (h i).1, fun i => (h i).2.1, fun i j => ?_⟩
  rw [evaluate_den, (h i).2.2]
  split_ifs with hij
  · subst hij; exact Lagrange.eval_basis_self hx.injOn (Finset.mem_univ _)
  · exact Lagrange.eval_basis_of_ne hij (Finset.mem_univ _)

/-- The end-value table gives the values at 0 and 1 of every polynomial of degree `< n` from its
nodal values. -/
theorem end_values_exact {n : Nat} (x : Fin n → K) (hx : Function.Injective x)
    (psi : Fin n → List K) (h : IsBasis x psi) (f : K[X]) (hf : f.degree < n) :
    ∑ j, endValues psi 0 j * f.eval (x j) = f.eval 0 ∧
      ∑ j, endValues psi 1 j * f.eval (x j) = f.eval 1 := by
  have key : ∀ a, ∑ j, evaluate (psi j) a * f.eval (x j) = f.eval a := by
    intro a
    conv_rhs => rw [← h.interp hx f hf]
    rw [eval_finsetSum]
    exact Finset.sum_congr rfl fun j _ => by rw [eval_mul, eval_C, evaluate_den, mul_comm]
  exact ⟨key 0, by simpa [endValues] using key 1⟩

/-- The derivative table is defined and gives the derivative at each node of every polynomial of
degree `< n` from its nodal values. -/
theorem derivative_values_exact {n : Nat} (x : Fin n → K) (hx : Function.Injective x)
    (psi : Fin n → List K) (h : IsBasis x psi) :
    ∃ D : Matrix (Fin n) (Fin n) K, (∀ i j, derivativeValues psi x i j = some (D i j)) ∧
      ∀ f : K[X], f.degree < n → ∀ i, ∑ j, D i j * f.eval (x j) = (derivative f).eval (x i) := by
  have hne : ∀ j, psi j ≠ [] := by
    intro j hj
    have := (h.den_eq j).2
    rw [hj] at this
    exact absurd j.2 (by simp at this; omega)
  choose d hd using fun j => differentiate_den (psi j) (hne j)
  refine ⟨fun i j => evaluate (d j) (x i), fun i j => ?_, fun f hf i => ?_⟩
  · unfold derivativeValues diff
    rw [(hd j).1]; rfl
  · conv_rhs => rw [← h.interp hx f hf]
    rw [derivative_sum, eval_finsetSum]
    refine Finset.sum_congr rfl fun j _ => ?_
    show evaluate (d j) (x i) * _ = _
    rw [derivative_C_mul, eval_mul, eval_C, evaluate_den, (hd j).2.2, mul_comm]

/-- Two dimensions: if the rows `i*n + j` of `qh` are the values at the nodes of a function that is
polynomial of degree `< n` along each axis (`fx j` along x at the `j`-th y node, `fy i` along y at the
`i`-th x node), `derivs2d` returns the partial derivatives and `endpts2d` the edge values. -/
theorem tables_2d_exact {n : Nat} (x : Fin n → K) (hx : Function.Injective x)
    (psi : Fin n → List K) (h : IsBasis x psi) (D : Matrix (Fin n) (Fin n) K)
    (hD : ∀ i j, derivativeValues psi x i j = some (D i j)) (fx fy : Fin n → K[X])
    (hfx : ∀ j, (fx j).degree < n) (hfy : ∀ i, (fy i).degree < n) (qh old : Nat → K)
    (hq : ∀ i j : Fin n, qh (i * n + j) = (fx j).eval (x i) ∧ qh (i * n + j) = (fy i).eval (x j)) :
    (∀ i j : Fin n, derivs2d D old qh 0 (i * n + j) = (derivative (fx j)).eval (x i)) ∧
    (∀ i j : Fin n, derivs2d D old qh 1 (i * n + j) = (derivative (fy i)).eval (x j)) ∧
    (∀ j : Fin n, endpts2d (endValues psi) old qh 0 0 j = (fx j).eval 0 ∧
      endpts2d (endValues psi) old qh 0 1 j = (fx j).eval 1) ∧
    (∀ i : Fin n, endpts2d (endValues psi) old qh 1 0 i = (fy i).eval 0 ∧
      endpts2d (endValues psi) old qh 1 1 i = (fy i).eval 1) := by
  obtain ⟨D', hD', hDx⟩ := derivative_values_exact x hx psi h
  have hDD : D' = D := by
    ext i j
    have := (hD' i j).symm.trans (hD i j)
    exact Option.some.inj this
  subst hDD
  have hdiv : ∀ i j : Fin n, ((i : Nat) * n + j) / n = i ∧ ((i : Nat) * n + j) % n = j := by
    intro i j
    have hn : 0 < n := i.pos
    constructor
    · rw [Nat.mul_comm, Nat.mul_add_div hn, Nat.div_eq_of_lt j.2, Nat.add_zero]
    · rw [Nat.mul_comm, Nat.mul_add_mod, Nat.mod_eq_of_lt j.2]
  refine ⟨fun i j => ?_, fun i j => ?_, fun j => ?_, fun i => ?_⟩
  · unfold derivs2d
    rw [if_pos rfl, dif_pos (by rw [(hdiv i j).1]; exact i.2), ← hDx _ (hfx j)]
    refine Finset.sum_congr rfl fun k _ => ?_
    rw [← (hq k j).1]
    congr 2
    · exact Fin.ext (hdiv i j).1
    · rw [(hdiv i j).2, Nat.add_comm]
  · unfold derivs2d
    rw [if_neg (by decide), if_pos rfl, dif_pos (by rw [(hdiv i j).1, (hdiv i j).2]; exact ⟨j.2, i.2⟩),
      ← hDx _ (hfy i)]
    refine Finset.sum_congr rfl fun k _ => ?_
    rw [← (hq i k).2]
    congr 2
    · exact Fin.ext (hdiv i j).2
    · rw [(hdiv i j).1]
  · have he := end_values_exact x hx psi h (fx j) (hfx j)
    unfold endpts2d
    rw [if_pos j.2, if_pos rfl, if_pos j.2, if_pos rfl, ← he.1, ← he.2]
    constructor <;> refine Finset.sum_congr rfl fun k _ => ?_ <;>
      rw [← (hq k j).1, Nat.add_comm]
  · have he := end_values_exact x hx psi h (fy i) (hfy i)
    unfold endpts2d
    rw [if_pos i.2, if_neg (by decide), if_pos rfl, if_pos i.2, if_neg (by decide), if_pos rfl,
      ← he.1, ← he.2]
    constructor <;> refine Finset.sum_congr rfl fun k _ => ?_ <;> rw [← (hq i k).2]

/-- Distinct nodes and a basis exist: the two-point case with rational nodes. -/
example : Function.Injective ![(1 : ℚ) / 4, 3 / 4] ∧
    ∃ psi, IsBasis ![(1 : ℚ) / 4, 3 / 4] psi := by
  have hx : Function.Injective ![(1 : ℚ) / 4, 3 / 4] := by
    intro i j h
    fin_cases i <;> fin_cases j <;> simp at h ⊢ <;> norm_num at h
  exact ⟨hx, let ⟨psi, h, _⟩ := basis_cardinal _ hx; ⟨psi, h⟩⟩

/-- ... and the bivariate data of `tables_2d_exact` exist, e.g. `x*y` on those nodes. -/
example (x : Fin 2 → ℚ) : ∃ (fx fy : Fin 2 → ℚ[X]) (qh : Nat → ℚ),
    (∀ j, (fx j).degree < (2 : Nat)) ∧ (∀ i, (fy i).degree < (2 : Nat)) ∧
    ∀ i j : Fin 2, qh (i * 2 + j) = (fx j).eval (x i) ∧ qh (i * 2 + j) = (fy i).eval (x j) := by
  have hdeg : ∀ a : ℚ, (C a * X : ℚ[X]).degree < (2 : Nat) := fun a =>
    lt_of_le_of_lt (degree_C_mul_X_le a) (by norm_num)
  refine ⟨fun j => C (x j) * X, fun i => C (x i) * X,
    fun s => if s = 0 then x 0 * x 0 else if s = 3 then x 1 * x 1 else x 0 * x 1,
    fun j => hdeg _, fun i => hdeg _, fun i j => ?_⟩
  fin_cases i <;> fin_cases j <;> simp <;> exact mul_comm _ _

end Verif.Basis
