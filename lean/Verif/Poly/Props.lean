import Verif.Poly.Model
import Mathlib.Algebra.Polynomial.Derivative
import Mathlib.Algebra.Polynomial.Eval.Degree
import Mathlib.Analysis.Calculus.Deriv.Polynomial
import Mathlib.Tactic.FieldSimp
import Mathlib.Tactic.LinearCombination
import Mathlib.Algebra.BigOperators.NatAntidiagonal
import Mathlib.Data.List.GetD

/-!
# Properties of `scipy/poly.cpp` (C23, C24): coefficient vectors refine `Polynomial`
-/

namespace Verif.Poly

open Polynomial

variable {K : Type} [Field K]

/-- The polynomial a coefficient vector denotes. -/
noncomputable def den (p : List K) : K[X] := ∑ i ∈ Finset.range p.length, C (p.getD i 0) * X ^ i

theorem den_coeff (p : List K) (k : Nat) : (den p).coeff k = p.getD k 0 := by
  unfold den
  rw [finsetSum_coeff]
  simp only [coeff_C_mul, coeff_X_pow]
  by_cases h : k < p.length
  · rw [Finset.sum_eq_single k]
    · simp
    · intro b _ hb; rw [if_neg (Ne.symm hb), mul_zero]
    · intro h'; exact absurd (Finset.mem_range.2 h) h'
  · rw [Finset.sum_eq_zero]
    · rw [List.getD_eq_default _ _ (by omega)]
    · intro b hb
      rw [Finset.mem_range] at hb
      rw [if_neg (by omega), mul_zero]

/-- Vectors of equal length denoting the same polynomial are equal. -/
theorem den_inj {p q : List K} (hl : p.length = q.length) (h : den p = den q) : p = q := by
  apply List.ext_getElem hl
  intro i h1 h2
  have := congrArg (fun r => r.coeff i) h
  simp only [den_coeff] at this
  rwa [List.getD_eq_getElem _ _ h1, List.getD_eq_getElem _ _ h2] at this

/-- `eval` evaluates. -/
theorem evaluate_den (p : List K) (x : K) : evaluate p x = (den p).eval x := by
  unfold evaluate den
  rw [eval_finsetSum]
  simp only [eval_mul, eval_C, eval_pow, eval_X]
  generalize p.length = n
  induction n with
  | zero => simp
  | succ n ih => rw [List.range_succ, List.foldl_append, Finset.sum_range_succ, ← ih]; rfl

theorem getD_modify (l : List K) (k : Nat) (a : K) (i : Nat) (hk : k < l.length) :
    (l.modify k (· + a)).getD i 0 = l.getD i 0 + if i = k then a else 0 := by
  by_cases h : i < l.length
  · rw [List.getD_eq_getElem _ _ (by simpa using h), List.getD_eq_getElem _ _ h, List.getElem_modify]
    by_cases hik : k = i
    · rw [if_pos hik, if_pos hik.symm]
    · rw [if_neg hik, if_neg (Ne.symm hik), add_zero]
  · rw [List.getD_eq_default _ _ (by simpa using h), List.getD_eq_default _ _ (by omega),
      if_neg (by omega), add_zero]

theorem den_modify (l : List K) (k : Nat) (a : K) (hk : k < l.length) :
    den (l.modify k (· + a)) = den l + C a * X ^ k := by
  ext i
  rw [den_coeff, coeff_add, den_coeff, coeff_C_mul, coeff_X_pow, getD_modify _ _ _ _ hk]
  simp

theorem mulRow_spec (p2 : List K) (i : Nat) (a : K) (n : Nat) (hn : n ≤ p2.length) (ret : List K)
    (hr : i + n ≤ ret.length) :
    let r := (List.range n).foldl (fun ret j => ret.modify (i + j) (· + a * p2.getD j 0)) ret
    r.length = ret.length ∧
      den r = den ret + C a * X ^ i * ∑ j ∈ Finset.range n, C (p2.getD j 0) * X ^ j := by
  induction n with
  | zero => simp
  | succ n ih =>
    obtain ⟨h1, h2⟩ := ih (by omega) (by omega)
    simp only [List.range_succ, List.foldl_append, List.foldl_cons, List.foldl_nil] at *
    refine ⟨by rw [List.length_modify]; exact h1, ?_⟩
    rw [den_modify _ _ _ (by rw [h1]; omega), h2, Finset.sum_range_succ, C_mul]
    ring

theorem multiply_spec (p1 p2 : List K) (h : p1.length + p2.length ≠ 0) :
    ∃ r, multiply p1 p2 = some r ∧ r.length = p1.length + p2.length - 1 ∧ den r = den p1 * den p2 := by
  unfold multiply
  rw [if_neg h]
  refine ⟨_, rfl, ?_⟩
  have key : ∀ n ≤ p1.length,
      let r := (List.range n).foldl (fun ret i => mulRow p2 i (p1.getD i 0) ret)
        (List.replicate (p1.length + p2.length - 1) 0)
      r.length = p1.length + p2.length - 1 ∧
        den r = (∑ i ∈ Finset.range n, C (p1.getD i 0) * X ^ i) * den p2 := by
    intro n
    induction n with
    | zero =>
      intro _
      refine ⟨by simp, ?_⟩
      ext k
      simp [den_coeff, List.getD_eq_getElem?_getD, List.getElem?_replicate]
      split <;> rfl
    | succ n ih =>
      intro hn
      obtain ⟨h1, h2⟩ := ih (by omega)
      simp only [List.range_succ, List.foldl_append, List.foldl_cons, List.foldl_nil] at *
      obtain ⟨a1, a2⟩ := mulRow_spec p2 n (p1.getD n 0) p2.length le_rfl
        ((List.range n).foldl (fun ret i => mulRow p2 i (p1.getD i 0) ret)
          (List.replicate (p1.length + p2.length - 1) 0)) (by rw [h1]; omega)
      unfold mulRow at *
      refine ⟨by rw [a1, h1], ?_⟩
      rw [a2, h2, Finset.sum_range_succ]
      unfold den
      ring
  exact key p1.length le_rfl

/-! ### C23 -/

/-- Product of polynomials: defined unless both vectors are empty, evaluates to the product. -/
theorem multiply_evaluates (p q : List K) (h : p ≠ [] ∨ q ≠ []) :
    ∃ r, multiply p q = some r ∧ ∀ x, evaluate r x = evaluate p x * evaluate q x := by
  have hl : p.length + q.length ≠ 0 := by
    rcases h with h | h <;> have := List.length_pos_iff.2 h <;> omega
  obtain ⟨r, e, _, hd⟩ := multiply_spec p q hl
  exact ⟨r, e, fun x => by rw [evaluate_den, evaluate_den, evaluate_den, hd, eval_mul]⟩

/-- Commutative, as coefficient vectors. -/
theorem multiply_comm (p q : List K) : multiply p q = multiply q p := by
  by_cases h : p.length + q.length = 0
  · unfold multiply; rw [if_pos h, if_pos (by omega)]
  · obtain ⟨r, e, hl, hd⟩ := multiply_spec p q h
    obtain ⟨r', e', hl', hd'⟩ := multiply_spec q p (by omega)
    rw [e, e']
    congr 1
    apply den_inj (by rw [hl, hl', Nat.add_comm]) (by rw [hd, hd', mul_comm])

/-- Associative, as coefficient vectors. -/
theorem multiply_assoc (p q s : List K) (hp : p ≠ []) (hq : q ≠ []) (hs : s ≠ []) :
    ((multiply p q).bind fun r => multiply r s) = (multiply q s).bind fun r => multiply p r := by
  have lp := List.length_pos_iff.2 hp
  have lq := List.length_pos_iff.2 hq
  have ls := List.length_pos_iff.2 hs
  obtain ⟨r, e, hl, hd⟩ := multiply_spec p q (by omega)
  obtain ⟨r', e', hl', hd'⟩ := multiply_spec q s (by omega)
  obtain ⟨t, f, gl, gd⟩ := multiply_spec r s (by omega)
  obtain ⟨t', f', gl', gd'⟩ := multiply_spec p r' (by omega)
  rw [e, e']
  simp only [Option.bind_some]
  rw [f, f']
  congr 1
  apply den_inj (by omega) (by rw [gd, gd', hd, hd', mul_assoc])

/-! ### C24 -/

theorem differentiate_den (p : List K) (h : p ≠ []) :
    ∃ r, differentiate p = some r ∧ r.length = p.length - 1 ∧ den r = derivative (den p) := by
  cases p with
  | nil => exact absurd rfl h
  | cons a p =>
    refine ⟨_, rfl, by simp, ?_⟩
    ext k
    rw [coeff_derivative, den_coeff, den_coeff, List.getD_cons_succ]
    by_cases hk : k < p.length
    · rw [List.getD_eq_getElem _ _ (by simpa using hk), List.getD_eq_getElem _ _ hk,
        List.getElem_mapIdx]
    · rw [List.getD_eq_default _ _ (by simpa using hk), List.getD_eq_default _ _ (by omega), zero_mul]

theorem integrate_den [CharZero K] (p : List K) : derivative (den (integrate p)) = den p := by
  ext k
  have hk1 : ((k : K) + 1) ≠ 0 := by exact_mod_cast Nat.succ_ne_zero k
  rw [coeff_derivative, den_coeff, den_coeff]
  unfold integrate
  rw [List.getD_cons_succ]
  by_cases hk : k < p.length
  · rw [List.getD_eq_getElem _ _ (by simpa using hk), List.getD_eq_getElem _ _ hk,
      List.getElem_mapIdx]
    field_simp
  · rw [List.getD_eq_default _ _ (by simpa using hk), List.getD_eq_default _ _ (by omega), zero_mul]

/-- Differentiation undoes integration, exactly. -/
theorem diff_integrate [CharZero K] (p : List K) : differentiate (integrate p) = some p := by
  obtain ⟨r, e, hl, hd⟩ := differentiate_den (integrate p) (by simp [integrate])
  rw [e]
  congr 1
  apply den_inj (by rw [hl]; simp [integrate]) (by rw [hd, integrate_den])

/-- `intt` vanishes at 0. -/
theorem integrate_zero (p : List K) : evaluate (integrate p) 0 = 0 := by
  rw [evaluate_den, ← coeff_zero_eq_eval_zero, den_coeff]; rfl

/-- `diff(n)` is the n-th derivative and is defined exactly up to the length. -/
theorem diff_iterate (n : Nat) (p : List K) :
    (n ≤ p.length → ∃ r, diff n p = some r ∧ r.length = p.length - n ∧ den r = derivative^[n] (den p)) ∧
    (p.length < n → diff n p = none) := by
  induction n generalizing p with
  | zero => exact ⟨fun _ => ⟨p, rfl, rfl, rfl⟩, fun h => absurd h (by omega)⟩
  | succ n ih =>
    constructor
    · intro h
      have hp : p ≠ [] := by rintro rfl; simp at h
      obtain ⟨r, e, hl, hd⟩ := differentiate_den p hp
      obtain ⟨t, f, gl, gd⟩ := (ih r).1 (by omega)
      refine ⟨t, ?_, by omega, ?_⟩
      · unfold diff; rw [e]; exact f
      · rw [gd, hd, Function.iterate_succ_apply]
    · intro h
      unfold diff
      by_cases hp : p = []
      · subst hp; rfl
      · obtain ⟨r, e, hl, _⟩ := differentiate_den p hp
        rw [e]
        have := List.length_pos_iff.2 hp
        exact (ih r).2 (by omega)

/-- Over the reals: `diff(1)` is the derivative of `eval`, `intt` is an antiderivative. -/
theorem diff_hasDerivAt (p : List ℝ) (hp : p ≠ []) (x : ℝ) :
    (∃ r, diff 1 p = some r ∧ HasDerivAt (evaluate p) (evaluate r x) x) ∧
      HasDerivAt (evaluate (integrate p)) (evaluate p x) x := by
  have gen : ∀ q : List ℝ, evaluate q = fun x => (den q).eval x :=
    fun q => funext fun x => evaluate_den q x
  constructor
  · obtain ⟨r, e, _, hd⟩ := differentiate_den p hp
    refine ⟨r, by unfold diff; rw [e]; rfl, ?_⟩
    rw [gen p, evaluate_den, hd]
    exact (den p).hasDerivAt x
  · rw [gen (integrate p), evaluate_den]
    have := (den (integrate p)).hasDerivAt x
    rwa [integrate_den] at this

/-- Division by a constant. -/
theorem divC_evaluates (p : List K) (c x : K) : evaluate (divC p c) x = evaluate p x / c := by
  have : den (divC p c) = C (1 / c) * den p := by
    ext k
    rw [coeff_C_mul, den_coeff, den_coeff]
    unfold divC
    by_cases hk : k < p.length
    · rw [List.getD_eq_getElem _ _ (by simpa using hk), List.getD_eq_getElem _ _ hk, List.getElem_map]
      ring
    · rw [List.getD_eq_default _ _ (by simpa using hk), List.getD_eq_default _ _ (by omega), mul_zero]
  rw [evaluate_den, evaluate_den, this, eval_mul, eval_C]
  ring

/-! ### Concrete cases -/

example : multiply [1, 2, (3 : ℚ)] [-1, 1] = some [-1, -1, -1, 3] := by
  norm_num [multiply, mulRow, List.range_succ, List.replicate, List.modify]

example : ∃ r, multiply [1, 2, (3 : ℚ)] [-1, 1] = some r ∧
    ∀ x, evaluate r x = evaluate [1, 2, 3] x * evaluate [-1, 1] x :=
  multiply_evaluates _ _ (.inl (by simp))

example : diff 2 [5, 1, (3 : ℚ)] = some [6] ∧ diff 4 [5, 1, (3 : ℚ)] = none :=
  ⟨by simp [diff, differentiate]; norm_num, (diff_iterate 4 [5, 1, (3 : ℚ)]).2 (by simp)⟩

end Verif.Poly
