import Verif.Weno.Model
import Verif.Basis.Props
import Verif.Legendre.Orth

/-!
# Stencil systems
-/

namespace Verif.Weno

open Verif.Poly Verif.Basis Polynomial

variable {n : Nat} {x : Fin n → ℝ} {psi : Fin n → List ℝ}

/-- Primitive of the combination `∑ v_j ψ_j`. -/
noncomputable def prim (psi : Fin n → List ℝ) (v : Fin n → ℝ) : ℝ[X] :=
  ∑ j, C (v j) * den (integrate (psi j))

theorem prim_deriv (psi : Fin n → List ℝ) (v : Fin n → ℝ) :
    derivative (prim psi v) = ∑ j, C (v j) * den (psi j) := by
  unfold prim
  rw [derivative_sum]
  exact Finset.sum_congr rfl fun j _ => by rw [derivative_C_mul, integrate_den]

theorem coefMat_mulVec (psi : Fin n → List ℝ) (s : Nat) (v : Fin n → ℝ) (i : Fin n) :
    (coefMat psi s).mulVec v i = (prim psi v).eval ((((i : Nat) : ℤ) - s + 1 : ℤ) : ℝ) -
      (prim psi v).eval ((((i : Nat) : ℤ) - s : ℤ) : ℝ) := by
  unfold prim Matrix.mulVec dotProduct coefMat
  rw [eval_finsetSum, eval_finsetSum, ← Finset.sum_sub_distrib]
  refine Finset.sum_congr rfl fun j _ => ?_
  simp only [evaluate_den, eval_mul, eval_C]; ring

/-- The same, as an integral over the cell. -/
theorem coefMat_integral (psi : Fin n → List ℝ) (s : Nat) (v : Fin n → ℝ) (i : Fin n) :
    (coefMat psi s).mulVec v i = ∫ t in (((i : Nat) : ℝ) - s)..(((i : Nat) : ℝ) - s + 1),
      (∑ j, C (v j) * den (psi j)).eval t := by
  rw [coefMat_mulVec, ← prim_deriv, Verif.Legendre.integral_derivative]
  push_cast; rfl

theorem prim_degree (h : IsBasis x psi) (v : Fin n → ℝ) :
    (prim psi v).degree < ((n + 1 : Nat) : WithBot ℕ) := by
  rw [degree_lt_iff_coeff_zero]
  intro m hm
  unfold prim
  rw [finsetSum_coeff]
  refine Finset.sum_eq_zero fun j _ => ?_
  rw [coeff_C_mul, den_coeff, List.getD_eq_default, mul_zero]
  have := (h.den_eq j).2
  simp [integrate]; omega

/-- The stencil matrices are invertible: averages over `n` consecutive cells determine a polynomial of
degree `< n`. -/
theorem coefMat_isUnit (h : IsBasis x psi) (hx : Function.Injective x) (s : Nat) :
    IsUnit (coefMat psi s).det := by
  rw [isUnit_iff_ne_zero]
  intro hdet
  obtain ⟨v, hv, hmv⟩ := Matrix.exists_mulVec_eq_zero_iff.2 hdet
  apply hv
  set Q := prim psi v with hQ
  -- Q has the same value at the n+1 points i - s
  have hstep : ∀ i, i < n → Q.eval (((i : ℤ) - s + 1 : ℤ) : ℝ) = Q.eval (((i : ℤ) - s : ℤ) : ℝ) := by
    intro i hi
    have := congrFun hmv ⟨i, hi⟩
    rw [coefMat_mulVec, Pi.zero_apply, sub_eq_zero] at this
    exact this
  have hall : ∀ i, i ≤ n → Q.eval (((i : ℤ) - s : ℤ) : ℝ) = Q.eval (((0 : ℤ) - s : ℤ) : ℝ) := by
    intro i
    induction i with
    | zero => intro _; rfl
    | succ i ih =>
      intro hi
      rw [← ih (by omega), ← hstep i (by omega)]
      congr 1; push_cast; ring
  have hconst : Q - C (Q.eval (((0 : ℤ) - s : ℤ) : ℝ)) = 0 := by
    refine eq_zero_of_degree_lt_of_eval_index_eq_zero
      (v := fun i : Fin (n + 1) => ((((i : Nat) : ℤ) - s : ℤ) : ℝ)) Finset.univ ?_ ?_ ?_
    · intro a _ b _ hab
      have : (((a : Nat) : ℤ) - s) = ((b : Nat) : ℤ) - s := Int.cast_injective hab
      exact Fin.ext (by omega)
    · rw [Finset.card_univ, Fintype.card_fin]
      refine lt_of_le_of_lt (degree_sub_le _ _) (max_lt (prim_degree h v) ?_)
      exact lt_of_le_of_lt degree_C_le (by exact_mod_cast Nat.succ_pos n)
    · intro i _
      rw [eval_sub, eval_C, hall i (by omega), sub_self]
  have hd : ∑ j, C (v j) * den (psi j) = 0 := by
    rw [← prim_deriv, ← hQ, sub_eq_zero.1 hconst, derivative_C]
  funext k
  have := congrArg (eval (x k)) hd
  rw [eval_finsetSum, eval_zero, Finset.sum_eq_single k] at this
  · rw [eval_mul, eval_C, (h.den_eq k).1, Lagrange.eval_basis_self hx.injOn (Finset.mem_univ k),
      mul_one] at this
    exact this
  · intro j _ hj
    rw [eval_mul, (h.den_eq j).1, Lagrange.eval_basis_of_ne hj (Finset.mem_univ k), mul_zero]
  · simp

/-- A stencil whose block starts `s` rows above the centre row `n-1`. -/
theorem stencil_mean (h : IsBasis x psi) (hx : Function.Injective x) (data : Nat → ℝ) (b s : Nat)
    (hs : s < n) (hbs : b + s = n - 1) :
    ∫ t in (0 : ℝ)..1, (∑ j, C (((coefMat psi s)⁻¹.mulVec (block data b)) j) * den (psi j)).eval t =
      data (n - 1) := by
  have e : (coefMat psi s).mulVec ((coefMat psi s)⁻¹.mulVec (block data b)) = block data b := by
    rw [Matrix.mulVec_mulVec, Matrix.mul_nonsing_inv _ (coefMat_isUnit h hx s), Matrix.one_mulVec]
  have := congrFun e ⟨s, hs⟩
  rw [coefMat_integral] at this
  simp only [sub_self, zero_add] at this
  rw [this]
  unfold block; rw [hbs]

theorem stencil_poly (h : IsBasis x psi) (hx : Function.Injective x) (data : Nat → ℝ) (b s : Nat)
    (hbs : b + s = n - 1) (f : ℝ[X]) (hf : f.degree < n)
    (hd : ∀ r, r < 2 * n - 1 → data r = ∫ t in ((r : ℝ) - (n - 1 : Nat))..((r : ℝ) - (n - 1 : Nat) + 1), f.eval t) :
    (coefMat psi s)⁻¹.mulVec (block data b) = fun j => f.eval (x j) := by
  have e : (coefMat psi s).mulVec (fun j => f.eval (x j)) = block data b := by
    funext i
    rw [coefMat_integral, h.interp hx f hf]
    unfold block
    have hi := i.2
    rw [hd _ (by omega), ← hbs]
    push_cast
    congr 1 <;> ring
  rw [← e, Matrix.mulVec_mulVec, Matrix.nonsing_inv_mul _ (coefMat_isUnit h hx s), Matrix.one_mulVec]

/-! ### Accumulation -/

/-- The quadratic form of `SIG` is non-negative and the constants are positive. -/
structure Tables.Pos (T : Tables n) : Prop where
  sig : ∀ w, 0 ≤ w ⬝ᵥ (T.sig.mulVec w)
  lamS : 0 < T.lamS
  lamC : 0 < T.lamC
  eps : 0 < T.eps

theorem weight_pos (T : Tables n) (hT : T.Pos) (w : Fin n → ℝ) (lam : ℝ) (hl : 0 < lam) :
    0 < weight T w lam := by
  have h := hT.sig w
  have he := hT.eps
  unfold weight
  have : 0 < w ⬝ᵥ (T.sig.mulVec w) + T.eps := by linarith
  positivity

/-- Some stencil is active at `ind`. -/
def Active (n : Nat) (nx gap ind : Int) : Prop :=
  ind ≥ gap ∨ ind ≤ nx - gap - 1 ∨ (n > 2 ∧ ind + fn2 n ≥ gap) ∨
    (n > 2 ∧ n % 2 = 0 ∧ ind - fn2 n ≤ nx - gap - 1)

/-- Invariant of the accumulation: `l(num) = c * den`, `0 ≤ den`, positive as soon as a stencil was
active. -/
def AccInv (l : (Fin n → ℝ) →ₗ[ℝ] ℝ) (c : ℝ) (act : Prop) (s : (Fin n → ℝ) × ℝ) : Prop :=
  l s.1 = c * s.2 ∧ 0 ≤ s.2 ∧ (act ↔ 0 < s.2)

theorem acc_inv (l : (Fin n → ℝ) →ₗ[ℝ] ℝ) (c : ℝ) (act : Prop) (s : (Fin n → ℝ) × ℝ)
    (h : AccInv l c act s) (cond : Bool) (w : Fin n → ℝ) (o : ℝ) (ho : 0 < o) (hw : l w = c) :
    AccInv l c (act ∨ cond = true) (acc cond w o s) := by
  obtain ⟨h1, h2, h3⟩ := h
  unfold acc
  cases cond with
  | false => exact ⟨h1, h2, by simpa using h3⟩
  | true =>
    refine ⟨?_, by simp; linarith, by simp; linarith⟩
    simp only [if_true, map_add, map_smul, smul_eq_mul, h1, hw]; ring

theorem fn2_cn2 (n : Nat) (hn : 0 < n) : fn2 n + cn2 n = n - 1 ∧ fn2 n < n ∧ cn2 n < n := by
  unfold fn2 cn2; omega

/-- Any linear functional that has the same value on the four stencil solutions has it on the
result. -/
theorem coeffs_functional (T : Tables n) (hT : T.Pos) (undef : ℝ) (data : Nat → ℝ) (nx gap ind : Int)
    (l : (Fin n → ℝ) →ₗ[ℝ] ℝ) (c : ℝ)
    (hL : l (T.mLinv.mulVec (block data 0)) = c) (hR : l (T.mRinv.mulVec (block data (n - 1))) = c)
    (hCL : l (T.mCLinv.mulVec (block data (fn2 n))) = c)
    (hCR : l (T.mCRinv.mulVec (block data (cn2 n))) = c) :
    (Active n nx gap ind ↔ 0 < (coeffsND T data nx gap ind).2) ∧
      (Active n nx gap ind → l (coeffs T undef data nx gap ind) = c) := by
  have h0 : AccInv l c False ((0 : Fin n → ℝ), (0 : ℝ)) := ⟨by simp, le_refl _, by simp⟩
  have h1 := acc_inv l c _ _ h0 (decide (ind ≥ gap)) _ _
    (weight_pos T hT (T.mLinv.mulVec (block data 0)) _ hT.lamS) hL
  have h2 := acc_inv l c _ _ h1 (decide (ind ≤ nx - gap - 1)) _ _
    (weight_pos T hT (T.mRinv.mulVec (block data (n - 1))) _ hT.lamS) hR
  have h3 := acc_inv l c _ _ h2 (decide (n > 2) && decide (ind + fn2 n ≥ gap)) _ _
    (weight_pos T hT (T.mCLinv.mulVec (block data (fn2 n))) _ hT.lamC) hCL
  have h4 := acc_inv l c _ _ h3 (decide (n > 2) && (decide (n % 2 = 0) &&
    decide (ind - fn2 n ≤ nx - gap - 1))) _ _ (weight_pos T hT (T.mCRinv.mulVec (block data (cn2 n))) _ hT.lamC) hCR
  obtain ⟨e1, e2, e3⟩ := h4
  have e3' : Active n nx gap ind ↔ 0 < (coeffsND T data nx gap ind).2 := by
    refine Iff.trans ?_ e3
    unfold Active
    simp only [Bool.and_eq_true, decide_eq_true_eq, false_or, or_assoc]
  refine ⟨e3', fun ha => ?_⟩
  have hpos := e3'.1 ha
  unfold coeffs
  simp only []
  rw [if_neg hpos.ne']
  have : (fun k => (coeffsND T data nx gap ind).1 k / (coeffsND T data nx gap ind).2) =
      (coeffsND T data nx gap ind).2⁻¹ • (coeffsND T data nx gap ind).1 := by
    funext k; rw [Pi.smul_apply, smul_eq_mul, div_eq_inv_mul]
  rw [this, map_smul, smul_eq_mul]
  have e1' : l (coeffsND T data nx gap ind).1 = c * (coeffsND T data nx gap ind).2 := e1
  rw [e1']; field_simp

end Verif.Weno
