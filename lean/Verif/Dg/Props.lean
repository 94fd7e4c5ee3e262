import Verif.Dg.Galerkin

/-!
# The predictor equations (C29, C30, C60)
-/

namespace Verif.Dg

open Verif.Poly Verif.Basis Polynomial

variable {n : Nat} {ι : Type} {T : Tab n}

theorem foldl_sub (l : List (Fin n)) (f : Fin n → ℝ) (a : ℝ) :
    l.foldl (fun tmp k => tmp - f k) a = a - (l.map f).sum := by
  induction l generalizing a with
  | nil => simp
  | cons k l ih => rw [List.foldl_cons, ih, List.map_cons, List.sum_cons]; ring

theorem foldl_sub_univ (f : Fin n → ℝ) (a : ℝ) :
    (List.finRange n).foldl (fun tmp k => tmp - f k) a = a - ∑ k, f k := by
  rw [foldl_sub, ← List.sum_ofFn, List.ofFn_eq_map]

theorem row_div (t i : Fin n) : ((t : Nat) * n + i) / n = t ∧ ((t : Nat) * n + i) % n = i := by
  have hn : 0 < n := by have := i.2; omega
  constructor
  · rw [Nat.mul_comm, Nat.mul_add_div hn, Nat.div_eq_of_lt i.2, Nat.add_zero]
  · rw [Nat.mul_comm, Nat.mul_add_mod, Nat.mod_eq_of_lt i.2]

theorem row_div3 (t i j : Fin n) : (((t : Nat) * n + i) * n + j) / n = t * n + i ∧
    (((t : Nat) * n + i) * n + j) % n = j := by
  have hn : 0 < n := by have := j.2; omega
  constructor
  · rw [Nat.mul_comm _ n, Nat.mul_add_div hn, Nat.div_eq_of_lt j.2, Nat.add_zero]
  · rw [Nat.mul_comm _ n, Nat.mul_add_mod, Nat.mod_eq_of_lt j.2]

theorem initialCondition1_row (T : Tab n) (w : Nat → ι → ℝ) (t i : Fin n) (v : ι) :
    initialCondition1 T w (t * n + i) v = evaluate (T.psi t) 0 * T.w i * w i v := by
  obtain ⟨h1, h2⟩ := row_div t i
  unfold initialCondition1
  simp only [h1, h2, t.2, i.2, and_self, dite_true]
  rfl

theorem initialCondition2_row (T : Tab n) (w : Nat → ι → ℝ) (t i j : Fin n) (v : ι) :
    initialCondition2 T w ((t * n + i) * n + j) v =
      evaluate (T.psi t) 0 * T.w i * T.w j * w (i * n + j) v := by
  obtain ⟨h1, h2⟩ := row_div3 t i j
  obtain ⟨h3, h4⟩ := row_div t i
  unfold initialCondition2
  simp only [h1, h2, h3, h4, t.2, i.2, j.2, and_self, dite_true]
  rfl

/-! ### What the residual means -/

/-- The Newton objective is, up to the (positive) quadrature weight, the strong form of the equations at
the space-time node plus the mismatch with the reconstructed initial data: with `q_k` the nodal values,
`w_i [ w_t ( dt (S - B q_x - F_x) - q_τ ) + ψ_t(0) (w - q|_{τ=0}) ]`. -/
theorem obj1_strong (h : T.Ok) (S : Sys ι) (q w : Nat → ι → ℝ) (dt dx : ℝ) (t i : Fin n) (v : ι) :
    obj1 S T q (initialCondition1 T w) dt dx t i v =
      T.w i * (T.w t * (dt * (S.source (q (t * n + i)) v
          - S.bdot 0 (q (t * n + i)) (dqdx1 T q dx t i) v
          - (∑ j : Fin n, T.dervals i j * S.flux 0 (q (t * n + j)) v) / dx)
        - ∑ k : Fin n, T.dervals t k * q (k * n + i) v)
        + evaluate (T.psi t) 0 * (w i v - ∑ k : Fin n, evaluate (T.psi k) 0 * q (k * n + i) v)) := by
  unfold obj1
  rw [foldl_sub_univ]
  unfold rhs1
  simp only []
  rw [initialCondition1_row]
  have e1 : ∑ k : Fin n, T.mat t k * T.w i * q (k * n + i) v =
      T.w i * (evaluate (T.psi t) 0 * ∑ k : Fin n, evaluate (T.psi k) 0 * q (k * n + i) v +
        T.w t * ∑ k : Fin n, T.dervals t k * q (k * n + i) v) := by
    rw [Finset.mul_sum, Finset.mul_sum, ← Finset.sum_add_distrib, Finset.mul_sum]
    exact Finset.sum_congr rfl fun k _ => by rw [mat_eq h]; ring
  have e2 : ∑ j : Fin n, T.der i j * S.flux 0 (q (t * n + j)) v =
      T.w i * ∑ j : Fin n, T.dervals i j * S.flux 0 (q (t * n + j)) v := by
    rw [Finset.mul_sum]
    exact Finset.sum_congr rfl fun j _ => by rw [der_eq h]; ring
  rw [e1, e2]; ring

/-- C60, one dimension: if `q(x, τ)` is polynomial of degree `< N` in each variable with initial value the
reconstruction, its flux is polynomial in `x` on each time node, and the equations hold at the nodes, then
the nodal values are an exact zero of the predictor. -/
theorem obj1_exact_solution (h : T.Ok) (S : Sys ι) (q w : Nat → ι → ℝ) (dt dx : ℝ) (v : ι)
    (pt : Fin n → ℝ[X]) (fx : Fin n → ℝ[X])
    (hpt : ∀ i, (pt i).degree < (n : WithBot ℕ)) (hfx : ∀ t, (fx t).degree < (n : WithBot ℕ))
    (hq : ∀ t i : Fin n, q (t * n + i) v = (pt i).eval (T.nodes t))
    (hw : ∀ i : Fin n, w i v = (pt i).eval 0)
    (hf : ∀ t j : Fin n, S.flux 0 (q (t * n + j)) v = (fx t).eval (T.nodes j))
    (hpde : ∀ t i : Fin n, (derivative (pt i)).eval (T.nodes t) =
      dt * (S.source (q (t * n + i)) v - S.bdot 0 (q (t * n + i)) (dqdx1 T q dx t i) v
        - (derivative (fx t)).eval (T.nodes i) / dx)) (t i : Fin n) :
    obj1 S T q (initialCondition1 T w) dt dx t i v = 0 := by
  rw [obj1_strong h]
  simp only [hf]
  rw [dervals_mulVec h _ (hfx t)]
  have e1 : ∑ k : Fin n, T.dervals t k * q (k * n + i) v = (derivative (pt i)).eval (T.nodes t) := by
    simp only [hq]; exact dervals_mulVec h _ (hpt i) t
  have e2 : ∑ k : Fin n, evaluate (T.psi k) 0 * q (k * n + i) v = (pt i).eval 0 := by
    simp only [hq]; exact (end_values_exact T.nodes h.inj T.psi h.basis (pt i) (hpt i)).1
  rw [e1, e2, hpde t i, hw i]; ring

/-- C29, last part, one dimension: a state constant in space-time with vanishing source solves the
predictor equations. -/
theorem constant_solves1 (h : T.Ok) (S : Sys ι) (c : ι → ℝ) (hs : S.source c = 0)
    (hb : S.bdot 0 c 0 = 0) (q w : Nat → ι → ℝ) (dt dx : ℝ)
    (hq : ∀ t i : Fin n, q (t * n + i) = c) (hw : ∀ i : Fin n, w i = c) (t i : Fin n) (v : ι) :
    obj1 S T q (initialCondition1 T w) dt dx t i v = 0 := by
  have hd : dqdx1 T q dx t i = 0 := by
    funext u
    unfold dqdx1
    simp only [hq]
    rw [← Finset.sum_mul, dervals_const h, zero_mul, zero_div]; rfl
  rw [obj1_strong h, hd]
  simp only [hq, hw, hs, hb, ← Finset.sum_mul, dervals_const h]
  have e := (end_values_exact T.nodes h.inj T.psi h.basis (C 1) (degree_one_lt h.pos 1)).1
  simp only [eval_C, mul_one] at e
  have e' : ∑ k, evaluate (T.psi k) 0 = 1 := e
  rw [e']; simp

/-! ### Two dimensions -/

theorem dq2_x (T : Tab n) (q : Nat → ι → ℝ) (dx : ℝ) (t i j : Fin n) (v : ι) :
    dq2 T q 0 dx t i j v = (∑ k : Fin n, T.dervals i k * q ((t * n + k) * n + j) v) / dx := by
  obtain ⟨h1, h2⟩ := row_div i j
  unfold dq2 derivs2d
  rw [if_pos rfl]
  simp only [h1, h2, i.2, dite_true, Fin.eta]
  congr 1
  refine Finset.sum_congr rfl fun k _ => ?_
  rw [show (t : Nat) * n * n + (j + k * n) = (t * n + k) * n + j by ring]

theorem dq2_y (T : Tab n) (q : Nat → ι → ℝ) (dy : ℝ) (t i j : Fin n) (v : ι) :
    dq2 T q 1 dy t i j v = (∑ k : Fin n, T.dervals j k * q ((t * n + i) * n + k) v) / dy := by
  obtain ⟨h1, h2⟩ := row_div i j
  unfold dq2 derivs2d
  rw [if_neg (by norm_num), if_pos rfl]
  simp only [h1, h2, i.2, j.2, and_self, dite_true, Fin.eta]
  congr 1
  refine Finset.sum_congr rfl fun k _ => ?_
  rw [show (t : Nat) * n * n + (i * n + k) = (t * n + i) * n + k by ring]

theorem obj2_strong (h : T.Ok) (S : Sys ι) (q w : Nat → ι → ℝ) (dt dx dy : ℝ) (t i j : Fin n) (v : ι) :
    obj2 S T q (initialCondition2 T w) dt dx dy t i j v =
      T.w i * T.w j * (T.w t * (dt * (S.source (q ((t * n + i) * n + j)) v
          - S.bdot 0 (q ((t * n + i) * n + j)) (dq2 T q 0 dx t i j) v
          - S.bdot 1 (q ((t * n + i) * n + j)) (dq2 T q 1 dy t i j) v
          - (∑ k : Fin n, T.dervals i k * S.flux 0 (q ((t * n + k) * n + j)) v) / dx
          - (∑ k : Fin n, T.dervals j k * S.flux 1 (q ((t * n + i) * n + k)) v) / dy)
        - ∑ k : Fin n, T.dervals t k * q ((k * n + i) * n + j) v)
        + evaluate (T.psi t) 0 * (w (i * n + j) v -
            ∑ k : Fin n, evaluate (T.psi k) 0 * q ((k * n + i) * n + j) v)) := by
  unfold obj2
  rw [foldl_sub_univ]
  unfold rhs2
  simp only []
  rw [foldl_sub_univ, initialCondition2_row]
  have e1 : ∑ k : Fin n, T.mat t k * T.w i * T.w j * q ((k * n + i) * n + j) v =
      T.w i * T.w j * (evaluate (T.psi t) 0 * ∑ k : Fin n, evaluate (T.psi k) 0 * q ((k * n + i) * n + j) v +
        T.w t * ∑ k : Fin n, T.dervals t k * q ((k * n + i) * n + j) v) := by
    rw [Finset.mul_sum, Finset.mul_sum, ← Finset.sum_add_distrib, Finset.mul_sum]
    exact Finset.sum_congr rfl fun k _ => by rw [mat_eq h]; ring
  have e2 : ∑ k : Fin n, T.w t * T.der i k * (T.w j * S.flux 0 (q ((t * n + k) * n + j)) v) / dx =
      T.w t * T.w i * T.w j * ((∑ k : Fin n, T.dervals i k * S.flux 0 (q ((t * n + k) * n + j)) v) / dx) := by
    rw [Finset.sum_div, Finset.mul_sum]
    exact Finset.sum_congr rfl fun j _ => by rw [der_eq h]; ring
  have e3 : ∑ k : Fin n, T.der j k * S.flux 1 (q ((t * n + i) * n + k)) v =
      T.w j * ∑ k : Fin n, T.dervals j k * S.flux 1 (q ((t * n + i) * n + k)) v := by
    rw [Finset.mul_sum]
    exact Finset.sum_congr rfl fun j _ => by rw [der_eq h]; ring
  rw [e1, e2, e3]; ring

/-- C60, two dimensions. -/
theorem obj2_exact_solution (h : T.Ok) (S : Sys ι) (q w : Nat → ι → ℝ) (dt dx dy : ℝ) (v : ι)
    (pt fx fy : Fin n → Fin n → ℝ[X]) (hpt : ∀ i j, (pt i j).degree < (n : WithBot ℕ))
    (hfx : ∀ t j, (fx t j).degree < (n : WithBot ℕ)) (hfy : ∀ t i, (fy t i).degree < (n : WithBot ℕ))
    (hq : ∀ t i j : Fin n, q ((t * n + i) * n + j) v = (pt i j).eval (T.nodes t))
    (hw : ∀ i j : Fin n, w (i * n + j) v = (pt i j).eval 0)
    (hf : ∀ t i j : Fin n, S.flux 0 (q ((t * n + i) * n + j)) v = (fx t j).eval (T.nodes i))
    (hg : ∀ t i j : Fin n, S.flux 1 (q ((t * n + i) * n + j)) v = (fy t i).eval (T.nodes j))
    (hpde : ∀ t i j : Fin n, (derivative (pt i j)).eval (T.nodes t) =
      dt * (S.source (q ((t * n + i) * n + j)) v
        - S.bdot 0 (q ((t * n + i) * n + j)) (dq2 T q 0 dx t i j) v
        - S.bdot 1 (q ((t * n + i) * n + j)) (dq2 T q 1 dy t i j) v
        - (derivative (fx t j)).eval (T.nodes i) / dx - (derivative (fy t i)).eval (T.nodes j) / dy))
    (t i j : Fin n) : obj2 S T q (initialCondition2 T w) dt dx dy t i j v = 0 := by
  have e0 : ∑ k : Fin n, T.dervals i k * S.flux 0 (q ((t * n + k) * n + j)) v =
      (derivative (fx t j)).eval (T.nodes i) := by
    simp only [hf]; exact dervals_mulVec h _ (hfx t j) i
  have e0' : ∑ k : Fin n, T.dervals j k * S.flux 1 (q ((t * n + i) * n + k)) v =
      (derivative (fy t i)).eval (T.nodes j) := by
    simp only [hg]; exact dervals_mulVec h _ (hfy t i) j
  have e1 : ∑ k : Fin n, T.dervals t k * q ((k * n + i) * n + j) v =
      (derivative (pt i j)).eval (T.nodes t) := by
    simp only [hq]; exact dervals_mulVec h _ (hpt i j) t
  have e2 : ∑ k : Fin n, evaluate (T.psi k) 0 * q ((k * n + i) * n + j) v = (pt i j).eval 0 := by
    simp only [hq]; exact (end_values_exact T.nodes h.inj T.psi h.basis (pt i j) (hpt i j)).1
  rw [obj2_strong h, e0, e0', e1, e2, hpde t i j, hw i j]; ring

/-- C29, last part, two dimensions. -/
theorem constant_solves2 (h : T.Ok) (S : Sys ι) (c : ι → ℝ) (hs : S.source c = 0)
    (hb : ∀ d, S.bdot d c 0 = 0) (q w : Nat → ι → ℝ) (dt dx dy : ℝ)
    (hq : ∀ t i j : Fin n, q ((t * n + i) * n + j) = c) (hw : ∀ i j : Fin n, w (i * n + j) = c)
    (t i j : Fin n) (v : ι) : obj2 S T q (initialCondition2 T w) dt dx dy t i j v = 0 := by
  have hd : dq2 T q 0 dx t i j = 0 := by
    funext u
    rw [dq2_x]
    simp only [hq]
    rw [← Finset.sum_mul, dervals_const h, zero_mul, zero_div]; rfl
  have hd' : dq2 T q 1 dy t i j = 0 := by
    funext u
    rw [dq2_y]
    simp only [hq]
    rw [← Finset.sum_mul, dervals_const h, zero_mul, zero_div]; rfl
  rw [obj2_strong h, hd, hd']
  simp only [hq, hw, hs, hb, ← Finset.sum_mul, dervals_const h]
  have e := (end_values_exact T.nodes h.inj T.psi h.basis (C 1) (degree_one_lt h.pos 1)).1
  simp only [eval_C, mul_one] at e
  have e' : ∑ k, evaluate (T.psi k) 0 = 1 := e
  rw [e']; simp

/-! ### The linear solve -/

theorem sum_range_mul (a b : Nat) (f : Nat → ℝ) :
    ∑ c ∈ Finset.range (a * b), f c = ∑ k : Fin a, ∑ j : Fin b, f (k * b + j) := by
  rw [Finset.sum_range, ← finProdFinEquiv.sum_comp, Fintype.sum_prod_type]
  refine Finset.sum_congr rfl fun k _ => Finset.sum_congr rfl fun j _ => ?_
  congr 1
  simp [finProdFinEquiv]; ring

theorem u1_entry (T : Tab n) (junk : Nat → Nat → ℝ) :
    ∃ U, T.u1 junk = some U ∧ U.rows = n * n ∧ U.cols = n * n ∧ ∀ t i k j : Fin n,
      U.e (t * n + i) (k * n + j) = T.mat t k * (if i = j then T.w i else 0) := by
  unfold Tab.u1 kron
  refine ⟨kronPair junk T.matMt T.wMt, by simp [kronRev], (kronPair_size junk _ _).1,
    (kronPair_size junk _ _).2, fun t i k j => ?_⟩
  have := kronPair_entry junk T.matMt T.wMt t i k j t.2 i.2 k.2 j.2
  refine Eq.trans this ?_
  simp [Tab.matMt, Tab.wMt, Fin.ext_iff]

theorem u2_entry (T : Tab n) (junk : Nat → Nat → ℝ) :
    ∃ U, T.u2 junk = some U ∧ U.rows = n * (n * n) ∧ U.cols = n * (n * n) ∧ ∀ t i i' k j j' : Fin n,
      U.e ((t * n + i) * n + i') ((k * n + j) * n + j') =
        T.mat t k * (if i = j then T.w i else 0) * (if i' = j' then T.w i' else 0) := by
  unfold Tab.u2
  obtain ⟨U, hU, -⟩ : ∃ U, kron junk [T.matMt, T.wMt, T.wMt] = some U ∧ True := by
    simp [kron, kronRev]
  have hk : kron junk [T.matMt, T.wMt, T.wMt] =
      some (kronPair junk T.matMt (kronPair junk T.wMt T.wMt)) := by simp [kron, kronRev]
  obtain ⟨s1, s2⟩ := kronPair_size junk T.wMt T.wMt
  obtain ⟨s3, s4⟩ := kronPair_size junk T.matMt (kronPair junk T.wMt T.wMt)
  refine ⟨_, hk, ?_, ?_, fun t i i' k j j' => ?_⟩
  · rw [s3, s1]; rfl
  · rw [s4, s2]; rfl
  · have hi : (i : Nat) * n + i' < (kronPair junk T.wMt T.wMt).rows := by
      rw [s1]
      calc (i : Nat) * n + i' < i * n + n := by have := i'.2; omega
        _ = (i + 1) * n := by ring
        _ ≤ _ := Nat.mul_le_mul_right _ i.2
    have hj : (j : Nat) * n + j' < (kronPair junk T.wMt T.wMt).cols := by
      rw [s2]
      calc (j : Nat) * n + j' < j * n + n := by have := j'.2; omega
        _ = (j + 1) * n := by ring
        _ ≤ _ := Nat.mul_le_mul_right _ j.2
    have e1 := kronPair_entry junk T.matMt (kronPair junk T.wMt T.wMt) t (i * n + i') k (j * n + j')
      t.2 hi k.2 hj
    have e2 := kronPair_entry junk T.wMt T.wMt i i' j j' i.2 i'.2 j.2 j'.2
    rw [s1, s2] at e1
    have r1 : (t : Nat) * (T.wMt.rows * T.wMt.rows) + (i * n + i') = (t * n + i) * n + i' := by
      show (t : Nat) * (n * n) + _ = _; ring
    have r2 : (k : Nat) * (T.wMt.cols * T.wMt.cols) + (j * n + j') = (k * n + j) * n + j' := by
      show (k : Nat) * (n * n) + _ = _; ring
    rw [r1, r2] at e1
    refine e1.trans ?_
    refine (congrArg (T.matMt.e t k * ·) e2).trans ?_
    simp [Tab.matMt, Tab.wMt, Fin.ext_iff, mul_assoc]

theorem solves1_iff {T : Tab n} {U : Mt ℝ} (hr : U.rows = n * n) (hc : U.cols = n * n)
    (he : ∀ t i k j : Fin n, U.e (t * n + i) (k * n + j) = T.mat t k * (if i = j then T.w i else 0))
    (x b : Nat → ι → ℝ) : Solves U x b ↔ ∀ (t i : Fin n) (v : ι),
      ∑ k : Fin n, T.mat t k * T.w i * x (k * n + i) v = b (t * n + i) v := by
  have key : ∀ (t i : Fin n) (v : ι), ∑ c ∈ Finset.range U.cols, U.e (t * n + i) c * x c v =
      ∑ k : Fin n, T.mat t k * T.w i * x (k * n + i) v := by
    intro t i v
    rw [hc, sum_range_mul]
    refine Finset.sum_congr rfl fun k _ => ?_
    simp only [he]
    rw [Finset.sum_eq_single i]
    · rw [if_pos rfl]
    · intro j _ hj; rw [if_neg (Ne.symm hj)]; ring
    · intro hi; exact absurd (Finset.mem_univ i) hi
  constructor
  · intro h t i v
    rw [← key]
    refine h _ ?_ v
    rw [hr]
    calc (t : Nat) * n + i < t * n + n := by have := i.2; omega
      _ = (t + 1) * n := by ring
      _ ≤ _ := Nat.mul_le_mul_right _ t.2
  · intro h r hr' v
    rw [hr] at hr'
    have hn : 0 < n := Nat.pos_of_ne_zero fun h0 => by rw [h0] at hr'; simp at hr'
    have ht : r / n < n := Nat.div_lt_of_lt_mul hr'
    have := h ⟨r / n, ht⟩ ⟨r % n, Nat.mod_lt _ hn⟩ v
    rw [← key] at this
    simpa only [Nat.div_add_mod' r n] using this

/-- C30: a vector `q` satisfies `U1 q = rhs1(q)` — an exact fixed point of the iteration
`q ← DG_U1.solve(rhs1(q))` — exactly when it is a zero of the Newton objective. -/
theorem fixed_point_iff_zero1 (T : Tab n) (S : Sys ι) (junk : Nat → Nat → ℝ) (q Ww b : Nat → ι → ℝ)
    (dt dx : ℝ) (hb : ∀ t i : Fin n, b (t * n + i) = rhs1 S T q Ww dt dx t i) :
    ∃ U, T.u1 junk = some U ∧
      (Solves U q b ↔ ∀ t i : Fin n, obj1 S T q Ww dt dx t i = 0) := by
  obtain ⟨U, hU, hr, hc, he⟩ := u1_entry T junk
  refine ⟨U, hU, ?_⟩
  rw [solves1_iff hr hc he]
  constructor
  · intro h t i
    funext v
    unfold obj1
    rw [foldl_sub_univ, h t i v, hb t i]; simp
  · intro h t i v
    have := congrFun (h t i) v
    unfold obj1 at this
    rw [foldl_sub_univ] at this
    rw [hb t i]
    simpa using (sub_eq_zero.1 this).symm

theorem solves2_iff {T : Tab n} {U : Mt ℝ} (hr : U.rows = n * (n * n)) (hc : U.cols = n * (n * n))
    (he : ∀ t i i' k j j' : Fin n, U.e ((t * n + i) * n + i') ((k * n + j) * n + j') =
        T.mat t k * (if i = j then T.w i else 0) * (if i' = j' then T.w i' else 0))
    (x b : Nat → ι → ℝ) : Solves U x b ↔ ∀ (t i j : Fin n) (v : ι),
      ∑ k : Fin n, T.mat t k * T.w i * T.w j * x ((k * n + i) * n + j) v = b ((t * n + i) * n + j) v := by
  have key : ∀ (t i j : Fin n) (v : ι),
      ∑ c ∈ Finset.range U.cols, U.e ((t * n + i) * n + j) c * x c v =
      ∑ k : Fin n, T.mat t k * T.w i * T.w j * x ((k * n + i) * n + j) v := by
    intro t i j v
    rw [hc, show n * (n * n) = (n * n) * n by ring, sum_range_mul]
    have h2 := sum_range_mul n n fun c => ∑ j' : Fin n, U.e ((t * n + i) * n + j) (c * n + j') * x (c * n + j') v
    rw [Finset.sum_range] at h2
    rw [h2]
    refine Finset.sum_congr rfl fun k _ => ?_
    simp only [he]
    rw [Finset.sum_eq_single i, Finset.sum_eq_single j]
    · rw [if_pos rfl, if_pos rfl]
    · intro j' _ hj; rw [if_neg (Ne.symm hj)]; ring
    · intro hi; exact absurd (Finset.mem_univ j) hi
    · intro i' _ hi
      refine Finset.sum_eq_zero fun j' _ => ?_
      rw [if_neg (Ne.symm hi)]; ring
    · intro hi; exact absurd (Finset.mem_univ i) hi
  have lt2 : ∀ a b : Fin n, (a : Nat) * n + b < n * n := by
    intro a b
    calc (a : Nat) * n + b < a * n + n := by have := b.2; omega
      _ = (a + 1) * n := by ring
      _ ≤ _ := Nat.mul_le_mul_right _ a.2
  constructor
  · intro h t i j v
    rw [← key]
    refine h _ ?_ v
    rw [hr]
    calc ((t : Nat) * n + i) * n + j < (t * n + i) * n + n := by have := j.2; omega
      _ = (t * n + i + 1) * n := by ring
      _ ≤ (n * n) * n := Nat.mul_le_mul_right _ (lt2 t i)
      _ = _ := by ring
  · intro h r hr' v
    rw [hr] at hr'
    have hn : 0 < n := Nat.pos_of_ne_zero fun h0 => by rw [h0] at hr'; simp at hr'
    have h1 : r / n < n * n := Nat.div_lt_of_lt_mul hr'
    have ht : r / n / n < n := Nat.div_lt_of_lt_mul h1
    have := h ⟨r / n / n, ht⟩ ⟨r / n % n, Nat.mod_lt _ hn⟩ ⟨r % n, Nat.mod_lt _ hn⟩ v
    rw [← key] at this
    simpa only [Nat.div_add_mod' (r / n) n, Nat.div_add_mod' r n] using this

theorem fixed_point_iff_zero2 (T : Tab n) (S : Sys ι) (junk : Nat → Nat → ℝ) (q Ww b : Nat → ι → ℝ)
    (dt dx dy : ℝ) (hb : ∀ t i j : Fin n, b ((t * n + i) * n + j) = rhs2 S T q Ww dt dx dy t i j) :
    ∃ U, T.u2 junk = some U ∧
      (Solves U q b ↔ ∀ t i j : Fin n, obj2 S T q Ww dt dx dy t i j = 0) := by
  obtain ⟨U, hU, hr, hc, he⟩ := u2_entry T junk
  refine ⟨U, hU, ?_⟩
  rw [solves2_iff hr hc he]
  constructor
  · intro h t i j
    funext v
    unfold obj2
    rw [foldl_sub_univ, h t i j v, hb t i j]; simp
  · intro h t i j v
    have := congrFun (h t i j) v
    unfold obj2 at this
    rw [foldl_sub_univ] at this
    rw [hb t i j]
    simpa using (sub_eq_zero.1 this).symm

/-- The linear systems have at most one solution. -/
theorem solve1_unique (h : T.Ok) {U : Mt ℝ} (hr : U.rows = n * n) (hc : U.cols = n * n)
    (he : ∀ t i k j : Fin n, U.e (t * n + i) (k * n + j) = T.mat t k * (if i = j then T.w i else 0))
    (x y b : Nat → ι → ℝ) (hx : Solves U x b) (hy : Solves U y b) (r : Nat) (hrn : r < n * n) :
    x r = y r := by
  rw [solves1_iff hr hc he] at hx hy
  have hn := h.pos
  funext v
  have key : ∀ i : Fin n, (fun k : Fin n => x (k * n + i) v - y (k * n + i) v) = 0 := by
    intro i
    by_contra hne
    have hu := (mat_isUnit h).ne_zero
    apply hu
    apply Matrix.exists_mulVec_eq_zero_iff.1
    refine ⟨_, hne, ?_⟩
    funext t
    have e1 := hx t i v
    have e2 := hy t i v
    have hw := h.wpos i
    show ∑ k, T.mat t k * (x (k * n + i) v - y (k * n + i) v) = 0
    have e3 : T.w i * ∑ k, T.mat t k * (x (k * n + i) v - y (k * n + i) v) =
        ∑ k : Fin n, T.mat t k * T.w i * x (k * n + i) v -
          ∑ k : Fin n, T.mat t k * T.w i * y (k * n + i) v := by
      rw [Finset.mul_sum, ← Finset.sum_sub_distrib]
      exact Finset.sum_congr rfl fun k _ => by ring
    rw [e1, e2, sub_self] at e3
    exact (mul_eq_zero.1 e3).resolve_left hw.ne'
  have ht : r / n < n := Nat.div_lt_of_lt_mul hrn
  have := congrFun (key ⟨r % n, Nat.mod_lt _ hn⟩) ⟨r / n, ht⟩
  simp only [Pi.zero_apply, Nat.div_add_mod' r n] at this
  linarith

theorem solve2_unique (h : T.Ok) {U : Mt ℝ} (hr : U.rows = n * (n * n)) (hc : U.cols = n * (n * n))
    (he : ∀ t i i' k j j' : Fin n, U.e ((t * n + i) * n + i') ((k * n + j) * n + j') =
        T.mat t k * (if i = j then T.w i else 0) * (if i' = j' then T.w i' else 0))
    (x y b : Nat → ι → ℝ) (hx : Solves U x b) (hy : Solves U y b) (r : Nat) (hrn : r < n * (n * n)) :
    x r = y r := by
  rw [solves2_iff hr hc he] at hx hy
  have hn := h.pos
  funext v
  have key : ∀ i j : Fin n,
      (fun k : Fin n => x ((k * n + i) * n + j) v - y ((k * n + i) * n + j) v) = 0 := by
    intro i j
    by_contra hne
    have hu := (mat_isUnit h).ne_zero
    apply hu
    apply Matrix.exists_mulVec_eq_zero_iff.1
    refine ⟨_, hne, ?_⟩
    funext t
    have e1 := hx t i j v
    have e2 := hy t i j v
    have hw := mul_pos (h.wpos i) (h.wpos j)
    show ∑ k, T.mat t k * (x ((k * n + i) * n + j) v - y ((k * n + i) * n + j) v) = 0
    have e3 : (T.w i * T.w j) * ∑ k, T.mat t k * (x ((k * n + i) * n + j) v - y ((k * n + i) * n + j) v) =
        ∑ k : Fin n, T.mat t k * T.w i * T.w j * x ((k * n + i) * n + j) v -
          ∑ k : Fin n, T.mat t k * T.w i * T.w j * y ((k * n + i) * n + j) v := by
      rw [Finset.mul_sum, ← Finset.sum_sub_distrib]
      exact Finset.sum_congr rfl fun k _ => by ring
    rw [e1, e2, sub_self] at e3
    exact (mul_eq_zero.1 e3).resolve_left hw.ne'
  have h1 : r / n < n * n := Nat.div_lt_of_lt_mul hrn
  have ht : r / n / n < n := Nat.div_lt_of_lt_mul h1
  have := congrFun (key ⟨r / n % n, Nat.mod_lt _ hn⟩ ⟨r % n, Nat.mod_lt _ hn⟩) ⟨r / n / n, ht⟩
  simp only [Pi.zero_apply, Nat.div_add_mod' (r / n) n, Nat.div_add_mod' r n] at this
  linarith

end Verif.Dg
