import Verif.Relax.Long

/-! # Relaxation of the distortion: choice of the decomposition and of the frame -/

namespace Verif.Relax

open Verif.Sys Verif.Iter Verif.Grid Filter Topology

noncomputable section

/-! ### Singular value decompositions of one matrix -/

/-- Largest first, as Eigen returns them. -/
def Sorted (s : V3) : Prop := s 1 ≤ s 0 ∧ s 2 ≤ s 1

/-- Three distinct positive stretches, largest first. -/
def Distinct (s : V3) : Prop := 0 < s 2 ∧ s 1 < s 0 ∧ s 2 < s 1

theorem svd_values (A U W U' W' : M3) (s s' : V3) (h : IsSVD A U W s) (h' : IsSVD A U' W' s') (o : Sorted s) (o' : Sorted s') :
    s = s' := by
  have e : ∀ x : ℝ, (s 0 * s 0 - x) * (s 1 * s 1 - x) * (s 2 * s 2 - x) =
      (s' 0 * s' 0 - x) * (s' 1 * s' 1 - x) * (s' 2 * s' 2 - x) := fun x => by
    rw [← svd_char A U W s h x, ← svd_char A U' W' s' h' x]
  have p := h.2.2.1
  have p' := h'.2.2.1
  obtain ⟨o1, o2⟩ := o
  obtain ⟨o1', o2'⟩ := o'
  have sq : ∀ {a b : ℝ}, 0 ≤ a → 0 ≤ b → a * a = b * b → a = b := fun ha hb h => by
    rcases mul_self_eq_mul_self_iff.1 h with h | h
    · exact h
    · linarith
  have a1 : s 1 * s 1 ≤ s 0 * s 0 := mul_self_le_mul_self (p 1) o1
  have a2 : s 2 * s 2 ≤ s 1 * s 1 := mul_self_le_mul_self (p 2) o2
  have b1 : s' 1 * s' 1 ≤ s' 0 * s' 0 := mul_self_le_mul_self (p' 1) o1'
  have b2 : s' 2 * s' 2 ≤ s' 1 * s' 1 := mul_self_le_mul_self (p' 2) o2'
  have q0 : s 0 * s 0 = s' 0 * s' 0 := by
    have e1 := e (s 0 * s 0)
    have e2 := e (s' 0 * s' 0)
    rw [sub_self, zero_mul, zero_mul] at e1 e2
    apply le_antisymm
    · rcases mul_eq_zero.1 e1.symm with h | h
      · rcases mul_eq_zero.1 h with h | h <;> linarith
      · linarith
    · rcases mul_eq_zero.1 e2 with h | h
      · rcases mul_eq_zero.1 h with h | h <;> linarith
      · linarith
  have z0 := e 0
  have z1 := e 1
  have z2 := e (-1)
  have t : s 1 * s 1 + s 2 * s 2 = s' 1 * s' 1 + s' 2 * s' 2 := by
    linear_combination (z1 + z2 - 2 * z0) / 2 - q0
  have w : (s 1 * s 1) * (s 2 * s 2) = (s' 1 * s' 1) * (s' 2 * s' 2) := by
    rw [← q0] at z0 z1 z2
    linear_combination (z2 - z1) / 2 - s 0 * s 0 * t
  have d : s 1 * s 1 - s 2 * s 2 = s' 1 * s' 1 - s' 2 * s' 2 := by
    refine sq (by linarith) (by linarith) ?_
    linear_combination (s 1 * s 1 + s 2 * s 2 + s' 1 * s' 1 + s' 2 * s' 2) * t - 4 * w
  funext i
  fin_cases i
  · exact sq (p 0) (p' 0) q0
  · exact sq (p 1) (p' 1) (show s 1 * s 1 = s' 1 * s' 1 by linarith)
  · exact sq (p 2) (p' 2) (show s 2 * s 2 = s' 2 * s' 2 by linarith)

/-- New stretches that are equal where the old ones are give one matrix, whatever decomposition is used. -/
theorem svd_apply (A U W U' W' : M3) (s d : V3) (h : IsSVD A U W s) (h' : IsSVD A U' W' s) (hp : ∀ i, 0 < s i)
    (hd : ∀ i j, s i = s j → d i = d j) :
    U * Matrix.diagonal d * W.transpose = U' * Matrix.diagonal d * W'.transpose := by
  obtain ⟨hU, hW, -, hA⟩ := h
  obtain ⟨hU', hW', -, hA'⟩ := h'
  have hUU : U * U.transpose = 1 := mul_eq_one_comm.mp hU
  have hWW : W * W.transpose = 1 := mul_eq_one_comm.mp hW
  have hUU' : U' * U'.transpose = 1 := mul_eq_one_comm.mp hU'
  have hWW' : W' * W'.transpose = 1 := mul_eq_one_comm.mp hW'
  obtain ⟨M, hM⟩ : ∃ M, M = U.transpose * U' := ⟨_, rfl⟩
  obtain ⟨N, hN⟩ : ∃ N, N = W.transpose * W' := ⟨_, rfl⟩
  have hN1 : N * N.transpose = 1 := by
    rw [hN, Matrix.transpose_mul, Matrix.transpose_transpose]
    calc W.transpose * W' * (W'.transpose * W) = W.transpose * (W' * W'.transpose) * W := by simp only [Matrix.mul_assoc]
      _ = 1 := by rw [hWW', Matrix.mul_one, hW]
  have hM1 : M * M.transpose = 1 := by
    rw [hM, Matrix.transpose_mul, Matrix.transpose_transpose]
    calc U.transpose * U' * (U'.transpose * U) = U.transpose * (U' * U'.transpose) * U := by simp only [Matrix.mul_assoc]
      _ = 1 := by rw [hUU', Matrix.mul_one, hU]
  have eA : U * Matrix.diagonal s * W.transpose = U' * Matrix.diagonal s * W'.transpose := hA.symm.trans hA'
  have e1 : Matrix.diagonal s * N = M * Matrix.diagonal s := by
    calc Matrix.diagonal s * N = (U.transpose * U) * Matrix.diagonal s * N := by rw [hU, Matrix.one_mul]
      _ = U.transpose * (U * Matrix.diagonal s * W.transpose) * W' := by rw [hN]; simp only [Matrix.mul_assoc]
      _ = U.transpose * (U' * Matrix.diagonal s * W'.transpose) * W' := by rw [eA]
      _ = M * Matrix.diagonal s * (W'.transpose * W') := by rw [hM]; simp only [Matrix.mul_assoc]
      _ = _ := by rw [hW', Matrix.mul_one]
  have e2 : N * Matrix.diagonal s = Matrix.diagonal s * M := by
    have hM1' : M.transpose * M = 1 := mul_eq_one_comm.mp hM1
    have t : N.transpose * Matrix.diagonal s = Matrix.diagonal s * M.transpose := by
      have := congrArg Matrix.transpose e1
      rwa [Matrix.transpose_mul, Matrix.transpose_mul, Matrix.diagonal_transpose] at this
    calc N * Matrix.diagonal s = N * (Matrix.diagonal s * (M.transpose * M)) := by rw [hM1', Matrix.mul_one]
      _ = N * (Matrix.diagonal s * M.transpose) * M := by simp only [Matrix.mul_assoc]
      _ = (N * N.transpose) * Matrix.diagonal s * M := by rw [← t]; simp only [Matrix.mul_assoc]
      _ = _ := by rw [hN1, Matrix.one_mul]
  have g1 : ∀ i j, s i * N i j = M i j * s j := fun i j => by
    have := congrFun (congrFun e1 i) j
    rwa [Matrix.diagonal_mul, Matrix.mul_diagonal] at this
  have g2 : ∀ i j, N i j * s j = s i * M i j := fun i j => by
    have := congrFun (congrFun e2 i) j
    rwa [Matrix.diagonal_mul, Matrix.mul_diagonal] at this
  have g3 : ∀ i j, s i ≠ s j → N i j = 0 ∧ M i j = 0 := fun i j hne => by
    have k1 : (s i * s i - s j * s j) * N i j = 0 := by linear_combination s i * g1 i j - s j * g2 i j
    have k0 : s i * s i - s j * s j ≠ 0 := by
      have : s i * s i - s j * s j = (s i - s j) * (s i + s j) := by ring
      rw [this]
      exact mul_ne_zero (sub_ne_zero.2 hne) (by have := hp i; have := hp j; positivity)
    have k2 := (mul_eq_zero.1 k1).resolve_left k0
    refine ⟨k2, ?_⟩
    have := g1 i j
    rw [k2, mul_zero] at this
    exact (mul_eq_zero.1 this.symm).resolve_right (hp j).ne'
  have g4 : M = N := by
    ext i j
    by_cases hij : s i = s j
    · have := g1 i j
      rw [hij, mul_comm (M i j)] at this
      exact (mul_left_cancel₀ (hp j).ne' this).symm
    · rw [(g3 i j hij).1, (g3 i j hij).2]
  have g5 : M * Matrix.diagonal d = Matrix.diagonal d * N := by
    ext i j
    rw [Matrix.diagonal_mul, Matrix.mul_diagonal, g4]
    by_cases hij : s i = s j
    · rw [hd i j hij, mul_comm]
    · rw [(g3 i j hij).1]; simp
  have eU : U' = U * M := by rw [hM, ← Matrix.mul_assoc, hUU, Matrix.one_mul]
  have eW : W' = W * N := by rw [hN, ← Matrix.mul_assoc, hWW, Matrix.one_mul]
  calc U * Matrix.diagonal d * W.transpose = U * (Matrix.diagonal d * (N * N.transpose)) * W.transpose := by
        rw [hN1, Matrix.mul_one]
    _ = U * (Matrix.diagonal d * N) * (N.transpose * W.transpose) := by simp only [Matrix.mul_assoc]
    _ = U * (M * Matrix.diagonal d) * (N.transpose * W.transpose) := by rw [g5]
    _ = (U * M) * Matrix.diagonal d * (W * N).transpose := by rw [Matrix.transpose_mul]; simp only [Matrix.mul_assoc]
    _ = _ := by rw [← eU, ← eW]

theorem triple_apply (U W : M3) (d : V3) (i j : Fin 3) :
    (U * Matrix.diagonal d * W.transpose) i j = ∑ k, U i k * d k * W j k := by
  rw [Matrix.mul_apply]
  exact Finset.sum_congr rfl fun k _ => by rw [Matrix.mul_diagonal, Matrix.transpose_apply]

/-- Two singular vectors of one stretch may be exchanged. -/
theorem svd_swap (A U W : M3) (s : V3) (h : IsSVD A U W s) (σ : Equiv.Perm (Fin 3)) (hσ : ∀ i, s (σ i) = s i) :
    IsSVD A (U.submatrix id σ) (W.submatrix id σ) s := by
  obtain ⟨hU, hW, hp, hA⟩ := h
  have orth : ∀ V : M3, V.transpose * V = 1 → (V.submatrix id σ).transpose * V.submatrix id σ = 1 := fun V hV => by
    rw [Matrix.transpose_submatrix, ← Matrix.submatrix_mul _ _ σ id σ Function.bijective_id, hV]
    exact Matrix.submatrix_one_equiv σ
  refine ⟨orth U hU, orth W hW, hp, ?_⟩
  rw [hA]
  ext i j
  rw [triple_apply, triple_apply, ← Equiv.sum_comp σ]
  exact Finset.sum_congr rfl fun k _ => by rw [hσ, Matrix.submatrix_apply, Matrix.submatrix_apply, id, id]

/-- A decomposition turned with the matrix. -/
theorem svd_turn (A U W R S : M3) (s : V3) (h : IsSVD A U W s) (hR : R.transpose * R = 1) (hS : S.transpose * S = 1) :
    IsSVD (R * A * S.transpose) (R * U) (S * W) s := by
  obtain ⟨hU, hW, hp, hA⟩ := h
  have orth : ∀ V T : M3, V.transpose * V = 1 → T.transpose * T = 1 → (V * T).transpose * (V * T) = 1 := fun V T hV hT => by
    rw [Matrix.transpose_mul]
    calc T.transpose * V.transpose * (V * T) = T.transpose * (V.transpose * V) * T := by simp only [Matrix.mul_assoc]
      _ = 1 := by rw [hV, Matrix.mul_one, hT]
  refine ⟨orth R U hR hU, orth S W hS hW, hp, ?_⟩
  rw [hA, Matrix.transpose_mul]
  simp only [Matrix.mul_assoc]

/-! ### The relaxed distortion -/

/-- The stretches `analyticSolver_distortion` puts in place of the old ones, analytic.cpp:78-126. -/
def newStretches (P : Par) (s : V3) (dt : ℝ) : Option V3 :=
  let d := cbrt (s 0 * s 1 * s 2)
  match nondimTime P (s 0 * s 1 * s 2 * P.ρ0) d (invariants s).1 (invariants s).2 dt with
  | none => none
  | some τ => (newSquares (invariants s).1 (invariants s).2 τ).map fun x i => d * Real.sqrt (x i)

theorem relaxA_eq (P : Par) (U W A : M3) (s : V3) (dt : ℝ) : relaxA P U W s dt A =
    if (invariants s).2 ≥ 1e-12 then (newStretches P s dt).map fun d => U * Matrix.diagonal d * W.transpose else some A := by
  unfold relaxA newStretches
  simp only
  split_ifs
  · cases nondimTime P (s 0 * s 1 * s 2 * P.ρ0) (cbrt (s 0 * s 1 * s 2)) (invariants s).1 (invariants s).2 dt with
    | none => rfl
    | some τ =>
      simp only [Option.map_map]
      congr 1
      funext x
      exact scaled_rows U W x _
  · rfl

/-- **C94.** The relaxed distortion does not depend on the decomposition, if the stretches are distinct or almost
equal: any two decompositions with sorted stretches give the same. -/
theorem relax_choice (P : Par) (A U W U' W' : M3) (s s' : V3) (dt : ℝ) (h : IsSVD A U W s) (h' : IsSVD A U' W' s')
    (o : Sorted s) (o' : Sorted s') (hd : 1e-12 ≤ (invariants s).2 → Distinct s) :
    relaxA P U W s dt A = relaxA P U' W' s' dt A := by
  have e := svd_values A U W U' W' s s' h h' o o'
  subst e
  rw [relaxA_eq, relaxA_eq]
  split_ifs with hu
  · obtain ⟨h2, h01, h12⟩ := hd hu
    congr 1
    funext d
    refine svd_apply A U W U' W' s d h h' (fun i => ?_) fun i j hij => ?_
    · fin_cases i
      · exact h2.trans (h12.trans h01)
      · exact h2.trans h12
      · exact h2
    · have : i = j := by
        fin_cases i <;> fin_cases j <;> first | rfl | (exfalso; simp at hij; linarith)
      rw [this]
  · rfl

/-- **C94.** Relaxing a turned body gives the turned relaxed body: orthogonal maps on either side of the distortion pass
through, if the stretches are distinct or almost equal. -/
theorem relax_turn (P : Par) (A U W U' W' R S : M3) (s s' : V3) (dt : ℝ) (h : IsSVD A U W s) (hR : R.transpose * R = 1)
    (hS : S.transpose * S = 1) (h' : IsSVD (R * A * S.transpose) U' W' s') (o : Sorted s) (o' : Sorted s')
    (hd : 1e-12 ≤ (invariants s).2 → Distinct s) :
    relaxA P U' W' s' dt (R * A * S.transpose) = (relaxA P U W s dt A).map fun B => R * B * S.transpose := by
  rw [← relax_choice P _ (R * U) (S * W) U' W' s s' dt (svd_turn A U W R S s h hR hS) h' o o' hd, relaxA_eq, relaxA_eq]
  split_ifs
  · rw [Option.map_map]
    congr 1
    funext d
    simp only [Function.comp_apply, Matrix.transpose_mul, Matrix.mul_assoc]
  · rfl

/-- **C94.** With equal stretches: the relaxed distortion is independent of the decomposition exactly if it has equal
stretches along the singular vectors of equal stretches. -/
theorem relax_choice_iff (P : Par) (A U W B : M3) (s : V3) (dt : ℝ) (h : IsSVD A U W s) (o : Sorted s) (h2 : 0 < s 2)
    (hB : relaxA P U W s dt A = some B) :
    (∀ U' W' s', IsSVD A U' W' s' → Sorted s' → relaxA P U' W' s' dt A = some B) ↔
      ∀ i j, s i = s j → (U.transpose * B * W) i i = (U.transpose * B * W) j j := by
  have hp : ∀ i, 0 < s i := fun i => by
    fin_cases i
    · exact h2.trans_le (o.2.trans o.1)
    · exact h2.trans_le o.2
    · exact h2
  have core : ∀ d : V3, U.transpose * (U * Matrix.diagonal d * W.transpose) * W = Matrix.diagonal d := fun d => by
    calc U.transpose * (U * Matrix.diagonal d * W.transpose) * W
        = (U.transpose * U) * Matrix.diagonal d * (W.transpose * W) := by simp only [Matrix.mul_assoc]
      _ = _ := by rw [h.1, h.2.1, Matrix.one_mul, Matrix.mul_one]
  by_cases hu : (invariants s).2 ≥ 1e-12
  · rw [relaxA_eq, if_pos hu, Option.map_eq_some_iff] at hB
    obtain ⟨d, hd, rfl⟩ := hB
    simp only [core, Matrix.diagonal_apply_eq]
    constructor
    · intro H i j hij
      have hσ : ∀ k, s (Equiv.swap i j k) = s k := fun k => by
        by_cases hk : k = i
        · rw [hk, Equiv.swap_apply_left, hij]
        · by_cases hk' : k = j
          · rw [hk', Equiv.swap_apply_right, hij]
          · rw [Equiv.swap_apply_of_ne_of_ne hk hk']
      have := H _ _ s (svd_swap A U W s h (Equiv.swap i j) hσ) o
      rw [relaxA_eq, if_pos hu, hd, Option.map_some] at this
      have e := congrArg (fun X => U.transpose * X * W) (Option.some.inj this)
      simp only [core] at e
      have e2 : U.submatrix id (Equiv.swap i j) * Matrix.diagonal d * (W.submatrix id (Equiv.swap i j)).transpose =
          U * Matrix.diagonal (fun k => d (Equiv.swap i j k)) * W.transpose := by
        ext a b
        rw [triple_apply, triple_apply, ← Equiv.sum_comp (Equiv.swap i j)]
        exact Finset.sum_congr rfl fun k _ => by
          rw [Matrix.submatrix_apply, Matrix.submatrix_apply, id, id, Equiv.swap_apply_self]
      rw [e2, core] at e
      have := congrFun (congrFun e i) i
      simpa using this.symm
    · intro H U' W' s' h' o'
      have e := svd_values A U W U' W' s s' h h' o o'
      subst e
      rw [relaxA_eq, if_pos hu, hd, Option.map_some, svd_apply A U W U' W' s d h h' hp H]
  · rw [relaxA_eq, if_neg hu] at hB
    have e := Option.some.inj hB
    subst e
    have e3 : U.transpose * A * W = Matrix.diagonal s := by rw [h.2.2.2]; exact core s
    refine iff_of_true (fun U' W' s' h' o' => ?_) (fun i j hij => ?_)
    · have e := svd_values A U W U' W' s s' h h' o o'
      subst e
      rw [relaxA_eq, if_neg hu]
    · rw [e3]; simpa using hij

/-- Stretches 3, 2/3 and 1/2: the decomposition with all signs of the first and last singular vectors changed gives the
same, and so does turning by a quarter. -/
example (dt : ℝ) : relaxA (samplePar sample) 1 1 ![3, 2 / 3, 1 / 2] dt (Matrix.diagonal ![3, 2 / 3, 1 / 2]) =
    relaxA (samplePar sample) (Matrix.diagonal ![-1, 1, -1]) (Matrix.diagonal ![-1, 1, -1]) ![3, 2 / 3, 1 / 2] dt
      (Matrix.diagonal ![3, 2 / 3, 1 / 2]) := by
  have hs : IsSVD (Matrix.diagonal ![3, 2 / 3, 1 / 2]) 1 1 ![3, 2 / 3, 1 / 2] := svd_diag _ (by
    intro i; fin_cases i <;> norm_num)
  refine relax_choice _ _ _ _ _ _ _ _ dt hs ⟨?_, ?_, hs.2.2.1, ?_⟩ ⟨by norm_num, by norm_num [at_two]⟩
    ⟨by norm_num, by norm_num [at_two]⟩ fun _ => ⟨by norm_num [at_two], by norm_num, by norm_num [at_two]⟩
  all_goals
    ext i j
    fin_cases i <;> fin_cases j <;> simp [Matrix.mul_apply, Matrix.diagonal_apply]

/-! ### Equal stretches that part -/

/-- Squares of stretches that the solver gets from this range of means and spreads. -/
theorem squares_gap (m u : ℝ) (hm : 1.4 < m ∧ m < 1.43) (hu : 2.45 < u ∧ u < 2.55) :
    ∃ x, squares m u = some x ∧ 2.5 ≤ x 0 ∧ x 1 ≤ 1.8 := by
  obtain ⟨m1, m2⟩ := hm
  obtain ⟨u1, u2⟩ := hu
  have hm3l : (2.744 : ℝ) < m * m * m := by
    have : (1.96 : ℝ) < m * m := by nlinarith
    nlinarith
  have hm3u : m * m * m < 2.925 := by
    have : m * m < 2.0449 := by nlinarith
    nlinarith
  have hmul : (3.43 : ℝ) < m * u := by nlinarith
  have hmuu : m * u < 3.6465 := by nlinarith
  have hΔ : (-2 * m * m * m + m * u + 2) * (-2 * m * m * m + m * u + 2) < 0.2 := by
    have h1 : -0.42 < -2 * m * m * m + m * u + 2 := by nlinarith
    have h2 : -2 * m * m * m + m * u + 2 < 0.16 := by nlinarith
    nlinarith
  have hu3 : (14 : ℝ) < u * u * u := by
    have : (6 : ℝ) < u * u := by nlinarith
    nlinarith
  have harg : 0 < 6 * u * u * u - 81 * (-2 * m * m * m + m * u + 2) * (-2 * m * m * m + m * u + 2) := by nlinarith
  have hr : 1.278 < Real.sqrt (6 * u) / 3 ∧ Real.sqrt (6 * u) / 3 < 1.304 := by
    constructor
    · have : (3.834 : ℝ) < Real.sqrt (6 * u) := Real.lt_sqrt_of_sq_lt (by norm_num; linarith)
      linarith
    · have : Real.sqrt (6 * u) < 3.912 := (Real.sqrt_lt' (by norm_num)).2 (by norm_num; linarith)
      linarith
  have h3 : (1.732 : ℝ) < Real.sqrt 3 := Real.lt_sqrt_of_sq_lt (by norm_num)
  have hroot : 2.505 < firstRoot m u ∧ firstRoot m u < 2.735 := by
    have key : ∀ c : ℝ, Real.sqrt 3 / 2 ≤ c → c ≤ 1 → 2.505 < Real.sqrt (6 * u) / 3 * c + m ∧
        Real.sqrt (6 * u) / 3 * c + m < 2.735 := fun c h1 h2 => by
      constructor
      · have : 1.278 * 0.866 ≤ Real.sqrt (6 * u) / 3 * c := mul_le_mul hr.1.le (by linarith) (by norm_num) (by linarith [hr.1])
        nlinarith
      · have : Real.sqrt (6 * u) / 3 * c ≤ Real.sqrt (6 * u) / 3 * 1 := mul_le_mul_of_nonneg_left h2 (by linarith [hr.1])
        linarith [hr.2]
    unfold firstRoot
    simp only
    have hpos : pos (6 * u * u * u - 81 * (-2 * m * m * m + m * u + 2) * (-2 * m * m * m + m * u + 2)) ≠ 0 := by
      unfold pos
      rw [max_eq_right harg.le]
      exact harg.ne'
    rw [if_neg hpos]
    split_ifs
    · exact key _ (by rw [Real.cos_pi_div_six]) (Real.cos_le_one _)
    · refine key _ ?_ (Real.cos_le_one _)
      rw [← Real.cos_pi_div_six, ← Real.cos_abs (_ / 3)]
      have hb := abs_lt.2 ⟨Real.neg_pi_div_two_lt_arctan (√(pos (6 * u * u * u - 81 * (-2 * m * m * m + m * u + 2) *
        (-2 * m * m * m + m * u + 2))) / (9 * (-2 * m * m * m + m * u + 2))), Real.arctan_lt_pi_div_two _⟩
      refine Real.cos_le_cos_of_nonneg_of_le_pi (abs_nonneg _) (by linarith [Real.pi_pos]) ?_
      rw [abs_div, abs_of_pos (by norm_num : (0 : ℝ) < 3)]
      linarith
  obtain ⟨r1, r2⟩ := hroot
  have h2nd : 0.73 ≤ secondRoot m (firstRoot m u) ∧ secondRoot m (firstRoot m u) ≤ 1.8 := by
    unfold secondRoot
    simp only
    generalize firstRoot m u = x at *
    have ht : 0 < 3 * m - x := by linarith
    have hs : Real.sqrt (pos (x * (3 * m - x) * (3 * m - x) - 4) / x) ≤ 3 * m - x := by
      rw [Real.sqrt_le_left ht.le, div_le_iff₀ (by linarith)]
      unfold pos
      refine max_le (by nlinarith [mul_pos ht ht]) (by nlinarith)
    have hs0 := Real.sqrt_nonneg (pos (x * (3 * m - x) * (3 * m - x) - 4) / x)
    constructor <;> norm_num <;> linarith
  unfold squares
  simp only
  generalize secondRoot m (firstRoot m u) = y at *
  generalize firstRoot m u = x at *
  have hx : 0 < x := by linarith
  have hy : 0 < y := by linarith [h2nd.1]
  have hz : 0 < 1 / (x * y) := by positivity
  have hz' : 1 / (x * y) ≤ 0.73 := by
    rw [div_le_iff₀ (by positivity)]
    nlinarith [h2nd.1]
  rw [if_neg (by push Not; exact ⟨hx.ne', hy.ne'⟩), if_neg (by push Not; exact ⟨hx.le, hy.le, hz.le⟩)]
  refine ⟨_, rfl, ?_, ?_⟩
  · simp only [sortDown, Matrix.cons_val_zero]
    exact le_max_of_le_left (le_max_of_le_left (by linarith))
  · simp only [sortDown, Matrix.cons_val_one]
    exact max_le ((min_le_right _ _).trans h2nd.2) ((min_le_right _ _).trans (by linarith))

/-- The time over which the examples relax. -/
def halfTime (P : Par) : ℝ := P.μ * Real.log 2 / (P.ρ0 * P.b02)

/-- A Newtonian fluid with stretches close to 2, 2 and 1/4 and volume ratio one. -/
theorem stretches_gap (P : Par) (hp : P.powerLaw = false) (hμ : P.μ ≠ 0) (hρ : P.ρ0 ≠ 0) (hb : P.b02 ≠ 0) :
    ∀ᶠ t in 𝓝 (1 : ℝ), (invariants ![2 * t, 2 / t, 1 / 4]).2 ≥ 1e-12 ∧
      ∃ d, newStretches P ![2 * t, 2 / t, 1 / 4] (halfTime P) = some d ∧ 1.58 ≤ d 0 ∧ d 1 ≤ 1.35 := by
  have inv : ∀ t : ℝ, t ≠ 0 → invariants ![2 * t, 2 / t, 1 / 4] = ((4 * t ^ 2 + 4 / t ^ 2 + 1 / 16) / 3,
      ((4 * t ^ 2 - 4 / t ^ 2) ^ 2 + (4 / t ^ 2 - 1 / 16) ^ 2 + (1 / 16 - 4 * t ^ 2) ^ 2) / 3) := fun t ht => by
    have e : 2 * t * (2 / t) * (1 / 4) = 1 := by field_simp; norm_num
    have c1 : cbrt 1 = 1 := cbrt_one
    simp only [invariants, Matrix.cons_val_zero, Matrix.cons_val_one, Matrix.cons_val, e, c1]
    ext <;> (simp only; field_simp; ring)
  have hm : ContinuousAt (fun t : ℝ => (4 * t ^ 2 + 4 / t ^ 2 + 1 / 16) / 3) 1 := by
    have : (1 : ℝ) ^ 2 ≠ 0 := by norm_num
    fun_prop (disch := assumption)
  have hu : ContinuousAt (fun t : ℝ => ((4 * t ^ 2 - 4 / t ^ 2) ^ 2 + (4 / t ^ 2 - 1 / 16) ^ 2 + (1 / 16 - 4 * t ^ 2) ^ 2) / 3) 1 := by
    have : (1 : ℝ) ^ 2 ≠ 0 := by norm_num
    fun_prop (disch := assumption)
  have hm' := (hm.eventually (lt_mem_nhds (show (2.68 : ℝ) < _ by norm_num))).and
    (hm.eventually (gt_mem_nhds (show _ < (2.69 : ℝ) by norm_num)))
  have hu' := (hu.eventually (lt_mem_nhds (show (10.3 : ℝ) < _ by norm_num))).and
    (hu.eventually (gt_mem_nhds (show _ < (10.4 : ℝ) by norm_num)))
  filter_upwards [hm', hu', eventually_ne_nhds (show (1 : ℝ) ≠ 0 by norm_num)] with t ⟨a1, a2⟩ ⟨b1, b2⟩ ht
  rw [inv t ht]
  refine ⟨by simp only [ge_iff_le]; linarith, ?_⟩
  have e : (![2 * t, 2 / t, 1 / 4] : V3) 0 * (![2 * t, 2 / t, 1 / 4] : V3) 1 * (![2 * t, 2 / t, 1 / 4] : V3) 2 = 1 := by
    simp only [Matrix.cons_val_zero, Matrix.cons_val_one, Matrix.cons_val]
    field_simp; norm_num
  unfold newStretches
  simp only [e, cbrt_one, inv t ht, nondimTime_newtonian P _ _ _ _ _ hp hμ]
  generalize (4 * t ^ 2 + 4 / t ^ 2 + 1 / 16) / 3 = m at *
  generalize ((4 * t ^ 2 - 4 / t ^ 2) ^ 2 + (4 / t ^ 2 - 1 / 16) ^ 2 + (1 / 16 - 4 * t ^ 2) ^ 2) / 3 = u at *
  have et : P.ρ0 * P.b02 * 1 ^ (7 : ℝ) / (3 * P.μ) * halfTime P = Real.log 2 / 3 := by
    rw [Real.one_rpow]
    unfold halfTime
    field_simp
  have e6 : Real.exp (-6 * (Real.log 2 / 3)) = 1 / 4 := by
    rw [show -6 * (Real.log 2 / 3) = -(2 * Real.log 2) by ring, Real.exp_neg, two_mul, Real.exp_add,
      Real.exp_log (by norm_num)]
    norm_num
  have e9 : Real.exp (-9 * (Real.log 2 / 3)) = 1 / 8 := by
    rw [show -9 * (Real.log 2 / 3) = -(Real.log 2 + Real.log 2 + Real.log 2) by ring, Real.exp_neg, Real.exp_add, Real.exp_add,
      Real.exp_log (by norm_num)]
    norm_num
  rw [et]
  unfold newSquares
  have es : meanAt m u (Real.log 2 / 3) = 1 / 2 + m / 2 - u / 24 := by
    simp only [meanAt, e6, e9]; ring
  have eu : pos (spreadAt m u (Real.log 2 / 3)) = 9 / 4 * m - u / 8 - 9 / 4 := by
    have : spreadAt m u (Real.log 2 / 3) = 9 / 4 * m - u / 8 - 9 / 4 := by simp only [spreadAt, e6, e9]; ring
    rw [this]
    exact max_eq_right (by linarith)
  rw [es, eu]
  obtain ⟨x, hx, x0, x1⟩ := squares_gap (1 / 2 + m / 2 - u / 24) (9 / 4 * m - u / 8 - 9 / 4)
    ⟨by norm_num at *; linarith, by norm_num at *; linarith⟩ ⟨by norm_num at *; linarith, by norm_num at *; linarith⟩
  rw [hx]
  refine ⟨_, rfl, ?_, ?_⟩
  · simp only [one_mul]
    exact Real.le_sqrt_of_sq_le (by norm_num at *; linarith)
  · simp only [one_mul]
    exact Real.sqrt_le_iff.2 ⟨by norm_num, by norm_num at *; linarith⟩

/-- **C94 fails for equal stretches**: a Newtonian fluid with stretches 2, 2 and 1/4.  Exchanging the two singular vectors of
the stretch 2 changes the relaxed distortion. -/
theorem relax_choice_false (P : Par) (hp : P.powerLaw = false) (hμ : P.μ ≠ 0) (hρ : P.ρ0 ≠ 0) (hb : P.b02 ≠ 0) :
    ∃ A U U' : M3, ∃ s : V3, IsSVD A U U s ∧ IsSVD A U' U' s ∧ Sorted s ∧ 0 < s 2 ∧ A.det = 1 ∧
      ∃ B B', relaxA P U U s (halfTime P) A = some B ∧ relaxA P U' U' s (halfTime P) A = some B' ∧ B ≠ B' := by
  obtain ⟨hi, d, hd, d0, d1⟩ := (stretches_gap P hp hμ hρ hb).self_of_nhds
  rw [mul_one, div_one] at hi hd
  have hs : IsSVD (Matrix.diagonal ![2, 2, 1 / 4]) 1 1 ![2, 2, 1 / 4] := svd_diag _ (by intro i; fin_cases i <;> norm_num)
  have hσ : ∀ i, (![2, 2, 1 / 4] : V3) (Equiv.swap 0 1 i) = (![2, 2, 1 / 4] : V3) i := by
    intro i
    fin_cases i <;> simp [Equiv.swap_apply_def]
  refine ⟨_, _, _, _, hs, svd_swap _ _ _ _ hs (Equiv.swap 0 1) hσ, ⟨by norm_num, by norm_num [at_two]⟩, by norm_num [at_two], ?_,
    _, _, by rw [relaxA_eq, if_pos hi, hd]; rfl, by rw [relaxA_eq, if_pos hi, hd]; rfl, fun h => ?_⟩
  · rw [Matrix.det_diagonal, Fin.prod_univ_three]
    norm_num [at_two]
  · have := congrFun (congrFun h 0) 0
    simp only [Matrix.mul_apply, Fin.sum_univ_three, Matrix.diagonal_apply, Matrix.submatrix_apply, Matrix.transpose_apply,
      Matrix.one_apply, id, Equiv.swap_apply_def] at this
    simp at this
    linarith

/-- **C94 fails for equal stretches**: no way of choosing decompositions makes the relaxed distortion depend continuously on
the distortion; arbitrarily close to the stretches 2, 2 and 1/4 the results differ by a fixed amount. -/
theorem relax_jump (P : Par) (hp : P.powerLaw = false) (hμ : P.μ ≠ 0) (hρ : P.ρ0 ≠ 0) (hb : P.b02 ≠ 0) (f : M3 → M3)
    (hf : ∀ A, 0 < A.det → ∃ U W s, IsSVD A U W s ∧ Sorted s ∧ (relaxA P U W s (halfTime P) A).getD 0 = f A) :
    ¬ ContinuousAt f (Matrix.diagonal ![2, 2, 1 / 4]) := by
  intro hc
  have ev := (stretches_gap P hp hμ hρ hb).filter_mono (nhdsWithin_le_nhds (s := Set.Ioi 1))
  have evt : ∀ᶠ t : ℝ in 𝓝[>] 1, 1 < t ∧ t < 2 := by
    filter_upwards [self_mem_nhdsWithin, nhdsWithin_le_nhds (gt_mem_nhds (show (1 : ℝ) < 2 by norm_num))] with t h1 h2
    exact ⟨h1, h2⟩
  have val : ∀ t : ℝ, 1 < t → t < 2 → ∀ d : V3, (invariants ![2 * t, 2 / t, 1 / 4]).2 ≥ 1e-12 →
      newStretches P ![2 * t, 2 / t, 1 / 4] (halfTime P) = some d →
      f (Matrix.diagonal ![2 * t, 2 / t, 1 / 4]) = Matrix.diagonal d ∧
      f (Matrix.diagonal ![2 / t, 2 * t, 1 / 4]) = Matrix.diagonal ![d 1, d 0, d 2] := by
    intro t h1 h2 d hi hd
    have ht : 0 < t := by linarith
    have q1 : 2 / t < 2 * t := by rw [div_lt_iff₀ ht]; nlinarith
    have q2 : 1 / 4 < 2 / t := by rw [lt_div_iff₀ ht]; linarith
    have hs : IsSVD (Matrix.diagonal ![2 * t, 2 / t, 1 / 4]) 1 1 ![2 * t, 2 / t, 1 / 4] := svd_diag _ (by
      intro i; fin_cases i <;> simp <;> positivity)
    let S : M3 := (1 : M3).submatrix id (Equiv.swap 0 1)
    have hS : S.transpose * S = 1 := by
      ext i j; fin_cases i <;> fin_cases j <;>
        simp [S, Matrix.mul_apply, Matrix.one_apply, Equiv.swap_apply_def]
    have eS : ∀ a b c : ℝ, S * Matrix.diagonal ![a, b, c] * S.transpose = Matrix.diagonal ![b, a, c] := fun a b c => by
      ext i j; fin_cases i <;> fin_cases j <;>
        simp [S, Matrix.mul_apply, Fin.sum_univ_three, Matrix.one_apply, Equiv.swap_apply_def, Matrix.diagonal_apply]
    have hd1 : relaxA P 1 1 ![2 * t, 2 / t, 1 / 4] (halfTime P) (Matrix.diagonal ![2 * t, 2 / t, 1 / 4]) =
        some (Matrix.diagonal d) := by rw [relaxA_eq, if_pos hi, hd]; simp
    constructor
    · obtain ⟨U, W, s, k1, k2, k3⟩ := hf (Matrix.diagonal ![2 * t, 2 / t, 1 / 4]) (by
        rw [Matrix.det_diagonal, Fin.prod_univ_three]; simp; positivity)
      rw [← relax_choice P _ 1 1 U W _ s _ hs k1 ⟨q1.le, q2.le⟩ k2 fun _ => ⟨by norm_num [at_two], q1, q2⟩, hd1] at k3
      exact k3.symm
    · obtain ⟨U, W, s, k1, k2, k3⟩ := hf (Matrix.diagonal ![2 / t, 2 * t, 1 / 4]) (by
        rw [Matrix.det_diagonal, Fin.prod_univ_three]; simp; positivity)
      rw [← eS] at k1 k3 ⊢
      rw [relax_turn P _ 1 1 U W S S _ s _ hs hS hS k1 ⟨q1.le, q2.le⟩ k2 fun _ => ⟨by norm_num [at_two], q1, q2⟩, hd1] at k3
      rw [← k3]
      change S * Matrix.diagonal d * S.transpose = _
      rw [← eS]
      congr 3
      funext i
      fin_cases i <;> rfl
  have c1 : Tendsto (fun t : ℝ => (Matrix.diagonal ![2 * t, 2 / t, 1 / 4] : M3)) (𝓝[>] 1) (𝓝 (Matrix.diagonal ![2, 2, 1 / 4])) := by
    have : ContinuousAt (fun t : ℝ => (Matrix.diagonal ![2 * t, 2 / t, 1 / 4] : M3)) 1 := by
      refine (Continuous.matrix_diagonal continuous_id).continuousAt.comp (continuousAt_pi.2 fun i => ?_)
      fin_cases i
      · exact continuousAt_const.mul continuousAt_id
      · exact continuousAt_const.div continuousAt_id one_ne_zero
      · exact continuousAt_const
    have := this.tendsto.mono_left (nhdsWithin_le_nhds (s := Set.Ioi 1))
    simpa using this
  have c2 : Tendsto (fun t : ℝ => (Matrix.diagonal ![2 / t, 2 * t, 1 / 4] : M3)) (𝓝[>] 1) (𝓝 (Matrix.diagonal ![2, 2, 1 / 4])) := by
    have : ContinuousAt (fun t : ℝ => (Matrix.diagonal ![2 / t, 2 * t, 1 / 4] : M3)) 1 := by
      refine (Continuous.matrix_diagonal continuous_id).continuousAt.comp (continuousAt_pi.2 fun i => ?_)
      fin_cases i
      · exact continuousAt_const.div continuousAt_id one_ne_zero
      · exact continuousAt_const.mul continuousAt_id
      · exact continuousAt_const
    have := this.tendsto.mono_left (nhdsWithin_le_nhds (s := Set.Ioi 1))
    simpa using this
  have entry : Continuous fun M : M3 => M 0 0 := continuous_id.matrix_elem 0 0
  have l1 := (entry.tendsto _).comp (hc.tendsto.comp c1)
  have l2 := (entry.tendsto _).comp (hc.tendsto.comp c2)
  have g1 := ge_of_tendsto l1 (b := 1.58) (by
    filter_upwards [ev, evt] with t ⟨hi, d, hd, d0, _⟩ ⟨h1, h2⟩
    simp only [Function.comp_apply, (val t h1 h2 d hi hd).1]
    simpa using d0)
  have g2 := le_of_tendsto l2 (b := 1.35) (by
    filter_upwards [ev, evt] with t ⟨hi, d, hd, _, d1⟩ ⟨h1, h2⟩
    simp only [Function.comp_apply, (val t h1 h2 d hi hd).2]
    simpa using d1)
  norm_num at g1 g2
  linarith

end

end Verif.Relax
