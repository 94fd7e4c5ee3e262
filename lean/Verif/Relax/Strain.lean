import Verif.Relax.Model

/-! # Relaxation of the distortion: volume and zero time -/

namespace Verif.Relax

open Verif.Sys Verif.Iter Verif.Grid

noncomputable section

theorem sortDown_prod (a b c : ℝ) : sortDown a b c 0 * sortDown a b c 1 * sortDown a b c 2 = a * b * c := by
  simp only [sortDown, Matrix.cons_val_zero, Matrix.cons_val_one, Matrix.cons_val]
  rcases le_total a b with h | h <;> rcases le_total a c with h' | h' <;> rcases le_total b c with h'' | h'' <;>
    simp only [max_eq_left, max_eq_right, min_eq_left, min_eq_right, h, h', h''] <;>
    first
    | (ring; done)
    | (have e1 : a = b := by linarith
       have e2 : b = c := by linarith
       rw [e1, e2])

/-- The new squares multiply to one. -/
theorem squares_prod (m u : ℝ) (x : V3) (h : squares m u = some x) : x 0 * x 1 * x 2 = 1 ∧ ∀ i, 0 ≤ x i := by
  unfold squares at h
  simp only at h
  generalize firstRoot m u = x1 at h
  generalize secondRoot m x1 = x2 at h
  split_ifs at h with h1 h2
  rw [← Option.some.inj h, sortDown_prod]
  push Not at h1 h2
  obtain ⟨n1, n2⟩ := h1
  refine ⟨by field_simp, fun i => ?_⟩
  fin_cases i
  · exact le_max_of_le_right h2.2.2
  · exact le_max_of_le_left (le_min h2.1 h2.2.1)
  · exact le_min (le_min h2.1 h2.2.1) h2.2.2

theorem scaled_rows (U W : M3) (x : V3) (d : ℝ) :
    U * (Matrix.of fun j k => W.transpose j k * (d * Real.sqrt (x j))) =
      U * Matrix.diagonal (fun j => d * Real.sqrt (x j)) * W.transpose := by
  rw [Matrix.mul_assoc]
  congr 1
  ext j k
  rw [Matrix.diagonal_mul, Matrix.of_apply, mul_comm]

/-- **C50.** Relaxation keeps the determinant, sign included. -/
theorem relax_det (P : Par) (A U W A' : M3) (s : V3) (dt : ℝ) (hs : IsSVD A U W s)
    (h : relaxA P U W s dt A = some A') : A'.det = A.det := by
  obtain ⟨-, -, -, hA⟩ := hs
  unfold relaxA at h
  simp only at h
  split_ifs at h with hu
  · split at h
    · exact absurd h (by simp)
    · rename_i τ hτ
      rw [Option.map_eq_some_iff] at h
      obtain ⟨x, hx, rfl⟩ := h
      obtain ⟨hp, hn⟩ := squares_prod _ _ _ hx
      rw [scaled_rows, hA, Matrix.det_mul, Matrix.det_mul, Matrix.det_mul, Matrix.det_mul, Matrix.det_diagonal,
        Matrix.det_diagonal, Fin.prod_univ_three, Fin.prod_univ_three]
      congr 2
      have h3 := cbrt_cube (s 0 * s 1 * s 2)
      have hq : Real.sqrt (x 0) * Real.sqrt (x 1) * Real.sqrt (x 2) = 1 := by
        rw [← Real.sqrt_mul (hn 0), ← Real.sqrt_mul (mul_nonneg (hn 0) (hn 1)), hp, Real.sqrt_one]
      generalize cbrt (s 0 * s 1 * s 2) = d at *
      calc d * √(x 0) * (d * √(x 1)) * (d * √(x 2)) = d * d * d * (√(x 0) * √(x 1) * √(x 2)) := by ring
        _ = s 0 * s 1 * s 2 := by rw [hq, mul_one, h3]
  · rw [← Option.some.inj h]

/-! ### The cubic -/

/-- The trigonometric root solves the cubic with `|Δ|`. -/
theorem trig_root (u Δ : ℝ) (hΔ : Δ ≠ 0) (h : 0 < 6 * u * u * u - 81 * Δ * Δ) :
    let y := Real.sqrt (6 * u) / 3 * Real.cos (Real.arctan (Real.sqrt (6 * u * u * u - 81 * Δ * Δ) / (9 * Δ)) / 3)
    0 < y ∧ y ^ 3 - u / 2 * y = |Δ| / 2 := by
  have hu : 0 < u := by
    by_contra hu
    push Not at hu
    have h2 : 0 ≤ Δ * Δ := mul_self_nonneg _
    have h3 : u * u * u ≤ 0 := mul_nonpos_of_nonneg_of_nonpos (mul_self_nonneg u) hu
    nlinarith
  set w := Real.sqrt (6 * u * u * u - 81 * Δ * Δ) with hw
  have hw2 : w * w = 6 * u * u * u - 81 * Δ * Δ := Real.mul_self_sqrt h.le
  set θ := Real.arctan (w / (9 * Δ)) with hθ
  set R := Real.sqrt (6 * u) / 3 with hR
  have hs : Real.sqrt (6 * u) * Real.sqrt (6 * u) = 6 * u := Real.mul_self_sqrt (by positivity)
  have hsp : 0 < Real.sqrt (6 * u) := Real.sqrt_pos.mpr (by positivity)
  have hR2 : R ^ 2 = 2 * u / 3 := by rw [hR]; nlinarith
  have hRp : 0 < R := by positivity
  have hlo := Real.neg_pi_div_two_lt_arctan (w / (9 * Δ))
  have hhi := Real.arctan_lt_pi_div_two (w / (9 * Δ))
  have hpi := Real.pi_pos
  have hc3 : 0 < Real.cos (θ / 3) := Real.cos_pos_of_mem_Ioo ⟨by linarith, by linarith⟩
  have hcθ : Real.cos θ = 4 * Real.cos (θ / 3) ^ 3 - 3 * Real.cos (θ / 3) := by
    rw [← Real.cos_three_mul]; congr 1; ring
  have hcos : Real.cos θ = 9 * |Δ| / (u * Real.sqrt (6 * u)) := by
    rw [hθ, Real.cos_arctan]
    have e : 1 + (w / (9 * Δ)) ^ 2 = (u * Real.sqrt (6 * u) / (9 * |Δ|)) ^ 2 := by
      rw [div_pow, div_pow, mul_pow, mul_pow, mul_pow, sq_abs, pow_two w, hw2, pow_two (Real.sqrt _), hs]
      field_simp
      ring
    have hp : 0 < |Δ| := abs_pos.mpr hΔ
    rw [e, Real.sqrt_sq (by positivity), one_div_div]
  refine ⟨by positivity, ?_⟩
  have hR3 : R ^ 3 * 9 = 2 * (u * Real.sqrt (6 * u)) := by
    rw [hR]
    have : (Real.sqrt (6 * u) / 3) ^ 3 * 9 = Real.sqrt (6 * u) * Real.sqrt (6 * u) * Real.sqrt (6 * u) / 3 := by ring
    rw [this, hs]; ring
  have key : (R * Real.cos (θ / 3)) ^ 3 - u / 2 * (R * Real.cos (θ / 3)) = R ^ 3 / 4 * Real.cos θ := by
    rw [hcθ]
    have : u = 3 / 2 * R ^ 2 := by rw [hR2]; ring
    rw [this]; ring
  rw [key, hcos]
  have : R ^ 3 = 2 * (u * Real.sqrt (6 * u)) / 9 := by linarith
  rw [this]
  field_simp
  ring

/-- From one of three numbers with product one and mean `m` the code finds the other two. -/
theorem other_roots (m p q r : ℝ) (hp : 0 < p) (hr : r ≤ q) (hm : 3 * m = p + q + r) (h1 : p * q * r = 1) :
    secondRoot m p = q ∧ 1 / (p * q) = r := by
  have hpq : p * q ≠ 0 := by intro h; rw [h] at h1; simp at h1
  constructor
  · unfold secondRoot pos
    have e : 3 * m - p = q + r := by linarith
    simp only [e]
    have e2 : p * (q + r) * (q + r) - 4 = p * ((q - r) * (q - r)) := by linear_combination 4 * h1
    have : 0 ≤ p * ((q - r) * (q - r)) := mul_nonneg hp.le (mul_self_nonneg _)
    rw [e2, max_eq_right this, mul_div_cancel_left₀ _ hp.ne', Real.sqrt_mul_self (by linarith)]
    ring
  · rw [div_eq_iff hpq]; linarith

theorem cbrt_eq (v t : ℝ) (h : t ^ 3 = v) : cbrt v = t := by
  have h3 := cbrt_cube v
  have : cbrt v ^ 3 = t ^ 3 := by rw [h]; linarith [pow_succ (cbrt v) 2, pow_two (cbrt v)]
  exact (Odd.strictMono_pow (by decide : Odd 3)).injective this

/-- `x1` for three positive numbers with product one: the largest, or the smallest when the two largest coincide. -/
theorem firstRoot_eq (p q r m u : ℝ) (hpq : q ≤ p) (hqr : r ≤ q) (h1 : p * q * r = 1)
    (hm : 3 * m = p + q + r) (hu : u = (p - m) ^ 2 + (q - m) ^ 2 + (r - m) ^ 2) :
    (((p - m) * (q - m) * (r - m) = 0 ∨ 1e-12 ≤ 2 * ((p - m) * (q - m) * (r - m))) → firstRoot m u = p) ∧
    (2 * ((p - m) * (q - m) * (r - m)) ≤ -1e-12 → p = q → firstRoot m u = r) ∧
    ((2 * ((p - m) * (q - m) * (r - m)) ≤ -1e-12 → p ≠ q) →
      (p - m) * (q - m) * (r - m) < 0 ∨ 0 < (p - m) * (q - m) * (r - m) ∧ 2 * ((p - m) * (q - m) * (r - m)) < 1e-12 →
      firstRoot m u ≠ p ∧ firstRoot m u ≠ q ∧ firstRoot m u ≠ r) := by
  obtain ⟨x, rfl⟩ : ∃ x, p = m + x := ⟨p - m, by ring⟩
  obtain ⟨y, rfl⟩ : ∃ y, q = m + y := ⟨q - m, by ring⟩
  have hz : r = m + (-x - y) := by linarith
  subst hz
  have hxy : y ≤ x := by linarith
  have hyz : -x - y ≤ y := by linarith
  have ex : m + x - m = x := by ring
  have ey : m + y - m = y := by ring
  have ez : m + (-x - y) - m = -x - y := by ring
  rw [ex, ey, ez] at *
  have hΔ : -2 * m * m * m + m * u + 2 = 2 * (x * y * (-x - y)) := by
    rw [hu]; linear_combination (-2) * h1
  have hd : 6 * u * u * u - 81 * (2 * (x * y * (-x - y))) * (2 * (x * y * (-x - y))) =
      12 * ((x - y) * (y - (-x - y)) * ((-x - y) - x)) ^ 2 := by
    rw [hu]; ring
  have hx0 : 0 ≤ x := by linarith
  have hu0 : 0 ≤ u := by rw [hu]; positivity
  have hroot : ∀ w, w ^ 3 - u / 2 * w - x * y * (-x - y) = (w - x) * (w - y) * (w - (-x - y)) := by
    intro w; rw [hu]; ring
  unfold firstRoot
  simp only [hΔ, hd, pos]
  generalize hD : x * y * (-x - y) = D at *
  have hcos6 : Real.sqrt (6 * u) / 3 * Real.cos (Real.pi / 6) = Real.sqrt (u / 2) := by
    rw [Real.cos_pi_div_six]
    have : Real.sqrt (6 * u) * Real.sqrt 3 = 6 * Real.sqrt (u / 2) := by
      rw [← Real.sqrt_mul (by positivity)]
      have : (6 : ℝ) = Real.sqrt 36 := by
        rw [show (36 : ℝ) = 6 ^ 2 by norm_num, Real.sqrt_sq (by norm_num)]
      rw [this, ← Real.sqrt_mul (by norm_num)]
      congr 1
      rw [← this]
      ring
    linarith
  have hnz : D ≠ 0 → 0 < x := by
    intro h
    rcases hx0.lt_or_eq with h' | h'
    · exact h'
    · exfalso; apply h; rw [← hD, ← h']; ring
  refine ⟨?_, ?_, ?_⟩
  · rintro (h | h)
    · rw [h, mul_zero, abs_zero, if_pos (by norm_num), hcos6]
      have : u / 2 = x * x := by
        rw [h] at hD
        rcases mul_eq_zero.mp hD with h' | h'
        · rcases mul_eq_zero.mp h' with h'' | h''
          · have : y = 0 := by linarith
            rw [hu, h'', this]; ring
          · rw [hu, h'']; ring
        · have hx : x = 0 := by linarith
          have : y = 0 := by linarith
          rw [hu, hx, this]; ring
      rw [this, Real.sqrt_mul_self hx0]
      ring
    · have hDp : 0 < D := by norm_num at h; linarith
      have hxp := hnz hDp.ne'
      rw [if_neg (by rw [abs_of_pos (by linarith)]; linarith)]
      have hyneg : y < 0 := by
        by_contra hy
        push Not at hy
        have : x * y * (-x - y) ≤ 0 := mul_nonpos_of_nonneg_of_nonpos (by positivity) (by linarith)
        linarith
      by_cases ha : max 0 (12 * ((x - y) * (y - (-x - y)) * (-x - y - x)) ^ 2) = 0
      · rw [if_pos ha]
        have hsq : (x - y) * (y - (-x - y)) * (-x - y - x) = 0 := by
          have := max_eq_left_iff.mp ha
          have h2 := sq_nonneg ((x - y) * (y - (-x - y)) * (-x - y - x))
          exact pow_eq_zero_iff (two_ne_zero) |>.mp (by linarith)
        have hyx : y = -x / 2 := by
          rcases mul_eq_zero.mp hsq with h' | h'
          · rcases mul_eq_zero.mp h' with h'' | h''
            · linarith
            · linarith
          · linarith
        have ht : cbrt (54 * (2 * D)) = 3 * x := by
          apply cbrt_eq
          rw [← hD, hyx]; ring
        rw [ht, hu, hyx]
        field_simp
        ring
      · rw [if_neg ha]
        have hpos : 0 < 12 * ((x - y) * (y - (-x - y)) * (-x - y - x)) ^ 2 := by
          by_contra hc
          exact ha (max_eq_left (not_lt.mp hc))
        rw [max_eq_right hpos.le]
        have := trig_root u (2 * D) (by positivity) (by rw [hd]; exact hpos)
        simp only [hd] at this
        obtain ⟨hy0, hy⟩ := this
        generalize Real.sqrt (6 * u) / 3 * Real.cos (Real.arctan (Real.sqrt (12 * ((x - y) * (y - (-x - y)) *
          (-x - y - x)) ^ 2) / (9 * (2 * D))) / 3) = w at *
        have hr := hroot w
        rw [abs_of_pos (by positivity)] at hy
        have h0 : (w - x) * (w - y) * (w - (-x - y)) = 0 := by rw [← hr]; linarith
        rcases mul_eq_zero.mp h0 with h' | h'
        · rcases mul_eq_zero.mp h' with h'' | h''
          · linarith
          · linarith
        · linarith
  · intro h hxy'
    have hx : x = y := by linarith
    have hDn : D < 0 := by norm_num at h; linarith
    have hxp := hnz hDn.ne
    subst hx
    rw [if_neg (by rw [abs_of_neg (by linarith)]; linarith), if_pos (by simp)]
    have ht : cbrt (54 * (2 * D)) = -6 * x := by
      apply cbrt_eq
      rw [← hD]; ring
    rw [ht, hu]
    field_simp
    ring
  · intro hne hcase
    have main : ∀ w, w ^ 3 - u / 2 * w ≠ D → w + m ≠ m + x ∧ w + m ≠ m + y ∧ w + m ≠ m + (-x - y) := by
      intro w hw
      have hr := hroot w
      refine ⟨fun h => hw ?_, fun h => hw ?_, fun h => hw ?_⟩
      · have : w = x := by linarith
        rw [this] at hr ⊢; linarith
      · have : w = y := by linarith
        rw [this] at hr ⊢; linarith
      · have : w = -x - y := by linarith
        rw [this] at hr ⊢; linarith
    by_cases hsmall : |2 * D| < 1e-12
    · rw [if_pos hsmall, hcos6]
      apply main
      have hw : Real.sqrt (u / 2) * Real.sqrt (u / 2) = u / 2 := Real.mul_self_sqrt (by positivity)
      have : Real.sqrt (u / 2) ^ 3 - u / 2 * Real.sqrt (u / 2) = 0 := by
        linear_combination Real.sqrt (u / 2) * hw
      rw [this]
      rcases hcase with h | h
      · exact h.ne'
      · exact h.1.ne
    · rw [if_neg hsmall]
      have hDn : D < 0 := by
        rcases hcase with h | h
        · exact h
        · exfalso; apply hsmall; rw [abs_of_pos (by linarith)]; exact h.2
      have hxp := hnz hDn.ne
      rw [abs_of_neg (by linarith)] at hsmall
      have hne' : x ≠ y := fun h => hne (by linarith) (by rw [h])
      have hyp : 0 < y := by
        by_contra hy
        push Not at hy
        have : 0 ≤ x * y * (-x - y) := mul_nonneg_of_nonpos_of_nonpos (mul_nonpos_of_nonneg_of_nonpos hx0 hy) (by linarith)
        linarith
      have hpos : 0 < 12 * ((x - y) * (y - (-x - y)) * (-x - y - x)) ^ 2 := by
        have h1 : x - y ≠ 0 := sub_ne_zero.mpr hne'
        have h2 : y - (-x - y) ≠ 0 := by intro h; linarith
        have h3 : -x - y - x ≠ 0 := by intro h; linarith
        positivity
      rw [max_eq_right hpos.le, if_neg hpos.ne']
      have := trig_root u (2 * D) (by intro h; linarith) (by rw [hd]; exact hpos)
      simp only [hd] at this
      apply main
      rw [this.2, abs_of_neg (by linarith)]
      intro h; linarith

/-! ### No time -/

theorem nondimTime_zero (P : Par) (ρ d m u τ : ℝ) (h : nondimTime P ρ d m u 0 = some τ) : τ = 0 := by
  unfold nondimTime at h
  simp only at h
  split_ifs at h with h1 h2 h3 h4 h5 h6 h7
  · exact (Option.some.inj h).symm
  · split at h
    · exact absurd h (by simp)
    · split_ifs at h
      rw [← Option.some.inj h]; simp
  · exact (Option.some.inj h).symm
  · split at h
    · exact absurd h (by simp)
    · split_ifs at h
      rw [← Option.some.inj h]; simp
  · rw [← Option.some.inj h, mul_zero]

theorem newSquares_zero (m u : ℝ) (hu : 0 ≤ u) : newSquares m u 0 = squares m u := by
  unfold newSquares meanAt spreadAt pos
  simp only [mul_zero, Real.exp_zero, mul_one]
  congr 1
  · ring
  · rw [max_eq_right]
    · ring
    · linarith

theorem sortDown_mem (a b c : ℝ) : a = sortDown a b c 0 ∨ a = sortDown a b c 1 ∨ a = sortDown a b c 2 := by
  simp only [sortDown, Matrix.cons_val_zero, Matrix.cons_val_one, Matrix.cons_val]
  rcases le_total a b with h | h <;> rcases le_total a c with h' | h' <;> rcases le_total b c with h'' | h'' <;>
    simp only [max_eq_left, max_eq_right, min_eq_left, min_eq_right, h, h', h'', true_or, or_true]
  exact Or.inr (Or.inl (by linarith))

theorem diag_inj (U W : M3) (a b : V3) (hU : U.transpose * U = 1) (hW : W.transpose * W = 1)
    (h : U * Matrix.diagonal a * W.transpose = U * Matrix.diagonal b * W.transpose) : a = b := by
  have := congrArg (fun M => U.transpose * M * W) h
  have e : ∀ a : V3, U.transpose * (U * Matrix.diagonal a * W.transpose) * W = Matrix.diagonal a := by
    intro a
    calc _ = (U.transpose * U) * Matrix.diagonal a * (W.transpose * W) := by simp only [Matrix.mul_assoc]
      _ = _ := by rw [hU, hW, one_mul, mul_one]
  rw [e, e] at this
  exact Matrix.diagonal_injective this

/-- The squares of the singular values of a matrix scaled to determinant one. -/
def unitSquares (s : V3) : V3 := fun i => s i * s i / (cbrt (s 0 * s 1 * s 2) * cbrt (s 0 * s 1 * s 2))

/-- Their mean. -/
def unitMean (s : V3) : ℝ := (unitSquares s 0 + unitSquares s 1 + unitSquares s 2) / 3

theorem invariants_eq (s : V3) : invariants s = (unitMean s, (unitSquares s 0 - unitMean s) ^ 2 +
    (unitSquares s 1 - unitMean s) ^ 2 + (unitSquares s 2 - unitMean s) ^ 2) := by
  unfold invariants unitMean unitSquares
  simp only [Prod.mk.injEq, true_and]
  ring

/-- The squares the code computes from the invariants of a positive triple. -/
theorem squares_eq_iff (p : V3) (m u : ℝ) (hpos : 0 < p 2) (h01 : p 1 ≤ p 0) (h12 : p 2 ≤ p 1)
    (h1 : p 0 * p 1 * p 2 = 1) (hm : 3 * m = p 0 + p 1 + p 2)
    (hu : u = (p 0 - m) ^ 2 + (p 1 - m) ^ 2 + (p 2 - m) ^ 2) :
    squares m u = some p ↔ (p 0 - m) * (p 1 - m) * (p 2 - m) = 0 ∨ 1e-12 ≤ 2 * ((p 0 - m) * (p 1 - m) * (p 2 - m)) ∨
      2 * ((p 0 - m) * (p 1 - m) * (p 2 - m)) ≤ -1e-12 ∧ p 0 = p 1 := by
  obtain ⟨f1, f2, f3⟩ := firstRoot_eq (p 0) (p 1) (p 2) m u h01 h12 h1 hm hu
  have hp1 : 0 < p 1 := by linarith
  have hp0 : 0 < p 0 := by linarith
  have big : firstRoot m u = p 0 → squares m u = some p := by
    intro h
    obtain ⟨g1, g2⟩ := other_roots m (p 0) (p 1) (p 2) hp0 h12 hm h1
    unfold squares
    simp only [h, g1, g2]
    rw [if_neg (by rintro (h | h) <;> linarith), if_neg (by rintro (h | h | h) <;> linarith)]
    congr 1
    funext i
    fin_cases i <;> simp [sortDown, h01, h12, h12.trans h01]
  have small : firstRoot m u = p 2 → squares m u = some p := by
    intro h
    obtain ⟨g1, g2⟩ := other_roots m (p 2) (p 0) (p 1) hpos h01 (by linarith) (by linarith)
    unfold squares
    simp only [h, g1, g2]
    rw [if_neg (by rintro (h | h) <;> linarith), if_neg (by rintro (h | h | h) <;> linarith)]
    congr 1
    funext i
    fin_cases i <;> simp [sortDown, h01, h12, h12.trans h01]
  constructor
  · intro h
    by_contra hc
    push Not at hc
    obtain ⟨c1, c2, c3⟩ := hc
    have := f3 c3 (by
      rcases lt_or_gt_of_ne c1 with h' | h'
      · exact Or.inl h'
      · exact Or.inr ⟨h', c2⟩)
    unfold squares at h
    simp only at h
    split_ifs at h
    have hx := Option.some.inj h
    rcases sortDown_mem (firstRoot m u) (secondRoot m (firstRoot m u))
      (1 / (firstRoot m u * secondRoot m (firstRoot m u))) with h' | h' | h' <;> rw [hx] at h'
    · exact this.1 h'
    · exact this.2.1 h'
    · exact this.2.2 h'
  · rintro (h | h | h)
    · exact big (f1 (Or.inl h))
    · exact big (f1 (Or.inr h))
    · exact small (f2 h.1 h.2)

/-- **C51, exactly when it holds.** Relaxing over no time returns the distortion it was given if and only if the strain is
below the threshold, or the middle normalised squared stretch is below or at the mean (within the tolerance of the code),
or the two largest stretches coincide.  In every other case the result is a different distortion or not a number. -/
theorem relax_zero_iff (P : Par) (A U W : M3) (s : V3) (hs : IsSVD A U W s) (h2 : 0 < s 2) (h01 : s 1 ≤ s 0)
    (h12 : s 2 ≤ s 1)
    (hdef : nondimTime P (s 0 * s 1 * s 2 * P.ρ0) (cbrt (s 0 * s 1 * s 2)) (invariants s).1 (invariants s).2 0 ≠ none) :
    let p := unitSquares s
    let m := unitMean s
    let D := 2 * ((p 0 - m) * (p 1 - m) * (p 2 - m))
    relaxA P U W s 0 A = some A ↔
      (p 0 - m) ^ 2 + (p 1 - m) ^ 2 + (p 2 - m) ^ 2 < 1e-12 ∨ D = 0 ∨ 1e-12 ≤ D ∨ D ≤ -1e-12 ∧ s 0 = s 1 := by
  intro p m D
  obtain ⟨hU, hW, -, hA⟩ := hs
  have hs1 : 0 < s 1 := by linarith
  have hs0 : 0 < s 0 := by linarith
  have hc3 := cbrt_cube (s 0 * s 1 * s 2)
  have hd : 0 < cbrt (s 0 * s 1 * s 2) := by
    by_contra h
    push Not at h
    have : cbrt (s 0 * s 1 * s 2) * cbrt (s 0 * s 1 * s 2) * cbrt (s 0 * s 1 * s 2) ≤ 0 :=
      mul_nonpos_of_nonneg_of_nonpos (mul_self_nonneg _) h
    have : 0 < s 0 * s 1 * s 2 := by positivity
    linarith
  have hp : ∀ i, p i = s i * s i / (cbrt (s 0 * s 1 * s 2) * cbrt (s 0 * s 1 * s 2)) := fun _ => rfl
  have hiv : (invariants s).1 = m ∧ (invariants s).2 = (p 0 - m) ^ 2 + (p 1 - m) ^ 2 + (p 2 - m) ^ 2 := by
    rw [invariants_eq]; exact ⟨rfl, rfl⟩
  rw [hiv.1, hiv.2] at hdef
  unfold relaxA
  simp only [hiv.1, hiv.2]
  generalize hdd : cbrt (s 0 * s 1 * s 2) = d at *
  by_cases hu : (p 0 - m) ^ 2 + (p 1 - m) ^ 2 + (p 2 - m) ^ 2 < 1e-12
  · rw [if_neg (not_le.mpr hu)]
    simp [hu]
  rw [if_pos (not_lt.mp hu)]
  cases hn : nondimTime P (s 0 * s 1 * s 2 * P.ρ0) d m ((p 0 - m) ^ 2 + (p 1 - m) ^ 2 + (p 2 - m) ^ 2) 0 with
  | none => exact absurd hn hdef
  | some τ =>
    simp only
    rw [nondimTime_zero _ _ _ _ _ _ hn, newSquares_zero _ _ (by positivity)]
    have hle : ∀ a b : ℝ, 0 ≤ a → a ≤ b → a * a / (d * d) ≤ b * b / (d * d) := fun a b ha hab =>
      div_le_div_of_nonneg_right (mul_self_le_mul_self ha hab) (by positivity)
    have hprod : p 0 * p 1 * p 2 = 1 := by
      rw [hp, hp, hp]
      field_simp
      have : s 0 ^ 2 * s 1 ^ 2 * s 2 ^ 2 = (s 0 * s 1 * s 2) ^ 2 := by ring
      rw [this, ← hc3]; ring
    have key := squares_eq_iff p m _ (by rw [hp]; positivity) (by rw [hp, hp]; exact hle _ _ hs1.le h01)
      (by rw [hp, hp]; exact hle _ _ h2.le h12) hprod (by show 3 * ((p 0 + p 1 + p 2) / 3) = _; ring) rfl
    have hiff : (p 0 = p 1) ↔ s 0 = s 1 := by
      rw [hp, hp, div_left_inj' (by positivity)]
      exact mul_self_inj hs0.le hs1.le
    have hD : (p 0 - m) * (p 1 - m) * (p 2 - m) = 0 ↔ D = 0 := by
      show _ ↔ 2 * ((p 0 - m) * (p 1 - m) * (p 2 - m)) = 0
      simp
    rw [hiff, hD] at key
    rw [or_iff_right hu]
    show _ ↔ D = 0 ∨ 1e-12 ≤ D ∨ D ≤ -1e-12 ∧ s 0 = s 1
    rw [← key, Option.map_eq_some_iff]
    have hsi : ∀ i, 0 ≤ s i := by intro i; fin_cases i; exacts [hs0.le, hs1.le, h2.le]
    constructor
    · rintro ⟨x, hx, he⟩
      rw [hx]
      congr 1
      rw [scaled_rows, hA] at he
      have hinj := diag_inj U W _ _ hU hW he
      obtain ⟨-, hn⟩ := squares_prod _ _ _ hx
      funext i
      have := congrFun hinj i
      rw [hp, ← this, eq_div_iff (by positivity)]
      have h3 := Real.mul_self_sqrt (hn i)
      linear_combination (-(d * d)) * h3
    · intro hx
      refine ⟨p, hx, ?_⟩
      rw [scaled_rows, hA]
      congr 2
      congr 1
      funext i
      rw [hp, Real.sqrt_div (mul_self_nonneg _), Real.sqrt_mul_self (hsi i), Real.sqrt_mul_self hd.le]
      field_simp

/-- For a Newtonian material the time is always defined. -/
theorem nondimTime_newtonian (P : Par) (ρ d m u dt : ℝ) (hp : P.powerLaw = false) (hμ : P.μ ≠ 0) :
    nondimTime P ρ d m u dt = some (P.ρ0 * P.b02 * d ^ (7 : ℝ) / (3 * P.μ) * dt) := by
  simp [nondimTime, hp, hμ]

theorem svd_diag (s : V3) (h : ∀ i, 0 ≤ s i) : IsSVD (Matrix.diagonal s) 1 1 s := by
  refine ⟨by simp, by simp, h, by simp⟩

theorem at_two (a b c : ℝ) : ![a, b, c] 2 = c := rfl

theorem unit_stretch (a b c : ℝ) (h : a * b * c = 1) : unitSquares ![a, b, c] = ![a * a, b * b, c * c] := by
  funext i
  have e : ![a, b, c] 0 * ![a, b, c] 1 * ![a, b, c] 2 = 1 := h
  unfold unitSquares
  rw [e, cbrt_one]
  fin_cases i <;> simp

/-- **C51 fails**: stretches 2, 3/2 and 1/3 are changed by relaxing for no time. -/
theorem relax_zero_false : ¬ ∀ (P : Par) (A U W : M3) (s : V3), IsSVD A U W s → 0 < s 2 → s 1 ≤ s 0 → s 2 ≤ s 1 →
    P.powerLaw = false → P.μ ≠ 0 → relaxA P U W s 0 A = some A := by
  intro h
  have hs : IsSVD (Matrix.diagonal ![2, 3 / 2, 1 / 3]) 1 1 ![2, 3 / 2, 1 / 3] := svd_diag _ (by
    intro i; fin_cases i <;> norm_num)
  have h1 := h (samplePar sample) _ _ _ _ hs (by norm_num [at_two]) (by norm_num) (by norm_num [at_two]) rfl
    (by norm_num [samplePar, sample])
  have k := relax_zero_iff (samplePar sample) _ _ _ _ hs (by norm_num [at_two]) (by norm_num) (by norm_num [at_two])
    (by rw [nondimTime_newtonian _ _ _ _ _ _ rfl (by norm_num [samplePar, sample])]; simp)
  simp only [unitMean, unit_stretch _ _ _ (show (2 * (3 / 2) * (1 / 3) : ℝ) = 1 by norm_num), at_two] at k
  rw [k] at h1
  norm_num at h1

/-- Three distinct stretches that come back unchanged. -/
example : relaxA (samplePar sample) 1 1 ![3, 2 / 3, 1 / 2] 0 (Matrix.diagonal ![3, 2 / 3, 1 / 2]) =
    some (Matrix.diagonal ![3, 2 / 3, 1 / 2]) := by
  have hs : IsSVD (Matrix.diagonal ![3, 2 / 3, 1 / 2]) 1 1 ![3, 2 / 3, 1 / 2] := svd_diag _ (by
    intro i; fin_cases i <;> norm_num)
  have k := relax_zero_iff (samplePar sample) _ _ _ _ hs (by norm_num [at_two]) (by norm_num) (by norm_num [at_two])
    (by rw [nondimTime_newtonian _ _ _ _ _ _ rfl (by norm_num [samplePar, sample])]; simp)
  simp only [unitMean, unit_stretch _ _ _ (show (3 * (2 / 3) * (1 / 2) : ℝ) = 1 by norm_num), at_two] at k
  rw [k]
  norm_num

end

end Verif.Relax
