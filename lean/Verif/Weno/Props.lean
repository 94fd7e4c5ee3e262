import Verif.Weno.Osc

/-!
# Reconstruction: conservation, exactness, definedness (C19, C20, C22)

`Setup` collects the hypotheses: the basis is the code's Lagrange basis on distinct nodes, the tables are
the ones `globals.cpp` builds, the indicator has a non-negative quadratic form (`oscillation_form`: true
when its storage was zero) and the constants are positive.
-/

namespace Verif.Weno

open Verif.Poly Verif.Basis Polynomial

structure Setup (n : Nat) where
  x : Fin n → ℝ
  psi : Fin n → List ℝ
  T : Tables n
  pos : 0 < n
  inj : Function.Injective x
  basis : IsBasis x psi
  tables : ∃ sig lamS lamC eps, T = mkTables psi sig lamS lamC eps
  ok : T.Pos

variable {n : Nat}

/-- The polynomial with nodal values `w`. -/
noncomputable def Setup.recon (S : Setup n) (w : Fin n → ℝ) : ℝ[X] := ∑ j, C (w j) * den (S.psi j)

/-- Mean over the reference cell as a linear functional. -/
noncomputable def Setup.mean (S : Setup n) : (Fin n → ℝ) →ₗ[ℝ] ℝ :=
  ∑ j, (∫ t in (0 : ℝ)..1, (den (S.psi j)).eval t) • LinearMap.proj j

theorem Setup.mean_apply (S : Setup n) (w : Fin n → ℝ) :
    S.mean w = ∫ t in (0 : ℝ)..1, (S.recon w).eval t := by
  unfold Setup.mean Setup.recon
  simp only [eval_finsetSum, eval_mul, eval_C]
  rw [intervalIntegral.integral_finsetSum]
  · simp only [LinearMap.sum_apply, LinearMap.smul_apply, LinearMap.proj_apply, smul_eq_mul,
      intervalIntegral.integral_const_mul]
    exact Finset.sum_congr rfl fun j _ => mul_comm _ _
  · intro j _
    have := (den (S.psi j)).continuous
    exact Continuous.intervalIntegrable (by fun_prop) _ _

theorem coeffs_mean (S : Setup n) (undef : ℝ) (data : Nat → ℝ) (nx gap ind : Int)
    (ha : Active n nx gap ind) :
    ∫ t in (0 : ℝ)..1, (S.recon (coeffs S.T undef data nx gap ind)).eval t = data (n - 1) := by
  obtain ⟨sig, lamS, lamC, eps, hT⟩ := S.tables
  obtain ⟨hfc, hf, hc⟩ := fn2_cn2 n S.pos
  have hp := S.pos
  have st := fun b s hs hbs => stencil_mean S.basis S.inj data b s hs hbs
  rw [← S.mean_apply]
  refine (coeffs_functional S.T S.ok undef data nx gap ind S.mean (data (n - 1)) ?_ ?_ ?_ ?_).2 ha
  all_goals rw [S.mean_apply, hT]; unfold mkTables Setup.recon; simp only []
  · exact st 0 (n - 1) (by omega) (by omega)
  · exact st (n - 1) 0 (by omega) (by omega)
  · exact st (fn2 n) (cn2 n) hc (by omega)
  · exact st (cn2 n) (fn2 n) hf (by omega)

theorem coeffs_poly (S : Setup n) (undef : ℝ) (data : Nat → ℝ) (nx gap ind : Int)
    (ha : Active n nx gap ind) (f : ℝ[X]) (hf : f.degree < n)
    (hd : ∀ r, r < 2 * n - 1 → data r = ∫ t in ((r : ℝ) - (n - 1 : Nat))..((r : ℝ) - (n - 1 : Nat) + 1), f.eval t)
    (k : Fin n) : coeffs S.T undef data nx gap ind k = f.eval (S.x k) := by
  obtain ⟨sig, lamS, lamC, eps, hT⟩ := S.tables
  obtain ⟨hfc, hf', hc⟩ := fn2_cn2 n S.pos
  have hp := S.pos
  have st := fun b s hbs => stencil_poly S.basis S.inj data b s hbs f hf hd
  refine (coeffs_functional S.T S.ok undef data nx gap ind (LinearMap.proj k) (f.eval (S.x k))
    ?_ ?_ ?_ ?_).2 ha
  all_goals rw [LinearMap.proj_apply, hT]; unfold mkTables; simp only []
  · rw [st 0 (n - 1) (by omega)]
  · rw [st (n - 1) 0 (by omega)]
  · rw [st (fn2 n) (cn2 n) (by omega)]
  · rw [st (cn2 n) (fn2 n) (by omega)]

/-! ### One dimension: no gap, every cell is active -/

theorem active_zero (n : Nat) (nx : Int) (ind : Nat) : Active n nx 0 ind := Or.inl (by omega)

/-- C19, one dimension: the mean of the reconstruction over cell `i` is the cell average passed in
(row `i + N - 1` of the padded array). -/
theorem weno1_conservative (S : Setup n) (undef : ℝ) (ub : Nat → ℝ) (nx i : Nat) :
    ∫ t in (0 : ℝ)..1, (S.recon (weno1 S.T undef ub nx 0 i)).eval t = ub (i + (n - 1)) :=
  coeffs_mean S undef _ nx 0 i (active_zero n nx i)

theorem coeffs_poly_shift (S : Setup n) (undef : ℝ) (ub : Nat → ℝ) (nx gap : Int) (i : Nat)
    (ha : Active n nx gap i) (f : ℝ[X]) (hf : f.degree < n)
    (hd : ∀ r, i ≤ r → r < i + (2 * n - 1) → ub r = ∫ t in (r : ℝ)..((r : ℝ) + 1), f.eval t) (k : Fin n) :
    coeffs S.T undef (fun r => ub (i + r)) nx gap i k = f.eval ((i : ℝ) + (n - 1 : Nat) + S.x k) := by
  set c : ℝ := (i : ℝ) + (n - 1 : Nat) with hc
  rw [coeffs_poly S undef _ nx gap i ha (f.comp (X + C c)) ?_ ?_ k]
  · rw [eval_comp]; simp [add_comm]
  · by_cases hf0 : f = 0
    · subst hf0; rw [zero_comp, degree_zero]; exact WithBot.bot_lt_coe _
    refine lt_of_le_of_lt degree_le_natDegree ?_
    have h1 : (f.comp (X + C c)).natDegree ≤ f.natDegree := by
      refine natDegree_comp_le.trans ?_
      rw [natDegree_X_add_C, mul_one]
    exact_mod_cast lt_of_le_of_lt h1 ((natDegree_lt_iff_degree_lt hf0).2 hf)
  · intro r hr
    rw [hd (i + r) (by omega) (by omega)]
    simp only [eval_comp, eval_add, eval_X, eval_C]
    rw [intervalIntegral.integral_comp_add_right (fun t => f.eval t) c]
    push_cast
    congr 1 <;> rw [hc] <;> ring

/-- C20, one dimension: if the padded array holds the cell averages of one polynomial of degree `< N`
(cell `r` being `[r, r+1]`), the reconstruction in cell `i` is that polynomial at the nodes. -/
theorem weno1_reproduces (S : Setup n) (undef : ℝ) (ub : Nat → ℝ) (nx i : Nat) (f : ℝ[X])
    (hf : f.degree < n)
    (hd : ∀ r, i ≤ r → r < i + (2 * n - 1) → ub r = ∫ t in (r : ℝ)..((r : ℝ) + 1), f.eval t)
    (k : Fin n) :
    weno1 S.T undef ub nx 0 i k = f.eval ((i : ℝ) + (n - 1 : Nat) + S.x k) :=
  coeffs_poly_shift S undef ub nx 0 i (active_zero n nx i) f hf hd k

/-! ### C22: which cells have a stencil -/

/-- Gain of the central stencils. -/
def central (n : Nat) : Nat := if n ≤ 2 then 0 else if n % 2 = 0 then 2 * fn2 n else fn2 n

/-- With gap `N` (edge columns of a two-dimensional grid) every row has a stencil exactly when there are
enough rows. -/
theorem active_gap_n (n : Nat) (hn : 0 < n) (nx : Nat) (hx : 0 < nx) :
    (∀ i : Nat, i < nx → Active n nx n i) ↔ 2 * n ≤ nx + central n := by
  constructor
  · intro h
    by_contra hc
    push Not at hc
    unfold central at hc
    unfold Active fn2 at *
    by_cases h2 : n ≤ 2
    · rw [if_pos h2] at hc
      have := h (nx - 1) (by omega)
      by_cases h3 : nx < n
      · omega
      · have := h (nx - n) (by omega)
        omega
    · rw [if_neg h2] at hc
      by_cases h4 : n % 2 = 0
      · rw [if_pos h4] at hc
        by_cases h3 : nx + (n - 1) / 2 < n
        · have := h 0 (by omega); omega
        · have := h (nx + (n - 1) / 2 - n) (by omega); omega
      · rw [if_neg h4] at hc
        by_cases h3 : nx < n
        · have := h 0 (by omega); omega
        · have := h (nx - n) (by omega); omega
  · intro h i hi
    unfold central at h
    unfold Active fn2 at *
    by_cases h2 : n ≤ 2
    · rw [if_pos h2] at h; omega
    · rw [if_neg h2] at h
      by_cases h4 : n % 2 = 0
      · rw [if_pos h4] at h; omega
      · rw [if_neg h4] at h; omega

theorem active_gap_one (n : Nat) (nx : Nat) (hx : 2 ≤ nx) (i : Nat) (_hi : i < nx) : Active n nx 1 i := by
  unfold Active; omega

/-- C22: the denominator of `coeffs` is positive exactly when a stencil is active. -/
theorem coeffs_defined (S : Setup n) (data : Nat → ℝ) (nx gap ind : Int) :
    Active n nx gap ind ↔ (coeffsND S.T data nx gap ind).2 ≠ 0 := by
  have h := (coeffs_functional S.T S.ok 0 data nx gap ind 0 0 rfl rfl rfl rfl).1
  constructor
  · intro ha; exact (h.1 ha).ne'
  · intro h0
    by_contra hc
    apply h0
    -- nothing was accumulated
    unfold Active at hc
    push Not at hc
    obtain ⟨h1, h2, h3, h4⟩ := hc
    have e3 : (decide (n > 2) && decide (ind + ↑(fn2 n) ≥ gap)) = false := by
      by_cases hn : n > 2
      · have := h3 hn; simp; omega
      · simp [hn]
    have e4 : (decide (n > 2) && (decide (n % 2 = 0) && decide (ind - ↑(fn2 n) ≤ nx - gap - 1))) = false := by
      by_cases hn : n > 2
      · by_cases hm : n % 2 = 0
        · have := h4 hn hm; simp; omega
        · simp [hm]
      · simp [hn]
    unfold coeffsND acc
    simp only [e3, e4, show decide (ind ≥ gap) = false by simpa using h1,
      show decide (ind ≤ nx - gap - 1) = false by simpa using h2]
    rfl

/-- The full claim of C22 is false of the code: in two dimensions with the shipped `N = 2` a grid with a
single row (`nX(0) = 1`, three rows handed to the reconstruction) has no stencil in the middle row of the
edge columns — `0/0`. -/
theorem weno_one_row_undefined (S : Setup 2) (data : Nat → ℝ) :
    (coeffsND S.T data 3 2 1).2 = 0 := by
  by_contra h
  have := (coeffs_defined S data 3 2 1).2 h
  unfold Active at this
  omega

/-! ### Two dimensions -/

theorem foldl_update_ne {α : Type} (l : List α) (f : α → Nat) (v : α → ℝ) (m : Nat → ℝ) (p : Nat)
    (h : ∀ a ∈ l, f a ≠ p) : (l.foldl (fun m t => Function.update m (f t) (v t)) m) p = m p := by
  induction l generalizing m with
  | nil => rfl
  | cons a l ih =>
    rw [List.foldl_cons, ih _ fun b hb => h b (List.mem_cons_of_mem a hb),
      Function.update_of_ne (h a List.mem_cons_self).symm]

theorem foldl_update_get {α : Type} (l : List α) (f : α → Nat) (v : α → ℝ) (m : Nat → ℝ)
    (hinj : ∀ a ∈ l, ∀ b ∈ l, f a = f b → a = b) (a : α) (ha : a ∈ l) :
    (l.foldl (fun m t => Function.update m (f t) (v t)) m) (f a) = v a := by
  classical
  induction l generalizing m with
  | nil => exact absurd ha (by simp)
  | cons b l ih =>
    rw [List.foldl_cons]
    by_cases hal : a ∈ l
    · exact ih _ (fun c hc d hd => hinj c (List.mem_cons_of_mem b hc) d (List.mem_cons_of_mem b hd)) hal
    · have hab : a = b := by
        rcases List.mem_cons.1 ha with h | h
        · exact h
        · exact absurd h hal
      subst hab
      rw [foldl_update_ne, Function.update_self]
      intro c hc h
      exact hal (hinj c (List.mem_cons_of_mem a hc) a List.mem_cons_self h ▸ hc)

theorem radix_inj {n a b c d : Nat} (hb : b < n) (hd : d < n) (h : a * n + b = c * n + d) :
    a = c ∧ b = d := by
  have hn : 0 < n := by omega
  have h1 : (a * n + b) / n = (c * n + d) / n := by rw [h]
  have h2 : (a * n + b) % n = (c * n + d) % n := by rw [h]
  rw [Nat.mul_comm, Nat.mul_comm c, Nat.mul_add_div hn, Nat.mul_add_div hn, Nat.div_eq_of_lt hb,
    Nat.div_eq_of_lt hd] at h1
  rw [Nat.mul_comm, Nat.mul_comm c, Nat.mul_add_mod, Nat.mul_add_mod, Nat.mod_eq_of_lt hb,
    Nat.mod_eq_of_lt hd] at h2
  exact ⟨by omega, h2⟩

/-- Gap used by the first loop in column `j`. -/
def gapX (n : Nat) (noCorners : Bool) (ny j : Nat) : Int :=
  if noCorners && (decide (j < n) || decide (j + n ≥ ny + 2 * (n - 1))) then n else 0

/-- Gap used by the second loop in row `i`. -/
def gapY (noCorners : Bool) (nx i : Nat) : Int :=
  if noCorners && (decide (i = 0) || decide (i + 1 = nx)) then 1 else 0

theorem weno2x_get (T : Tables n) (undef : ℝ) (nc : Bool) (ub : Nat → ℝ) (nx ny : Nat) (ux0 : Nat → ℝ)
    (i j : Nat) (hi : i < nx) (hj : j < ny + 2 * (n - 1)) (k : Fin n) :
    weno2x T undef nc ub nx ny ux0 ((i * (ny + 2 * (n - 1)) + j) * n + k) =
      weno1 T undef (fun r => ub (j + r * (ny + 2 * (n - 1)))) nx (gapX n nc ny j) i k := by
  set W := ny + 2 * (n - 1) with hW
  unfold weno2x
  have := foldl_update_get ((List.range W).flatMap fun j => (List.range nx).flatMap fun i =>
    (List.finRange n).map fun k => (j, i, k))
    (fun t : Nat × Nat × Fin n => t.1 * n + t.2.1 * W * n + t.2.2)
    (fun t => weno1 T undef (fun r => ub (t.1 + r * W)) nx (gapX n nc ny t.1) t.2.1 t.2.2) ux0 ?_
    (j, i, k) ?_
  · simp only [] at this
    rw [show (i * W + j) * n + (k : Nat) = j * n + i * W * n + k by ring]
    exact this
  · intro a ha b hb h
    obtain ⟨aj, ai, ak⟩ := a
    obtain ⟨bj, bi, bk⟩ := b
    simp only [List.mem_flatMap, List.mem_range, List.mem_map, Prod.mk.injEq] at ha hb
    obtain ⟨j1, hj1, i1, hi1, k1, _, e1, e2, e3⟩ := ha
    obtain ⟨j2, hj2, i2, hi2, k2, _, e4, e5, e6⟩ := hb
    subst e1 e2 e3 e4 e5 e6
    simp only [] at h
    have h' : (i1 * W + j1) * n + (k1 : Nat) = (i2 * W + j2) * n + k2 := by linarith
    obtain ⟨e1, e2⟩ := radix_inj k1.2 k2.2 h'
    obtain ⟨e3, e4⟩ := radix_inj hj1 hj2 e1
    rw [e3, e4, Fin.ext e2]
  · simp only [List.mem_flatMap, List.mem_range, List.mem_map, Prod.mk.injEq]
    exact ⟨j, hj, i, hi, k, List.mem_finRange k, rfl, rfl, rfl⟩

theorem weno2_get (T : Tables n) (undef : ℝ) (nc : Bool) (ub : Nat → ℝ) (nx ny : Nat)
    (ux0 wh0 : Nat → ℝ) (i j : Nat) (hi : i < nx) (hj : j < ny) (ii jj : Fin n) :
    weno2 T undef nc ub nx ny ux0 wh0 (((i * ny + j) * n + ii) * n + jj) =
      weno1 T undef (fun r => weno2x T undef nc ub nx ny ux0 ((i * (ny + 2 * (n - 1)) + r) * n + ii))
        ny (gapY nc nx i) j jj := by
  unfold weno2 weno2y
  have := foldl_update_get ((List.range nx).flatMap fun i => (List.finRange n).flatMap fun ii =>
    (List.range ny).flatMap fun j => (List.finRange n).map fun k => (i, ii, j, k))
    (fun t : Nat × Fin n × Nat × Fin n => (t.1 * ny * n + t.2.1) * n + t.2.2.1 * n * n + t.2.2.2)
    (fun t => weno1 T undef (fun r => weno2x T undef nc ub nx ny ux0
      ((t.1 * (ny + 2 * (n - 1)) * n + t.2.1) + r * n)) ny (gapY nc nx t.1) t.2.2.1 t.2.2.2) wh0 ?_
    (i, ii, j, jj) ?_
  · simp only [] at this
    rw [show ((i * ny + j) * n + (ii : Nat)) * n + (jj : Nat) =
      (i * ny * n + ii) * n + j * n * n + jj by ring]
    refine Eq.trans this ?_
    congr 1
    funext r
    congr 1
    ring
  · intro a ha b hb h
    obtain ⟨ai, aii, aj, ak⟩ := a
    obtain ⟨bi, bii, bj, bk⟩ := b
    simp only [List.mem_flatMap, List.mem_range, List.mem_map, Prod.mk.injEq] at ha hb
    obtain ⟨i1, hi1, ii1, _, j1, hj1, k1, _, e1, e2, e3, e7⟩ := ha
    obtain ⟨i2, hi2, ii2, _, j2, hj2, k2, _, e4, e5, e6, e8⟩ := hb
    subst e1 e2 e3 e4 e5 e6 e7 e8
    simp only [] at h
    have h' : ((i1 * ny + j1) * n + (ii1 : Nat)) * n + (k1 : Nat) =
        ((i2 * ny + j2) * n + (ii2 : Nat)) * n + k2 := by linarith
    obtain ⟨e1, e2⟩ := radix_inj k1.2 k2.2 h'
    obtain ⟨e3, e4⟩ := radix_inj ii1.2 ii2.2 e1
    obtain ⟨e5, e6⟩ := radix_inj hj1 hj2 e3
    rw [e5, e6, Fin.ext e2, Fin.ext e4]
  · simp only [List.mem_flatMap, List.mem_range, List.mem_map, Prod.mk.injEq]
    exact ⟨i, hi, ii, List.mem_finRange ii, j, hj, jj, List.mem_finRange jj, rfl, rfl, rfl, rfl⟩

/-- Enough rows and columns for every stencil choice: `nx`, `ny` are the sizes `weno2` is given (two more
than the grid). -/
def Wide (n : Nat) (noCorners : Bool) (nx ny : Nat) : Prop :=
  noCorners = true → 2 * n ≤ nx + central n ∧ 2 ≤ ny

theorem active_x (hn : 0 < n) {nc : Bool} {nx ny : Nat} (h : Wide n nc nx ny) (i j : Nat) (hi : i < nx) :
    Active n nx (gapX n nc ny j) i := by
  unfold gapX
  split_ifs with hc
  · have hnc : nc = true := by
      cases nc with
      | true => rfl
      | false => simp at hc
    exact (active_gap_n n hn nx (by omega)).2 (h hnc).1 i hi
  · exact active_zero n nx i

theorem active_y {nc : Bool} {nx ny : Nat} (h : Wide n nc nx ny) (i j : Nat) (hj : j < ny) :
    Active n ny (gapY nc nx i) j := by
  unfold gapY
  split_ifs with hc
  · have hnc : nc = true := by
      cases nc with
      | true => rfl
      | false => simp at hc
    exact active_gap_one n ny (h hnc).2 j hj
  · exact active_zero n ny j

/-- C19, two dimensions: the mean over the unit square of the reconstruction in cell `(i, j)` is the
cell average `(i + N - 1, j + N - 1)` of the padded array. -/
theorem weno2_conservative (S : Setup n) (undef : ℝ) (nc : Bool) (ub : Nat → ℝ) (nx ny : Nat)
    (hw : Wide n nc nx ny) (ux0 wh0 : Nat → ℝ) (i j : Nat) (hi : i < nx) (hj : j < ny) :
    ∫ s in (0 : ℝ)..1, ∫ t in (0 : ℝ)..1, ∑ ii : Fin n, ∑ jj : Fin n,
        weno2 S.T undef nc ub nx ny ux0 wh0 (((i * ny + j) * n + ii) * n + jj) *
          (evaluate (S.psi ii) s * evaluate (S.psi jj) t) =
      ub ((i + (n - 1)) * (ny + 2 * (n - 1)) + (j + (n - 1))) := by
  set W := ny + 2 * (n - 1) with hW
  have h1 : ∀ ii : Fin n, S.mean (fun jj : Fin n => weno2 S.T undef nc ub nx ny ux0 wh0 (((i * ny + j) * n + ii) * n + jj)) =
      weno2x S.T undef nc ub nx ny ux0 ((i * W + (j + (n - 1))) * n + ii) := by
    intro ii
    have : (fun jj : Fin n => weno2 S.T undef nc ub nx ny ux0 wh0 (((i * ny + j) * n + ii) * n + jj)) =
        weno1 S.T undef (fun r => weno2x S.T undef nc ub nx ny ux0 ((i * W + r) * n + ii))
          ny (gapY nc nx i) j := by
      funext jj; exact weno2_get S.T undef nc ub nx ny ux0 wh0 i j hi hj ii jj
    rw [this, S.mean_apply]
    exact coeffs_mean S undef _ ny _ j (active_y hw i j hj)
  have h2 : S.mean (fun ii : Fin n => weno2x S.T undef nc ub nx ny ux0 ((i * W + (j + (n - 1))) * n + ii)) =
      ub ((i + (n - 1)) * W + (j + (n - 1))) := by
    have hp := S.pos
    have : (fun ii : Fin n => weno2x S.T undef nc ub nx ny ux0 ((i * W + (j + (n - 1))) * n + ii)) =
        weno1 S.T undef (fun r => ub ((j + (n - 1)) + r * W)) nx (gapX n nc ny (j + (n - 1))) i := by
      funext ii; exact weno2x_get S.T undef nc ub nx ny ux0 i _ hi (by omega) ii
    rw [this, S.mean_apply]
    refine (coeffs_mean S undef _ nx _ i (active_x S.pos hw i _ hi)).trans ?_
    show ub (j + (n - 1) + (i + (n - 1)) * W) = _; rw [Nat.add_comm]
  rw [← h2]
  -- integrate out t, then s
  have inner : ∀ s : ℝ, ∫ t in (0 : ℝ)..1, ∑ ii : Fin n, ∑ jj : Fin n,
      weno2 S.T undef nc ub nx ny ux0 wh0 (((i * ny + j) * n + ii) * n + jj) *
          (evaluate (S.psi ii) s * evaluate (S.psi jj) t) =
      (S.recon fun ii : Fin n => weno2x S.T undef nc ub nx ny ux0 ((i * W + (j + (n - 1))) * n + ii)).eval s := by
    intro s
    have e : ∀ t : ℝ, ∑ ii : Fin n, ∑ jj : Fin n, weno2 S.T undef nc ub nx ny ux0 wh0 (((i * ny + j) * n + ii) * n + jj) *
          (evaluate (S.psi ii) s * evaluate (S.psi jj) t) = ∑ ii : Fin n, evaluate (S.psi ii) s *
        (S.recon fun jj : Fin n => weno2 S.T undef nc ub nx ny ux0 wh0 (((i * ny + j) * n + ii) * n + jj)).eval t := by
      intro t
      refine Finset.sum_congr rfl fun ii _ => ?_
      unfold Setup.recon
      rw [eval_finsetSum, Finset.mul_sum]
      refine Finset.sum_congr rfl fun jj _ => ?_
      rw [eval_mul, eval_C, evaluate_den (S.psi jj)]; ring
    simp only [e]
    rw [intervalIntegral.integral_finsetSum]
    · rw [Setup.recon, eval_finsetSum]
      refine Finset.sum_congr rfl fun ii _ => ?_
      rw [intervalIntegral.integral_const_mul, ← S.mean_apply, h1 ii, eval_mul, eval_C, evaluate_den,
        mul_comm]
    · intro ii _
      have := (S.recon fun jj : Fin n => weno2 S.T undef nc ub nx ny ux0 wh0 (((i * ny + j) * n + ii) * n + jj)).continuous
      exact Continuous.intervalIntegrable (by fun_prop) _ _
  simp only [inner]
  rw [S.mean_apply]

/-- C20, two dimensions: if the padded array holds the cell averages of `∑_b p_b(s) t^b` with every `p_b`
of degree `< N` (cell `(I, J)` being `[I, I+1] × [J, J+1]`), the reconstruction is that polynomial at the
nodes of every cell. -/
theorem weno2_reproduces (S : Setup n) (undef : ℝ) (nc : Bool) (ub : Nat → ℝ) (nx ny : Nat)
    (hw : Wide n nc nx ny) (ux0 wh0 : Nat → ℝ) (p : Fin n → ℝ[X]) (hp : ∀ b, (p b).degree < n)
    (hd : ∀ I J : Nat, I < nx + 2 * (n - 1) → J < ny + 2 * (n - 1) →
      ub (I * (ny + 2 * (n - 1)) + J) = ∫ s in (I : ℝ)..((I : ℝ) + 1), ∫ t in (J : ℝ)..((J : ℝ) + 1),
        ∑ b : Fin n, (p b).eval s * t ^ (b : Nat))
    (i j : Nat) (hi : i < nx) (hj : j < ny) (ii jj : Fin n) :
    weno2 S.T undef nc ub nx ny ux0 wh0 (((i * ny + j) * n + ii) * n + jj) =
      ∑ b : Fin n, (p b).eval ((i : ℝ) + (n - 1 : Nat) + S.x ii) *
        ((j : ℝ) + (n - 1 : Nat) + S.x jj) ^ (b : Nat) := by
  set W := ny + 2 * (n - 1) with hW
  have hn := S.pos
  -- averages in t
  have hG : ∀ (J : Nat) (s : ℝ), ∫ t in (J : ℝ)..((J : ℝ) + 1), ∑ b : Fin n, (p b).eval s * t ^ (b : Nat) =
      (∑ b : Fin n, C (∫ t in (J : ℝ)..((J : ℝ) + 1), t ^ (b : Nat)) * p b).eval s := by
    intro J s
    rw [intervalIntegral.integral_finsetSum, eval_finsetSum]
    · refine Finset.sum_congr rfl fun b _ => ?_
      rw [intervalIntegral.integral_const_mul, eval_mul, eval_C, mul_comm]
    · intro b _
      exact Continuous.intervalIntegrable (by fun_prop) _ _
  have hdeg : ∀ c : Fin n → ℝ, (∑ b, C (c b) * p b).degree < (n : WithBot ℕ) := by
    intro c
    rw [degree_lt_iff_coeff_zero]
    intro m hm
    rw [finsetSum_coeff]
    refine Finset.sum_eq_zero fun b _ => ?_
    rw [coeff_C_mul, coeff_eq_zero_of_degree_lt (lt_of_lt_of_le (hp b) (by exact_mod_cast hm)), mul_zero]
  -- first pass
  have hx : ∀ (J : Nat), J < W → weno2x S.T undef nc ub nx ny ux0 ((i * W + J) * n + ii) =
      ∫ t in (J : ℝ)..((J : ℝ) + 1), ∑ b : Fin n, (p b).eval ((i : ℝ) + (n - 1 : Nat) + S.x ii) * t ^ (b : Nat) := by
    intro J hJ
    rw [weno2x_get S.T undef nc ub nx ny ux0 i J hi hJ ii, hG]
    refine coeffs_poly_shift S undef (fun r => ub (J + r * W)) nx _ i (active_x hn hw i J hi) _ (hdeg _) ?_ ii
    intro r hr1 hr2
    show ub (J + r * W) = _
    rw [show J + r * W = r * W + J by ring, hd r J (by omega) hJ]
    simp only [hG]
  -- second pass
  rw [weno2_get S.T undef nc ub nx ny ux0 wh0 i j hi hj ii jj]
  have hval : ∑ b : Fin n, (p b).eval ((i : ℝ) + (n - 1 : Nat) + S.x ii) *
        ((j : ℝ) + (n - 1 : Nat) + S.x jj) ^ (b : Nat) =
      (∑ b : Fin n, C ((p b).eval ((i : ℝ) + (n - 1 : Nat) + S.x ii)) * X ^ (b : Nat)).eval
        ((j : ℝ) + (n - 1 : Nat) + S.x jj) := by
    rw [eval_finsetSum]
    exact Finset.sum_congr rfl fun b _ => by simp
  rw [hval]
  refine coeffs_poly_shift S undef
    (fun r => weno2x S.T undef nc ub nx ny ux0 ((i * W + r) * n + ii)) ny _ j (active_y hw i j hj) _ ?_ ?_ jj
  · rw [degree_lt_iff_coeff_zero]
    intro m hm
    rw [finsetSum_coeff]
    refine Finset.sum_eq_zero fun b _ => ?_
    rw [coeff_C_mul, coeff_X_pow, if_neg (by omega), mul_zero]
  · intro r hr1 hr2
    rw [hx r (by omega)]
    congr 1
    funext t
    rw [eval_finsetSum]
    exact Finset.sum_congr rfl fun b _ => by simp

/-- The consequence for the caller: on that grid the whole middle row of the first column of the
intermediate array is the result of `0/0`. -/
theorem weno2x_one_row_undefined (S : Setup 2) (undef : ℝ) (ub : Nat → ℝ) (ny : Nat)
    (ux0 : Nat → ℝ) (k : Fin 2) :
    weno2x S.T undef true ub 3 ny ux0 ((1 * (ny + 2 * (2 - 1)) + 0) * 2 + k) = undef := by
  rw [weno2x_get S.T undef true ub 3 ny ux0 1 0 (by omega) (by omega) k]
  have hg : gapX 2 true ny 0 = 2 := by simp [gapX]
  unfold weno1 coeffs
  simp only [hg]
  have := weno_one_row_undefined S (fun r => ub (0 + (1 + r) * (ny + 2 * (2 - 1))))
  simp only [Nat.cast_ofNat, Nat.cast_one] at this ⊢
  rw [if_pos this]

/-! ### Non-vacuity -/

/-- A `Setup` exists for every `n ≥ 1` and every choice of distinct nodes, with the code's indicator on
zeroed storage and the constants of `options.h`. -/
theorem setup_exists (n : Nat) (hn : 0 < n) (x : Fin n → ℝ) (hx : Function.Injective x) :
    ∃ S : Setup n, S.x = x ∧ (∀ i j, oscillationIndicator 0 S.psi i j = some (S.T.sig i j)) ∧
      S.T.lamS = 1 ∧ S.T.lamC = 10 ^ 5 ∧ S.T.eps = 1 / 10 ^ 14 := by
  obtain ⟨psi, hb, -, -⟩ := basis_cardinal x hx
  choose sig hs using fun i j => (⟨_, oscillation_gram hb hn 0 i j⟩ :
    ∃ v, oscillationIndicator 0 psi i j = some v)
  have hform := fun w => (oscillation_form hb hn (Matrix.of sig) (fun i j => hs i j) w).2
  exact ⟨⟨x, psi, mkTables psi (Matrix.of sig) 1 (10 ^ 5) (1 / 10 ^ 14), hn, hx, hb,
    ⟨_, _, _, _, rfl⟩, ⟨hform, by simp [mkTables], by simp [mkTables], by simp [mkTables]⟩⟩,
    rfl, hs, rfl, rfl, rfl⟩

/-- `Wide` holds for the shipped `N = 2` on every grid with at least two rows and one column. -/
example (a b : Nat) (ha : 2 ≤ a) (_hb : 1 ≤ b) : Wide 2 true (a + 2) (b + 2) := by
  intro _; simp [central]; omega

/-- The hypothesis of `weno1_reproduces` is met, e.g. by `f = 3 + 2 t`. -/
example : ∃ (ub : Nat → ℝ) (f : ℝ[X]), f.degree < (2 : Nat) ∧ f ≠ 0 ∧
    ∀ r : Nat, ub r = ∫ t in (r : ℝ)..((r : ℝ) + 1), f.eval t :=
  ⟨_, C 2 * X + C 3, lt_of_le_of_lt degree_linear_le (by norm_num),
    fun h => by have := congrArg (coeff · 0) h; simp at this, fun r => rfl⟩

end Verif.Weno
