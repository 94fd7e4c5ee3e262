import Verif.Krylov.Arnoldi
import Mathlib.LinearAlgebra.Matrix.ToLin
import Mathlib.LinearAlgebra.Matrix.NonsingularInverse
import Mathlib.LinearAlgebra.FiniteDimensional.Basic
import Mathlib.LinearAlgebra.Dimension.Finite

/-! # `lgmres` minimises the residual -/

namespace Verif.Krylov

noncomputable section

attribute [local instance] Classical.propDecidable

open scoped RealInnerProductSpace

variable {E : Type*} [NormedAddCommGroup E] [InnerProductSpace ℝ E]
variable {qr : Nat → Nat → (Nat → Nat → ℝ) → (Nat → Nat → ℝ) × (Nat → Nat → ℝ)}
variable {lsq : Nat → (Nat → Nat → ℝ) → (Nat → ℝ) → Nat → ℝ}

/-- The variables on entry to the inner loop. -/
def start (v0 : E) : Arn E := ⟨fun _ => v0, fun _ => 0, fun r c => if r = 0 ∧ c = 0 then 1 else 0, fun _ _ => 0⟩

theorem start_inv (L : E →ₗ[ℝ] E) (v0 : E) (h : ‖v0‖ = 1) : Inv L 1 (start v0) := by
  refine ⟨?_, fun c hc => absurd hc (by omega), ?_, ?_, fun _ _ _ => rfl, ?_⟩
  · intro a ha b hb
    rw [show a = b by omega, if_pos rfl, start, real_inner_self_eq_norm_sq, h, one_pow]
  · intro a ha b hb
    obtain rfl : a = 0 := by omega
    obtain rfl : b = 0 := by omega
    simp [start]
  · intro a ha b hb
    obtain rfl : a = 0 := by omega
    obtain rfl : b = 0 := by omega
    simp [start]
  · intro r c hrc
    simp only [start]
    rw [if_neg (by omega)]

/-- The inner loop as run by one outer pass from `x`. -/
def run (qr : Nat → Nat → (Nat → Nat → ℝ) → (Nat → Nat → ℝ) × (Nat → Nat → ℝ)) (L : E →ₗ[ℝ] E) (junk : E) (mEPS tol : ℝ)
    (innerM : Nat) (b : E) (s : E × List E) : Nat × Arn E :=
  inner qr L (fun v => v) junk mEPS tol ‖-(L s.1 - b)‖ s.2 (innerM + s.2.length) 1
    (start (if ‖-(L s.1 - b)‖ = 0 then junk else ‖-(L s.1 - b)‖⁻¹ • -(L s.1 - b)))

theorem outerPass_eq (L : E →ₗ[ℝ] E) (junk : E) (mEPS tol : ℝ) (innerM outerK : Nat) (b : E) (s : E × List E) :
    (outerPass qr lsq L (fun v => v) junk mEPS tol innerM outerK b s).1 =
      s.1 + ∑ i ∈ Finset.range (run qr L junk mEPS tol innerM b s).1,
        (lsq (run qr L junk mEPS tol innerM b s).1 (run qr L junk mEPS tol innerM b s).2.R
          (fun c => (run qr L junk mEPS tol innerM b s).2.Q 0 c) i * ‖-(L s.1 - b)‖) •
          (run qr L junk mEPS tol innerM b s).2.ws i := rfl

theorem run_spec (hqr : IsQR qr) (L : E →ₗ[ℝ] E) (junk : E) (mEPS tol : ℝ) (hm : 0 ≤ mEPS) (innerM : Nat) (b : E)
    (s : E × List E) (hr : L s.1 ≠ b) :
    Post L (run qr L junk mEPS tol innerM b s).1 (run qr L junk mEPS tol innerM b s).2 ∧
    ‖b - L s.1‖ • (run qr L junk mEPS tol innerM b s).2.vs 0 = b - L s.1 := by
  have hne : ‖-(L s.1 - b)‖ ≠ 0 := by
    rw [norm_neg, norm_ne_zero_iff, sub_ne_zero]; exact hr
  have hunit : ‖‖-(L s.1 - b)‖⁻¹ • -(L s.1 - b)‖ = 1 := by
    rw [norm_smul, norm_inv, norm_norm, inv_mul_cancel₀ hne]
  obtain ⟨h1, h2⟩ := inner_spec hqr L junk mEPS tol ‖-(L s.1 - b)‖ hm s.2 (innerM + s.2.length) 1 le_rfl _
    (start_inv L _ hunit)
  have e : run qr L junk mEPS tol innerM b s = inner qr L (fun v => v) junk mEPS tol ‖-(L s.1 - b)‖ s.2
      (innerM + s.2.length) 1 (start (‖-(L s.1 - b)‖⁻¹ • -(L s.1 - b))) := by
    unfold run; rw [if_neg hne]
  rw [e]
  refine ⟨h1, ?_⟩
  rw [h2, start]
  simp only
  rw [show b - L s.1 = -(L s.1 - b) by abel, smul_smul, mul_inv_cancel₀ hne, one_smul]

/-- The residual after a pass, in terms of the triangular system. -/
theorem pass_residual (hqr : IsQR qr) (L : E →ₗ[ℝ] E) (junk : E) (mEPS tol : ℝ) (hm : 0 ≤ mEPS) (innerM : Nat) (b : E)
    (s : E × List E) (hr : L s.1 ≠ b) (y : Nat → ℝ) :
    ‖b - L (s.1 + ∑ i ∈ Finset.range (run qr L junk mEPS tol innerM b s).1,
        y i • (run qr L junk mEPS tol innerM b s).2.ws i)‖ ^ 2 =
      ∑ l ∈ Finset.range (run qr L junk mEPS tol innerM b s).1,
        (‖b - L s.1‖ * (run qr L junk mEPS tol innerM b s).2.Q 0 l -
          ∑ c ∈ Finset.range (run qr L junk mEPS tol innerM b s).1,
            (run qr L junk mEPS tol innerM b s).2.R l c * y c) ^ 2 +
        (‖b - L s.1‖ * (run qr L junk mEPS tol innerM b s).2.Q 0 (run qr L junk mEPS tol innerM b s).1) ^ 2 := by
  obtain ⟨h1, h2⟩ := run_spec hqr L junk mEPS tol hm innerM b s hr
  rw [← residual_sq L _ _ h1 ‖b - L s.1‖ y, h2, map_add]
  congr 2
  abel

/-- **The correction is optimal.** After one pass the residual is the smallest that any combination of the search
directions gives. -/
theorem pass_optimal (hqr : IsQR qr) (hl : IsLsq lsq) (L : E →ₗ[ℝ] E) (junk : E) (mEPS tol : ℝ) (hm : 0 ≤ mEPS)
    (innerM outerK : Nat) (b : E) (s : E × List E) (hr : L s.1 ≠ b) (y : Nat → ℝ) :
    ‖b - L (outerPass qr lsq L (fun v => v) junk mEPS tol innerM outerK b s).1‖ ≤
      ‖b - L (s.1 + ∑ i ∈ Finset.range (run qr L junk mEPS tol innerM b s).1,
        y i • (run qr L junk mEPS tol innerM b s).2.ws i)‖ := by
  have hβ : 0 < ‖b - L s.1‖ := by rw [norm_pos_iff, sub_ne_zero]; exact hr.symm
  have e : ‖-(L s.1 - b)‖ = ‖b - L s.1‖ := by rw [neg_sub]
  refine (sq_le_sq₀ (norm_nonneg _) (norm_nonneg _)).1 ?_
  rw [outerPass_eq, pass_residual hqr L junk mEPS tol hm innerM b s hr, pass_residual hqr L junk mEPS tol hm innerM b s hr, e]
  generalize run qr L junk mEPS tol innerM b s = w
  generalize ‖b - L s.1‖ = β at *
  have k := hl w.1 w.2.R (fun c => w.2.Q 0 c) fun c => y c / β
  have f : ∀ z : Nat → ℝ, ∑ l ∈ Finset.range w.1, (β * w.2.Q 0 l - ∑ c ∈ Finset.range w.1, w.2.R l c * (z c * β)) ^ 2 =
      β ^ 2 * ∑ l ∈ Finset.range w.1, (∑ c ∈ Finset.range w.1, w.2.R l c * z c - w.2.Q 0 l) ^ 2 := by
    intro z
    rw [Finset.mul_sum]
    refine Finset.sum_congr rfl fun l _ => ?_
    have : ∑ c ∈ Finset.range w.1, w.2.R l c * (z c * β) = (∑ c ∈ Finset.range w.1, w.2.R l c * z c) * β := by
      rw [Finset.sum_mul]; exact Finset.sum_congr rfl fun c _ => by ring
    rw [this]; ring
  have g : (fun c => y c / β * β) = y := by funext c; field_simp
  have f2 := f fun c => y c / β
  simp only [div_mul_cancel₀ _ hβ.ne'] at f2
  rw [f, f2]
  have := mul_le_mul_of_nonneg_left k (sq_nonneg β)
  linarith

/-- **C69.** However many passes are made, with whatever vectors kept from earlier calls, the residual does not grow. -/
theorem lgmres_decreases (hqr : IsQR qr) (hl : IsLsq lsq) (L : E →ₗ[ℝ] E) (junk : E) (mEPS tol : ℝ) (hm : 0 ≤ mEPS)
    (ht : 0 ≤ tol) (innerM outerK : Nat) (b : E) (k : Nat) : ∀ s : E × List E,
    ‖b - L (lgmres qr lsq L (fun v => v) junk mEPS tol innerM outerK b k s).1‖ ≤ ‖b - L s.1‖ := by
  induction k with
  | zero => intro s; exact le_rfl
  | succ k ih =>
    intro s
    rw [lgmres]
    generalize (if ‖b‖ = 0 then 1 else ‖b‖) = bn
    by_cases h : ‖L s.1 - b‖ ≤ tol * bn ∨ ‖L s.1 - b‖ ≤ tol
    · rw [if_pos h]
    · rw [if_neg h]
      refine (ih _).trans ?_
      have hr : L s.1 ≠ b := by
        intro h'
        apply h
        right
        rw [h', sub_self, norm_zero]
        exact ht
      have := pass_optimal hqr hl L junk mEPS tol hm innerM outerK b s hr fun _ => 0
      simpa using this

/-! ### Small systems -/

/-- The search directions. -/
theorem run_dirs (hqr : IsQR qr) (L : E →ₗ[ℝ] E) (junk : E) (mEPS tol : ℝ) (hm : 0 ≤ mEPS) (innerM : Nat) (b : E)
    (s : E × List E) (hr : L s.1 ≠ b) :
    (∀ i < (run qr L junk mEPS tol innerM b s).1, (run qr L junk mEPS tol innerM b s).2.ws i =
      direction s.2 (run qr L junk mEPS tol innerM b s).2 (i + 1)) ∧
    (1 ≤ innerM → 1 ≤ (run qr L junk mEPS tol innerM b s).1) := by
  have hne : ‖-(L s.1 - b)‖ ≠ 0 := by
    rw [norm_neg, norm_ne_zero_iff, sub_ne_zero]; exact hr
  have hunit : ‖‖-(L s.1 - b)‖⁻¹ • -(L s.1 - b)‖ = 1 := by
    rw [norm_smul, norm_inv, norm_norm, inv_mul_cancel₀ hne]
  unfold run
  rw [if_neg hne]
  obtain ⟨h1, h2⟩ := inner_dirs hqr L junk mEPS tol ‖-(L s.1 - b)‖ hm s.2 (innerM + s.2.length) 1 le_rfl _
    (start_inv L _ hunit) (by omega)
  exact ⟨h1, fun h => h2 (by omega)⟩

/-- **C69, the first direction.** Without vectors from earlier calls the residual is at most what any step along the
residual gives. -/
theorem pass_descent (hqr : IsQR qr) (hl : IsLsq lsq) (L : E →ₗ[ℝ] E) (junk : E) (mEPS tol : ℝ) (hm : 0 ≤ mEPS)
    (innerM outerK : Nat) (hi : 1 ≤ innerM) (b x : E) (t : ℝ) :
    L x ≠ b → ‖b - L (outerPass qr lsq L (fun v => v) junk mEPS tol innerM outerK b (x, [])).1‖ ≤
      ‖b - L (x + t • (b - L x))‖ := by
  intro hr
  obtain ⟨d1, d2⟩ := run_dirs hqr L junk mEPS tol hm innerM b (x, []) hr
  obtain ⟨-, h2⟩ := run_spec hqr L junk mEPS tol hm innerM b (x, []) hr
  have h0 := d1 0 (d2 hi)
  simp only [direction, List.length_nil] at h0
  rw [if_neg (by omega), if_pos trivial] at h0
  have k := pass_optimal hqr hl L junk mEPS tol hm innerM outerK b (x, []) hr
    fun i => if i = 0 then t * ‖b - L x‖ else 0
  refine k.trans (le_of_eq ?_)
  congr 3
  rw [Finset.sum_eq_single 0]
  · rw [if_pos rfl, h0]
    simp only
    rw [mul_smul]
    congr 2
  · intro i _ hi; rw [if_neg hi, zero_smul]
  · intro hn; exact absurd (Finset.mem_range.2 (d2 hi)) hn

theorem orth_independent {vs : Nat → E} {j : Nat} (h : Orth vs j) : LinearIndependent ℝ fun i : Fin j => vs i := by
  have : Orthonormal ℝ fun i : Fin j => vs i := by
    rw [orthonormal_iff_ite]
    intro a b
    rw [h a a.2 b b.2]
    simp [Fin.ext_iff]
  exact this.linearIndependent

/-- The triangular system is regular. -/
theorem regular (L : E →ₗ[ℝ] E) (hL : Function.Injective L) (j : Nat) (s : Arn E) (h : Post L j s)
    (hw : ∀ i < j, s.ws i = s.vs i) :
    IsUnit (Matrix.of fun l c : Fin j => s.R l c) := by
  rw [← Matrix.mulVec_injective_iff_isUnit]
  rw [show Function.Injective (Matrix.of fun l c : Fin j => s.R l c).mulVec ↔ _ from
    injective_iff_map_eq_zero (Matrix.of fun l c : Fin j => s.R l c).mulVecLin]
  intro y hy
  have hy' : ∀ l : Fin j, ∑ c : Fin j, s.R l c * y c = 0 := fun l => congrFun hy l
  have hsum : L (∑ c : Fin j, y c • s.ws c) = 0 := by
    rw [map_sum]
    have : ∀ c : Fin j, L (y c • s.ws c) = ∑ r ∈ Finset.range (j + 1),
        (∑ k ∈ Finset.range (j + 1), s.Q r k * (s.R k c * y c)) • s.vs r := by
      intro c
      rw [map_smul, h.rel c c.2, Finset.smul_sum]
      refine Finset.sum_congr rfl fun r _ => ?_
      rw [smul_smul, Finset.mul_sum]
      congr 1
      exact Finset.sum_congr rfl fun k _ => by ring
    rw [Finset.sum_congr rfl fun c _ => this c, Finset.sum_comm]
    refine Finset.sum_eq_zero fun r _ => ?_
    rw [← Finset.sum_smul, Finset.sum_comm]
    rw [Finset.sum_eq_zero, zero_smul]
    intro k hk
    rw [← Finset.mul_sum]
    have hk := Finset.mem_range.1 hk
    rcases Nat.lt_succ_iff_lt_or_eq.1 hk with hk | rfl
    · rw [hy' ⟨k, hk⟩, mul_zero]
    · rw [Finset.sum_eq_zero, mul_zero]
      intro c _
      rw [h.upper k c c.2, zero_mul]
  have h0 : ∑ c : Fin j, y c • s.vs c = 0 := by
    rw [← hL (hsum.trans (map_zero L).symm)]
    exact Finset.sum_congr rfl fun c _ => by rw [hw c c.2]
  funext c
  exact Fintype.linearIndependent_iff.1 (orth_independent h.orth) y h0 c

theorem sum_fin_range (j : Nat) (f : Nat → ℝ) : ∑ c : Fin j, f c = ∑ c ∈ Finset.range j, f c :=
  Fin.sum_univ_eq_sum_range f j

/-- With a regular triangular system the residual is the one the loop keeps track of. -/
theorem regular_residual (hqr : IsQR qr) (hl : IsLsq lsq) (L : E →ₗ[ℝ] E) (junk : E) (mEPS tol : ℝ) (hm : 0 ≤ mEPS)
    (innerM outerK : Nat) (b : E) (s : E × List E) (hr : L s.1 ≠ b)
    (hu : IsUnit (Matrix.of fun l c : Fin (run qr L junk mEPS tol innerM b s).1 =>
      (run qr L junk mEPS tol innerM b s).2.R l c)) :
    ‖b - L (outerPass qr lsq L (fun v => v) junk mEPS tol innerM outerK b s).1‖ =
      |(run qr L junk mEPS tol innerM b s).2.Q 0 (run qr L junk mEPS tol innerM b s).1| * ‖b - L s.1‖ := by
  obtain ⟨y, hy⟩ := Matrix.mulVec_surjective_iff_isUnit.2 hu fun l => (run qr L junk mEPS tol innerM b s).2.Q 0 l
  have key : ∀ l < (run qr L junk mEPS tol innerM b s).1, ∑ c ∈ Finset.range (run qr L junk mEPS tol innerM b s).1,
      (run qr L junk mEPS tol innerM b s).2.R l c * lsq (run qr L junk mEPS tol innerM b s).1
        (run qr L junk mEPS tol innerM b s).2.R (fun c => (run qr L junk mEPS tol innerM b s).2.Q 0 c) c -
      (run qr L junk mEPS tol innerM b s).2.Q 0 l = 0 := by
    generalize run qr L junk mEPS tol innerM b s = w at *
    have k := hl w.1 w.2.R (fun c => w.2.Q 0 c) fun c => if h : c < w.1 then y ⟨c, h⟩ else 0
    have z : ∑ l ∈ Finset.range w.1, (∑ c ∈ Finset.range w.1, w.2.R l c * (if h : c < w.1 then y ⟨c, h⟩ else 0) -
        w.2.Q 0 l) ^ 2 = 0 := by
      refine Finset.sum_eq_zero fun l hl => ?_
      have hl := Finset.mem_range.1 hl
      have e := congrFun hy ⟨l, hl⟩
      rw [← sum_fin_range w.1 fun c => w.2.R l c * (if h : c < w.1 then y ⟨c, h⟩ else 0)]
      simp only [Fin.is_lt, dite_true, Fin.eta]
      have e' : ∑ c : Fin w.1, w.2.R l c * y c = w.2.Q 0 l := e
      rw [e', sub_self]
      norm_num
    rw [z] at k
    intro l hl
    have := (Finset.sum_eq_zero_iff_of_nonneg fun l _ => sq_nonneg _).1 (le_antisymm k
      (Finset.sum_nonneg fun l _ => sq_nonneg _)) l (Finset.mem_range.2 hl)
    exact pow_eq_zero_iff two_ne_zero |>.1 this
  refine (sq_eq_sq₀ (norm_nonneg _) (by positivity)).1 ?_
  rw [outerPass_eq, pass_residual hqr L junk mEPS tol hm innerM b s hr]
  rw [Finset.sum_eq_zero, zero_add, mul_pow, mul_pow, sq_abs, mul_comm]
  intro l hl
  have := key l (Finset.mem_range.1 hl)
  have e : ‖-(L s.1 - b)‖ = ‖b - L s.1‖ := by rw [neg_sub]
  rw [e]
  have e2 : ∀ z : Nat → ℝ, ∑ c ∈ Finset.range (run qr L junk mEPS tol innerM b s).1,
      (run qr L junk mEPS tol innerM b s).2.R l c * (z c * ‖b - L s.1‖) =
      (∑ c ∈ Finset.range (run qr L junk mEPS tol innerM b s).1, (run qr L junk mEPS tol innerM b s).2.R l c * z c) *
        ‖b - L s.1‖ := by
    intro z
    rw [Finset.sum_mul]; exact Finset.sum_congr rfl fun c _ => by ring
  rw [e2, sub_eq_zero.1 this]
  ring

/-- **C70.** A regular system with at most `inner_m` unknowns is solved to the tolerance by one pass, unless the operator maps
some space with the residual almost, but not quite, into itself. -/
theorem pass_small [FiniteDimensional ℝ E] (hqr : IsQR qr) (hl : IsLsq lsq) (L : E →ₗ[ℝ] E) (hL : Function.Injective L)
    (junk : E) (mEPS tol : ℝ) (hm : 0 ≤ mEPS) (ht : 0 ≤ tol) (innerM outerK : Nat) (hdim : Module.finrank ℝ E ≤ innerM) (b x : E)
    (hr : L x ≠ b) :
    ‖b - L (outerPass qr lsq L (fun v => v) junk mEPS tol innerM outerK b (x, [])).1‖ ≤ tol * ‖b - L x‖ ∨
      Breakdown L mEPS (b - L x) := by
  obtain ⟨h1, h2⟩ := run_spec hqr L junk mEPS tol hm innerM b (x, []) hr
  obtain ⟨d1, d2⟩ := run_dirs hqr L junk mEPS tol hm innerM b (x, []) hr
  have hw : ∀ i < (run qr L junk mEPS tol innerM b (x, [])).1, (run qr L junk mEPS tol innerM b (x, [])).2.ws i =
      (run qr L junk mEPS tol innerM b (x, [])).2.vs i := by
    intro i hi
    rw [d1 i hi]
    simp only [direction, List.length_nil]
    rw [if_neg (by omega)]
    split_ifs with h
    · rw [show i = 0 by omega]
    · rfl
  have hu := regular L hL _ _ h1 hw
  rw [regular_residual hqr hl L junk mEPS tol hm innerM outerK b (x, []) hr hu]
  have hstop := inner_stop hqr L junk mEPS tol ‖-(L x - b)‖ hm (innerM + 0) 1 le_rfl
    (start (if ‖-(L x - b)‖ = 0 then junk else ‖-(L x - b)‖⁻¹ • -(L x - b))) (by
      have hne : ‖-(L x - b)‖ ≠ 0 := by rw [norm_neg, norm_ne_zero_iff, sub_ne_zero]; exact hr
      rw [if_neg hne]
      apply start_inv
      rw [norm_smul, norm_inv, norm_norm, inv_mul_cancel₀ hne])
  rw [show inner qr L (fun v => v) junk mEPS tol ‖-(L x - b)‖ [] (innerM + 0) 1
    (start (if ‖-(L x - b)‖ = 0 then junk else ‖-(L x - b)‖⁻¹ • -(L x - b))) = run qr L junk mEPS tol innerM b (x, [])
    from rfl] at hstop
  have hβ : 0 < ‖b - L x‖ := by rw [norm_pos_iff, sub_ne_zero]; exact hr.symm
  have e : ‖-(L x - b)‖ = ‖b - L x‖ := by rw [neg_sub]
  rw [e] at hstop
  generalize run qr L junk mEPS tol innerM b (x, []) = w at *
  rcases hstop with ho | ⟨hj, ho | ho⟩ | ho
  · exfalso
    have := (orth_independent ho).fintype_card_le_finrank
    rw [Fintype.card_fin] at this
    omega
  · exact .inl ho
  · -- the last row of the Hessenberg matrix vanishes
    have hz : ∀ k : Fin w.1, w.2.Q w.1 k = 0 := by
      have : Function.Injective (fun v : Fin w.1 → ℝ => Matrix.vecMul v (Matrix.of fun l c : Fin w.1 => w.2.R l c)) :=
        Matrix.vecMul_injective_iff_isUnit.2 hu
      have h0 : (fun k : Fin w.1 => w.2.Q w.1 k) = 0 := by
        apply this
        simp only [Matrix.zero_vecMul]
        funext c
        have hc := ho c c.2
        rw [Finset.sum_range_succ, h1.upper w.1 c c.2, mul_zero, add_zero] at hc
        show ∑ k : Fin w.1, w.2.Q w.1 k * w.2.R k c = 0
        rw [sum_fin_range w.1 fun k => w.2.Q w.1 k * w.2.R k c]
        exact hc
      exact fun k => congrFun h0 k
    have hrow := h1.row w.1 (by omega) w.1 (by omega)
    rw [if_pos rfl, Finset.sum_range_succ, Finset.sum_eq_zero, zero_add] at hrow
    · have hcol := h1.col w.1 (by omega) w.1 (by omega)
      rw [if_pos rfl, Finset.sum_range_succ, hrow] at hcol
      have hs : ∑ l ∈ Finset.range w.1, w.2.Q l w.1 * w.2.Q l w.1 = 0 := by linarith
      have := (Finset.sum_eq_zero_iff_of_nonneg fun l _ => mul_self_nonneg _).1 hs 0 (Finset.mem_range.2 hj)
      left
      rw [mul_self_eq_zero.1 this, abs_zero, zero_mul]
      positivity
    · intro l hl
      rw [hz ⟨l, Finset.mem_range.1 hl⟩, zero_mul]
  · right
    obtain ⟨W, hW, hrest⟩ := ho
    refine ⟨W, ?_, hrest⟩
    rw [start] at hW
    simp only at hW
    rw [if_neg hβ.ne'] at hW
    have := W.smul_mem ‖b - L x‖ hW
    rwa [smul_smul, mul_inv_cancel₀ hβ.ne', one_smul, neg_sub] at this

/-- In exact arithmetic without the breakdown threshold the exception does not arise. -/
theorem no_breakdown (L : E →ₗ[ℝ] E) (u : E) : ¬ Breakdown L 0 u := by
  rintro ⟨W, -, w, -, hn, p, hp, hle⟩
  rw [zero_mul] at hle
  rw [sub_eq_zero.1 (norm_eq_zero.1 (le_antisymm hle (norm_nonneg _)))] at hn
  exact hn hp

/-! ### The Jacobian -/

/-- **C70.** The difference quotient of an affine residual is its linear part, whatever the step. -/
theorem jacVec_affine (L : E →ₗ[ℝ] E) (c x0 : E) (omega : ℝ) (ho : omega ≠ 0) (v : E) :
    jacVec (fun x => L x + c) x0 (L x0 + c) omega v = L v := by
  unfold jacVec
  split_ifs with h
  · rw [norm_eq_zero.1 h, map_zero]
  · have hs : omega / ‖v‖ ≠ 0 := div_ne_zero ho h
    beta_reduce
    rw [map_add, map_smul, show L x0 + (omega / ‖v‖) • L v + c - (L x0 + c) = (omega / ‖v‖) • L v by abel, smul_smul,
      inv_mul_cancel₀ hs, one_smul]

/-- **C70.** For an affine residual with regular linear part in at most thirty unknowns, the first Newton direction leads to
a residual within the tolerance, relative to the present one or absolutely. -/
theorem newton_affine [FiniteDimensional ℝ E] (hqr : IsQR qr) (hl : IsLsq lsq) (L : E →ₗ[ℝ] E)
    (hL : Function.Injective L) (junk : E) (mEPS tol : ℝ) (hm : 0 ≤ mEPS) (ht : 0 ≤ tol) (hdim : Module.finrank ℝ E ≤ 30) (c x0 : E)
    (omega : ℝ) (ho : omega ≠ 0) :
    ‖L (x0 - (jacSolve qr lsq (fun x => L x + c) x0 (L x0 + c) omega junk mEPS tol [] (L x0 + c)).1) + c‖ ≤
      tol * max 1 ‖L x0 + c‖ ∨ Breakdown L mEPS (L x0 + c) := by
  have hv : jacVec (fun x => L x + c) x0 (L x0 + c) omega = L := funext fun v => jacVec_affine L c x0 omega ho v
  unfold jacSolve
  rw [hv]
  generalize hb : L x0 + c = b
  have key : ‖b - L (lgmres qr lsq L (fun v => v) junk mEPS tol 30 10 b 1 (0, [])).1‖ ≤ tol * max 1 ‖b‖ ∨
      Breakdown L mEPS b := by
    rw [lgmres]
    simp only [map_zero, zero_sub, norm_neg]
    split_ifs with h1 h2 h2
    · left; simp [norm_eq_zero.1 h1]; positivity
    · rw [lgmres]
      have := pass_small hqr hl L hL junk mEPS tol hm ht 30 10 hdim b 0 (by
        rw [map_zero]; intro hb0; apply h2; rw [← hb0, norm_zero]; right; exact ht)
      rw [map_zero, sub_zero] at this
      exact this.imp_left fun h => h.trans (mul_le_mul_of_nonneg_left (le_max_right _ _) ht)
    · left
      simp only [map_zero, sub_zero]
      rcases h2 with h2 | h2
      · exact h2.trans (mul_le_mul_of_nonneg_left (le_max_right _ _) ht)
      · exact h2.trans (le_mul_of_one_le_right ht (le_max_left _ _))
    · rw [lgmres]
      have := pass_small hqr hl L hL junk mEPS tol hm ht 30 10 hdim b 0 (by
        rw [map_zero]; intro hb0; apply h1; rw [← hb0, norm_zero])
      rw [map_zero, sub_zero] at this
      exact this.imp_left fun h => h.trans (mul_le_mul_of_nonneg_left (le_max_right _ _) ht)
  rw [map_sub]
  refine key.imp_left (le_trans (le_of_eq ?_))
  congr 1
  rw [← hb]; abel

end

end Verif.Krylov
