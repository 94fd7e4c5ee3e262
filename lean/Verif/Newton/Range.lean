import Verif.Newton.Search
import Mathlib.Algebra.BigOperators.Fin
import Mathlib.Algebra.Polynomial.Derivative
import Mathlib.Tactic.ComputeDegree

/-! # The length of a Newton step -/

namespace Verif.Newton

open Ext

attribute [local instance] Classical.propDecidable

noncomputable section

variable {n : Nat}

/-- A vector of numbers. -/
def real (x : Fin n → ℝ) : Vec n := fun i => fin (x i)

theorem foldl_real (l : List ℝ) : ∀ a, (l.map fin).foldl add (fin a) = fin (a + l.sum) := by
  induction l with
  | nil => intro a; simp
  | cons b l ih =>
    intro a
    rw [List.map_cons, List.foldl_cons, show (fin a).add (fin b) = fin (a + b) from rfl, ih, List.sum_cons, add_assoc]

theorem squaredNorm_real (y : Fin n → ℝ) : squaredNorm (real y) = fin (∑ i, y i ^ 2) := by
  unfold squaredNorm real
  have : (List.ofFn fun i => (fin (y i)).mul (fin (y i))) = (List.ofFn fun i => y i ^ 2).map fin := by
    rw [List.map_ofFn]
    congr 1
    funext i
    simp [Ext.mul, sq]
  rw [this, foldl_real, List.sum_ofFn, zero_add]

theorem axpy_real (x dx : Fin n → ℝ) (s : ℝ) : axpy (real x) (fin s) (real dx) = real fun i => x i + s * dx i := rfl

/-- The cubic with the coefficients of `trial`. -/
def coefA (φ0 α p0 p1 : ℝ) : ℝ := (p1 - φ0 + φ0 * α - α * α * p0) / (α * α * (α - 1))

def coefB (φ0 α p0 p1 : ℝ) : ℝ := (-(p1 - φ0 + φ0 * α) + α * α * α * p0) / (α * α * (α - 1))

theorem coef_add (φ0 α p0 p1 : ℝ) (h0 : 0 < α) (h1 : α < 1) : coefA φ0 α p0 p1 + coefB φ0 α p0 p1 = p0 := by
  unfold coefA coefB
  have : α - 1 ≠ 0 := by linarith
  field_simp
  ring

/-- The trial step for a cubic, as a real number. -/
theorem trial_real (z : Bool) (φ0 α p0 p1 : ℝ) (h0 : 0 < α) (h1 : α < 1) (hφ : 0 < φ0) (hp : 3 / 4 * φ0 < p0) :
    (coefA φ0 α p0 p1 = 0 ∧ trial z (fin φ0) (fin α) (fin p0) (fin p1) = nan) ∨
      coefA φ0 α p0 p1 ≠ 0 ∧ trial z (fin φ0) (fin α) (fin p0) (fin p1) =
        fin ((-coefB φ0 α p0 p1 + Real.sqrt |coefB φ0 α p0 p1 * coefB φ0 α p0 p1 + 3 * coefA φ0 α p0 p1 * φ0|) /
          (3 * coefA φ0 α p0 p1)) := by
  have hne : α * α * (α - 1) ≠ 0 := by
    have : α - 1 ≠ 0 := by linarith
    positivity
  have e : trial z (fin φ0) (fin α) (fin p0) (fin p1) =
      (fin (-coefB φ0 α p0 p1 + Real.sqrt |coefB φ0 α p0 p1 * coefB φ0 α p0 p1 + 3 * coefA φ0 α p0 p1 * φ0|)).div z
        (fin (3 * coefA φ0 α p0 p1)) := by
    unfold trial coefA coefB
    simp only [Ext.mul, sub, neg, add, div, if_neg (show α * α * (α + -1) ≠ 0 by rw [← sub_eq_add_neg]; exact hne),
      Ext.abs, Ext.sqrt]
    simp only [← sub_eq_add_neg]
  have hadd := coef_add φ0 α p0 p1 h0 h1
  by_cases hA : coefA φ0 α p0 p1 = 0
  · left
    refine ⟨hA, ?_⟩
    rw [e, hA]
    have hB : 0 < coefB φ0 α p0 p1 := by linarith
    have : -coefB φ0 α p0 p1 + Real.sqrt |coefB φ0 α p0 p1 * coefB φ0 α p0 p1 + 3 * 0 * φ0| = 0 := by
      rw [mul_zero, zero_mul, add_zero, abs_of_nonneg (by positivity), Real.sqrt_mul_self hB.le]
      ring
    rw [this]
    cases z <;> simp [div, signed, neg]
  · right
    refine ⟨hA, ?_⟩
    rw [e, div, if_neg (by simpa using hA)]

/-- Under the conditions that hold in the line search a trial step is shorter than the full step and goes forward. -/
theorem trial_range (φ0 α p0 p1 : ℝ) (h0 : 0 < α) (h1 : α < 1) (hφ : 0 < φ0) (hp : 3 / 4 * φ0 < p0)
    (hA : coefA φ0 α p0 p1 ≠ 0) :
    let t := (-coefB φ0 α p0 p1 + Real.sqrt |coefB φ0 α p0 p1 * coefB φ0 α p0 p1 + 3 * coefA φ0 α p0 p1 * φ0|) /
      (3 * coefA φ0 α p0 p1)
    0 < t ∧ t < 1 ∧ 3 * coefA φ0 α p0 p1 * t ^ 2 + 2 * coefB φ0 α p0 p1 * t - φ0 = 0 ∧
      0 < 3 * coefA φ0 α p0 p1 * t + coefB φ0 α p0 p1 := by
  intro t
  have hadd := coef_add φ0 α p0 p1 h0 h1
  set A := coefA φ0 α p0 p1
  set B := coefB φ0 α p0 p1
  have hD : 0 < B * B + 3 * A * φ0 := by
    have : B = p0 - A := by linarith
    rw [this]
    nlinarith [sq_nonneg (2 * A + (3 * φ0 - 2 * p0)), mul_pos hφ (show 0 < 12 * p0 - 9 * φ0 by linarith)]
  set s := Real.sqrt |B * B + 3 * A * φ0| with hs
  have hs2 : s * s = B * B + 3 * A * φ0 := by rw [hs, Real.mul_self_sqrt (abs_nonneg _), abs_of_pos hD]
  have hsp : 0 < s := Real.sqrt_pos.2 (abs_pos.2 hD.ne')
  have hBs : 0 < B + s := by
    rcases lt_or_gt_of_ne hA with h | h
    · have : 0 < B := by linarith
      linarith
    · by_contra hn
      have hb : s ≤ -B := by linarith
      nlinarith [mul_pos h hφ]
  have ht : t = φ0 / (B + s) := by
    change (-B + s) / (3 * A) = φ0 / (B + s)
    rw [div_eq_div_iff (by simpa using hA) hBs.ne']
    nlinarith
  have hlt : φ0 < B + s := by
    by_contra hn
    have hb : s ≤ φ0 - B := by linarith
    have h2 : s * s ≤ (φ0 - B) * (φ0 - B) := mul_self_le_mul_self hsp.le hb
    have h3 : φ0 * (3 * A + 2 * B - φ0) ≤ 0 := by nlinarith
    have h4 : 0 < 3 * A + 2 * B - φ0 := by linarith
    exact absurd h3 (not_le.2 (mul_pos hφ h4))
  have h3At : 3 * A * t + B = s := by
    change 3 * A * ((-B + s) / (3 * A)) + B = s
    rw [mul_div_cancel₀ _ (by simpa using hA)]
    ring
  refine ⟨?_, ?_, ?_, by rw [h3At]; exact hsp⟩
  · rw [ht]; positivity
  · rw [ht, div_lt_one hBs]; exact hlt
  · have hts : t * (B + s) = φ0 := by rw [ht, div_mul_cancel₀ _ hBs.ne']
    have : 3 * A * t = s - B := by linarith
    calc 3 * A * t ^ 2 + 2 * B * t - φ0 = (3 * A * t) * t + 2 * B * t - φ0 := by ring
      _ = t * (B + s) - φ0 := by rw [this]; ring
      _ = 0 := by rw [hts, sub_self]

/-- **C83.** The trial step minimises the cubic with the value and the slope `-φ0` of the merit function at zero, the value
`p0` at one and the value `p1` at `α`. -/
theorem trial_minimum (z : Bool) (φ0 α p0 p1 : ℝ) (h0 : 0 < α) (h1 : α < 1) (hφ : 0 < φ0) (hp : 3 / 4 * φ0 < p0)
    (hc : p1 ≠ φ0 - φ0 * α + α * α * p0) :
    ∃ q : Polynomial ℝ, q.natDegree ≤ 3 ∧ q.eval 0 = φ0 ∧ q.derivative.eval 0 = -φ0 ∧ q.eval 1 = p0 ∧ q.eval α = p1 ∧
      ∃ t, trial z (fin φ0) (fin α) (fin p0) (fin p1) = fin t ∧ 0 < t ∧ t < 1 ∧ q.derivative.eval t = 0 ∧
        0 < q.derivative.derivative.eval t := by
  have hne : α * α * (α - 1) ≠ 0 := by
    have : α - 1 ≠ 0 := by linarith
    positivity
  have hA : coefA φ0 α p0 p1 ≠ 0 := by
    unfold coefA
    refine div_ne_zero (fun h => hc ?_) hne
    linarith
  have hadd := coef_add φ0 α p0 p1 h0 h1
  obtain ⟨r1, r2, r3, r4⟩ := trial_range φ0 α p0 p1 h0 h1 hφ hp hA
  rcases trial_real z φ0 α p0 p1 h0 h1 hφ hp with ⟨h, -⟩ | ⟨-, ht⟩
  · exact absurd h hA
  have hα : coefA φ0 α p0 p1 * α ^ 3 + coefB φ0 α p0 p1 * α ^ 2 - φ0 * α + φ0 = p1 := by
    have e : coefA φ0 α p0 p1 * (α * α * (α - 1)) = p1 - φ0 + φ0 * α - α * α * p0 := div_mul_cancel₀ _ hne
    have : coefB φ0 α p0 p1 = p0 - coefA φ0 α p0 p1 := by linarith
    rw [this]
    linarith
  set A := coefA φ0 α p0 p1
  set B := coefB φ0 α p0 p1
  refine ⟨.C A * .X ^ 3 + .C B * .X ^ 2 - .C φ0 * .X + .C φ0, by compute_degree, by simp, by simp, ?_, ?_, _, ht, r1, r2, ?_, ?_⟩
  · simp; linarith
  · simp; linarith
  · simp
    linarith
  · simp
    linarith

/-- A residual that is a real function where its arguments are numbers, and passes NaN on. -/
structure Extends (F : Vec n → Vec n) (f : (Fin n → ℝ) → Fin n → ℝ) : Prop where
  real : ∀ x, F (real x) = real (f x)
  nan : ∀ v, (∀ i, v i = nan) → 0 < n → ∃ i, F v i = nan

theorem axpy_nan (x dx : Vec n) (i : Fin n) : axpy x nan dx i = nan := by
  unfold axpy
  rw [show nan.mul (dx i) = nan by cases dx i <;> rfl, add_nan_right]

/-- What the loop returns. -/
theorem search_range {F : Vec n → Vec n} {f : (Fin n → ℝ) → Fin n → ℝ} (hF : Extends F f) (hn : 0 < n) (z : Ext → Bool)
    (x dx : Fin n → ℝ) (φ0 : ℝ) (hφ : 0 < φ0) (fuel : Nat) : ∀ alpha1 p0 p1 c r, Good F (real x) (real dx) c →
    (alpha1 = nan ∨ ∃ a, 0 < a ∧ a < 1 ∧ alpha1 = fin a) → 3 / 4 * φ0 < p0 → 
    (alpha1 ≠ nan → ∃ q, 3 / 4 * φ0 < q ∧ p1 = fin q) →
    search z F (real x) (real dx) (fin φ0) fuel alpha1 (fin p0) p1 c = some r →
      r.1 = fin 1 ∨ ∃ t, 0 < t ∧ t < 1 ∧ r.1 = fin t := by
  induction fuel with
  | zero => intro _ _ _ _ _ _ _ _ _ h; simp [search] at h
  | succ fuel ih =>
    intro alpha1 p0 p1 c r hc ha hp0 hp1 h
    rw [search] at h
    by_cases h1 : (fin 1e-2).lt alpha1
    · rw [if_pos h1] at h
      simp only at h
      rcases ha with rfl | ⟨a, ha0, ha1, rfl⟩
      · simp [lt] at h1
      have ha' : (0.01 : ℝ) < a := by simp only [lt] at h1; norm_num at h1 ⊢; linarith
      obtain ⟨q, hq, rfl⟩ := hp1 (by simp)
      have hstep := phi_good F (real x) (real dx) (trial (z (fin a)) (fin φ0) (fin a) (fin p0) (fin q)) c hc
      rcases trial_real (z (fin a)) φ0 a p0 q ha0 ha1 hφ hp0 with ⟨-, ht⟩ | ⟨hA, ht⟩
      · rw [ht] at h hstep
        obtain ⟨i, hi⟩ := hF.nan _ (axpy_nan (real x) (real dx)) hn
        rw [norm_nan _ i hi] at hstep
        rw [hstep.1, if_neg (by simp [armijo, le]), if_neg (by simp [sub, neg, add, div, lt])] at h
        cases fuel with
        | zero => simp [search] at h
        | succ fuel =>
          rw [search, if_neg (by simp [lt])] at h
          obtain rfl := Option.some.inj h
          exact .inl rfl
      · obtain ⟨t0, t1, -, -⟩ := trial_range φ0 a p0 q ha0 ha1 hφ hp0 hA
        generalize (-coefB φ0 a p0 q + Real.sqrt |coefB φ0 a p0 q * coefB φ0 a p0 q + 3 * coefA φ0 a p0 q * φ0|) /
          (3 * coefA φ0 a p0 q) = t at *
        rw [ht] at h hstep
        rw [axpy_real, hF.real, squaredNorm_real] at hstep
        by_cases h2 : armijo (fin φ0) (fin t) (phi F (real x) (real dx) (fin t) c).1
        · rw [if_pos h2] at h
          obtain rfl := Option.some.inj h
          exact .inr ⟨t, t0, t1, rfl⟩
        · rw [if_neg h2] at h
          have h3 := (halve a ha' (fin t)).resolve_left (by simp)
          rw [if_pos h3, show (fin a).div false (fin 2) = fin (a / 2) by simp [div]] at h
          refine ih _ q _ _ r hstep.2 (.inr ⟨a / 2, by linarith, by linarith, rfl⟩) hq (fun _ => ⟨_, ?_, hstep.1⟩) h
          rw [hstep.1] at h2
          simp only [armijo, le, sub, Ext.mul, neg, add, not_le] at h2
          norm_num at h2
          nlinarith
    · rw [if_neg h1] at h
      obtain rfl := Option.some.inj h
      exact .inl rfl

/-- **C83.** For a residual of real functions the line search takes the full step, or a step of length strictly between zero
and one that reduces the residual. -/
theorem step_length {F : Vec n → Vec n} {f : (Fin n → ℝ) → Fin n → ℝ} (hF : Extends F f) (z : Ext → Bool) (fuel : Nat)
    (hf : 7 ≤ fuel) (x dx : Fin n → ℝ) :
    ∃ s : ℝ, lineSearch z fuel F (real x) (real (f x)) (real dx) =
        some (real fun i => x i + s * dx i, real (f fun i => x i + s * dx i)) ∧ 0 ≤ s ∧ s ≤ 1 ∧
      (s = 1 ∨ ∑ i, f (fun i => x i + s * dx i) i ^ 2 ≤ (1 - s / 10000) * ∑ i, f x i ^ 2) ∧ ((∃ i, f x i ≠ 0) → 0 < s) := by
  obtain ⟨r, hr, g, ha⟩ := armijoSearch_spec z fuel hf F (real x) (real dx)
  have hfx := hF.real x
  have hφ0 : 0 ≤ ∑ i, f x i ^ 2 := Finset.sum_nonneg fun i _ => sq_nonneg _
  have key : ∃ s : ℝ, r.1 = fin s ∧ 0 ≤ s ∧ s ≤ 1 ∧ ((∃ i, f x i ≠ 0) → 0 < s) := by
    rw [hfx, squaredNorm_real] at hr
    unfold armijoSearch at hr
    simp only at hr
    obtain ⟨e0, g0⟩ := phi_first F (real x) (real dx) (real (f x)) (fin (∑ i, f x i ^ 2))
    rw [axpy_real, hF.real, squaredNorm_real] at e0
    generalize phi F (real x) (real dx) (fin 1) ⟨fin 0, fin (∑ i, f x i ^ 2), real (f x)⟩ = p at *
    set φ0 := ∑ i, f x i ^ 2 with hφ
    set b := ∑ i, f (fun i => x i + 1 * dx i) i ^ 2 with hb
    have hb0 : 0 ≤ b := Finset.sum_nonneg fun i _ => sq_nonneg _
    by_cases h1 : p.1.le ((fin φ0).sub ((fin 1e-4).mul (fin φ0)))
    · rw [if_pos h1] at hr
      obtain rfl := Option.some.inj hr
      exact ⟨1, rfl, zero_le_one, le_rfl, fun _ => one_pos⟩
    rw [if_neg h1] at hr
    rw [e0] at hr h1
    simp only [Ext.mul, sub, neg, add, le, not_le] at h1
    norm_num at h1
    have hbp : 0 < b := by nlinarith
    have hα : (fin φ0).div false ((fin 2).mul (fin b)) = fin (φ0 / (2 * b)) := by simp [Ext.mul, div, hbp.ne']
    rw [hα] at hr
    obtain ⟨e1, g1⟩ := phi_good F (real x) (real dx) (fin (φ0 / (2 * b))) p.2 g0
    rw [axpy_real, hF.real, squaredNorm_real] at e1
    by_cases h2 : armijo (fin φ0) (fin (φ0 / (2 * b))) (phi F (real x) (real dx) (fin (φ0 / (2 * b))) p.2).1
    · rw [if_pos h2] at hr
      obtain rfl := Option.some.inj hr
      refine ⟨_, rfl, by positivity, ?_, fun ⟨i, hi⟩ => ?_⟩
      · rw [div_le_one (by positivity)]; nlinarith
      · have : 0 < φ0 := lt_of_lt_of_le (by positivity : 0 < f x i ^ 2)
          (Finset.single_le_sum (f := fun i => f x i ^ 2) (fun i _ => sq_nonneg _) (Finset.mem_univ i))
        positivity
    · rw [if_neg h2] at hr
      rw [e1] at h2
      rcases hφ0.eq_or_lt with h0 | h0
      · exfalso
        apply h2
        rw [← h0]
        simp only [zero_div, zero_mul, add_zero]
        have : ∑ i, f (fun i => x i) i ^ 2 = 0 := h0.symm
        rw [this]
        simp [armijo, le, sub, Ext.mul, neg, add]
      · have hn : 0 < n := by
          rcases Nat.eq_zero_or_pos n with rfl | hn
          · simp [hφ] at h0
          · exact hn
        have hα0 : 0 < φ0 / (2 * b) := by positivity
        have hα1 : φ0 / (2 * b) < 1 := by rw [div_lt_one (by positivity)]; nlinarith
        simp only [armijo, le, sub, Ext.mul, neg, add, not_le] at h2
        norm_num at h2
        have h3 : 3 / 4 * φ0 < ∑ i, f (fun i => x i + φ0 / (2 * b) * dx i) i ^ 2 := by
          nlinarith [mul_lt_mul_of_pos_right hα1 h0]
        rcases search_range hF hn z x dx φ0 h0 fuel _ b _ _ r g1 (.inr ⟨_, hα0, hα1, rfl⟩) (by linarith)
          (fun _ => ⟨_, h3, e1⟩) hr with h | ⟨t, t0, t1, h⟩
        · exact ⟨1, h, zero_le_one, le_rfl, fun _ => one_pos⟩
        · exact ⟨t, h, t0.le, t1.le, fun _ => t0⟩
  obtain ⟨s, hs, s0, s1, s2⟩ := key
  refine ⟨s, ?_, s0, s1, ?_, s2⟩
  · rw [hfx] at hr
    unfold lineSearch
    rw [hr, Option.map_some, hs, axpy_real]
    simp only [hF.real]
    congr 2
    split_ifs with e
    · rw [g.1, ← eq_of_eq e, axpy_real, hF.real]
    · rfl
  · rcases ha with h | h
    · exact .inl (Ext.fin.inj (hs.symm.trans h))
    · right
      rw [hs, axpy_real, hF.real, hF.real, squaredNorm_real, squaredNorm_real] at h
      simp only [armijo, le, sub, Ext.mul, neg, add] at h
      norm_num at h
      linarith

/-- Every residual on real vectors extends. -/
theorem extends_exists (f : (Fin n → ℝ) → Fin n → ℝ) : ∃ F : Vec n → Vec n, Extends F f := by
  refine ⟨fun v => if h : ∃ x : Fin n → ℝ, v = real x then real (f h.choose) else fun _ => nan, ?_, ?_⟩
  · intro x
    have hx : ∃ y : Fin n → ℝ, real x = real y := ⟨x, rfl⟩
    rw [dif_pos hx]
    have : x = hx.choose := funext fun i => Ext.fin.inj (congrFun hx.choose_spec i)
    rw [← this]
  · intro v hv h0
    refine ⟨⟨0, h0⟩, ?_⟩
    rw [dif_neg]
    rintro ⟨x, rfl⟩
    exact absurd (hv ⟨0, h0⟩) (by simp [real])

/-- In particular a residual with a root that Newton's method approaches but does not meet. -/
example : ∃ F : Vec 1 → Vec 1, Extends F fun x _ => x 0 ^ 2 - 2 := extends_exists _

end

end Verif.Newton
