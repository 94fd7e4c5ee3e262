import Verif.Relax.Model
import Mathlib.Analysis.SpecialFunctions.Complex.LogBounds

/-! # The Runge-Kutta integrator -/

namespace Verif.Relax

open Verif.Sys Verif.Iter Verif.Grid

noncomputable section

/-- The sum of the first five terms of the exponential series. -/
def taylor4 (z : ℝ) : ℝ := ∑ j ∈ Finset.range 5, z ^ j / j.factorial

theorem taylor4_eq (z : ℝ) : taylor4 z = 1 + z + z ^ 2 / 2 + z ^ 3 / 6 + z ^ 4 / 24 := by
  simp only [taylor4, Finset.sum_range_succ, Finset.sum_range_zero, Nat.factorial]
  norm_num

theorem rungeKutta_zero (f : ℝ → Option ℝ) (tf y : ℝ) : rungeKutta f tf y 0 = some y := rfl

/-- Iterates of a step that never gives NaN. -/
theorem rungeKutta_iter (f : ℝ → Option ℝ) (tf y : ℝ) (n : Nat) (g : ℝ → ℝ)
    (h : ∀ y, rk4 f y (tf / n) = some (g y - y)) : rungeKutta f tf y n = some (g^[n] y) := by
  have key : ∀ m, (List.range m).foldl (fun y _ => y.bind fun y => (rk4 f y (tf / n)).map fun dy => y + dy)
      (some y) = some (g^[m] y) := by
    intro m
    induction m with
    | zero => rfl
    | succ m ih =>
      rw [List.range_succ, List.foldl_append, ih]
      simp [h, Function.iterate_succ_apply']
  exact key n

theorem rk4_linear (k y dt : ℝ) : rk4 (fun y => some (k * y)) y dt = some (taylor4 (k * dt) * y - y) := by
  rw [taylor4_eq]
  simp only [rk4, Option.bind_eq_bind, Option.bind_some, Option.pure_def]
  congr 1
  ring

/-- **C53.** On `y' = k y` each step multiplies by the degree 4 Taylor polynomial of the exponential. -/
theorem linear (k tf y : ℝ) (n : Nat) :
    rungeKutta (fun y => some (k * y)) tf y n = some (taylor4 (k * (tf / n)) ^ n * y) := by
  rw [rungeKutta_iter _ _ _ _ (fun y => taylor4 (k * (tf / n)) * y) (fun y => rk4_linear k y _)]
  congr 1
  generalize n = m at *
  generalize taylor4 _ = c
  induction m with
  | zero => simp
  | succ m ih => rw [Function.iterate_succ_apply', ih]; ring

/-- **C53.** A constant right-hand side is integrated exactly. -/
theorem const (r tf y : ℝ) (n : Nat) (hn : 0 < n) :
    rungeKutta (fun _ => some r) tf y n = some (y + r * tf) := by
  rw [rungeKutta_iter _ _ _ _ (fun y => y + tf / n * r) ?_]
  · congr 1
    have : ∀ m : Nat, (fun y => y + tf / n * r)^[m] y = y + m * (tf / n * r) := by
      intro m
      induction m with
      | zero => simp
      | succ m ih => rw [Function.iterate_succ_apply', ih]; push_cast; ring
    rw [this]
    have : (n : ℝ) ≠ 0 := by positivity
    field_simp
  · intro y
    simp only [rk4, Option.bind_eq_bind, Option.bind_some, Option.pure_def]
    congr 1
    ring

example : rungeKutta (fun y => some (-1 * y)) 1 3 1 = some (9 / 8) := by
  rw [linear, taylor4_eq]; norm_num

/-- Which refinement the retry loop returns. -/
theorem retry_spec (f : ℝ → Option ℝ) (tf y : ℝ) : ∀ (fuel n : Nat), 1 ≤ fuel → 64 < n * 2 ^ fuel →
    ∃ j ≤ fuel, retry f tf y fuel n (rungeKutta f tf y n) = some (rungeKutta f tf y (n * 2 ^ j)) ∧
      (∀ i < j, rungeKutta f tf y (n * 2 ^ i) = none ∧ (1 ≤ i → n * 2 ^ i ≤ 64)) ∧
      (rungeKutta f tf y (n * 2 ^ j) = none → 64 < n * 2 ^ j) := by
  intro fuel
  induction fuel with
  | zero => intro n h; omega
  | succ fuel ih =>
    intro n _ hn
    cases h0 : rungeKutta f tf y n with
    | some v =>
      refine ⟨0, by omega, ?_, by simp, ?_⟩
      · simp [retry, h0]
      · simp [h0]
    | none =>
      simp only [retry]
      by_cases h64 : n * 2 > 64
      · rw [if_pos h64]
        refine ⟨1, by omega, by simp, ?_, by intro _; omega⟩
        intro i hi
        have : i = 0 := by omega
        subst this
        simpa using h0
      · rw [if_neg h64]
        have hf : 1 ≤ fuel := by
          rcases Nat.eq_zero_or_pos fuel with h | h
          · subst h; omega
          · exact h
        obtain ⟨j, hj, h1, h2, h3⟩ := ih (n * 2) hf (by rw [pow_succ'] at hn; rw [mul_assoc]; exact hn)
        have e : ∀ i, n * 2 * 2 ^ i = n * 2 ^ (i + 1) := by intro i; rw [pow_succ']; ring
        refine ⟨j + 1, by omega, by rw [h1, e], ?_, by rw [← e]; exact h3⟩
        intro i hi
        cases i with
        | zero => simpa using h0
        | succ i =>
          rw [← e]
          refine ⟨(h2 i (by omega)).1, fun _ => ?_⟩
          cases i with
          | zero => omega
          | succ i => exact (h2 (i + 1) (by omega)).2 (by omega)

/-- **C53.** The launcher stops after at most seven refinements; it returns the first refinement that is a number, and
NaN only after trying one with more than 64 steps. -/
theorem launcher_spec (f : ℝ → Option ℝ) (tf y : ℝ) (n fuel : Nat) (hn : 1 ≤ n) (hf : 7 ≤ fuel) :
    ∃ j ≤ 7, launcher f tf y fuel n = some (rungeKutta f tf y (n * 2 ^ j)) ∧
      (∀ i < j, rungeKutta f tf y (n * 2 ^ i) = none) ∧
      (rungeKutta f tf y (n * 2 ^ j) = none → 64 < n * 2 ^ j) := by
  have h7 : 2 ^ 7 ≤ 2 ^ fuel := Nat.pow_le_pow_right (by norm_num) hf
  obtain ⟨j, _, h1, h2, h3⟩ := retry_spec f tf y fuel n (by omega) (by nlinarith)
  refine ⟨j, ?_, h1, fun i hi => (h2 i hi).1, h3⟩
  by_contra hj
  have := (h2 7 (by omega)).2 (by norm_num)
  omega

/-- **C53.** A refinement that is a number, among those with at most 64 steps, is never missed. -/
theorem launcher_some (f : ℝ → Option ℝ) (tf y : ℝ) (n fuel i : Nat) (hn : 1 ≤ n) (hf : 7 ≤ fuel)
    (hi : n * 2 ^ i ≤ 64) (h : rungeKutta f tf y (n * 2 ^ i) ≠ none) :
    ∃ v, launcher f tf y fuel n = some (some v) := by
  obtain ⟨j, _, h1, h2, h3⟩ := launcher_spec f tf y n fuel hn hf
  cases hv : rungeKutta f tf y (n * 2 ^ j) with
  | some v => exact ⟨v, by rw [h1, hv]⟩
  | none =>
    exfalso
    have hj := h3 hv
    rcases Nat.lt_or_ge i j with hij | hij
    · exact h (h2 i hij)
    · have : 2 ^ j ≤ 2 ^ i := Nat.pow_le_pow_right (by norm_num) hij
      have := Nat.mul_le_mul_left n this
      omega

/-- A right-hand side that is NaN below 0.53: one step gives NaN, two do not, and the launcher returns the latter. -/
example : ∃ v, launcher (fun y => if y < 0.53 then none else some (-y)) 0.6 1 7 1 = some (some v) ∧
    rungeKutta (fun y => if y < 0.53 then none else some (-y)) 0.6 1 1 = none ∧ 0.5 < v ∧ v < 0.6 := by
  have h1 : rungeKutta (fun y => if y < 0.53 then none else some (-y)) 0.6 1 1 = none := by
    norm_num [rungeKutta, rk4]
  have h2 : ∃ v, rungeKutta (fun y => if y < 0.53 then none else some (-y)) 0.6 1 (1 * 2) = some v ∧ 0.5 < v ∧
      v < 0.6 := by
    norm_num [rungeKutta, rk4, List.range_succ]
  obtain ⟨v, hv, hv1, hv2⟩ := h2
  exact ⟨v, by simp [launcher, h1, retry, hv], h1, hv1, hv2⟩

open Filter Topology in
/-- **C53.** Refining the steps converges to the exact solution of `y' = k y`. -/
theorem converges (k tf y : ℝ) :
    Tendsto (fun n => (rungeKutta (fun y => some (k * y)) tf y n).getD 0) atTop (𝓝 (y * Real.exp (k * tf))) := by
  have e : ∀ n : Nat, (rungeKutta (fun y => some (k * y)) tf y n).getD 0 =
      (1 + (taylor4 (k * (tf / n)) - 1)) ^ n * y := by
    intro n; rw [linear]; simp
  simp_rw [e]
  rw [mul_comm y]
  refine Tendsto.mul_const y (Real.tendsto_one_add_pow_exp_of_tendsto ?_)
  have h : ∀ᶠ n : Nat in atTop, (k * tf) * (1 + (k * tf / n) / 2 + (k * tf / n) ^ 2 / 6 + (k * tf / n) ^ 3 / 24) =
      n * (taylor4 (k * (tf / n)) - 1) := by
    filter_upwards [eventually_gt_atTop 0] with n hn
    have : (n : ℝ) ≠ 0 := by positivity
    rw [taylor4_eq]
    field_simp
    ring
  refine Tendsto.congr' h ?_
  have hz : Tendsto (fun n : Nat => k * tf / (n : ℝ)) atTop (𝓝 0) := tendsto_const_div_atTop_nhds_zero_nat _
  have := ((((tendsto_const_nhds (x := (1 : ℝ))).add (hz.div_const 2)).add ((hz.pow 2).div_const 6)).add
    ((hz.pow 3).div_const 24)).const_mul (k * tf)
  simpa using this

end

end Verif.Relax
