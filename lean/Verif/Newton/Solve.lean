import Verif.Newton.Search

/-! # The outer iteration -/

namespace Verif.Newton

open Ext

attribute [local instance] Classical.propDecidable

noncomputable section

variable {n : Nat} {σ : Type}

theorem INF_pos : 0 < INF := by unfold INF; norm_num

/-! ### The norm -/

theorem le_total' (a b : Ext) (ha : a ≠ nan) (hb : b ≠ nan) : a.le b ∨ b.le a := by
  cases a <;> cases b <;> simp_all [le, le_total]

theorem le_trans' (a b c : Ext) (h1 : a.le b) (h2 : b.le c) : a.le c := by
  cases a <;> cases b <;> cases c <;> simp_all [le]
  exact h1.trans h2

theorem le_refl' (a : Ext) (ha : a ≠ nan) : a.le a := by cases a <;> simp_all [le]

theorem abs_nan (a : Ext) : a.abs = nan ↔ a = nan := by cases a <;> simp [Ext.abs]

theorem exists_max (n : Nat) (v : Vec (n + 1)) (hv : ∀ i, v i ≠ nan) : ∃ i, ∀ j, (v j).abs.le (v i).abs := by
  induction n with
  | zero =>
    refine ⟨0, fun j => ?_⟩
    rw [show j = 0 from Fin.ext (by omega)]
    exact le_refl' _ (by rw [ne_eq, abs_nan]; exact hv 0)
  | succ n ih =>
    obtain ⟨i, hi⟩ := ih (fun i => v i.succ) fun i => hv _
    have hn : ∀ i, (v i).abs ≠ nan := fun i => by rw [ne_eq, abs_nan]; exact hv i
    rcases le_total' (v 0).abs (v i.succ).abs (hn _) (hn _) with h | h
    · refine ⟨i.succ, fun j => ?_⟩
      refine Fin.cases h (fun j => hi j) j
    · refine ⟨0, fun j => ?_⟩
      refine Fin.cases (le_refl' _ (hn _)) (fun j => le_trans' _ _ _ (hi j) h) j

/-- There is such a norm, whatever it is to do with NaN. -/
theorem isMaxNorm_exists (hn : 0 < n) (junk : Vec n → Ext) :
    ∃ nm : Vec n → Ext, IsMaxNorm nm ∧ ∀ v, (∃ i, v i = nan) → nm v = junk v := by
  obtain ⟨m, rfl⟩ : ∃ m, n = m + 1 := ⟨n - 1, by omega⟩
  refine ⟨fun v => if h : ∀ i, v i ≠ nan then (v (exists_max m v h).choose).abs else junk v, ⟨?_, ?_⟩, ?_⟩
  · intro v hv i
    rw [dif_pos hv]
    exact (exists_max m v hv).choose_spec i
  · intro v hv
    exact ⟨_, dif_pos hv⟩
  · intro v ⟨i, hi⟩
    exact dif_neg fun h => h i hi

/-- The norm of a vector of zeros is zero, and only of such a vector. -/
theorem norm_zero {nm : Vec n → Ext} (hm : IsMaxNorm nm) (v : Vec n) (hv : ∀ i, v i ≠ nan) :
    (nm v).eq (fin 0) ↔ ∀ i, v i = fin 0 := by
  constructor
  · intro h i
    have := hm.ge v hv i
    rw [eq_of_eq h] at this
    cases hi : v i <;> simp_all [Ext.abs, le]
  · intro h
    obtain ⟨i, hi⟩ := hm.att v hv
    rw [hi, h i]
    simp [Ext.abs, Ext.eq]

theorem norm_le {nm : Vec n → Ext} (hm : IsMaxNorm nm) (v : Vec n) (hv : ∀ i, v i ≠ nan) (t : ℝ) :
    (nm v).le (fin t) ↔ ∀ i, ∃ y, v i = fin y ∧ |y| ≤ t := by
  constructor
  · intro h i
    have := le_trans' _ _ _ (hm.ge v hv i) h
    cases hi : v i <;> simp_all [Ext.abs, le]
  · intro h
    obtain ⟨i, hi⟩ := hm.att v hv
    obtain ⟨y, hy, hyt⟩ := h i
    rw [hi, hy]
    exact hyt

theorem norm_big {nm : Vec n → Ext} (hm : IsMaxNorm nm) (r : ℝ) : nm (fun _ => fin r) = fin |r| := by
  obtain ⟨i, hi⟩ := hm.att (fun _ => fin r) (by simp)
  exact hi

/-! ### The loop -/

theorem pass_spec (z : Ext → Bool) (fuel : Nat) (hf : 7 ≤ fuel) (F : Vec n → Vec n)
    (solve : σ → Vec n → Vec n → Ext → σ × Vec n) (s : Loop n σ) (hs : s.Fx = F s.x) :
    ∃ s', pass z fuel F solve s = some s' ∧ s'.Fx = F s'.x := by
  unfold pass
  obtain ⟨a, ha, -⟩ := lineSearch_spec z fuel hf F s.x
    fun i => ((solve s.jac s.x s.Fx (s.eta.min (s.eta.mul s.FxNorm))).2 i).neg
  rw [← hs] at ha
  simp only [ha, Option.map_some]
  exact ⟨_, rfl, rfl⟩

/-- The solver ends, and if it does before the last pass then because of the residual at the point it returns. -/
theorem loop_spec (nm : Vec n → Ext) (T : Tol) (z : Ext → Bool) (fuel : Nat) (hf : 7 ≤ fuel) (F : Vec n → Vec n)
    (solve : σ → Vec n → Vec n → Ext → σ × Vec n) (k : Nat) : ∀ s : Loop n σ, s.Fx = F s.x →
    ∃ x b, loop nm T z fuel F solve k s = some (x, b) ∧
      (b = true → ∃ f0, (check nm T f0 (F x) x fun _ => fin INF).1) := by
  induction k with
  | zero => intro s _; exact ⟨s.x, false, rfl, by simp⟩
  | succ k ih =>
    intro s hs
    rw [loop]
    by_cases hc : (check nm T s.f0 s.Fx s.x fun _ => fin INF).1
    · rw [if_pos hc]
      refine ⟨s.x, true, rfl, fun _ => ⟨s.f0, ?_⟩⟩
      rw [← hs]; exact hc
    · rw [if_neg hc]
      obtain ⟨s', h1, h2⟩ := pass_spec z fuel hf F solve
        { s with f0 := (check nm T s.f0 s.Fx s.x fun _ => fin INF).2 } hs
      rw [h1, Option.bind_some]
      exact ih s' h2

/-- **C54.** `nonlin_solve` ends for every residual function and every inner solver.  If it ends before its `3 (n + 1)`
iterations are used up, the residual at the point it returns is within `f_tol` in every component, or not a number in
one. -/
theorem early_stop (nm : Vec n → Ext) (hm : IsMaxNorm nm) (T : Tol) (hT : 0 ≤ T.f) (z : Ext → Bool) (fuel : Nat)
    (hf : 7 ≤ fuel) (F : Vec n → Vec n) (solve : σ → Vec n → Vec n → Ext → σ × Vec n) (jac : σ) (x0 : Vec n) :
    ∃ x b, nonlinSolve nm T z fuel F solve jac x0 = some (x, b) ∧
      (b = true → (∃ i, F x i = nan) ∨ ∀ i, ∃ y, F x i = fin y ∧ |y| ≤ T.f) := by
  obtain ⟨x, b, h1, h2⟩ := loop_spec nm T z fuel hf F solve (3 * (n + 1))
    ⟨x0, F x0, nm (F x0), fin 1e-3, fin 0, jac⟩ rfl
  refine ⟨x, b, h1, fun hb => ?_⟩
  obtain ⟨f0, hc⟩ := h2 hb
  by_cases hnan : ∃ i, F x i = nan
  · exact .inl hnan
  · push Not at hnan
    right
    rcases hc with h | ⟨⟨h, -⟩, -⟩
    · intro i
      exact ⟨0, (norm_zero hm _ hnan).1 h i, by simpa using hT⟩
    · exact (norm_le hm _ hnan _).1 h

/-- With a norm that is NaN on vectors with NaN the second case does not arise. -/
theorem early_stop_nan (nm : Vec n → Ext) (hm : IsMaxNorm nm) (hp : ∀ v : Vec n, (∃ i, v i = nan) → nm v = nan) (T : Tol)
    (hT : 0 ≤ T.f) (z : Ext → Bool) (fuel : Nat) (hf : 7 ≤ fuel) (F : Vec n → Vec n)
    (solve : σ → Vec n → Vec n → Ext → σ × Vec n) (jac : σ) (x0 x : Vec n)
    (h : nonlinSolve nm T z fuel F solve jac x0 = some (x, true)) (i : Fin n) : ∃ y, F x i = fin y ∧ |y| ≤ T.f := by
  obtain ⟨x', b, h1, h2⟩ := loop_spec nm T z fuel hf F solve (3 * (n + 1))
    ⟨x0, F x0, nm (F x0), fin 1e-3, fin 0, jac⟩ rfl
  obtain ⟨x'', b', k1, k2⟩ := early_stop nm hm T hT z fuel hf F solve jac x0
  rw [h] at k1
  obtain ⟨rfl, rfl⟩ := Prod.mk.inj (Option.some.inj k1)
  rcases k2 rfl with hnan | hok
  · exfalso
    unfold nonlinSolve at h
    rw [h1] at h
    obtain ⟨rfl, rfl⟩ := Prod.mk.inj (Option.some.inj h)
    obtain ⟨f0, hc⟩ := h2 rfl
    simp [check, hp _ hnan, Ext.eq, le] at hc
  · exact hok i

/-! ### The step tolerance -/

/-- **What stops the solver.** The step does not matter: the largest double stands in its place. -/
theorem stop_cause (nm : Vec n → Ext) (hm : IsMaxNorm nm) (T : Tol) (hr : T.xr ≠ 0) (z : Ext → Bool)
    (fuel : Nat) (hf : 7 ≤ fuel) (F : Vec n → Vec n) (solve : σ → Vec n → Vec n → Ext → σ × Vec n) (jac : σ)
    (x0 x : Vec n) (h : nonlinSolve nm T z fuel F solve jac x0 = some (x, true)) :
    (nm (F x)).eq (fin 0) ∨ (nm (F x)).le (fin T.f) ∧ INF ≤ T.x ∧ (fin (INF / T.xr)).le (nm x) := by
  obtain ⟨x', b, h1, h2⟩ := loop_spec nm T z fuel hf F solve (3 * (n + 1))
    ⟨x0, F x0, nm (F x0), fin 1e-3, fin 0, jac⟩ rfl
  unfold nonlinSolve at h
  rw [h1] at h
  obtain ⟨rfl, rfl⟩ := Prod.mk.inj (Option.some.inj h)
  obtain ⟨f0, hc⟩ := h2 rfl
  rcases hc with hc | ⟨⟨ha, -⟩, hb, hd⟩
  · exact .inl hc
  · rw [norm_big hm, abs_of_pos INF_pos] at hb hd
    refine .inr ⟨ha, hb, ?_⟩
    simpa [div, hr] using hd

/-- **C56 fails.** With any step tolerance below the largest double the solver does not stop although the residual is
within its tolerance and every step is zero. -/
theorem step_tolerance_false (nm : Vec 1 → Ext) (hm : IsMaxNorm nm) (T : Tol) (hr : T.xr ≠ 0) (hT : 0 < T.f)
    (hx : T.x < INF) (z : Ext → Bool) (fuel : Nat) (hf : 7 ≤ fuel) (x0 : Vec 1) :
    ∃ x, nonlinSolve nm T z fuel (fun _ _ => fin T.f) (fun (_ : Unit) _ _ _ => ((), fun _ => fin 0)) () x0 =
      some (x, false) := by
  obtain ⟨x, b, h, -⟩ := early_stop nm hm T hT.le z fuel hf (fun _ _ => fin T.f)
    (fun (_ : Unit) _ _ _ => ((), fun _ => fin 0)) () x0
  refine ⟨x, ?_⟩
  rw [h]
  cases b with
  | false => rfl
  | true =>
    exfalso
    rcases stop_cause nm hm T hr z fuel hf _ _ () x0 x h with hc | ⟨-, hc, -⟩
    · rw [norm_zero hm _ (by simp)] at hc
      have := hc 0
      simp [hT.ne'] at this
    · linarith

/-! ### The default tolerances -/

/-- **C67, exactly.** With the default tolerances and a residual of numbers at the start, the solver returns the start at
once if and only if the residual is zero, or within the tolerance while some component of the start is at least one. -/
theorem stop_at_start (nm : Vec n → Ext) (hm : IsMaxNorm nm) (f : ℝ) (F : Vec n → Vec n) (x : Vec n)
    (hF : ∀ i, F x i ≠ nan) (hx : ∀ i, x i ≠ nan) :
    (check nm (defaultTol f) (fin 0) (F x) x fun _ => fin INF).1 ↔
      (∀ i, F x i = fin 0) ∨ (∀ i, ∃ y, F x i = fin y ∧ |y| ≤ f) ∧ ∃ i, (fin 1).le (x i).abs := by
  have hI := INF_pos
  have hbig : ∀ y : ℝ, |y| / INF ≤ |y| := by
    intro y
    rw [div_le_iff₀ hI]
    have : (1 : ℝ) ≤ INF := by
      unfold INF
      have h2 : (1 : ℝ) ≤ 2 ^ 971 := one_le_pow₀ (by norm_num)
      calc (1 : ℝ) ≤ 2 ^ 971 := h2
        _ = 1 * 2 ^ 971 := (one_mul _).symm
        _ ≤ _ := mul_le_mul_of_nonneg_right (by norm_num) (by positivity)
    nlinarith [abs_nonneg y]
  simp only [check, defaultTol]
  rw [norm_zero hm _ hF, norm_le hm _ hF, norm_big hm, abs_of_pos hI]
  constructor
  · rintro (h | ⟨⟨h, -⟩, -, h2⟩)
    · exact .inl h
    · refine .inr ⟨h, ?_⟩
      obtain ⟨i, hi⟩ := hm.att x hx
      refine ⟨i, ?_⟩
      rw [← hi]
      simpa [div, hI.ne'] using h2
  · rintro (h | ⟨h, i, hi⟩)
    · exact .inl h
    · refine .inr ⟨⟨h, ?_⟩, le_refl' _ (by simp), ?_⟩
      · obtain ⟨j, hj⟩ := hm.att (F x) hF
        obtain ⟨y, hy, -⟩ := h j
        rw [hj, hy]
        rw [if_pos (by simp [Ext.eq])]
        simpa [Ext.abs, div, hI.ne', le] using hbig y
      · have := le_trans' _ _ _ hi (hm.ge x hx i)
        simpa [div, hI.ne'] using this

/-- **C67, what holds.** -/
theorem within_tolerance_partial (nm : Vec n → Ext) (hm : IsMaxNorm nm) (f : ℝ) (z : Ext → Bool) (fuel : Nat)
    (F : Vec n → Vec n) (solve : σ → Vec n → Vec n → Ext → σ × Vec n) (jac : σ) (x : Vec n)
    (hF : ∀ i, ∃ y, F x i = fin y ∧ |y| ≤ f) (hx : ∀ i, x i ≠ nan) (h1 : ∃ i, (fin 1).le (x i).abs) :
    nonlinSolve nm (defaultTol f) z fuel F solve jac x = some (x, true) := by
  unfold nonlinSolve
  rw [show 3 * (n + 1) = (3 * n + 2) + 1 by ring, loop]
  simp only
  rw [if_pos]
  exact (stop_at_start nm hm f F x (fun i => by obtain ⟨y, hy, -⟩ := hF i; simp [hy]) hx).2 (.inr ⟨hF, h1⟩)

/-- A root is returned as it is, whatever the tolerances. -/
theorem root_stays (nm : Vec n → Ext) (hm : IsMaxNorm nm) (T : Tol) (z : Ext → Bool) (fuel : Nat)
    (F : Vec n → Vec n) (solve : σ → Vec n → Vec n → Ext → σ × Vec n) (jac : σ) (x : Vec n) (hF : ∀ i, F x i = fin 0) :
    nonlinSolve nm T z fuel F solve jac x = some (x, true) := by
  unfold nonlinSolve
  rw [show 3 * (n + 1) = (3 * n + 2) + 1 by ring, loop]
  simp only
  rw [if_pos]
  exact .inl ((norm_zero hm _ (by simp [hF])).2 hF)

/-- A full step with enough decrease is taken. -/
theorem full_step (z : Ext → Bool) (fuel : Nat) (F : Vec n → Vec n) (x Fx dx : Vec n)
    (h : (squaredNorm (F (axpy x (fin 1) dx))).le ((squaredNorm Fx).sub ((fin 1e-4).mul (squaredNorm Fx)))) :
    lineSearch z fuel F x Fx dx = some (axpy x (fin 1) dx, F (axpy x (fin 1) dx)) := by
  obtain ⟨e0, g0⟩ := phi_first F x dx Fx (squaredNorm Fx)
  unfold lineSearch armijoSearch
  simp only
  generalize phi F x dx (fin 1) ⟨fin 0, squaredNorm Fx, Fx⟩ = p0 at *
  rw [if_pos (by rw [e0]; exact h), Option.map_some]
  congr 2
  split_ifs with e
  · rw [g0.1, ← eq_of_eq e]
  · rfl

/-- The residual of the counterexample: within the tolerance at one half, zero elsewhere. -/
def offRoot (f : ℝ) : Vec 1 → Vec 1 := fun v _ => if v 0 = fin (1 / 2) then fin f else fin 0

/-- **C67 fails** for small states: the residual at the start is within the tolerance, but the solver moves on, and may go
wherever the inner solver sends it. -/
theorem within_tolerance_false (nm : Vec 1 → Ext) (hm : IsMaxNorm nm) (f : ℝ) (hf : 0 < f) (z : Ext → Bool) (fuel : Nat)
    (d : ℝ) (hd : d ≠ 0) :
    nonlinSolve nm (defaultTol f) z fuel (offRoot f) (fun (_ : Unit) _ _ _ => ((), fun _ => fin d)) ()
      (fun _ => fin (1 / 2)) = some (fun _ => fin (1 / 2 + 1 * -d), true) := by
  have hFx : offRoot f (fun _ => fin (1 / 2)) = fun _ => fin f := by funext i; simp [offRoot]
  have hFy : offRoot f (fun _ => fin (1 / 2 + 1 * -d)) = fun _ => fin 0 := by funext i; simp [offRoot, hd]
  unfold nonlinSolve
  rw [show 3 * (1 + 1) = 4 + 1 + 1 by rfl, loop]
  simp only
  rw [if_neg]
  · have hls : lineSearch z fuel (offRoot f) (fun _ => fin (1 / 2)) (offRoot f fun _ => fin (1 / 2))
        (fun _ => fin (-d)) = some (fun _ => fin (1 / 2 + 1 * -d), fun _ => fin 0) := by
      have e : axpy (fun _ : Fin 1 => fin (1 / 2)) (fin 1) (fun _ => fin (-d)) = fun _ => fin (1 / 2 + 1 * -d) := rfl
      rw [full_step, e, hFy]
      rw [e, hFy, hFx]
      simp only [squaredNorm, List.ofFn_succ, List.ofFn_zero, List.foldl, Ext.mul, add, sub, neg, le]
      norm_num
      nlinarith
    simp only [pass, neg, hls, Option.map_some, Option.bind_some]
    rw [loop]
    simp only
    rw [if_pos]
    exact .inl ((norm_zero hm _ (by simp)).2 (by simp))
  · have k := stop_at_start nm hm f (offRoot f) (fun _ => fin (1 / 2)) (by rw [hFx]; simp) (by simp)
    rw [k, hFx]
    simp [hf.ne', le, Ext.abs]
    norm_num

/-! ### NaN -/

/-- **C68, what holds.** A step to a point whose residual has no NaN leads to such a point. -/
theorem numeric_step_partial (z : Ext → Bool) (fuel : Nat) (hf : 7 ≤ fuel) (F : Vec n → Vec n) (x dx : Vec n)
    (h : ∀ i, F (axpy x (fin 1) dx) i ≠ nan) :
    ∃ y, lineSearch z fuel F x (F x) dx = some (y, F y) ∧ ∀ i, F y i ≠ nan := by
  obtain ⟨s, h1, h2⟩ := lineSearch_spec z fuel hf F x dx
  refine ⟨_, h1, fun i hi => ?_⟩
  rcases h2 with rfl | h2
  · exact h i hi
  · rw [norm_nan _ i hi] at h2
    exact h2

/-- **C68 fails.** If the residual at the full step has a NaN the search takes that step, without trying a shorter one. -/
theorem nan_step (z : Ext → Bool) (fuel : Nat) (hf : 1 ≤ fuel) (F : Vec n → Vec n) (x dx : Vec n) (i : Fin n)
    (h : F (axpy x (fin 1) dx) i = nan) :
    lineSearch z fuel F x (F x) dx = some (axpy x (fin 1) dx, F (axpy x (fin 1) dx)) := by
  obtain ⟨fuel, rfl⟩ : ∃ m, fuel = m + 1 := ⟨fuel - 1, by omega⟩
  have hp := norm_nan _ i h
  have hd : (squaredNorm (F x)).div false nan = nan := by cases squaredNorm (F x) <;> rfl
  obtain ⟨e0, g0⟩ := phi_first F x dx (F x) (squaredNorm (F x))
  unfold lineSearch armijoSearch
  simp only
  generalize phi F x dx (fin 1) ⟨fin 0, squaredNorm (F x), F x⟩ = p0 at *
  rw [hp] at e0
  rw [e0, if_neg (by simp [le])]
  simp only [Ext.mul, hd]
  obtain ⟨e1, g1⟩ := phi_good F x dx nan p0.2 g0
  rw [if_neg, search, if_neg (by simp [lt])]
  · simp only [Option.map_some]
    congr 2
    split_ifs with e
    · rw [g1.1, eq_of_eq e]
    · rfl
  · simp only [armijo, Ext.mul, sub, neg, add_nan_right]
    cases (phi F x dx nan p0.2).1 <;> simp [le]

/-! ### A run -/

/-- The identity in one unknown, with an inner solver that is exact: one pass from 3 to the root, where the norm stops the
loop before its six passes are used up. -/
example (nm : Vec 1 → Ext) (hm : IsMaxNorm nm) (z : Ext → Bool) :
    nonlinSolve nm (defaultTol 1) z 7 (fun x => x) (fun (_ : Unit) _ f _ => ((), f)) () (fun _ => fin 3) =
      some (fun _ => fin (3 + 1 * -3), true) := by
  unfold nonlinSolve
  rw [show 3 * (1 + 1) = 4 + 1 + 1 by rfl, loop]
  simp only
  rw [if_neg]
  · have hls : lineSearch z 7 (fun x => x) (fun _ : Fin 1 => fin 3) (fun _ => fin 3) (fun _ => fin (-3)) =
        some (fun _ => fin (3 + 1 * -3), fun _ => fin (3 + 1 * -3)) := by
      rw [full_step]
      · rfl
      · simp only [squaredNorm, axpy, List.ofFn_succ, List.ofFn_zero, List.foldl, Ext.mul, add, sub, neg, le]
        norm_num
    simp only [pass, neg, hls, Option.map_some, Option.bind_some]
    rw [loop]
    simp only
    rw [if_pos]
    exact .inl ((norm_zero hm _ (by simp)).2 (by norm_num))
  · rw [stop_at_start nm hm 1 (fun x => x) _ (by simp) (by simp)]
    simp

/-- Such a norm exists. -/
example : ∃ nm : Vec 1 → Ext, IsMaxNorm nm :=
  ⟨_, (isMaxNorm_exists Nat.one_pos fun _ => nan).choose_spec.1⟩

end

end Verif.Newton
