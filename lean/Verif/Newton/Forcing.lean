import Verif.Newton.Range
import Verif.Newton.Solve

/-! # The tolerance of the inner solver -/

namespace Verif.Newton

open Ext

attribute [local instance] Classical.propDecidable

noncomputable section

variable {n : Nat} {σ : Type}

/-- A number between 0 and 0.9999. -/
def Unit9 (a : Ext) : Prop := ∃ e, 0 ≤ e ∧ e ≤ 0.9999 ∧ a = fin e

theorem min_unit (a : Ext) (h : a = nan ∨ a = pinf ∨ ∃ r, 0 ≤ r ∧ a = fin r) : Unit9 ((fin 0.9999).min a) := by
  rcases h with rfl | rfl | ⟨r, hr, rfl⟩
  · exact ⟨0.9999, by norm_num, le_rfl, by simp [Ext.min, lt]⟩
  · exact ⟨0.9999, by norm_num, le_rfl, by simp [Ext.min, lt]⟩
  · by_cases h : r < 0.9999
    · exact ⟨r, hr, h.le, by simp [Ext.min, lt, h]⟩
    · exact ⟨0.9999, by norm_num, le_rfl, by simp [Ext.min, lt, h]⟩

theorem weight_div (a b : Ext) (ha : Weight a) (hb : Weight b) : Weight (a.div false b) := by
  rcases ha with rfl | rfl | ⟨r, hr, rfl⟩ <;> rcases hb with rfl | rfl | ⟨q, hq, rfl⟩
  · exact .inl rfl
  · exact .inl rfl
  · exact .inl rfl
  · exact .inl rfl
  · exact .inl rfl
  · rcases hq.eq_or_lt with rfl | hq
    · exact .inr (.inl (by simp [div]))
    · exact .inr (.inl (by simp [div, hq.ne', signed, hq]))
  · exact .inl rfl
  · exact .inr (.inr ⟨0, le_rfl, rfl⟩)
  · rcases hq.eq_or_lt with rfl | hq
    · rcases hr.eq_or_lt with rfl | hr
      · exact .inl (by simp [div, signed])
      · exact .inr (.inl (by simp [div, signed, hr]))
    · exact .inr (.inr ⟨r / q, by positivity, by simp [div, hq.ne']⟩)

theorem weight_scale (c : ℝ) (hc : 0 < c) (a : Ext) (h : Weight a) : Weight ((fin c).mul a) := by
  rcases h with rfl | rfl | ⟨r, hr, rfl⟩
  · exact .inl rfl
  · exact .inr (.inl (by simp [Ext.mul, signed, hc]))
  · exact .inr (.inr ⟨c * r, by positivity, rfl⟩)

theorem weight_mul (a b : Ext) (ha : Weight a) (hb : Weight b) : Weight (a.mul b) := by
  rcases ha with rfl | rfl | ⟨r, hr, rfl⟩ <;> rcases hb with rfl | rfl | ⟨q, hq, rfl⟩
  · exact .inl rfl
  · exact .inl rfl
  · exact .inl rfl
  · exact .inl rfl
  · exact .inr (.inl rfl)
  · rcases hq.eq_or_lt with rfl | hq
    · exact .inl (by simp [Ext.mul, signed])
    · exact .inr (.inl (by simp [Ext.mul, signed, hq]))
  · exact .inl rfl
  · rcases hr.eq_or_lt with rfl | hr
    · exact .inl (by simp [Ext.mul, signed])
    · exact .inr (.inl (by simp [Ext.mul, signed, hr]))
  · exact .inr (.inr ⟨r * q, mul_nonneg hr hq, rfl⟩)

theorem nextEta_unit (eta new old : Ext) (he : Unit9 eta) (hn : Weight new) (ho : Weight old) :
    Unit9 (nextEta eta new old) := by
  obtain ⟨e, e0, e1, rfl⟩ := he
  have hA : Weight ((((fin 0.9).mul new).mul new).div false (old.mul old)) :=
    weight_div _ _ (weight_mul _ _ (weight_scale _ (by norm_num) _ hn) hn) (weight_mul _ _ ho ho)
  unfold nextEta
  simp only
  split_ifs
  · exact min_unit _ hA
  · refine min_unit _ ?_
    unfold Ext.max
    split_ifs
    · exact .inr (.inr ⟨_, by positivity, rfl⟩)
    · exact hA

/-- The norm the tolerance is measured against is at most the Euclidean norm of the residual. -/
def Below (Fx : Vec n) (w : Ext) : Prop := Weight w ∧ ∀ y, Fx = real y → ∃ r, w = fin r ∧ r ≤ Real.sqrt (∑ i, y i ^ 2)

theorem below_norm (v : Vec n) : Below v (norm v) := by
  refine ⟨?_, ?_⟩
  · unfold norm
    rcases weight_norm v with h | h | ⟨r, hr, h⟩
    · rw [h]; exact .inl rfl
    · rw [h]; exact .inr (.inl rfl)
    · rw [h]; exact .inr (.inr ⟨_, Real.sqrt_nonneg r, rfl⟩)
  · rintro y rfl
    exact ⟨_, by rw [norm, squaredNorm_real]; rfl, le_rfl⟩

/-- What is asked of a norm: it is right on vectors without NaN, and not negative on others. -/
theorem below_max (nm : Vec n → Ext) (hm : IsMaxNorm nm) (hp : ∀ v, Weight (nm v)) (v : Vec n) : Below v (nm v) := by
  refine ⟨hp v, ?_⟩
  rintro y rfl
  obtain ⟨i, hi⟩ := hm.att (real y) (by simp [real])
  refine ⟨|y i|, hi, ?_⟩
  rw [← Real.sqrt_sq_eq_abs]
  exact Real.sqrt_le_sqrt (Finset.single_le_sum (f := fun i => y i ^ 2) (fun i _ => sq_nonneg _) (Finset.mem_univ i))

/-- The tolerances the linear solver is called with. -/
def Asked (Fx : Vec n) (tol : Ext) : Prop := ∃ τ, tol = fin τ ∧ 0 ≤ τ ∧ τ ≤ 0.9999 ∧
  ∀ y, Fx = real y → τ ≤ 0.9999 * Real.sqrt (∑ i, y i ^ 2)

theorem asked (Fx : Vec n) (eta w : Ext) (he : Unit9 eta) (hw : Below Fx w) : Asked Fx (eta.min (eta.mul w)) := by
  obtain ⟨e, e0, e1, rfl⟩ := he
  have hmin : ∀ r, (fin e).min (fin r) = fin (Min.min e r) := by
    intro r
    unfold Ext.min
    by_cases h : r < e
    · rw [if_pos (show (fin r).lt (fin e) from h), min_eq_right h.le]
    · rw [if_neg (show ¬ (fin r).lt (fin e) from h), min_eq_left (not_lt.1 h)]
  rcases hw.1 with rfl | rfl | ⟨r, hr, rfl⟩
  · refine ⟨e, by simp [Ext.mul, Ext.min, lt], e0, e1, fun y hy => ?_⟩
    obtain ⟨r, h, -⟩ := hw.2 y hy
    simp at h
  · have : (fin e).min ((fin e).mul pinf) = fin e := by
      rcases e0.eq_or_lt with rfl | h
      · simp [Ext.mul, Ext.min, lt, signed]
      · simp [Ext.mul, Ext.min, lt, signed, h]
    refine ⟨e, this, e0, e1, fun y hy => ?_⟩
    obtain ⟨r, h, -⟩ := hw.2 y hy
    simp at h
  · refine ⟨Min.min e (e * r), hmin _, le_min e0 (by positivity), (min_le_left _ _).trans e1, fun y hy => ?_⟩
    obtain ⟨q, h, hq⟩ := hw.2 y hy
    obtain rfl := Ext.fin.inj h
    calc Min.min e (e * r) ≤ e * r := min_le_right _ _
      _ ≤ 0.9999 * Real.sqrt (∑ i, y i ^ 2) := mul_le_mul e1 hq hr (by norm_num)

theorem pass_congr (z : Ext → Bool) (fuel : Nat) (F : Vec n → Vec n) (solve solve' : σ → Vec n → Vec n → Ext → σ × Vec n)
    (h : ∀ s x tol, Asked (F x) tol → solve s x (F x) tol = solve' s x (F x) tol) (s : Loop n σ) (hs : s.Fx = F s.x)
    (he : Unit9 s.eta) (hw : Below s.Fx s.FxNorm) : pass z fuel F solve s = pass z fuel F solve' s := by
  unfold pass
  have := asked s.Fx s.eta s.FxNorm he hw
  rw [hs] at this ⊢
  simp only
  rw [h _ _ _ this]

theorem pass_keeps (z : Ext → Bool) (fuel : Nat) (hf : 7 ≤ fuel) (F : Vec n → Vec n)
    (solve : σ → Vec n → Vec n → Ext → σ × Vec n) (s s' : Loop n σ) (hs : s.Fx = F s.x) (he : Unit9 s.eta)
    (hw : Below s.Fx s.FxNorm) (h : pass z fuel F solve s = some s') : s'.Fx = F s'.x ∧ Unit9 s'.eta ∧ Below s'.Fx s'.FxNorm := by
  obtain ⟨s'', k1, k2⟩ := pass_spec z fuel hf F solve s hs
  rw [h] at k1
  obtain rfl := Option.some.inj k1
  refine ⟨k2, ?_⟩
  unfold pass at h
  simp only at h
  obtain ⟨y, -, rfl⟩ := Option.map_eq_some_iff.1 h
  exact ⟨nextEta_unit _ _ _ he (below_norm _).1 hw.1, below_norm _⟩

theorem loop_congr (nm : Vec n → Ext) (T : Tol) (z : Ext → Bool) (fuel : Nat) (hf : 7 ≤ fuel) (F : Vec n → Vec n)
    (solve solve' : σ → Vec n → Vec n → Ext → σ × Vec n)
    (h : ∀ s x tol, Asked (F x) tol → solve s x (F x) tol = solve' s x (F x) tol) (k : Nat) : ∀ s : Loop n σ,
    s.Fx = F s.x → Unit9 s.eta → Below s.Fx s.FxNorm → loop nm T z fuel F solve k s = loop nm T z fuel F solve' k s := by
  induction k with
  | zero => intro s _ _ _; rfl
  | succ k ih =>
    intro s hs he hw
    rw [loop, loop]
    split_ifs
    · rfl
    · rw [pass_congr z fuel F solve solve' h { s with f0 := (check nm T s.f0 s.Fx s.x fun _ => fin INF).2 } hs he hw]
      cases hp : pass z fuel F solve' { s with f0 := (check nm T s.f0 s.Fx s.x fun _ => fin INF).2 } with
      | none => rfl
      | some s' =>
        obtain ⟨a, b, c⟩ := pass_keeps z fuel hf F solve'
          { s with f0 := (check nm T s.f0 s.Fx s.x fun _ => fin INF).2 } s' hs he hw hp
        exact ih s' a b c

/-- **C84.** The Newton solver calls the linear solver only at points with their residuals, and with tolerances from 0 to
0.9999 that are below the Euclidean norm of the residual by that factor too: how the linear solver answers other questions does
not matter. -/
theorem forcing (nm : Vec n → Ext) (hm : IsMaxNorm nm) (hp : ∀ v, Weight (nm v)) (T : Tol) (z : Ext → Bool) (fuel : Nat)
    (hf : 7 ≤ fuel) (F : Vec n → Vec n) (solve solve' : σ → Vec n → Vec n → Ext → σ × Vec n) (jac : σ) (x : Vec n)
    (h : ∀ s x (τ : ℝ), 0 ≤ τ → τ ≤ 0.9999 → (∀ y : Fin n → ℝ, F x = (fun i => fin (y i)) →
      τ ≤ 0.9999 * Real.sqrt (∑ i, y i ^ 2)) → solve s x (F x) (fin τ) = solve' s x (F x) (fin τ)) :
    nonlinSolve nm T z fuel F solve jac x = nonlinSolve nm T z fuel F solve' jac x := by
  refine loop_congr nm T z fuel hf F solve solve' ?_ _ _ rfl ⟨1e-3, by norm_num, by norm_num, rfl⟩ (below_max nm hm hp _)
  rintro s x tol ⟨τ, rfl, t0, t1, t2⟩
  exact h s x τ t0 t1 t2

/-- A linear solver that is exact where it is asked, and one that fails elsewhere, lead to the same result. -/
example (nm : Vec 1 → Ext) (hm : IsMaxNorm nm) (hp : ∀ v, Weight (nm v)) (T : Tol) (z : Ext → Bool) (x : Vec 1) :
    nonlinSolve nm T z 7 (fun x => x) (fun (_ : Unit) _ f _ => ((), f)) () x =
      nonlinSolve nm T z 7 (fun x => x) (fun (_ : Unit) _ f tol => ((), if tol.lt (fin 1) then f else fun _ => nan)) () x := by
  refine forcing nm hm hp T z 7 le_rfl _ _ _ _ _ fun s x τ _ h _ => ?_
  have : (fin τ).lt (fin 1) := by
    show τ < 1
    linarith [show (0.9999 : ℝ) < 1 by norm_num]
  simp only [if_pos this]

end

end Verif.Newton
