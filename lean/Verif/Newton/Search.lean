import Verif.Newton.Model

/-! # The line search -/

namespace Verif.Newton

open Ext

attribute [local instance] Classical.propDecidable

noncomputable section

theorem eq_of_eq {a b : Ext} (h : a.eq b) : a = b := by
  cases a <;> cases b <;> simp_all [Ext.eq]

/-- NaN, plus infinity or a non-negative number. -/
def Weight (a : Ext) : Prop := a = nan ∨ a = pinf ∨ ∃ r, 0 ≤ r ∧ a = fin r

theorem weight_square (a : Ext) : Weight (a.mul a) := by
  cases a with
  | fin r => exact .inr (.inr ⟨r * r, mul_self_nonneg r, rfl⟩)
  | nan => exact .inl rfl
  | pinf => exact .inr (.inl rfl)
  | ninf => exact .inr (.inl rfl)

theorem weight_add {a b : Ext} (ha : Weight a) (hb : Weight b) : Weight (a.add b) := by
  rcases ha with rfl | rfl | ⟨r, hr, rfl⟩ <;> rcases hb with rfl | rfl | ⟨q, hq, rfl⟩
  · exact .inl rfl
  · exact .inl rfl
  · exact .inl rfl
  · exact .inl rfl
  · exact .inr (.inl rfl)
  · exact .inr (.inl rfl)
  · exact .inl rfl
  · exact .inr (.inl rfl)
  · exact .inr (.inr ⟨r + q, add_nonneg hr hq, rfl⟩)

theorem weight_foldl (l : List Ext) (hl : ∀ a ∈ l, Weight a) : ∀ a, Weight a → Weight (l.foldl add a) := by
  induction l with
  | nil => intro a ha; exact ha
  | cons b l ih =>
    intro a ha
    exact ih (fun c hc => hl c (List.mem_cons_of_mem _ hc)) _ (weight_add ha (hl b List.mem_cons_self))

theorem weight_norm {n : Nat} (v : Vec n) : Weight (squaredNorm v) := by
  refine weight_foldl _ (fun a ha => ?_) _ (.inr (.inr ⟨0, le_rfl, rfl⟩))
  obtain ⟨i, rfl⟩ := (List.mem_ofFn' _ _).1 ha
  exact weight_square _

theorem add_nan_right (a : Ext) : a.add nan = nan := by cases a <;> rfl

theorem foldl_nan (l : List Ext) : l.foldl add nan = nan := by
  induction l with
  | nil => rfl
  | cons a l ih => exact ih

theorem foldl_fin (l : List Ext) : ∀ a r, l.foldl add a = fin r → (∃ q, a = fin q) ∧ ∀ b ∈ l, ∃ q, b = fin q := by
  induction l with
  | nil => intro a r h; exact ⟨⟨r, h⟩, by simp⟩
  | cons b l ih =>
    intro a r h
    obtain ⟨⟨q, hq⟩, hl⟩ := ih _ r h
    have hab : (∃ q, a = fin q) ∧ ∃ q, b = fin q := by
      cases a <;> cases b <;> simp_all [add]
    refine ⟨hab.1, fun c hc => ?_⟩
    rcases List.mem_cons.1 hc with rfl | hc
    · exact hab.2
    · exact hl c hc

/-- The squared norm is a number only if every component is. -/
theorem norm_fin {n : Nat} (v : Vec n) (r : ℝ) (h : squaredNorm v = fin r) (i : Fin n) : ∃ q, v i = fin q := by
  obtain ⟨q, hq⟩ := (foldl_fin _ _ r h).2 _ ((List.mem_ofFn' _ _).2 ⟨i, rfl⟩)
  cases hv : v i with
  | fin q => exact ⟨q, rfl⟩
  | _ => beta_reduce at hq; rw [hv] at hq; simp [Ext.mul, signed, neg] at hq

/-- One component that is NaN makes the squared norm NaN. -/
theorem norm_nan {n : Nat} (v : Vec n) (i : Fin n) (h : v i = nan) : squaredNorm v = nan := by
  have key : ∀ l : List Ext, nan ∈ l → ∀ a, l.foldl add a = nan := by
    intro l
    induction l with
    | nil => intro h; simp at h
    | cons b l ih =>
      intro h a
      rcases List.mem_cons.1 h with rfl | h
      · rw [List.foldl_cons, add_nan_right, foldl_nan]
      · exact ih h _
  exact key _ ((List.mem_ofFn' _ _).2 ⟨i, by simp [h, Ext.mul]⟩) _

/-! ### What the cache holds -/

/-- The cache holds what the residual is at the step it is for. -/
def Good {n : Nat} (F : Vec n → Vec n) (x dx : Vec n) (c : Cache n) : Prop :=
  c.Fx = F (axpy x c.s dx) ∧ c.phi = squaredNorm c.Fx

theorem phi_good {n : Nat} (F : Vec n → Vec n) (x dx : Vec n) (s : Ext) (c : Cache n) (h : Good F x dx c) :
    (phi F x dx s c).1 = squaredNorm (F (axpy x s dx)) ∧ Good F x dx (phi F x dx s c).2 := by
  unfold phi
  split_ifs with e
  · rw [eq_of_eq e]
    exact ⟨by rw [← h.1]; exact h.2, h⟩
  · exact ⟨rfl, rfl, rfl⟩

theorem phi_first {n : Nat} (F : Vec n → Vec n) (x dx Fx : Vec n) (p : Ext) :
    (phi F x dx (fin 1) ⟨fin 0, p, Fx⟩).1 = squaredNorm (F (axpy x (fin 1) dx)) ∧
      Good F x dx (phi F x dx (fin 1) ⟨fin 0, p, Fx⟩).2 := by
  unfold phi
  rw [if_neg (by simp [Ext.eq])]
  exact ⟨rfl, rfl, rfl⟩

theorem search_good {n : Nat} (z : Ext → Bool) (F : Vec n → Vec n) (x dx : Vec n) (phi0 : Ext) (fuel : Nat) :
    ∀ alpha1 phia0 phia1 c r, Good F x dx c → search z F x dx phi0 fuel alpha1 phia0 phia1 c = some r →
      Good F x dx r.2 ∧ (r.1 = fin 1 ∨ armijo phi0 r.1 (squaredNorm (F (axpy x r.1 dx)))) := by
  induction fuel with
  | zero => intro _ _ _ _ _ _ h; simp [search] at h
  | succ fuel ih =>
    intro alpha1 phia0 phia1 c r hc h
    rw [search] at h
    split_ifs at h with h1
    · obtain ⟨e, hg⟩ := phi_good F x dx (trial (z alpha1) phi0 alpha1 phia0 phia1) c hc
      simp only at h
      by_cases h2 : armijo phi0 (trial (z alpha1) phi0 alpha1 phia0 phia1)
          (phi F x dx (trial (z alpha1) phi0 alpha1 phia0 phia1) c).1
      · rw [if_pos h2] at h
        obtain rfl := Option.some.inj h
        rw [e] at h2
        exact ⟨hg, .inr h2⟩
      · rw [if_neg h2] at h
        exact ih _ _ _ _ r hg h
    · obtain rfl := Option.some.inj h
      exact ⟨hc, .inl rfl⟩

/-! ### The search ends -/

theorem halve (r : ℝ) (hr : 0.01 < r) (a : Ext) : a = nan ∨
    ((fin r).div false (fin 2)).lt ((fin r).sub a) ∨ ((fin 1).sub (a.div false (fin r))).lt (fin 0.96) := by
  have h0 : r ≠ 0 := by intro h; rw [h] at hr; norm_num at hr
  have hp : 0 < r := by linarith
  cases a with
  | nan => exact .inl rfl
  | pinf => right; right; simp [div, h0, sub, signed, hp, neg, add, lt]
  | ninf => right; left; simp [div, sub, neg, add, lt]
  | fin v =>
    right
    by_cases hv : v < r / 2
    · left; simp only [div, sub, neg, add, lt, if_neg (show (2 : ℝ) ≠ 0 by norm_num)]; linarith
    · right
      simp only [div, if_neg h0, sub, neg, add, lt]
      have : 1 / 2 ≤ v / r := by rw [le_div_iff₀ hp]; linarith
      norm_num
      linarith

theorem search_ends {n : Nat} (z : Ext → Bool) (F : Vec n → Vec n) (x dx : Vec n) (phi0 : Ext) (k : Nat) :
    ∀ fuel alpha1 phia0 phia1 c, k < fuel → (alpha1 = nan ∨ ∃ r, r ≤ 0.01 * 2 ^ k ∧ alpha1 = fin r) →
      (search z F x dx phi0 fuel alpha1 phia0 phia1 c).isSome := by
  induction k with
  | zero =>
    intro fuel alpha1 phia0 phia1 c hk ha
    obtain ⟨fuel, rfl⟩ : ∃ m, fuel = m + 1 := ⟨fuel - 1, by omega⟩
    rw [search, if_neg]
    · rfl
    · rcases ha with rfl | ⟨r, hr, rfl⟩
      · simp [lt]
      · simp only [lt]; norm_num at hr ⊢; linarith
  | succ k ih =>
    intro fuel alpha1 phia0 phia1 c hk ha
    obtain ⟨fuel, rfl⟩ : ∃ m, fuel = m + 1 := ⟨fuel - 1, by omega⟩
    rw [search]
    by_cases h1 : (fin 1e-2).lt alpha1
    · rw [if_pos h1]
      simp only
      rcases ha with rfl | ⟨r, hr, rfl⟩
      · simp [lt] at h1
      have h1' : (0.01 : ℝ) < r := by simp only [lt] at h1; norm_num at h1 ⊢; linarith
      by_cases h2 : armijo phi0 (trial (z (fin r)) phi0 (fin r) phia0 phia1)
          (phi F x dx (trial (z (fin r)) phi0 (fin r) phia0 phia1) c).1
      · rw [if_pos h2]; rfl
      · rw [if_neg h2]
        refine ih _ _ _ _ _ (by omega) ?_
        by_cases h3 : ((fin r).div false (fin 2)).lt ((fin r).sub (trial (z (fin r)) phi0 (fin r) phia0 phia1)) ∨
            ((fin 1).sub ((trial (z (fin r)) phi0 (fin r) phia0 phia1).div false (fin r))).lt (fin 0.96)
        · rw [if_pos h3]
          right
          refine ⟨r / 2, ?_, by simp [div]⟩
          rw [pow_succ] at hr
          linarith
        · rw [if_neg h3]
          exact .inl ((halve r h1' _).resolve_right h3)
    · rw [if_neg h1]; rfl

theorem trial_inf (z : Bool) (a b : Ext) : trial z pinf pinf a b = nan := by
  unfold trial
  cases a <;> cases b <;> simp [sub, neg, add, Ext.mul, signed, div, Ext.abs, Ext.sqrt]

/-- With an infinite residual at the start the loop ends after one pass. -/
theorem search_inf {n : Nat} (z : Ext → Bool) (F : Vec n → Vec n) (x dx : Vec n) (fuel : Nat) (phia0 phia1 : Ext)
    (c : Cache n) (hf : 2 ≤ fuel) : (search z F x dx pinf fuel pinf phia0 phia1 c).isSome := by
  obtain ⟨fuel, rfl⟩ : ∃ m, fuel = m + 1 := ⟨fuel - 1, by omega⟩
  rw [search, if_pos (by simp [lt])]
  simp only [trial_inf]
  by_cases h2 : armijo pinf nan (phi F x dx nan c).1
  · rw [if_pos h2]; rfl
  · rw [if_neg h2, if_neg]
    · exact search_ends z F x dx pinf 0 fuel nan _ _ _ (by omega) (.inl rfl)
    · simp [sub, neg, add, div, lt, signed]

theorem first_step (phi0 p : Ext) (h0 : Weight phi0) (hp : Weight p)
    (h : ¬ p.le (phi0.sub ((fin 1e-4).mul phi0))) :
    phi0 = pinf ∧ phi0.div false ((fin 2).mul p) = pinf ∨ phi0.div false ((fin 2).mul p) = nan ∨
      ∃ r, 0 ≤ r ∧ r ≤ 0.01 * 2 ^ 6 ∧ phi0.div false ((fin 2).mul p) = fin r := by
  rcases h0 with rfl | rfl | ⟨q, hq, rfl⟩
  · right; left; cases p <;> simp [Ext.mul, div, signed]
  · rcases hp with rfl | rfl | ⟨r, hr, rfl⟩
    · right; left; simp [Ext.mul, div]
    · right; left; simp [Ext.mul, signed, div]
    · left
      refine ⟨rfl, ?_⟩
      rcases hr.lt_or_eq with hr | rfl
      · simp [Ext.mul, div, signed, hr, hr.ne']
      · simp [Ext.mul, div]
  · rcases hp with rfl | rfl | ⟨r, hr, rfl⟩
    · right; left; simp [Ext.mul, div]
    · right; right; exact ⟨0, le_rfl, by norm_num, by simp [Ext.mul, signed, div]⟩
    · right; right
      simp only [Ext.mul, sub, neg, add, le, not_le] at h
      have hrp : 0 < r := by norm_num at h; nlinarith
      refine ⟨q / (2 * r), by positivity, ?_, by simp [Ext.mul, div, hrp.ne']⟩
      rw [div_le_iff₀ (by positivity)]
      norm_num at h ⊢
      nlinarith

theorem armijoSearch_spec {n : Nat} (z : Ext → Bool) (fuel : Nat) (hf : 7 ≤ fuel) (F : Vec n → Vec n) (x dx : Vec n) :
    ∃ r, armijoSearch z fuel F x dx (squaredNorm (F x)) ⟨fin 0, squaredNorm (F x), F x⟩ = some r ∧
      Good F x dx r.2 ∧ (r.1 = fin 1 ∨ armijo (squaredNorm (F x)) r.1 (squaredNorm (F (axpy x r.1 dx)))) := by
  obtain ⟨e0, g0⟩ := phi_first F x dx (F x) (squaredNorm (F x))
  unfold armijoSearch
  simp only
  generalize hp0 : phi F x dx (fin 1) ⟨fin 0, squaredNorm (F x), F x⟩ = p0 at *
  by_cases h1 : p0.1.le ((squaredNorm (F x)).sub ((fin 1e-4).mul (squaredNorm (F x))))
  · rw [if_pos h1]
    exact ⟨_, rfl, g0, .inl rfl⟩
  · rw [if_neg h1]
    set alpha1 := (squaredNorm (F x)).div false ((fin 2).mul p0.1) with hα
    obtain ⟨e1, g1⟩ := phi_good F x dx alpha1 p0.2 g0
    by_cases h2 : armijo (squaredNorm (F x)) alpha1 (phi F x dx alpha1 p0.2).1
    · rw [if_pos h2]
      exact ⟨_, rfl, g1, .inr (by rw [← e1]; exact h2)⟩
    · rw [if_neg h2]
      have hs : (search z F x dx (squaredNorm (F x)) fuel alpha1 p0.1 (phi F x dx alpha1 p0.2).1
          (phi F x dx alpha1 p0.2).2).isSome := by
        rcases first_step _ p0.1 (weight_norm (F x)) (by rw [e0]; exact weight_norm _) h1 with ⟨i1, i2⟩ | i | ⟨r, -, hr, i⟩
        · rw [hα, i2, i1]; exact search_inf z F x dx fuel _ _ _ (by omega)
        · rw [hα, i]; exact search_ends z F x dx _ 6 fuel _ _ _ _ (by omega) (.inl rfl)
        · rw [hα, i]; exact search_ends z F x dx _ 6 fuel _ _ _ _ (by omega) (.inr ⟨r, hr, rfl⟩)
      obtain ⟨r, hr⟩ := Option.isSome_iff_exists.1 hs
      exact ⟨r, hr, search_good z F x dx _ fuel _ _ _ _ r g1 hr⟩

/-- **C55.** The line search ends for every residual function, every point and every direction, after at most six trial
steps from the cubic; it moves to `x + s dx`, where `s` is one or satisfies the condition of sufficient decrease, and it
returns the residual there. -/
theorem lineSearch_spec {n : Nat} (z : Ext → Bool) (fuel : Nat) (hf : 7 ≤ fuel) (F : Vec n → Vec n) (x dx : Vec n) :
    ∃ s, lineSearch z fuel F x (F x) dx = some (axpy x s dx, F (axpy x s dx)) ∧
      (s = fin 1 ∨ (squaredNorm (F (axpy x s dx))).le
        ((squaredNorm (F x)).sub (((fin 1e-4).mul s).mul (squaredNorm (F x))))) := by
  obtain ⟨r, hr, g, ha⟩ := armijoSearch_spec z fuel hf F x dx
  refine ⟨r.1, ?_, ha⟩
  unfold lineSearch
  rw [hr, Option.map_some]
  congr 2
  split_ifs with e
  · rw [g.1, eq_of_eq e]
  · rfl

end

end Verif.Newton
