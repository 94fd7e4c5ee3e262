import Verif.March.Spec
import Mathlib.Tactic.Linarith
import Mathlib.Tactic.Ring
import Mathlib.Tactic.FieldSimp
import Mathlib.Tactic.Positivity
import Mathlib.Tactic.LinearCombination
import Mathlib.Algebra.BigOperators.Group.Finset.Basic
import Mathlib.Algebra.BigOperators.Intervals

/-! Real-arithmetic lemmas about the two-axis eikonal quadratic. -/

namespace Verif.March

/-- The two-axis form of the equation with weights `h = 1/dx²`. -/
noncomputable def tm (h : ℝ) (o : Option ℝ) (r : ℝ) : ℝ :=
  match o with
  | none => 0
  | some m => h * (r - m) ^ 2

noncomputable def sl (h : ℝ) (o : Option ℝ) (r : ℝ) : ℝ :=
  match o with
  | none => 0
  | some m => h * (r - m)

structure IsU (hx hy : ℝ) (ox oy : Option ℝ) (U : ℝ) : Prop where
  eq : tm hx ox U + tm hy oy U = 1
  pos : 0 < sl hx ox U + sl hy oy U

theorem tm_nonneg {h r : ℝ} {o : Option ℝ} (hh : 0 < h) : 0 ≤ tm h o r := by
  cases o with
  | none => simp [tm]
  | some m => simp only [tm]; positivity

/-- The larger root is positive when the data are non-negative. -/
theorem IsU.U_pos {hx hy : ℝ} {ox oy : Option ℝ} {U : ℝ} (hhx : 0 < hx) (hhy : 0 < hy)
    (mx : ∀ m, ox = some m → 0 ≤ m) (my : ∀ m, oy = some m → 0 ≤ m)
    (h : IsU hx hy ox oy U) : 0 < U := by
  have hp := h.pos
  by_contra hU
  push Not at hU
  have h1 : sl hx ox U ≤ 0 := by
    cases ox with
    | none => simp [sl]
    | some m => have := mx m rfl; simp only [sl]; nlinarith
  have h2 : sl hy oy U ≤ 0 := by
    cases oy with
    | none => simp [sl]
    | some m => have := my m rfl; simp only [sl]; nlinarith
  linarith

/-- Uniqueness of the larger root. -/
theorem IsU.unique {hx hy : ℝ} {ox oy : Option ℝ} {U V : ℝ}
    (h : IsU hx hy ox oy U) (k : IsU hx hy ox oy V) : U = V := by
  obtain ⟨e1, p1⟩ := h
  obtain ⟨e2, p2⟩ := k
  have key : (U - V) * ((sl hx ox U + sl hy oy U) + (sl hx ox V + sl hy oy V)) = 0 := by
    cases ox <;> cases oy <;> simp only [tm, sl] at * <;> linear_combination e1 - e2
  rcases mul_eq_zero.1 key with h | h
  · linarith
  · linarith

/-- An axis value plus its spacing bounds the root. -/
theorem IsU.le_left {hx hy : ℝ} {oy : Option ℝ} {U m : ℝ} (hhy : 0 < hy)
    (h : IsU hx hy (some m) oy U) : hx * (U - m) ^ 2 ≤ 1 := by
  have := h.eq
  have h2 := tm_nonneg (r := U) (o := oy) hhy
  have h3 : tm hx (some m) U = hx * (U - m) ^ 2 := rfl
  linarith

theorem IsU.symm {hx hy : ℝ} {ox oy : Option ℝ} {U : ℝ} (h : IsU hx hy ox oy U) :
    IsU hy hx oy ox U := ⟨by rw [add_comm]; exact h.eq, by rw [add_comm]; exact h.pos⟩

/-- Existence of the root, in the form the code computes it. -/
theorem quad_root {a b c : ℝ} (ha : 0 < a) (hd : 0 < b ^ 2 - 4 * a * (c - 1)) :
    let r := (-b + Real.sqrt (b ^ 2 - 4 * a * (c - 1))) / 2 / a
    a * r ^ 2 + b * r + c = 1 ∧ 0 < 2 * a * r + b := by
  intro r
  have hs := Real.sq_sqrt hd.le
  have hp := Real.sqrt_pos.2 hd
  have hr : 2 * a * r = -b + Real.sqrt (b ^ 2 - 4 * a * (c - 1)) := by
    simp only [r]; field_simp
  constructor
  · have : 4 * a * (a * r ^ 2 + b * r + c - 1) = 0 := by
      have e : Real.sqrt (b ^ 2 - 4 * a * (c - 1)) = 2 * a * r + b := by linarith
      rw [e] at hs
      linear_combination hs
    have h4 : (4 * a) ≠ 0 := by positivity
    have := (mul_eq_zero.1 this).resolve_left h4
    linarith
  · linarith

/-- Options after freezing a batch of value `K`: unchanged, or lowered to/introduced at `K`. -/
inductive Lower (K : ℝ) : Option ℝ → Option ℝ → Prop
  | same (o : Option ℝ) : Lower K o o
  | new : Lower K none (some K)
  | low {m : ℝ} : K ≤ m → Lower K (some m) (some K)

/-- The separation of the two axis values stays bounded. -/
theorem sep_step {dx dy K B U : ℝ} (hdx : 0 < dx) (hdy : 0 < dy) (hBx : dx ≤ B) (hBy : dy ≤ B)
    (hK : 0 ≤ K) {ox oy ox' oy' : Option ℝ}
    (lx : Lower K ox ox') (ly : Lower K oy oy')
    (hold : ox = none ∧ oy = none ∨ IsU (1 / dx / dx) (1 / dy / dy) ox oy U ∧ K ≤ U)
    (mx : ∀ m, ox = some m → 0 ≤ m ∧ (m ≤ B ∨ m ≤ K)) (my : ∀ m, oy = some m → 0 ≤ m ∧ (m ≤ B ∨ m ≤ K))
    (sep : ∀ m m', ox = some m → oy = some m' → |m - m'| ≤ B) :
    ∀ m m', ox' = some m → oy' = some m' → |m - m'| ≤ B := by
  have aux : ∀ {d K m U : ℝ}, 0 < d → 1 / d / d * (U - m) ^ 2 ≤ 1 → K ≤ U → K - m ≤ d := by
    intro d K m U hd h hKU
    by_contra hc
    push Not at hc
    have h1 : d < U - m := by linarith
    have h2 : d ^ 2 < (U - m) ^ 2 := by nlinarith
    have h3 : 1 / d / d * (U - m) ^ 2 = (U - m) ^ 2 / d ^ 2 := by field_simp
    rw [h3, div_le_one (by positivity)] at h
    linarith
  have hhx : 0 < 1 / dx / dx := by positivity
  have hhy : 0 < 1 / dy / dy := by positivity
  intro m m' e e'
  cases lx with
  | same =>
    cases ly with
    | same => exact sep m m' e e'
    | new =>
      cases e'
      rcases hold with ⟨h1, h2⟩ | ⟨h1, h2⟩
      · rw [h1] at e; cases e
      · subst e
        have h3 := aux hdx (h1.le_left hhy) h2
        obtain ⟨h4, h5⟩ := mx m rfl
        rw [abs_le]
        constructor
        · linarith
        · rcases h5 with h5 | h5 <;> linarith
    | low h =>
      cases e'
      rcases hold with ⟨h1, h2⟩ | ⟨h1, h2⟩
      · cases h2
      · subst e
        have h3 := aux hdx (h1.le_left hhy) h2
        obtain ⟨h4, h5⟩ := mx m rfl
        rw [abs_le]
        constructor
        · linarith
        · rcases h5 with h5 | h5 <;> linarith
  | new =>
    cases e
    cases ly with
    | same =>
      rcases hold with ⟨h1, h2⟩ | ⟨h1, h2⟩
      · rw [h2] at e'; cases e'
      · subst e'
        have h3 := aux hdy (h1.symm.le_left hhx) h2
        obtain ⟨h4, h5⟩ := my m' rfl
        rw [abs_le]
        constructor
        · rcases h5 with h5 | h5 <;> linarith
        · linarith
    | new => cases e'; simp; linarith
    | low => cases e'; simp; linarith
  | low h =>
    cases e
    cases ly with
    | same =>
      rcases hold with ⟨h1, h2⟩ | ⟨h1, h2⟩
      · cases h1
      · subst e'
        have h3 := aux hdy (h1.symm.le_left hhx) h2
        obtain ⟨h4, h5⟩ := my m' rfl
        rw [abs_le]
        constructor
        · rcases h5 with h5 | h5 <;> linarith
        · linarith
    | new => cases e'; simp; linarith
    | low => cases e'; simp; linarith

/-- One axis at `K`, the other at an old value: the root cannot drop below `K`. -/
theorem good_aux {hx hy K m U U' : ℝ} (hhx : 0 < hx) (hhy : 0 < hy)
    (hU : hx * (U - m) ^ 2 ≤ 1) (hKU : K ≤ U)
    (h : IsU hx hy (some m) (some K) U') : K ≤ U' := by
  by_contra hc
  push Not at hc
  obtain ⟨e, p⟩ := h
  simp only [tm, sl] at e p
  have hq : 0 < K - U' := by linarith
  have hpp : 0 < U' - m := by nlinarith
  have h1 : hx * (K - m) ^ 2 ≤ hx * (U - m) ^ 2 := by
    apply mul_le_mul_of_nonneg_left _ hhx.le
    apply pow_le_pow_left₀ <;> linarith
  nlinarith [mul_pos hhx (mul_pos hpp hq), mul_pos hhx (mul_pos hq hq), mul_pos hhy (mul_pos hq hq)]

/-- After a batch of value `K` is frozen, updated roots are at least `K`. -/
theorem good_step {hx hy K U U' : ℝ} (hhx : 0 < hx) (hhy : 0 < hy) {ox oy ox' oy' : Option ℝ}
    (lx : Lower K ox ox') (ly : Lower K oy oy')
    (hold : ox = none ∧ oy = none ∨ IsU hx hy ox oy U ∧ K ≤ U)
    (h : IsU hx hy ox' oy' U') : K ≤ U' := by
  have both : IsU hx hy (some K) (some K) U' → K ≤ U' := by
    intro h
    have := h.pos
    simp only [sl] at this
    by_contra hc
    push Not at hc
    nlinarith
  have oneL : IsU hx hy (some K) none U' → K ≤ U' := by
    intro h
    have := h.pos
    simp only [sl] at this
    by_contra hc
    push Not at hc
    nlinarith
  have oneR : IsU hx hy none (some K) U' → K ≤ U' := by
    intro h
    have := h.pos
    simp only [sl] at this
    by_contra hc
    push Not at hc
    nlinarith
  rcases hold with ⟨rfl, rfl⟩ | ⟨h1, h2⟩
  · cases lx <;> cases ly
    · exfalso; have := h.eq; simp [tm] at this
    · exact oneR h
    · exact oneL h
    · exact both h
  · cases lx with
    | same =>
      cases ly with
      | same => rw [h.unique h1]; exact h2
      | new =>
        cases ox with
        | none => exact oneR h
        | some m => exact good_aux hhx hhy (h1.le_left hhy) h2 h
      | low =>
        cases ox with
        | none => exact oneR h
        | some m => exact good_aux hhx hhy (h1.le_left hhy) h2 h
    | new =>
      cases ly with
      | same =>
        cases oy with
        | none => exact oneL h
        | some m => exact good_aux hhy hhx (h1.symm.le_left hhx) h2 h.symm
      | new => exact both h
      | low => exact both h
    | low =>
      cases ly with
      | same =>
        cases oy with
        | none => exact oneL h
        | some m => exact good_aux hhy hhx (h1.symm.le_left hhx) h2 h.symm
      | new => exact both h
      | low => exact both h

/-- Positive discriminant for separated data. -/
theorem det_pos {dx dy B mx my : ℝ} (hdx : 0 < dx) (hdy : 0 < dy) (hB : B = max dx dy)
    (h : |mx - my| ≤ B) :
    0 < (1 / dx / dx + 1 / dy / dy) - 1 / dx / dx * (1 / dy / dy) * (mx - my) ^ 2 := by
  have h1 : (mx - my) ^ 2 ≤ B ^ 2 := by
    rw [← sq_abs]; exact pow_le_pow_left₀ (abs_nonneg _) h 2
  have h2 : B ^ 2 < dx ^ 2 + dy ^ 2 := by
    rw [hB]
    rcases max_cases dx dy with ⟨e, _⟩ | ⟨e, _⟩ <;> rw [e] <;> nlinarith
  have e : (1 / dx / dx + 1 / dy / dy) - 1 / dx / dx * (1 / dy / dy) * (mx - my) ^ 2 =
      (dx ^ 2 + dy ^ 2 - (mx - my) ^ 2) / (dx ^ 2 * dy ^ 2) := by
    field_simp; ring
  rw [e]
  apply div_pos
  · linarith
  · positivity

end Verif.March
