import Verif.Step.Mid
import Verif.Newton.Predict

/-! # Larger cells, longer steps, slower sources

What the schemes do with cells `lam` times as large, steps `lam` times as long and sources `lam` times as slow. -/

namespace Verif.Step

open Verif.Fv Verif.Dg Verif.Basis

noncomputable section

variable {n : Nat} {ι : Type} {T : Tab n} {S : Dg.Sys ι} {lam : ℝ}

/-- The equations with sources `lam` times as slow. -/
def slow (lam : ℝ) (S : Dg.Sys ι) : Dg.Sys ι := { S with source := fun q v => S.source q v / lam }

/-- `Bdot` is linear in its second argument. -/
def LinB (S : Dg.Sys ι) : Prop := ∀ d q (a : ℝ) x, S.bdot d q (a • x) = a • S.bdot d q x

theorem rhs1_slow (hl : lam ≠ 0) (hb : LinB S) (q Ww : Nat → ι → ℝ) (dt dx : ℝ) (t i : Fin n) :
    rhs1 (slow lam S) T q Ww (lam * dt) (lam * dx) t i = rhs1 S T q Ww dt dx t i := by
  funext v
  have e : dqdx1 T q (lam * dx) t i = (1 / lam) • dqdx1 T q dx t i := by
    funext v
    simp only [dqdx1, Pi.smul_apply, smul_eq_mul]
    rw [div_mul_eq_div_div_swap, one_div, inv_mul_eq_div]
  simp only [rhs1, e]
  change ((S.source _ v / lam - S.bdot 0 _ _ v) * _ - _ * _ / _) * _ + _ = _
  rw [hb, Pi.smul_apply, smul_eq_mul]
  congr 1
  rw [div_mul_eq_div_div_swap]
  change ((_ - _) * _ - (T.w t * ∑ j : Fin n, T.der i j * S.flux 0 (q (t * n + j)) v) / dx / lam) * _ = _
  field_simp

theorem foldl_scale {α : Type} (f : α → ℝ) (a lam : ℝ) (l : List α) :
    l.foldl (fun r k => r - f k / lam) (a / lam) = l.foldl (fun r k => r - f k) a / lam := by
  induction l generalizing a with
  | nil => rfl
  | cons x l ih => rw [List.foldl_cons, List.foldl_cons, ← sub_div, ih]

theorem rhs2_slow (hl : lam ≠ 0) (hb : LinB S) (q Ww : Nat → ι → ℝ) (dt dx dy : ℝ) (t i j : Fin n) :
    rhs2 (slow lam S) T q Ww (lam * dt) (lam * dx) (lam * dy) t i j = rhs2 S T q Ww dt dx dy t i j := by
  funext v
  have e : ∀ d h, dq2 T q d (lam * h) t i j = (1 / lam) • dq2 T q d h t i j := fun d h => by
    funext v
    simp only [dq2, Pi.smul_apply, smul_eq_mul]
    rw [div_mul_eq_div_div_swap, one_div, inv_mul_eq_div]
  simp only [rhs2, e]
  change (List.foldl (fun ret (k : Fin n) => ret - T.w t * T.der i k * (T.w j * S.flux 0 (q ((t * n + k) * n + j)) v) / (lam * dx))
    ((S.source _ v / lam - (S.bdot 0 _ _ v + S.bdot 1 _ _ v)) * _) _ -
    T.w t * T.w i * (∑ k : Fin n, T.der j k * S.flux 1 (q ((t * n + i) * n + k)) v) / (lam * dy)) * _ + _ = _
  simp only [hb _ _ (1 / lam), Pi.smul_apply, smul_eq_mul]
  congr 1
  simp only [div_mul_eq_div_div_swap _ lam]
  have e1 : ∀ a b d g : ℝ, (a / lam - (1 / lam * b + 1 / lam * d)) * g = ((a - (b + d)) * g) / lam := fun a b d g => by ring
  rw [e1, foldl_scale, ← sub_div, div_mul_eq_mul_div, mul_div_assoc, mul_div_cancel_left₀ _ hl]

theorem obj1_slow (hl : lam ≠ 0) (hb : LinB S) (q Ww : Nat → ι → ℝ) (dt dx : ℝ) (t i : Fin n) :
    obj1 (slow lam S) T q Ww (lam * dt) (lam * dx) t i = obj1 S T q Ww dt dx t i := by
  funext v
  simp only [obj1, rhs1_slow hl hb]

theorem obj2_slow (hl : lam ≠ 0) (hb : LinB S) (q Ww : Nat → ι → ℝ) (dt dx dy : ℝ) (t i j : Fin n) :
    obj2 (slow lam S) T q Ww (lam * dt) (lam * dx) (lam * dy) t i j = obj2 S T q Ww dt dx dy t i j := by
  funext v
  simp only [obj2, rhs2_slow hl hb]

theorem isStep1_slow (hl : lam ≠ 0) (hb : LinB S) (Ww : Nat → ι → ℝ) (dt dx : ℝ) (step : (Nat → ι → ℝ) → (Nat → ι → ℝ)) :
    IsStep1 T (slow lam S) Ww (lam * dt) (lam * dx) step ↔ IsStep1 T S Ww dt dx step := by
  unfold IsStep1
  simp only [rhs1_slow hl hb]

theorem isStep2_slow (hl : lam ≠ 0) (hb : LinB S) (Ww : Nat → ι → ℝ) (dt dx dy : ℝ) (step : (Nat → ι → ℝ) → (Nat → ι → ℝ)) :
    IsStep2 T (slow lam S) Ww (lam * dt) (lam * dx) (lam * dy) step ↔ IsStep2 T S Ww dt dx dy step := by
  unfold IsStep2
  simp only [rhs2_slow hl hb]

theorem mid1_slow (hl : lam ≠ 0) (dt dx : ℝ) : mid1 (slow lam S) T (lam * dt) (lam * dx) = mid1 S T dt dx := by
  funext w a v
  simp only [mid1]
  change _ - lam * dt / 2 * (∑ k, T.dervals a k * S.flux 0 (w k) v + S.bdot 0 _ _ v) / _ = _
  congr 1
  field_simp

theorem mid2_slow (hl : lam ≠ 0) (dt dx dy : ℝ) :
    mid2 (slow lam S) T (lam * dt) (lam * dx) (lam * dy) = mid2 S T dt dx dy := by
  funext w i j v
  simp only [mid2]
  congr 1
  simp only [div_mul_eq_div_div_swap _ lam, ← add_div]
  change lam * dt / 2 * (((_ + S.bdot 0 _ _ v) / dx + (_ + S.bdot 1 _ _ v) / dy) / lam) = _
  field_simp
  rfl

theorem kern1_slow (hl : lam ≠ 0) (fl : Nat → (ι → ℝ) → (ι → ℝ) → (ι → ℝ)) (wt : Nat → ℝ) (dx : ℝ) (sources : Bool) :
    kern1 (slow lam S) T fl (fun t => lam * wt t) (lam * dx) sources = kern1 S T fl wt dx sources := by
  unfold kern1
  congr 1
  · funext t qh
    refine List.map_congr_left fun s _ => ?_
    funext v
    have h : (if sources = true then (slow lam S).source (qh s) else 0 : ι → ℝ) v =
        (if sources = true then S.source (qh s) else 0 : ι → ℝ) v / lam := by
      cases sources <;> simp [slow]
    simp only [Pi.smul_apply, Pi.sub_apply, smul_eq_mul, h]
    simp only [slow, div_mul_eq_div_div_swap _ lam]
    field_simp
  · funext d t a b
    simp only
    have : lam * wt t / (2 * (lam * dx)) = wt t / (2 * dx) := by field_simp
    rw [this]
    rfl

theorem kern2_slow (hl : lam ≠ 0) (fl : Nat → (ι → ℝ) → (ι → ℝ) → (ι → ℝ)) (wt : Nat → ℝ) (dx dy : ℝ) (sources : Bool) :
    kern2 (slow lam S) T fl (fun t => lam * wt t) (lam * dx) (lam * dy) sources = kern2 S T fl wt dx dy sources := by
  unfold kern2
  congr 1
  · funext t qh
    refine List.flatMap_congr fun a _ => List.map_congr_left fun s _ => ?_
    funext v
    have h : (if sources = true then (slow lam S).source (qh (a * n + s)) else 0 : ι → ℝ) v =
        (if sources = true then S.source (qh (a * n + s)) else 0 : ι → ℝ) v / lam := by
      cases sources <;> simp [slow]
    simp only [Pi.smul_apply, Pi.sub_apply, smul_eq_mul, h]
    simp only [slow, div_mul_eq_div_div_swap _ lam]
    field_simp
  · funext d t a b
    simp only
    have : ∀ h, lam * wt t / (2 * (lam * h)) = wt t / (2 * h) := fun h => by field_simp
    have e : (if d = 0 then lam * dx else lam * dy) = lam * (if d = 0 then dx else dy) := by split_ifs <;> rfl
    simp only [e, this]
    rfl

section

variable {V : Nat} {S : Dg.Sys (Fin V)} {σ : Type}

theorem newton1_slow (hl : lam ≠ 0) (hb : LinB S) (dt dx : ℝ) (nm : Newton.Vec (n * n * V) → Newton.Ext) (tol : ℝ)
    (z : Newton.Ext → Bool) (fuel : Nat)
    (solve : σ → Newton.Vec (n * n * V) → Newton.Vec (n * n * V) → Newton.Ext → σ × Newton.Vec (n * n * V)) (jac : σ)
    (bad : Newton.Vec (n * n * V) → Newton.Vec (n * n * V)) :
    Newton.newton1 (slow lam S) T (lam * dt) (lam * dx) nm tol z fuel solve jac bad =
      Newton.newton1 S T dt dx nm tol z fuel solve jac bad := by
  funext w
  unfold Newton.newton1
  congr 1
  unfold Newton.rows1Obj
  simp only [obj1_slow hl hb]

theorem newton2_slow (hl : lam ≠ 0) (hb : LinB S) (dt dx dy : ℝ) (nm : Newton.Vec (n * (n * n) * V) → Newton.Ext) (tol : ℝ)
    (z : Newton.Ext → Bool) (fuel : Nat)
    (solve : σ → Newton.Vec (n * (n * n) * V) → Newton.Vec (n * (n * n) * V) → Newton.Ext → σ × Newton.Vec (n * (n * n) * V))
    (jac : σ) (bad : Newton.Vec (n * (n * n) * V) → Newton.Vec (n * (n * n) * V)) :
    Newton.newton2 (slow lam S) T (lam * dt) (lam * dx) (lam * dy) nm tol z fuel solve jac bad =
      Newton.newton2 S T dt dx dy nm tol z fuel solve jac bad := by
  funext w
  unfold Newton.newton2
  congr 1
  unfold Newton.rows2Obj
  simp only [obj2_slow hl hb]

end

end

end Verif.Step
