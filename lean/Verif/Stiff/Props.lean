import Verif.Stiff.Model
import Verif.Newton.Solve
import Verif.Dg.Galerkin

/-!
# Stability and accuracy of the implicit solver for one ordinary differential equation
-/

namespace Verif.Stiff

open Verif.Newton Verif.Newton.Ext Verif.Dg Verif.Poly Verif.Basis Polynomial

attribute [local instance] Classical.propDecidable

noncomputable section

variable {n : Nat} {σ : Type} {T : Tab n}

/-- The value at the end of the step of the polynomial with nodal values `x`. -/
def endV (T : Tab n) (x : Fin n → ℝ) : ℝ := ∑ i, x i * T.endvals 1 i

/-- Its value at the start of the step. -/
def startV (T : Tab n) (x : Fin n → ℝ) : ℝ := ∑ i, x i * T.endvals 0 i

/-- Energy identity of `DG_MAT`. -/
theorem quad (h : T.Ok) (x : Fin n → ℝ) : ∑ i, x i * T.mat.mulVec x i = (endV T x ^ 2 + startV T x ^ 2) / 2 := by
  have e : ∀ i k, T.mat i k + T.mat k i = T.endvals 1 i * T.endvals 1 k + T.endvals 0 i * T.endvals 0 k := by
    intro i k
    have := summation_by_parts h i k
    unfold Tab.mat
    simp only [Matrix.sub_apply, Matrix.transpose_apply, end_products]
    have a : ∀ j, T.endvals 1 j = evaluate (T.psi j) 1 := fun j => rfl
    have b : ∀ j, T.endvals 0 j = evaluate (T.psi j) 0 := fun j => rfl
    simp only [a, b]
    linarith
  have s1 : ∑ i, x i * T.mat.mulVec x i = ∑ i, ∑ k, x i * x k * T.mat i k := by
    refine Finset.sum_congr rfl fun i _ => ?_
    simp only [Matrix.mulVec, dotProduct, Finset.mul_sum]
    exact Finset.sum_congr rfl fun k _ => by ring
  have s2 : ∑ i, x i * T.mat.mulVec x i = ∑ i, ∑ k, x i * x k * T.mat k i := by
    rw [s1, Finset.sum_comm]
    exact Finset.sum_congr rfl fun i _ => Finset.sum_congr rfl fun k _ => by ring
  have s3 : ∀ e : Fin 2, (∑ i, x i * T.endvals e i) ^ 2 = ∑ i, ∑ k, x i * x k * (T.endvals e i * T.endvals e k) := by
    intro e
    rw [sq, Finset.sum_mul_sum]
    exact Finset.sum_congr rfl fun i _ => Finset.sum_congr rfl fun k _ => by ring
  have : (∑ i, x i * T.mat.mulVec x i) + ∑ i, x i * T.mat.mulVec x i = endV T x ^ 2 + startV T x ^ 2 := by
    conv_lhs => rw [s1]
    rw [← s1]
    conv_lhs => arg 1; rw [s1]
    rw [s2, endV, startV, s3, s3, ← Finset.sum_add_distrib, ← Finset.sum_add_distrib]
    refine Finset.sum_congr rfl fun i _ => ?_
    rw [← Finset.sum_add_distrib, ← Finset.sum_add_distrib]
    refine Finset.sum_congr rfl fun k _ => ?_
    rw [← mul_add, ← mul_add, e]
  linarith

/-- Energy balance of a step, whatever the residual. -/
theorem balance (h : T.Ok) (x : Fin n → ℝ) (x0 dt : ℝ) (f : ℝ → ℝ) :
    endV T x ^ 2 + (startV T x - x0) ^ 2 =
      x0 ^ 2 + 2 * dt * ∑ i, T.w i * (x i * f (x i)) + 2 * ∑ i, x i * obj0 T x x0 dt f i := by
  have q := quad h x
  have e : ∑ i, x i * obj0 T x x0 dt f i =
      ∑ i, x i * T.mat.mulVec x i - x0 * startV T x - dt * ∑ i, T.w i * (x i * f (x i)) := by
    rw [startV, Finset.mul_sum, Finset.mul_sum, ← Finset.sum_sub_distrib, ← Finset.sum_sub_distrib]
    exact Finset.sum_congr rfl fun i _ => by unfold obj0; ring
  rw [e, q]
  ring

/-- **C76.** A rate that never drives the quantity away from zero: the end value is no larger than the start value, for
steps of any length. -/
theorem dissipative (h : T.Ok) (x : Fin n → ℝ) (x0 dt : ℝ) (hdt : 0 ≤ dt) (f : ℝ → ℝ) (hf : ∀ y, y * f y ≤ 0)
    (hx : ∀ i, obj0 T x x0 dt f i = 0) : |endV T x| ≤ |x0| := by
  have b := balance h x x0 dt f
  have s : ∑ i, T.w i * (x i * f (x i)) ≤ 0 :=
    Finset.sum_nonpos fun i _ => mul_nonpos_of_nonneg_of_nonpos (h.wpos i).le (hf _)
  simp only [hx, mul_zero, Finset.sum_const_zero, add_zero] at b
  rw [← sq_le_sq]
  nlinarith [sq_nonneg (startV T x - x0), mul_nonneg hdt (neg_nonneg.2 s)]

/-- **C76.** Two runs with the same non-increasing rate do not move apart. -/
theorem contractive (h : T.Ok) (x y : Fin n → ℝ) (x0 y0 dt : ℝ) (hdt : 0 ≤ dt) (f : ℝ → ℝ) (hf : Antitone f)
    (hx : ∀ i, obj0 T x x0 dt f i = 0) (hy : ∀ i, obj0 T y y0 dt f i = 0) : |endV T x - endV T y| ≤ |x0 - y0| := by
  have q := quad h (x - y)
  have hend : endV T (x - y) = endV T x - endV T y := by
    simp only [endV, Pi.sub_apply, sub_mul, Finset.sum_sub_distrib]
  have hst : startV T (x - y) = ∑ i, (x i - y i) * T.endvals 0 i := rfl
  have e : ∀ i, T.mat.mulVec (x - y) i = (x0 - y0) * T.endvals 0 i + dt * T.w i * (f (x i) - f (y i)) := by
    intro i
    have a := hx i
    have b := hy i
    unfold obj0 at a b
    rw [Matrix.mulVec_sub, Pi.sub_apply]
    linarith
  have s : ∑ i, (x - y) i * T.mat.mulVec (x - y) i =
      (x0 - y0) * startV T (x - y) + dt * ∑ i, T.w i * ((x i - y i) * (f (x i) - f (y i))) := by
    rw [hst, Finset.mul_sum, Finset.mul_sum, ← Finset.sum_add_distrib]
    exact Finset.sum_congr rfl fun i _ => by rw [e, Pi.sub_apply]; ring
  have hneg : ∑ i, T.w i * ((x i - y i) * (f (x i) - f (y i))) ≤ 0 := by
    refine Finset.sum_nonpos fun i _ => mul_nonpos_of_nonneg_of_nonpos (h.wpos i).le ?_
    rcases le_total (x i) (y i) with hl | hl
    · exact mul_nonpos_of_nonpos_of_nonneg (by linarith) (by linarith [hf hl])
    · exact mul_nonpos_of_nonneg_of_nonpos (by linarith) (by linarith [hf hl])
  rw [← hend, ← sq_le_sq]
  nlinarith [sq_nonneg (startV T (x - y) - (x0 - y0)), mul_nonneg hdt (neg_nonneg.2 hneg)]

/-- **C76.** For a non-increasing rate the equations of a step have at most one solution. -/
theorem root_unique (h : T.Ok) (x y : Fin n → ℝ) (x0 dt : ℝ) (hdt : 0 ≤ dt) (f : ℝ → ℝ) (hf : Antitone f)
    (hx : ∀ i, obj0 T x x0 dt f i = 0) (hy : ∀ i, obj0 T y x0 dt f i = 0) : x = y := by
  have q := quad h (x - y)
  have e : ∀ i, T.mat.mulVec (x - y) i = dt * T.w i * (f (x i) - f (y i)) := by
    intro i
    have a := hx i
    have b := hy i
    unfold obj0 at a b
    rw [Matrix.mulVec_sub, Pi.sub_apply]
    linarith
  have hterm : ∀ i, (x - y) i * (dt * T.w i * (f (x i) - f (y i))) ≤ 0 := by
    intro i
    have hw := mul_nonneg hdt (h.wpos i).le
    rw [Pi.sub_apply]
    rcases le_total (x i) (y i) with hl | hl
    · exact mul_nonpos_of_nonpos_of_nonneg (by linarith) (mul_nonneg hw (by linarith [hf hl]))
    · exact mul_nonpos_of_nonneg_of_nonpos (by linarith) (mul_nonpos_of_nonneg_of_nonpos hw (by linarith [hf hl]))
  have hz : ∑ i, (x - y) i * (dt * T.w i * (f (x i) - f (y i))) = 0 := by
    apply le_antisymm (Finset.sum_nonpos fun i _ => hterm i)
    rw [Finset.sum_congr rfl fun i _ => show _ = (x - y) i * T.mat.mulVec (x - y) i by rw [e], q]
    positivity
  have hall := (Finset.sum_eq_zero_iff_of_nonpos fun i _ => hterm i).1 hz
  have hm : T.mat.mulVec (x - y) = 0 := by
    funext i
    rw [e, Pi.zero_apply]
    rcases mul_eq_zero.1 (hall i (Finset.mem_univ i)) with h0 | h0
    · rw [Pi.sub_apply, sub_eq_zero] at h0
      rw [h0, sub_self, mul_zero]
    · exact h0
  have : x - y = 0 := by
    by_contra hne
    exact (mat_isUnit h).ne_zero (Matrix.exists_mulVec_eq_zero_iff.1 ⟨x - y, hne, hm⟩)
  exact sub_eq_zero.1 this

/-- **C77.** A polynomial of degree less than `N` that solves the equation over the step solves the equations of the solver,
and its end value is the one read off. -/
theorem poly_exact (h : T.Ok) (p : ℝ[X]) (hp : p.degree < (n : WithBot ℕ)) (dt : ℝ) (f : ℝ → ℝ)
    (hode : ∀ t, (derivative p).eval t = dt * f (p.eval t)) :
    (∀ i, obj0 T (fun k => p.eval (T.nodes k)) (p.eval 0) dt f i = 0) ∧ endV T (fun k => p.eval (T.nodes k)) = p.eval 1 := by
  constructor
  · intro i
    have := mat_mulVec h p hp i
    unfold obj0
    rw [show T.mat.mulVec (fun k => p.eval (T.nodes k)) i = ∑ k, T.mat i k * p.eval (T.nodes k) from rfl, this,
      show T.endvals 0 i = evaluate (T.psi i) 0 from rfl, hode]
    ring
  · have := (end_values_exact T.nodes h.inj T.psi h.basis p hp).2
    rw [← this]
    exact Finset.sum_congr rfl fun i _ => mul_comm _ _

theorem choose_fin {x : Vec n} {v : Fin n → ℝ} (hv : ∀ i, x i = fin (v i)) (h : ∀ i, ∃ y, x i = fin y) :
    (fun i => (h i).choose) = v := by
  funext i
  exact (Ext.fin.inj ((hv i).symm.trans (h i).choose_spec)).symm

theorem bound_fin (x0 dt : ℝ) (f : ℝ → ℝ) (bad : Vec n → Vec n) (v : Fin n → ℝ) :
    bound T x0 dt f bad (fun i => fin (v i)) = fun i => fin (obj0 T v x0 dt f i) := by
  have h : ∀ i, ∃ y, (fun i => fin (v i) : Vec n) i = fin y := fun i => ⟨v i, rfl⟩
  unfold bound
  rw [dif_pos h, choose_fin (x := fun i => fin (v i)) (v := v) (fun i => rfl) h]

theorem out_fin (junk : Vec n → Ext) (v : Fin n → ℝ) : out T junk (fun i => fin (v i)) = fin (endV T v) := by
  have h : ∀ i, ∃ y, (fun i => fin (v i) : Vec n) i = fin y := fun i => ⟨v i, rfl⟩
  unfold out endV
  rw [dif_pos h]
  have e := choose_fin (x := fun i => fin (v i)) (v := v) (fun i => rfl) h
  congr 1
  exact Finset.sum_congr rfl fun i _ => by rw [congrFun e i]

/-- **C77.** A state of rest is returned as it is. -/
theorem equilibrium (h : T.Ok) (nm : Vec n → Ext) (hm : IsMaxNorm nm) (tol : ℝ) (z : Ext → Bool) (fuel : Nat)
    (solve : σ → Vec n → Vec n → Ext → σ × Vec n) (jac : σ) (bad : Vec n → Vec n) (junk : Vec n → Ext)
    (x0 dt : ℝ) (f : ℝ → ℝ) (hf : f x0 = 0) :
    stiffOdeSolve T nm tol z fuel solve jac bad junk x0 dt f = some (fin x0, true) := by
  have hp := poly_exact h (C x0) (degree_one_lt h.pos x0) 0 f (by intro t; simp)
  simp only [eval_C] at hp
  have h0 : ∀ i, obj0 T (fun _ => x0) x0 dt f i = 0 := by
    intro i
    have := hp.1 i
    unfold obj0 at this ⊢
    rw [hf]
    linarith
  unfold stiffOdeSolve
  rw [mul_one, root_stays nm hm _ z fuel _ solve jac _ fun i => by rw [bound_fin x0 dt f bad fun _ => x0]; exact congrArg fin (h0 i)]
  rw [Option.map_some, out_fin junk fun _ => x0, hp.2]

/-- **C76.** If the Newton solver meets its tolerance, the result is a number and exceeds the bound of `dissipative` by no more
than the tolerance times the nodal values.  The equations are taken to be NaN at vectors with NaN or infinities, and the
maximum norm to be NaN where its argument is. -/
theorem solve_dissipative (h : T.Ok) (nm : Vec n → Ext) (hm : IsMaxNorm nm) (hp : ∀ v : Vec n, (∃ i, v i = nan) → nm v = nan)
    (tol : ℝ) (ht : 0 ≤ tol) (z : Ext → Bool) (fuel : Nat) (hfuel : 7 ≤ fuel)
    (solve : σ → Vec n → Vec n → Ext → σ × Vec n) (jac : σ) (bad : Vec n → Vec n) (hbad : ∀ v, ∃ i, bad v i = nan)
    (junk : Vec n → Ext) (x0 dt : ℝ) (hdt : 0 ≤ dt) (f : ℝ → ℝ) (hf : ∀ y, y * f y ≤ 0) (r : Ext)
    (hr : stiffOdeSolve T nm tol z fuel solve jac bad junk x0 dt f = some (r, true)) :
    ∃ (y : ℝ) (x : Fin n → ℝ), r = fin y ∧ (∀ i, |obj0 T x x0 dt f i| ≤ tol) ∧ y = endV T x ∧
      y ^ 2 ≤ x0 ^ 2 + 2 * tol * ∑ i, |x i| := by
  unfold stiffOdeSolve at hr
  obtain ⟨⟨v, b⟩, h1, h2⟩ := Option.map_eq_some_iff.1 hr
  obtain ⟨h3, rfl⟩ := Prod.mk.inj h2
  have key := early_stop_nan nm hm hp (defaultTol tol) ht z fuel hfuel _ solve jac _ v h1
  have hv : ∀ i, ∃ y, v i = fin y := by
    by_contra hn
    obtain ⟨i, hi⟩ := hbad v
    obtain ⟨y, hy, -⟩ := key i
    unfold bound at hy
    rw [dif_neg hn, hi] at hy
    exact absurd hy (by simp)
  obtain ⟨x, hx⟩ := Classical.axiomOfChoice hv
  obtain rfl : v = fun i => fin (x i) := funext hx
  rw [bound_fin] at key
  have hres : ∀ i, |obj0 T x x0 dt f i| ≤ tol := by
    intro i
    obtain ⟨y, hy, hle⟩ := key i
    rw [Ext.fin.inj hy]
    exact hle
  rw [out_fin] at h3
  refine ⟨endV T x, x, h3.symm, hres, rfl, ?_⟩
  have b := balance h x x0 dt f
  have s : ∑ i, T.w i * (x i * f (x i)) ≤ 0 :=
    Finset.sum_nonpos fun i _ => mul_nonpos_of_nonneg_of_nonpos (h.wpos i).le (hf _)
  have s2 : ∑ i, x i * obj0 T x x0 dt f i ≤ tol * ∑ i, |x i| := by
    rw [Finset.mul_sum]
    refine Finset.sum_le_sum fun i _ => ?_
    refine (le_abs_self _).trans ?_
    rw [abs_mul, mul_comm]
    exact mul_le_mul_of_nonneg_right (hres i) (abs_nonneg _)
  nlinarith [sq_nonneg (startV T x - x0), mul_nonneg hdt (neg_nonneg.2 s)]

/-- **C76.** For linear decay the equations of a step have a solution, whatever the length of the step. -/
theorem linear_root (h : T.Ok) (x0 dt k : ℝ) (hdt : 0 ≤ dt) (hk : k ≤ 0) :
    ∃ x : Fin n → ℝ, ∀ i, obj0 T x x0 dt (fun y => k * y) i = 0 := by
  have hf : Antitone fun y : ℝ => k * y := fun a b hab => mul_le_mul_of_nonpos_left hab hk
  let L : (Fin n → ℝ) →ₗ[ℝ] (Fin n → ℝ) := (T.mat - Matrix.diagonal fun i => dt * T.w i * k).mulVecLin
  have hL : ∀ x i, L x i = obj0 T x 0 dt (fun y => k * y) i := by
    intro x i
    simp only [L, Matrix.mulVecLin_apply, Matrix.sub_mulVec, Pi.sub_apply, Matrix.mulVec_diagonal, obj0]
    ring
  have hinj : Function.Injective L := by
    rw [injective_iff_map_eq_zero]
    intro x hx
    refine root_unique h x 0 0 dt hdt _ hf (fun i => ?_) fun i => ?_
    · rw [← hL, hx, Pi.zero_apply]
    · rw [← hL, map_zero, Pi.zero_apply]
  obtain ⟨x, hx⟩ := (LinearMap.injective_iff_surjective.1 hinj) fun i => x0 * T.endvals 0 i
  refine ⟨x, fun i => ?_⟩
  have := congrFun hx i
  rw [hL] at this
  unfold obj0 at this ⊢
  linarith

/-- The result for linear rates with the two nodes of the default configuration. -/
theorem linear_two {T : Tab 2} (h : T.Ok) (x0 dt k : ℝ) (x : Fin 2 → ℝ)
    (hx : ∀ i, obj0 T x x0 dt (fun y => k * y) i = 0) :
    endV T x * (1 - 2 / 3 * (k * dt) + (k * dt) ^ 2 / 6) = x0 * (1 + k * dt / 3) := by
  obtain ⟨p, hp, hv⟩ := exists_poly h x
  obtain ⟨a, b, rfl⟩ : ∃ a b, p = C b * X + C a :=
    ⟨p.coeff 0, p.coeff 1, eq_X_add_C_of_degree_le_one ((degree_le_iff_coeff_zero p 1).2 fun m hm =>
      coeff_eq_zero_of_degree_lt (lt_of_lt_of_le hp (by exact_mod_cast Nat.succ_le_of_lt (by exact_mod_cast hm))))⟩
  obtain rfl : x = fun k => (C b * X + C a : ℝ[X]).eval (T.nodes k) := funext fun k => (hv k).symm
  have hend := (end_values_exact T.nodes h.inj T.psi h.basis _ hp).2
  have e1 : endV T (fun k => (C b * X + C a : ℝ[X]).eval (T.nodes k)) = a + b := by
    rw [show a + b = (C b * X + C a : ℝ[X]).eval 1 by simp; ring, ← hend]
    exact Finset.sum_congr rfl fun i _ => mul_comm _ _
  have hone := (end_values_exact T.nodes h.inj T.psi h.basis (C 1) (degree_one_lt two_pos 1)).1
  have hX := (end_values_exact T.nodes h.inj T.psi h.basis X (by rw [degree_X]; norm_num)).1
  have q0 := h.exact (C 1) (degree_one_lt (by norm_num) 1)
  have q1 := h.exact X (by rw [degree_X]; norm_num)
  have q2 := h.exact (X ^ 2) (by rw [degree_X_pow]; norm_num)
  simp only [eval_C, eval_X, eval_pow, Fin.sum_univ_two, mul_one] at hone hX q0 q1 q2
  rw [intervalIntegral.integral_const] at q0
  rw [integral_id] at q1
  rw [integral_pow] at q2
  norm_num at q0 q1 q2
  have m0 := mat_mulVec h _ hp 0
  have m1 := mat_mulVec h _ hp 1
  have r0 := hx 0
  have r1 := hx 1
  unfold obj0 at r0 r1
  rw [show T.mat.mulVec (fun k => (C b * X + C a : ℝ[X]).eval (T.nodes k)) 0 = ∑ k, T.mat 0 k * (C b * X + C a : ℝ[X]).eval (T.nodes k)
    from rfl, m0] at r0
  rw [show T.mat.mulVec (fun k => (C b * X + C a : ℝ[X]).eval (T.nodes k)) 1 = ∑ k, T.mat 1 k * (C b * X + C a : ℝ[X]).eval (T.nodes k)
    from rfl, m1] at r1
  rw [e1]
  have a0 : ∀ i, T.endvals 0 i = evaluate (T.psi i) 0 := fun i => rfl
  have a1 : ∀ i, endValues T.psi 0 i = evaluate (T.psi i) 0 := fun i => rfl
  simp only [a0, a1] at r0 r1 hone hX
  simp at r0 r1
  set e := evaluate (T.psi 0) 0
  set e' := evaluate (T.psi 1) 0
  set s := T.nodes 0
  set s' := T.nodes 1
  set w := T.w 0
  set w' := T.w 1
  have t1 : a - x0 + b - k * dt * (a + b / 2) = 0 := by
    linear_combination r0 + r1 - (a - x0) * hone - (b - k * dt * a) * q0 + k * dt * b * q1
  have t2 : b / 2 - k * dt * (a / 2 + b / 3) = 0 := by
    linear_combination s * r0 + s' * r1 - (a - x0) * hX - (b - k * dt * a) * q1 + k * dt * b * q2
  linear_combination (1 + k * dt / 3) * t1 - k * dt * t2

/-- **C78.** False: with the two nodes of the default configuration a quantity that decays at a constant rate changes sign
exactly if the step is longer than three decay times. -/
theorem sign_two {T : Tab 2} (h : T.Ok) (x0 dt k : ℝ) (hx0 : 0 < x0) (hdt : 0 ≤ dt) (hk : k ≤ 0) (x : Fin 2 → ℝ)
    (hx : ∀ i, obj0 T x x0 dt (fun y => k * y) i = 0) : endV T x < 0 ↔ k * dt < -3 := by
  have e := linear_two h x0 dt k x hx
  have hz : k * dt ≤ 0 := mul_nonpos_of_nonpos_of_nonneg hk hdt
  have hpos : 0 < 1 - 2 / 3 * (k * dt) + (k * dt) ^ 2 / 6 := by nlinarith [sq_nonneg (k * dt)]
  constructor
  · intro hneg
    have := mul_neg_of_neg_of_pos hneg hpos
    rw [e] at this
    have := (neg_of_mul_neg_right this hx0.le)
    linarith
  · intro hlt
    have : endV T x * (1 - 2 / 3 * (k * dt) + (k * dt) ^ 2 / 6) < 0 := by
      rw [e]; exact mul_neg_of_pos_of_neg hx0 (by linarith)
    exact neg_of_mul_neg_left this hpos.le

/-- **C78.** False also for short steps: a quantity of size at least one whose rate is below the tolerance over the step does
not move at all, however many steps are taken. -/
theorem stall (h : T.Ok) (nm : Vec n → Ext) (hm : IsMaxNorm nm) (tol : ℝ) (z : Ext → Bool) (fuel : Nat)
    (solve : σ → Vec n → Vec n → Ext → σ × Vec n) (jac : σ) (bad : Vec n → Vec n) (junk : Vec n → Ext)
    (x0 dt : ℝ) (f : ℝ → ℝ) (hx0 : 1 ≤ |x0|) (hf : |dt * f x0| ≤ tol) :
    stiffOdeSolve T nm tol z fuel solve jac bad junk x0 dt f = some (fin x0, true) := by
  have hp := poly_exact h (C x0) (degree_one_lt h.pos x0) 0 f (by intro t; simp)
  simp only [eval_C] at hp
  have hw : ∀ i, T.w i ≤ 1 := by
    intro i
    have := h.exact (C 1) (degree_one_lt (by have := h.pos; omega) 1)
    simp at this
    rw [← this]
    exact Finset.single_le_sum (fun j _ => (h.wpos j).le) (Finset.mem_univ i)
  have h0 : ∀ i, |obj0 T (fun _ => x0) x0 dt f i| ≤ tol := by
    intro i
    have e : obj0 T (fun _ => x0) x0 dt f i = -(T.w i * (dt * f x0)) := by
      have := hp.1 i
      unfold obj0 at this ⊢
      linarith
    rw [e, abs_neg, abs_mul, abs_of_pos (h.wpos i)]
    calc T.w i * |dt * f x0| ≤ 1 * |dt * f x0| := mul_le_mul_of_nonneg_right (hw i) (abs_nonneg _)
      _ ≤ tol := by rw [one_mul]; exact hf
  unfold stiffOdeSolve
  have key := within_tolerance_partial nm hm tol z fuel (bound T x0 dt f bad) solve jac (fun _ => fin x0)
    (fun i => ⟨_, by rw [bound_fin x0 dt f bad fun _ => x0], h0 i⟩) (fun i => by simp) ⟨⟨0, h.pos⟩, hx0⟩
  rw [mul_one, key]
  rw [Option.map_some, out_fin junk fun _ => x0, hp.2]

/-! ### Instances -/

theorem tab_ok (n : Nat) (hn : 0 < n) : ∃ T : Tab n, T.Ok := by
  obtain ⟨e, he⟩ := Verif.Legendre.eigenvalues_exist n
  obtain ⟨T, _, _, h, _⟩ := tab_exists n hn e he
  exact ⟨T, h⟩

/-- **C78.** False: one step of length six decay times with the default tables gives minus one eleventh. -/
theorem sign_false : ∃ (T : Tab 2) (x : Fin 2 → ℝ), T.Ok ∧ (∀ i, obj0 T x 1 1 (fun y => -6 * y) i = 0) ∧
    endV T x = -(1 / 11) := by
  obtain ⟨T, h⟩ := tab_ok 2 two_pos
  obtain ⟨x, hx⟩ := linear_root h 1 1 (-6) zero_le_one (by norm_num)
  refine ⟨T, x, h, hx, ?_⟩
  have := linear_two h 1 1 (-6) x hx
  norm_num at this
  linarith

/-- `dissipative`, `contractive` and `root_unique` apply to linear decay for every number of nodes. -/
example (n : Nat) (hn : 0 < n) : ∃ (T : Tab n) (x y : Fin n → ℝ), T.Ok ∧ x ≠ y ∧ |endV T x| ≤ 2 ∧ |endV T x - endV T y| ≤ 1 := by
  obtain ⟨T, h⟩ := tab_ok n hn
  obtain ⟨x, hx⟩ := linear_root h 2 100 (-3) (by norm_num) (by norm_num)
  obtain ⟨y, hy⟩ := linear_root h 1 100 (-3) (by norm_num) (by norm_num)
  have hf : Antitone fun y : ℝ => -3 * y := fun a b hab => by simp only; linarith
  refine ⟨T, x, y, h, ?_, ?_, ?_⟩
  · rintro rfl
    have : ∀ i, T.endvals 0 i = 0 := by
      intro i
      have a := hx i
      have b := hy i
      unfold obj0 at a b
      linarith
    have e := (end_values_exact T.nodes h.inj T.psi h.basis (C 1) (degree_one_lt h.pos 1)).1
    have e' : ∀ i, endValues T.psi 0 i = 0 := this
    simp [e'] at e
  · exact (dissipative h x 2 100 (by norm_num) _ (fun y => by nlinarith [sq_nonneg y]) hx).trans (by norm_num)
  · exact (contractive h x y 2 1 100 (by norm_num) _ hf hx hy).trans (by norm_num)

/-- `poly_exact`: constant growth, with at least two nodes. -/
example (T : Tab 3) (h : T.Ok) : endV T (fun k => (C 5 * X + C 7 : ℝ[X]).eval (T.nodes k)) = 12 := by
  have := (poly_exact h (C 5 * X + C 7) (lt_of_le_of_lt degree_linear_le (by norm_num)) 10 (fun _ => 1 / 2)
    (by intro t; simp; norm_num)).2
  rw [this]
  simp
  norm_num

/-- `solve_dissipative` and `stall`: a run that meets its tolerance. -/
example (T : Tab 2) (h : T.Ok) (nm : Vec 2 → Ext) (hm : IsMaxNorm nm) (solve : Unit → Vec 2 → Vec 2 → Ext → Unit × Vec 2) :
    stiffOdeSolve T nm (6 / 1000000) (fun _ => false) 7 solve () (fun _ _ => nan) (fun _ => nan) 2 (1 / 1000000) (fun y => -y) =
      some (fin 2, true) :=
  stall h nm hm _ _ _ _ _ _ _ _ _ _ (by norm_num) (by norm_num [abs_of_nonneg])

end

end Verif.Stiff
