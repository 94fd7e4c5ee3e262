import Verif.Newton.Forcing
import Verif.Krylov.Exist
import Verif.Krylov.Solve
import Mathlib.Analysis.InnerProductSpace.PiL2

/-! # The Newton solver on systems of linear equations -/

namespace Verif.Newton

open Ext Verif.Krylov

attribute [local instance] Classical.propDecidable

noncomputable section

variable {n : Nat}

/-- Vectors with the Euclidean norm. -/
abbrev Eu (n : Nat) := EuclideanSpace ℝ (Fin n)

abbrev up (x : Fin n → ℝ) : Eu n := WithLp.toLp 2 x

abbrev down (x : Eu n) : Fin n → ℝ := WithLp.ofLp x

/-- `KrylovJacobian`, newton_krylov.cpp:9-52, as the linear solver of `nonlinSolve`: its memory is `outer_v`.  `om` is the
difference step `omega`, which `update` derives from `x` and `Fx`; where those are not numbers the outcome is left open
(`junkStep`). -/
def krylov (qr : Nat → Nat → (Nat → Nat → ℝ) → (Nat → Nat → ℝ) × (Nat → Nat → ℝ))
    (lsq : Nat → (Nat → Nat → ℝ) → (Nat → ℝ) → Nat → ℝ) (f : Eu n → Eu n) (om : Eu n → Eu n → ℝ) (junk : Eu n) (mEPS : ℝ)
    (junkStep : List (Eu n) → Vec n → Vec n → Ext → List (Eu n) × Vec n) (outer : List (Eu n)) (x Fx : Vec n) (tol : Ext) :
    List (Eu n) × Vec n :=
  if h : ∃ r : (Fin n → ℝ) × (Fin n → ℝ) × ℝ, x = real r.1 ∧ Fx = real r.2.1 ∧ tol = fin r.2.2 then
    let r := h.choose
    let d := jacSolve qr lsq f (up r.1) (up r.2.1) (om (up r.1) (up r.2.1)) junk mEPS r.2.2 outer (up r.2.1)
    (d.2, real (down d.1))
  else junkStep outer x Fx tol

theorem real_inj {x y : Fin n → ℝ} (h : real x = real y) : x = y := funext fun i => Ext.fin.inj (congrFun h i)

variable {qr : Nat → Nat → (Nat → Nat → ℝ) → (Nat → Nat → ℝ) × (Nat → Nat → ℝ)}
  {lsq : Nat → (Nat → Nat → ℝ) → (Nat → ℝ) → Nat → ℝ}

theorem krylov_real (f : Eu n → Eu n) (om : Eu n → Eu n → ℝ) (junk : Eu n) (mEPS : ℝ)
    (junkStep : List (Eu n) → Vec n → Vec n → Ext → List (Eu n) × Vec n) (outer : List (Eu n)) (x y : Fin n → ℝ) (τ : ℝ) :
    krylov qr lsq f om junk mEPS junkStep outer (real x) (real y) (fin τ) =
      ((jacSolve qr lsq f (up x) (up y) (om (up x) (up y)) junk mEPS τ outer (up y)).2,
        real (down (jacSolve qr lsq f (up x) (up y) (om (up x) (up y)) junk mEPS τ outer (up y)).1)) := by
  unfold krylov
  have h : ∃ r : (Fin n → ℝ) × (Fin n → ℝ) × ℝ, real x = real r.1 ∧ real y = real r.2.1 ∧ fin τ = fin r.2.2 :=
    ⟨(x, y, τ), rfl, rfl, rfl⟩
  rw [dif_pos h]
  have k1 := real_inj h.choose_spec.1
  have k2 := real_inj h.choose_spec.2.1
  have k3 := Ext.fin.inj h.choose_spec.2.2
  simp only
  rw [← k1, ← k2, ← k3]

theorem normSq_up (y : Fin n → ℝ) : ‖up y‖ ^ 2 = ∑ i, y i ^ 2 := by
  rw [EuclideanSpace.norm_eq, Real.sq_sqrt (Finset.sum_nonneg fun i _ => sq_nonneg _)]
  exact Finset.sum_congr rfl fun i _ => by rw [Real.norm_eq_abs, sq_abs]

theorem norm_up (y : Fin n → ℝ) : ‖up y‖ = Real.sqrt (∑ i, y i ^ 2) := by
  rw [← normSq_up, Real.sqrt_sq (norm_nonneg _)]

/-- The residual `L x + c`. -/
def affine (L : Eu n →ₗ[ℝ] Eu n) (c : Eu n) (x : Fin n → ℝ) : Fin n → ℝ := down (L (up x) + c)

variable (L : Eu n →ₗ[ℝ] Eu n) (c : Eu n) (om : Eu n → Eu n → ℝ) (junk : Eu n) (mEPS : ℝ)
  (junkStep : List (Eu n) → Vec n → Vec n → Ext → List (Eu n) × Vec n)

theorem jacSolve_decreases (hqr : IsQR qr) (hl : IsLsq lsq) (hm : 0 ≤ mEPS) (o : ℝ) (ho : o ≠ 0) (x : Eu n) (τ : ℝ)
    (ht : 0 ≤ τ) (outer : List (Eu n)) :
    ‖(L x + c) - L (jacSolve qr lsq (fun x => L x + c) x (L x + c) o junk mEPS τ outer (L x + c)).1‖ ≤ ‖L x + c‖ := by
  have hv : jacVec (fun x => L x + c) x (L x + c) o = L := funext fun v => jacVec_affine L c x o ho v
  unfold jacSolve
  rw [hv]
  refine (lgmres_decreases hqr hl L junk mEPS τ hm ht 30 10 (L x + c) 1 (0, outer)).trans ?_
  rw [map_zero, sub_zero]

/-- A pass never makes the residual of a linear system larger; the first one reduces it by the factor asked for. -/
theorem pass_affine (hqr : IsQR qr) (hl : IsLsq lsq) (hm : 0 ≤ mEPS) (ho : ∀ x y, om x y ≠ 0) {F : Vec n → Vec n}
    (hF : Extends F (affine L c)) (z : Ext → Bool) (fuel : Nat) (hf : 7 ≤ fuel) (s s' : Loop n (List (Eu n))) (x : Fin n → ℝ)
    (hx : s.x = real x) (hs : s.Fx = F s.x) (he : Unit9 s.eta) (hw : Below s.Fx s.FxNorm)
    (h : pass z fuel F (krylov qr lsq (fun x => L x + c) om junk mEPS junkStep) s = some s') :
    ∃ x', s'.x = real x' ∧ ‖L (up x') + c‖ ≤ ‖L (up x) + c‖ ∧
      (s.jac = [] → Function.Injective L → n ≤ 30 → ¬ Breakdown L mEPS (L (up x) + c) →
        ∀ e, s.eta = fin e → ‖L (up x') + c‖ ≤ e * ‖L (up x) + c‖) := by
  obtain ⟨e, e0, e1, hee⟩ := he
  obtain ⟨τ, hτ, t0, t1, t2⟩ := asked s.Fx s.eta s.FxNorm ⟨e, e0, e1, hee⟩ hw
  have hτe : ∀ w, s.FxNorm = fin w → τ ≤ e * w := by
    intro w hw'
    rw [hee, hw'] at hτ
    by_cases hlt : e * w < e
    · rw [show (fin e).min ((fin e).mul (fin w)) = fin (e * w) by simp [Ext.min, Ext.mul, lt, hlt]] at hτ
      exact (Ext.fin.inj hτ).symm.le
    · rw [show (fin e).min ((fin e).mul (fin w)) = fin e by simp [Ext.min, Ext.mul, lt, hlt]] at hτ
      rw [← Ext.fin.inj hτ]
      exact not_lt.1 hlt
  have hτ1 : τ ≤ e := by
    rw [hee] at hτ
    unfold Ext.min at hτ
    split_ifs at hτ with hlt
    · rw [hτ] at hlt; exact le_of_lt hlt
    · exact (Ext.fin.inj hτ).symm.le
  have hFx : s.Fx = real (affine L c x) := by rw [hs, hx, hF.real]
  unfold pass at h
  simp only [hτ] at h
  rw [hx, hFx, krylov_real] at h
  have hb : up (affine L c x) = L (up x) + c := rfl
  rw [hb] at h
  set d := (jacSolve qr lsq (fun x => L x + c) (up x) (L (up x) + c) (om (up x) (L (up x) + c)) junk mEPS τ s.jac
    (L (up x) + c)) with hd
  have hdec : ‖(L (up x) + c) - L d.1‖ ≤ ‖L (up x) + c‖ :=
    jacSolve_decreases L c junk mEPS hqr hl hm (om (up x) (L (up x) + c)) (ho _ _) (up x) τ t0 s.jac
  have hneg : (fun i => (real (down d.1) i).neg) = real fun i => -(down d.1 i) := rfl
  rw [hneg] at h
  have hfull : L (up fun i => x i + 1 * -(down d.1 i)) + c = (L (up x) + c) - L d.1 := by
    rw [show (up fun i => x i + 1 * -(down d.1 i)) = up x - d.1 by
      ext i; simp; ring, map_sub]
    abel
  obtain ⟨σ, h1, s0, s1, s2, -⟩ := step_length hF z fuel hf x fun i => -(down d.1 i)
  have hx' : s'.x = real fun i => x i + σ * -(down d.1 i) := by
    rw [h1, Option.map_some] at h
    rw [← Option.some.inj h]
  refine ⟨_, hx', ?_, ?_⟩
  · rcases s2 with rfl | s2
    · rw [hfull]; exact hdec
    · refine (sq_le_sq₀ (norm_nonneg _) (norm_nonneg _)).1 ?_
      have k1 := normSq_up (affine L c fun i => x i + σ * -(down d.1 i))
      have k2 := normSq_up (affine L c x)
      change ‖L (up fun i => x i + σ * -(down d.1 i)) + c‖ ^ 2 = _ at k1
      change ‖L (up x) + c‖ ^ 2 = _ at k2
      rw [k1, k2]
      refine s2.trans (mul_le_of_le_one_left (Finset.sum_nonneg fun i _ => sq_nonneg _) ?_)
      linarith
  · intro hj hL hn hB e' he'
    obtain rfl : e = e' := Ext.fin.inj (hee.symm.trans he')
    have hfin : Module.finrank ℝ (Eu n) ≤ 30 := by rw [finrank_euclideanSpace, Fintype.card_fin]; exact hn
    rcases newton_affine hqr hl L hL junk mEPS τ hm t0 hfin c (up x) (om (up x) (L (up x) + c)) (ho _ _) with hk | hk
    · rw [hj] at hd
      rw [← hd, map_sub] at hk
      have hk' : ‖(L (up x) + c) - L d.1‖ ≤ e * ‖L (up x) + c‖ := by
        have : L (up x) - L d.1 + c = (L (up x) + c) - L d.1 := by abel
        rw [this] at hk
        refine hk.trans ?_
        obtain ⟨w, hw1, hw2⟩ := hw.2 _ hFx
        rw [← norm_up] at hw2
        change w ≤ ‖L (up x) + c‖ at hw2
        rcases le_total 1 ‖L (up x) + c‖ with hle | hle
        · rw [max_eq_right hle]
          exact mul_le_mul_of_nonneg_right hτ1 (norm_nonneg _)
        · rw [max_eq_left hle, mul_one]
          exact (hτe w hw1).trans (mul_le_mul_of_nonneg_left hw2 e0)
      -- the full step is taken
      have hone : lineSearch z fuel F (real x) (real (affine L c x)) (real fun i => -(down d.1 i)) =
          some (axpy (real x) (fin 1) (real fun i => -(down d.1 i)),
            F (axpy (real x) (fin 1) (real fun i => -(down d.1 i)))) := by
        refine full_step z fuel F _ _ _ ?_
        rw [axpy_real, hF.real, squaredNorm_real, squaredNorm_real]
        have k1 := normSq_up (affine L c fun i => x i + 1 * -(down d.1 i))
        have k2 := normSq_up (affine L c x)
        change ‖L (up fun i => x i + 1 * -(down d.1 i)) + c‖ ^ 2 = _ at k1
        change ‖L (up x) + c‖ ^ 2 = _ at k2
        rw [← k1, ← k2, hfull]
        simp only [le, sub, Ext.mul, neg, add]
        have h2 : ‖(L (up x) + c) - L d.1‖ ^ 2 ≤ (e * ‖L (up x) + c‖) ^ 2 :=
          (sq_le_sq₀ (norm_nonneg _) (by positivity)).2 hk'
        have h3 : e ^ 2 ≤ 0.9999 ^ 2 := (sq_le_sq₀ e0 (by norm_num)).2 e1
        have h4 := mul_le_mul_of_nonneg_right h3 (sq_nonneg ‖L (up x) + c‖)
        rw [mul_pow] at h2
        norm_num at h4 ⊢
        nlinarith [sq_nonneg ‖L (up x) + c‖]
      rw [hone, axpy_real] at h1
      have heq : (fun i => x i + 1 * -(down d.1 i)) = fun i => x i + σ * -(down d.1 i) :=
        real_inj (congrArg Prod.fst (Option.some.inj h1))
      rw [← heq, hfull]
      exact hk'
    · exact absurd hk hB

theorem loop_affine (hqr : IsQR qr) (hl : IsLsq lsq) (hm : 0 ≤ mEPS) (ho : ∀ x y, om x y ≠ 0) {F : Vec n → Vec n}
    (hF : Extends F (affine L c)) (nm : Vec n → Ext) (T : Tol) (z : Ext → Bool) (fuel : Nat) (hf : 7 ≤ fuel) (k : Nat) :
    ∀ (s : Loop n (List (Eu n))) (x : Fin n → ℝ), s.x = real x → s.Fx = F s.x → Unit9 s.eta → Below s.Fx s.FxNorm →
    ∃ x' b, loop nm T z fuel F (krylov qr lsq (fun x => L x + c) om junk mEPS junkStep) k s = some (real x', b) ∧
      ‖L (up x') + c‖ ≤ ‖L (up x) + c‖ := by
  induction k with
  | zero => intro s x hx _ _ _; exact ⟨x, false, by rw [loop, hx], le_rfl⟩
  | succ k ih =>
    intro s x hx hs he hw
    rw [loop]
    split_ifs with hc
    · exact ⟨x, true, by rw [hx], le_rfl⟩
    · obtain ⟨s', hp, -⟩ := pass_spec z fuel hf F (krylov qr lsq (fun x => L x + c) om junk mEPS junkStep)
        { s with f0 := (check nm T s.f0 s.Fx s.x fun _ => fin INF).2 } hs
      obtain ⟨x', hx', hle, -⟩ := pass_affine L c om junk mEPS junkStep hqr hl hm ho hF z fuel hf
        { s with f0 := (check nm T s.f0 s.Fx s.x fun _ => fin INF).2 } s' x hx hs he hw hp
      obtain ⟨a, b, d⟩ := pass_keeps z fuel hf F (krylov qr lsq (fun x => L x + c) om junk mEPS junkStep)
        { s with f0 := (check nm T s.f0 s.Fx s.x fun _ => fin INF).2 } s' hs he hw hp
      obtain ⟨x'', b', h1, h2⟩ := ih s' x' hx' a b d
      exact ⟨x'', b', by rw [hp]; exact h1, h2.trans hle⟩

/-- `update_diff_step`, newton_krylov.cpp:9-13; the norms are maximum norms. -/
def diffStep (rdiff : ℝ) (x f : Eu n) : ℝ := rdiff * max 1 ‖down x‖ / max 1 ‖down f‖

theorem diffStep_ne {rdiff : ℝ} (h : 0 < rdiff) (x f : Eu n) : diffStep rdiff x f ≠ 0 := by
  unfold diffStep
  positivity

/-- **C85.** The Newton-Krylov solver on a system of linear equations: it returns a point at which the residual is not larger
than at the start; and for a regular system of at most thirty unknowns it either returns the start, because that satisfies the
tolerances, or reduces the residual to a thousandth at least. -/
theorem newton_linear (hqr : IsQR qr) (hl : IsLsq lsq) (hm : 0 ≤ mEPS) (rdiff : ℝ) (hr : 0 < rdiff) {F : Vec n → Vec n}
    (hF : Extends F (affine L c)) (nm : Vec n → Ext) (hn : IsMaxNorm nm) (hp : ∀ v, Weight (nm v)) (T : Tol)
    (z : Ext → Bool) (fuel : Nat) (hf : 7 ≤ fuel) (x : Fin n → ℝ) :
    ∃ x' b, nonlinSolve nm T z fuel F (krylov qr lsq (fun x => L x + c) (diffStep rdiff) junk mEPS junkStep) [] (fun i => fin (x i)) =
        some (fun i => fin (x' i), b) ∧ ‖L (up x') + c‖ ≤ ‖L (up x) + c‖ ∧
      (Function.Injective L → n ≤ 30 → ¬ Breakdown L mEPS (L (up x) + c) →
        x' = x ∧ b = true ∨ ‖L (up x') + c‖ ≤ 1 / 1000 * ‖L (up x) + c‖) := by
  unfold nonlinSolve
  rw [show 3 * (n + 1) = (3 * n + 2) + 1 by ring, loop]
  split_ifs with hc
  · exact ⟨x, true, rfl, le_rfl, fun _ _ _ => .inl ⟨rfl, rfl⟩⟩
  · have he : Unit9 (fin 1e-3) := ⟨1e-3, by norm_num, by norm_num, rfl⟩
    have hw := below_max nm hn hp (F (real x))
    obtain ⟨s', hps, -⟩ := pass_spec z fuel hf F (krylov qr lsq (fun x => L x + c) (diffStep rdiff) junk mEPS junkStep)
      ⟨real x, F (real x), nm (F (real x)), fin 1e-3,
        (check nm T (fin 0) (F (real x)) (real x) fun _ => fin INF).2, []⟩ rfl
    obtain ⟨x', hx', hle, hfac⟩ := pass_affine L c (diffStep rdiff) junk mEPS junkStep hqr hl hm (diffStep_ne hr) hF z fuel hf _ s' x rfl rfl he hw hps
    obtain ⟨a, b, d⟩ := pass_keeps z fuel hf F _ _ s' rfl he hw hps
    obtain ⟨x'', b', h1, h2⟩ := loop_affine L c (diffStep rdiff) junk mEPS junkStep hqr hl hm (diffStep_ne hr) hF nm T z fuel hf (3 * n + 2) s' x' hx' a b d
    refine ⟨x'', b', ?_, h2.trans hle, fun hL h30 hB => .inr (h2.trans ?_)⟩
    · erw [hps]
      exact h1
    · have := hfac rfl hL h30 hB 1e-3 rfl
      norm_num at this ⊢
      exact this

/-- An instance of every hypothesis: two unknowns, a linear part that is neither symmetric nor normal. -/
example : ∃ (qr : _) (lsq : _) (F : Vec 2 → Vec 2) (nm : Vec 2 → Ext), IsQR qr ∧ IsLsq lsq ∧ IsMaxNorm nm ∧
    ∀ (T : Tol) (z : Ext → Bool) (x : Fin 2 → ℝ), ∃ x' b,
      nonlinSolve nm T z 7 F (krylov qr lsq (fun x => Matrix.toEuclideanLin !![1, 2; 0, 3] x + up ![4, 5]) (diffStep (1 / 8)) 0 0
        fun o x _ _ => (o, x)) [] (fun i => fin (x i)) = some (fun i => fin (x' i), b) ∧
      (x' = x ∧ b = true ∨ ‖Matrix.toEuclideanLin !![1, 2; 0, 3] (up x') + up ![4, 5]‖ ≤
        1 / 1000 * ‖Matrix.toEuclideanLin !![1, 2; 0, 3] (up x) + up ![4, 5]‖) := by
  obtain ⟨qr, hqr⟩ := isQR_exists
  obtain ⟨lsq, hl⟩ := isLsq_exists
  obtain ⟨nm, hn, hj⟩ := isMaxNorm_exists (n := 2) (by norm_num) fun _ => nan
  obtain ⟨F, hF⟩ := extends_exists (affine (Matrix.toEuclideanLin !![1, 2; 0, 3]) (up ![4, 5]))
  refine ⟨qr, lsq, F, nm, hqr, hl, hn, fun T z x => ?_⟩
  have hp : ∀ v, Weight (nm v) := by
    intro v
    by_cases h : ∃ i, v i = nan
    · exact .inl (hj v h)
    · obtain ⟨i, hi⟩ := hn.att v fun i hi => h ⟨i, hi⟩
      rw [hi]
      cases hv : v i with
      | fin r => exact .inr (.inr ⟨|r|, abs_nonneg r, rfl⟩)
      | nan => exact .inl rfl
      | pinf => exact .inr (.inl rfl)
      | ninf => exact .inr (.inl rfl)
  obtain ⟨x', b, h1, -, h2⟩ := newton_linear (Matrix.toEuclideanLin !![1, 2; 0, 3]) (up ![4, 5]) 0 0 (fun o x _ _ => (o, x))
    hqr hl le_rfl (1 / 8) (by norm_num) hF nm hn hp T z 7 le_rfl x
  refine ⟨x', b, h1, h2 ?_ (by norm_num) (no_breakdown _ _)⟩
  rw [injective_iff_map_eq_zero]
  intro v hv
  have h0 := congrArg (fun w : EuclideanSpace ℝ (Fin 2) => w 0) hv
  have h1 := congrArg (fun w : EuclideanSpace ℝ (Fin 2) => w 1) hv
  simp [Matrix.toEuclideanLin, Matrix.mulVec, dotProduct, Fin.sum_univ_two] at h0 h1
  ext i
  fin_cases i
  · simp only [h1] at h0; simpa using h0
  · simpa using h1

end

end Verif.Newton
