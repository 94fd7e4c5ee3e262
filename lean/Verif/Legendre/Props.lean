import Verif.Legendre.Eigen
import Mathlib.Order.Preorder.Finite

/-!
# Gauss–Legendre nodes and weights (C26)
-/

namespace Verif.Legendre

open Polynomial

theorem symPlus_id {n : Nat} (w : Fin n → ℝ) (h : ∀ i, w i.rev = w i) : symPlus w = w := by
  unfold symPlus
  generalize List.finRange n = l
  induction l with
  | nil => rfl
  | cons i l ih =>
    rw [List.foldl_cons, show (w i + w i.rev) / 2 = w i by rw [h]; ring, Function.update_eq_self]
    exact ih

theorem symMinus_id {n : Nat} (x : Fin n → ℝ) (h : ∀ i, x i.rev = -x i) : symMinus x = x := by
  unfold symMinus
  generalize List.finRange n = l
  induction l with
  | nil => rfl
  | cons i l ih =>
    rw [List.foldl_cons, show (x i - x i.rev) / 2 = x i by rw [h]; ring, Function.update_eq_self]
    exact ih

/-- The increasing roots are symmetric about 0. -/
theorem roots_symm {n : Nat} {x : Fin n → ℝ} (h : Roots x) (hm : StrictMono x) (i : Fin n) :
    x i.rev = -x i := by
  classical
  -- the set of roots has exactly the n values x
  have hset : ∀ y, (P n).eval y = 0 → ∃ k, x k = y := by
    intro y hy
    rw [P_eq_nodal h, eval_mul, eval_C, Lagrange.eval_nodal] at hy
    have h1 := (mul_eq_zero.1 hy).resolve_left (P_deg n).1.2.ne'
    obtain ⟨k, _, hk⟩ := Finset.prod_eq_zero_iff.1 h1
    exact ⟨k, by linarith⟩
  have hneg : ∀ k, ∃ j, x j = -x k := fun k => hset _ (by rw [(P_neg n (x k)).1, h.root k, mul_zero])
  choose σ hσ using hneg
  -- σ is antitone, so σ ∘ rev is strictly monotone on Fin n, hence the identity
  have hanti : StrictMono fun i : Fin n => σ i.rev := by
    intro a b hab
    rw [← hm.lt_iff_lt, hσ, hσ, neg_lt_neg_iff, hm.lt_iff_lt, Fin.rev_lt_rev]
    exact hab
  have hid : (fun i : Fin n => σ i.rev) = id := hanti.eq_id
  have := congrFun hid i.rev
  simp only [Fin.rev_rev, id] at this
  rw [← this, hσ]

/-- C26.  With the exact eigenvalues of the companion matrix, `leggauss(deg)` (`deg ≥ 1`) returns
increasing nodes, symmetric about 0, with positive symmetric weights of sum 2, and the quadrature is
exact for every polynomial of degree `< 2 deg`. -/
theorem leggauss_exact (n : Nat) (hn : 0 < n) (e : Fin n → ℝ)
    (he : IsEigenvalues (legcompanion n) e) :
    ∃ x w, leggauss n e = some (x, w) ∧ StrictMono x ∧ (∀ k, x k.rev = -x k) ∧
      (∀ k, 0 < w k) ∧ (∀ k, w k.rev = w k) ∧ ∑ k, w k = 2 ∧
      ∀ f : ℝ[X], f.degree < (2 * n : Nat) →
        ∑ k, w k * f.eval (x k) = ∫ t in (-1 : ℝ)..1, f.eval t := by
  obtain ⟨hR, hM⟩ := eigenvalues_roots n hn e he
  have hsym := roots_symm hR hM
  obtain ⟨c, hc, hlam⟩ := lam_formula hR
  -- the three series
  have hser : series (n + 1) (fun k => if k = n then (1 : ℝ) else 0) = P n := by
    unfold series
    rw [Finset.sum_eq_single n]
    · simp
    · intro b _ hb; simp [hb]
    · simp
  have hser' : series n (fun k => if k + 1 = n then (1 : ℝ) else 0) = P (n - 1) := by
    unfold series
    rw [Finset.sum_eq_single (n - 1)]
    · simp only [if_pos (show n - 1 + 1 = n by omega)]; simp
    · intro b _ hb; simp only [if_neg (show ¬ b + 1 = n by omega)]; simp
    · intro h; exact absurd (Finset.mem_range.2 (by omega)) h
  obtain ⟨d, hd, hd'⟩ := (legder_correct (n + 1) (fun k => if k = n then (1 : ℝ) else 0)).2 (by omega)
  rw [hser, Nat.add_sub_cancel] at hd'
  have hprod : ∀ k, (P (n - 1)).eval (e k) * (derivative (P n)).eval (e k) ≠ 0 := by
    intro k h0
    have := hlam k
    rw [h0, mul_zero] at this
    exact hc.ne this
  have hfm0 : ∀ k, (P (n - 1)).eval (e k) ≠ 0 := fun k => left_ne_zero_of_mul (hprod k)
  have hdf0 : ∀ k, (derivative (P n)).eval (e k) ≠ 0 := fun k => right_ne_zero_of_mul (hprod k)
  set fm : Fin n → ℝ := fun k => (P (n - 1)).eval (e k) with hfm
  set df : Fin n → ℝ := fun k => (derivative (P n)).eval (e k) with hdf
  have k0 : Fin n := ⟨0, hn⟩
  have hF : 0 < ‖fm‖ := norm_pos_iff.2 fun h => hfm0 k0 (congrFun h k0)
  have hD : 0 < ‖df‖ := norm_pos_iff.2 fun h => hdf0 k0 (congrFun h k0)
  set w0 : Fin n → ℝ := fun k => 1 / (fm k / ‖fm‖ * (df k / ‖df‖)) with hw0
  set s := ‖fm‖ * ‖df‖ / c with hs
  have hs0 : 0 < s := by positivity
  have hw : ∀ k, w0 k = s * lam e k := by
    intro k
    have h1 := hlam k
    have := hfm0 k; have := hdf0 k
    rw [hw0, hs, ← h1]
    simp only [hfm, hdf]
    have hl := (lam_pos hR k).ne'
    field_simp
  have hwsym : ∀ k, w0 k.rev = w0 k := by
    intro k
    simp only [hw0, hfm, hdf, hsym, (P_neg (n - 1) (e k)).1, P_deriv_neg]
    congr 1
    have : (-1 : ℝ) ^ (n - 1) * -(-1) ^ n = 1 := by
      obtain ⟨m, rfl⟩ : ∃ m, n = m + 1 := ⟨n - 1, by omega⟩
      rw [Nat.add_sub_cancel, pow_succ]
      have : ((-1 : ℝ) ^ m) * (-1) ^ m = 1 := by rw [← mul_pow]; simp
      linear_combination this
    rw [div_mul_div_comm, div_mul_div_comm]
    congr 1
    linear_combination ((P (n - 1)).eval (e k) * (derivative (P n)).eval (e k)) * this
  have hsum : ∑ k, w0 k = s * 2 := by
    rw [← lam_sum hR, Finset.mul_sum]
    exact Finset.sum_congr rfl fun k _ => hw k
  have hfin : ∀ k, w0 k * (2 / ∑ i, w0 i) = lam e k := by
    intro k; rw [hsum, hw]; field_simp
  refine ⟨e, lam e, ?_, hM, hsym, lam_pos hR, ?_, lam_sum hR, fun f hf => (gauss_exact hR f hf).symm⟩
  · -- run the model
    have v1 : legvals (n + 1) (fun k => if k = n then (1 : ℝ) else 0) e = some fun _ => 0 := by
      unfold legvals
      rw [if_neg (by omega)]
      congr 1; funext k
      rw [legval_correct, if_neg (by omega), hser, hR.root k]; rfl
    have v2 : legvals n d e = some df := by
      unfold legvals
      rw [if_neg (by omega)]
      congr 1; funext k
      rw [legval_correct, if_neg (by omega), hd']; rfl
    have v3 : legvals n (fun k => if k + 1 = n then (1 : ℝ) else 0) e = some fm := by
      unfold legvals
      rw [if_neg (by omega)]
      congr 1; funext k
      rw [legval_correct, if_neg (by omega), hser']; rfl
    have vx : e - (fun _ => (0 : ℝ)) / df = e := by
      funext k; simp
    unfold leggauss
    simp only [v1, hd, Option.bind_eq_bind, Option.bind_some, v2, vx, v3]
    rw [symPlus_id _ hwsym, symMinus_id _ hsym]
    simp only [Option.some.injEq, Prod.mk.injEq, true_and]
    funext k
    exact hfin k
  · intro k
    have h1 := hw k
    have h2 := hw k.rev
    rw [hwsym, h1] at h2
    exact (mul_left_cancel₀ hs0.ne' h2).symm

/-- C26 on [0,1]: `scaled_nodes` and `scaled_weights`. -/
theorem scaled_gauss_exact (n : Nat) (hn : 0 < n) (e : Fin n → ℝ)
    (he : IsEigenvalues (legcompanion n) e) :
    ∃ x w, leggauss n e = some (x, w) ∧ StrictMono (scaledNodes x) ∧
      (∀ k, 0 < scaledWeights w k) ∧ ∑ k, scaledWeights w k = 1 ∧
      (∀ k, scaledNodes x k.rev = 1 - scaledNodes x k) ∧
      ∀ f : ℝ[X], f.degree < (2 * n : Nat) →
        ∑ k, scaledWeights w k * f.eval (scaledNodes x k) = ∫ t in (0 : ℝ)..1, f.eval t := by
  obtain ⟨x, w, h, hm, hsx, hp, hsw, hs, hex⟩ := leggauss_exact n hn e he
  refine ⟨x, w, h, ?_, ?_, ?_, ?_, ?_⟩
  · intro a b hab
    have := hm hab
    unfold scaledNodes; linarith
  · intro k; have := hp k; unfold scaledWeights; linarith
  · unfold scaledWeights; rw [← Finset.sum_div, hs]; norm_num
  · intro k; unfold scaledNodes; rw [hsx]; ring
  · intro f hf
    have h1 := hex (f.comp (C (1 / 2) * X + C (1 / 2))) (by
      by_cases hf0 : f = 0
      · subst hf0; rw [zero_comp, degree_zero]; exact WithBot.bot_lt_coe _
      have hd : (f.comp (C (1 / 2 : ℝ) * X + C (1 / 2))).natDegree ≤ f.natDegree := by
        refine natDegree_comp_le.trans ?_
        have : (C (1 / 2 : ℝ) * X + C (1 / 2)).natDegree ≤ 1 := natDegree_linear_le
        nlinarith
      have hn2 : f.natDegree < 2 * n := (natDegree_lt_iff_degree_lt hf0).2 hf
      exact lt_of_le_of_lt degree_le_natDegree (by exact_mod_cast lt_of_le_of_lt hd hn2))
    have h2 : ∫ t in (-1 : ℝ)..1, (f.comp (C (1 / 2) * X + C (1 / 2))).eval t =
        2 * ∫ t in (0 : ℝ)..1, f.eval t := by
      have := intervalIntegral.integral_comp_mul_add (a := -1) (b := 1) (fun t => f.eval t)
        (c := (1 / 2 : ℝ)) (by norm_num) (1 / 2)
      simp only [eval_comp, eval_add, eval_mul, eval_C, eval_X]
      rw [this]
      norm_num
    rw [h2] at h1
    have h3 : ∫ t in (0 : ℝ)..1, f.eval t = (∑ k, w k * (f.comp (C (1 / 2) * X + C (1 / 2))).eval (x k)) / 2 := by
      rw [h1]; ring
    rw [h3, Finset.sum_div]
    refine Finset.sum_congr rfl fun k _ => ?_
    unfold scaledWeights scaledNodes
    rw [eval_comp]
    simp only [eval_add, eval_mul, eval_C, eval_X]
    rw [show (x k + 1) / 2 = 1 / 2 * x k + 1 / 2 by ring]; ring

/-- The degenerate call `leggauss(0)` reads `c(1)` of a one-entry vector. -/
theorem leggauss_zero (e : Fin 0 → ℝ) : leggauss 0 e = none := by
  unfold leggauss
  simp [legvals, legder]

/-- The hypothesis of `leggauss_exact` is met for every size. -/
example (n : Nat) : ∃ e, IsEigenvalues (legcompanion n) e := eigenvalues_exist n

/-- Two-point rule: the nodes really are ±1/√3. -/
example (e : Fin 2 → ℝ) (he : IsEigenvalues (legcompanion 2) e) : e 0 ^ 2 = 1 / 3 := by
  have h := (eigenvalues_roots 2 (by norm_num) e he).1.root 0
  norm_num [P] at h
  linarith

end Verif.Legendre
