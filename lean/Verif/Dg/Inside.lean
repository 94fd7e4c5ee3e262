import Verif.Dg.Galerkin
import Mathlib.MeasureTheory.Integral.IntervalIntegral.Basic
import Mathlib.Analysis.Polynomial.Basic
import Mathlib.Analysis.Convex.Topology

/-! # The quadrature nodes lie inside the cell -/

namespace Verif.Dg

open Polynomial

variable {n : Nat} {T : Tab n}

/-- A linear function that is positive inside the cell is positive at the nodes. -/
theorem node_test (h : T.Ok) (k : Fin n) (l : ℝ[X]) (hl : l.degree ≤ 1) (h0 : ∀ t ∈ Set.Ioo (0 : ℝ) 1, 0 < l.eval t) :
    0 < l.eval (T.nodes k) := by
  classical
  let g : ℝ[X] := ∏ j ∈ Finset.univ.erase k, (X - C (T.nodes j))
  have hg : g.degree = ((n - 1 : Nat) : WithBot ℕ) := by
    rw [degree_prod]
    simp only [degree_X_sub_C, Finset.sum_const, Finset.card_erase_of_mem (Finset.mem_univ k), Finset.card_univ, Fintype.card_fin]
    simp
  have hdeg : (l * (g * g)).degree < ((2 * n : Nat) : WithBot ℕ) := by
    refine lt_of_le_of_lt (degree_mul_le _ _) ?_
    rw [degree_mul, hg]
    refine lt_of_le_of_lt (add_le_add_left hl _) ?_
    have := h.pos
    have e : (1 : WithBot ℕ) + (((n - 1 : Nat) : WithBot ℕ) + ((n - 1 : Nat) : WithBot ℕ)) = ((1 + ((n - 1) + (n - 1)) : Nat) : WithBot ℕ) := by
      push_cast; rfl
    rw [e]
    exact_mod_cast (by omega : 1 + ((n - 1) + (n - 1)) < 2 * n)
  have hex := h.exact _ hdeg
  have hz : ∀ j, j ≠ k → g.eval (T.nodes j) = 0 := fun j hj => by
    rw [eval_prod]
    exact Finset.prod_eq_zero (Finset.mem_erase.2 ⟨hj, Finset.mem_univ j⟩) (by simp)
  have hk : g.eval (T.nodes k) ≠ 0 := by
    rw [eval_prod, Finset.prod_ne_zero_iff]
    intro j hj
    rw [eval_sub, eval_X, eval_C, sub_ne_zero]
    exact fun e => (Finset.mem_erase.1 hj).1 (h.inj e).symm
  rw [Finset.sum_eq_single k (fun j _ hj => by simp [hz j hj]) (fun e => absurd (Finset.mem_univ k) e)] at hex
  have hpos : 0 < ∫ t in (0 : ℝ)..1, (l * (g * g)).eval t := by
    have hcl : ∀ t ∈ Set.Icc (0 : ℝ) 1, 0 ≤ l.eval t := by
      intro t ht
      rw [← closure_Ioo (zero_ne_one)] at ht
      exact closure_minimal (fun t ht => (h0 t ht).le) (isClosed_le continuous_const l.continuous) ht
    have hne : l * (g * g) ≠ 0 := by
      intro e
      rcases mul_eq_zero.1 e with e | e
      · have := h0 (1 / 2) ⟨by norm_num, by norm_num⟩
        rw [e] at this
        simp at this
      · have := mul_self_eq_zero.1 e
        exact hk (by rw [this]; simp)
    obtain ⟨t, ht, hr⟩ : ∃ t ∈ Set.Ioo (0 : ℝ) 1, (l * (g * g)).eval t ≠ 0 := by
      by_contra hcon
      push Not at hcon
      exact hne (eq_zero_of_infinite_isRoot _ ((Set.Ioo_infinite zero_lt_one).mono fun t ht => hcon t ht))
    refine intervalIntegral.integral_pos zero_lt_one (Polynomial.continuous _).continuousOn (fun t ht => ?_) ⟨t, ⟨ht.1.le, ht.2.le⟩, ?_⟩
    · rw [eval_mul, eval_mul]
      exact mul_nonneg (hcl t ⟨ht.1.le, ht.2⟩) (mul_self_nonneg _)
    · refine lt_of_le_of_ne ?_ hr.symm
      rw [eval_mul, eval_mul]
      exact mul_nonneg (hcl t ⟨ht.1.le, ht.2.le⟩) (mul_self_nonneg _)
  rw [← hex, eval_mul, eval_mul] at hpos
  have hw := h.wpos k
  exact (mul_pos_iff_of_pos_right (mul_self_pos.2 hk)).1 ((mul_pos_iff_of_pos_left hw).1 hpos)

/-- **Every quadrature node lies strictly inside the cell.** -/
theorem nodes_inside (h : T.Ok) (k : Fin n) : 0 < T.nodes k ∧ T.nodes k < 1 := by
  constructor
  · simpa using node_test h k X degree_X_le fun t ht => by simpa using ht.1
  · have := node_test h k (C 1 - X) (by
      refine (degree_sub_le _ _).trans (max_le ?_ degree_X_le)
      exact degree_C_le.trans (by norm_num)) fun t ht => by simpa using ht.2
    simpa using this

/-- **The states `D_OSH`, `D_ROE` and `Bint` visit lie strictly between the two sides** (C97): whatever convex set of states holds both
sides holds them, too. -/
theorem between (h : T.Ok) (k : Fin n) (G : Set (Nat → ℝ)) (hG : Convex ℝ G) (qL qR : Nat → ℝ) (hL : qL ∈ G) (hR : qR ∈ G) :
    (fun i => qR i + T.nodes k * (qL i - qR i)) ∈ G := by
  obtain ⟨h0, h1⟩ := nodes_inside h k
  have := hG hR hL (a := 1 - T.nodes k) (b := T.nodes k) (by linarith) h0.le (by ring)
  convert this using 1
  funext i
  simp only [Pi.add_apply, Pi.smul_apply, smul_eq_mul]
  ring

/-- Positive densities on both sides: positive densities between. -/
example (h : T.Ok) (k : Fin n) (qL qR : Nat → ℝ) (hL : 0 < qL 0) (hR : 0 < qR 0) : 0 < qR 0 + T.nodes k * (qL 0 - qR 0) :=
  between h k {q | 0 < q 0} (convex_halfSpace_gt (f := fun q : Nat → ℝ => q 0) ⟨fun _ _ => rfl, fun _ _ => rfl⟩ 0) qL qR hL hR

/-- The tables of the code, for every `N ≥ 1`. -/
theorem code_nodes_inside (n : Nat) (hn : 0 < n) (e : Fin n → ℝ)
    (he : Verif.Legendre.IsEigenvalues (Verif.Legendre.legcompanion n) e) :
    ∃ x w, Verif.Legendre.leggauss n e = some (x, w) ∧
      ∀ k, 0 < Verif.Legendre.scaledNodes x k ∧ Verif.Legendre.scaledNodes x k < 1 := by
  obtain ⟨T, x, w, hT, hlg, hx, -⟩ := tab_exists n hn e he
  exact ⟨x, w, hlg, fun k => hx ▸ nodes_inside hT k⟩

end Verif.Dg
