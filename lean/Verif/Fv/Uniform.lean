import Verif.Fv.Props
import Verif.Dg.Predictor

/-!
# The finite-volume update of a cell in uniform surroundings (used for C16)
-/

namespace Verif.Fv

open Verif.Dg Verif.Basis

variable {n : Nat} {ι : Type} {T : Tab n}

theorem endvals_sum (h : T.Ok) (e : Fin 2) : ∑ k, T.endvals e k = 1 := by
  have := end_values_exact T.nodes h.inj T.psi h.basis (Polynomial.C 1) (degree_one_lt h.pos 1)
  have h0 := this.1
  have h1 := this.2
  simp only [Polynomial.eval_C, mul_one] at h0 h1
  fin_cases e
  · exact h0
  · exact h1

theorem trace_const (h : T.Ok) (e : Fin 2) (c : ι → ℝ) (qh : Fin n → ι → ℝ) (hq : ∀ k, qh k = c) :
    trace T e qh = c := by
  funext v
  unfold trace
  simp only [hq]
  rw [← Finset.sum_mul, endvals_sum h, one_mul]

theorem row_lt {n : Nat} (s k : Fin n) : (s : Nat) + k * n < n * n ∧ (s : Nat) * n + k < n * n := by
  have h1 := s.2
  have h2 := k.2
  constructor
  · calc (s : Nat) + k * n < n + k * n := by omega
      _ = (k + 1) * n := by ring
      _ ≤ _ := Nat.mul_le_mul_right _ h2
  · calc (s : Nat) * n + k < s * n + n := by omega
      _ = (s + 1) * n := by ring
      _ ≤ _ := Nat.mul_le_mul_right _ h1

theorem trace2_const (h : T.Ok) (d : Nat) (e : Fin 2) (c : ι → ℝ) (qh : Nat → ι → ℝ)
    (hq : ∀ r, r < n * n → qh r = c) (s : Fin n) : trace2 T d e qh s = c := by
  funext v
  unfold trace2
  have e1 : ∀ k : Fin n, qh ((s : Nat) + k * n) = c := fun k => hq _ (row_lt s k).1
  have e2 : ∀ k : Fin n, qh ((s : Nat) * n + k) = c := fun k => hq _ (row_lt s k).2
  simp only [e1, e2]
  rw [← Finset.sum_mul, endvals_sum h, one_mul, ite_self]

theorem bint_const (S : Sys ι) (T : Tab n) (d : Nat) (c : ι → ℝ) (hb : S.bdot d c 0 = 0) :
    bint S T d c c = 0 := by
  funext v
  rw [bint_get]
  simp [hb]

/-- A cell whose block and whose neighbours' blocks hold one state `c` with vanishing source keeps its
value. -/
theorem fv1_uniform (h : T.Ok) (S : Sys ι) (fl : Nat → (ι → ℝ) → (ι → ℝ) → (ι → ℝ)) (wt : Nat → ℝ) (dx : ℝ)
    (sources : Bool) (c : ι → ℝ) (hb : S.bdot 0 c 0 = 0) (hs : sources = true → S.source c = 0)
    (rec : Nat → Fin n → ι → ℝ) (nx nt : Nat) (mask : Nat → Bool) (u : Nat → ι → ℝ) (x : Nat) (hx : x < nx)
    (hrec : ∀ i, x ≤ i → i ≤ x + 2 → ∀ t, t < nt → ∀ k, rec (i * nt + t) k = c)
    (hm : mask (x + 1) = true → mask x = true ∧ mask (x + 2) = true) :
    apply (kern1 S T fl wt dx sources).app (fv1 (kern1 S T fl wt dx sources) rec nx nt mask) u x = u x := by
  by_cases hm1 : mask (x + 1) = true
  swap
  · exact fv1_masked _ _ _ _ _ _ _ (by simpa using hm1)
  obtain ⟨hm0, hm2⟩ := hm hm1
  funext v
  rw [apply_get, fv1_at _ rec nx nt mask x hx]
  change List.foldl (fun (u d : ι → ℝ) => u + d) _ _ v = _
  rw [foldl_add_get, List.map_append, List.sum_append, sum_flatMap_range, sum_flatMap_range]
  rw [Finset.sum_eq_zero, Finset.sum_eq_zero, add_zero, add_zero]
  · intro t ht
    have ht := Finset.mem_range.mp ht
    simp only [hm0, hm1, hm2, Bool.and_self, if_true, List.map_append, List.sum_append, List.map_cons,
      List.map_nil, List.sum_cons, List.sum_nil, add_zero]
    rw [(kern1_face S T fl wt dx sources t _ _ v).1, (kern1_face S T fl wt dx sources t _ _ v).2]
    simp only [ind2]
    rw [trace_const h 1 c _ (hrec x le_rfl (by omega) t ht),
      trace_const h 0 c _ (hrec (x + 1) (by omega) (by omega) t ht),
      trace_const h 1 c _ (hrec (x + 1) (by omega) (by omega) t ht),
      trace_const h 0 c _ (hrec (x + 2) (by omega) (by omega) t ht), bint_const S T 0 c hb]
    simp
  · intro t ht
    have ht := Finset.mem_range.mp ht
    simp only [hm1, if_true, kern1, ind2, List.map_map, hrec (x + 1) (by omega) (by omega) t ht]
    rw [sum_finRange]
    refine Finset.sum_eq_zero fun s _ => ?_
    have e : (fun v => ∑ k, T.dervals s k * c v) = (0 : ι → ℝ) := by
      funext v
      rw [← Finset.sum_mul, dervals_const h, zero_mul]; rfl
    simp only [Function.comp, e, hb]
    cases hsr : sources
    · simp
    · simp [hs hsr]

theorem derivs_const (h : T.Ok) (d : Nat) (hd : d = 0 ∨ d = 1) (c : ι → ℝ) (qh : Nat → ι → ℝ)
    (hq : ∀ r, r < n * n → qh r = c) (a b : Fin n) :
    (fun v => derivs2d T.dervals (fun _ => 0) (fun r => qh r v) d (a * n + b)) = (0 : ι → ℝ) := by
  have hn := h.pos
  have e1 : ((a : Nat) * n + b) / n = a := by
    rw [Nat.mul_comm, Nat.mul_add_div hn, Nat.div_eq_of_lt b.2, Nat.add_zero]
  have e2 : ((a : Nat) * n + b) % n = b := by
    rw [Nat.mul_comm, Nat.mul_add_mod, Nat.mod_eq_of_lt b.2]
  funext v
  unfold derivs2d
  have q1 : ∀ k : Fin n, qh ((b : Nat) + k * n) = c := fun k => hq _ (row_lt b k).1
  have q2 : ∀ k : Fin n, qh ((a : Nat) * n + k) = c := fun k => hq _ (row_lt a k).2
  rcases hd with rfl | rfl
  · simp only [e1, e2, a.2, if_true, dite_true, q1]
    rw [← Finset.sum_mul, dervals_const h, zero_mul]; rfl
  · simp only [e1, e2, a.2, b.2, show ¬ (1 : Nat) = 0 by decide, if_false, if_true, and_self, dite_true, q2]
    rw [← Finset.sum_mul, dervals_const h, zero_mul]; rfl

theorem fv2_uniform (h : T.Ok) (S : Sys ι) (fl : Nat → (ι → ℝ) → (ι → ℝ) → (ι → ℝ)) (wt : Nat → ℝ)
    (dx dy : ℝ) (sources : Bool) (c : ι → ℝ) (hb : ∀ d, S.bdot d c 0 = 0)
    (hs : sources = true → S.source c = 0) (rec : Nat → Nat → ι → ℝ) (nx ny nt : Nat) (mask : Nat → Bool)
    (u : Nat → ι → ℝ) (x y : Nat) (hx : x < nx) (hy : y < ny)
    (hrec : ∀ i j, i ≤ x + 2 → j ≤ y + 2 → ∀ t, t < nt → ∀ r, r < n * n →
      rec (ind3 i j t (ny + 2) nt) r = c)
    (hm : mask (cell (x + 1) (y + 1) (ny + 2)) = true →
      mask (cell x (y + 1) (ny + 2)) = true ∧ mask (cell (x + 2) (y + 1) (ny + 2)) = true ∧
      mask (cell (x + 1) y (ny + 2)) = true ∧ mask (cell (x + 1) (y + 2) (ny + 2)) = true) :
    apply (kern2 S T fl wt dx dy sources).app (fv2 (kern2 S T fl wt dx dy sources) rec nx ny nt mask) u
      (cell x y ny) = u (cell x y ny) := by
  by_cases hm1 : mask (cell (x + 1) (y + 1) (ny + 2)) = true
  swap
  · exact fv2_masked _ _ _ _ _ _ _ _ _ hx hy (by simpa [cell] using hm1)
  obtain ⟨m1, m2, m3, m4⟩ := hm hm1
  funext v
  rw [apply_get, fv2_at _ rec nx ny nt mask x y hx hy]
  change List.foldl (fun (u d : ι → ℝ) => u + d) _ _ v = _
  rw [foldl_add_get, List.map_append, List.sum_append, sum_flatMap_range, sum_flatMap_range]
  rw [Finset.sum_eq_zero, Finset.sum_eq_zero, add_zero, add_zero]
  · intro t ht
    have ht := Finset.mem_range.mp ht
    simp only [m1, m2, m3, m4, hm1, Bool.and_self, if_true, List.map_append, List.sum_append, List.map_cons,
      List.map_nil, List.sum_cons, List.sum_nil, add_zero]
    have tr : ∀ (d : Nat) (e : Fin 2) (i j : Nat), i ≤ x + 2 → j ≤ y + 2 → ∀ s,
        trace2 T d e (rec (ind3 i j t (ny + 2) nt)) s = c := fun d e i j hi hj s =>
      trace2_const h d e c _ (hrec i j hi hj t ht) s
    have f1 : ∀ d, (d = 0 ∨ d = 1) → ∀ i j i' j', i ≤ x + 2 → j ≤ y + 2 → i' ≤ x + 2 → j' ≤ y + 2 →
        ((kern2 S T fl wt dx dy sources).face d t (rec (ind3 i j t (ny + 2) nt))
          (rec (ind3 i' j' t (ny + 2) nt))).1 v =
        -(∑ s : Fin n, wt t / (2 * if d = 0 then dx else dy) * T.w s * fl d c c v) := by
      intro d hd i j i' j' hi hj hi' hj'
      rw [(kern2_face S T fl wt dx dy sources d hd t _ _ v).1]
      simp only [tr d 1 i j hi hj, tr d 0 i' j' hi' hj', bint_const S T d c (hb d), Pi.zero_apply, zero_add]
    have f2 : ∀ d, (d = 0 ∨ d = 1) → ∀ i j i' j', i ≤ x + 2 → j ≤ y + 2 → i' ≤ x + 2 → j' ≤ y + 2 →
        ((kern2 S T fl wt dx dy sources).face d t (rec (ind3 i j t (ny + 2) nt))
          (rec (ind3 i' j' t (ny + 2) nt))).2 v =
        ∑ s : Fin n, wt t / (2 * if d = 0 then dx else dy) * T.w s * fl d c c v := by
      intro d hd i j i' j' hi hj hi' hj'
      rw [(kern2_face S T fl wt dx dy sources d hd t _ _ v).2]
      simp only [tr d 1 i j hi hj, tr d 0 i' j' hi' hj', bint_const S T d c (hb d), Pi.zero_apply, zero_sub,
        mul_neg, Finset.sum_neg_distrib, neg_neg]
    rw [f2 0 (Or.inl rfl) _ _ _ _ (by omega) (by omega) (by omega) (by omega),
      f2 1 (Or.inr rfl) _ _ _ _ (by omega) (by omega) (by omega) (by omega),
      f1 0 (Or.inl rfl) _ _ _ _ (by omega) (by omega) (by omega) (by omega),
      f1 1 (Or.inr rfl) _ _ _ _ (by omega) (by omega) (by omega) (by omega)]
    ring
  · intro t ht
    have ht := Finset.mem_range.mp ht
    have hq := hrec (x + 1) (y + 1) (by omega) (by omega) t ht
    simp only [hm1, if_true, kern2, List.map_flatMap, List.map_map]
    rw [List.flatMap_def, List.sum_flatten, List.map_map]
    simp only [Function.comp_def, sum_finRange]
    refine Finset.sum_eq_zero fun a _ => Finset.sum_eq_zero fun b _ => ?_
    rw [derivs_const h 0 (Or.inl rfl) c _ hq a b, derivs_const h 1 (Or.inr rfl) c _ hq a b,
      hq _ (row_lt a b).2, hb, hb]
    cases hsr : sources
    · simp
    · simp [hs hsr]

end Verif.Fv
