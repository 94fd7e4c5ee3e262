import Verif.Dg.Props

/-!
# The predictor iteration (C30)

`step` stands for `DG_U.solve(rhs(·))`; theorems about it use only the contract `IsStep1`/`IsStep2` of the
exact linear solve.
-/

namespace Verif.Dg

open Verif.Poly Verif.Basis Polynomial

variable {n : Nat} {ι : Type} {T : Tab n}

/-- `step` is `q ↦ DG_U1.solve(rhs1(q))` in exact arithmetic. -/
def IsStep1 (T : Tab n) (S : Sys ι) (Ww : Nat → ι → ℝ) (dt dx : ℝ)
    (step : (Nat → ι → ℝ) → (Nat → ι → ℝ)) : Prop :=
  ∀ junk U, T.u1 junk = some U → ∀ q b, (∀ t i : Fin n, b (t * n + i) = rhs1 S T q Ww dt dx t i) →
    Solves U (step q) b

/-- `step` is `q ↦ DG_U2.solve(rhs2(q))` in exact arithmetic. -/
def IsStep2 (T : Tab n) (S : Sys ι) (Ww : Nat → ι → ℝ) (dt dx dy : ℝ)
    (step : (Nat → ι → ℝ) → (Nat → ι → ℝ)) : Prop :=
  ∀ junk U, T.u2 junk = some U → ∀ q b,
    (∀ t i j : Fin n, b ((t * n + i) * n + j) = rhs2 S T q Ww dt dx dy t i j) → Solves U (step q) b

open Classical in
theorem exceedsReal_iff (rows : Nat) (tol : ℝ) (q1 q0 : Nat → ι → ℝ) :
    exceedsReal rows tol q1 q0 = true ↔
      ∃ r, r < rows ∧ ∃ v, |q1 r v - q0 r v| > tol * (1 + |q0 r v|) := by
  unfold exceedsReal; exact decide_eq_true_iff

open Classical in
theorem exceedsNum_iff (rows : Nat) (tol : ℝ) (q1 q0 : Nat → ι → Num) :
    exceedsNum rows tol q1 q0 = true ↔
      ∃ r, r < rows ∧ ∃ v, Num.exceeds tol (q1 r v) (q0 r v) = true := by
  unfold exceedsNum; exact decide_eq_true_iff

open Classical in
theorem hasNaN_iff (rows : Nat) (q : Nat → ι → Num) :
    hasNaN rows q = true ↔ ∃ r, r < rows ∧ ∃ v, (q r v).isNaN = true := by
  unfold hasNaN; exact decide_eq_true_iff

/-- What a written result means, for any state type, step and tests: it is the Newton fall-back, taken only
after an iterate contained NaN, or an iterate accepted by the exit test. -/
theorem iterate_written {Q : Type} (step : Q → Q) (exceeds : Q → Q → Bool) (nan : Q → Bool)
    (newton : Q) (it : Nat) (q0 q : Q) (h : iterate step exceeds nan newton it q0 = some q) :
    ∃ k, k < it ∧ (exceeds (step^[k + 1] q0) (step^[k] q0) = false) ∧
      ((nan (step^[k + 1] q0) = true ∧ q = newton) ∨
        (nan (step^[k + 1] q0) = false ∧ q = step^[k + 1] q0)) := by
  induction it generalizing q0 with
  | zero => exact absurd h (by simp [iterate])
  | succ m ih =>
    unfold iterate at h
    simp only [] at h
    by_cases he : exceeds (step q0) q0 = true
    · rw [if_pos he] at h
      obtain ⟨k, hk, h1, h2⟩ := ih (step q0) h
      exact ⟨k + 1, by omega, h1, h2⟩
    · rw [if_neg he] at h
      refine ⟨0, by omega, by simpa using he, ?_⟩
      by_cases hn : nan (step q0) = true
      · rw [if_pos hn] at h
        exact Or.inl ⟨hn, (Option.some.inj h).symm⟩
      · rw [if_neg hn] at h
        exact Or.inr ⟨by simpa using hn, (Option.some.inj h).symm⟩

/-- The segment is left unwritten exactly when every one of the `DG_IT` iterates fails the exit test. -/
theorem iterate_unwritten {Q : Type} (step : Q → Q) (exceeds : Q → Q → Bool) (nan : Q → Bool)
    (newton : Q) (it : Nat) (q0 : Q) : iterate step exceeds nan newton it q0 = none ↔
      ∀ k, k < it → exceeds (step^[k + 1] q0) (step^[k] q0) = true := by
  induction it generalizing q0 with
  | zero => simp [iterate]
  | succ m ih =>
    unfold iterate
    simp only []
    by_cases he : exceeds (step q0) q0 = true
    · rw [if_pos he, ih]
      constructor
      · intro h k hk
        cases k with
        | zero => exact he
        | succ k => exact h k (by omega)
      · intro h k hk; exact h (k + 1) (by omega)
    · rw [if_neg he]
      constructor
      · intro h; split_ifs at h
      · intro h; exact absurd (h 0 (by omega)) he

/-- C30: with doubles that may be NaN and a step that never turns NaN into numbers, a result accepted by
the exit test is NaN-free and differs from the previous iterate by at most `DG_TOL*(1 + |q|)` in every
entry. -/
theorem predictor_tolerance (rows : Nat) (tol : ℝ) (step : (Nat → ι → Num) → (Nat → ι → Num))
    (hstrict : ∀ q, hasNaN rows q = true → hasNaN rows (step q) = true)
    (newton q0 q : Nat → ι → Num) (it : Nat)
    (h : iterate step (exceedsNum rows tol) (hasNaN rows) newton it q0 = some q) :
    (q = newton ∧ ∃ k, k < it ∧ hasNaN rows (step^[k + 1] q0) = true) ∨
    ∃ q', q = step q' ∧ ∀ r, r < rows → ∀ v, ∃ a b : ℝ,
      q r v = .val a ∧ q' r v = .val b ∧ |a - b| ≤ tol * (1 + |b|) := by
  obtain ⟨k, hk, he, hc⟩ := iterate_written step _ _ newton it q0 q h
  rcases hc with ⟨hn, rfl⟩ | ⟨hn, rfl⟩
  · exact Or.inl ⟨rfl, k, hk, hn⟩
  · right
    refine ⟨step^[k] q0, by rw [Function.iterate_succ_apply'], fun r hr v => ?_⟩
    have hn' : hasNaN rows (step^[k] q0) = false := by
      by_contra hc
      rw [Bool.not_eq_false] at hc
      have := hstrict _ hc
      rw [← Function.iterate_succ_apply' step k q0] at this
      rw [this] at hn; exact absurd hn (by simp)
    have h1 : (step^[k + 1] q0 r v).isNaN = false := by
      by_contra hc
      rw [Bool.not_eq_false] at hc
      have : hasNaN rows (step^[k + 1] q0) = true := (hasNaN_iff _ _).2 ⟨r, hr, v, hc⟩
      rw [this] at hn; exact absurd hn (by simp)
    have h2 : (step^[k] q0 r v).isNaN = false := by
      by_contra hc
      rw [Bool.not_eq_false] at hc
      have : hasNaN rows (step^[k] q0) = true := (hasNaN_iff _ _).2 ⟨r, hr, v, hc⟩
      rw [this] at hn'; exact absurd hn' (by simp)
    have h3 : Num.exceeds tol (step^[k + 1] q0 r v) (step^[k] q0 r v) = false := by
      by_contra hc
      rw [Bool.not_eq_false] at hc
      have : exceedsNum rows tol (step^[k + 1] q0) (step^[k] q0) = true := (exceedsNum_iff _ _ _ _).2 ⟨r, hr, v, hc⟩
      rw [this] at he; exact absurd he (by simp)
    cases ha : step^[k + 1] q0 r v with
    | nan => rw [ha] at h1; exact absurd h1 (by simp [Num.isNaN])
    | val a =>
      cases hb : step^[k] q0 r v with
      | nan => rw [hb] at h2; exact absurd h2 (by simp [Num.isNaN])
      | val b =>
        rw [ha, hb] at h3
        refine ⟨a, b, rfl, rfl, ?_⟩
        unfold Num.exceeds at h3
        simpa using h3

/-- Accepted results over the reals satisfy the predictor equations up to the tolerance test: the last
iterate `q'` has `U1 q = rhs1(q')` with `|q - q'| ≤ DG_TOL (1 + |q'|)`. -/
theorem predictor1_accepts (S : Sys ι) (Ww : Nat → ι → ℝ) (dt dx tol : ℝ)
    (step : (Nat → ι → ℝ) → (Nat → ι → ℝ)) (hstep : IsStep1 T S Ww dt dx step) (newton q0 q : Nat → ι → ℝ)
    (it : Nat) (h : iterate step (exceedsReal (n * n) tol) (fun _ => false) newton it q0 = some q) :
    ∃ q', (∀ r, r < n * n → ∀ v, |q r v - q' r v| ≤ tol * (1 + |q' r v|)) ∧
      ∀ t i : Fin n, ∀ v, ∑ k : Fin n, T.mat t k * T.w i * q (k * n + i) v = rhs1 S T q' Ww dt dx t i v := by
  obtain ⟨k, hk, he, hc⟩ := iterate_written step _ _ newton it q0 q h
  rcases hc with ⟨hn, _⟩ | ⟨_, rfl⟩
  · exact absurd hn (by simp)
  refine ⟨step^[k] q0, fun r hr v => ?_, fun t i v => ?_⟩
  · by_contra hlt
    have : exceedsReal (n * n) tol (step^[k + 1] q0) (step^[k] q0) = true := (exceedsReal_iff _ _ _ _).2 ⟨r, hr, v, lt_of_not_ge hlt⟩
    rw [this] at he; exact absurd he (by simp)
  · obtain ⟨U, hU, hr, hcl, hent⟩ := u1_entry T (fun _ _ => 0)
    set b : Nat → ι → ℝ := fun r v => if hh : r / n < n ∧ r % n < n then
      rhs1 S T (step^[k] q0) Ww dt dx ⟨r / n, hh.1⟩ ⟨r % n, hh.2⟩ v else 0 with hb
    have hbe : ∀ t i : Fin n, b (t * n + i) = rhs1 S T (step^[k] q0) Ww dt dx t i := by
      intro t i
      obtain ⟨e1, e2⟩ := row_div t i
      funext v
      rw [hb]
      simp only [e1, e2, t.2, i.2, and_self, dite_true, Fin.eta]
    have := hstep _ U hU (step^[k] q0) b hbe
    rw [← Function.iterate_succ_apply' step k q0, solves1_iff hr hcl hent] at this
    rw [this t i v, hbe t i]

/-- A constant state with vanishing source is returned unchanged by the one-dimensional predictor, after
one pass. -/
theorem predictor1_constant (h : T.Ok) (S : Sys ι) (c : ι → ℝ) (hs : S.source c = 0)
    (hb : S.bdot 0 c 0 = 0) (w : Nat → ι → ℝ) (hw : ∀ i : Fin n, w i = c) (dt dx tol : ℝ) (ht : 0 ≤ tol)
    (step : (Nat → ι → ℝ) → (Nat → ι → ℝ)) (hstep : IsStep1 T S (initialCondition1 T w) dt dx step)
    (newton : Nat → ι → ℝ) (it : Nat) :
    ∃ q, iterate step (exceedsReal (n * n) tol) (fun _ => false) newton (it + 1)
        (standardInitialGuess1 n w) = some q ∧ ∀ r, r < n * n → q r = c := by
  have hn := h.pos
  have hg : ∀ r, standardInitialGuess1 n w r = c := by
    intro r
    exact hw ⟨r % n, Nat.mod_lt _ hn⟩
  obtain ⟨U, hU, hr, hcl, hent⟩ := u1_entry T (fun _ _ => 0)
  set g := standardInitialGuess1 n w with hgdef
  set b : Nat → ι → ℝ := fun r v => if hh : r / n < n ∧ r % n < n then
      rhs1 S T g (initialCondition1 T w) dt dx ⟨r / n, hh.1⟩ ⟨r % n, hh.2⟩ v else 0 with hbd
  have hbe : ∀ t i : Fin n, b (t * n + i) = rhs1 S T g (initialCondition1 T w) dt dx t i := by
    intro t i
    obtain ⟨e1, e2⟩ := row_div t i
    funext v
    rw [hbd]
    simp only [e1, e2, t.2, i.2, and_self, dite_true, Fin.eta]
  have s1 := hstep _ U hU g b hbe
  have s2 : Solves U g b := by
    obtain ⟨U', hU', hiff⟩ := fixed_point_iff_zero1 T S (fun _ _ => 0) g (initialCondition1 T w) b dt dx hbe
    rw [hU] at hU'
    cases hU'
    exact hiff.2 fun t i => funext fun v =>
      constant_solves1 h S c hs hb g w dt dx (fun t i => hg _) hw t i v
  have heq : ∀ r, r < n * n → step g r = c := fun r hrr => by
    rw [solve1_unique h hr hcl hent _ _ b s1 s2 r hrr, hg]
  refine ⟨step g, ?_, heq⟩
  unfold iterate
  simp only []
  rw [if_neg, if_neg (by simp)]
  intro hc
  obtain ⟨r, hrr, v, hlt⟩ := (exceedsReal_iff _ _ _ _).1 hc
  rw [heq r hrr, hg, sub_self, abs_zero] at hlt
  have : 0 ≤ tol * (1 + |c v|) := by positivity
  linarith

/-- The same in two dimensions. -/
theorem predictor2_constant (h : T.Ok) (S : Sys ι) (c : ι → ℝ) (hs : S.source c = 0)
    (hb : ∀ d, S.bdot d c 0 = 0) (w : Nat → ι → ℝ) (hw : ∀ s, s < n * n → w s = c) (dt dx dy tol : ℝ)
    (ht : 0 ≤ tol) (step : (Nat → ι → ℝ) → (Nat → ι → ℝ))
    (hstep : IsStep2 T S (initialCondition2 T w) dt dx dy step) (newton : Nat → ι → ℝ) (it : Nat) :
    ∃ q, iterate step (exceedsReal (n * (n * n)) tol) (fun _ => false) newton (it + 1)
        (standardInitialGuess2 n w) = some q ∧ ∀ r, r < n * (n * n) → q r = c := by
  have hn := h.pos
  have hg : ∀ r, standardInitialGuess2 n w r = c := by
    intro r
    exact hw _ (Nat.mod_lt _ (Nat.mul_pos hn hn))
  have hwf : ∀ i j : Fin n, w (i * n + j) = c := by
    intro i j
    apply hw
    calc (i : Nat) * n + j < i * n + n := by have := j.2; omega
      _ = (i + 1) * n := by ring
      _ ≤ _ := Nat.mul_le_mul_right _ i.2
  obtain ⟨U, hU, hr, hcl, hent⟩ := u2_entry T (fun _ _ => 0)
  set g := standardInitialGuess2 n w with hgdef
  set b : Nat → ι → ℝ := fun r v => if hh : r / n / n < n ∧ r / n % n < n ∧ r % n < n then
      rhs2 S T g (initialCondition2 T w) dt dx dy ⟨r / n / n, hh.1⟩ ⟨r / n % n, hh.2.1⟩ ⟨r % n, hh.2.2⟩ v
      else 0 with hbd
  have hbe : ∀ t i j : Fin n, b ((t * n + i) * n + j) = rhs2 S T g (initialCondition2 T w) dt dx dy t i j := by
    intro t i j
    obtain ⟨e1, e2⟩ := row_div3 t i j
    obtain ⟨e3, e4⟩ := row_div t i
    funext v
    rw [hbd]
    simp only [e1, e2, e3, e4, t.2, i.2, j.2, and_self, dite_true, Fin.eta]
  have s1 := hstep _ U hU g b hbe
  have s2 : Solves U g b := by
    obtain ⟨U', hU', hiff⟩ := fixed_point_iff_zero2 T S (fun _ _ => 0) g (initialCondition2 T w) b dt dx dy hbe
    rw [hU] at hU'
    cases hU'
    exact hiff.2 fun t i j => funext fun v =>
      constant_solves2 h S c hs hb g w dt dx dy (fun t i j => hg _) hwf t i j v
  have heq : ∀ r, r < n * (n * n) → step g r = c := fun r hrr => by
    rw [solve2_unique h hr hcl hent _ _ b s1 s2 r hrr, hg]
  refine ⟨step g, ?_, heq⟩
  unfold iterate
  simp only []
  rw [if_neg, if_neg (by simp)]
  intro hc
  obtain ⟨r, hrr, v, hlt⟩ := (exceedsReal_iff _ _ _ _).1 hc
  rw [heq r hrr, hg, sub_self, abs_zero] at hlt
  have : 0 ≤ tol * (1 + |c v|) := by positivity
  linarith

/-! ### The full claim of C30 is false: non-convergence leaves the cell unwritten -/

/-- `N = 1`, one component, no flux, source `2 q`, unit time step, initial value 1: the iteration diverges,
and whatever `DG_IT` and whatever tolerance below 1 the segment of `qh` keeps its old content. -/
theorem predictor_unwritten (T : Tab 1) (h : T.Ok) (it : Nat) (tol : ℝ) (htol : tol < 1)
    (step : (Nat → Unit → ℝ) → (Nat → Unit → ℝ))
    (hstep : IsStep1 T ⟨fun _ _ => 0, fun q v => 2 * q v, fun _ _ _ => 0⟩
      (initialCondition1 T fun _ _ => 1) 1 1 step) (newton old : Nat → Unit → ℝ) :
    predictorCell true false it step (exceedsReal (1 * 1) tol) (fun _ => false) newton
      (standardInitialGuess1 1 fun _ _ => 1) old = old := by
  have hw : T.w 0 = 1 := by
    have := h.exact (C 1) (lt_of_le_of_lt degree_C_le (by norm_num))
    simpa using this
  have hpsi : evaluate (T.psi 0) 0 = 1 := by
    have := (end_values_exact T.nodes h.inj T.psi h.basis (C 1) (degree_one_lt h.pos 1)).1
    simpa [endValues] using this
  have hmat : T.mat 0 0 = 1 := by
    have := mat_const h 0
    rw [hpsi] at this
    simpa using this
  obtain ⟨U, hU, hr, hcl, hent⟩ := u1_entry T (fun _ _ => 0)
  have hone : ∀ q : Nat → Unit → ℝ, step q 0 () = 2 * q 0 () + 1 := by
    intro q
    have s := hstep _ U hU q (fun _ => rhs1 ⟨fun _ _ => 0, fun q v => 2 * q v, fun _ _ _ => 0⟩ T q
      (initialCondition1 T fun _ _ => 1) 1 1 0 0) (fun t i => by rw [Fin.eq_zero t, Fin.eq_zero i])
    rw [solves1_iff hr hcl hent] at s
    have := s 0 0 ()
    have hi := initialCondition1_row T (fun _ _ => (1 : ℝ)) 0 0 ()
    simp only [Fin.val_zero, zero_mul, add_zero] at hi
    simp only [Finset.univ_unique, Fin.default_eq_zero, Finset.sum_singleton, hmat, hw, Fin.val_zero,
      zero_mul, add_zero, one_mul, rhs1, hi, hpsi] at this
    simpa using this
  have hpos : ∀ k, 1 ≤ step^[k] (standardInitialGuess1 1 fun _ _ => (1 : ℝ)) 0 () := by
    intro k
    induction k with
    | zero => simp [standardInitialGuess1]
    | succ k ih => rw [Function.iterate_succ_apply', hone]; linarith
  unfold predictorCell
  simp only [if_true]
  rw [if_neg (by simp), (iterate_unwritten step _ _ newton it _).2]
  · rfl
  · intro k hk
    refine (exceedsReal_iff _ _ _ _).2 ⟨0, by norm_num, (), ?_⟩
    rw [Function.iterate_succ_apply', hone]
    have := hpos k
    set y := step^[k] (standardInitialGuess1 1 fun _ _ => (1 : ℝ)) 0 ()
    rw [abs_of_pos (by linarith), abs_of_pos (by linarith)]
    nlinarith

/-- Cells outside the mask keep their content; with the stiff option the Newton result is written. -/
theorem predictor_masked {Q : Type} (stiff : Bool) (it : Nat) (step : Q → Q) (ex : Q → Q → Bool)
    (nan : Q → Bool) (newton guess old : Q) :
    predictorCell false stiff it step ex nan newton guess old = old ∧
    predictorCell true true it step ex nan newton guess old = newton := ⟨rfl, rfl⟩

/-! ### Non-vacuity -/

/-- Tables meeting `Tab.Ok` exist for every order. -/
example (n : Nat) (hn : 0 < n) : ∃ T : Tab n, T.Ok := by
  obtain ⟨e, he⟩ := Verif.Legendre.eigenvalues_exist n
  obtain ⟨T, _, _, h, _⟩ := tab_exists n hn e he
  exact ⟨T, h⟩

/-- The step of the counterexample exists: `q ↦ 2 q + 1`. -/
example (T : Tab 1) (h : T.Ok) : IsStep1 T ⟨fun _ _ => 0, fun q v => 2 * q v, fun _ _ _ => 0⟩
      (initialCondition1 T fun _ _ => 1) 1 1 (fun (q : Nat → Unit → ℝ) _ v => 2 * q 0 v + 1) := by
  have hw : T.w 0 = 1 := by
    have := h.exact (C 1) (lt_of_le_of_lt degree_C_le (by norm_num))
    simpa using this
  have hpsi : evaluate (T.psi 0) 0 = 1 := by
    have := (end_values_exact T.nodes h.inj T.psi h.basis (C 1) (degree_one_lt h.pos 1)).1
    simpa [endValues] using this
  have hmat : T.mat 0 0 = 1 := by
    have := mat_const h 0
    rw [hpsi] at this
    simpa using this
  intro junk U hU q b hb
  obtain ⟨U', hU', hr, hcl, hent⟩ := u1_entry T junk
  rw [hU] at hU'
  cases hU'
  rw [solves1_iff hr hcl hent]
  intro t i v
  rw [hb t i, Fin.eq_zero t, Fin.eq_zero i]
  have hi := initialCondition1_row T (fun _ _ => (1 : ℝ)) 0 0 v
  simp only [Fin.val_zero, zero_mul, add_zero] at hi
  simp only [Finset.univ_unique, Fin.default_eq_zero, Finset.sum_singleton, hmat, hw, Fin.val_zero,
    zero_mul, add_zero, one_mul, rhs1, hi, hpsi]
  simp

/-- A travelling wave meets the hypotheses of `obj1_exact_solution` at `N = 2`: `q = 3 + x - a τ` with flux
`a q`, `dt = dx = 1`. -/
example (T : Tab 2) (h : T.Ok) (a : ℝ) (t i : Fin 2) (v : Unit) :
    obj1 ⟨fun _ q v => a * q v, fun _ => 0, fun _ _ _ => 0⟩ T
      (fun r _ => if hr : r / 2 < 2 ∧ r % 2 < 2 then
        3 + T.nodes ⟨r % 2, hr.2⟩ - a * T.nodes ⟨r / 2, hr.1⟩ else 0)
      (initialCondition1 T fun r _ => if hr : r < 2 then 3 + T.nodes ⟨r, hr⟩ else 0) 1 1 t i v = 0 := by
  have hlin : ∀ a b : ℝ, (C a * X + C b : ℝ[X]).degree < ((2 : Nat) : WithBot ℕ) := fun a b =>
    lt_of_le_of_lt degree_linear_le (by norm_num)
  refine obj1_exact_solution h _ _ _ 1 1 v (fun i => C (-a) * X + C (3 + T.nodes i))
    (fun t => C a * X + C (a * (3 - a * T.nodes t))) (fun i => hlin _ _) (fun t => hlin _ _) ?_ ?_ ?_ ?_ t i
  · intro t i
    obtain ⟨e1, e2⟩ := row_div t i
    simp only [e1, e2, t.2, i.2, and_self, dite_true, Fin.eta, eval_add, eval_mul, eval_C, eval_X]; ring
  · intro i
    simp only [i.2, dite_true, Fin.eta, eval_add, eval_mul, eval_C, eval_X]; ring
  · intro t j
    obtain ⟨e1, e2⟩ := row_div t j
    simp only [e1, e2, t.2, j.2, and_self, dite_true, Fin.eta, eval_add, eval_mul, eval_C, eval_X]; ring
  · intro t i
    simp

end Verif.Dg
