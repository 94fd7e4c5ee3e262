import Verif.Step.Mid

/-!
# Planes whose data do not vary along y

Reconstruction, prediction, half step and finite volumes of a plane act on such data as those of a line.
-/

namespace Verif.Step

open Verif.Fv Verif.Dg Verif.Basis

variable {n : Nat} {ι : Type} {T : Tab n} {S : Sys ι}

/-- The block `q` of a plane cell holds the block `p` of a line cell in every column. -/
def Spreads (q : Nat → ι → ℝ) (p : Fin n → ι → ℝ) : Prop := ∀ i j : Fin n, q (i * n + j) = p i

/-! ### Reconstruction -/

theorem weno1G_congr {E : Type} (coef : Coef n E) (ub ub' : Nat → E) (nx gap : Int) (i : Nat)
    (h : ∀ r < 2 * n - 1, ub (i + r) = ub' (i + r)) : weno1G coef ub nx gap i = weno1G coef ub' nx gap i := by
  unfold weno1G
  simp only
  congr 1
  funext r
  exact h r r.2

theorem weno2G_line (W : Weno.Setup n) (undef : ℝ) (nx ny : Nat) (ub ub1 : Nat → ι → ℝ)
    (h : ∀ R < nx + 2 * n, ∀ J < ny + 2 * n, ub (R * (ny + 2 * n) + J) = ub1 R) (i j : Nat) (hi : i < nx + 2)
    (hj : j < ny + 2) (ii jj : Fin n) :
    weno2G (realCoef W.T undef) false ub (nx + 2) (ny + 2) i j ii jj =
      weno1G (realCoef W.T undef) ub1 ((nx + 2 : Nat) : Int) 0 i ii := by
  have hn := W.pos
  unfold weno2G
  simp only [Bool.false_and, Bool.false_eq_true, if_false]
  refine weno1G_const W undef _ (ny + 2) 0 j (Weno.active_zero n _ j) _ (fun r hr => ?_) jj
  refine congrFun (weno1G_congr _ _ _ _ _ i fun r' hr' => ?_) ii
  rw [show ny + 2 + 2 * (n - 1) = ny + 2 * n by omega]
  exact h _ (by omega) _ (by omega)

/-! ### Half step -/

theorem derivs_spread_x (q : Nat → ι → ℝ) (p : Fin n → ι → ℝ) (hq : Spreads q p) (i j : Fin n) :
    (fun v => derivs2d T.dervals (fun _ => 0) (fun s => q s v) 0 (i * n + j)) = fun v => ∑ k, T.dervals i k * p k v := by
  obtain ⟨e1, e2⟩ := row_div i j
  funext v
  unfold derivs2d
  simp only [e1, e2, i.2, if_true, dite_true]
  refine Finset.sum_congr rfl fun k _ => ?_
  have := congrFun (hq k j) v
  rw [Nat.add_comm] at this
  exact congrArg (T.dervals i k * ·) this

theorem derivs_spread_y (h : T.Ok) (q : Nat → ι → ℝ) (p : Fin n → ι → ℝ) (hq : Spreads q p) (i j : Fin n) :
    (fun v => derivs2d T.dervals (fun _ => 0) (fun s => q s v) 1 (i * n + j)) = 0 := by
  obtain ⟨e1, e2⟩ := row_div i j
  funext v
  unfold derivs2d
  rw [if_neg (by decide), if_pos rfl, dif_pos (by rw [e1, e2]; exact ⟨j.2, i.2⟩)]
  simp only [e1, hq i]
  rw [← Finset.sum_mul, dervals_const h, zero_mul]
  rfl

theorem mid2_line (h : T.Ok) (hb : ∀ q, S.bdot 1 q 0 = 0) (dt dx dy : ℝ) (w : Fin n → ι → ℝ) (i j : Fin n) :
    mid2 S T dt dx dy (fun a _ => w a) i j = mid1 S T dt dx w i := by
  have hw : Spreads (rows2 fun a (_ : Fin n) => w a) w := fun a b => rows2_get _ a b
  have hF : ∀ d, Spreads (fun s => S.flux d (rows2 (fun a (_ : Fin n) => w a) s)) fun a => S.flux d (w a) := fun d a b => by
    change S.flux d (rows2 _ (a * n + b)) = _
    rw [hw a b]
  funext v
  unfold mid2 mid1
  simp only
  rw [congrFun (derivs_spread_x (T := T) _ _ (hF 0) i j) v, derivs_spread_x _ _ hw, congrFun (derivs_spread_y h _ _ (hF 1) i j) v,
    derivs_spread_y h _ _ hw, hb]
  simp only [Pi.zero_apply, add_zero, zero_div]
  ring

/-! ### Prediction -/

/-- Rows of the space-time block of a plane cell against those of a line cell. -/
def Spreads3 (n : Nat) (q p : Nat → ι → ℝ) : Prop := ∀ t i j : Fin n, q ((t * n + i) * n + j) = p (t * n + i)

theorem rhs2_line (h : T.Ok) (hb : ∀ q, S.bdot 1 q 0 = 0) (q p Ww Wp : Nat → ι → ℝ) (hq : Spreads3 n q p) (dt dx dy : ℝ)
    (hW : ∀ (t i j : Fin n) v, Ww ((t * n + i) * n + j) v = T.w j * Wp (t * n + i) v) (t i j : Fin n) (v : ι) :
    rhs2 S T q Ww dt dx dy t i j v = T.w j * rhs1 S T p Wp dt dx t i v := by
  have hx : dq2 T q 0 dx t i j = dqdx1 T p dx t i := by
    funext v
    rw [dq2_x]
    unfold dqdx1
    simp only [hq t _ j]
  have hy : dq2 T q 1 dy t i j = 0 := by
    funext v
    rw [dq2_y]
    simp only [hq t i]
    rw [← Finset.sum_mul, dervals_const h, zero_mul, zero_div]
    rfl
  unfold rhs2 rhs1
  simp only [foldl_sub_univ, hx, hy, hb, hq t _ _, hW, Pi.zero_apply, add_zero]
  rw [← Finset.sum_mul (f := fun k => T.der j k), der_const h, zero_mul, mul_zero, zero_div, sub_zero]
  have e : ∑ k : Fin n, T.w t * T.der i k * (T.w j * S.flux 0 (p (t * n + k)) v) / dx =
      T.w j * (T.w t * (∑ k : Fin n, T.der i k * S.flux 0 (p (t * n + k)) v) / dx) := by
    rw [Finset.mul_sum, Finset.sum_div, Finset.mul_sum]
    exact Finset.sum_congr rfl fun k _ => by ring
  rw [e]
  ring

theorem step_line (h : T.Ok) (hb : ∀ q, S.bdot 1 q 0 = 0) (Ww Wp : Nat → ι → ℝ) (dt dx dy : ℝ)
    (hW : ∀ (t i j : Fin n) v, Ww ((t * n + i) * n + j) v = T.w j * Wp (t * n + i) v)
    (step2 step1 : (Nat → ι → ℝ) → (Nat → ι → ℝ)) (h2 : IsStep2 T S Ww dt dx dy step2) (h1 : IsStep1 T S Wp dt dx step1)
    (q p : Nat → ι → ℝ) (hq : Spreads3 n q p) : Spreads3 n (step2 q) (step1 p) := by
  obtain ⟨U1, hU1, r1, c1, e1⟩ := u1_entry T (fun _ _ => 0)
  obtain ⟨U2, hU2, r2, c2, e2⟩ := u2_entry T (fun _ _ => 0)
  let b1 : Nat → ι → ℝ := fun r v => if hh : r / n < n ∧ r % n < n then rhs1 S T p Wp dt dx ⟨r / n, hh.1⟩ ⟨r % n, hh.2⟩ v else 0
  let b2 : Nat → ι → ℝ := fun r v => if hh : r / n / n < n ∧ r / n % n < n ∧ r % n < n then
      rhs2 S T q Ww dt dx dy ⟨r / n / n, hh.1⟩ ⟨r / n % n, hh.2.1⟩ ⟨r % n, hh.2.2⟩ v else 0
  have hb1 : ∀ t i : Fin n, b1 (t * n + i) = rhs1 S T p Wp dt dx t i := by
    intro t i
    obtain ⟨a1, a2⟩ := row_div t i
    funext v
    simp only [b1, a1, a2, t.2, i.2, and_self, dite_true, Fin.eta]
  have hb2 : ∀ t i j : Fin n, b2 ((t * n + i) * n + j) = rhs2 S T q Ww dt dx dy t i j := by
    intro t i j
    obtain ⟨a1, a2⟩ := row_div3 t i j
    obtain ⟨a3, a4⟩ := row_div t i
    funext v
    simp only [b2, a1, a2, a3, a4, t.2, i.2, j.2, and_self, dite_true, Fin.eta]
  have s1 := h1 _ U1 hU1 p b1 hb1
  have s2 := h2 _ U2 hU2 q b2 hb2
  have s3 : Solves U2 (fun r => step1 p (r / n)) b2 := by
    rw [solves2_iff r2 c2 e2]
    rw [solves1_iff r1 c1 e1] at s1
    intro t i j v
    have := s1 t i v
    rw [hb1] at this
    rw [hb2, rhs2_line h hb q p Ww Wp hq dt dx dy hW, ← this, Finset.mul_sum]
    refine Finset.sum_congr rfl fun k _ => ?_
    rw [(row_div3 k i j).1]
    ring
  intro t i j
  rw [solve2_unique h r2 c2 e2 _ _ b2 s2 s3 ((t * n + i) * n + j) ?_, (row_div3 t i j).1]
  have := (row_lt ⟨i, i.2⟩ j).2
  have ht := t.2
  calc ((t : Nat) * n + i) * n + j = t * (n * n) + (i * n + j) := by ring
    _ < t * (n * n) + n * n := by simp only at this; omega
    _ = (t + 1) * (n * n) := by ring
    _ ≤ _ := Nat.mul_le_mul_right _ ht

theorem exceeds_line (hn : 0 < n) (tol : ℝ) (q q' p p' : Nat → ι → ℝ) (hq : Spreads3 n q p) (hq' : Spreads3 n q' p') :
    exceedsReal (n * (n * n)) tol q q' = exceedsReal (n * n) tol p p' := by
  rw [Bool.eq_iff_iff, exceedsReal_iff, exceedsReal_iff]
  constructor
  · rintro ⟨r, hr, v, h⟩
    have h1 : r / n < n * n := Nat.div_lt_of_lt_mul (by rwa [← Nat.mul_assoc] at hr ⊢)
    have h2 : r / n / n < n := Nat.div_lt_of_lt_mul h1
    have e := hq ⟨r / n / n, h2⟩ ⟨r / n % n, Nat.mod_lt _ hn⟩ ⟨r % n, Nat.mod_lt _ hn⟩
    have e' := hq' ⟨r / n / n, h2⟩ ⟨r / n % n, Nat.mod_lt _ hn⟩ ⟨r % n, Nat.mod_lt _ hn⟩
    simp only [Nat.div_add_mod' (r / n) n, Nat.div_add_mod' r n] at e e'
    rw [e, e'] at h
    exact ⟨r / n, h1, v, h⟩
  · rintro ⟨r, hr, v, h⟩
    have h1 : r / n < n := Nat.div_lt_of_lt_mul hr
    have e := hq ⟨r / n, h1⟩ ⟨r % n, Nat.mod_lt _ hn⟩ ⟨0, hn⟩
    have e' := hq' ⟨r / n, h1⟩ ⟨r % n, Nat.mod_lt _ hn⟩ ⟨0, hn⟩
    simp only [Nat.div_add_mod' r n, Nat.add_zero] at e e'
    refine ⟨r * n, ?_, v, ?_⟩
    · rw [← Nat.mul_assoc]
      exact Nat.mul_lt_mul_of_pos_right hr hn
    · rw [e, e']; exact h

theorem iterate_line (hn : 0 < n) (tol : ℝ) (step2 step1 : (Nat → ι → ℝ) → (Nat → ι → ℝ))
    (hs : ∀ q p, Spreads3 n q p → Spreads3 n (step2 q) (step1 p)) (nw2 nw1 : Nat → ι → ℝ) (it : Nat) :
    ∀ q p, Spreads3 n q p →
      (∀ a, iterate step2 (exceedsReal (n * (n * n)) tol) (fun _ => false) nw2 it q = some a →
        ∃ b, iterate step1 (exceedsReal (n * n) tol) (fun _ => false) nw1 it p = some b ∧ Spreads3 n a b) ∧
      (∀ b, iterate step1 (exceedsReal (n * n) tol) (fun _ => false) nw1 it p = some b →
        ∃ a, iterate step2 (exceedsReal (n * (n * n)) tol) (fun _ => false) nw2 it q = some a ∧ Spreads3 n a b) := by
  induction it with
  | zero => exact fun q p _ => ⟨fun a h => (nomatch (show (none : Option (Nat → ι → ℝ)) = some a from h)),
      fun b h => (nomatch (show (none : Option (Nat → ι → ℝ)) = some b from h))⟩
  | succ it ih =>
    intro q p hq
    have hs' := hs q p hq
    unfold iterate
    simp only [exceeds_line hn tol _ _ _ _ hs' hq, Bool.false_eq_true, if_false]
    split_ifs with hc
    · exact ih _ _ hs'
    · exact ⟨fun a h => ⟨_, rfl, by rw [← Option.some.inj h]; exact hs'⟩,
        fun b h => ⟨_, rfl, by rw [← Option.some.inj h]; exact hs'⟩⟩

/-- The predictor of the unsplit scheme without `STIFF`: on data that do not vary along y the result for a plane cell is
the result for a line cell, in every column. -/
theorem pred2_line (h : T.Ok) (hb : ∀ q, S.bdot 1 q 0 = 0) (dt dx dy tol : ℝ) (it : Nat)
    (step2 : (Fin n → Fin n → ι → ℝ) → (Nat → ι → ℝ) → (Nat → ι → ℝ))
    (step1 : (Fin n → ι → ℝ) → (Nat → ι → ℝ) → (Nat → ι → ℝ))
    (h2 : ∀ w, IsStep2 T S (initialCondition2 T (rows2 w)) dt dx dy (step2 w))
    (h1 : ∀ w, IsStep1 T S (initialCondition1 T (rows1 w)) dt dx (step1 w))
    (nw2 : (Fin n → Fin n → ι → ℝ) → (Nat → ι → ℝ)) (nw1 : (Fin n → ι → ℝ) → (Nat → ι → ℝ)) (w : Fin n → ι → ℝ) :
    (∀ a, pred2 false it tol step2 nw2 (fun i _ => w i) = some a →
      ∃ b, pred1 false it tol step1 nw1 w = some b ∧ ∀ t < n, Spreads (a t) (b t)) ∧
    (∀ b, pred1 false it tol step1 nw1 w = some b →
      ∃ a, pred2 false it tol step2 nw2 (fun i _ => w i) = some a ∧ ∀ t < n, Spreads (a t) (b t)) := by
  have hn := h.pos
  have hw : ∀ i j : Fin n, rows2 (fun a (_ : Fin n) => w a) (i * n + j) = w i := fun i j => rows2_get _ i j
  have hw1 : ∀ i : Fin n, rows1 w i = w i := fun i => by
    funext v; simp [rows1]
  have hW : ∀ (t i j : Fin n) v, initialCondition2 T (rows2 fun a (_ : Fin n) => w a) ((t * n + i) * n + j) v =
      T.w j * initialCondition1 T (rows1 w) (t * n + i) v := by
    intro t i j v
    rw [initialCondition2_row, initialCondition1_row, hw, hw1]
    ring
  have hg : Spreads3 n (standardInitialGuess2 n (rows2 fun a (_ : Fin n) => w a)) (standardInitialGuess1 n (rows1 w)) := by
    intro t i j
    unfold standardInitialGuess2 standardInitialGuess1
    rw [show ((t : Nat) * n + i) * n + j = (i * n + j) + n * n * t by ring, Nat.add_mul_mod_self_left,
      Nat.mod_eq_of_lt (row_lt i j).2, hw, (row_div t i).2, hw1]
  have key := iterate_line hn tol (step2 fun i _ => w i) (step1 w)
    (fun q p hq => step_line h hb _ _ dt dx dy hW _ _ (h2 _) (h1 _) q p hq) (nw2 fun i _ => w i) (nw1 w) it _ _ hg
  have out : ∀ a b : Nat → ι → ℝ, Spreads3 n a b → ∀ t < n,
      Spreads (fun s => a (t * (n * n) + s)) fun k : Fin n => b (t * n + k) := by
    intro a b hab t ht i j
    have := hab ⟨t, ht⟩ i j
    refine Eq.trans (congrArg a ?_) this
    change t * (n * n) + (i * n + j) = (t * n + i) * n + j
    ring
  unfold pred2 pred1
  simp only [Bool.false_eq_true, if_false]
  constructor
  · intro a ha
    obtain ⟨a', e, rfl⟩ := Option.map_eq_some_iff.1 ha
    obtain ⟨b, e1, hab⟩ := key.1 a' e
    refine ⟨fun t k => b (t * n + k), ?_, out a' b hab⟩
    change Option.map _ (iterate _ _ _ _ _ (standardInitialGuess1 n (rows1 w))) = _
    rw [e1]; rfl
  · intro b hb'
    obtain ⟨b', e, rfl⟩ := Option.map_eq_some_iff.1 hb'
    obtain ⟨a, e1, hab⟩ := key.2 b' e
    refine ⟨fun t k => a (t * (n * n) + k), ?_, out a b' hab⟩
    change Option.map _ (iterate _ _ _ _ _ (standardInitialGuess2 n (rows2 fun i _ => w i))) = _
    rw [e1]; rfl

/-! ### The finite volume update -/

variable {fl : Nat → (ι → ℝ) → (ι → ℝ) → (ι → ℝ)} {wt : Nat → ℝ} {dx dy : ℝ} {sources : Bool}

theorem weights_sum (h : T.Ok) : ∑ s, T.w s = 1 := by
  have := h.exact 1 (by
    rw [Polynomial.degree_one]
    have := h.pos
    exact_mod_cast (by omega : 0 < 2 * n))
  simpa using this

theorem cen_line (h : T.Ok) (hb : ∀ q, S.bdot 1 q 0 = 0) (t : Nat) (q : Nat → ι → ℝ) (p : Fin n → ι → ℝ) (hq : Spreads q p) (v : ι) :
    (((kern2 S T fl wt dx dy sources).cen t q).map (· v)).sum = (((kern1 S T fl wt dx sources).cen t p).map (· v)).sum := by
  simp only [kern2, kern1, List.map_flatMap, List.map_map]
  have e : ∀ (a : Fin n), ((fun x : ι → ℝ => x v) ∘ fun b : Fin n => (wt t * T.w a * T.w b) •
      ((if sources = true then S.source (q (a * n + b)) else 0) -
        (1 / dx) • S.bdot 0 (q (a * n + b)) (fun v => derivs2d T.dervals (fun _ => 0) (fun r => q r v) 0 (a * n + b)) -
        (1 / dy) • S.bdot 1 (q (a * n + b)) (fun v => derivs2d T.dervals (fun _ => 0) (fun r => q r v) 1 (a * n + b)))) =
      fun b => T.w b * ((wt t * T.w a) • ((if sources = true then S.source (p a) else 0) -
        (1 / dx) • S.bdot 0 (p a) (fun v => ∑ k, T.dervals a k * p k v))) v := by
    intro a
    funext b
    simp only [Function.comp_def, hq a b, derivs_spread_x q p hq a b, derivs_spread_y h q p hq a b]
    rw [hb]
    simp only [smul_zero, sub_zero, Pi.smul_apply, smul_eq_mul]
    ring
  simp only [e]
  rw [List.flatMap_def, List.sum_flatten, List.map_map]
  simp only [Function.comp_def, sum_finRange]
  refine Finset.sum_congr rfl fun a _ => ?_
  rw [← Finset.sum_mul, weights_sum h, one_mul]

theorem trace_line (d : Nat) (hd : d = 0) (e : Fin 2) (q : Nat → ι → ℝ) (p : Fin n → ι → ℝ) (hq : Spreads q p) (s : Fin n) :
    trace2 T d e q s = trace T e p := by
  subst hd
  funext v
  unfold trace2 trace
  rw [if_pos rfl]
  refine Finset.sum_congr rfl fun k _ => ?_
  rw [Nat.add_comm, hq k s]

theorem trace_flat (h : T.Ok) (e : Fin 2) (q : Nat → ι → ℝ) (p : Fin n → ι → ℝ) (hq : Spreads q p) (s : Fin n) :
    trace2 T 1 e q s = p s := by
  funext v
  unfold trace2
  rw [if_neg one_ne_zero]
  simp only [hq s]
  rw [← Finset.sum_mul, endvals_sum h, one_mul]

theorem face_line (h : T.Ok) (t : Nat) (ql qr : Nat → ι → ℝ) (pl pr : Fin n → ι → ℝ) (hl : Spreads ql pl) (hr : Spreads qr pr) :
    (kern2 S T fl wt dx dy sources).face 0 t ql qr = (kern1 S T fl wt dx sources).face 0 t pl pr := by
  refine Prod.ext (funext fun v => ?_) (funext fun v => ?_)
  · rw [(kern2_face S T fl wt dx dy sources 0 (Or.inl rfl) t ql qr v).1, (kern1_face S T fl wt dx sources t pl pr v).1]
    simp only [trace_line 0 rfl _ _ _ hl, trace_line 0 rfl _ _ _ hr, if_true]
    rw [← Finset.sum_mul, ← Finset.mul_sum, weights_sum h, mul_one]
  · rw [(kern2_face S T fl wt dx dy sources 0 (Or.inl rfl) t ql qr v).2, (kern1_face S T fl wt dx sources t pl pr v).2]
    simp only [trace_line 0 rfl _ _ _ hl, trace_line 0 rfl _ _ _ hr, if_true]
    rw [← Finset.sum_mul, ← Finset.mul_sum, weights_sum h, mul_one]

theorem face_flat (h : T.Ok) (hb : ∀ q, S.bdot 1 q 0 = 0) (t : Nat) (q0 q1 q2 : Nat → ι → ℝ) (p : Fin n → ι → ℝ) (h0 : Spreads q0 p)
    (h1 : Spreads q1 p) (h2 : Spreads q2 p) (v : ι) :
    ((kern2 S T fl wt dx dy sources).face 1 t q0 q1).2 v + ((kern2 S T fl wt dx dy sources).face 1 t q1 q2).1 v = 0 := by
  have hz : ∀ s : Fin n, bint S T 1 (p s) (p s) = 0 := fun s => bint_const S T 1 (p s) (hb _)
  rw [(kern2_face S T fl wt dx dy sources 1 (Or.inr rfl) t q0 q1 v).2, (kern2_face S T fl wt dx dy sources 1 (Or.inr rfl) t q1 q2 v).1]
  simp only [trace_flat h _ _ _ h0, trace_flat h _ _ _ h1, trace_flat h _ _ _ h2, hz, Pi.zero_apply, zero_add, zero_sub, mul_neg,
    Finset.sum_neg_distrib, neg_neg, add_neg_cancel]

/-- One cell of `fv2` on spread blocks is the cell of `fv1`. -/
theorem fv_line (h : T.Ok) (hb : ∀ q, S.bdot 1 q 0 = 0) (rec2 : Nat → Nat → ι → ℝ) (rec1 : Nat → Fin n → ι → ℝ) (nx ny nt : Nat)
    (mask2 mask1 : Nat → Bool) (x y : Nat) (hx : x < nx) (hy : y < ny)
    (hm : ∀ a b, a ≤ 2 → b ≤ 2 → a = 1 ∨ b = 1 → mask2 (cell (x + a) (y + b) (ny + 2)) = mask1 (x + a))
    (hr : ∀ a b t, a ≤ 2 → b ≤ 2 → a = 1 ∨ b = 1 → t < nt → mask1 (x + a) = true →
      Spreads (rec2 (ind3 (x + a) (y + b) t (ny + 2) nt)) (rec1 (ind2 (x + a) t nt)))
    (u2 u1 : Nat → ι → ℝ) (hu : u2 (cell x y ny) = u1 x) :
    apply (kern2 S T fl wt dx dy sources).app (fv2 (kern2 S T fl wt dx dy sources) rec2 nx ny nt mask2) u2 (cell x y ny) =
      apply (kern1 S T fl wt dx sources).app (fv1 (kern1 S T fl wt dx sources) rec1 nx nt mask1) u1 x := by
  funext v
  rw [apply_get, fv2_at _ rec2 nx ny nt mask2 x y hx hy, apply_get, fv1_at _ rec1 nx nt mask1 x hx]
  change List.foldl (fun (u d : ι → ℝ) => u + d) _ _ v = List.foldl (fun (u d : ι → ℝ) => u + d) _ _ v
  simp only [foldl_add_get, List.map_append, List.sum_append, sum_flatMap_range, if_single_sum]
  have m0 : mask2 (cell x (y + 1) (ny + 2)) = mask1 x := hm 0 1 (by omega) (by omega) (by omega)
  have m1 := hm 1 1 (by omega) (by omega) (by omega)
  have m2 := hm 2 1 (by omega) (by omega) (by omega)
  have m3 : mask2 (cell (x + 1) y (ny + 2)) = mask1 (x + 1) := hm 1 0 (by omega) (by omega) (by omega)
  have m4 := hm 1 2 (by omega) (by omega) (by omega)
  rw [hu]
  congr 1
  rw [m0, m1, m2, m3, m4]
  have hA : ∀ t ∈ Finset.range nt, mask1 (x + 1) = true → Spreads (rec2 (ind3 (x + 1) (y + 1) t (ny + 2) nt)) (rec1 (ind2 (x + 1) t nt)) :=
    fun t ht h1 => hr 1 1 t (by omega) (by omega) (by omega) (Finset.mem_range.1 ht) h1
  congr 1
  · refine Finset.sum_congr rfl fun t ht => ?_
    cases h1 : mask1 (x + 1)
    · rfl
    · simp only [if_true]
      exact cen_line h hb t _ _ (hA t ht h1) v
  · refine Finset.sum_congr rfl fun t ht => ?_
    cases h1 : mask1 (x + 1)
    · simp
    · have hl := fun h0 => face_line (S := S) (fl := fl) (wt := wt) (dx := dx) (dy := dy) (sources := sources) h t _ _ _ _
        (hr 0 1 t (by omega) (by omega) (by omega) (Finset.mem_range.1 ht) h0) (hA t ht h1)
      have hr' := fun h2 => face_line (S := S) (fl := fl) (wt := wt) (dx := dx) (dy := dy) (sources := sources) h t _ _ _ _
        (hA t ht h1) (hr 2 1 t (by omega) (by omega) (by omega) (Finset.mem_range.1 ht) h2)
      have hf := face_flat (S := S) (fl := fl) (wt := wt) (dx := dx) (dy := dy) (sources := sources) h hb t _ _ _ _
        (hr 1 0 t (by omega) (by omega) (by omega) (Finset.mem_range.1 ht) h1) (hA t ht h1)
        (hr 1 2 t (by omega) (by omega) (by omega) (Finset.mem_range.1 ht) h1) v
      simp only [Nat.add_zero] at hl hf
      simp only [Bool.and_true, Bool.true_and, if_true]
      cases h0 : mask1 x
      · cases h2 : mask1 (x + 2)
        · simp only [Bool.false_eq_true, if_false]; linarith
        · simp only [Bool.false_eq_true, if_false, if_true, ← hr' h2]; linarith
      · cases h2 : mask1 (x + 2)
        · simp only [Bool.false_eq_true, if_false, if_true, ← hl h0]; linarith
        · simp only [if_true, ← hl h0, ← hr' h2]; linarith

end Verif.Step
