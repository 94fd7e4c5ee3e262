import Verif.Step.Props
import Verif.Fv.Uniform
import Verif.Weno.Props

/-!
# The steppers over the reals: C16, and the two-dimensional counterexample to C14
-/

namespace Verif.Step

open Verif.Fv Verif.Dg Verif.Basis Polynomial

variable {n : Nat} {ι : Type}

/-- `coeffs`, weno.cpp:17-73, on all variables, with the stencil conditions already evaluated. -/
noncomputable def realCoef (W : Weno.Tables n) (undef : ℝ) : Coef n (ι → ℝ) := fun cL cR cCL cCR data k v =>
  let d : Nat → ℝ := fun r => if h : r < 2 * n - 1 then data ⟨r, h⟩ v else 0
  let wL := W.mLinv.mulVec (Weno.block d 0)
  let wR := W.mRinv.mulVec (Weno.block d (n - 1))
  let wCL := W.mCLinv.mulVec (Weno.block d (Weno.fn2 n))
  let wCR := W.mCRinv.mulVec (Weno.block d (Weno.cn2 n))
  let s := Weno.acc cL wL (Weno.weight W wL W.lamS) (0, 0)
  let s := Weno.acc cR wR (Weno.weight W wR W.lamS) s
  let s := Weno.acc cCL wCL (Weno.weight W wCL W.lamC) s
  let s := Weno.acc cCR wCR (Weno.weight W wCR W.lamC) s
  if s.2 = 0 then undef else s.1 k / s.2

/-- The generic `weno1` on the reals is the `weno1` of `Verif.Weno`. -/
theorem weno1G_real (W : Weno.Tables n) (undef : ℝ) (ub : Nat → ι → ℝ) (nx : Nat) (gap : Int) (i : Nat)
    (k : Fin n) (v : ι) :
    weno1G (realCoef W undef) ub nx gap i k v = Weno.weno1 W undef (fun r => ub r v) nx gap i k := by
  have hk := k.2
  have hb : ∀ b, b ≤ n - 1 → Weno.block (n := n) (fun r => if h : r < 2 * n - 1 then
      (fun r : Fin (2 * n - 1) => ub (i + r)) ⟨r, h⟩ v else 0) b = Weno.block (fun r => ub (i + r) v) b := by
    intro b hbn
    funext a
    have := a.2
    simp only [Weno.block]
    rw [dif_pos (by omega)]
  have h1 : Weno.fn2 n ≤ n - 1 := by unfold Weno.fn2; omega
  have h2 : Weno.cn2 n ≤ n - 1 := by unfold Weno.cn2; omega
  unfold weno1G realCoef Weno.weno1 Weno.coeffs Weno.coeffsND
  simp only [hb 0 (by omega), hb (n - 1) le_rfl, hb _ h1, hb _ h2]
  split_ifs with h3 h4 h4
  · rfl
  · exact absurd h3 h4
  · exact absurd h4 h3
  · rfl

/-- The generic `weno2` on the reals is the `weno2` of `Verif.Weno`. -/
theorem weno2G_real (W : Weno.Tables n) (undef : ℝ) (nc : Bool) (ub : Nat → ι → ℝ) (nx ny : Nat)
    (ux0 wh0 : Nat → ℝ) (i j : Nat) (hi : i < nx) (hj : j < ny) (ii jj : Fin n) (v : ι) :
    weno2G (realCoef W undef) nc ub nx ny i j ii jj v =
      Weno.weno2 W undef nc (fun r => ub r v) nx ny ux0 wh0 (((i * ny + j) * n + ii) * n + jj) := by
  have hn := ii.2
  rw [Weno.weno2_get W undef nc _ nx ny ux0 wh0 i j hi hj ii jj]
  unfold weno2G
  simp only [weno1G_real]
  have key : ∀ (a b : Nat → ℝ), (∀ r, r < 2 * n - 1 → a (j + r) = b (j + r)) → ∀ gap,
      Weno.weno1 W undef a ny gap j jj = Weno.weno1 W undef b ny gap j jj := by
    intro a b hab gap
    have hbl : ∀ c, c ≤ n - 1 → Weno.block (n := n) (fun r => a (j + r)) c = Weno.block (fun r => b (j + r)) c := by
      intro c hc
      funext x
      have := x.2
      simp only [Weno.block]
      exact hab _ (by omega)
    have h1 : Weno.fn2 n ≤ n - 1 := by unfold Weno.fn2; omega
    have h2 : Weno.cn2 n ≤ n - 1 := by unfold Weno.cn2; omega
    unfold Weno.weno1 Weno.coeffs Weno.coeffsND
    simp only [hbl 0 (by omega), hbl (n - 1) le_rfl, hbl _ h1, hbl _ h2]
  refine key _ _ (fun r hr => ?_) _
  rw [Weno.weno2x_get W undef nc _ nx ny ux0 i (j + r) hi (by omega) ii]
  unfold Weno.gapX
  simp only [Nat.add_comm]

/-- A constant is reconstructed as itself wherever a stencil is active. -/
theorem weno1G_const (W : Weno.Setup n) (undef : ℝ) (ub : Nat → ι → ℝ) (nx : Nat) (gap : Int) (i : Nat)
    (ha : Weno.Active n nx gap i) (c : ι → ℝ) (h : ∀ r, r < 2 * n - 1 → ub (i + r) = c) (k : Fin n) :
    weno1G (realCoef W.T undef) ub nx gap i k = c := by
  funext v
  rw [weno1G_real]
  unfold Weno.weno1
  rw [Weno.coeffs_poly W undef _ nx gap i ha (C (c v)) (degree_one_lt W.pos _) ?_ k, eval_C]
  intro r hr
  simp [h r hr]

theorem weno2G_const (W : Weno.Setup n) (undef : ℝ) (nc : Bool) (ub : Nat → ι → ℝ) (nx ny i j : Nat)
    (hw : Weno.Wide n nc nx ny) (hi : i < nx) (hj : j < ny) (c : ι → ℝ)
    (h : ∀ r, r < (nx + 2 * (n - 1)) * (ny + 2 * (n - 1)) → ub r = c) (ii jj : Fin n) :
    weno2G (realCoef W.T undef) nc ub nx ny i j ii jj = c := by
  unfold weno2G
  refine weno1G_const W undef _ ny _ j (Weno.active_y hw i j hj) c (fun r hr => ?_) jj
  refine weno1G_const W undef _ nx _ i (Weno.active_x W.pos hw i (j + r) hi) c (fun r' hr' => ?_) ii
  have h1 : i + r' < nx + 2 * (n - 1) := by omega
  have h2 : j + r < ny + 2 * (n - 1) := by omega
  refine h _ ?_
  calc (i + r') * (ny + 2 * (n - 1)) + (j + r) < (i + r') * (ny + 2 * (n - 1)) + (ny + 2 * (n - 1)) := by omega
    _ = (i + r' + 1) * (ny + 2 * (n - 1)) := by ring
    _ ≤ _ := Nat.mul_le_mul_right _ h1

/-! ### The predictor of one cell -/

/-- `predictor1` on one active cell (dg1.cpp:72-111) as used by `ader_stepper`: `solve` is
`DG_U1.solve(rhs1(·))`, `newton` the result of `nonlin_solve`. -/
noncomputable def pred1 (stiff : Bool) (DG_IT : Nat) (tol : ℝ)
    (step : (Fin n → ι → ℝ) → (Nat → ι → ℝ) → (Nat → ι → ℝ)) (newton : (Fin n → ι → ℝ) → (Nat → ι → ℝ))
    (w : Fin n → ι → ℝ) : Option (Nat → Fin n → ι → ℝ) :=
  let wN : Nat → ι → ℝ := fun r v => if h : r < n then w ⟨r, h⟩ v else 0
  let q := if stiff then some (newton w) else
    iterate (step w) (exceedsReal (n * n) tol) (fun _ => false) (newton w) DG_IT (standardInitialGuess1 n wN)
  q.map fun q t k => q (t * n + k)

/-- `predictor2` on one active cell, dg2.cpp:118-164. -/
noncomputable def pred2 (stiff : Bool) (DG_IT : Nat) (tol : ℝ)
    (step : (Fin n → Fin n → ι → ℝ) → (Nat → ι → ℝ) → (Nat → ι → ℝ))
    (newton : (Fin n → Fin n → ι → ℝ) → (Nat → ι → ℝ))
    (w : Fin n → Fin n → ι → ℝ) : Option (Nat → Nat → ι → ℝ) :=
  let wN : Nat → ι → ℝ := fun r v => if h : r / n < n ∧ r % n < n then w ⟨r / n, h.1⟩ ⟨r % n, h.2⟩ v else 0
  let q := if stiff then some (newton w) else
    iterate (step w) (exceedsReal (n * (n * n)) tol) (fun _ => false) (newton w) DG_IT
      (standardInitialGuess2 n wN)
  q.map fun q t s => q (t * (n * n) + s)

/-- `wN` of the block `w`, as the predictor reads it. -/
def rows1 (w : Fin n → ι → ℝ) : Nat → ι → ℝ := fun r v => if h : r < n then w ⟨r, h⟩ v else 0

def rows2 (w : Fin n → Fin n → ι → ℝ) : Nat → ι → ℝ := fun r v =>
  if h : r / n < n ∧ r % n < n then w ⟨r / n, h.1⟩ ⟨r % n, h.2⟩ v else 0

theorem pred1_constant {T : Tab n} (h : T.Ok) (S : Sys ι) (c : ι → ℝ) (hs : S.source c = 0)
    (hb : S.bdot 0 c 0 = 0) (dt dx tol : ℝ) (ht : 0 ≤ tol) (stiff : Bool) (DG_IT : Nat) (hit : 0 < DG_IT)
    (step : (Fin n → ι → ℝ) → (Nat → ι → ℝ) → (Nat → ι → ℝ))
    (hstep : ∀ w, IsStep1 T S (initialCondition1 T (rows1 w)) dt dx (step w))
    (newton : (Fin n → ι → ℝ) → (Nat → ι → ℝ))
    (hnewton : ∀ w, (∀ t i : Fin n, ∀ v, obj1 S T (standardInitialGuess1 n (rows1 w))
      (initialCondition1 T (rows1 w)) dt dx t i v = 0) → newton w = standardInitialGuess1 n (rows1 w)) :
    ∃ q, pred1 stiff DG_IT tol step newton (fun _ => c) = some q ∧ ∀ t, t < n → ∀ k, q t k = c := by
  have hn := h.pos
  have hw : ∀ i : Fin n, rows1 (fun _ : Fin n => c) i = c := fun i => by
    funext v; simp [rows1]
  have hg : ∀ r, standardInitialGuess1 n (rows1 (fun _ : Fin n => c)) r = c := fun r =>
    hw ⟨r % n, Nat.mod_lt _ hn⟩
  have hrow : ∀ t, t < n → ∀ k : Fin n, t * n + (k : Nat) < n * n := fun t ht k => (row_lt ⟨t, ht⟩ k).2
  unfold pred1
  cases hst : stiff
  · obtain ⟨it, rfl⟩ := Nat.exists_eq_add_of_le hit
    obtain ⟨q, hq, hqc⟩ := predictor1_constant h S c hs hb (rows1 (fun _ => c)) hw dt dx tol ht
      (step fun _ => c) (hstep _) (newton fun _ => c) it
    rw [Nat.add_comm] at hq
    refine ⟨fun t k => q (t * n + k), ?_, fun t ht k => hqc _ (hrow t ht k)⟩
    simp only [Bool.false_eq_true, if_false]
    change Option.map _ (iterate _ _ _ _ _ (standardInitialGuess1 n (rows1 fun _ => c))) = _
    rw [hq]; rfl
  · refine ⟨fun t k => newton (fun _ => c) (t * n + k), by simp, fun t ht k => ?_⟩
    rw [hnewton (fun _ => c)]
    · exact hg _
    intro t i v
    exact constant_solves1 h S c hs hb _ _ dt dx (fun t i => hg _) hw t i v

theorem pred2_constant {T : Tab n} (h : T.Ok) (S : Sys ι) (c : ι → ℝ) (hs : S.source c = 0)
    (hb : ∀ d, S.bdot d c 0 = 0) (dt dx dy tol : ℝ) (ht : 0 ≤ tol) (stiff : Bool) (DG_IT : Nat)
    (hit : 0 < DG_IT) (step : (Fin n → Fin n → ι → ℝ) → (Nat → ι → ℝ) → (Nat → ι → ℝ))
    (hstep : ∀ w, IsStep2 T S (initialCondition2 T (rows2 w)) dt dx dy (step w))
    (newton : (Fin n → Fin n → ι → ℝ) → (Nat → ι → ℝ))
    (hnewton : ∀ w, (∀ t i j : Fin n, ∀ v, obj2 S T (standardInitialGuess2 n (rows2 w))
      (initialCondition2 T (rows2 w)) dt dx dy t i j v = 0) → newton w = standardInitialGuess2 n (rows2 w)) :
    ∃ q, pred2 stiff DG_IT tol step newton (fun _ _ => c) = some q ∧
      ∀ t, t < n → ∀ s, s < n * n → q t s = c := by
  have hn := h.pos
  have hw : ∀ s, s < n * n → rows2 (fun _ _ : Fin n => c) s = c := fun s hs => by
    have h1 : s / n < n := (Nat.div_lt_iff_lt_mul hn).mpr hs
    have h2 : s % n < n := Nat.mod_lt _ hn
    funext v; simp [rows2, h1, h2]
  have hg : ∀ r, standardInitialGuess2 n (rows2 (fun _ _ : Fin n => c)) r = c := fun r =>
    hw _ (Nat.mod_lt _ (Nat.mul_pos hn hn))
  have hrow : ∀ t, t < n → ∀ s, s < n * n → t * (n * n) + s < n * (n * n) := fun t ht s hs => by
    calc t * (n * n) + s < t * (n * n) + n * n := by omega
      _ = (t + 1) * (n * n) := by ring
      _ ≤ _ := Nat.mul_le_mul_right _ ht
  unfold pred2
  cases hst : stiff
  · obtain ⟨it, rfl⟩ := Nat.exists_eq_add_of_le hit
    obtain ⟨q, hq, hqc⟩ := predictor2_constant h S c hs hb (rows2 (fun _ _ => c)) hw dt dx dy tol ht
      (step fun _ _ => c) (hstep _) (newton fun _ _ => c) it
    rw [Nat.add_comm] at hq
    refine ⟨fun t k => q (t * (n * n) + k), ?_, fun t ht k hk => hqc _ (hrow t ht k hk)⟩
    simp only [Bool.false_eq_true, if_false]
    change Option.map _ (iterate _ _ _ _ _ (standardInitialGuess2 n (rows2 fun _ _ => c))) = _
    rw [hq]; rfl
  · refine ⟨fun t k => newton (fun _ _ => c) (t * (n * n) + k), by simp, fun t ht k _ => ?_⟩
    rw [hnewton (fun _ _ => c)]
    · exact hg _
    intro t i j v
    exact constant_solves2 h S c hs hb _ _ dt dx dy (fun t i j => hg _) (fun i j => hw _ (row_lt i j).2) t i j v

/-! ### C16 -/

/-- **C16, one dimension.**  A padded field holding one state with vanishing source is a fixed point of
`ader_stepper`: with every cell active, no cell changes.  `fl` is any interface function, `newton` any solver
that stays at a root. -/
theorem ader1_uniform {T : Tab n} (h : T.Ok) (W : Weno.Setup n) (undef : ℝ) (S : Sys ι)
    (fl : Nat → (ι → ℝ) → (ι → ℝ) → (ι → ℝ)) (wt : Nat → ℝ) (c : ι → ℝ) (hs : S.source c = 0)
    (hb : S.bdot 0 c 0 = 0) (dt dx tol : ℝ) (ht : 0 ≤ tol) (stiff : Bool) (DG_IT : Nat) (hit : 0 < DG_IT)
    (step : (Fin n → ι → ℝ) → (Nat → ι → ℝ) → (Nat → ι → ℝ))
    (hstep : ∀ w, IsStep1 T S (initialCondition1 T (rows1 w)) dt dx (step w))
    (newton : (Fin n → ι → ℝ) → (Nat → ι → ℝ))
    (hnewton : ∀ w, (∀ t i : Fin n, ∀ v, obj1 S T (standardInitialGuess1 n (rows1 w))
      (initialCondition1 T (rows1 w)) dt dx t i v = 0) → newton w = standardInitialGuess1 n (rows1 w))
    (nx : Nat) (ub : Nat → ι → ℝ) (hub : ∀ r, r < nx + 2 * n → ub r = c) (gar : Nat → Nat → Fin n → ι → ℝ)
    (u : Nat → ι → ℝ) :
    apply (kern1 S T fl wt dx true).app
      (ader1 (realCoef W.T undef) (pred1 stiff DG_IT tol step newton) (kern1 S T fl wt dx true) ub nx
        (fun _ => true) gar) u = u := by
  have hn := h.pos
  obtain ⟨q, hq, hqc⟩ := pred1_constant h S c hs hb dt dx tol ht stiff DG_IT hit step hstep newton hnewton
  funext x
  by_cases hx : x < nx
  · refine fv1_uniform h S fl wt dx true c hb (fun _ => hs) _ nx n _ u x hx ?_ (fun _ => ⟨rfl, rfl⟩)
    intro i _ hi t ht k
    have e1 : (i * n + t) / n = i := by
      rw [Nat.mul_comm, Nat.mul_add_div hn, Nat.div_eq_of_lt ht, Nat.add_zero]
    have e2 : (i * n + t) % n = t := by
      rw [Nat.mul_comm, Nat.mul_add_mod, Nat.mod_eq_of_lt ht]
    have hw : weno1G (realCoef W.T undef) ub ((nx + 2 : Nat) : Int) 0 i = fun _ => c := by
      funext k
      exact weno1G_const W undef ub (nx + 2) 0 i (Weno.active_zero n _ i) c (fun r hr => hub _ (by omega)) k
    simp only [e1, e2, hw, hq, orGarbage, if_true, Option.getD_some]
    exact hqc t ht k
  · rw [apply_get]
    rw [show at' x (ader1 (realCoef W.T undef) (pred1 stiff DG_IT tol step newton) (kern1 S T fl wt dx true)
      ub nx (fun _ => true) gar) = [] from fv1_outside _ _ _ _ _ x hx]
    rfl

/-- **C16, two dimensions**, on grids where every cell has a stencil (C22). -/
theorem ader2_uniform {T : Tab n} (h : T.Ok) (W : Weno.Setup n) (undef : ℝ) (nc : Bool) (S : Sys ι)
    (fl : Nat → (ι → ℝ) → (ι → ℝ) → (ι → ℝ)) (wt : Nat → ℝ) (c : ι → ℝ) (hs : S.source c = 0)
    (hb : ∀ d, S.bdot d c 0 = 0) (dt dx dy tol : ℝ) (ht : 0 ≤ tol) (stiff : Bool) (DG_IT : Nat)
    (hit : 0 < DG_IT) (step : (Fin n → Fin n → ι → ℝ) → (Nat → ι → ℝ) → (Nat → ι → ℝ))
    (hstep : ∀ w, IsStep2 T S (initialCondition2 T (rows2 w)) dt dx dy (step w))
    (newton : (Fin n → Fin n → ι → ℝ) → (Nat → ι → ℝ))
    (hnewton : ∀ w, (∀ t i j : Fin n, ∀ v, obj2 S T (standardInitialGuess2 n (rows2 w))
      (initialCondition2 T (rows2 w)) dt dx dy t i j v = 0) → newton w = standardInitialGuess2 n (rows2 w))
    (nx ny : Nat) (hwide : Weno.Wide n nc (nx + 2) (ny + 2)) (ub : Nat → ι → ℝ)
    (hub : ∀ r, r < (nx + 2 * n) * (ny + 2 * n) → ub r = c)
    (gar : Nat → Nat → Nat → ι → ℝ) (u : Nat → ι → ℝ) :
    apply (kern2 S T fl wt dx dy true).app
      (ader2 (realCoef W.T undef) nc (pred2 stiff DG_IT tol step newton) (kern2 S T fl wt dx dy true) ub nx ny
        (fun _ => true) gar) u = u := by
  have hn := h.pos
  obtain ⟨q, hq, hqc⟩ := pred2_constant h S c hs hb dt dx dy tol ht stiff DG_IT hit step hstep newton hnewton
  funext f
  by_cases hf : f < nx * ny
  · have hny : 0 < ny := by
      rcases Nat.eq_zero_or_pos ny with h0 | h0
      · rw [h0, Nat.mul_zero] at hf; omega
      · exact h0
    have hx : f / ny < nx := (Nat.div_lt_iff_lt_mul hny).mpr hf
    have hy : f % ny < ny := Nat.mod_lt _ hny
    have hfc : f = cell (f / ny) (f % ny) ny := by
      unfold cell; rw [Nat.mul_comm]; exact (Nat.div_add_mod f ny).symm
    rw [hfc]
    refine fv2_uniform h S fl wt dx dy true c hb (fun _ => hs) _ nx ny n _ u _ _ hx hy ?_
      (fun _ => ⟨rfl, rfl, rfl, rfl⟩)
    intro i j hi hj t ht r hr
    have hj' : j < ny + 2 := by omega
    have e1 : ind3 i j t (ny + 2) n / n = i * (ny + 2) + j := by
      unfold ind3
      rw [Nat.mul_comm, Nat.mul_add_div hn, Nat.div_eq_of_lt ht, Nat.add_zero]
    have e2 : ind3 i j t (ny + 2) n % n = t := by
      unfold ind3
      rw [Nat.mul_comm, Nat.mul_add_mod, Nat.mod_eq_of_lt ht]
    have e3 : (i * (ny + 2) + j) / (ny + 2) = i := by
      rw [Nat.mul_comm, Nat.mul_add_div (by omega), Nat.div_eq_of_lt hj', Nat.add_zero]
    have e4 : (i * (ny + 2) + j) % (ny + 2) = j := by
      rw [Nat.mul_comm, Nat.mul_add_mod, Nat.mod_eq_of_lt hj']
    have hw : weno2G (realCoef W.T undef) nc ub (nx + 2) (ny + 2) i j = fun _ _ => c := by
      funext ii jj
      refine weno2G_const W undef nc ub (nx + 2) (ny + 2) i j hwide (by omega) hj' c ?_ ii jj
      rwa [show nx + 2 + 2 * (n - 1) = nx + 2 * n by omega, show ny + 2 + 2 * (n - 1) = ny + 2 * n by omega]
    simp only [e1, e2, e3, e4, hw, hq, orGarbage, if_true, Option.getD_some]
    exact hqc t ht r hr
  · rw [apply_get]
    rw [show at' f (ader2 (realCoef W.T undef) nc (pred2 stiff DG_IT tol step newton)
      (kern2 S T fl wt dx dy true) ub nx ny (fun _ => true) gar) = [] from
      at'_bound _ _ (fun op hop => fv2_bound _ _ _ _ _ _ op hop) f (by omega)]
    rfl

/-! ### Non-vacuity: the solvers assumed above exist for every `n ≥ 1` -/

theorem mat_solve {T : Tab n} (h : T.Ok) (b : Fin n → ℝ) (t : Fin n) :
    ∑ k, T.mat t k * ∑ t', T.mat⁻¹ k t' * b t' = b t := by
  have e : T.mat * T.mat⁻¹ = 1 := Matrix.mul_nonsing_inv _ (mat_isUnit h)
  have : ∀ t', ∑ k, T.mat t k * T.mat⁻¹ k t' = (1 : Matrix (Fin n) (Fin n) ℝ) t t' := fun t' => by
    rw [← e, Matrix.mul_apply]
  simp only [Finset.mul_sum]
  rw [Finset.sum_comm]
  simp only [← mul_assoc, ← Finset.sum_mul, this]
  simp [Matrix.one_apply]

theorem isStep1_exists {T : Tab n} (h : T.Ok) (S : Sys ι) (Ww : Nat → ι → ℝ) (dt dx : ℝ) :
    ∃ step, IsStep1 T S Ww dt dx step := by
  refine ⟨fun q r v => if hh : r / n < n ∧ r % n < n then
    ∑ t', T.mat⁻¹ ⟨r / n, hh.1⟩ t' * (rhs1 S T q Ww dt dx t' ⟨r % n, hh.2⟩ v / T.w ⟨r % n, hh.2⟩) else 0, ?_⟩
  intro junk U hU q b hb
  obtain ⟨U', hU', hr, hc, he⟩ := u1_entry T junk
  rw [hU] at hU'
  obtain rfl := Option.some.inj hU'
  rw [solves1_iff hr hc he]
  intro t i v
  rw [hb]
  have e : ∀ k : Fin n, ((k : Nat) * n + i) / n = k ∧ ((k : Nat) * n + i) % n = i := fun k => row_div k i
  simp only [(e _).1, (e _).2, Fin.is_lt, and_self, dite_true, Fin.eta]
  have := mat_solve h (fun t' => rhs1 S T q Ww dt dx t' i v / T.w i) t
  simp only [mul_right_comm _ (T.w i)]
  rw [← Finset.sum_mul, this, div_mul_cancel₀ _ (h.wpos i).ne']

theorem isStep2_exists {T : Tab n} (h : T.Ok) (S : Sys ι) (Ww : Nat → ι → ℝ) (dt dx dy : ℝ) :
    ∃ step, IsStep2 T S Ww dt dx dy step := by
  refine ⟨fun q r v => if hh : r / n / n < n ∧ r / n % n < n ∧ r % n < n then
    ∑ t', T.mat⁻¹ ⟨r / n / n, hh.1⟩ t' *
      (rhs2 S T q Ww dt dx dy t' ⟨r / n % n, hh.2.1⟩ ⟨r % n, hh.2.2⟩ v /
        (T.w ⟨r / n % n, hh.2.1⟩ * T.w ⟨r % n, hh.2.2⟩)) else 0, ?_⟩
  intro junk U hU q b hb
  obtain ⟨U', hU', hr, hc, he⟩ := u2_entry T junk
  rw [hU] at hU'
  obtain rfl := Option.some.inj hU'
  rw [solves2_iff hr hc he]
  intro t i j v
  rw [hb]
  have hn := h.pos
  have e : ∀ k : Fin n, (((k : Nat) * n + i) * n + j) / n / n = k ∧
      (((k : Nat) * n + i) * n + j) / n % n = i ∧ (((k : Nat) * n + i) * n + j) % n = j := fun k => by
    have h1 : (((k : Nat) * n + i) * n + j) / n = k * n + i := by
      rw [Nat.mul_comm, Nat.mul_add_div hn, Nat.div_eq_of_lt j.2, Nat.add_zero]
    refine ⟨?_, ?_, ?_⟩
    · rw [h1]; exact (row_div k i).1
    · rw [h1]; exact (row_div k i).2
    · rw [Nat.mul_comm, Nat.mul_add_mod, Nat.mod_eq_of_lt j.2]
  simp only [(e _).1, (e _).2.1, (e _).2.2, Fin.is_lt, and_self, dite_true, Fin.eta]
  have := mat_solve h (fun t' => rhs2 S T q Ww dt dx dy t' i j v / (T.w i * T.w j)) t
  simp only [mul_assoc _ (T.w i), mul_right_comm _ (T.w i * T.w j)]
  rw [← Finset.sum_mul, this, div_mul_cancel₀ _ (mul_pos (h.wpos i) (h.wpos j)).ne']

/-- A solver that stays at a root. -/
example {T : Tab n} (S : Sys ι) (dt dx : ℝ) :
    ∃ newton : (Fin n → ι → ℝ) → (Nat → ι → ℝ), ∀ w,
      (∀ t i : Fin n, ∀ v, obj1 S T (standardInitialGuess1 n (rows1 w))
        (initialCondition1 T (rows1 w)) dt dx t i v = 0) → newton w = standardInitialGuess1 n (rows1 w) :=
  ⟨fun w => standardInitialGuess1 n (rows1 w), fun _ _ => rfl⟩

end Verif.Step
