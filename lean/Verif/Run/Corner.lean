import Verif.Run.Conserve
import Verif.Weno.Two

/-! # Periodic planes with `NO_CORNERS` do not conserve momentum

With the option on (the shipped setting), the first pass of `weno2` uses only the right stencil in the edge columns at
the first rows and only the left stencil at the last rows (weno.cpp:96-99).  On a periodic grid these are the same cells,
so the two reconstructions of one face differ, and with them the fluxes that ought to cancel. -/

namespace Verif.Run

open Verif.Sys Verif.Iter Verif.Dg Verif.Fv Verif.Step Verif.Weno Polynomial

noncomputable section

/-! ### Gauss nodes for `N = 2` -/

theorem gauss_two {T : Tab 2} (h : T.Ok) :
    (∀ k, T.w k = 1 / 2) ∧ T.nodes 1 - 1 / 2 = -(T.nodes 0 - 1 / 2) ∧ (T.nodes 0 - 1 / 2) ^ 2 = 1 / 12 := by
  have ex := h.exact
  simp only [Fin.sum_univ_two] at ex
  have e0 := ex 1 (by rw [degree_one]; norm_num)
  have deg : ∀ p : ℕ, p < 4 → (((X : ℝ[X]) - C (1 / 2)) ^ p).degree < ((2 * 2 : Nat) : WithBot ℕ) := by
    intro p hp
    rw [degree_pow, degree_X_sub_C, nsmul_eq_mul, mul_one]
    exact_mod_cast hp
  have int : ∀ p : ℕ, ∫ t in (0 : ℝ)..1, (t - 1 / 2) ^ p = ((1 / 2) ^ (p + 1) - (-(1 / 2)) ^ (p + 1)) / (p + 1) := by
    intro p
    rw [intervalIntegral.integral_comp_sub_right (fun t => t ^ p) (1 / 2), integral_pow]
    norm_num
  have e1 := ex ((X - C (1 / 2)) ^ 1) (deg 1 (by omega))
  have e2 := ex ((X - C (1 / 2)) ^ 2) (deg 2 (by omega))
  have e3 := ex ((X - C (1 / 2)) ^ 3) (deg 3 (by omega))
  simp only [eval_pow, eval_sub, eval_X, eval_C, int, eval_one, intervalIntegral.integral_const, sub_zero, smul_eq_mul,
    mul_one] at e0 e1 e2 e3
  have hne : T.nodes 0 ≠ T.nodes 1 := fun hc => absurd (h.inj hc) (by decide)
  set z0 := T.nodes 0 - 1 / 2 with hz0
  set z1 := T.nodes 1 - 1 / 2 with hz1
  have hz : z0 - z1 ≠ 0 := fun hc => hne (by linarith [hz0, hz1])
  set w0 := T.w 0
  set w1 := T.w 1
  norm_num at e1 e2 e3
  have k1 : w0 * z0 = -(w1 * z1) := by linarith
  have k2 : w0 * z0 * (z0 - z1) * (z0 + z1) = 0 := by linear_combination e3 - z1 ^ 2 * e1
  have k3 : w0 * z0 ≠ 0 := by
    intro hc
    have h2 : w1 * z1 = 0 := by linarith
    have : w0 * z0 ^ 2 + w1 * z1 ^ 2 = 0 := by linear_combination z0 * hc + z1 * h2
    linarith
  have k4 : z0 + z1 = 0 := by
    rcases mul_eq_zero.1 k2 with h | h
    · rcases mul_eq_zero.1 h with h | h
      · exact absurd h k3
      · exact absurd h hz
    · exact h
  have k5 : z1 = -z0 := by linarith
  have z0ne : z0 ≠ 0 := fun hc => k3 (by rw [hc, mul_zero])
  have k6 : w0 = w1 := by
    have : (w0 - w1) * z0 = 0 := by rw [k5] at e1; linear_combination e1
    rcases mul_eq_zero.1 this with h | h
    · linarith
    · exact absurd h z0ne
  have hw0 : w0 = 1 / 2 := by linarith
  have hw1 : w1 = 1 / 2 := by linarith
  refine ⟨fun k => ?_, k5, ?_⟩
  · fin_cases k
    · exact hw0
    · exact hw1
  · rw [k5, hw0, hw1] at e2
    linear_combination e2

/-- End values of lines. -/
theorem ends_two {T : Tab 2} (h : T.Ok) (a s : ℝ) :
    ∑ k, T.endvals 1 k * (a + s * (T.nodes k - 1 / 2)) = a + s / 2 ∧
    ∑ k, T.endvals 0 k * (a + s * (T.nodes k - 1 / 2)) = a - s / 2 := by
  have := Basis.end_values_exact T.nodes h.inj T.psi h.basis (C a + C s * (X - C (1 / 2))) (line_degree a s)
  have e : ∀ t, (C a + C s * (X - C (1 / 2)) : ℝ[X]).eval t = a + s * (t - 1 / 2) := fun t => by simp
  simp only [e] at this
  refine ⟨this.2.trans (by ring), this.1.trans (by ring)⟩

/-! ### The fluxes -/

/-- Components other than density: energy 1, momentum (1, 0, 1), identity distortion. -/
def base (k : Nat) : ℝ := if k = 1 ∨ k = 2 ∨ k = 4 ∨ k = 5 ∨ k = 9 ∨ k = 13 then 1 else 0

def Nice (q : Fin lineCfg.V → ℝ) : Prop := ∀ v, v.1 ≠ 0 → q v = base v

theorem nice_get {q : Fin lineCfg.V → ℝ} (h : Nice q) (k : Nat) (h0 : k ≠ 0) (h1 : k < 14) : ofVec lineCfg q k = base k := by
  unfold ofVec
  rw [dif_pos (show k < lineCfg.V from h1)]
  exact h ⟨k, _⟩ h0

theorem nice_A {q : Fin lineCfg.V → ℝ} (h : Nice q) : getA (ofVec lineCfg q) = 1 := by
  ext a b
  simp only [getA, Matrix.of_apply]
  rw [nice_get h _ (by omega) (by omega)]
  fin_cases a <;> fin_cases b <;> simp [base]

theorem nice_flux (P : Par) {q : Fin lineCfg.V → ℝ} (h : Nice q) (d : Fin 3) (hd : d ≠ 2) :
    flux lineCfg P (ofVec lineCfg q) d 0 4 = base (2 + d) / q ⟨0, by decide⟩ := by
  have hA := nice_A h
  have hs : sigmaCol P.toParams (ofVec lineCfg q) d = 0 := by
    unfold sigmaCol dEdAs
    rw [hA]
    have : AdevG (1 : M3) = 0 := by
      ext a b
      fin_cases a <;> fin_cases b <;> norm_num [AdevG]
    rw [this]
    simp
  have h0 : ofVec lineCfg q 0 = q ⟨0, by decide⟩ := by
    unfold ofVec; rw [dif_pos (show 0 < lineCfg.V by decide)]
  have hq : ∀ i : Fin 3, getRv (ofVec lineCfg q) i = base (2 + i) := fun i => by
    unfold getRv
    exact nice_get h _ (by omega) (by omega)
  simp only [flux, fluxBase, fluxViscous, show lineCfg.viscous = true from rfl, show lineCfg.thermal = false from rfl,
    show lineCfg.multi = false from rfl, if_true, Bool.false_eq_true, if_false, hs]
  fin_cases d
  · simp [addAt, addSeg, hq, h0, base]
  · simp [addAt, addSeg, hq, h0, base]
  · exact absurd rfl hd

/-- `D_RUS` in direction `d`. -/
def rus (P : Par) (mae : St → Fin 3 → ℝ) (d : Nat) (qL qR : Fin lineCfg.V → ℝ) : Fin lineCfg.V → ℝ := fun v =>
  dRus lineCfg P mae (ofVec lineCfg qL) (ofVec lineCfg qR) (dir d) v

theorem rus_nice (P : Par) (mae : St → Fin 3 → ℝ) {qL qR : Fin lineCfg.V → ℝ} (hL : Nice qL) (hR : Nice qR) :
    rus P mae 0 qL qR ⟨4, by decide⟩ = 1 / qL ⟨0, by decide⟩ + 1 / qR ⟨0, by decide⟩ ∧
    rus P mae 1 qL qR ⟨4, by decide⟩ = 0 := by
  have e : ∀ d, rus P mae d qL qR ⟨4, by decide⟩ =
      flux lineCfg P (ofVec lineCfg qL) (dir d) 0 4 + flux lineCfg P (ofVec lineCfg qR) (dir d) 0 4 := by
    intro d
    unfold rus dRus
    simp only
    rw [flux_adds lineCfg P _ _ rfl, flux_adds lineCfg P (ofVec lineCfg qL) _ rfl]
    simp only [Pi.add_apply]
    rw [nice_get hL 4 (by omega) (by omega), nice_get hR 4 (by omega) (by omega), sub_self, mul_zero, zero_add]
  constructor
  · rw [e, nice_flux P hL _ (by decide), nice_flux P hR _ (by decide)]
    simp [dir, base]
  · rw [e, nice_flux P hL _ (by decide), nice_flux P hR _ (by decide)]
    simp [dir, base]

/-! ### The reconstruction -/

theorem coeffs_line (W : Setup 2) (hW : W.Clean) (undef : ℝ) (d : Nat → ℝ) (nx gap ind : Int) (s : ℝ)
    (h : ind ≥ gap ∨ ind ≤ nx - gap - 1) (h0 : d 1 - d 0 = s) (h1 : d 2 - d 1 = s) (k : Fin 2) :
    coeffs W.T undef d nx gap ind k = d 1 + s * (W.x k - 1 / 2) := by
  by_cases c1 : ind ≥ gap
  · by_cases c2 : ind ≤ nx - gap - 1
    · rw [coeffs_both W hW undef d nx gap ind c1 c2, h0, h1, mix_self _ _ W.ok.eps]
    · rw [coeffs_left W hW undef d nx gap ind c1 c2, h0]
  · have c2 := h.resolve_left c1
    rw [coeffs_right W hW undef d nx gap ind c1 c2, h1]

/-- Densities of the rows. -/
def dens (x : Nat) : ℝ := if x = 0 then 2 else if x = 1 then 3 else 1

def cellQ (x : Nat) : Fin lineCfg.V → ℝ := fun v => if v.1 = 0 then dens x else base v

theorem cellQ_nice (x : Nat) : Nice (cellQ x) := fun _ hv => if_neg hv

/-- The row of densities that the padded row `R` shows, on a plane of `nx` rows turned by `s` rows. -/
def turned (nx s R : Nat) : Nat := (R + (nx - 2) + s) % nx

theorem turned_ends (nx s R : Nat) : turned nx s (nx + R) = turned nx s R := by
  unfold turned
  rw [show nx + R + (nx - 2) + s = R + (nx - 2) + s + nx by omega, Nat.add_mod_right]

theorem turned_start (nx : Nat) (hn : 4 ≤ nx) :
    turned nx 0 0 = nx - 2 ∧ turned nx 0 1 = nx - 1 ∧ turned nx 0 2 = 0 ∧ turned nx 0 3 = 1 := by
  unfold turned
  refine ⟨?_, ?_, ?_, ?_⟩
  · rw [Nat.mod_eq_of_lt (by omega)]; omega
  · rw [Nat.mod_eq_of_lt (by omega)]; omega
  · rw [show 2 + (nx - 2) + 0 = nx by omega, Nat.mod_self]
  · rw [show 3 + (nx - 2) + 0 = 1 + nx by omega, Nat.add_mod_right, Nat.mod_eq_of_lt (by omega)]

section rec

variable (nx s : Nat) (hn : 4 ≤ nx) (W : Setup 2) (hW : W.Clean) (undef : ℝ) (ub : Nat → Fin lineCfg.V → ℝ)
  (hub : ∀ R < nx + 4, ∀ J < 6, ub (R * 6 + J) = cellQ (turned nx s R))

/-- The result of the first pass of `weno2` in column `J`. -/
def firstPass (i : Nat) (ii : Fin 2) (J : Nat) : Fin lineCfg.V → ℝ :=
  weno1G (realCoef W.T undef) (fun r => ub (r * (4 + 2 * (2 - 1)) + J)) ((nx + 2 : Nat) : Int)
    (if true && (decide (J < 2) || decide (J + 2 ≥ 4 + 2 * (2 - 1))) then ((2 : Nat) : Int) else 0) i ii

theorem weno2_passes (i j : Nat) (ii jj : Fin 2) (v : Fin lineCfg.V) (h : Side nx 2 i j) :
    weno2G (realCoef W.T undef) true ub (nx + 2) 4 i j ii jj v = coeffs W.T undef (fun r => firstPass nx W undef ub i ii (j + r) v)
      ((4 : Nat) : Int) (if true && (decide (i = 0) || decide (i + 1 = nx + 2)) then 1 else 0) j jj ∧
    ((j : Int) ≥ if true && (decide (i = 0) || decide (i + 1 = nx + 2)) then 1 else 0) ∧
    (j : Int) ≤ ((4 : Nat) : Int) - (if true && (decide (i = 0) || decide (i + 1 = nx + 2)) then 1 else 0) - 1 := by
  obtain ⟨h1, h2, h3⟩ := h
  refine ⟨?_, ?_, ?_⟩
  · unfold weno2G
    exact weno1G_real W.T undef (firstPass nx W undef ub i ii) 4 _ j jj v
  · split_ifs with hc
    · simp only [Bool.true_and, Bool.or_eq_true, decide_eq_true_eq] at hc
      omega
    · omega
  · split_ifs with hc
    · simp only [Bool.true_and, Bool.or_eq_true, decide_eq_true_eq] at hc
      omega
    · omega

theorem first_real (i : Nat) (ii : Fin 2) (J : Nat) (v : Fin lineCfg.V) : firstPass nx W undef ub i ii J v =
    coeffs W.T undef (fun r => ub ((i + r) * 6 + J) v) ((nx + 2 : Nat) : Int) (if J < 2 ∨ J ≥ 4 then 2 else 0) i ii := by
  unfold firstPass
  rw [weno1G_real]
  unfold weno1
  congr 1
  by_cases h : J < 2 ∨ J ≥ 4
  · rw [if_pos h, if_pos (by simp; omega)]
    rfl
  · rw [if_neg h, if_neg (by simp; omega)]

include hn in
theorem gap_ok (i J : Nat) (hi : i < nx + 2) : (i : Int) ≥ (if J < 2 ∨ J ≥ 4 then 2 else 0) ∨
    (i : Int) ≤ ((nx + 2 : Nat) : Int) - (if J < 2 ∨ J ≥ 4 then 2 else 0) - 1 := by
  split_ifs <;> omega

include hn hW hub

theorem first_base (i : Nat) (ii : Fin 2) (J : Nat) (v : Fin lineCfg.V) (hi : i < nx + 2) (hJ : J < 6) (hv : v.1 ≠ 0) :
    firstPass nx W undef ub i ii J v = base v := by
  have e : ∀ r < 3, ub ((i + r) * 6 + J) v = base v := fun r hr => by
    rw [hub (i + r) (by omega) J hJ]
    exact cellQ_nice _ v hv
  rw [first_real, coeffs_line W hW undef _ _ _ _ 0 (gap_ok nx hn i J hi) (by rw [e 1 (by omega), e 0 (by omega), sub_self])
    (by rw [e 2 (by omega), e 1 (by omega), sub_self]), e 1 (by omega), zero_mul, add_zero]

theorem rec_base (i j : Nat) (ii jj : Fin 2) (v : Fin lineCfg.V) (h : Side nx 2 i j) (hv : v.1 ≠ 0) :
    weno2G (realCoef W.T undef) true ub (nx + 2) 4 i j ii jj v = base v := by
  have hs := h
  obtain ⟨h1, h2, h3⟩ := hs
  obtain ⟨e, g1, g2⟩ := weno2_passes nx W undef ub i j ii jj v h
  have f := fun r (hr : r < 3) => first_base nx s hn W hW undef ub hub i ii (j + r) v (by omega) (by omega) hv
  rw [e, coeffs_line W hW undef _ _ _ _ 0 (Or.inl g1) (by rw [f 1 (by omega), f 0 (by omega), sub_self])
    (by rw [f 2 (by omega), f 1 (by omega), sub_self]), f 1 (by omega), zero_mul, add_zero]

/-- Where the rows are a straight line all stencils agree. -/
theorem rec_linear (i j : Nat) (ii jj : Fin 2) (v : Fin lineCfg.V) (hi : i < nx + 2) (m σ : ℝ)
    (hd : ∀ r < 3, dens (turned nx s (i + r)) = m + σ * ((r : ℝ) - 1)) (hj : j = 1 ∨ j = 2) (hv : v.1 = 0) :
    weno2G (realCoef W.T undef) true ub (nx + 2) 4 i j ii jj v = m + σ * (W.x ii - 1 / 2) := by
  have f : ∀ J < 6, firstPass nx W undef ub i ii J v = m + σ * (W.x ii - 1 / 2) := by
    intro J hJ
    have e : ∀ r < 3, ub ((i + r) * 6 + J) v = m + σ * ((r : ℝ) - 1) := fun r hr => by
      rw [hub (i + r) (by omega) J hJ, ← hd r hr]
      exact if_pos hv
    rw [first_real, coeffs_line W hW undef _ _ _ _ σ (gap_ok nx hn i J hi)
      (by rw [e 1 (by omega), e 0 (by omega)]; push_cast; ring) (by rw [e 2 (by omega), e 1 (by omega)]; push_cast; ring),
      e 1 (by omega)]
    push_cast
    ring
  obtain ⟨e, g1, g2⟩ := weno2_passes nx W undef ub i j ii jj v ⟨by omega, by omega, by omega⟩
  rw [e, coeffs_line W hW undef _ _ _ _ 0 (Or.inl g1) (by rw [f _ (by omega), f _ (by omega), sub_self])
    (by rw [f _ (by omega), f _ (by omega), sub_self]), f _ (by omega), zero_mul, add_zero]

/-- The share of the slope that the full reconstruction keeps at the jump. -/
theorem first_inner (i : Nat) (ii : Fin 2) (J : Nat) (v : Fin lineCfg.V) (hi : i = 0 ∨ i = nx)
    (hd : ∀ r < 3, dens (turned nx s (i + r)) = if r = 2 then 2 else 1) (hJ : J = 2 ∨ J = 3)
    (hv : v.1 = 0) : firstPass nx W undef ub i ii J v = 1 + share W.T.eps 1 * (W.x ii - 1 / 2) := by
  have e : ∀ r < 3, ub ((i + r) * 6 + J) v = if r = 2 then 2 else 1 := fun r hr => by
    rw [hub (i + r) (by omega) J (by omega), ← hd r hr]
    exact if_pos hv
  rw [first_real, if_neg (by omega), coeffs_both W hW undef _ _ _ _ (by omega) (by omega), e 0 (by omega), e 1 (by omega),
    e 2 (by omega)]
  norm_num
  rw [mix_zero_left _ _ W.ok.eps, one_mul]
  norm_num

theorem first_outer (i : Nat) (ii : Fin 2) (J : Nat) (v : Fin lineCfg.V) (hi : i = 0 ∨ i = nx)
    (hd : ∀ r < 3, dens (turned nx s (i + r)) = if r = 2 then 2 else 1) (hJ : J = 1 ∨ J = 4)
    (hv : v.1 = 0) : firstPass nx W undef ub i ii J v = 1 + (if i = 0 then 1 else 0) * (W.x ii - 1 / 2) := by
  have e : ∀ r < 3, ub ((i + r) * 6 + J) v = if r = 2 then 2 else 1 := fun r hr => by
    rw [hub (i + r) (by omega) J (by omega), ← hd r hr]
    exact if_pos hv
  rw [first_real, if_pos (by omega)]
  rcases hi with rfl | rfl
  · rw [coeffs_right W hW undef _ _ _ _ (by omega) (by push_cast; omega), e 1 (by omega), e 2 (by omega)]
    norm_num
  · rw [coeffs_left W hW undef _ _ _ _ (by omega) (by push_cast; omega), e 1 (by omega), e 0 (by omega),
      if_neg (show i ≠ 0 by omega)]
    norm_num

/-- The slope by which the edge column differs. -/
def defect (eps : ℝ) (i : Nat) : ℝ := (if i = 0 then 1 else 0) - share eps 1

theorem rec_jump (i j : Nat) (ii jj : Fin 2) (v : Fin lineCfg.V) (hi : i = 0 ∨ i = nx)
    (hd : ∀ r < 3, dens (turned nx s (i + r)) = if r = 2 then 2 else 1) (hj : j = 1 ∨ j = 2) (hv : v.1 = 0) :
    weno2G (realCoef W.T undef) true ub (nx + 2) 4 i j ii jj v =
      1 + share W.T.eps 1 * (W.x ii - 1 / 2) + (if j = 1 then -1 else 1) * (defect W.T.eps i * (W.x ii - 1 / 2)) *
        share W.T.eps (defect W.T.eps i * (W.x ii - 1 / 2)) * (W.x jj - 1 / 2) := by
  obtain ⟨e, g1, g2⟩ := weno2_passes nx W undef ub i j ii jj v ⟨by omega, by omega, by omega⟩
  have fi := fun J hJ => first_inner nx s hn W hW undef ub hub i ii J v hi hd hJ hv
  have fo := fun J hJ => first_outer nx s hn W hW undef ub hub i ii J v hi hd hJ hv
  have even : ∀ q, share W.T.eps (-q) = share W.T.eps q := fun q => by unfold share; rw [neg_sq]
  rw [e, coeffs_both W hW undef _ _ _ _ g1 g2]
  rcases hj with rfl | rfl
  · simp only [show 1 + 0 = 1 from rfl, show 1 + 1 = 2 from rfl, show 1 + 2 = 3 from rfl]
    rw [fi 2 (by omega), fi 3 (by omega), fo 1 (by omega), sub_self, mix_zero_right _ _ W.ok.eps]
    rw [show 1 + share W.T.eps 1 * (W.x ii - 1 / 2) - (1 + (if i = 0 then 1 else 0) * (W.x ii - 1 / 2)) =
      -(defect W.T.eps i * (W.x ii - 1 / 2)) by unfold defect; ring, even, if_pos trivial]
    ring
  · simp only [show 2 + 0 = 2 from rfl, show 2 + 1 = 3 from rfl, show 2 + 2 = 4 from rfl]
    rw [fi 2 (by omega), fi 3 (by omega), fo 4 (by omega), sub_self, mix_zero_left _ _ W.ok.eps]
    rw [show (1 + (if i = 0 then 1 else 0) * (W.x ii - 1 / 2)) - (1 + share W.T.eps 1 * (W.x ii - 1 / 2)) =
      defect W.T.eps i * (W.x ii - 1 / 2) by unfold defect; ring, if_neg (by decide)]
    ring

end rec

/-! ### The leak -/

/-- `nx` rows, two columns, Rusanov's flux, no predictor between the source terms, zero body force. -/
def planeEnv (nx : Nat) (T : Tab 2) (W : Setup 2) (undef : ℝ) (mae : St → Fin 3 → ℝ) (dx dy : ℝ) : Env lineCfg 2 where
  P := samplePar sample
  T := T
  nx := nx
  ny := 2
  dx := dx
  dy := dy
  fl := rus (samplePar sample) mae
  src := Relax.source lineCfg (samplePar sample) 0
  junk := fun _ => 7
  destress := none
  coef := realCoef W.T undef
  pred1 := fun _ _ => none
  pred2 := fun _ _ => none
  half := false
  mid1 := fun _ w => w
  mid2 := fun _ w => w
  block := fun w r v => if h : r < 4 then w ⟨r / 2, by omega⟩ ⟨r % 2, by omega⟩ v else 0
  svd := fun A => if A = 1 then (1, 1, 1) else ((Grid.svd_exists A).choose,
    (Grid.svd_exists A).choose_spec.choose_spec.choose, (Grid.svd_exists A).choose_spec.choose)
  steps := 4
  fuel := 7
  bad := fun _ _ => 0

/-- The field: densities `dens` turned by `sh` rows, otherwise `base`. -/
def planeField (nx sh : Nat) : Mem := fun k => if k % 14 = 0 then dens ((k / 14 / 2 + sh) % nx) else base (k % 14)

variable (nx sh : Nat) (hn : 4 ≤ nx) {T : Tab 2} (W : Setup 2) (undef : ℝ) (mae : St → Fin 3 → ℝ) (dx dy : ℝ)

include hn in
theorem planeEnv_ok (h : T.Ok) : (planeEnv nx T W undef mae dx dy).Ok := by
  refine ⟨h, ⟨show 2 ≤ nx by omega, show 2 ≤ 2 by decide⟩, fun _ => ⟨0, rfl⟩, fun A => ?_⟩
  simp only [planeEnv]
  by_cases hA : A = 1
  · subst hA
    simp only [if_true]
    refine ⟨by simp, by simp, fun _ => by simp, ?_⟩
    ext a b; fin_cases a <;> fin_cases b <;> simp
  · simp only [if_neg hA]
    exact (Grid.svd_exists A).choose_spec.choose_spec.choose_spec.1

theorem ode_nice (dt : ℝ) {q : Fin lineCfg.V → ℝ} (h : Nice q) :
    (planeEnv nx T W undef mae dx dy).ode dt q = q ∧ (planeEnv nx T W undef mae dx dy).Number dt q := by
  have hA := nice_A h
  have hb : Relax.bodyForces (samplePar sample) (dt / 2) (ofVec lineCfg q) = ofVec lineCfg q := by
    funext k
    simp [Relax.bodyForces, addSeg, addAt, samplePar]
  have hr : ¬ (samplePar sample).reaction > -1 := by norm_num [samplePar]
  have e : Relax.odeCell lineCfg (samplePar sample) (planeEnv nx T W undef mae dx dy).svd 4 7 (dt / 2) (ofVec lineCfg q) =
      some (ofVec lineCfg q) := by
    have hs : (planeEnv nx T W undef mae dx dy).svd 1 = (1, 1, 1) := by simp [planeEnv]
    simp only [Relax.odeCell, Relax.odeAnalytic, show lineCfg.viscous = true from rfl, show lineCfg.thermal = false from rfl,
      if_true, Bool.false_eq_true, if_false, Relax.relaxDistortion, hb, hA, hs,
      Relax.relaxA_one, Option.map_some, Relax.setA_self _ _ hA]
    simp [Relax.odeNumerical, hr]
  refine ⟨?_, ?_⟩
  · unfold Env.ode
    change (match Relax.odeCell lineCfg (samplePar sample) (planeEnv nx T W undef mae dx dy).svd 4 7 (dt / 2) (ofVec lineCfg q)
      with | some Q => fun v => Q v | none => _) = q
    rw [e]
    funext v
    unfold ofVec
    exact dif_pos v.2
  · unfold Env.Number
    change (Relax.odeCell lineCfg (samplePar sample) (planeEnv nx T W undef mae dx dy).svd 4 7 (dt / 2) (ofVec lineCfg q)).isSome
    rw [e]
    rfl

theorem field_cell (i : Nat) : cellsOf lineCfg (planeField nx sh) i = cellQ ((i / 2 + sh) % nx) := by
  funext v
  have hv : v.1 < 14 := v.2
  unfold cellsOf planeField cellQ
  have e1 : (i * lineCfg.V + v) % 14 = v := by
    change (i * 14 + v.1) % 14 = v.1; omega
  have e2 : (i * lineCfg.V + v) / 14 = i := by
    change (i * 14 + v.1) / 14 = i; omega
  rw [e1, e2]

include hn in
theorem pad_val (ub : Nat → Fin lineCfg.V → ℝ) (hp : Pad2 (planeEnv nx T W undef mae dx dy) (planeField nx sh) ub) :
    ∀ R < nx + 4, ∀ J < 6, ub (R * 6 + J) = cellQ (turned nx sh R) := by
  obtain ⟨old, m', hm, hub⟩ := hp
  obtain ⟨m'', e, a⟩ := Grid.boundaries_periodic ⟨2, none⟩ nx 2 (memOf lineCfg (planeField nx sh) old) (by simp only; omega)
    (by decide)
  change Grid.boundaries2D ⟨2, none⟩ nx 2 .periodic .periodic .periodic .periodic (memOf lineCfg (planeField nx sh) old) =
    some m' at hm
  rw [hm] at e
  cases e
  intro R hR J hJ
  funext v
  set R' := (R + (nx - 2)) % nx with hR'
  have hmod : (R' + 2) % nx = R % nx := by
    rw [hR', Nat.mod_add_mod, show R + (nx - 2) + 2 = R + nx by omega, Nat.add_mod_right]
  have h1 : m' (true, R * 6 + J) = memOf lineCfg (planeField nx sh) old (false, R' * 2 + (J + 2) % 2) :=
    a R hR J hJ R' (Nat.mod_lt _ (by omega)) ((J + 2) % 2) (Nat.mod_lt _ (by omega)) hmod.symm (by simp only; omega)
  rw [hub, h1]
  have h2 : memOf lineCfg (planeField nx sh) old (false, R' * 2 + (J + 2) % 2) v =
    cellsOf lineCfg (planeField nx sh) (R' * 2 + (J + 2) % 2) v := rfl
  rw [h2, field_cell, show (R' * 2 + (J + 2) % 2) / 2 = R' by omega, hR', Nat.mod_add_mod]
  rfl

/-- What the face fluxes read in the padded cell `(i, j)`. -/
def recPlane (ub : Nat → Fin lineCfg.V → ℝ) (i j : Nat) : Nat → Fin lineCfg.V → ℝ :=
  (planeEnv nx T W undef mae dx dy).block (weno2G (realCoef W.T undef) true ub (nx + 2) 4 i j)

/-- The mean of the inverse density on the side of the jump. -/
def flow (eps : ℝ) (i : Nat) (z : ℝ) : ℝ :=
  1 / 2 * (1 / (1 + share eps 1 / 2 + defect eps i * share eps (defect eps i * z) / 2 * z)) +
  1 / 2 * (1 / (1 + share eps 1 / 2 - defect eps i * share eps (defect eps i * z) / 2 * z))

section faces

variable (h : T.Ok) (hW : W.Clean) (hx : W.x = T.nodes) (ub : Nat → Fin lineCfg.V → ℝ)
  (hub : ∀ R < nx + 4, ∀ J < 6, ub (R * 6 + J) = cellQ (turned nx sh R))

include hn h hW hub

theorem trace_nice (d : Nat) (e : Fin 2) (i j : Nat) (s : Fin 2) (hs : Side nx 2 i j) :
    Nice (trace2 T d e (recPlane nx (T := T) W undef mae dx dy ub i j) s) := by
  intro v hv
  have hb : ∀ r < 4, recPlane nx (T := T) W undef mae dx dy ub i j r v = base v := by
    intro r hr
    unfold recPlane planeEnv
    simp only [dif_pos hr]
    exact rec_base nx sh hn W hW undef ub hub i j _ _ v hs hv
  have one : ∑ k, T.endvals e k * base v = base v := by
    have h1 := ends_two h (base v) 0
    simp only [zero_mul, add_zero, zero_div, sub_zero] at h1
    fin_cases e
    · exact h1.2
    · exact h1.1
  have hs2 := s.2
  unfold trace2
  split_ifs
  · rw [← one]
    exact Finset.sum_congr rfl fun k _ => by rw [hb _ (by omega)]
  · rw [← one]
    exact Finset.sum_congr rfl fun k _ => by rw [hb _ (by omega)]

include hx

theorem trace_linear (e : Fin 2) (i j : Nat) (s : Fin 2) (hi : i < nx + 2) (m σ : ℝ)
    (hd : ∀ r < 3, dens (turned nx sh (i + r)) = m + σ * ((r : ℝ) - 1)) (hj : j = 1 ∨ j = 2) :
    trace2 T 0 e (recPlane nx (T := T) W undef mae dx dy ub i j) s ⟨0, by decide⟩ = if e = 1 then m + σ / 2 else m - σ / 2 := by
  have hs2 := s.2
  have key : trace2 T 0 e (recPlane nx (T := T) W undef mae dx dy ub i j) s ⟨0, by decide⟩ =
      ∑ k, T.endvals e k * (m + σ * (T.nodes k - 1 / 2)) := by
    unfold trace2
    rw [if_pos rfl]
    refine Finset.sum_congr rfl fun k _ => ?_
    congr 1
    unfold recPlane planeEnv
    simp only [dif_pos (show s.1 + k.1 * 2 < 4 by omega)]
    rw [rec_linear nx sh hn W hW undef ub hub i j _ _ _ hi m σ hd hj rfl, hx]
    congr 4
    exact Fin.ext (by simp only; omega)
  rw [key]
  fin_cases e
  · exact (ends_two h m σ).2
  · exact (ends_two h m σ).1

theorem trace_jump (i j : Nat) (s : Fin 2) (hi : i = 0 ∨ i = nx)
    (hd : ∀ r < 3, dens (turned nx sh (i + r)) = if r = 2 then 2 else 1) (hj : j = 1 ∨ j = 2) :
    trace2 T 0 1 (recPlane nx (T := T) W undef mae dx dy ub i j) s ⟨0, by decide⟩ = 1 + share W.T.eps 1 / 2 +
      (if j = 1 then -1 else 1) * (defect W.T.eps i * share W.T.eps (defect W.T.eps i * (T.nodes 0 - 1 / 2)) / 2) *
        (T.nodes s - 1 / 2) := by
  unfold trace2
  rw [if_pos rfl]
  have hs2 := s.2
  have := (ends_two h 1 (share W.T.eps 1 + (if j = 1 then -1 else 1) * defect W.T.eps i *
    share W.T.eps (defect W.T.eps i * (T.nodes 0 - 1 / 2)) * (T.nodes s - 1 / 2))).1
  refine Eq.trans ?_ (this.trans (by ring))
  refine Finset.sum_congr rfl fun k _ => ?_
  congr 1
  unfold recPlane planeEnv
  simp only [dif_pos (show s.1 + k.1 * 2 < 4 by omega)]
  rw [rec_jump nx sh hn W hW undef ub hub i j _ _ _ hi hd hj rfl, hx]
  rw [show (⟨(s.1 + k.1 * 2) / 2, by omega⟩ : Fin 2) = k from Fin.ext (by simp only; omega),
    show (⟨(s.1 + k.1 * 2) % 2, by omega⟩ : Fin 2) = s from Fin.ext (by simp only; omega)]
  have even : share W.T.eps (defect W.T.eps i * (T.nodes k - 1 / 2)) =
      share W.T.eps (defect W.T.eps i * (T.nodes 0 - 1 / 2)) := by
    have g := (gauss_two h).2.1
    fin_cases k
    · rfl
    · change share W.T.eps (defect W.T.eps i * (T.nodes 1 - 1 / 2)) = _
      rw [g]
      unfold share
      rw [show (defect W.T.eps i * -(T.nodes 0 - 1 / 2)) ^ 2 = (defect W.T.eps i * (T.nodes 0 - 1 / 2)) ^ 2 by ring]
  rw [even]
  ring

/-- The flux of the third momentum component through the faces at the two ends, where the jump is. -/
theorem face_ends (dt : ℝ) (i j : Nat) (hi : i = 0 ∨ i = nx)
    (hd : ∀ r < 3, dens (turned nx sh (i + r)) = if r = 2 then 2 else 1)
    (hd' : ∀ r < 3, dens (turned nx sh (i + 1 + r)) = 2 + 1 * ((r : ℝ) - 1))
    (hj : j = 1 ∨ j = 2) (rec : Nat → Nat → Fin lineCfg.V → ℝ)
    (hrec : ∀ i j, Side nx 2 i j → rec (cell i j 4) = recPlane nx (T := T) W undef mae dx dy ub i j) :
    faceFlux2 T (rus (samplePar sample) mae) (fun _ => dt) dx rec 1 0 (cell i j 4) (cell (i + 1) j 4) ⟨4, by decide⟩ =
      dt / (2 * dx) * (flow W.T.eps i (T.nodes 0 - 1 / 2) + 2 / 3) := by
  have s0 : Side nx 2 i j := ⟨by omega, by omega, by omega⟩
  have s1 : Side nx 2 (i + 1) j := ⟨by omega, by omega, by omega⟩
  obtain ⟨gw, gz, -⟩ := gauss_two h
  unfold faceFlux2
  simp only [Finset.range_one, Finset.sum_singleton, Fin.sum_univ_two, Nat.mul_one, Nat.add_zero, hrec _ _ s0, hrec _ _ s1, gw]
  have e := fun s => (rus_nice (samplePar sample) mae (trace_nice nx sh hn W undef mae dx dy h hW ub hub 0 1 i j s s0)
    (trace_nice nx sh hn W undef mae dx dy h hW ub hub 0 0 (i + 1) j s s1)).1
  rw [e, e, trace_jump nx sh hn W undef mae dx dy h hW hx ub hub i j 0 hi hd hj,
    trace_jump nx sh hn W undef mae dx dy h hW hx ub hub i j 1 hi hd hj,
    trace_linear nx sh hn W undef mae dx dy h hW hx ub hub 0 (i + 1) j 0 (by omega) 2 1 hd' hj,
    trace_linear nx sh hn W undef mae dx dy h hW hx ub hub 0 (i + 1) j 1 (by omega) 2 1 hd' hj, gz]
  simp only [show (0 : Fin 2) ≠ 1 by decide, if_false]
  unfold flow
  rcases hj with rfl | rfl
  · simp only [if_true]
    ring
  · simp only [show (2 : Nat) ≠ 1 by decide, if_false]
    ring

/-- The same where the densities on both sides are 1. -/
theorem face_flat (dt : ℝ) (i j : Nat) (hi : i = 0 ∨ i = nx) (hd : ∀ r < 4, dens (turned nx sh (i + r)) = 1)
    (hj : j = 1 ∨ j = 2) (rec : Nat → Nat → Fin lineCfg.V → ℝ)
    (hrec : ∀ i j, Side nx 2 i j → rec (cell i j 4) = recPlane nx (T := T) W undef mae dx dy ub i j) :
    faceFlux2 T (rus (samplePar sample) mae) (fun _ => dt) dx rec 1 0 (cell i j 4) (cell (i + 1) j 4) ⟨4, by decide⟩ =
      dt / (2 * dx) * 2 := by
  have s0 : Side nx 2 i j := ⟨by omega, by omega, by omega⟩
  have s1 : Side nx 2 (i + 1) j := ⟨by omega, by omega, by omega⟩
  obtain ⟨gw, -, -⟩ := gauss_two h
  unfold faceFlux2
  simp only [Finset.range_one, Finset.sum_singleton, Fin.sum_univ_two, Nat.mul_one, Nat.add_zero, hrec _ _ s0, hrec _ _ s1, gw]
  have e := fun s => (rus_nice (samplePar sample) mae (trace_nice nx sh hn W undef mae dx dy h hW ub hub 0 1 i j s s0)
    (trace_nice nx sh hn W undef mae dx dy h hW ub hub 0 0 (i + 1) j s s1)).1
  have l := fun s => trace_linear nx sh hn W undef mae dx dy h hW hx ub hub 1 i j s (by omega) 1 0
    (fun r hr => by rw [hd r (by omega)]; ring) hj
  have l' := fun s => trace_linear nx sh hn W undef mae dx dy h hW hx ub hub 0 (i + 1) j s (by omega) 1 0
    (fun r hr => by rw [show i + 1 + r = i + (r + 1) by omega, hd (r + 1) (by omega)]; ring) hj
  rw [e, e, l, l, l', l', if_pos rfl, if_neg (by decide)]
  ring

end faces

theorem share_bounds (eps q : ℝ) (he : 0 < eps) : 0 < share eps q ∧ share eps q ≤ 1 / 2 := by
  have h1 : eps ^ 8 ≤ (q ^ 2 + eps) ^ 8 := pow_le_pow_left₀ he.le (by nlinarith [sq_nonneg q]) 8
  have h2 : 0 < eps ^ 8 := by positivity
  unfold share
  constructor
  · positivity
  · rw [div_le_iff₀ (by positivity)]
    linarith

/-- The two ends of the periodic grid do not let through the same. -/
theorem flow_differs (eps z : ℝ) (i : Nat) (hi : i ≠ 0) (he : 0 < eps) (hz : z ^ 2 = 1 / 12) : flow eps i z < flow eps 0 z := by
  have d0 : defect eps 0 = 1 - share eps 1 := by simp [defect]
  have d4 : defect eps i = -share eps 1 := by simp [defect, hi]
  obtain ⟨t0, t1⟩ := share_bounds eps 1 he
  have t2 : share eps 1 < 1 / 2 := by
    have h1 : eps ^ 8 < (1 ^ 2 + eps) ^ 8 := pow_lt_pow_left₀ (by linarith) he.le (by norm_num)
    have h2 : 0 < eps ^ 8 := by positivity
    unfold share
    rw [div_lt_iff₀ (by positivity)]
    linarith
  obtain ⟨a0, a1⟩ := share_bounds eps (defect eps 0 * z) he
  obtain ⟨b0, b1⟩ := share_bounds eps (defect eps i * z) he
  have hge : share eps 1 ≤ share eps (defect eps 0 * z) := by
    have hq : (defect eps 0 * z) ^ 2 ≤ 1 ^ 2 := by
      rw [mul_pow, hz, d0]
      nlinarith
    have h1 : ((defect eps 0 * z) ^ 2 + eps) ^ 8 ≤ (1 ^ 2 + eps) ^ 8 :=
      pow_le_pow_left₀ (by positivity) (by linarith) 8
    unfold share
    exact div_le_div_of_nonneg_left (by positivity) (by positivity) (by linarith)
  unfold flow
  rw [d0, d4] at *
  set t := share eps 1
  set a := share eps ((1 - t) * z)
  set b := share eps (-t * z)
  set B := 1 + t / 2 with hB
  have key : t * b < (1 - t) * a := by
    have h1 : t * b ≤ t * (1 / 2) := mul_le_mul_of_nonneg_left b1 t0.le
    have h2 : (1 - t) * t ≤ (1 - t) * a := mul_le_mul_of_nonneg_left hge (by linarith)
    nlinarith
  have form : ∀ e : ℝ, 0 ≤ e → e ≤ 1 / 2 → 1 / 2 * (1 / (B + e * z)) + 1 / 2 * (1 / (B - e * z)) = B / (B ^ 2 - e ^ 2 / 12) := by
    intro e h0 h1
    have hb2 : 0 < B ^ 2 - e ^ 2 / 12 := by nlinarith
    have hp : (B + e * z) * (B - e * z) = B ^ 2 - e ^ 2 / 12 := by linear_combination -e ^ 2 * hz
    have hne : (B + e * z) * (B - e * z) ≠ 0 := by rw [hp]; exact hb2.ne'
    have n1 := left_ne_zero_of_mul hne
    have n2 := right_ne_zero_of_mul hne
    rw [← hp]
    field_simp
    ring
  have f0 := form ((1 - t) * a / 2) (by nlinarith) (by nlinarith)
  have f4 := form (t * b / 2) (by positivity) (by nlinarith)
  rw [show (1 + t / 2 + -t * b / 2 * z) = B - t * b / 2 * z by rw [hB]; ring,
    show (1 + t / 2 - -t * b / 2 * z) = B + t * b / 2 * z by rw [hB]; ring, add_comm, f4]
  refine lt_of_lt_of_eq ?_ f0.symm
  have hlt : (t * b / 2) ^ 2 < ((1 - t) * a / 2) ^ 2 := pow_lt_pow_left₀ (by linarith) (by positivity) (by norm_num)
  have hub : (1 - t) * a / 2 ≤ 1 / 2 := by nlinarith
  have hlb : 0 ≤ (1 - t) * a / 2 := by nlinarith
  refine div_lt_div_of_pos_left (by linarith) ?_ (by linarith)
  nlinarith

/-- What one `split_stepper` makes of the third momentum component: the fluxes through the two ends decide. -/
theorem plane_total (hn : 4 ≤ nx) (h : T.Ok) (hW : W.Clean) (dt a b : ℝ) (maskb : Nat → Bool)
    (ub : Nat → Fin lineCfg.V → ℝ) (hp : Pad2 (planeEnv nx T W undef mae dx dy) (planeField nx sh) ub)
    (face : ∀ ub' : Nat → Fin lineCfg.V → ℝ, (∀ R < nx + 4, ∀ J < 6, ub' (R * 6 + J) = cellQ (turned nx sh R)) →
      ∀ rec : Nat → Nat → Fin lineCfg.V → ℝ,
      (∀ i j, Side nx 2 i j → rec (cell i j 4) = recPlane nx (T := T) W undef mae dx dy ub' i j) → ∀ j, j = 1 ∨ j = 2 →
      faceFlux2 T (rus (samplePar sample) mae) (fun _ => dt) dx rec 1 0 (cell 0 j 4) (cell 1 j 4) ⟨4, by decide⟩ = a ∧
      faceFlux2 T (rus (samplePar sample) mae) (fun _ => dt) dx rec 1 0 (cell nx j 4) (cell (nx + 1) j 4) ⟨4, by decide⟩ = b) :
    let E := planeEnv nx T W undef mae dx dy
    let K := kern2 E.sys E.T E.fl (fun _ => dt) E.dx E.dy false
    let mask := Grid.extendMask2 E.nx E.ny (fun _ => true) maskb
    let w := before2 E.coef true (E.ode dt) E.half (E.mid2 dt) E.block K ub E.nx E.ny mask (cellsOf lineCfg (planeField nx sh))
    ∑ i ∈ Finset.range (nx * 2), w i ⟨4, by decide⟩ = total lineCfg (nx * 2) (planeField nx sh) 4 + 2 * (a - b) ∧
    ((∀ i < nx * 2, E.Number dt (w i)) → ∀ u' : Mem, (∀ i < nx * 2, ∀ v : Fin lineCfg.V, u' (i * lineCfg.V + v) =
        apply (withOde (E.ode dt) K.app) (split2 E.coef true (E.ode dt) E.half (E.mid2 dt) E.block K ub E.nx E.ny mask)
          (cellsOf lineCfg (planeField nx sh)) i v) →
      total lineCfg (nx * 2) u' 4 = total lineCfg (nx * 2) (planeField nx sh) 4 + 2 * (a - b)) := by
  intro E K mask w
  have hE : E.Ok := planeEnv_ok nx hn W undef mae dx dy h
  have hcell : ∀ i, Nice (cellsOf lineCfg (planeField nx sh) i) := fun i => by rw [field_cell]; exact cellQ_nice _
  have hub := pad_val nx sh hn W undef mae dx dy ub hp
  have hub' : ∀ R < nx + 4, ∀ J < 6, E.ode dt (ub (R * 6 + J)) = cellQ (turned nx sh R) := fun R hR J hJ => by
    rw [hub R hR J hJ]
    exact (ode_nice nx W undef mae dx dy dt (cellQ_nice _)).1
  have hmask : ∀ i j, Side nx 2 i j → mask (cell i j (2 + 2)) = true :=
    fun i j hs => mask2_true nx 2 (by omega) (by decide) maskb i j hs
  let rec' : Nat → Nat → Fin lineCfg.V → ℝ := fun c =>
    E.block (weno2G (realCoef W.T undef) true (fun r => E.ode dt (ub r)) (nx + 2) 4 (c / 4) (c % 4))
  have hrec : ∀ i j, Side nx 2 i j → rec' (cell i j 4) = recPlane nx (T := T) W undef mae dx dy (fun r => E.ode dt (ub r)) i j := by
    intro i j hs
    obtain ⟨h1, h2, h3⟩ := hs
    have := cell_div 4 i j (by omega)
    simp only [rec', this.1, this.2]
    rfl
  have hw : w = apply K.app (fv2 K rec' nx 2 1 mask) (fun c => E.ode dt (cellsOf lineCfg (planeField nx sh) c)) := rfl
  have hode : ∀ c, E.ode dt (cellsOf lineCfg (planeField nx sh) c) = cellsOf lineCfg (planeField nx sh) c := fun c =>
    (ode_nice nx W undef mae dx dy dt (hcell c)).1
  have hB : ∀ d q x, E.sys.bdot d q x (⟨4, by decide⟩ : Fin lineCfg.V) = 0 := fun d q x =>
    gpr_conservative_components lineCfg rfl E.P E.src E.junk ⟨4, by decide⟩ (by decide) d q x
  have cons := fv2_conservative E.sys E.T E.fl (fun _ => dt) dx dy false rec' nx 2 1 mask (cellsOf lineCfg (planeField nx sh))
    ⟨4, by decide⟩ hB
  have sx : ∀ i ≤ nx, ∀ y < 2, Side nx 2 i (y + 1) ∧ Side nx 2 (i + 1) (y + 1) := fun i hi y hy =>
    ⟨⟨by omega, by omega, by omega⟩, ⟨by omega, by omega, by omega⟩⟩
  have sy : ∀ x < nx, ∀ j ≤ 2, Side nx 2 (x + 1) j ∧ Side nx 2 (x + 1) (j + 1) := fun x hx j hj =>
    ⟨⟨by omega, by omega, by omega⟩, ⟨by omega, by omega, by omega⟩⟩
  have fx0 : ∀ y < 2,
      (if mask (cell 0 (y + 1) (2 + 2)) && mask (cell (0 + 1) (y + 1) (2 + 2)) then
        faceFlux2 E.T E.fl (fun _ => dt) dx rec' 1 0 (cell 0 (y + 1) (2 + 2)) (cell (0 + 1) (y + 1) (2 + 2)) ⟨4, by decide⟩
        else 0) = a := by
    intro y hy
    obtain ⟨s0, s1⟩ := sx 0 (by omega) y hy
    rw [hmask _ _ s0, hmask _ _ s1, Bool.and_self, if_pos rfl]
    exact (face (fun r => E.ode dt (ub r)) hub' rec' hrec (y + 1) (by omega)).1
  have fxn : ∀ y < 2,
      (if mask (cell nx (y + 1) (2 + 2)) && mask (cell (nx + 1) (y + 1) (2 + 2)) then
        faceFlux2 E.T E.fl (fun _ => dt) dx rec' 1 0 (cell nx (y + 1) (2 + 2)) (cell (nx + 1) (y + 1) (2 + 2)) ⟨4, by decide⟩
        else 0) = b := by
    intro y hy
    obtain ⟨s0, s1⟩ := sx nx (by omega) y hy
    rw [hmask _ _ s0, hmask _ _ s1, Bool.and_self, if_pos rfl]
    exact (face (fun r => E.ode dt (ub r)) hub' rec' hrec (y + 1) (by omega)).2
  have fy : ∀ x < nx, ∀ j ≤ 2,
      (if mask (cell (x + 1) j (2 + 2)) && mask (cell (x + 1) (j + 1) (2 + 2)) then
        faceFlux2 E.T E.fl (fun _ => dt) dy rec' 1 1 (cell (x + 1) j (2 + 2)) (cell (x + 1) (j + 1) (2 + 2)) ⟨4, by decide⟩
        else 0) = 0 := by
    intro x hx' j hj
    obtain ⟨s0, s1⟩ := sy x hx' j hj
    rw [hmask _ _ s0, hmask _ _ s1, Bool.and_self, if_pos rfl]
    unfold faceFlux2
    refine Finset.sum_eq_zero fun t ht => Finset.sum_eq_zero fun s _ => ?_
    obtain rfl : t = 0 := by simpa using ht
    simp only [Nat.mul_one, Nat.add_zero]
    have a0 : rec' (cell (x + 1) j (2 + 2)) = _ := hrec _ _ s0
    have a1 : rec' (cell (x + 1) (j + 1) (2 + 2)) = _ := hrec _ _ s1
    rw [a0, a1]
    exact mul_eq_zero_of_right _ (rus_nice (samplePar sample) mae
      (trace_nice nx sh hn W undef mae dx dy h hW (fun r => E.ode dt (ub r)) hub' 1 1 (x + 1) j s s0)
      (trace_nice nx sh hn W undef mae dx dy h hW (fun r => E.ode dt (ub r)) hub' 1 0 (x + 1) (j + 1) s s1)).2
  have totals : ∀ f : Nat → ℝ,
      ∑ i ∈ Finset.range (nx * 2), f i = ∑ x ∈ Finset.range nx, ∑ y ∈ Finset.range 2, f (cell x y 2) :=
    fun f => sum_cells nx 2 f
  have hw' : w = apply K.app (fv2 K rec' nx 2 1 mask) (cellsOf lineCfg (planeField nx sh)) := by
    rw [hw, funext hode]
  have main : ∑ i ∈ Finset.range (nx * 2), w i ⟨4, by decide⟩ = total lineCfg (nx * 2) (planeField nx sh) 4 + 2 * (a - b) := by
    rw [totals, hw']
    refine cons.trans ?_
    rw [Finset.sum_congr rfl fun y hy => congrArg₂ (· - ·) (fx0 y (Finset.mem_range.1 hy)) (fxn y (Finset.mem_range.1 hy)),
      Finset.sum_congr rfl fun x hx' => congrArg₂ (· - ·) (fy x (Finset.mem_range.1 hx') 0 (by omega))
        (fy x (Finset.mem_range.1 hx') 2 (by omega))]
    simp only [Bool.and_false, Bool.false_eq_true, if_false, Finset.sum_const_zero, sub_zero, add_zero, Finset.sum_const,
      Finset.card_range, nsmul_eq_mul]
    rw [← totals fun c => cellsOf lineCfg (planeField nx sh) c ⟨4, by decide⟩]
    unfold total
    change (∑ i ∈ Finset.range (nx * 2), planeField nx sh (i * lineCfg.V + 4)) + _ = _
    push_cast
    ring
  refine ⟨main, fun hnum u' hu' => ?_⟩
  rw [← main]
  unfold total
  refine Finset.sum_congr rfl fun i hi => ?_
  have hi := Finset.mem_range.1 hi
  have e1 := hu' i hi ⟨4, by decide⟩
  have e2 := congrFun (split_get (E.ode dt) K.app (nx * 2) (fv2 K rec' nx 2 1 mask) (cellsOf lineCfg (planeField nx sh)) i hi)
    ⟨4, by decide⟩
  have e3 := ode_force E rfl hE dt (w i) (hnum i hi) ⟨4, by decide⟩ (by decide)
  have f0 : force E.P 4 = 0 := by
    unfold force
    rw [dif_pos (by omega)]
    rfl
  rw [f0, zero_mul, add_zero] at e3
  exact e1.trans (e2.trans e3)

theorem field_dense (i : Nat) : 0 < planeField nx sh (i * lineCfg.V) := by
  have := congrFun (field_cell nx sh i) ⟨0, by decide⟩
  change planeField nx sh (i * lineCfg.V + 0) = dens ((i / 2 + sh) % nx) at this
  rw [Nat.add_zero] at this
  rw [this]
  unfold dens
  split_ifs <;> norm_num

/-- The same field with any padding that `grid` may produce. -/
theorem leak_of_pad (hn : 4 ≤ nx) (h : T.Ok) (hW : W.Clean) (hx : W.x = T.nodes) (dt : ℝ) (hdx : dx ≠ 0) (hdt : dt ≠ 0)
    (ub : Nat → Fin lineCfg.V → ℝ) (maskb : Nat → Bool) :
    let E := planeEnv nx T W undef mae dx dy
    let u := planeField nx 0
    Pad2 E u ub →
    let K := kern2 E.sys E.T E.fl (fun _ => dt) E.dx E.dy false
    let mask := Grid.extendMask2 E.nx E.ny (fun _ => true) maskb
    let w := before2 E.coef true (E.ode dt) E.half (E.mid2 dt) E.block K ub E.nx E.ny mask (cellsOf lineCfg u)
    ∑ i ∈ Finset.range (nx * 2), w i ⟨4, by decide⟩ ≠ total lineCfg (nx * 2) u 4 ∧
    ((∀ i < nx * 2, E.Number dt (w i)) → ∀ u' : Mem, (∀ i < nx * 2, ∀ v : Fin lineCfg.V, u' (i * lineCfg.V + v) =
        apply (withOde (E.ode dt) K.app) (split2 E.coef true (E.ode dt) E.half (E.mid2 dt) E.block K ub E.nx E.ny mask)
          (cellsOf lineCfg u) i v) →
      total lineCfg (nx * 2) u' 4 ≠ total lineCfg (nx * 2) u 4) := by
  intro E u hp K mask w
  obtain ⟨t0, t1, t2, t3⟩ := turned_start nx hn
  have start : ∀ r < 3, dens (turned nx 0 r) = if r = 2 then 2 else 1 := fun r hr => by
    have hr3 : r = 0 ∨ r = 1 ∨ r = 2 := by omega
    rcases hr3 with rfl | rfl | rfl
    · rw [t0]; unfold dens; rw [if_neg (by omega), if_neg (by omega)]; norm_num
    · rw [t1]; unfold dens; rw [if_neg (by omega), if_neg (by omega)]; norm_num
    · rw [t2]; unfold dens; norm_num
  have ramp : ∀ r < 3, dens (turned nx 0 (1 + r)) = 2 + 1 * ((r : ℝ) - 1) := fun r hr => by
    have hr3 : r = 0 ∨ r = 1 ∨ r = 2 := by omega
    rcases hr3 with rfl | rfl | rfl
    · rw [show 1 + 0 = 1 from rfl, t1]; unfold dens; rw [if_neg (by omega), if_neg (by omega)]; norm_num
    · rw [show 1 + 1 = 2 from rfl, t2]; unfold dens; norm_num
    · rw [show 1 + 2 = 3 from rfl, t3]; unfold dens; norm_num
  obtain ⟨main, stepped⟩ := plane_total nx 0 W undef mae dx dy hn h hW dt _ _ maskb _ hp fun ub' hub' rec hrec j hj =>
    ⟨face_ends nx 0 hn W undef mae dx dy h hW hx ub' hub' dt 0 j (Or.inl rfl)
        (fun r hr => by rw [Nat.zero_add]; exact start r hr) (fun r hr => by rw [Nat.zero_add]; exact ramp r hr) hj rec hrec,
      face_ends nx 0 hn W undef mae dx dy h hW hx ub' hub' dt nx j (Or.inr rfl)
        (fun r hr => by rw [turned_ends]; exact start r hr)
        (fun r hr => by rw [Nat.add_assoc, turned_ends]; exact ramp r hr) hj rec hrec⟩
  have hlt := flow_differs W.T.eps (T.nodes 0 - 1 / 2) nx (by omega) W.ok.eps (gauss_two h).2.2
  have hne : 2 * (dt / (2 * dx) * (flow W.T.eps 0 (T.nodes 0 - 1 / 2) + 2 / 3) -
      dt / (2 * dx) * (flow W.T.eps nx (T.nodes 0 - 1 / 2) + 2 / 3)) ≠ 0 := by
    rw [← mul_sub, add_sub_add_right_eq_sub]
    exact mul_ne_zero two_ne_zero (mul_ne_zero (div_ne_zero hdt (mul_ne_zero two_ne_zero hdx)) (sub_ne_zero.2 hlt.ne'))
  refine ⟨fun hc => hne ?_, fun hnum u' hu' hc => hne ?_⟩
  · have := main.symm.trans hc
    linarith
  · have := (stepped hnum u' hu').symm.trans hc
    linarith

/-- **Periodic planes with the shipped `NO_CORNERS = true` do not conserve momentum.**  Four or more rows of two cells of
one fluid at densities 2, 3, 1, 1, 1, …, momentum (1, 0, 1) per cell, no strain, no body force, periodic on all sides,
`N = 2`: `split_stepper` changes the total of the third momentum component, whatever the step, the mesh and the speeds that
Rusanov's flux uses. -/
theorem corners_leak (hn : 4 ≤ nx) (h : T.Ok) (hW : W.Clean) (hx : W.x = T.nodes) (dt : ℝ) (hdx : dx ≠ 0) (hdt : dt ≠ 0) :
    let E := planeEnv nx T W undef mae dx dy
    let u := planeField nx 0
    E.Ok ∧ E.P.δp = 0 ∧ (∀ i < nx * 2, 0 < u (i * lineCfg.V)) ∧ ∃ ub, Pad2 E u ub ∧
    (∀ i < nx * 2, E.Number dt (cellsOf lineCfg u i)) ∧ ∀ maskb,
    let K := kern2 E.sys E.T E.fl (fun _ => dt) E.dx E.dy false
    let mask := Grid.extendMask2 E.nx E.ny (fun _ => true) maskb
    let w := before2 E.coef true (E.ode dt) E.half (E.mid2 dt) E.block K ub E.nx E.ny mask (cellsOf lineCfg u)
    ∑ i ∈ Finset.range (nx * 2), w i ⟨4, by decide⟩ ≠ total lineCfg (nx * 2) u 4 ∧
    ((∀ i < nx * 2, E.Number dt (w i)) → ∀ u' : Mem, (∀ i < nx * 2, ∀ v : Fin lineCfg.V, u' (i * lineCfg.V + v) =
        apply (withOde (E.ode dt) K.app) (split2 E.coef true (E.ode dt) E.half (E.mid2 dt) E.block K ub E.nx E.ny mask)
          (cellsOf lineCfg u) i v) →
      total lineCfg (nx * 2) u' 4 ≠ total lineCfg (nx * 2) u 4) := by
  intro E u
  have hE : E.Ok := planeEnv_ok nx hn W undef mae dx dy h
  have hcell : ∀ i, Nice (cellsOf lineCfg u i) := fun i => by
    change Nice (cellsOf lineCfg (planeField nx 0) i)
    rw [field_cell]
    exact cellQ_nice _
  obtain ⟨m', hm, -⟩ := Grid.boundaries_periodic ⟨2, none⟩ nx 2 (memOf lineCfg u fun _ _ => 0) (by simp only; omega) (by decide)
  have hp : Pad2 E u fun k v => m' (true, k) v := ⟨fun _ _ => 0, m', hm, fun _ _ => rfl⟩
  exact ⟨hE, rfl, fun i _ => field_dense nx 0 i, fun k v => m' (true, k) v, hp,
    fun i _ => (ode_nice nx W undef mae dx dy dt (hcell i)).2,
    fun maskb => leak_of_pad nx W undef mae dx dy hn h hW hx dt hdx hdt _ maskb hp⟩

/-- With the jump elsewhere the same plane conserves it. -/
theorem corners_keep (hn : 6 ≤ nx) (h : T.Ok) (hW : W.Clean) (hx : W.x = T.nodes) (dt : ℝ)
    (ub : Nat → Fin lineCfg.V → ℝ) (maskb : Nat → Bool) :
    let E := planeEnv nx T W undef mae dx dy
    let u := planeField nx (nx - 2)
    Pad2 E u ub →
    let K := kern2 E.sys E.T E.fl (fun _ => dt) E.dx E.dy false
    let mask := Grid.extendMask2 E.nx E.ny (fun _ => true) maskb
    let w := before2 E.coef true (E.ode dt) E.half (E.mid2 dt) E.block K ub E.nx E.ny mask (cellsOf lineCfg u)
    ∑ i ∈ Finset.range (nx * 2), w i ⟨4, by decide⟩ = total lineCfg (nx * 2) u 4 ∧
    ((∀ i < nx * 2, E.Number dt (w i)) → ∀ u' : Mem, (∀ i < nx * 2, ∀ v : Fin lineCfg.V, u' (i * lineCfg.V + v) =
        apply (withOde (E.ode dt) K.app) (split2 E.coef true (E.ode dt) E.half (E.mid2 dt) E.block K ub E.nx E.ny mask)
          (cellsOf lineCfg u) i v) →
      total lineCfg (nx * 2) u' 4 = total lineCfg (nx * 2) u 4) := by
  intro E u hp K mask w
  have flat : ∀ r < 4, dens (turned nx (nx - 2) r) = 1 := fun r hr => by
    unfold turned dens
    rw [show r + (nx - 2) + (nx - 2) = (nx - 4 + r) + nx by omega, Nat.add_mod_right, Nat.mod_eq_of_lt (by omega),
      if_neg (by omega), if_neg (by omega)]
  have := plane_total nx (nx - 2) W undef mae dx dy (by omega) h hW dt _ _ maskb ub hp fun ub' hub' rec hrec j hj =>
    ⟨face_flat nx (nx - 2) (by omega) W undef mae dx dy h hW hx ub' hub' dt 0 j (Or.inl rfl)
        (fun r hr => by rw [Nat.zero_add]; exact flat r hr) hj rec hrec,
      face_flat nx (nx - 2) (by omega) W undef mae dx dy h hW hx ub' hub' dt nx j (Or.inr rfl)
        (fun r hr => by rw [turned_ends]; exact flat r hr) hj rec hrec⟩
  simpa only [sub_self, mul_zero, add_zero] using this

/-- Tables and reconstruction as the program sets them up. -/
example : ∃ (T : Tab 2) (W : Setup 2), T.Ok ∧ W.Clean ∧ W.x = T.nodes := by
  obtain ⟨e, he⟩ := Verif.Legendre.eigenvalues_exist 2
  obtain ⟨T, _, _, hT, _⟩ := Dg.tab_exists 2 (by norm_num) e he
  obtain ⟨W, hx, hW, -⟩ := setup_exists 2 (by norm_num) T.nodes hT.inj
  exact ⟨T, W, hT, hW, hx⟩

end

end Verif.Run
