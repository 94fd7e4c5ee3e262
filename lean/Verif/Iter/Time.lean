import Verif.Iter.Props
import Verif.Eig.Props

/-!
# Properties of `timestep`
-/

namespace Verif.Iter

open Verif.Sys

theorem maxNan_ge (a : ℝ) (b : Option ℝ) : a ≤ maxNan a b := by
  unfold maxNan
  split
  · exact le_rfl
  · split_ifs with h
    · exact h.le
    · exact le_rfl

theorem maxNan_ge_right (a b : ℝ) : b ≤ maxNan a (some b) := by
  unfold maxNan
  simp only
  split_ifs with h
  · exact le_rfl
  · exact not_lt.1 h

theorem maxNan_cases (a : ℝ) (b : Option ℝ) : maxNan a b = a ∨ b = some (maxNan a b) := by
  unfold maxNan
  split
  · exact Or.inl rfl
  · split_ifs
    · exact Or.inr rfl
    · exact Or.inl rfl

/-- The speed of one cell as the sum over the axes. -/
theorem cellSpeed_sum (mae : Par → St → Nat → Option ℝ) (dX : List ℝ) (P : Par) (Q : St) (l : Nat → ℝ)
    (h : ∀ d < dX.length, mae P Q d = some (l d)) :
    cellSpeed mae dX P Q = some (∑ d ∈ Finset.range dX.length, l d / dX.getD d 0) := by
  unfold cellSpeed
  generalize hn : dX.length = n at h
  have : ∀ m ≤ n, (List.range m).foldl (fun tmp d => match tmp, mae P Q d with
    | some a, some b => some (a + b / dX.getD d 0)
    | _, _ => none) (some 0) = some (∑ d ∈ Finset.range m, l d / dX.getD d 0) := by
    intro m hm
    induction m with
    | zero => simp
    | succ m ih =>
      rw [List.range_succ, List.foldl_append, ih (by omega), Finset.sum_range_succ]
      simp [h m (by omega)]
  exact this n le_rfl

/-- The cells `timestep` looks at. -/
def Live (masks : List (Nat → Bool)) (MPs : List (Option Par)) (nmat ncell mat ind : Nat) (P : Par) : Prop :=
  mat < nmat ∧ ind < ncell ∧ MPs.getD mat none = some P ∧ (masks.getD mat fun _ => false) ind = true

section
variable (c : Cfg) (mae : Par → St → Nat → Option ℝ) (grids : List Mem) (masks : List (Nat → Bool))
    (dX : List ℝ) (MPs : List (Option Par))

theorem inner_spec (mat : Nat) (P : Par) (n : Nat) (m0 : ℝ) :
    let r := (List.range n).foldl (fun MAX ind =>
        if (masks.getD mat fun _ => false) ind then
          maxNan MAX (cellSpeed mae dX P (view c (grids.getD mat fun _ => 0) ind))
        else MAX) m0
    m0 ≤ r ∧ (∀ ind < n, (masks.getD mat fun _ => false) ind = true → ∀ s,
      cellSpeed mae dX P (view c (grids.getD mat fun _ => 0) ind) = some s → s ≤ r) ∧
    (r = m0 ∨ ∃ ind < n, (masks.getD mat fun _ => false) ind = true ∧
      cellSpeed mae dX P (view c (grids.getD mat fun _ => 0) ind) = some r) := by
  induction n with
  | zero => simp
  | succ n ih =>
    rw [List.range_succ, List.foldl_append]
    simp only [List.foldl_cons, List.foldl_nil]
    obtain ⟨h1, h2, h3⟩ := ih
    set r := (List.range n).foldl (fun MAX ind =>
        if (masks.getD mat fun _ => false) ind then
          maxNan MAX (cellSpeed mae dX P (view c (grids.getD mat fun _ => 0) ind))
        else MAX) m0 with hr
    cases hm : (masks.getD mat fun _ => false) n
    · rw [if_neg (by simp)]
      refine ⟨h1, fun ind hi hk s hs => ?_, ?_⟩
      · rcases Nat.lt_succ_iff_lt_or_eq.1 hi with hi | rfl
        · exact h2 ind hi hk s hs
        · rw [hm] at hk; cases hk
      · rcases h3 with h3 | ⟨ind, hi, hk, hs⟩
        · exact Or.inl h3
        · exact Or.inr ⟨ind, by omega, hk, hs⟩
    · rw [if_pos rfl]
      refine ⟨h1.trans (maxNan_ge _ _), fun ind hi hk s hs => ?_, ?_⟩
      · rcases Nat.lt_succ_iff_lt_or_eq.1 hi with hi | rfl
        · exact (h2 ind hi hk s hs).trans (maxNan_ge _ _)
        · rw [hs]; exact maxNan_ge_right _ _
      · rcases maxNan_cases r (cellSpeed mae dX P (view c (grids.getD mat fun _ => 0) n)) with h | h
        · rw [h]
          rcases h3 with h3 | ⟨ind, hi, hk, hs⟩
          · exact Or.inl h3
          · exact Or.inr ⟨ind, by omega, hk, hs⟩
        · exact Or.inr ⟨n, by omega, hm, h⟩

theorem maxSpeed_spec (nmat ncell : Nat) :
    let r := maxSpeed c mae grids masks dX MPs nmat ncell
    0 ≤ r ∧ (∀ mat ind P, Live masks MPs nmat ncell mat ind P → ∀ s,
      cellSpeed mae dX P (view c (grids.getD mat fun _ => 0) ind) = some s → s ≤ r) ∧
    (r = 0 ∨ ∃ mat ind P, Live masks MPs nmat ncell mat ind P ∧
      cellSpeed mae dX P (view c (grids.getD mat fun _ => 0) ind) = some r) := by
  unfold maxSpeed
  induction nmat with
  | zero => exact ⟨le_rfl, fun mat ind P h => absurd h.1 (Nat.not_lt_zero _), Or.inl rfl⟩
  | succ n ih =>
    rw [List.range_succ, List.foldl_append]
    simp only [List.foldl_cons, List.foldl_nil]
    obtain ⟨h1, h2, h3⟩ := ih
    generalize (List.range n).foldl (fun MAX mat => match (MPs.getD mat none) with
      | none => MAX
      | some P => (List.range ncell).foldl (fun MAX ind =>
          if (masks.getD mat fun _ => false) ind then
            maxNan MAX (cellSpeed mae dX P (view c (grids.getD mat fun _ => 0) ind))
          else MAX) MAX) 0 = r at h1 h2 h3 ⊢
    have lift : ∀ {mat ind P}, Live masks MPs n ncell mat ind P → Live masks MPs (n + 1) ncell mat ind P :=
      fun h => ⟨by have := h.1; omega, h.2⟩
    cases hP : MPs.getD n none with
    | none =>
      refine ⟨h1, fun mat ind P hL s hs => ?_, ?_⟩
      · rcases Nat.lt_succ_iff_lt_or_eq.1 hL.1 with hi | rfl
        · exact h2 mat ind P ⟨hi, hL.2⟩ s hs
        · have := hL.2.2.1
          rw [hP] at this
          cases this
      · rcases h3 with h3 | ⟨mat, ind, P, hL, hs⟩
        · exact Or.inl h3
        · exact Or.inr ⟨mat, ind, P, lift hL, hs⟩
    | some P0 =>
      obtain ⟨k1, k2, k3⟩ := inner_spec c mae grids masks dX n P0 ncell r
      simp only
      refine ⟨h1.trans k1, fun mat ind P hL s hs => ?_, ?_⟩
      · rcases Nat.lt_succ_iff_lt_or_eq.1 hL.1 with hi | rfl
        · exact (h2 mat ind P ⟨hi, hL.2⟩ s hs).trans k1
        · have hPP : P0 = P := Option.some.inj (hP.symm.trans hL.2.2.1)
          subst hPP
          exact k2 ind hL.2.1 hL.2.2.2 s hs
      · rcases k3 with k3 | ⟨ind, hi, hk, hs⟩
        · rcases h3 with h3 | ⟨mat, ind, P, hL, hs⟩
          · exact Or.inl (k3.trans h3)
          · exact Or.inr ⟨mat, ind, P, lift hL, by rw [hs]; exact congrArg some k3.symm⟩
        · exact Or.inr ⟨n, ind, P0, ⟨by omega, hi, hP, hk⟩, hs⟩

/-- **The time step.**  For every field, and before the final time, `timestep` returns a positive `dt` with
`t + dt ≤ tf`, and `dt` times the wave speed of every live cell is at most `CFL` (a fifth of it while `count ≤ 5`).
It is not smaller than it has to be: either it reaches the final time or some cell attains the bound. -/
theorem timestep_spec (CFL t tf : ℝ) (count nmat ncell : Nat) (hC : 0 < CFL) (ht : t < tf) :
    ∃ dt, timestep c mae grids masks dX CFL t tf count MPs nmat ncell = .fin dt ∧ 0 < dt ∧ t + dt ≤ tf ∧
      (∀ mat ind P, Live masks MPs nmat ncell mat ind P → ∀ s,
        cellSpeed mae dX P (view c (grids.getD mat fun _ => 0) ind) = some s →
          dt * s ≤ if count ≤ 5 then CFL / 5 else CFL) ∧
      (t + dt = tf ∨ ∃ mat ind P s, Live masks MPs nmat ncell mat ind P ∧
        cellSpeed mae dX P (view c (grids.getD mat fun _ => 0) ind) = some s ∧
          dt * s = if count ≤ 5 then CFL / 5 else CFL) := by
  obtain ⟨h1, h2, h3⟩ := maxSpeed_spec c mae grids masks dX MPs nmat ncell
  unfold timestep
  set r := maxSpeed c mae grids masks dX MPs nmat ncell
  set K := if count ≤ 5 then CFL / 5 else CFL with hK
  have hKp : 0 < K := by rw [hK]; split_ifs <;> positivity
  by_cases hr : r = 0
  · refine ⟨tf - t, ?_, by linarith, by linarith, fun mat ind P hL s hs => ?_, Or.inl (by ring)⟩
    · simp [quotient, hr, hC, clip]
    · have := h2 mat ind P hL s hs
      rw [hr] at this
      nlinarith
  · have hrp : 0 < r := lt_of_le_of_ne h1 (Ne.symm hr)
    have hq : (if count ≤ 5 then CFL / r * 0.2 else CFL / r) = K / r := by
      rw [hK]; split_ifs <;> ring
    have hcl : clip t tf count (quotient CFL r) = if t + K / r > tf then .fin (tf - t) else .fin (K / r) := by
      unfold clip quotient
      rw [if_neg hr]
      simp only
      rw [hq]
    rw [hcl]
    have hbig : ∀ dt, 0 < dt → dt ≤ K / r → ∀ mat ind P, Live masks MPs nmat ncell mat ind P → ∀ s,
        cellSpeed mae dX P (view c (grids.getD mat fun _ => 0) ind) = some s → dt * s ≤ K := by
      intro dt hd hle mat ind P hL s hs
      have h4 := h2 mat ind P hL s hs
      have h5 : dt * r ≤ K := by rwa [le_div_iff₀ hrp] at hle
      nlinarith
    by_cases hgt : t + K / r > tf
    · rw [if_pos hgt]
      exact ⟨tf - t, rfl, by linarith, by linarith, hbig _ (by linarith) (by linarith), Or.inl (by ring)⟩
    · rw [if_neg hgt]
      refine ⟨K / r, rfl, by positivity, by linarith, hbig _ (by positivity) le_rfl, Or.inr ?_⟩
      rcases h3 with h3 | ⟨mat, ind, P, hL, hs⟩
      · exact absurd h3 hr
      · exact ⟨mat, ind, P, r, hL, hs, by field_simp⟩

/-- **NaN wave speeds are ignored**: a field whose every live cell has a NaN speed gets the whole remaining time as
its step. -/
theorem timestep_nan (CFL t tf : ℝ) (count nmat ncell : Nat) (hC : 0 < CFL)
    (h : ∀ mat ind P, Live masks MPs nmat ncell mat ind P →
      cellSpeed mae dX P (view c (grids.getD mat fun _ => 0) ind) = none) :
    timestep c mae grids masks dX CFL t tf count MPs nmat ncell = .fin (tf - t) := by
  obtain ⟨_, _, h3⟩ := maxSpeed_spec c mae grids masks dX MPs nmat ncell
  unfold timestep
  have hr : maxSpeed c mae grids masks dX MPs nmat ncell = 0 := by
    rcases h3 with h3 | ⟨mat, ind, P, hL, hs⟩
    · exact h3
    · rw [h mat ind P hL] at hs; cases hs
  simp [quotient, hr, hC, clip]

end

/-- **The step is too long in two dimensions**: for one cell of unstretched material the step that `timestep` chooses
exceeds the CFL bound for the true characteristic speeds, because `max_abs_eigs` leaves out the sound speed along the
second axis. -/
theorem timestep_second_axis_false (c : Cfg) (P : Par) (Q : St) (hv : c.viscous = true) (hth : c.thermal = false)
    (hm : P.multi = false) (hr : P.reaction > -1 → c.multi = true) (hR : Eig.Regular c P Q) (hA : getA Q = 1)
    (hk : 0 < cs2 P.toParams (Q 0)) (hc : 0 < Eig.c0 c P Q) (hv1 : 0 ≤ vel Q 1) (dx dy CFL : ℝ) (hdx : 0 < dx)
    (hdy : 0 < dy) (hC : 0 < CFL) :
    ∃ tf dt l x, timestep c (fun P Q d => some (Eig.maxAbsEigs c P Q (if d = 0 then 0 else 1))) [Q]
        [fun _ => true] [dx, dy] CFL 0 tf 6 [some P] 1 1 = .fin dt ∧
      x 0 ≠ 0 ∧ (∀ i < c.V, rowDot c.V (systemMatrix c P Q 1) x i = l * x i) ∧
      CFL < dt * (Eig.maxAbsEigs c P Q 0 / dx + l / dy) := by
  obtain ⟨_, ⟨l, hl, x, hx0, hx⟩, _⟩ := Eig.second_axis_false c P Q hv hth hm hr hR hA hk hc hv1
  have nonneg : ∀ d, 0 ≤ Eig.maxAbsEigs c P Q d := by
    intro d
    rw [Eig.maxAbsEigs_eq]
    positivity
  have hpos1 : 0 < Eig.maxAbsEigs c P Q 1 := by
    rw [(Eig.second_axis_false c P Q hv hth hm hr hR hA hk hc hv1).1]
    positivity
  set s := Eig.maxAbsEigs c P Q 0 / dx + Eig.maxAbsEigs c P Q 1 / dy with hs
  have hsp : 0 < s := by
    have := nonneg 0
    positivity
  have hview : view c Q 0 = Q := by
    funext k
    simp [view]
  have hcell : cellSpeed (fun P Q d => some (Eig.maxAbsEigs c P Q (if d = 0 then 0 else 1))) [dx, dy] P Q = some s := by
    rw [cellSpeed_sum _ _ _ _ (fun d => Eig.maxAbsEigs c P Q (if d = 0 then 0 else 1)) fun d _ => rfl]
    simp [Finset.sum_range_succ, hs]
  obtain ⟨dt, hdt, hd0, _, hb, hatt⟩ := timestep_spec c (fun P Q d => some (Eig.maxAbsEigs c P Q (if d = 0 then 0 else 1))) [Q]
    [fun _ => true] [dx, dy] [some P] CFL 0 (2 * CFL / s) 6 1 1 hC (by positivity)
  refine ⟨2 * CFL / s, dt, l, x, hdt, hx0, hx, ?_⟩
  have hlive : Live [fun _ => true] [some P] 1 1 0 0 P := ⟨by omega, by omega, rfl, rfl⟩
  have hb' := hb 0 0 P hlive s (by simpa [hview] using hcell)
  have heq : dt * s = CFL := by
    rcases hatt with h | ⟨mat, ind, P', s', hL, hs', he⟩
    · exfalso
      have : dt = 2 * CFL / s := by linarith
      rw [this, if_neg (by omega)] at hb'
      have : 2 * CFL / s * s = 2 * CFL := by field_simp
      linarith
    · obtain ⟨h1, h2, h3, _⟩ := hL
      have e1 : mat = 0 := by omega
      have e2 : ind = 0 := by omega
      subst e1 e2
      have e3 : P' = P := by simpa using h3.symm
      subst e3
      have : s' = s := by
        have h4 : cellSpeed (fun P Q d => some (Eig.maxAbsEigs c P Q (if d = 0 then 0 else 1))) [dx, dy] P' (view c Q 0) = some s' := hs'
        rw [hview, hcell] at h4
        exact (Option.some.inj h4).symm
      rw [← this]
      simpa using he
  rw [← heq]
  refine mul_lt_mul_of_pos_left ?_ hd0
  rw [hs]
  have : Eig.maxAbsEigs c P Q 1 / dy < l / dy := div_lt_div_of_pos_right hl hdy
  linarith

/-- Two cells with speeds 3 and 8 over a spacing of 1/2: the seventh step from time 1 is `CFL / 16`. -/
example : timestep (cfgOf false) (fun _ Q _ => some (Q 0)) [fun k => if k = 0 then 3 else 8] [fun _ => true] [1 / 2] 0.5
    1 2 6 [some (samplePar sample)] 1 2 = .fin (0.5 / 16) := by
  have hV : (cfgOf false).V = 16 := by decide
  norm_num [timestep, maxSpeed, cellSpeed, maxNan, quotient, clip, view, hV, List.range_succ]

end Verif.Iter
