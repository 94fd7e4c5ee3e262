import Verif.Mix.Props

/-!
# C82: mixtures of stiffened gases
-/

namespace Verif.Mix

open Verif.Sys

/-- A stiffened gas whose temperature is measured from absolute zero. -/
structure Gas (P : Params) : Prop where
  eos : P.eos = .stiffenedGas
  cv : 0 < P.cv
  γ : 1 < P.γ
  Tref : P.Tref = 0

/-- Density from pressure and temperature. -/
theorem gas_density {P : Params} (h : Gas P) (ρ p T : ℝ) (hT : 0 < T) :
    0 < ρ ∧ temperatureMG P ρ p = T ↔ 0 < p + P.pINF ∧ 1 / ρ = (P.γ - 1) * P.cv * T / (p + P.pINF) := by
  have hg : 0 < P.γ - 1 := sub_pos.2 h.γ
  have hc := h.cv
  have e : temperatureMG P ρ p = (p + P.pINF) / (ρ * (P.γ - 1) * P.cv) := by
    simp [temperatureMG, h.eos, h.Tref, pRef, gammaMG]
  rw [e]
  constructor
  · rintro ⟨h1, rfl⟩
    have h2 : 0 < p + P.pINF := by
      by_contra hn
      exact absurd hT (not_lt.2 (div_nonpos_of_nonpos_of_nonneg (not_lt.1 hn) (by positivity)))
    refine ⟨h2, ?_⟩
    field_simp
  · rintro ⟨h1, h2⟩
    have h3 : 0 < 1 / ρ := by rw [h2]; positivity
    have h4 : 0 < ρ := one_div_pos.1 h3
    refine ⟨h4, ?_⟩
    have : ρ = (p + P.pINF) / ((P.γ - 1) * P.cv * T) := by
      rw [← one_div_one_div ρ, h2, one_div_div]
    rw [this]
    field_simp

/-- Energy from pressure and temperature. -/
theorem gas_energy {P : Params} (h : Gas P) (ρ p T e : ℝ) (hρ : 0 < ρ) (hT : 0 < T) (ht : temperatureMG P ρ p = T) :
    pressureMG P ρ e = p ↔ e = P.cv * T * (1 + P.pINF * (P.γ - 1) / (p + P.pINF)) := by
  have hg : 0 < P.γ - 1 := sub_pos.2 h.γ
  have hc := h.cv
  obtain ⟨h1, h2⟩ := (gas_density h ρ p T hT).1 ⟨hρ, ht⟩
  have e1 : pressureMG P ρ e = (e - P.pINF * (1 / ρ)) * ρ * (P.γ - 1) - P.pINF := by
    simp [pressureMG, h.eos, pRef, eRef, gammaMG]
    ring
  have : ρ = (p + P.pINF) / ((P.γ - 1) * P.cv * T) := by
    rw [← one_div_one_div ρ, h2, one_div_div]
  rw [e1, h2, this]
  constructor
  · intro h3
    field_simp at h3 ⊢
    linarith
  · rintro rfl
    field_simp
    ring

section
variable (P1 P2 : Params) (ρ e lam : ℝ)

/-- Mass fraction times heat capacity, and that times the Grüneisen coefficient. -/
noncomputable def heat (P : Params) (l : ℝ) : ℝ := l * P.cv

noncomputable def push (P : Params) (l : ℝ) : ℝ := l * P.cv * (P.γ - 1)

/-- The pressure equation of a mixture. -/
noncomputable def balance (p : ℝ) : ℝ :=
  heat P1 lam * (p + P1.pINF + (P1.γ - 1) * P1.pINF) * (p + P2.pINF) +
    heat P2 (1 - lam) * (p + P2.pINF + (P2.γ - 1) * P2.pINF) * (p + P1.pINF) -
    ρ * e * (push P1 lam * (p + P2.pINF) + push P2 (1 - lam) * (p + P1.pINF))

variable {P1 P2 ρ e lam}

/-- Equilibria of positive temperature are the roots of the pressure equation. -/
theorem equilibrium_iff (h1 : Gas P1) (h2 : Gas P2) (hρ : 0 < ρ) (hl : 0 < lam) (hl' : lam < 1) (p ρ1 ρ2 : ℝ) :
    (0 < ρ1 ∧ 0 < ρ2 ∧ 0 < temperatureMG P1 ρ1 p ∧ Equilibrium P1 P2 ρ e lam p ρ1 ρ2) ↔
      0 < p + P1.pINF ∧ 0 < p + P2.pINF ∧ balance P1 P2 ρ e lam p = 0 ∧
        ∃ T, T * ρ * (push P1 lam * (p + P2.pINF) + push P2 (1 - lam) * (p + P1.pINF)) = (p + P1.pINF) * (p + P2.pINF) ∧
          1 / ρ1 = (P1.γ - 1) * P1.cv * T / (p + P1.pINF) ∧ 1 / ρ2 = (P2.γ - 1) * P2.cv * T / (p + P2.pINF) := by
  have hg1 : 0 < P1.γ - 1 := sub_pos.2 h1.γ
  have hg2 : 0 < P2.γ - 1 := sub_pos.2 h2.γ
  have hc1 := h1.cv
  have hc2 := h2.cv
  have hl2 : 0 < 1 - lam := sub_pos.2 hl'
  constructor
  · rintro ⟨k1, k2, k3, ⟨hv, ⟨e1, e2, j1, j2, j3⟩, ht⟩⟩
    set T := temperatureMG P1 ρ1 p with hT
    obtain ⟨x1, v1⟩ := (gas_density h1 ρ1 p T k3).1 ⟨k1, rfl⟩
    obtain ⟨x2, v2⟩ := (gas_density h2 ρ2 p T k3).1 ⟨k2, ht.symm⟩
    rw [gas_energy h1 ρ1 p T e1 k1 k3 rfl] at j1
    rw [gas_energy h2 ρ2 p T e2 k2 k3 ht.symm] at j2
    have hvv : T * ρ * (push P1 lam * (p + P2.pINF) + push P2 (1 - lam) * (p + P1.pINF)) =
        (p + P1.pINF) * (p + P2.pINF) := by
      have : lam * (1 / ρ1) + (1 - lam) * (1 / ρ2) = 1 / ρ := by rw [← hv]; ring
      rw [v1, v2] at this
      unfold push
      field_simp at this
      linarith
    refine ⟨x1, x2, ?_, T, hvv, v1, v2⟩
    have hTρ : T * ρ ≠ 0 := (mul_pos k3 hρ).ne'
    have hE : e * ((p + P1.pINF) * (p + P2.pINF)) = T * (heat P1 lam * (p + P1.pINF + (P1.γ - 1) * P1.pINF) * (p + P2.pINF) +
        heat P2 (1 - lam) * (p + P2.pINF + (P2.γ - 1) * P2.pINF) * (p + P1.pINF)) := by
      rw [← j3, j1, j2]
      unfold heat
      field_simp
    rw [← hvv] at hE
    unfold balance
    have : T * (heat P1 lam * (p + P1.pINF + (P1.γ - 1) * P1.pINF) * (p + P2.pINF) +
        heat P2 (1 - lam) * (p + P2.pINF + (P2.γ - 1) * P2.pINF) * (p + P1.pINF) -
        ρ * e * (push P1 lam * (p + P2.pINF) + push P2 (1 - lam) * (p + P1.pINF))) = 0 := by linarith
    exact (mul_eq_zero.1 this).resolve_left k3.ne'
  · rintro ⟨x1, x2, hb, T, hvv, v1, v2⟩
    have hD : 0 < push P1 lam * (p + P2.pINF) + push P2 (1 - lam) * (p + P1.pINF) := by
      unfold push
      positivity
    have hT : 0 < T := by
      by_contra hn
      have : T * ρ * (push P1 lam * (p + P2.pINF) + push P2 (1 - lam) * (p + P1.pINF)) ≤ 0 :=
        mul_nonpos_of_nonpos_of_nonneg (mul_nonpos_of_nonpos_of_nonneg (not_lt.1 hn) hρ.le) hD.le
      rw [hvv] at this
      exact absurd (mul_pos x1 x2) (not_lt.2 this)
    obtain ⟨k1, t1⟩ := (gas_density h1 ρ1 p T hT).2 ⟨x1, v1⟩
    obtain ⟨k2, t2⟩ := (gas_density h2 ρ2 p T hT).2 ⟨x2, v2⟩
    refine ⟨k1, k2, t1 ▸ hT, ?_, ⟨_, _, (gas_energy h1 ρ1 p T _ k1 hT t1).2 rfl, (gas_energy h2 ρ2 p T _ k2 hT t2).2 rfl, ?_⟩,
      t1.trans t2.symm⟩
    · have : lam / ρ1 + (1 - lam) / ρ2 = lam * (1 / ρ1) + (1 - lam) * (1 / ρ2) := by ring
      rw [this, v1, v2]
      unfold push at hvv
      field_simp
      linarith
    · unfold balance at hb
      have hx : (p + P1.pINF) * (p + P2.pINF) ≠ 0 := (mul_pos x1 x2).ne'
      apply mul_right_cancel₀ hx
      have : (lam * (P1.cv * T * (1 + P1.pINF * (P1.γ - 1) / (p + P1.pINF))) +
          (1 - lam) * (P2.cv * T * (1 + P2.pINF * (P2.γ - 1) / (p + P2.pINF)))) * ((p + P1.pINF) * (p + P2.pINF)) =
          T * (heat P1 lam * (p + P1.pINF + (P1.γ - 1) * P1.pINF) * (p + P2.pINF) +
            heat P2 (1 - lam) * (p + P2.pINF + (P2.γ - 1) * P2.pINF) * (p + P1.pINF)) := by
        unfold heat
        field_simp
      rw [this, ← hvv]
      linear_combination T * hb

/-- The pressure equation has at most one root. -/
theorem balance_unique (h1 : Gas P1) (h2 : Gas P2) (hl : 0 < lam) (hl' : lam < 1) (p q : ℝ)
    (hp1 : 0 < p + P1.pINF) (hp2 : 0 < p + P2.pINF) (hpq : p < q) (hp : balance P1 P2 ρ e lam p = 0) :
    balance P1 P2 ρ e lam q ≠ 0 := by
  intro hq
  have hg1 : 0 < P1.γ - 1 := sub_pos.2 h1.γ
  have hg2 : 0 < P2.γ - 1 := sub_pos.2 h2.γ
  have hc1 := h1.cv
  have hc2 := h2.cv
  have hl2 : 0 < 1 - lam := sub_pos.2 hl'
  have ha : 0 < heat P1 lam := mul_pos hl hc1
  have hb : 0 < heat P2 (1 - lam) := mul_pos hl2 hc2
  have e1 : push P1 lam = heat P1 lam * (P1.γ - 1) := rfl
  have e2 : push P2 (1 - lam) = heat P2 (1 - lam) * (P2.γ - 1) := rfl
  unfold balance at hp hq
  rw [e1, e2] at hp hq
  set a := heat P1 lam
  set b := heat P2 (1 - lam)
  set g := P1.γ - 1
  set k := P2.γ - 1
  set x := p + P1.pINF with hx
  set y := p + P2.pINF with hy
  have hq1 : 0 < q + P1.pINF := by linarith
  have hq2 : 0 < q + P2.pINF := by linarith
  set x' := q + P1.pINF with hx'
  set y' := q + P2.pINF with hy'
  have hx1 : P1.pINF = x - p := by linarith
  have hx2 : P2.pINF = y - p := by linarith
  have key : (q - p) * ((a + b) * (a * g * (y * y') + b * k * (x * x')) + a * g * (b * k) * (P1.pINF - P2.pINF) ^ 2) = 0 := by
    have hn : (a * (x' + g * P1.pINF) * y' + b * (y' + k * P2.pINF) * x') * (a * g * y + b * k * x) =
        (a * (x + g * P1.pINF) * y + b * (y + k * P2.pINF) * x) * (a * g * y' + b * k * x') := by
      have i1 : a * (x' + g * P1.pINF) * y' + b * (y' + k * P2.pINF) * x' = ρ * e * (a * g * y' + b * k * x') := by linarith
      have i2 : a * (x + g * P1.pINF) * y + b * (y + k * P2.pINF) * x = ρ * e * (a * g * y + b * k * x) := by linarith
      rw [i1, i2]
      ring
    simp only [hx, hy, hx', hy'] at hn ⊢
    linear_combination hn
  have : 0 < (q - p) * ((a + b) * (a * g * (y * y') + b * k * (x * x')) + a * g * (b * k) * (P1.pINF - P2.pINF) ^ 2) := by
    have := sub_pos.2 hpq
    positivity
  exact this.ne' key

/-- The pressure equation has a root, if the energy exceeds what the smaller stiffness stores. -/
theorem balance_root_of_le (h1 : Gas P1) (h2 : Gas P2) (hl : 0 < lam) (hl' : lam < 1) (hle : P1.pINF ≤ P2.pINF)
    (he : P1.pINF < ρ * e) : ∃ p, 0 < p + P1.pINF ∧ 0 < p + P2.pINF ∧ balance P1 P2 ρ e lam p = 0 := by
  have hg1 : 0 < P1.γ - 1 := sub_pos.2 h1.γ
  have hg2 : 0 < P2.γ - 1 := sub_pos.2 h2.γ
  have ha : 0 < heat P1 lam := mul_pos hl h1.cv
  have hb : 0 < heat P2 (1 - lam) := mul_pos (sub_pos.2 hl') h2.cv
  have e1 : push P1 lam = heat P1 lam * (P1.γ - 1) := rfl
  have e2 : push P2 (1 - lam) = heat P2 (1 - lam) * (P2.γ - 1) := rfl
  set δ := P2.pINF - P1.pINF with hδ
  have hδ0 : 0 ≤ δ := sub_nonneg.2 hle
  set A := heat P1 lam + heat P2 (1 - lam) with hA
  set B := heat P1 lam * (δ + (P1.γ - 1) * P1.pINF) + heat P2 (1 - lam) * (δ + (P2.γ - 1) * P2.pINF) -
    ρ * e * (push P1 lam + push P2 (1 - lam)) with hB
  set C := push P1 lam * δ * (P1.pINF - ρ * e) with hC
  have hA0 : 0 < A := add_pos ha hb
  have hp1 : 0 < push P1 lam := by rw [e1]; positivity
  have hp2 : 0 < push P2 (1 - lam) := by rw [e2]; positivity
  have hC0 : C ≤ 0 := mul_nonpos_of_nonneg_of_nonpos (by positivity) (by linarith)
  have hD : 0 ≤ B ^ 2 - 4 * A * C := by nlinarith [sq_nonneg B]
  have hs := Real.sq_sqrt hD
  have hs0 := Real.sqrt_nonneg (B ^ 2 - 4 * A * C)
  set s := Real.sqrt (B ^ 2 - 4 * A * C)
  have hroot : 0 < s - B := by
    by_contra hn
    have hn' : s ≤ B := by linarith
    have h3 : s ^ 2 ≤ B ^ 2 := by nlinarith
    have hCz : C = 0 := by nlinarith
    have hδz : δ = 0 := by
      rcases mul_eq_zero.1 hCz with h4 | h4
      · exact (mul_eq_zero.1 h4).resolve_left hp1.ne'
      · linarith
    have hB0 : B < 0 := by
      have hpi : P2.pINF = P1.pINF := by linarith
      rw [hB, hδz, hpi, e1, e2]
      have : heat P1 lam * (0 + (P1.γ - 1) * P1.pINF) + heat P2 (1 - lam) * (0 + (P2.γ - 1) * P1.pINF) -
        ρ * e * (heat P1 lam * (P1.γ - 1) + heat P2 (1 - lam) * (P2.γ - 1)) =
        (heat P1 lam * (P1.γ - 1) + heat P2 (1 - lam) * (P2.γ - 1)) * (P1.pINF - ρ * e) := by ring
      rw [this]
      exact mul_neg_of_pos_of_neg (by positivity) (by linarith)
    linarith
  have hx : 0 < (s - B) / (2 * A) := div_pos hroot (by positivity)
  refine ⟨(s - B) / (2 * A) - P1.pINF, by linarith, by linarith, ?_⟩
  set x := (s - B) / (2 * A) with hxd
  have h4 : A * x ^ 2 + B * x + C = 0 := by
    have : 2 * A * x = s - B := by rw [hxd]; field_simp
    have h5 : 4 * A * (A * x ^ 2 + B * x + C) = 0 := by
      have : 4 * A * (A * x ^ 2 + B * x + C) = (2 * A * x + B) ^ 2 - (B ^ 2 - 4 * A * C) := by ring
      rw [this, ← hs]
      rw [‹2 * A * x = s - B›]
      ring
    exact (mul_eq_zero.1 h5).resolve_left (by positivity)
  rw [← h4, hA, hB, hC, hδ, balance, e1, e2]
  ring

theorem balance_swap (p : ℝ) : balance P2 P1 ρ e (1 - lam) p = balance P1 P2 ρ e lam p := by
  unfold balance
  rw [sub_sub_cancel]
  ring

theorem balance_root (h1 : Gas P1) (h2 : Gas P2) (hl : 0 < lam) (hl' : lam < 1) (he : min P1.pINF P2.pINF < ρ * e) :
    ∃ p, 0 < p + P1.pINF ∧ 0 < p + P2.pINF ∧ balance P1 P2 ρ e lam p = 0 := by
  rcases le_total P1.pINF P2.pINF with h | h
  · rw [min_eq_left h] at he
    exact balance_root_of_le h1 h2 hl hl' h he
  · rw [min_eq_right h] at he
    obtain ⟨p, k1, k2, k3⟩ := balance_root_of_le (lam := 1 - lam) h2 h1 (by linarith) (by linarith) h he
    exact ⟨p, k2, k1, (balance_swap p).symm.trans k3⟩

/-- **C82.** Two stiffened gases in any proportion, at any density and any energy above the one that the less stiff gas stores
at zero temperature, have exactly one equilibrium of positive temperature. -/
theorem one_equilibrium (h1 : Gas P1) (h2 : Gas P2) (hρ : 0 < ρ) (hl : 0 < lam) (hl' : lam < 1)
    (he : min P1.pINF P2.pINF < ρ * e) :
    ∃! s : ℝ × ℝ × ℝ, 0 < s.2.1 ∧ 0 < s.2.2 ∧ 0 < temperatureMG P1 s.2.1 s.1 ∧
      Equilibrium P1 P2 ρ e lam s.1 s.2.1 s.2.2 := by
  have hg1 : 0 < P1.γ - 1 := sub_pos.2 h1.γ
  have hg2 : 0 < P2.γ - 1 := sub_pos.2 h2.γ
  have hc1 := h1.cv
  have hc2 := h2.cv
  have hl2 : 0 < 1 - lam := sub_pos.2 hl'
  obtain ⟨p, x1, x2, hb⟩ := balance_root h1 h2 hl hl' he
  have hD : 0 < push P1 lam * (p + P2.pINF) + push P2 (1 - lam) * (p + P1.pINF) := by
    unfold push
    positivity
  let T := (p + P1.pINF) * (p + P2.pINF) / (ρ * (push P1 lam * (p + P2.pINF) + push P2 (1 - lam) * (p + P1.pINF)))
  have hT : T * ρ * (push P1 lam * (p + P2.pINF) + push P2 (1 - lam) * (p + P1.pINF)) = (p + P1.pINF) * (p + P2.pINF) := by
    rw [mul_assoc]
    exact div_mul_cancel₀ _ (mul_pos hρ hD).ne'
  refine ⟨(p, ((P1.γ - 1) * P1.cv * T / (p + P1.pINF))⁻¹, ((P2.γ - 1) * P2.cv * T / (p + P2.pINF))⁻¹), ?_, ?_⟩
  · exact (equilibrium_iff h1 h2 hρ hl hl' _ _ _).2 ⟨x1, x2, hb, T, hT, by rw [one_div, inv_inv], by rw [one_div, inv_inv]⟩
  · rintro ⟨q, r1, r2⟩ hq
    obtain ⟨y1, y2, hb', T', hT', v1, v2⟩ := (equilibrium_iff h1 h2 hρ hl hl' _ _ _).1 hq
    simp only at y1 y2 hb' hT' v1 v2
    have hpq : q = p := by
      rcases lt_trichotomy q p with h | h | h
      · exact absurd hb (balance_unique h1 h2 hl hl' q p y1 y2 h hb')
      · exact h
      · exact absurd hb' (balance_unique h1 h2 hl hl' p q x1 x2 h hb)
    subst hpq
    have hTT : T' = T := by
      have := hT'.trans hT.symm
      rw [mul_assoc, mul_assoc] at this
      exact mul_right_cancel₀ (by positivity) this
    rw [← hTT]
    refine Prod.ext rfl (Prod.ext ?_ ?_)
    · simp only [← v1, one_div, inv_inv]
    · simp only [← v2, one_div, inv_inv]

/-- **C82.** Below that energy there is none. -/
theorem energy_floor (h1 : Gas P1) (h2 : Gas P2) (hρ : 0 < ρ) (hl : 0 < lam) (hl' : lam < 1) (p ρ1 ρ2 : ℝ) (k1 : 0 < ρ1)
    (k2 : 0 < ρ2) (kT : 0 < temperatureMG P1 ρ1 p) (h : Equilibrium P1 P2 ρ e lam p ρ1 ρ2) :
    min P1.pINF P2.pINF < ρ * e := by
  have hl2 : 0 < 1 - lam := sub_pos.2 hl'
  obtain ⟨hv, ⟨e1, e2, j1, j2, j3⟩, ht⟩ := h
  obtain ⟨x1, v1⟩ := (gas_density h1 ρ1 p _ kT).1 ⟨k1, rfl⟩
  obtain ⟨x2, v2⟩ := (gas_density h2 ρ2 p _ kT).1 ⟨k2, ht.symm⟩
  rw [gas_energy h1 ρ1 p _ e1 k1 kT rfl] at j1
  rw [gas_energy h2 ρ2 p _ e2 k2 kT ht.symm] at j2
  set T := temperatureMG P1 ρ1 p
  have f1 : P1.pINF * (1 / ρ1) < e1 := by
    rw [v1, j1]
    have : P1.cv * T * (1 + P1.pINF * (P1.γ - 1) / (p + P1.pINF)) =
      P1.cv * T + P1.pINF * ((P1.γ - 1) * P1.cv * T / (p + P1.pINF)) := by ring
    rw [this]
    have := mul_pos h1.cv kT
    linarith
  have f2 : P2.pINF * (1 / ρ2) < e2 := by
    rw [v2, j2]
    have : P2.cv * T * (1 + P2.pINF * (P2.γ - 1) / (p + P2.pINF)) =
      P2.cv * T + P2.pINF * ((P2.γ - 1) * P2.cv * T / (p + P2.pINF)) := by ring
    rw [this]
    have := mul_pos h2.cv kT
    linarith
  have g1 : min P1.pINF P2.pINF * (1 / ρ1) ≤ P1.pINF * (1 / ρ1) :=
    mul_le_mul_of_nonneg_right (min_le_left _ _) (by positivity)
  have g2 : min P1.pINF P2.pINF * (1 / ρ2) ≤ P2.pINF * (1 / ρ2) :=
    mul_le_mul_of_nonneg_right (min_le_right _ _) (by positivity)
  have hm : min P1.pINF P2.pINF * (1 / ρ) < e := by
    rw [← hv, ← j3]
    have a1 := mul_lt_mul_of_pos_left (g1.trans_lt f1) hl
    have a2 := mul_lt_mul_of_pos_left (g2.trans_lt f2) hl2
    calc min P1.pINF P2.pINF * (lam / ρ1 + (1 - lam) / ρ2)
        = lam * (min P1.pINF P2.pINF * (1 / ρ1)) + (1 - lam) * (min P1.pINF P2.pINF * (1 / ρ2)) := by ring
      _ < lam * e1 + (1 - lam) * e2 := add_lt_add a1 a2
  rw [mul_one_div, div_lt_iff₀ hρ] at hm
  linarith

/-- **C82.** Ideal gases: the pressure is that of Dalton's law. -/
theorem dalton (h1 : Gas P1) (h2 : Gas P2) (hi1 : P1.pINF = 0) (hi2 : P2.pINF = 0) (hρ : 0 < ρ) (hl : 0 < lam)
    (hl' : lam < 1) (p ρ1 ρ2 : ℝ) (k1 : 0 < ρ1) (k2 : 0 < ρ2) (kT : 0 < temperatureMG P1 ρ1 p)
    (h : Equilibrium P1 P2 ρ e lam p ρ1 ρ2) :
    p = ρ * e * (lam * P1.cv * (P1.γ - 1) + (1 - lam) * P2.cv * (P2.γ - 1)) / (lam * P1.cv + (1 - lam) * P2.cv) ∧
      ρ1 * P1.cv * (P1.γ - 1) = ρ2 * P2.cv * (P2.γ - 1) := by
  have hg1 : 0 < P1.γ - 1 := sub_pos.2 h1.γ
  have hg2 : 0 < P2.γ - 1 := sub_pos.2 h2.γ
  have hc1 := h1.cv
  have hc2 := h2.cv
  have hl2 : 0 < 1 - lam := sub_pos.2 hl'
  obtain ⟨x1, x2, hb, T, hT, v1, v2⟩ := (equilibrium_iff h1 h2 hρ hl hl' _ _ _).1 ⟨k1, k2, kT, h⟩
  rw [hi1, add_zero] at x1
  constructor
  · rw [eq_div_iff (by positivity)]
    unfold balance heat push at hb
    rw [hi1, hi2] at hb
    apply mul_left_cancel₀ x1.ne'
    linear_combination hb
  · rw [hi1, add_zero] at v1
    rw [hi2, add_zero] at v2
    have a1 : p = ρ1 * ((P1.γ - 1) * P1.cv * T) := by
      rw [div_eq_div_iff k1.ne' x1.ne'] at v1
      linarith
    have a2 : p = ρ2 * ((P2.γ - 1) * P2.cv * T) := by
      rw [div_eq_div_iff k2.ne' x1.ne'] at v2
      linarith
    have hT0 : T ≠ 0 := by
      rintro rfl
      rw [mul_zero, mul_zero] at a1
      exact x1.ne' a1
    apply mul_right_cancel₀ hT0
    linarith

end

/-- A gas and a stiffened gas. -/
example : ∃! s : ℝ × ℝ × ℝ, 0 < s.2.1 ∧ 0 < s.2.2 ∧ 0 < temperatureMG sample s.2.1 s.1 ∧
    Equilibrium sample { sample with pINF := 1 } (4 / 3) (5 / 4) (1 / 2) s.1 s.2.1 s.2.2 :=
  one_equilibrium ⟨rfl, by norm_num [sample], by norm_num [sample], rfl⟩
    ⟨rfl, by norm_num [sample], by norm_num [sample], rfl⟩ (by norm_num) (by norm_num) (by norm_num) (by norm_num [sample])

end Verif.Mix
