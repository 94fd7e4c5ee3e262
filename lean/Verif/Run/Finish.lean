import Verif.Run.Model
import Verif.Grid.Svd

/-! # What every pass leaves behind -/

namespace Verif.Run

open Verif.Sys Verif.Iter Verif.Grid

noncomputable section

theorem devGsq_nonneg (A : M3) : 0 ≤ devGsq A := by
  unfold devGsq
  simp only
  nlinarith [sq_nonneg (dot3 (A 0) (A 0) - dot3 (A 1) (A 1)), sq_nonneg (dot3 (A 1) (A 1) - dot3 (A 2) (A 2)),
    sq_nonneg (dot3 (A 2) (A 2) - dot3 (A 0) (A 0)), sq_nonneg (dot3 (A 0) (A 1)), sq_nonneg (dot3 (A 0) (A 2)),
    sq_nonneg (dot3 (A 1) (A 2))]

/-- The energy of shear is not negative. -/
theorem E2A_nonneg (P : Params) (ρ : ℝ) (A : M3) (h : 0 ≤ C0 P ρ) : 0 ≤ E2A P ρ A :=
  mul_nonneg (by positivity) (devGsq_nonneg A)

/-- Eigen's decompositions are singular value decompositions. -/
structure Tail.Ok {c : Cfg} (F : Tail c) : Prop where
  svd : ∀ A, ∃ U, IsSVD A U (F.svd A).2 (F.svd A).1
  sv : ∀ A, ∃ U W, IsSVD A U W (F.sv A)
  mats : c.lset < F.MPs.length

variable {c : Cfg} (F : Tail c)

/-- The material of cell `i`. -/
def matAt (u : Mem) (i : Nat) : Option (Option Par) := F.MPs[materialIndex c (view c u i)]?

theorem matAt_congr (u w : Mem) (i : Nat)
    (h : ∀ k < c.V, c.V - c.lset ≤ k → u (i * c.V + k) = w (i * c.V + k)) : matAt F u i = matAt F w i := by
  unfold matAt
  rw [materialIndex_congr c (view c u i) (view c w i) fun k hk hk' => h k hk hk']

theorem limit_keep (n : Nat) (u : Mem) (i : Nat) (hi : i < n) (k : Nat) (hk : k < c.V)
    (h : c.multi = true → k ≠ c.mV) : limitConcentration c n u (i * c.V + k) = u (i * c.V + k) := by
  cases hm : c.multi
  · rw [limit_concentration_off c n u hm]
  · exact (limit_concentration_spec c n u hm i hi).1 k hk (h hm)

/-- **What a pass leaves behind.** -/
theorem finish_spec (hv : c.viscous = true) (hF : F.Ok) (count : Nat) (u : Mem) :
    ∃ u', finish F count u = some u' ∧
      -- density, momentum, heat flux and level sets are those of the steppers
      (∀ i < F.ncell, ∀ k < c.V, k = 0 ∨ (2 ≤ k ∧ k < 5) ∨ 14 ≤ k → (c.multi = true → k ≠ c.mV) →
        u' (i * c.V + k) = u (i * c.V + k)) ∧
      -- concentrations are in range
      (c.multi = true → ∀ i < F.ncell, 0 ≤ u (i * c.V) →
        0 ≤ u' (i * c.V + c.mV) ∧ u' (i * c.V + c.mV) ≤ u' (i * c.V)) ∧
      -- the volume ratio is the one of the density
      (∀ i < F.ncell, ∀ P, matAt F u i = some (some P) → 0 < P.ρ0 → 0 < u (i * c.V) →
        (getA (view c u i)).det ≠ 0 ∨ (getA (view c u' i)).det ≠ 0 →
          u' (i * c.V) = P.ρ0 * |(getA (view c u' i)).det| ∧
          (F.rot = false → u' (i * c.V) = P.ρ0 * (getA (view c u' i)).det)) ∧
      -- vacuum cells are left alone
      (∀ i < F.ncell, matAt F u i = some none → ∀ k < c.V, (c.multi = true → k ≠ c.mV) →
        u' (i * c.V + k) = u (i * c.V + k)) ∧
      -- energy is only ever taken away, and only together with all shear
      (∀ i < F.ncell, ∀ P, matAt F u i = some (some P) → 0 < u (i * c.V) → 0 ≤ C0 P.toParams (u (i * c.V)) →
        u' (i * c.V + 1) ≤ u (i * c.V + 1)) ∧
      ((∀ i < F.ncell, u' (i * c.V + 1) = u (i * c.V + 1)) ∨
        ∀ i < F.ncell, ∀ P, matAt F u i = some (some P) → ∃ f : ℝ, getA (view c u' i) = f • (1 : M3)) ∧
      -- no cell is contorted
      (0 ≤ F.tol → (∀ i < F.ncell, matAt F u i = some none → (getA (view c u i)).det = 0) →
        contorted c F.sv F.ncell u' F.tol = false) := by
  have hV := Iter.V_ge c hv
  set u0 := limitConcentration c F.ncell u with hu0
  have k0 : ∀ i < F.ncell, ∀ k < c.V, (c.multi = true → k ≠ c.mV) → u0 (i * c.V + k) = u (i * c.V + k) :=
    fun i hi k hk h => limit_keep F.ncell u i hi k hk h
  have hlam : c.multi = true → c.mV < c.V - c.lset := fun hm => by unfold Cfg.V; rw [if_pos hm]; omega
  obtain ⟨u1, e1, k1, -, v1, r1, -⟩ := renorm_distortion_spec c hv F.MPs F.ncell u0 hF.mats
  have h2 : ∃ u2, rotateSome F count u1 = some u2 ∧
      (∀ i < F.ncell, ∀ k < c.V, k < 5 ∨ 14 ≤ k → u2 (i * c.V + k) = u1 (i * c.V + k)) ∧
      (∀ i < F.ncell, matAt F u1 i = some none → ∀ k < c.V, u2 (i * c.V + k) = u1 (i * c.V + k)) ∧
      (F.rot = false → u2 = u1) ∧
      ∀ i < F.ncell, |(getA (view c u2 i)).det| = |(getA (view c u1 i)).det| := by
    unfold rotateSome
    split_ifs with hr
    · obtain ⟨u2, e2, k2, -, g2⟩ := rotate_distortion_spec c hv F.svd F.MPs F.ncell u1 hF.mats
        (fun i _ => hF.svd _)
      refine ⟨u2, e2, k2, ?_, fun h => by rw [h] at hr; exact absurd hr.2 (by decide), fun i hi => ?_⟩
      · intro i hi hvac
        rcases matter_spec c F.MPs _ (rotate_local c hv F.svd F.MPs) F.ncell u1 u2 e2 i hi with ⟨_, h⟩ | ⟨P, hP, _⟩
        · exact h
        · rw [matAt] at hvac
          rw [hvac] at hP; cases hP
      · have := congrArg Matrix.det (g2 i hi).1
        rw [Matrix.det_mul, Matrix.det_mul, Matrix.det_transpose, Matrix.det_transpose] at this
        exact abs_eq_abs.2 (mul_self_eq_mul_self_iff.1 this)
    · exact ⟨u1, rfl, fun _ _ _ _ _ => rfl, fun _ _ _ _ _ => rfl, fun _ => rfl, fun _ _ => rfl⟩
  obtain ⟨u2, e2, k2, v2, f2, g2⟩ := h2
  -- cells before the reset
  have m0 : ∀ i < F.ncell, matAt F u0 i = matAt F u i := fun i hi =>
    matAt_congr F _ _ i fun k hk hk' => k0 i hi k hk fun hm => by have := hlam hm; omega
  have m1 : ∀ i < F.ncell, matAt F u1 i = matAt F u i := fun i hi =>
    (matAt_congr F _ _ i fun k hk hk' => k1 i hi k hk (Or.inr (by omega))).trans (m0 i hi)
  have m2 : ∀ i < F.ncell, matAt F u2 i = matAt F u i := fun i hi =>
    (matAt_congr F _ _ i fun k hk hk' => k2 i hi k hk (Or.inr (by omega))).trans (m1 i hi)
  have d0 : ∀ i < F.ncell, u0 (i * c.V) = u (i * c.V) := fun i hi => k0 i hi 0 (by omega) fun _ => by omega
  have d1 : ∀ i < F.ncell, u1 (i * c.V) = u (i * c.V) := fun i hi => (k1 i hi 0 (by omega) (by omega)).trans (d0 i hi)
  have d2 : ∀ i < F.ncell, u2 (i * c.V) = u (i * c.V) := fun i hi => (k2 i hi 0 (by omega) (by omega)).trans (d1 i hi)
  have A0 : ∀ i < F.ncell, getA (view c u0 i) = getA (view c u i) := fun i hi => by
    ext a b
    have := a.2; have := b.2
    exact k0 i hi _ (by omega) fun _ => by omega
  have keep2 : ∀ i < F.ncell, ∀ k < c.V, k < 5 ∨ 14 ≤ k → u2 (i * c.V + k) = u0 (i * c.V + k) := fun i hi k hk h =>
    (k2 i hi k hk h).trans (k1 i hi k hk h)
  have vol2 : ∀ i < F.ncell, ∀ P, matAt F u i = some (some P) → 0 < P.ρ0 → 0 < u (i * c.V) →
      (getA (view c u i)).det ≠ 0 ∨ (getA (view c u2 i)).det ≠ 0 → u2 (i * c.V) = P.ρ0 * |(getA (view c u2 i)).det| ∧
        (F.rot = false → u2 (i * c.V) = P.ρ0 * (getA (view c u2 i)).det) := by
    intro i hi P hP h0 hρ hdet
    replace hdet : (getA (view c u i)).det ≠ 0 := by
      rcases hdet with h | h
      · exact h
      · intro hz
        have h1 : (getA (view c u1 i)).det ≠ 0 := fun h1 => h (by
          have := g2 i hi
          rwa [h1, abs_zero, abs_eq_zero] at this)
        rcases matter_spec c F.MPs _ (renorm_local c hv F.MPs) F.ncell u0 u1 e1 i hi with ⟨hn, _⟩ | ⟨P', hP', hw⟩
        · have := m0 i hi
          rw [hP, matAt, hn] at this
          cases this
        · rw [getA_view c hv _ _ _ hw, renorm_getA c P' u0 i (by rw [d0 i hi]; exact hρ), det_scale, A0 i hi, hz,
            mul_zero] at h1
          exact h1 rfl
    have hr := (r1 i hi P (by rw [← hP]; exact m0 i hi) h0.ne' (by rw [d0 i hi]; exact hρ)
      (by rw [A0 i hi]; exact hdet)).1
    have hpos : 0 < (getA (view c u1 i)).det := by
      rw [d1 i hi] at hr
      by_contra hcon
      push Not at hcon
      nlinarith
    refine ⟨?_, fun h => by rw [f2 h]; exact hr⟩
    rw [g2 i hi, abs_of_pos hpos, d2 i hi, ← d1 i hi]
    exact hr
  have vac2 : ∀ i < F.ncell, matAt F u i = some none → ∀ k < c.V, u2 (i * c.V + k) = u0 (i * c.V + k) := by
    intro i hi h k hk
    rw [v2 i hi (by rw [m1 i hi]; exact h) k hk]
    exact v1 i hi (by rw [← h]; exact m0 i hi) k hk
  have conc2 : c.multi = true → ∀ i < F.ncell, 0 ≤ u (i * c.V) →
      0 ≤ u2 (i * c.V + c.mV) ∧ u2 (i * c.V + c.mV) ≤ u (i * c.V) := by
    intro hm i hi hρ
    have := hlam hm
    rw [keep2 i hi _ (by omega) (Or.inr (by omega))]
    exact (limit_concentration_spec c F.ncell u hm i hi).2.1 hρ
  have en2 : ∀ i < F.ncell, u2 (i * c.V + 1) = u (i * c.V + 1) := fun i hi =>
    (keep2 i hi 1 (by omega) (by omega)).trans (k0 i hi 1 (by omega) fun _ => by omega)
  have hfin : finish F count u = resetSome F u2 := by
    unfold finish
    rw [← hu0, e1]
    simp only [Option.bind_eq_bind, Option.bind_some]
    rw [e2]
    rfl
  rw [hfin]
  unfold resetSome
  split_ifs with hc
  · obtain ⟨u3, e3, k3, -, v3, r3⟩ := reset_distortion_spec c hv F.MPs F.ncell u2 hF.mats
    have d3 : ∀ i < F.ncell, u3 (i * c.V) = u (i * c.V) := fun i hi => (k3 i hi 0 (by omega) (by omega)).trans (d2 i hi)
    refine ⟨u3, e3, ?_, ?_, ?_, ?_, ?_, Or.inr ?_, ?_⟩
    · intro i hi k hk h hm
      rw [k3 i hi k hk h, keep2 i hi k hk (by omega), k0 i hi k hk hm]
    · intro hm i hi hρ
      have := hlam hm
      rw [k3 i hi _ (by omega) (Or.inr (Or.inr (by omega))), d3 i hi]
      exact conc2 hm i hi hρ
    · intro i hi P hP h0 hρ _
      have hd := (r3 i hi P (by rw [← hP]; exact m2 i hi)).2.1 h0.ne'
      refine ⟨?_, fun _ => hd⟩
      have hpos : 0 < (getA (view c u3 i)).det := by
        rw [d3 i hi] at hd
        by_contra hcon
        push Not at hcon
        nlinarith
      rw [abs_of_pos hpos]
      exact hd
    · intro i hi h k hk hm
      rw [v3 i hi (by rw [← h]; exact m2 i hi) k hk, vac2 i hi h k hk, k0 i hi k hk hm]
    · intro i hi P hP hρ hC
      rcases matter_spec c F.MPs _ (reset_local c hv F.MPs) F.ncell u2 u3 e3 i hi with ⟨h, _⟩ | ⟨P', hP', h⟩
      · have := m2 i hi
        rw [hP] at this
        rw [matAt, h] at this
        cases this
      · have hm2 := m2 i hi
        rw [hP, matAt, hP'] at hm2
        cases hm2
        rw [h 1 (by omega), resetCell_val, if_pos rfl, en2 i hi, d2 i hi]
        have := mul_nonneg hρ.le (E2A_nonneg P.toParams (u (i * c.V)) (getA (view c u2 i)) hC)
        linarith
    · intro i hi P hP
      exact (r3 i hi P (by rw [← hP]; exact m2 i hi)).1
    · intro ht hvac
      refine reset_uncontorted_partial c hv F.MPs F.ncell u2 u3 e3 F.sv F.tol ht (fun i _ => hF.sv _) ?_
      intro i hi h
      have hm : matAt F u i = some none := by rw [← m2 i hi]; exact h
      rw [show getA (view c u2 i) = getA (view c u i) from ?_]
      · exact hvac i hi hm
      · rw [← A0 i hi]
        exact getA_view c hv _ _ _ fun k hk => vac2 i hi hm k hk
  · refine ⟨u2, rfl, ?_, ?_, vol2, ?_, ?_, Or.inl en2, fun _ _ => by simpa using hc⟩
    · intro i hi k hk h hm
      rw [keep2 i hi k hk (by omega), k0 i hi k hk hm]
    · intro hm i hi hρ
      rw [d2 i hi]
      exact conc2 hm i hi hρ
    · intro i hi h k hk hm
      rw [vac2 i hi h k hk, k0 i hi k hk hm]
    · intro i hi P _ _ _
      exact (en2 i hi).le

/-- What holds of every field a pass hands on. -/
structure Sound (u : Mem) : Prop where
  /-- every cell has a material -/
  material : ∀ i < F.ncell, matAt F u i ≠ none
  /-- mass fractions are in range -/
  fraction : c.multi = true → ∀ i < F.ncell, 0 ≤ u (i * c.V) →
    0 ≤ u (i * c.V + c.mV) ∧ u (i * c.V + c.mV) ≤ u (i * c.V)
  /-- the distortion fits the density -/
  volume : ∀ i < F.ncell, ∀ P, matAt F u i = some (some P) → 0 < P.ρ0 → 0 < u (i * c.V) →
    (getA (view c u i)).det ≠ 0 → u (i * c.V) = P.ρ0 * |(getA (view c u i)).det| ∧
      (F.rot = false → u (i * c.V) = P.ρ0 * (getA (view c u i)).det)
  /-- vacuum is empty -/
  vacuum : ∀ i < F.ncell, matAt F u i = some none → ∀ k < c.V - c.lset, u (i * c.V + k) = 0
  /-- no cell is contorted -/
  calm : 0 ≤ F.tol → contorted c F.sv F.ncell u F.tol = false

theorem finish_sound (hv : c.viscous = true) (hF : F.Ok) (count : Nat) (grids : List Mem) (masks : List (Nat → Bool))
    (u v u' : Mem) (hm : makeU c F.ncell grids masks F.MPs u = some v) (hf : finish F count v = some u') :
    Sound F u' := by
  have hV := Iter.V_ge c hv
  have hlam : c.multi = true → c.mV < c.V - c.lset := fun hm => by unfold Cfg.V; rw [if_pos hm]; omega
  obtain ⟨w, hw, a1, a2, a3, a4, -, -, a7⟩ := finish_spec F hv hF count v
  rw [hf] at hw
  cases hw
  have d : ∀ i < F.ncell, u' (i * c.V) = v (i * c.V) := fun i hi => a1 i hi 0 (by omega) (Or.inl rfl) fun _ => by omega
  have m : ∀ i < F.ncell, matAt F u' i = matAt F v i := fun i hi =>
    matAt_congr F _ _ i fun k hk hk' => a1 i hi k hk (by omega) fun h => by have := hlam h; omega
  have z : ∀ i < F.ncell, matAt F v i = some none → ∀ k < c.V - c.lset, v (i * c.V + k) = 0 := by
    intro i hi h k hk
    obtain ⟨-, P, hP, hz, -⟩ := make_u_spec c F.ncell grids masks F.MPs u v hm i hi
    rw [matAt, hP] at h
    cases h
    exact hz rfl k hk
  refine ⟨fun i hi => ?_, fun hmu i hi hρ => ?_, fun i hi P hP h0 hρ hdet => ?_, fun i hi h k hk => ?_, fun ht => ?_⟩
  · rw [m i hi]
    obtain ⟨-, P, hP, -⟩ := make_u_spec c F.ncell grids masks F.MPs u v hm i hi
    rw [matAt, hP]
    exact Option.some_ne_none _
  · exact a2 hmu i hi (by rw [← d i hi]; exact hρ)
  · exact a3 i hi P (by rw [← m i hi]; exact hP) h0 (by rw [← d i hi]; exact hρ) (Or.inr hdet)
  · rw [m i hi] at h
    by_cases hk' : c.multi = true ∧ k = c.mV
    · obtain ⟨hmu, rfl⟩ := hk'
      have h0 := z i hi h 0 (by omega)
      rw [Nat.add_zero] at h0
      have := a2 hmu i hi (by rw [h0])
      rw [d i hi, h0] at this
      exact le_antisymm this.2 this.1
    · rw [a4 i hi h k (by omega) fun hmu e => hk' ⟨hmu, e⟩]
      exact z i hi h k hk
  · refine a7 ht fun i hi h => ?_
    have : getA (view c v i) = 0 := by
      ext a b
      have := a.2; have := b.2
      exact z i hi h _ (by omega)
    rw [this, Matrix.det_zero]

/-- The passes of the loop end as `iterator.cpp:135-151` does. -/
def Ends {W : Type} (b : Body Mem W) : Prop := ∀ u w t count, ∃ grids masks v,
  makeU c F.ncell grids masks F.MPs u = some v ∧ finish F (count + 1) v = some (b.step u w t count).1

/-- **Every field after the first, and every snapshot, is sound**, whatever the steppers did. -/
theorem run_sound {W : Type} (b : Body Mem W) (hv : c.viscous = true) (hF : F.Ok) (hb : Ends F b) (tf : ℝ) (u0 : Mem)
    (w0 : W) {n : Nat} {s : Vars Mem W} (hs : Reach b tf u0 w0 n s) :
    (0 < n → Sound F s.u) ∧ (∀ k x, s.ret k = some x → Sound F x) ∧
    ∀ ret f, 0 < n → tf ≤ s.t → pass b tf s = .done ret f → ∀ k x, ret k = some x → Sound F x := by
  have main : (0 < n → Sound F s.u) ∧ ∀ k x, s.ret k = some x → Sound F x := by
    induction hs with
    | start => exact ⟨fun h => absurd h (lt_irrefl 0), fun k x h => by cases h⟩
    | @step n s s' hs hp ih =>
      have hu : Sound F s'.u := by
        obtain ⟨_, _, e, _⟩ := pass_next b tf hp
        obtain ⟨g, m, v, h1, h2⟩ := hb s.u s.w s.t s.count
        rw [e]
        exact finish_sound F hv hF _ g m _ v _ h1 h2
      refine ⟨fun _ => hu, fun k x hx => ?_⟩
      obtain ⟨_, _, _, _, _, _, hc⟩ := pass_next b tf hp
      rcases hc with ⟨_, _, _, er⟩ | ⟨_, _, er⟩
      · rw [er] at hx
        by_cases hk : k = s.push
        · subst hk
          rw [Function.update_self] at hx
          cases hx
          exact hu
        · rw [Function.update_of_ne hk] at hx
          exact ih.2 k x hx
      · rw [er] at hx
        exact ih.2 k x hx
  refine ⟨main.1, main.2, fun ret f hn ht hp k x hx => ?_⟩
  unfold pass at hp
  rw [if_neg (not_lt.2 ht)] at hp
  unfold store at hp
  rw [if_pos (by norm_num)] at hp
  cases hp
  by_cases hk : k = 99
  · subst hk
    rw [Function.update_self] at hx
    cases hx
    exact main.1 hn
  · rw [Function.update_of_ne hk] at hx
    exact main.2 k x hx

/-- The three materials of the default configuration, the second of them vacuum. -/
def sampleTail (n : Nat) : Tail (cfgOf false) where
  ncell := n
  MPs := [some (samplePar sample), none, some (samplePar sample)]
  rot := true
  svd := fun A => ((svd_exists A).choose_spec.choose_spec.choose, (svd_exists A).choose_spec.choose)
  sv := fun A => (svd_exists A).choose_spec.choose_spec.choose
  tol := 1 / 2

theorem sampleTail_ok (n : Nat) : (sampleTail n).Ok :=
  ⟨fun A => ⟨_, (svd_exists A).choose_spec.choose_spec.choose_spec.1⟩,
   fun A => ⟨_, _, (svd_exists A).choose_spec.choose_spec.choose_spec.1⟩, by simp [sampleTail, cfgOf]⟩

/-- A loop whose steppers stretch everything: its passes end as those of `iterator` do, and the theorem applies. -/
example (n : Nat) (u0 : Mem) {m : Nat} {s : Vars Mem Unit} :
    ∃ b : Body Mem Unit, Ends (sampleTail n) b ∧ (Reach b 1 u0 () m s → 0 < m → Sound (sampleTail n) s.u) := by
  have h : ∀ (u : Mem) (count : Nat), ∃ v u', makeU (cfgOf false) n [fun k => 2 * u k, u, fun k => u k + 1]
      [fun _ => true, fun _ => false, fun _ => true] (sampleTail n).MPs u = some v ∧
      finish (sampleTail n) (count + 1) v = some u' := by
    intro u count
    obtain ⟨v, hv⟩ := make_u_defined (cfgOf false) n [fun k => 2 * u k, u, fun k => u k + 1]
      [fun _ => true, fun _ => false, fun _ => true] (sampleTail n).MPs u (by simp [sampleTail, cfgOf])
      (by simp [sampleTail])
    obtain ⟨u', h', -⟩ := finish_spec (sampleTail n) rfl (sampleTail_ok n) (count + 1) v
    exact ⟨v, u', hv, h'⟩
  let b : Body Mem Unit := ⟨fun u _ _ count => ((h u count).choose_spec.choose, (), 1 / 10), fun _ => false⟩
  have hb : Ends (sampleTail n) b := fun u _ _ count =>
    ⟨_, _, _, (h u count).choose_spec.choose_spec.1, (h u count).choose_spec.choose_spec.2⟩
  exact ⟨b, hb, fun hs hm => (run_sound (sampleTail n) b rfl (sampleTail_ok n) hb 1 u0 () hs).1 hm⟩

end

end Verif.Run
