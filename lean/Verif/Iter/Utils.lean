import Verif.Iter.Props

/-!
# Properties of `renorm_distortion`, `rotate_distortion`, `reset_distortion` and `contorted`
-/

namespace Verif.Iter

open Verif.Sys Verif.Grid

theorem cbrt_cube (x : ℝ) : cbrt x * cbrt x * cbrt x = x := by
  have key : ∀ y : ℝ, 0 ≤ y → y ^ (1 / 3 : ℝ) * y ^ (1 / 3 : ℝ) * y ^ (1 / 3 : ℝ) = y := by
    intro y hy
    have : (y ^ (1 / 3 : ℝ)) ^ (3 : ℕ) = y := by
      rw [← Real.rpow_natCast, ← Real.rpow_mul hy]
      norm_num
    calc _ = (y ^ (1 / 3 : ℝ)) ^ (3 : ℕ) := by ring
      _ = y := this
  unfold cbrt
  split_ifs with h
  · exact key x h
  · have := key (-x) (by linarith)
    linear_combination -this

theorem cbrt_one : cbrt 1 = 1 := by simp [cbrt]

/-! ### Loops over matter -/

theorem matter_local (c : Cfg) (MPs : List (Option Par)) (g : Par → Mem → Nat → Mem)
    (hk : ∀ P u i k, k < i * c.V ∨ (i + 1) * c.V ≤ k → g P u i k = u k)
    (hd : ∀ P u w i, (∀ k < c.V, u (i * c.V + k) = w (i * c.V + k)) →
      ∀ k < c.V, g P w i (i * c.V + k) = g P u i (i * c.V + k)) : Local c.V (matterCell c MPs g) := by
  constructor
  · intro u i u' h k hk'
    unfold matterCell at h
    split at h
    · cases h
    · cases h; rfl
    · cases h; exact hk _ _ _ _ hk'
  · intro u w i u' hag h
    have e : materialIndex c (view c w i) = materialIndex c (view c u i) :=
      materialIndex_congr c _ _ fun k hk _ => (hag k hk).symm
    unfold matterCell at h ⊢
    rw [e]
    split at h
    · cases h
    · cases h; exact ⟨w, rfl, fun k hk => (hag k hk).symm⟩
    · cases h; exact ⟨_, rfl, hd _ _ _ _ hag⟩

/-- What such a loop does to each cell. -/
theorem matter_spec (c : Cfg) (MPs : List (Option Par)) (g : Par → Mem → Nat → Mem)
    (hL : Local c.V (matterCell c MPs g)) (n : Nat) (u u' : Mem)
    (h : (List.range n).foldlM (matterCell c MPs g) u = some u') (i : Nat) (hi : i < n) :
    (MPs[materialIndex c (view c u i)]? = some none ∧ ∀ k < c.V, u' (i * c.V + k) = u (i * c.V + k)) ∨
    ∃ P, MPs[materialIndex c (view c u i)]? = some (some P) ∧
      ∀ k < c.V, u' (i * c.V + k) = g P u i (i * c.V + k) := by
  obtain ⟨w, hw, hwk⟩ := (cells_spec hL n u u' h).1 i hi
  unfold matterCell at hw
  split at hw
  · cases hw
  · rename_i hm
    cases hw
    exact Or.inl ⟨hm, hwk⟩
  · rename_i P hm
    cases hw
    exact Or.inr ⟨P, hm, hwk⟩

theorem matter_some (c : Cfg) (MPs : List (Option Par)) (g : Par → Mem → Nat → Mem)
    (hL : Local c.V (matterCell c MPs g)) (n : Nat) (u : Mem) (hm : c.lset < MPs.length) :
    ((List.range n).foldlM (matterCell c MPs g) u).isSome := by
  rw [cells_some hL]
  intro i _
  have := materialIndex_le c (view c u i)
  unfold matterCell
  rw [List.getElem?_eq_getElem (by omega)]
  cases MPs[materialIndex c (view c u i)] <;> rfl

theorem V_ge (c : Cfg) (hv : c.viscous = true) : 14 ≤ c.mV ∧ c.mV ≤ c.V - c.lset ∧ c.V - c.lset ≤ c.V := by
  unfold Cfg.V Cfg.mV
  simp only [hv, if_true]
  omega

theorem getA_view (c : Cfg) (hv : c.viscous = true) (u w : Mem) (i : Nat)
    (h : ∀ k < c.V, u (i * c.V + k) = w (i * c.V + k)) : getA (view c u i) = getA (view c w i) := by
  have := V_ge c hv
  exact Verif.Rot.getA_congr fun j _ h2 => h j (by omega)

/-! ### C46 -/

theorem renormCell_val (c : Cfg) (P : Par) (u : Mem) (i k : Nat) : renormCell c P u i k =
    if 0 < u (i * c.V) ∧ i * c.V + 5 ≤ k ∧ k < i * c.V + 14 then
      u k * cbrt (u (i * c.V) / (P.ρ0 * (getA (view c u i)).det)) else u k := by
  unfold renormCell
  by_cases h : 0 < u (i * c.V)
  · simp only [gt_iff_lt, h, if_true, true_and]
  · simp only [gt_iff_lt, h, if_false, false_and]

theorem renorm_local (c : Cfg) (hv : c.viscous = true) (MPs : List (Option Par)) :
    Local c.V (matterCell c MPs (renormCell c)) := by
  have hV := V_ge c hv
  refine matter_local c MPs _ ?_ ?_
  · intro P u i k hk
    rw [Nat.add_mul, Nat.one_mul] at hk
    rw [renormCell_val, if_neg (by omega)]
  · intro P u w i h k hk
    have h0 : u (i * c.V) = w (i * c.V) := h 0 (by omega)
    rw [renormCell_val, renormCell_val, getA_view c hv u w i h, h0, h k hk]

theorem det_scale (A : M3) (f : ℝ) : (f • A).det = f * f * f * A.det := by
  rw [Matrix.det_smul, Fintype.card_fin]; ring

theorem renorm_getA (c : Cfg) (P : Par) (u : Mem) (i : Nat) (hρ : 0 < u (i * c.V)) :
    getA (view c (renormCell c P u i) i) =
      cbrt (u (i * c.V) / (P.ρ0 * (getA (view c u i)).det)) • getA (view c u i) := by
  ext a b
  have ha := a.2
  have hb := b.2
  show renormCell c P u i (i * c.V + (5 + (3 * a + b))) = _ * u (i * c.V + (5 + (3 * a + b)))
  rw [renormCell_val, if_pos ⟨hρ, by omega, by omega⟩, mul_comm]

/-- **Renormalisation**: the call succeeds if there are more materials than level sets; then every matter cell of
positive density and non-singular distortion satisfies `ρ = ρ0 det A` for its own material, nothing but distortions
changed, vacuum is untouched, and a second call changes nothing. -/
theorem renorm_distortion_spec (c : Cfg) (hv : c.viscous = true) (MPs : List (Option Par)) (n : Nat) (u : Mem)
    (hm : c.lset < MPs.length) :
    ∃ u', renormDistortion c n MPs u = some u' ∧
      (∀ i < n, ∀ k < c.V, k < 5 ∨ 14 ≤ k → u' (i * c.V + k) = u (i * c.V + k)) ∧
      (∀ k, n * c.V ≤ k → u' k = u k) ∧
      (∀ i < n, MPs[materialIndex c (view c u i)]? = some none → ∀ k < c.V, u' (i * c.V + k) = u (i * c.V + k)) ∧
      (∀ i < n, ∀ P, MPs[materialIndex c (view c u i)]? = some (some P) → P.ρ0 ≠ 0 → 0 < u (i * c.V) →
        (getA (view c u i)).det ≠ 0 → u' (i * c.V) = P.ρ0 * (getA (view c u' i)).det ∧
          ∃ f : ℝ, getA (view c u' i) = f • getA (view c u i)) ∧
      ((∀ i < n, ∀ P, MPs[materialIndex c (view c u i)]? = some (some P) → P.ρ0 ≠ 0 ∧
          (getA (view c u i)).det ≠ 0) →
        ∃ u'', renormDistortion c n MPs u' = some u'' ∧ ∀ k, u'' k = u' k) := by
  have hV := V_ge c hv
  have hL := renorm_local c hv MPs
  obtain ⟨u', hu'⟩ := Option.isSome_iff_exists.1 (matter_some c MPs _ hL n u hm)
  have hspec := matter_spec c MPs _ hL n u u' hu'
  have hkeep : ∀ i < n, ∀ k < c.V, k < 5 ∨ 14 ≤ k → u' (i * c.V + k) = u (i * c.V + k) := by
    intro i hi k hk hk'
    rcases hspec i hi with ⟨_, h⟩ | ⟨P, _, h⟩
    · exact h k hk
    · rw [h k hk]
      rw [renormCell_val, if_neg (by omega)]
  have hmi : ∀ i < n, materialIndex c (view c u' i) = materialIndex c (view c u i) := fun i hi =>
    materialIndex_congr c _ _ fun k hk hk' => hkeep i hi k hk (Or.inr (by omega))
  have hden : ∀ i < n, ∀ P, MPs[materialIndex c (view c u i)]? = some (some P) → P.ρ0 ≠ 0 → 0 < u (i * c.V) →
        (getA (view c u i)).det ≠ 0 → u' (i * c.V) = P.ρ0 * (getA (view c u' i)).det ∧
          ∃ f : ℝ, getA (view c u' i) = f • getA (view c u i) := by
    intro i hi P hP h0 hρ hdet
    rcases hspec i hi with ⟨h, _⟩ | ⟨P', hP', h⟩
    · rw [hP] at h; cases h
    · rw [hP] at hP'
      cases hP'
      have e : getA (view c u' i) = getA (view c (renormCell c P u i) i) := getA_view c hv _ _ _ h
      have hd := hkeep i hi 0 (by omega) (by omega)
      rw [Nat.add_zero] at hd
      rw [e, renorm_getA c P u i hρ]
      refine ⟨?_, _, rfl⟩
      rw [det_scale, cbrt_cube, hd]
      field_simp
  refine ⟨u', hu', hkeep, (cells_spec hL n u u' hu').2, ?_, hden, ?_⟩
  · intro i hi hvac
    rcases hspec i hi with ⟨_, h⟩ | ⟨P, hP, _⟩
    · exact h
    · rw [hvac] at hP; cases hP
  · intro hall
    obtain ⟨u'', hu''⟩ := Option.isSome_iff_exists.1 (matter_some c MPs _ hL n u' hm)
    refine ⟨u'', hu'', fun k => ?_⟩
    by_cases hk : n * c.V ≤ k
    · exact (cells_spec hL n u' u'' hu'').2 k hk
    · push Not at hk
      have hV0 : 0 < c.V := by omega
      have hi : k / c.V < n := (Nat.div_lt_iff_lt_mul hV0).2 hk
      have hr : k % c.V < c.V := Nat.mod_lt _ hV0
      have ek : k = k / c.V * c.V + k % c.V := by
        have := Nat.div_add_mod k c.V
        rw [Nat.mul_comm] at this
        omega
      generalize hi' : k / c.V = i at *
      generalize hr' : k % c.V = r at *
      rcases matter_spec c MPs _ hL n u' u'' hu'' i hi with ⟨_, h⟩ | ⟨P, hP, h⟩
      · rw [ek]; exact h r hr
      · rw [ek, h r hr]
        rw [hmi i hi] at hP
        obtain ⟨h0, hdet⟩ := hall i hi P hP
        rw [renormCell_val]
        split_ifs with hρ
        · replace hρ := hρ.1
          have hd := hkeep i hi 0 (by omega) (by omega)
          rw [Nat.add_zero] at hd
          have hc := (hden i hi P hP h0 (by rw [← hd]; exact hρ) hdet).1
          rw [← hc, div_self (ne_of_gt hρ), cbrt_one]
          simp
        · rfl

/-! ### C49 -/

theorem rotateCell_in (c : Cfg) (svd : M3 → V3 × M3) (P : Par) (u : Mem) (i : Nat) (j a : Fin 3) :
    rotateCell c svd P u i (i * c.V + (5 + (3 * j + a))) =
      (svd (getA (view c u i))).1 j * (svd (getA (view c u i))).2 a j := by
  unfold rotateCell
  generalize svd (getA (view c u i)) = d
  have e : List.finRange 3 = [0, 1, 2] := by decide
  rw [e]
  generalize i * c.V = m
  fin_cases j <;> fin_cases a <;> simp [setSeg, setAt]

theorem rotateCell_out (c : Cfg) (svd : M3 → V3 × M3) (P : Par) (u : Mem) (i k : Nat)
    (h : k < i * c.V + 5 ∨ i * c.V + 14 ≤ k) : rotateCell c svd P u i k = u k := by
  unfold rotateCell
  generalize svd (getA (view c u i)) = d
  have e : List.finRange 3 = [0, 1, 2] := by decide
  rw [e]
  simp only [List.foldl_cons, List.foldl_nil]
  rw [Verif.Rot.setSeg_other _ _ _ _ (by simp; omega), Verif.Rot.setSeg_other _ _ _ _ (by simp; omega),
    Verif.Rot.setSeg_other _ _ _ _ (by simp; omega)]

theorem slot9 (k : Nat) (h : 5 ≤ k) (h' : k < 14) : ∃ j a : Fin 3, k = 5 + (3 * j + a) :=
  ⟨⟨(k - 5) / 3, by omega⟩, ⟨(k - 5) % 3, by omega⟩, by simp only; omega⟩

theorem rotate_local (c : Cfg) (hv : c.viscous = true) (svd : M3 → V3 × M3) (MPs : List (Option Par)) :
    Local c.V (matterCell c MPs (rotateCell c svd)) := by
  have hV := V_ge c hv
  refine matter_local c MPs _ ?_ ?_
  · intro P u i k hk
    rw [Nat.add_mul, Nat.one_mul] at hk
    exact rotateCell_out _ _ _ _ _ _ (by omega)
  · intro P u w i h k hk
    by_cases h9 : 5 ≤ k ∧ k < 14
    · obtain ⟨j, a, rfl⟩ := slot9 k h9.1 h9.2
      rw [rotateCell_in, rotateCell_in, getA_view c hv u w i h]
    · rw [rotateCell_out _ _ _ _ _ _ (by omega), rotateCell_out _ _ _ _ _ _ (by omega), h k hk]

theorem rotate_getA (c : Cfg) (svd : M3 → V3 × M3) (P : Par) (u : Mem) (i : Nat) :
    getA (view c (rotateCell c svd P u i) i) =
      Matrix.diagonal (svd (getA (view c u i))).1 * (svd (getA (view c u i))).2.transpose := by
  ext j a
  rw [Matrix.diagonal_mul]
  exact rotateCell_in c svd P u i j a

theorem gram_of_svd (A U W : M3) (s : V3) (h : IsSVD A U W s) :
    A.transpose * A = W * Matrix.diagonal (fun i => s i * s i) * W.transpose := by
  obtain ⟨hU, _, _, hA⟩ := h
  rw [hA, Matrix.transpose_mul, Matrix.transpose_mul, Matrix.transpose_transpose, Matrix.diagonal_transpose]
  calc W * (Matrix.diagonal s * U.transpose) * (U * Matrix.diagonal s * W.transpose)
      = W * (Matrix.diagonal s * ((U.transpose * U) * (Matrix.diagonal s * W.transpose))) := by
        simp only [Matrix.mul_assoc]
    _ = W * (Matrix.diagonal s * Matrix.diagonal s * W.transpose) := by rw [hU, Matrix.one_mul, Matrix.mul_assoc]
    _ = _ := by rw [Matrix.diagonal_mul_diagonal, Matrix.mul_assoc]

/-- Energy, pressure, temperature and stress depend on the distortion through `AᵀA` alone. -/
theorem gram_state (c : Cfg) (P : Par) (Q Q' : St) (hv : c.viscous = true) (h : ∀ k, k < 5 ∨ 14 ≤ k → k < c.V → Q' k = Q k)
    (hm : c.mV < c.V ∨ (P.multi = false ∧ P.reaction ≤ -1))
    (hG : (getA Q').transpose * getA Q' = (getA Q).transpose * getA Q) :
    internalEnergy c P Q' = internalEnergy c P Q ∧ pressure c P Q' = pressure c P Q ∧
      temperature c P Q' = temperature c P Q ∧ sigma P.toParams Q' = sigma P.toParams Q := by
  have hV := V_ge c hv
  have h0 : Q' 0 = Q 0 := h 0 (by omega) (by omega)
  have h1 : Q' 1 = Q 1 := h 1 (by omega) (by omega)
  have hd : devGsq (getA Q') = devGsq (getA Q) := by
    rw [Verif.Rot.devGsq_trace, Verif.Rot.devGsq_trace, hG]
  have hvel : vel Q' = vel Q := by
    funext i
    have hi := i.2
    simp only [vel, getRv, h0]
    rw [h (2 + i) (by omega) (by omega)]
  have hJ : c.thermal = true → getRJ Q' = getRJ Q := by
    intro ht
    funext i
    have hi := i.2
    have : 17 ≤ c.mV := by simp [Cfg.mV, hv, ht]
    exact h (14 + i) (by omega) (by omega)
  have hE : internalEnergy c P Q' = internalEnergy c P Q := by
    unfold internalEnergy
    simp only [E2A]
    rw [h0, h1, hvel, hd]
    congr 1
    · congr 1
      by_cases ht : c.thermal = true
      · simp only [ht, if_true, hJ ht]
      · simp [ht]
    · rcases hm with hm | ⟨_, hr⟩
      · rw [h c.mV (by omega) hm]
      · rw [if_neg (by omega), if_neg (by omega)]
  have hp : pressure c P Q' = pressure c P Q := by
    unfold pressure
    split_ifs with hmu
    · rcases hm with hm | ⟨hr, _⟩
      · unfold solveMulti
        rw [hE, h0, h c.mV (by omega) hm]
      · rw [hr] at hmu; cases hmu
    · rw [hE, h0]
  refine ⟨hE, hp, ?_, ?_⟩
  · unfold temperature
    rw [hp, h0]
  · have key : ∀ A : M3, (AdevG A).transpose * A = dev (A.transpose * A) * (A.transpose * A) := by
      intro A
      have hs : (dev (A.transpose * A)).transpose = dev (A.transpose * A) := by
        rw [Verif.Rot.dev_eq, Matrix.transpose_sub, Matrix.transpose_smul, Matrix.transpose_one, Matrix.transpose_mul,
          Matrix.transpose_transpose]
      rw [AdevG_eq, Matrix.transpose_mul, hs, Matrix.mul_assoc]
    unfold sigma dEdAs
    rw [h0, Matrix.transpose_smul, Matrix.transpose_smul, Matrix.smul_mul, Matrix.smul_mul, key, key, hG]

/-- **Rotating the distortion** into `S Vᵀ` keeps `AᵀA` in every cell, whatever decomposition is found; hence energy,
pressure, temperature and stress.  Nothing but distortions changes. -/
theorem rotate_distortion_spec (c : Cfg) (hv : c.viscous = true) (svd : M3 → V3 × M3) (MPs : List (Option Par))
    (n : Nat) (u : Mem) (hm : c.lset < MPs.length)
    (hsvd : ∀ i < n, ∃ U, IsSVD (getA (view c u i)) U (svd (getA (view c u i))).2 (svd (getA (view c u i))).1) :
    ∃ u', rotateDistortion c svd n MPs u = some u' ∧
      (∀ i < n, ∀ k < c.V, k < 5 ∨ 14 ≤ k → u' (i * c.V + k) = u (i * c.V + k)) ∧
      (∀ k, n * c.V ≤ k → u' k = u k) ∧
      ∀ i < n, (getA (view c u' i)).transpose * getA (view c u' i) =
          (getA (view c u i)).transpose * getA (view c u i) ∧
        ∀ P : Par, c.mV < c.V ∨ (P.multi = false ∧ P.reaction ≤ -1) →
          internalEnergy c P (view c u' i) = internalEnergy c P (view c u i) ∧
          pressure c P (view c u' i) = pressure c P (view c u i) ∧
          temperature c P (view c u' i) = temperature c P (view c u i) ∧
          sigma P.toParams (view c u' i) = sigma P.toParams (view c u i) := by
  have hV := V_ge c hv
  have hL := rotate_local c hv svd MPs
  obtain ⟨u', hu'⟩ := Option.isSome_iff_exists.1 (matter_some c MPs _ hL n u hm)
  have hspec := matter_spec c MPs _ hL n u u' hu'
  have hkeep : ∀ i < n, ∀ k < c.V, k < 5 ∨ 14 ≤ k → u' (i * c.V + k) = u (i * c.V + k) := by
    intro i hi k hk hk'
    rcases hspec i hi with ⟨_, h⟩ | ⟨P, _, h⟩
    · exact h k hk
    · rw [h k hk, rotateCell_out _ _ _ _ _ _ (by omega)]
  have hG : ∀ i < n, (getA (view c u' i)).transpose * getA (view c u' i) =
      (getA (view c u i)).transpose * getA (view c u i) := by
    intro i hi
    rcases hspec i hi with ⟨_, h⟩ | ⟨P, _, h⟩
    · rw [getA_view c hv _ _ _ h]
    · obtain ⟨U, hU⟩ := hsvd i hi
      rw [getA_view c hv _ _ _ h, rotate_getA, gram_of_svd _ _ _ _ hU, Matrix.transpose_mul, Matrix.transpose_transpose,
        Matrix.diagonal_transpose, Matrix.mul_assoc, ← Matrix.mul_assoc (Matrix.diagonal _) (Matrix.diagonal _),
        Matrix.diagonal_mul_diagonal, Matrix.mul_assoc]
  refine ⟨u', hu', hkeep, (cells_spec hL n u u' hu').2, fun i hi => ⟨hG i hi, fun P hP => ?_⟩⟩
  exact gram_state c P _ _ hv (fun k hk hk' => hkeep i hi k hk' hk) hP (hG i hi)

theorem orth_det (R : M3) (h : R.transpose * R = 1) : |R.det| = 1 := by
  have : R.det * R.det = 1 := by
    have := congrArg Matrix.det h
    rwa [Matrix.det_mul, Matrix.det_transpose, Matrix.det_one] at this
  have h2 : |R.det| * |R.det| = 1 := by rw [← abs_mul, this, abs_one]
  nlinarith [abs_nonneg R.det]

theorem svd_det (A U W : M3) (s : V3) (h : IsSVD A U W s) : |A.det| = s 0 * s 1 * s 2 := by
  obtain ⟨hU, hW, hs, hA⟩ := h
  rw [hA, Matrix.det_mul, Matrix.det_mul, Matrix.det_transpose, Matrix.det_diagonal, abs_mul, abs_mul, orth_det U hU,
    orth_det W hW, Fin.prod_univ_three, one_mul, mul_one]
  exact abs_of_nonneg (mul_nonneg (mul_nonneg (hs 0) (hs 1)) (hs 2))

theorem svd_trace (A U W : M3) (s : V3) (h : IsSVD A U W s) :
    (A.transpose * A).trace = s 0 * s 0 + s 1 * s 1 + s 2 * s 2 := by
  rw [gram_of_svd A U W s h, Matrix.trace_mul_comm, ← Matrix.mul_assoc, h.2.1, Matrix.one_mul, Matrix.trace_diagonal,
    Fin.sum_univ_three]

/-- The determinant keeps its size but not its sign: the identity has a valid decomposition which turns it into a
reflection, so that `ρ = ρ0 det A` no longer holds. -/
theorem rotate_density_false (c : Cfg) (P : Par) (u : Mem) (i : Nat) :
    (∀ svd : M3 → V3 × M3, (∃ U, IsSVD (getA (view c u i)) U (svd (getA (view c u i))).2 (svd (getA (view c u i))).1) →
      |(getA (view c (rotateCell c svd P u i) i)).det| = |(getA (view c u i)).det|) ∧
    (getA (view c u i) = 1 → ∃ svd : M3 → V3 × M3,
      (∃ U, IsSVD (getA (view c u i)) U (svd (getA (view c u i))).2 (svd (getA (view c u i))).1) ∧
      (getA (view c (rotateCell c svd P u i) i)).det = -1) := by
  refine ⟨fun svd ⟨U, hU⟩ => ?_, fun h1 => ?_⟩
  · rw [rotate_getA, svd_det _ _ _ _ hU, Matrix.det_mul, Matrix.det_transpose, Matrix.det_diagonal, abs_mul,
      orth_det _ hU.2.1, Fin.prod_univ_three, mul_one]
    have hs := hU.2.2.1
    exact abs_of_nonneg (mul_nonneg (mul_nonneg (hs 0) (hs 1)) (hs 2))
  · have hd : (Matrix.diagonal ![(1 : ℝ), 1, -1]).transpose * Matrix.diagonal ![(1 : ℝ), 1, -1] = 1 := by
      rw [Matrix.diagonal_transpose, Matrix.diagonal_mul_diagonal, ← Matrix.diagonal_one]
      congr 1
      funext i
      fin_cases i <;> simp
    refine ⟨fun _ => (fun _ => 1, Matrix.diagonal ![1, 1, -1]), ⟨Matrix.diagonal ![1, 1, -1], hd, hd, by simp, ?_⟩, ?_⟩
    · rw [h1]
      show (1 : M3) = Matrix.diagonal ![1, 1, -1] * Matrix.diagonal (fun _ => 1) * (Matrix.diagonal ![1, 1, -1]).transpose
      rw [Matrix.diagonal_one, Matrix.mul_one]
      rw [Matrix.diagonal_transpose] at hd ⊢
      exact hd.symm
    · rw [rotate_getA]
      simp [Matrix.det_diagonal, Fin.prod_univ_three]

/-! ### C48 -/

theorem cbrt_nonneg {x : ℝ} (h : 0 ≤ x) : cbrt x = x ^ (1 / 3 : ℝ) := by simp [cbrt, h]

theorem cbrt_sq {x : ℝ} (h : 0 ≤ x) : cbrt x * cbrt x = x ^ (2 / 3 : ℝ) := by
  rw [cbrt_nonneg h, ← Real.rpow_add_of_nonneg h (by norm_num) (by norm_num)]
  norm_num

/-- The measure of `contorted` for any decomposition: `tr AᵀA / (3 |det A|^(2/3))`, and NaN for a singular matrix. -/
theorem anisotropy_svd (A U W : M3) (s : V3) (h : IsSVD A U W s) : anisotropy s =
    if A.det = 0 then none else some ((A.transpose * A).trace / (3 * |A.det| ^ (2 / 3 : ℝ))) := by
  have hd := svd_det A U W s h
  unfold anisotropy
  simp only
  rw [← hd]
  by_cases h0 : A.det = 0
  · simp [h0]
  · rw [if_neg (by simpa using h0), if_neg h0, svd_trace A U W s h, cbrt_sq (abs_nonneg _)]
    have hp : 0 < |A.det| ^ (2 / 3 : ℝ) := Real.rpow_pos_of_pos (by simpa using h0) _
    congr 1
    field_simp

/-- The arithmetic mean of three numbers is at least their geometric mean. -/
theorem amgm3 (a b c : ℝ) (ha : 0 ≤ a) (hb : 0 ≤ b) (hc : 0 ≤ c) : a * b * c ≤ ((a + b + c) / 3) ^ 3 := by
  nlinarith [mul_nonneg ha (sq_nonneg (b - c)), mul_nonneg hb (sq_nonneg (a - c)), mul_nonneg hc (sq_nonneg (a - b)),
    mul_nonneg (add_nonneg (add_nonneg ha hb) hc) (add_nonneg (add_nonneg (sq_nonneg (a - b)) (sq_nonneg (b - c))) (sq_nonneg (a - c)))]

theorem amgm3_eq (a b c : ℝ) (ha : 0 < a) (hb : 0 < b) (hc : 0 < c) (h : a * b * c = ((a + b + c) / 3) ^ 3) :
    a = b ∧ b = c := by
  have key : (a + b + c) * ((a - b) ^ 2 + (b - c) ^ 2 + (a - c) ^ 2) = 0 := by
    have h1 := mul_nonneg ha.le (sq_nonneg (b - c))
    have h2 := mul_nonneg hb.le (sq_nonneg (a - c))
    have h3 := mul_nonneg hc.le (sq_nonneg (a - b))
    have h4 : 0 ≤ (a + b + c) * ((a - b) ^ 2 + (b - c) ^ 2 + (a - c) ^ 2) := by positivity
    nlinarith
  have hs : (a - b) ^ 2 + (b - c) ^ 2 + (a - c) ^ 2 = 0 := by
    rcases mul_eq_zero.1 key with h | h
    · linarith
    · exact h
  have e1 : (a - b) ^ 2 = 0 := le_antisymm (by nlinarith [sq_nonneg (b - c), sq_nonneg (a - c)]) (sq_nonneg _)
  have e2 : (b - c) ^ 2 = 0 := le_antisymm (by nlinarith [sq_nonneg (a - b), sq_nonneg (a - c)]) (sq_nonneg _)
  exact ⟨by nlinarith [pow_eq_zero_iff (two_ne_zero) |>.1 e1], by nlinarith [pow_eq_zero_iff (two_ne_zero) |>.1 e2]⟩

theorem third_cube {x : ℝ} (h : 0 ≤ x) : (x ^ (2 / 3 : ℝ)) ^ 3 = x * x := by
  rw [← Real.rpow_natCast, ← Real.rpow_mul h]
  norm_num
  ring

/-- The measure is at least one, and one for multiples of orthogonal matrices only. -/
theorem anisotropy_ge (A U W : M3) (s : V3) (h : IsSVD A U W s) (hA : A.det ≠ 0) :
    1 ≤ (A.transpose * A).trace / (3 * |A.det| ^ (2 / 3 : ℝ)) ∧
    ((A.transpose * A).trace / (3 * |A.det| ^ (2 / 3 : ℝ)) = 1 ↔ ∃ k : ℝ, A.transpose * A = k • (1 : M3)) := by
  have hdp : 0 < |A.det| := by simpa using hA
  have hp : 0 < |A.det| ^ (2 / 3 : ℝ) := Real.rpow_pos_of_pos hdp _
  have hc := third_cube hdp.le
  have hd := svd_det A U W s h
  have hg := amgm3 (s 0 * s 0) (s 1 * s 1) (s 2 * s 2) (mul_self_nonneg _) (mul_self_nonneg _) (mul_self_nonneg _)
  have ht := svd_trace A U W s h
  have hsq : |A.det| * |A.det| = s 0 * s 0 * (s 1 * s 1) * (s 2 * s 2) := by rw [hd]; ring
  constructor
  · rw [one_le_div (by positivity)]
    have : (|A.det| ^ (2 / 3 : ℝ)) ^ 3 ≤ ((s 0 * s 0 + s 1 * s 1 + s 2 * s 2) / 3) ^ 3 := by
      rw [hc, hsq]; exact hg
    have h3 := le_of_pow_le_pow_left₀ (by norm_num) (by
      have := mul_self_nonneg (s 0); have := mul_self_nonneg (s 1); have := mul_self_nonneg (s 2); linarith) this
    rw [ht]
    linarith
  · rw [div_eq_one_iff_eq (by positivity)]
    constructor
    · intro he
      have hpos : ∀ i, 0 < s i * s i := by
        intro i
        have hne : s i ≠ 0 := by
          intro h0
          apply ne_of_gt hdp
          rw [hd]
          fin_cases i <;> simp_all
        exact mul_self_pos.2 hne
      have heq : s 0 * s 0 * (s 1 * s 1) * (s 2 * s 2) = ((s 0 * s 0 + s 1 * s 1 + s 2 * s 2) / 3) ^ 3 := by
        rw [← hsq, ← hc, ← ht, he]
        ring
      obtain ⟨e1, e2⟩ := amgm3_eq _ _ _ (hpos 0) (hpos 1) (hpos 2) heq
      refine ⟨s 0 * s 0, ?_⟩
      rw [gram_of_svd A U W s h]
      have : (fun i => s i * s i) = fun _ => s 0 * s 0 := by
        funext i
        fin_cases i
        · rfl
        · exact e1.symm
        · exact (e1.trans e2).symm
      rw [this]
      have hs : (Matrix.diagonal fun _ => s 0 * s 0 : M3) = (s 0 * s 0) • (1 : M3) := by
        rw [Matrix.smul_one_eq_diagonal]
      rw [hs, Matrix.mul_smul, Matrix.smul_mul, Matrix.mul_one, mul_eq_one_comm.mp h.2.1]
    · rintro ⟨k, hk⟩
      have h1 : A.det * A.det = k ^ 3 := by
        have := congrArg Matrix.det hk
        rw [Matrix.det_mul, Matrix.det_transpose, Matrix.det_smul, Matrix.det_one, Fintype.card_fin, mul_one] at this
        exact this
      have hk3 : (|A.det| ^ (2 / 3 : ℝ)) ^ 3 = k ^ 3 := by
        rw [hc, abs_mul_abs_self, h1]
      have hke : |A.det| ^ (2 / 3 : ℝ) = k := (Odd.strictMono_pow (by decide : Odd 3)).injective hk3
      rw [hk, Matrix.trace_smul, Matrix.trace_one, hke]
      simp
      ring

/-- **The contortion test**, for any way of finding singular values: true iff some cell with a non-singular distortion
has `tr AᵀA / (3 |det A|^(2/3)) > 1 + tol`. -/
theorem contorted_iff (c : Cfg) (sv : M3 → V3) (n : Nat) (u : Mem) (tol : ℝ)
    (hsv : ∀ i < n, ∃ U W, IsSVD (getA (view c u i)) U W (sv (getA (view c u i)))) :
    contorted c sv n u tol = true ↔ ∃ i < n, (getA (view c u i)).det ≠ 0 ∧
      ((getA (view c u i)).transpose * getA (view c u i)).trace / (3 * |(getA (view c u i)).det| ^ (2 / 3 : ℝ)) >
        1 + tol := by
  unfold contorted
  rw [List.any_eq_true]
  constructor
  · rintro ⟨i, hi, h⟩
    rw [List.mem_range] at hi
    obtain ⟨U, W, hU⟩ := hsv i hi
    rw [anisotropy_svd _ _ _ _ hU] at h
    by_cases h0 : (getA (view c u i)).det = 0
    · simp [h0] at h
    · simp only [h0, if_false] at h
      have := of_decide_eq_true h
      exact ⟨i, hi, h0, by linarith⟩
  · rintro ⟨i, hi, h0, h⟩
    refine ⟨i, List.mem_range.2 hi, ?_⟩
    obtain ⟨U, W, hU⟩ := hsv i hi
    rw [anisotropy_svd _ _ _ _ hU]
    simp only [h0, if_false]
    exact decide_eq_true (by linarith)

/-- A field of multiples of orthogonal matrices, or of singular ones, is never reported. -/
theorem isotropic_not_contorted (c : Cfg) (sv : M3 → V3) (n : Nat) (u : Mem) (tol : ℝ) (ht : 0 ≤ tol)
    (hsv : ∀ i < n, ∃ U W, IsSVD (getA (view c u i)) U W (sv (getA (view c u i))))
    (hiso : ∀ i < n, (getA (view c u i)).det = 0 ∨
      ∃ k : ℝ, (getA (view c u i)).transpose * getA (view c u i) = k • (1 : M3)) :
    contorted c sv n u tol = false := by
  rw [Bool.eq_false_iff]
  intro hc
  obtain ⟨i, hi, h0, h⟩ := (contorted_iff c sv n u tol hsv).1 hc
  obtain ⟨U, W, hU⟩ := hsv i hi
  rcases hiso i hi with h1 | h1
  · exact h0 h1
  · rw [(anisotropy_ge _ _ _ _ hU h0).2.2 h1] at h
    linarith

/-! ### C47 -/

theorem resetCell_val (c : Cfg) (P : Par) (u : Mem) (i k : Nat) : resetCell c P u i (i * c.V + k) =
    if k = 1 then u (i * c.V + 1) - u (i * c.V) * E2A P.toParams (u (i * c.V)) (getA (view c u i))
    else if k = 5 ∨ k = 9 ∨ k = 13 then cbrt (u (i * c.V) / P.ρ0)
    else if 5 ≤ k ∧ k < 14 then 0 else u (i * c.V + k) := by
  unfold resetCell setAt
  simp only [Nat.add_left_cancel_iff]
  by_cases h1 : k = 1
  · subst h1; simp
  · by_cases h2 : k = 5 ∨ k = 9 ∨ k = 13
    · rcases h2 with rfl | rfl | rfl <;> simp
    · push Not at h2
      have e : (i * c.V + 5 ≤ i * c.V + k ∧ i * c.V + k < i * c.V + 5 + 9) ↔ 5 ≤ k ∧ k < 14 := by omega
      simp only [h1, h2.1, h2.2.1, h2.2.2, e, or_self, if_false]

theorem resetCell_out (c : Cfg) (P : Par) (u : Mem) (i k : Nat) (h : k < i * c.V ∨ i * c.V + 14 ≤ k) :
    resetCell c P u i k = u k := by
  unfold resetCell setAt
  simp only
  rw [if_neg (by omega), if_neg (by omega), if_neg (by omega), if_neg (by omega), if_neg (by omega)]

theorem reset_local (c : Cfg) (hv : c.viscous = true) (MPs : List (Option Par)) :
    Local c.V (matterCell c MPs (resetCell c)) := by
  have hV := V_ge c hv
  refine matter_local c MPs _ ?_ ?_
  · intro P u i k hk
    rw [Nat.add_mul, Nat.one_mul] at hk
    exact resetCell_out _ _ _ _ _ (by omega)
  · intro P u w i h k hk
    have h0 : u (i * c.V) = w (i * c.V) := h 0 (by omega)
    have h1 : u (i * c.V + 1) = w (i * c.V + 1) := h 1 (by omega)
    rw [resetCell_val, resetCell_val, getA_view c hv u w i h, h0, h1, h k hk]

theorem reset_getA (c : Cfg) (P : Par) (u : Mem) (i : Nat) :
    getA (view c (resetCell c P u i) i) = cbrt (u (i * c.V) / P.ρ0) • (1 : M3) := by
  ext a b
  show resetCell c P u i (i * c.V + (5 + (3 * a + b))) = _
  rw [resetCell_val]
  fin_cases a <;> fin_cases b <;> simp

theorem devGsq_scalar (f : ℝ) : devGsq (f • (1 : M3)) = 0 := by
  rw [Verif.Rot.devGsq_trace]
  have : dev ((f • (1 : M3)).transpose * (f • (1 : M3))) = 0 := by
    rw [Verif.Rot.dev_eq, Matrix.transpose_smul, Matrix.transpose_one, Matrix.smul_mul, Matrix.one_mul, smul_smul,
      Matrix.trace_smul, Matrix.trace_one]
    ext i j
    simp only [Matrix.sub_apply, Matrix.smul_apply, smul_eq_mul, Fintype.card_fin, Matrix.zero_apply]
    ring
  rw [this]
  simp

/-- **Reset**: density, momentum, pressure and everything else but energy and distortion stay; the distortion becomes
a multiple of the identity with `ρ = ρ0 det A`; vacuum is untouched. -/
theorem reset_distortion_spec (c : Cfg) (hv : c.viscous = true) (MPs : List (Option Par)) (n : Nat) (u : Mem)
    (hm : c.lset < MPs.length) :
    ∃ u', resetDistortion c n MPs u = some u' ∧
      (∀ i < n, ∀ k < c.V, k = 0 ∨ (2 ≤ k ∧ k < 5) ∨ 14 ≤ k → u' (i * c.V + k) = u (i * c.V + k)) ∧
      (∀ k, n * c.V ≤ k → u' k = u k) ∧
      (∀ i < n, MPs[materialIndex c (view c u i)]? = some none → ∀ k < c.V, u' (i * c.V + k) = u (i * c.V + k)) ∧
      ∀ i < n, ∀ P, MPs[materialIndex c (view c u i)]? = some (some P) →
        (∃ f : ℝ, getA (view c u' i) = f • (1 : M3)) ∧
        (P.ρ0 ≠ 0 → u' (i * c.V) = P.ρ0 * (getA (view c u' i)).det) ∧
        (u (i * c.V) ≠ 0 → c.mV < c.V ∨ (P.multi = false ∧ P.reaction ≤ -1) →
          internalEnergy c P (view c u' i) = internalEnergy c P (view c u i) ∧
          pressure c P (view c u' i) = pressure c P (view c u i) ∧
          temperature c P (view c u' i) = temperature c P (view c u i)) := by
  have hV := V_ge c hv
  have hL := reset_local c hv MPs
  obtain ⟨u', hu'⟩ := Option.isSome_iff_exists.1 (matter_some c MPs _ hL n u hm)
  have hspec := matter_spec c MPs _ hL n u u' hu'
  have hkeep : ∀ i < n, ∀ k < c.V, k = 0 ∨ (2 ≤ k ∧ k < 5) ∨ 14 ≤ k → u' (i * c.V + k) = u (i * c.V + k) := by
    intro i hi k hk hk'
    rcases hspec i hi with ⟨_, h⟩ | ⟨P, _, h⟩
    · exact h k hk
    · rw [h k hk, resetCell_val, if_neg (by omega), if_neg (by omega), if_neg (by omega)]
  refine ⟨u', hu', hkeep, (cells_spec hL n u u' hu').2, ?_, ?_⟩
  · intro i hi hvac
    rcases hspec i hi with ⟨_, h⟩ | ⟨P, hP, _⟩
    · exact h
    · rw [hvac] at hP; cases hP
  · intro i hi P hP
    rcases hspec i hi with ⟨h, _⟩ | ⟨P', hP', h⟩
    · rw [hP] at h; cases h
    rw [hP] at hP'
    cases hP'
    have hA : getA (view c u' i) = cbrt (u (i * c.V) / P.ρ0) • (1 : M3) := by
      rw [getA_view c hv _ _ _ h, reset_getA]
    have h0 : u' (i * c.V) = u (i * c.V) := hkeep i hi 0 (by omega) (by omega)
    refine ⟨⟨_, hA⟩, fun hρ0 => ?_, fun hρ hmu => ?_⟩
    · rw [hA, det_scale, cbrt_cube, Matrix.det_one, h0]
      field_simp
    · have h1 : u' (i * c.V + 1) = u (i * c.V + 1) - u (i * c.V) * E2A P.toParams (u (i * c.V)) (getA (view c u i)) := by
        rw [h 1 (by omega), resetCell_val, if_pos rfl]
      have v0 : view c u' i 0 = view c u i 0 := h0
      have hvel : vel (view c u' i) = vel (view c u i) := by
        funext a
        have ha := a.2
        simp only [vel, getRv, v0]
        have : view c u' i (2 + a) = view c u i (2 + a) := hkeep i hi _ (by omega) (by omega)
        rw [this]
      have hJ : c.thermal = true → getRJ (view c u' i) = getRJ (view c u i) := by
        intro ht
        funext a
        have ha := a.2
        have : 17 ≤ c.mV := by simp [Cfg.mV, hv, ht]
        exact hkeep i hi (14 + a) (by omega) (by omega)
      have hE : internalEnergy c P (view c u' i) = internalEnergy c P (view c u i) := by
        unfold internalEnergy
        simp only [hv, if_true]
        rw [v0, hvel, hA]
        have v1 : view c u' i 1 = view c u i 1 - view c u i 0 * E2A P.toParams (view c u i 0) (getA (view c u i)) := h1
        have hρ' : view c u i 0 ≠ 0 := hρ
        have hz : E2A P.toParams (view c u i 0) (cbrt (u (i * c.V) / P.ρ0) • (1 : M3)) = 0 := by
          simp only [E2A, devGsq_scalar, mul_zero]
        rw [v1, hz]
        have hT : (if c.thermal = true then E2J P.toParams (fun a => getRJ (view c u' i) a / view c u i 0) else 0) =
            if c.thermal = true then E2J P.toParams (fun a => getRJ (view c u i) a / view c u i 0) else 0 := by
          by_cases ht : c.thermal = true
          · simp only [ht, if_true, hJ ht]
          · simp [ht]
        have hR : (if P.reaction > -1 then ER P (view c u' i c.mV / view c u i 0) else 0) =
            if P.reaction > -1 then ER P (view c u i c.mV / view c u i 0) else 0 := by
          rcases hmu with hm | ⟨_, hr⟩
          · have : view c u' i c.mV = view c u i c.mV := hkeep i hi _ hm (by omega)
            rw [this]
          · rw [if_neg (by omega), if_neg (by omega)]
        rw [hT, hR]
        field_simp
        ring
      have hp : pressure c P (view c u' i) = pressure c P (view c u i) := by
        unfold pressure
        split_ifs with hmul
        · rcases hmu with hm | ⟨hr, _⟩
          · have : view c u' i c.mV = view c u i c.mV := hkeep i hi _ hm (by omega)
            unfold solveMulti
            rw [hE, v0, this]
          · rw [hr] at hmul; cases hmul
        · rw [hE, v0]
      refine ⟨hE, hp, ?_⟩
      unfold temperature
      rw [hp, v0]

/-- **After a reset nothing is contorted**, provided vacuum cells hold singular distortions, as `make_u` leaves
them. -/
theorem reset_uncontorted_partial (c : Cfg) (hv : c.viscous = true) (MPs : List (Option Par)) (n : Nat) (u u' : Mem)
    (h : resetDistortion c n MPs u = some u') (sv : M3 → V3) (tol : ℝ) (ht : 0 ≤ tol)
    (hsv : ∀ i < n, ∃ U W, IsSVD (getA (view c u' i)) U W (sv (getA (view c u' i))))
    (hvac : ∀ i < n, MPs[materialIndex c (view c u i)]? = some none → (getA (view c u i)).det = 0) :
    contorted c sv n u' tol = false := by
  refine isotropic_not_contorted c sv n u' tol ht hsv fun i hi => ?_
  rcases matter_spec c MPs _ (reset_local c hv MPs) n u u' h i hi with ⟨hm, he⟩ | ⟨P, _, he⟩
  · left
    rw [getA_view c hv _ _ _ he]
    exact hvac i hi hm
  · right
    rw [getA_view c hv _ _ _ he, reset_getA]
    exact ⟨_, by rw [Matrix.transpose_smul, Matrix.transpose_one, Matrix.smul_mul, Matrix.one_mul, smul_smul]⟩

/-- **Vacuum cells defeat the test**: a field of one vacuum cell whose distortion is `diag(2, 1, 1)` is contorted, and
`reset_distortion` leaves it so. -/
theorem reset_vacuum_false (c : Cfg) (MPs : List (Option Par)) (u : Mem) (sv : M3 → V3)
    (hA : getA (view c u 0) = Matrix.diagonal ![2, 1, 1]) (hm : MPs[materialIndex c (view c u 0)]? = some none)
    (hsv : ∃ U W, IsSVD (Matrix.diagonal ![2, 1, 1]) U W (sv (Matrix.diagonal ![2, 1, 1]))) :
    ∃ u', resetDistortion c 1 MPs u = some u' ∧ contorted c sv 1 u' (1 / 5) = true := by
  refine ⟨u, ?_, ?_⟩
  · show (List.range 1).foldlM _ u = some u
    simp [List.range_succ, matterCell, hm]
  · rw [contorted_iff c sv 1 u _ (by intro i hi; obtain rfl : i = 0 := by omega
                                     rw [hA]; exact hsv)]
    refine ⟨0, by omega, ?_⟩
    have hd : (Matrix.diagonal ![(2 : ℝ), 1, 1]).det = 2 := by
      rw [Matrix.det_diagonal, Fin.prod_univ_three]; simp
    have htr : ((Matrix.diagonal ![(2 : ℝ), 1, 1]).transpose * Matrix.diagonal ![(2 : ℝ), 1, 1]).trace = 6 := by
      rw [Matrix.diagonal_transpose, Matrix.diagonal_mul_diagonal, Matrix.trace_diagonal, Fin.sum_univ_three]
      show (2 : ℝ) * 2 + 1 * 1 + 1 * 1 = 6
      norm_num
    rw [hA, hd, htr]
    refine ⟨by norm_num, ?_⟩
    have h2 : (2 : ℝ) ^ (2 / 3 : ℝ) < 1.6 := by
      have h3 := third_cube (show (0 : ℝ) ≤ 2 by norm_num)
      by_contra hcon
      push Not at hcon
      have : (1.6 : ℝ) ^ 3 ≤ ((2 : ℝ) ^ (2 / 3 : ℝ)) ^ 3 := pow_le_pow_left₀ (by norm_num) hcon 3
      rw [h3] at this
      norm_num at this
    have hp : 0 < (2 : ℝ) ^ (2 / 3 : ℝ) := Real.rpow_pos_of_pos (by norm_num) _
    rw [abs_of_pos (by norm_num), gt_iff_lt, lt_div_iff₀ (by positivity)]
    linarith

/-! ### Without `VISCOUS` -/

/-- **A fluid build corrupts neighbouring cells**: `renorm_distortion` then has no distortion to renormalise, yet it
scales the two level sets of the cell and the first components of the next one.  Two cells of seven components: the
momentum of the second is halved. -/
theorem renorm_inviscid_false (c : Cfg) (hv : c.viscous = false) (ht : c.thermal = false) (hmu : c.multi = false)
    (hl : c.lset = 2) (P : Par) (hP : P.ρ0 = 1) :
    let u : Mem := fun k => if k = 0 then 1 else if k = 5 ∨ k = 9 ∨ k = 13 then 2 else 0
    ∃ u', renormDistortion c 2 [some P, some P, some P] u = some u' ∧ u (c.V + 2) = 2 ∧ u' (c.V + 2) = 1 := by
  intro u
  have hV : c.V = 7 := by simp [Cfg.V, Cfg.mV, hv, ht, hmu, hl]
  have hget : ∀ m ≤ 2, [some P, some P, some P][m]? = some (some P) := by
    intro m hm
    interval_cases m <;> rfl
  have hstep : ∀ (w : Mem) (i : Nat), matterCell c [some P, some P, some P] (renormCell c) w i = some (renormCell c P w i) := by
    intro w i
    unfold matterCell
    rw [hget _ (by have := materialIndex_le c (view c w i); omega)]
  refine ⟨renormCell c P (renormCell c P u 0) 1, ?_, ?_, ?_⟩
  · show (List.range 2).foldlM _ u = _
    simp [List.range_succ, hstep]
  · rw [hV]; simp [u]
  · have hdet : (getA (view c u 0)).det = 8 := by
      rw [Matrix.det_fin_three]
      simp [getA, view, u]
      norm_num
    have hcb : cbrt (1 / 8) = 1 / 2 := by
      rw [cbrt_nonneg (by norm_num)]
      have : (1 / 8 : ℝ) = (1 / 2) ^ (3 : ℝ) := by norm_num
      rw [this, ← Real.rpow_mul (by norm_num)]
      norm_num
    have e0 : renormCell c P u 0 7 = 0 := by
      rw [renormCell_val]
      simp [u]
    rw [hV, renormCell_val, hV]
    rw [if_neg (by rw [Nat.one_mul, e0]; simp), renormCell_val, hdet, hP]
    simp only [u]
    norm_num
    rw [hcb]
    norm_num

/-! ### The hypotheses are met -/

/-- Two cells: matter of density 2 stretched along the first axis, then vacuum. -/
def stretchedPair : Mem := fun k => if k = 0 then 2 else if k = 1 then 30 else if k = 5 then 2
  else if k = 9 ∨ k = 13 then 1 else if k = 14 ∨ k = 15 ∨ k = 31 then -1 else 0

theorem pair_matter : materialIndex (cfgOf false) (view (cfgOf false) stretchedPair 0) = 0 ∧
    materialIndex (cfgOf false) (view (cfgOf false) stretchedPair 1) = 1 := by
  simp only [materialIndex, cfgOf, view, Cfg.V, Cfg.mV, stretchedPair]
  norm_num [List.range_succ]

theorem pair_A : getA (view (cfgOf false) stretchedPair 0) = Matrix.diagonal ![2, 1, 1] ∧
    getA (view (cfgOf false) stretchedPair 1) = Matrix.diagonal ![0, 0, 0] := by
  constructor <;> ext i j <;> fin_cases i <;> fin_cases j <;>
    simp [getA, view, stretchedPair, cfgOf, Cfg.V, Cfg.mV]

theorem pair_svd (a b c : ℝ) (ha : 0 ≤ a) (hb : 0 ≤ b) (hc : 0 ≤ c) : IsSVD (Matrix.diagonal ![a, b, c]) 1 1 ![a, b, c] :=
  ⟨by simp, by simp, fun i => by fin_cases i <;> simpa, by simp⟩

/-- Renormalising, rotating and resetting that field: the matter cell then has `ρ = ρ0 det A`. -/
example : ∃ u', renormDistortion (cfgOf false) 2 [some (samplePar sample), none, none] stretchedPair = some u' ∧
    u' 0 = (samplePar sample).ρ0 * (getA (view (cfgOf false) u' 0)).det := by
  obtain ⟨u', h, _, _, _, hd, _⟩ := renorm_distortion_spec (cfgOf false) rfl [some (samplePar sample), none, none] 2
    stretchedPair (by simp [cfgOf])
  refine ⟨u', h, ?_⟩
  have := (hd 0 (by omega) (samplePar sample) (by rw [pair_matter.1]; rfl) (by norm_num [samplePar, sample])
    (by norm_num [stretchedPair]) (by rw [pair_A.1, Matrix.det_diagonal, Fin.prod_univ_three]; simp)).1
  simpa using this

example : ∃ u', rotateDistortion (cfgOf false) (fun A => (fun i => A i i, 1)) 2
      [some (samplePar sample), none, none] stretchedPair = some u' ∧
    pressure (cfgOf false) (samplePar sample) (view (cfgOf false) u' 0) =
      pressure (cfgOf false) (samplePar sample) (view (cfgOf false) stretchedPair 0) := by
  obtain ⟨u', h, _, _, hd⟩ := rotate_distortion_spec (cfgOf false) rfl (fun A => (fun i => A i i, 1))
    [some (samplePar sample), none, none] 2 stretchedPair (by simp [cfgOf]) (by
      intro i hi
      refine ⟨1, ?_⟩
      have e : ∀ a b c : ℝ, (fun i => (Matrix.diagonal ![a, b, c] : M3) i i) = ![a, b, c] := by
        intro a b c; funext i; simp
      interval_cases i
      · rw [pair_A.1]; simp only [e]; exact pair_svd 2 1 1 (by norm_num) (by norm_num) (by norm_num)
      · rw [pair_A.2]; simp only [e]; exact pair_svd 0 0 0 le_rfl le_rfl le_rfl)
  exact ⟨u', h, ((hd 0 (by omega)).2 (samplePar sample) (Or.inr (by simp [samplePar]))).2.1⟩

example : ∃ u', resetDistortion (cfgOf false) 2 [some (samplePar sample), none, none] stretchedPair = some u' ∧
    pressure (cfgOf false) (samplePar sample) (view (cfgOf false) u' 0) =
      pressure (cfgOf false) (samplePar sample) (view (cfgOf false) stretchedPair 0) := by
  obtain ⟨u', h, _, _, _, hd⟩ := reset_distortion_spec (cfgOf false) rfl [some (samplePar sample), none, none] 2
    stretchedPair (by simp [cfgOf])
  exact ⟨u', h, ((hd 0 (by omega) (samplePar sample) (by rw [pair_matter.1]; rfl)).2.2 (by norm_num [stretchedPair])
    (Or.inr (by simp [samplePar]))).2.1⟩

end Verif.Iter
