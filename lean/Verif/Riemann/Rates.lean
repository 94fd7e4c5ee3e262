import Verif.Riemann.Waves

/-!
# The states along a step
-/

namespace Verif.Riemann

open Verif.Sys Verif.Eig Verif.Rot

section
variable (c : Cfg) (P : Par) (S : Solvers) (Q : St)

/-- Along rates that touch only the first column of the distortion the stress changes at `dsigmadρ ρ' + Π1 a'`. -/
theorem stress_rate (y : St) (hρ0 : 0 < P.ρ0) (hρ : 0 < Q 0) (hb : P.b02 ≠ 0) (hy : ∀ a b, b ≠ 0 → getA y a b = 0)
    (i : Fin 3) : HasDerivAt (fun t : ℝ => sigmaCol P.toParams (fun j => Q j + t * y j) 0 i)
      (dsigmadrho P.toParams Q 0 i * y 0 + ∑ m, dsigmadAd P.toParams Q 0 i m * getA y m 0) 0 := by
  have hA : Along (fun t : ℝ => fun j => Q j + t * y j) y 0 := fun j => by
    simpa using ((hasDerivAt_id (0 : ℝ)).mul_const (y j)).const_add (Q j)
  have e : (fun j => Q j + (0 : ℝ) * y j) = Q := by funext j; ring
  have h := hasDeriv_stress P.toParams _ y 0 hA hρ0 (by simpa using hρ) hb i 0
  simp only [e, zero_mul, add_zero] at h
  refine h.congr_deriv ?_
  congr 1
  rw [← stress_col P Q y hy]
  rfl

theorem sigmaCol_congr (P : Params) {Q Q' : St} (h0 : Q 0 = Q' 0) (hA : getA Q = getA Q') (d : Fin 3) :
    sigmaCol P Q d = sigmaCol P Q' d := by
  unfold sigmaCol dEdAs
  rw [h0, hA]

variable (R : Hat c) (x : Fin (n1 c) → ℝ)

/-- The primitive rates of a step. -/
def rate : St := mk c (R.top.mulVec x) (R.vel.mulVec x)

theorem rate_smul (t : ℝ) : rate c R (t • x) = fun i => t * rate c R x i := by
  unfold rate
  rw [Matrix.mulVec_smul, Matrix.mulVec_smul, mk_smul]

theorem shift_A' (hv : c.viscous = true) (t : ℝ) :
    getA (shift c P R (t • x) Q) = getA (fun i => Q i + t * rate c R x i) := by
  ext a b
  rw [shift_A c P R _ Q hv, Matrix.mulVec_smul]
  have : getA (fun i => Q i + t * rate c R x i) a b = getA Q a b + t * getA (rate c R x) a b := rfl
  rw [this, rate, mk_getA]
  split_ifs <;> simp

theorem shift_0' (hv : c.viscous = true) (t : ℝ) : shift c P R (t • x) Q 0 = Q 0 + t * rate c R x 0 := by
  rw [shift_dens c P R _ Q hv, Matrix.mulVec_smul, rate, mk_0]
  rfl

theorem near_regular (hv : c.viscous = true) (hρ : Q 0 ≠ 0) (hΓ : gammaMG P.toParams (Q 0) ≠ 0) :
    ∀ᶠ t : ℝ in nhds 0, shift c P R (t • x) Q 0 ≠ 0 ∧ gammaMG P.toParams (shift c P R (t • x) Q 0) ≠ 0 := by
  have hd : HasDerivAt (fun t : ℝ => Q 0 + t * rate c R x 0) (rate c R x 0) 0 := by
    simpa using ((hasDerivAt_id (0 : ℝ)).mul_const (rate c R x 0)).const_add (Q 0)
  have e : Q 0 + 0 * rate c R x 0 = Q 0 := by ring
  have h1 : ∀ᶠ t : ℝ in nhds 0, Q 0 + t * rate c R x 0 ≠ 0 := hd.continuousAt.eventually_ne (by rwa [e])
  have h2 : ∀ᶠ t : ℝ in nhds 0, gammaMG P.toParams (Q 0 + t * rate c R x 0) ≠ 0 :=
    (show ContinuousAt (fun t : ℝ => gammaMG P.toParams (Q 0 + t * rate c R x 0)) 0 from
      (HasDerivAt.comp (h₂ := gammaMG P.toParams) (h := fun t : ℝ => Q 0 + t * rate c R x 0) 0
        (hasDeriv_gammaMG P.toParams _ (by rwa [e])) hd).continuousAt).eventually_ne (by rwa [e])
  filter_upwards [h1, h2] with t a b
  rw [shift_0' c P Q R x hv]
  exact ⟨a, b⟩

/-- **C57**: the traction moves towards the target: along a step the traction changes, to first order, by exactly the difference
the step was asked for. -/
theorem traction_rate (hv : c.viscous = true) (hm : P.multi = false) (hρ0 : 0 < P.ρ0) (hρ : 0 < Q 0) (hb : P.b02 ≠ 0)
    (hΓ : gammaMG P.toParams (Q 0) ≠ 0) (hS : S.Ok) (hreg : (system c P Q).det ≠ 0) {sgn : ℝ}
    (hR : constraints c P S sgn Q = some R) (i : Fin 3) :
    HasDerivAt (fun t : ℝ => SigmaCol c P (shift c P R (t • x) Q) 0 i) (x (i.castLE (three_le c))) 0 := by
  have h3 := three_le c
  have htop : R.top = matX c P S Q := by
    unfold constraints at hR
    split_ifs at hR with hD
    simp only [Option.some.injEq] at hR
    rw [← hR]
  have hspec := congrFun (matX_spec c P S Q hS hreg x) ⟨i, by omega⟩
  rw [system_top c P Q _ i, dif_pos (by simp only; omega)] at hspec
  have hs := stress_rate P Q (rate c R x) hρ0 hρ hb
    (fun a b hb => by rw [rate, mk_getA, if_neg hb]) i
  have hσ : ∀ t : ℝ, sigmaCol P.toParams (shift c P R (t • x) Q) 0 i =
      sigmaCol P.toParams (fun j => Q j + t * rate c R x j) 0 i := fun t => by
    rw [sigmaCol_congr P.toParams (shift_0' c P Q R x hv t) (shift_A' c P Q R x hv t)]
  have hp : HasDerivAt (fun t : ℝ => pressure c P (shift c P R (t • x) Q)) (R.top.mulVec x 1) 0 := by
    have : HasDerivAt (fun t : ℝ => pressure c P Q + t * R.top.mulVec x 1) (R.top.mulVec x 1) 0 := by
      simpa using ((hasDerivAt_id (0 : ℝ)).mul_const (R.top.mulVec x 1)).const_add (pressure c P Q)
    refine this.congr_of_eventuallyEq ?_
    filter_upwards [near_regular c P Q R x hv hρ.ne' hΓ] with t ht
    rw [shift_pressure c P R _ Q hv hm ht.1 ht.2, Matrix.mulVec_smul]
    rfl
  simp only [← hσ] at hs
  have hval : x (i.castLE h3) = (if i = 0 then R.top.mulVec x 1 else 0) - (dsigmadrho P.toParams Q 0 i * rate c R x 0 +
      ∑ m, dsigmadAd P.toParams Q 0 i m * getA (rate c R x) m 0) := by
    have e : x (i.castLE h3) = x ⟨i, by omega⟩ := rfl
    rw [e, ← hspec, ← htop]
    have hg : ∀ m, getA (rate c R x) m 0 = tl3 (R.top.mulVec x) m := by
      intro m
      rw [rate, mk_getA, if_pos rfl]
      fin_cases m <;> rfl
    have h0 : rate c R x 0 = R.top.mulVec x 0 := mk_0 c _ _
    simp only [hg]
    rw [h0]
    generalize R.top.mulVec x = u
    simp only [Matrix.mulVec, dotProduct, rhs, hd2, Fin.sum_univ_two, Matrix.of_apply]
    by_cases hi : i = 0 <;> simp [hi] <;> ring
  rw [hval]
  simp only [SigmaCol]
  by_cases hi : i = 0
  · simp only [hi, if_true] at hs ⊢
    refine (hs.neg.add hp).congr_deriv ?_
    ring
  · simp only [hi, if_false]
    refine hs.neg.congr_deriv ?_
    ring

/-! ### The rates of the conserved variables -/

/-- The material without heat of reaction if it does not react. -/
noncomputable def quiet : Par := { P with Qc := if P.reaction > -1 then P.Qc else 0 }

/-- The moved primitive variables in the usual order. -/
theorem move_rate (hv : c.viscous = true) :
    (pvec c P Q 0 + rate c R x 0 = shift c P R x Q 0) ∧
    (∀ k : Fin 3, pvec c P Q (2 + k) + rate c R x (2 + k) = move c R x (cvecToPvec c P Q) (11 + k)) ∧
    (getA (fun i => pvec c P Q i + rate c R x i) = getA (shift c P R x Q)) ∧
    (c.thermal = true → ∀ k : Fin 3, pvec c P Q (14 + k) + rate c R x (14 + k) =
      move c R x (cvecToPvec c P Q) (14 + k)) ∧
    (∀ i, c.mV ≤ i → pvec c P Q i + rate c R x i = move c R x (cvecToPvec c P Q) i) ∧
    (pvec c P Q 1 + rate c R x 1 = move c R x (cvecToPvec c P Q) 1) := by
  have h0 : pvec c P Q 0 + rate c R x 0 = shift c P R x Q 0 := by
    rw [shift_dens c P R x Q hv, pvec_zero c hv, rate, mk_0]
  have hV : ∀ k : Fin 3, pvec c P Q (2 + k) + rate c R x (2 + k) = move c R x (cvecToPvec c P Q) (11 + k) := by
    intro k
    have h3 := three_le c
    rw [rate, mk_v, move, dif_neg (by omega), dif_pos ⟨by omega, by omega⟩, c2p_vel c P Q hv]
    have : pvec c P Q (2 + k) = vel Q k := congrFun (pvec_vel c hv P Q) k
    rw [this]
    congr 2
    ext
    simp
  have hA : getA (fun i => pvec c P Q i + rate c R x i) = getA (shift c P R x Q) := by
    ext a b
    have e : getA (fun i => pvec c P Q i + rate c R x i) a b = getA (pvec c P Q) a b + getA (rate c R x) a b := rfl
    rw [e, pvec_A c hv, shift_A c P R x Q hv, rate, mk_getA]
  have hJ : c.thermal = true → ∀ k : Fin 3, pvec c P Q (14 + k) + rate c R x (14 + k) =
      move c R x (cvecToPvec c P Q) (14 + k) := by
    intro ht k
    have hn : n1 c = 4 := by unfold n1; rw [ht]; rfl
    rw [rate, mk_J c _ _ ht, move, dif_neg (by omega), c2p_hi c hv _ _ _ (by omega)]
    by_cases hk : k = 0
    · subst hk
      rw [if_pos rfl, dif_pos (by simp [hn])]
      congr 2
      ext
      simp [hn]
    · have : k.1 ≠ 0 := fun h => hk (Fin.ext h)
      rw [if_neg hk, dif_neg (by omega), add_zero]
  have hT : ∀ i, c.mV ≤ i → pvec c P Q i + rate c R x i = move c R x (cvecToPvec c P Q) i := by
    intro i hi
    have := mV_ge c hv
    have hn := mV_ge' c hv
    rw [rate, mk_tail c _ _ hv i hi, move, dif_neg (by omega), dif_neg (by omega), c2p_hi c hv _ _ _ (by omega), add_zero]
  have hp : pvec c P Q 1 + rate c R x 1 = move c R x (cvecToPvec c P Q) 1 := by
    rw [pvec_one c hv, rate, mk_1, move, dif_pos (by norm_num), c2p_one c P Q hv]
    rfl
  exact ⟨h0, hV, hA, hJ, hT, hp⟩

/-- The primitive variables after a step. -/
theorem shift_pvec (hv : c.viscous = true) (hm : P.multi = false) (hρ : shift c P R x Q 0 ≠ 0)
    (hΓ : gammaMG P.toParams (shift c P R x Q 0) ≠ 0) (i : Nat) :
    pvec c P (shift c P R x Q) i = pvec c P Q i + rate c R x i := by
  obtain ⟨h0, hV, hA, hJ, hT, hp⟩ := move_rate c P Q R x hv
  have h14 := mV_ge c hv
  have hz := p2c_zero c P (move c R x (cvecToPvec c P Q)) hv
  have hb : cvecToPvec c P (shift c P R x Q) = move c R x (cvecToPvec c P Q) :=
    c2p_p2c c P _ hv hm (by rw [← hz]; exact hρ) (by rw [← hz]; exact hΓ)
  rcases index_cases c hv i with rfl | rfl | ⟨k, rfl⟩ | ⟨a, b, rfl⟩ | ⟨ht, k, rfl⟩ | ⟨hmu, rfl⟩ | hL
  · rw [pvec_zero c hv, h0]
  · rw [pvec_one c hv, hp, ← hb, c2p_one c P _ hv]
  · rw [hV, ← hb, c2p_vel c P _ hv]
    exact congrFun (pvec_vel c hv P _) k
  · have e1 : pvec c P (shift c P R x Q) (5 + (3 * a + b)) = getA (pvec c P (shift c P R x Q)) a b := rfl
    rw [e1, pvec_A c hv, ← hA]
    rfl
  · rw [hJ ht, ← hb, c2p_hi c hv _ _ _ (by omega)]
  · rw [hT _ le_rfl, ← hb, c2p_hi c hv _ _ _ h14]
  · have hi : c.mV ≤ i := by split_ifs at hL <;> omega
    rw [hT i hi, ← hb, c2p_hi c hv _ _ _ (by omega)]

theorem shift_cvec (hv : c.viscous = true) (hr : P.reaction > -1 → c.multi = true) (hρ : shift c P R x Q 0 ≠ 0) :
    shift c P R x Q = cvec c (quiet P) (fun i => pvec c P Q i + rate c R x i) := by
  obtain ⟨h0, hV, hA, hJ, hT, hp⟩ := move_rate c P Q R x hv
  have h0' : move c R x (cvecToPvec c P Q) 0 = shift c P R x Q 0 := (p2c_zero c P _ hv).symm
  classical
  funext i
  rcases index_cases c hv i with rfl | rfl | ⟨k, rfl⟩ | ⟨a, b, rfl⟩ | ⟨ht, k, rfl⟩ | ⟨hmu, rfl⟩ | hL
  · rw [cvec_zero c hv, h0]
  · rw [cvec_one c hv, h0]
    rw [shift, p2c_energy c P _ hv, ← p2c_A c P _ hv]
    have es : pvecToCvec c P (move c R x (cvecToPvec c P Q)) = shift c P R x Q := rfl
    rw [es, h0']
    congr 1
    unfold cvecE
    rw [hA]
    beta_reduce
    rw [h0, hp]
    have ev : (getRv fun i => pvec c P Q i + rate c R x i) = fun i : Fin 3 => move c R x (cvecToPvec c P Q) (11 + i) := by
      funext k; exact hV k
    rw [ev]
    have ej : (if c.thermal then some (getRJ fun i => pvec c P Q i + rate c R x i) else none) =
        (if c.thermal then some fun i : Fin 3 => move c R x (cvecToPvec c P Q) (14 + i) else none) := by
      split_ifs with ht
      · congr 1
        funext k; exact hJ ht k
      · rfl
    rw [ej]
    unfold totalEnergy
    have t1 : (quiet P).toParams = P.toParams := rfl
    rw [t1]
    congr 1
    by_cases hre : P.reaction > -1
    · have hmu := hr hre
      rw [if_pos hre, if_pos hmu]
      simp only [ER, quiet, hre, if_true]
      rw [hT _ le_rfl]
      have := p2c_mass c P (move c R x (cvecToPvec c P Q)) hv hmu
      rw [es, h0'] at this
      rw [this]
      field_simp
    · rw [if_neg hre]
      by_cases hmu : c.multi = true
      · simp [hmu, ER, quiet, hre]
      · simp [hmu]
  · rw [cvec_other c hv _ _ _ (by omega), if_pos (scaled_v c k), h0, hV, shift, p2c_vel c P _ hv, h0', mul_comm]
    rfl
  · rw [cvec_other c hv _ _ _ (by omega), if_neg (plain_A c hv a b)]
    exact (congrFun (congrFun hA a) b).symm
  · rw [cvec_other c hv _ _ _ (by omega), if_pos (scaled_J c ht k), h0, hJ ht, shift, p2c_J c P _ hv ht, h0']
    rfl
  · have h14 := mV_ge c hv
    rw [cvec_other c hv _ _ _ (by omega), if_pos (scaled_V c hmu), h0, hT _ le_rfl, shift, p2c_mass c P _ hv hmu, h0']
    rfl
  · have h14 := mV_ge c hv
    have hi : c.mV ≤ i := by split_ifs at hL <;> omega
    rw [cvec_other c hv _ _ _ (by omega), if_neg (plain_L c hv i hL), hT i hi, shift, p2c_rest c P _ hv i hL]

/-- The conserved variables along a step change at the rate that belongs to `rate`. -/
theorem shift_rate (hv : c.viscous = true) (hm : P.multi = false) (hr : P.reaction > -1 → c.multi = true)
    (hR : Verif.Sys.Regular P.toParams (Q 0)) (hΓ : gammaMG P.toParams (Q 0) ≠ 0) (i : Nat) (hi : i < c.V) :
    HasDerivAt (fun t : ℝ => shift c P R (t • x) Q i) (toCons c P Q (rate c R x) i) 0 := by
  have hρ := hR.pos.ne'
  have hnear := near_regular c P Q R x hv hρ hΓ
  have hz : shift c P R ((0 : ℝ) • x) Q = Q := by rw [zero_smul, shift_zero c P R Q hv hm hρ hΓ]
  have hE : dEdp c P Q ≠ 0 := by
    simp only [dEdp, hm, Bool.false_eq_true, if_false, dedp]
    exact one_div_ne_zero (mul_ne_zero hρ hΓ)
  have hA : Along (fun t : ℝ => fun j => pvec c P Q j + t * rate c R x j) (rate c R x) 0 := fun j => by
    simpa using ((hasDerivAt_id (0 : ℝ)).mul_const (rate c R x j)).const_add (pvec c P Q j)
  have e0 : pvec c P Q 0 + 0 * rate c R x 0 = Q 0 := by rw [pvec_zero c hv]; ring
  obtain ⟨q', hq⟩ := along_cvec c (quiet P) _ _ 0 hA hv (by rw [e0]; exact hR) (by rw [e0]; exact hΓ)
  have hq : Along (fun t : ℝ => shift c P R (t • x) Q) q' 0 := by
    intro j
    refine (hq j).congr_of_eventuallyEq ?_
    filter_upwards [hnear] with t ht
    rw [shift_cvec c P Q R (t • x) hv hr ht.1, rate_smul]
  have hprim : ∀ k < c.V, toPrim c P Q q' k = rate c R x k := by
    intro k hk
    have h1 := hasDeriv_pvec c P _ q' 0 hq hv hm hr (by rw [hz]; exact hR) (by rw [hz]; exact hΓ) k hk
    rw [hz] at h1
    refine h1.unique ((hA k).congr_of_eventuallyEq ?_)
    filter_upwards [hnear] with t ht
    rw [shift_pvec c P Q R (t • x) hv hm ht.1 ht.2, rate_smul]
  have hback := toCons_toPrim c P Q q' hr hρ hE hv
  refine (hq i).congr_deriv ?_
  rw [← hback i hi]
  exact toCons_congr c P Q hv _ _ hprim i hi

end

end Verif.Riemann
