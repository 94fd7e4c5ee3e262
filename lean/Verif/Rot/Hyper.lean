import Verif.Rot.MirrorRoe
import Verif.Riemann.Rest
import Verif.Riemann.Heat
import Verif.Dg.Inside
import Verif.Legendre.Eigen

/-! # C96: where the interface functions of Roe and Osher are well defined -/

namespace Verif.Rot

open Verif.Sys Verif.Relax

noncomputable section

variable {nv : Nat} {J J' : Nat → Nat → ℝ}

/-- Eigen as the code relies on it: where the eigenvectors of a matrix span, it finds them. -/
def EigOk (nv : Nat) (es : EigSolver) : Prop := ∀ J, Spans nv J → es.At nv J

theorem eigOk_exists (nv : Nat) : ∃ es, EigOk nv es := exists_solver nv

theorem spans_smul (h : Spans nv J) (w : ℝ) (hJ : ∀ i < nv, ∀ j < nv, J' i j = w * J i j) : Spans nv J' := by
  intro x
  obtain ⟨k, r, l, hr, e⟩ := h x
  refine ⟨k, r, fun a => w * l a, fun a i => ?_, e⟩
  simp only [hJ i i.2 _ (Fin.is_lt _), Complex.ofReal_mul, mul_assoc, ← Finset.mul_sum]
  rw [hr]

theorem spans_mirror (s : Nat → ℝ) (hs : ∀ i, s i * s i = 1) (hJ : ∀ i < nv, ∀ j < nv, J' i j = -(s i * s j * J i j))
    (h : Spans nv J) : Spans nv J' := by
  intro x
  have hsC : ∀ i, (s i : ℂ) * (s i : ℂ) = 1 := fun i => by rw [← Complex.ofReal_mul, hs, Complex.ofReal_one]
  obtain ⟨k, r, l, hr, e⟩ := h fun i => s i * x i
  refine ⟨k, fun a i => s i * r a i, fun a => -l a, fun a i => ?_, ?_⟩
  · calc _ = -(s i : ℂ) * ∑ j : Fin nv, (J i j : ℂ) * r a j := by
          rw [Finset.mul_sum]
          refine Finset.sum_congr rfl fun j _ => ?_
          rw [hJ i i.2 j j.2]
          push_cast
          linear_combination -((s i : ℂ) * J i j * r a j) * hsC j
      _ = _ := by rw [hr]; ring
  · funext i
    have := congrFun e i
    simp only [Finset.sum_apply] at this ⊢
    rw [← Finset.mul_sum, ← this, ← mul_assoc, hsC, one_mul]

/-- Every vector a sum of real eigenvectors: then every complex vector is one, too. -/
theorem spans_of_real (h : ∀ x : St, ∃ (k : Nat) (r : Fin k → St) (l : Fin k → ℝ),
    (∀ a, ∀ i < nv, rowDot nv J (r a) i = l a * r a i) ∧ ∀ i < nv, x i = ∑ a, r a i) : Spans nv J := by
  intro x
  obtain ⟨k1, r1, l1, h1, e1⟩ := h fun i => if hi : i < nv then (x ⟨i, hi⟩).re else 0
  obtain ⟨k2, r2, l2, h2, e2⟩ := h fun i => if hi : i < nv then (x ⟨i, hi⟩).im else 0
  have c1 : ∀ a (i : Fin nv), ∑ j : Fin nv, (J i j : ℂ) * (r1 a j : ℂ) = l1 a * r1 a i := fun a i => by
    have := h1 a i i.2
    rw [rowDot, Finset.sum_range] at this
    rw [← Complex.ofReal_mul, ← this]
    push_cast
    rfl
  have c2 : ∀ a (i : Fin nv), ∑ j : Fin nv, (J i j : ℂ) * (r2 a j : ℂ) = l2 a * r2 a i := fun a i => by
    have := h2 a i i.2
    rw [rowDot, Finset.sum_range] at this
    rw [← Complex.ofReal_mul, ← this]
    push_cast
    rfl
  refine ⟨k1 + k2, Fin.append (fun a i => (r1 a i : ℂ)) fun a i => Complex.I * r2 a i,
    Fin.append (fun a => (l1 a : ℂ)) fun a => l2 a, fun a => ?_, ?_⟩
  · refine Fin.addCases (fun a i => ?_) (fun a i => ?_) a
    · simp only [Fin.append_left]
      exact c1 a i
    · simp only [Fin.append_right]
      have : ∀ j : Fin nv, (J i j : ℂ) * (Complex.I * r2 a j) = Complex.I * ((J i j : ℂ) * r2 a j) := fun j => by ring
      simp only [this, ← Finset.mul_sum, c2]
      ring
  · rw [Fin.sum_univ_add]
    funext i
    have f1 := e1 i i.2
    have f2 := e2 i i.2
    simp only [i.2, dif_pos] at f1 f2
    simp only [Fin.append_left, Fin.append_right, Pi.add_apply, Finset.sum_apply, ← Finset.mul_sum]
    rw [← Complex.re_add_im (x i)]
    have g1 : ((x i).re : ℂ) = ∑ a, (r1 a i : ℂ) := by rw [← Complex.ofReal_sum]; exact congrArg _ f1
    have g2 : ((x i).im : ℂ) = ∑ a, (r2 a i : ℂ) := by rw [← Complex.ofReal_sum]; exact congrArg _ f2
    rw [g1, g2]
    ring

variable (c : Cfg) (P : Par) (Q : St)

/-- Spanning by one family per speed. -/
theorem spans_waves (m : Nat) (v : ℝ) (s : Fin m → ℝ)
    (h : ∀ x : St, ∃ (r0 : St) (r l : Fin m → St), (∀ i < nv, rowDot nv J r0 i = v * r0 i) ∧
        (∀ k, ∀ i < nv, rowDot nv J (r k) i = (v + s k) * r k i) ∧
        (∀ k, ∀ i < nv, rowDot nv J (l k) i = (v - s k) * l k i) ∧
        ∀ i < nv, x i = r0 i + ∑ k, (r k i + l k i)) : Spans nv J := by
  refine spans_of_real fun x => ?_
  obtain ⟨r0, r, l, h0, hr, hl, e⟩ := h x
  refine ⟨1 + (m + m), Fin.append (fun _ => r0) (Fin.append r l),
    Fin.append (fun _ => v) (Fin.append (fun k => v + s k) fun k => v - s k), fun a => ?_, fun i hi => ?_⟩
  · refine Fin.addCases (fun a => ?_) (fun a => ?_) a
    · simp only [Fin.append_left]; exact h0
    · refine Fin.addCases (fun a => ?_) (fun a => ?_) a
      · simp only [Fin.append_right, Fin.append_left]; exact hr a
      · simp only [Fin.append_right]; exact hl a
  · rw [Fin.sum_univ_add, Fin.sum_univ_add]
    simp only [Fin.append_left, Fin.append_right, Finset.univ_unique, Finset.sum_singleton]
    rw [e i hi, Finset.sum_add_distrib]

/-- Without heat conduction, where the acoustic tensor is positive definite, the eigenvectors of the system matrix span. -/
theorem spans_plain (hv : c.viscous = true) (ht : c.thermal = false) (hm : P.multi = false)
    (hr : P.reaction > -1 → c.multi = true) (hR : Verif.Eig.Regular c P Q)
    (hpos : ∀ w : Fin 3 → ℝ, w ≠ 0 → 0 < dotProduct w ((Eig.tensor3 c P Q 0).mulVec w)) :
    Spans c.V (systemMatrix c P Q 0) := by
  obtain ⟨-, s, -, h⟩ := Riemann.hyperbolic_plain c P Q hv ht hm hr hR hpos
  exact spans_waves 3 (vel Q 0) s h

/-- The same with heat conduction, where the shear modulus does not depend on the density or no tangential stress acts on the planes
of the first axis. -/
theorem spans_heat (hv : c.viscous = true) (ht : c.thermal = true) (hm : P.multi = false)
    (hr : P.reaction > -1 → c.multi = true) (hR : Verif.Eig.Regular c P Q) (hT : 0 < dTdp P.toParams (Q 0))
    (hσ : ∀ j, j ≠ 0 → P.β * sigmaCol P.toParams Q 0 j = 0)
    (hh : 0 < P.cα2 * temperature c P Q / P.cv) (hc : 0 < Riemann.rise c P Q)
    (hpos : ∀ w : Fin 3 → ℝ, w ≠ 0 → Riemann.rise c P Q / dTdp P.toParams (Q 0) * w 0 ^ 2 <
      dotProduct w ((Eig.tensor3 c P Q 0).mulVec w)) :
    Spans c.V (systemMatrix c P Q 0) := by
  obtain ⟨s, -, h⟩ := Riemann.hyperbolic_heat c P Q hv ht hm hr hR hT hσ hh hc hpos
  exact spans_waves 4 (vel Q 0) s h

/-- **The interface function of Osher** (C96): where the acoustic tensor is positive definite at the states the code visits between
the two sides, every solver that finds spanning eigenvectors gives the same flux. -/
theorem osher_defined {n : Nat} (hv : c.viscous = true) (ht : c.thermal = false) (hmul : c.multi = false) (hm : P.multi = false)
    (hr : ¬ P.reaction > -1) (T : Dg.Tab n) (qL qR : St)
    (hq : ∀ k, Verif.Eig.Regular c P (fun i => qR i + T.nodes k * (qL i - qR i)) ∧
      ∀ w : Fin 3 → ℝ, w ≠ 0 → 0 < dotProduct w ((Eig.tensor3 c P (fun i => qR i + T.nodes k * (qL i - qR i)) 0).mulVec w))
    (es es' : EigSolver) (he : EigOk c.V es) (he' : EigOk c.V es') (i : Nat) (hi : i < c.V) :
    dOsh c P T es qL qR 0 i = dOsh c P T es' qL qR 0 i := by
  have hs := fun k => spans_plain c P _ hv ht hm (fun h => absurd h hr) (hq k).1 (hq k).2
  exact (interface_unique hmul T es es' qL qR 0 i hi).2 (fun k => he _ (hs k)) fun k => he' _ (hs k)

/-! ### Two streams -/

/-- Unstretched material of density 1 with energy `e` and velocity `u`. -/
def stream (e u : ℝ) : St := fun i => if i = 1 then e else if i = 2 then u else stateAtRest i

theorem stream_facts (e u : ℝ) (he : u * u / 2 ≤ e) : getA (stream e u) = 1 ∧
    Verif.Eig.Regular (cfgOf false) (samplePar sample) (stream e u) ∧
    cs2 (samplePar sample).toParams (stream e u 0) = 1 ∧ stream e u 0 = 1 := by
  have hA : getA (stream e u) = 1 := by
    ext i j
    fin_cases i <;> fin_cases j <;> simp [getA, stream, stateAtRest]
  have h0 : stream e u 0 = 1 := by simp [stream, stateAtRest]
  have hd : devGsq (getA (stream e u)) = 0 := by
    rw [hA]; simp [devGsq, dot3]; norm_num
  have hE3 : E3 (vel (stream e u)) = u * u / 2 := by simp [E3, sq3, vel, getRv, stream, stateAtRest]
  have hp : pressure (cfgOf false) (samplePar sample) (stream e u) = e - u * u / 2 := by
    have h2 : E2A (samplePar sample).toParams (stream e u 0) (getA (stream e u)) = 0 := by rw [E2A, hd, mul_zero]
    have h1 : stream e u 1 = e := by simp [stream]
    simp only [pressure, internalEnergy, hE3, h2, h1]
    norm_num [samplePar, sample, pressureMG, eRef, pRef, gammaMG, h0, cfgOf]
  have hE : (pressure (cfgOf false) (samplePar sample) (stream e u) / (stream e u 0 * stream e u 0) -
      dEdrho (cfgOf false) (samplePar sample) (stream e u)) / dEdp (cfgOf false) (samplePar sample) (stream e u) =
      2 * (e - u * u / 2) := by
    simp only [dEdrho, dEdp, hp, hd, h0]
    norm_num [samplePar, sample, dedrho, dedp, gammaMG, pRef, eRef, dpRef, deRef, dGammaMG]
    ring
  have hcs : cs2 (samplePar sample).toParams (stream e u 0) = 1 := by norm_num [cs2, samplePar, sample, h0]
  refine ⟨hA, ⟨by norm_num [h0], by norm_num [gammaMG, samplePar, sample], by norm_num [hcs], ?_, ?_⟩, hcs, h0⟩
  · rw [hE]; linarith
  · intro h
    exact absurd h (by simp [cfgOf])

theorem stream_spans (e u : ℝ) (he : u * u / 2 ≤ e) :
    Spans (cfgOf false).V (systemMatrix (cfgOf false) (samplePar sample) (stream e u) 0) := by
  obtain ⟨hA, hR, hk, -⟩ := stream_facts e u he
  exact spans_plain _ _ _ rfl rfl rfl (by simp [samplePar]) hR
    (Riemann.unit_pos (cfgOf false) (samplePar sample) _ rfl rfl hR.dens hA (by rw [hk]; norm_num))

theorem stream_between (e u t : ℝ) :
    (fun i => stream e (-u) i + t * (stream e u i - stream e (-u) i)) = stream e ((2 * t - 1) * u) := by
  funext i
  unfold stream
  split_ifs <;> ring

theorem stream_mirror (e u : ℝ) : mir (cfgOf false) (stream e u) = stream e (-u) := by
  funext i
  by_cases h1 : i = 1
  · simp [mir, sgn, stream, h1]
  by_cases h2 : i = 2
  · simp [mir, sgn, stream, h2]
  simp only [mir, stream, h1, h2, if_false]
  unfold sgn stateAtRest
  split_ifs <;> simp <;> omega

/-- **Two equal streams that meet exchange no mass** (C96), with the interface functions of Osher on any number of nodes and of Roe
on one node, whatever eigenvectors Eigen picks. -/
theorem streams_meet {n : Nat} {T : Dg.Tab n} (h : T.Ok) (hT : T.Sym) (es : EigSolver) (hes : EigOk (cfgOf false).V es) (e u : ℝ)
    (he : u * u / 2 ≤ e) :
    dOsh (cfgOf false) (samplePar sample) T es (stream e u) (stream e (-u)) 0 0 = 0 ∧
    (n = 1 → dRoe (cfgOf false) (samplePar sample) T es (stream e u) (stream e (-u)) 0 0 = 0) := by
  have hP : mirPar (samplePar sample) = samplePar sample := by
    unfold mirPar turnPar
    simp [samplePar]
  have hnode : ∀ k : Fin n, ((2 * T.nodes k - 1) * u) * ((2 * T.nodes k - 1) * u) / 2 ≤ e := fun k => by
    obtain ⟨h0, h1⟩ := Dg.nodes_inside h k
    have : (2 * T.nodes k - 1) * (2 * T.nodes k - 1) ≤ 1 := by nlinarith
    nlinarith [mul_le_mul_of_nonneg_right this (mul_self_nonneg u)]
  have hs : ∀ k : Fin n, Spans (cfgOf false).V (systemMatrix (cfgOf false) (samplePar sample)
      (fun i => stream e (-u) i + T.nodes k * (stream e u i - stream e (-u) i)) 0) := fun k => by
    rw [stream_between]
    exact stream_spans _ _ (hnode k)
  have hV : 0 < (cfgOf false).V := by decide
  have hmix : (cfgOf false).mix (mirPar (samplePar sample)) = (cfgOf false).mix (samplePar sample) := by rw [hP]
  constructor
  · have := osher_mirrored (c := cfgOf false) (P := samplePar sample) rfl hmix rfl h hT es es (stream e u) (stream e (-u))
      (fun k => hes _ (hs k)) (fun k => hes _ (spans_mirror (sgn (cfgOf false)) (sgn_sq _)
        (fun i hi j hj => mir_systemMatrix _ rfl hmix i j hi hj) (hs k))) 0 hV
    rw [hP, stream_mirror, stream_mirror, neg_neg, sgn_0] at this
    linarith
  · intro hn
    subst hn
    have hsr : Spans (cfgOf false).V (roeMatrix (cfgOf false) (samplePar sample) T (stream e u) (stream e (-u)) 0) :=
      spans_smul (hs 0) (T.w 0) fun i _ j _ => by rw [roeMatrix_sum, Fin.sum_univ_one]
    have := roe_mirrored (c := cfgOf false) (P := samplePar sample) rfl hmix rfl h hT es es (stream e u) (stream e (-u))
      (hes _ hsr) (hes _ (spans_mirror (sgn (cfgOf false)) (sgn_sq _)
        (fun i hi j hj => mir_roeMatrix rfl hmix h hT _ _ i j hi hj) hsr)) 0 hV
    rw [hP, stream_mirror, stream_mirror, neg_neg, sgn_0] at this
    linarith

/-- Such tables and such a solver exist. -/
example (n : Nat) (hn : 0 < n) : ∃ (T : Dg.Tab n) (es : EigSolver), T.Ok ∧ T.Sym ∧ EigOk (cfgOf false).V es ∧
    dOsh (cfgOf false) (samplePar sample) T es (stream 5 3) (stream 5 (-3)) 0 0 = 0 := by
  obtain ⟨x, hx⟩ := Legendre.eigenvalues_exist n
  obtain ⟨T, -, -, h, hT, -⟩ := Dg.tab_sym n hn x hx
  obtain ⟨es, hes⟩ := eigOk_exists (cfgOf false).V
  exact ⟨T, es, h, hT, hes, (streams_meet h hT es hes 5 3 (by norm_num)).1⟩

end

end Verif.Rot
