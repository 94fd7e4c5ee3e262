import Verif.Dg.Galerkin
import Verif.Weno.Osc
import Verif.Weno.Props

/-! # The tables under the mirror `x ↦ 1 - x`

The nodes of the code lie symmetrically in the cell; this makes every table symmetric. -/

namespace Verif.Basis

open Verif.Poly Polynomial

variable {n : Nat} {x : Fin n → ℝ} {psi : Fin n → List ℝ}

theorem degree_comp_mirror (f : ℝ[X]) (hf : f.degree < (n : WithBot ℕ)) : (f.comp (1 - X)).degree < (n : WithBot ℕ) := by
  by_cases h : f = 0
  · rw [h, zero_comp]; rw [h] at hf; exact hf
  refine lt_of_le_of_lt ?_ hf
  refine le_trans degree_le_natDegree ?_
  rw [degree_eq_natDegree h]
  refine Nat.cast_le.2 (le_trans natDegree_comp_le ?_)
  have : (1 - X : ℝ[X]).natDegree ≤ 1 := by
    refine le_trans (natDegree_sub_le _ _) ?_
    simp
  calc f.natDegree * (1 - X : ℝ[X]).natDegree ≤ f.natDegree * 1 := Nat.mul_le_mul_left _ this
    _ = _ := Nat.mul_one _

/-- The basis polynomial of the mirrored node is the mirrored basis polynomial. -/
theorem psi_rev (h : IsBasis x psi) (hx : Function.Injective x) (hs : ∀ i, x i.rev = 1 - x i) (i : Fin n) :
    den (psi i.rev) = (den (psi i)).comp (1 - X) := by
  have hd : ∀ j : Fin n, (den (psi j)).degree < (n : WithBot ℕ) := fun j => by
    rw [(h.den_eq j).1, Lagrange.degree_basis (s := Finset.univ) (v := x) hx.injOn (Finset.mem_univ j), Finset.card_univ,
      Fintype.card_fin]
    exact_mod_cast (by have := j.2; omega : n - 1 < n)
  have e : ∀ j, ((den (psi i)).comp (1 - X)).eval (x j) = if j = i.rev then 1 else 0 := by
    intro j
    rw [eval_comp]
    simp only [eval_sub, eval_one, eval_X, ← hs, (h.den_eq i).1]
    split_ifs with hj
    · subst hj
      rw [Fin.rev_rev]
      exact Lagrange.eval_basis_self hx.injOn (Finset.mem_univ _)
    · exact Lagrange.eval_basis_of_ne (fun hi => hj (by rw [hi, Fin.rev_rev])) (Finset.mem_univ _)
  have := h.interp hx ((den (psi i)).comp (1 - X)) (degree_comp_mirror _ (hd i))
  rw [← this]
  simp only [e]
  simp

theorem psi_rev_eval (h : IsBasis x psi) (hx : Function.Injective x) (hs : ∀ i, x i.rev = 1 - x i) (i : Fin n) (t : ℝ) :
    (den (psi i.rev)).eval t = (den (psi i)).eval (1 - t) := by
  rw [psi_rev h hx hs, eval_comp]
  simp

theorem iterate_mirror (a : Nat) (f : ℝ[X]) (t : ℝ) :
    (derivative^[a] (f.comp (1 - X))).eval t = (-1) ^ a * (derivative^[a] f).eval (1 - t) := by
  induction a generalizing f with
  | zero => simp
  | succ a ih =>
    rw [Function.iterate_succ_apply, Function.iterate_succ_apply]
    have : derivative (f.comp (1 - X)) = C (-1) * (derivative f).comp (1 - X) := by
      rw [derivative_comp]
      simp
    rw [this, iterate_derivative_C_mul, eval_mul, eval_C, ih, pow_succ]
    ring

end Verif.Basis

namespace Verif.Dg

open Verif.Poly Verif.Basis Polynomial

variable {n : Nat} {T : Tab n}

/-- The nodes lie symmetrically. -/
def Tab.Sym (T : Tab n) : Prop := ∀ i, T.nodes i.rev = 1 - T.nodes i

/-- The tables of the code are of this kind, for every `N ≥ 1`. -/
theorem tab_sym (n : Nat) (hn : 0 < n) (e : Fin n → ℝ)
    (he : Verif.Legendre.IsEigenvalues (Verif.Legendre.legcompanion n) e) :
    ∃ (T : Tab n) (x w : Fin n → ℝ), T.Ok ∧ T.Sym ∧ Verif.Legendre.leggauss n e = some (x, w) ∧
      T.nodes = Verif.Legendre.scaledNodes x ∧ T.w = Verif.Legendre.scaledWeights w := by
  obtain ⟨T, x, w, hT, hlg, hx, hw⟩ := tab_exists n hn e he
  obtain ⟨x', w', hlg', -, -, -, hs, -⟩ := Verif.Legendre.scaled_gauss_exact n hn e he
  rw [hlg] at hlg'
  cases hlg'
  exact ⟨T, x, w, hT, fun i => by rw [hx]; exact hs i, hlg, hx, hw⟩

theorem endvals_rev (h : T.Ok) (hs : T.Sym) (e : Fin 2) (k : Fin n) : T.endvals e k.rev = T.endvals e.rev k := by
  have h01 : ∀ k, T.endvals 0 k.rev = T.endvals 1 k := fun k => by
    simp only [Tab.endvals, endValues, if_true, evaluate_den, psi_rev_eval h.basis h.inj hs, sub_zero]
    simp
  match e with
  | 0 => exact h01 k
  | 1 =>
    have := h01 k.rev
    rw [Fin.rev_rev] at this
    exact this.symm

theorem dervals_rev (h : T.Ok) (hs : T.Sym) (i j : Fin n) : T.dervals i.rev j.rev = -T.dervals i j := by
  rw [h.dervals_eq, h.dervals_eq, psi_rev h.basis h.inj hs, hs]
  have := iterate_mirror 1 (den (T.psi j)) (1 - T.nodes i)
  simp only [Function.iterate_one, pow_one, sub_sub_cancel] at this
  rw [this]
  ring

theorem w_rev (h : T.Ok) (hs : T.Sym) (i : Fin n) : T.w i.rev = T.w i := by
  have key : ∀ i, T.w i = ∫ t in (0 : ℝ)..1, (den (T.psi i)).eval t := fun i => by
    have := h.test i 1 (by rw [degree_one]; exact_mod_cast h.pos)
    simp only [mul_one, eval_one] at this
    exact this.symm
  rw [key, key]
  simp only [psi_rev_eval h.basis h.inj hs]
  rw [intervalIntegral.integral_comp_sub_left (fun t => (den (T.psi i)).eval t)]
  simp

theorem der_rev (h : T.Ok) (hs : T.Sym) (i j : Fin n) : T.der i.rev j.rev = -T.der i j := by
  rw [der_eq h, der_eq h, w_rev h hs, dervals_rev h hs]
  ring

end Verif.Dg

namespace Verif.Weno

open Verif.Poly Verif.Basis Polynomial

variable {n : Nat} {x : Fin n → ℝ} {psi : Fin n → List ℝ}

/-- The matrices of the left and right stencils are mirror images of each other, and so are those of the central ones. -/
theorem coefMat_rev (h : IsBasis x psi) (hx : Function.Injective x) (hs : ∀ i, x i.rev = 1 - x i) (s s' : Nat)
    (hss : s + s' = n - 1) : (coefMat psi s).submatrix Fin.rev Fin.rev = coefMat psi s' := by
  have key : ∀ (s : Nat) (i j : Fin n), coefMat psi s i j =
      ∫ t in (((i : Nat) : ℝ) - s)..(((i : Nat) : ℝ) - s + 1), (den (psi j)).eval t := by
    intro s i j
    have := coefMat_integral psi s (fun k => if k = j then 1 else 0) i
    simp only [Matrix.mulVec, dotProduct, mul_ite, mul_one, mul_zero, Finset.sum_ite_eq', Finset.mem_univ, if_true] at this
    rw [this]
    simp
  ext i j
  rw [Matrix.submatrix_apply, key, key]
  simp only [psi_rev_eval h hx hs]
  rw [intervalIntegral.integral_comp_sub_left (fun t => (den (psi j)).eval t)]
  have hi := i.2
  have e : ((i.rev : Nat) : ℝ) = (s : ℝ) + s' - i := by
    have : (i.rev : Nat) + i = s + s' := by rw [Fin.val_rev]; omega
    have h2 : ((i.rev : Nat) : ℝ) + i = s + s' := by exact_mod_cast this
    linarith
  rw [e]
  congr 1 <;> ring

theorem coefMat_inv_rev (h : IsBasis x psi) (hx : Function.Injective x) (hs : ∀ i, x i.rev = 1 - x i) (s s' : Nat)
    (hss : s + s' = n - 1) (v : Fin n → ℝ) (k : Fin n) :
    (coefMat psi s)⁻¹.mulVec (fun i => v i.rev) k = (coefMat psi s')⁻¹.mulVec v k.rev := by
  have e := coefMat_rev h hx hs s s' hss
  have e2 : (coefMat psi s')⁻¹ = (coefMat psi s)⁻¹.submatrix Fin.revPerm Fin.revPerm := by
    rw [← Matrix.inv_submatrix_equiv, ← e]
    rfl
  rw [e2]
  simp only [Matrix.mulVec, dotProduct, Matrix.submatrix_apply, Fin.revPerm_apply, Fin.rev_rev]
  exact (Fintype.sum_equiv Fin.revPerm _ _ fun i => by simp)

/-- The oscillation indicator does not tell left from right. -/
theorem sig_rev (h : IsBasis x psi) (hx : Function.Injective x) (hs : ∀ i, x i.rev = 1 - x i) (hn : 0 < n)
    (sig : Matrix (Fin n) (Fin n) ℝ) (hg : ∀ i j, oscillationIndicator 0 psi i j = some (sig i j)) (i j : Fin n) :
    sig i.rev j.rev = sig i j := by
  have key : ∀ i j, sig i j = ∑ a ∈ Finset.Ico 1 n, ∫ t in (0 : ℝ)..1,
      (derivative^[a] (den (psi i))).eval t * (derivative^[a] (den (psi j))).eval t := by
    intro i j
    have := hg i j
    rw [oscillation_gram h hn] at this
    have := Option.some.inj this
    rw [← this]
    simp
  rw [key, key]
  refine Finset.sum_congr rfl fun a _ => ?_
  simp only [psi_rev h hx hs, iterate_mirror]
  have : ∀ t : ℝ, (-1 : ℝ) ^ a * (derivative^[a] (den (psi i))).eval (1 - t) *
      ((-1) ^ a * (derivative^[a] (den (psi j))).eval (1 - t)) =
      (fun t => (derivative^[a] (den (psi i))).eval t * (derivative^[a] (den (psi j))).eval t) (1 - t) := by
    intro t
    have h1 : ((-1 : ℝ) ^ a) * (-1) ^ a = 1 := by rw [← mul_pow]; norm_num
    simp only
    linear_combination ((derivative^[a] (den (psi i))).eval (1 - t) * (derivative^[a] (den (psi j))).eval (1 - t)) * h1
  simp only [this]
  rw [intervalIntegral.integral_comp_sub_left (fun t => (derivative^[a] (den (psi i))).eval t * (derivative^[a] (den (psi j))).eval t)]
  simp

/-- The set-up of the code: symmetric nodes, and the oscillation indicator computed from a zero matrix. -/
structure Setup.Sym (W : Setup n) : Prop where
  nodes : ∀ i, W.x i.rev = 1 - W.x i
  sig : ∀ i j, W.T.sig i.rev j.rev = W.T.sig i j

theorem weight_rev (T : Tables n) (hs : ∀ i j, T.sig i.rev j.rev = T.sig i j) (ε : ℝ) (hε : ε * ε = 1) (w w' : Fin n → ℝ)
    (hw : ∀ k, w' k = ε * w k.rev) (lam : ℝ) : weight T w' lam = weight T w lam := by
  have e : w' ⬝ᵥ (T.sig.mulVec w') = w ⬝ᵥ (T.sig.mulVec w) := by
    simp only [Matrix.mulVec, dotProduct, Finset.mul_sum, hw]
    refine Fintype.sum_equiv Fin.revPerm _ _ fun i => Fintype.sum_equiv Fin.revPerm _ _ fun j => ?_
    simp only [Fin.revPerm_apply]
    rw [← hs i j]
    linear_combination (w i.rev * T.sig i.rev j.rev * w j.rev) * hε
  unfold weight
  rw [e]

/-- **The reconstruction of a line commutes with the mirror**: mirrored data, with the sign of the variable changed or not, have
the mirrored reconstruction. -/
theorem coeffs_rev (W : Setup n) (hW : W.Sym) (undef : ℝ) (ε : ℝ) (hε : ε * ε = 1) (data data' : Nat → ℝ)
    (hd : ∀ r, r ≤ 2 * (n - 1) → data' r = ε * data (2 * (n - 1) - r)) (nx ind ind' : Nat) (hi : ind < nx) (hi' : ind' < nx)
    (k : Fin n) : coeffs W.T undef data' nx 0 ind' k = ε * coeffs W.T undef data nx 0 ind k.rev := by
  obtain ⟨sig, lamS, lamC, eps, hT⟩ := W.tables
  obtain ⟨hfc, hf, hc⟩ := fn2_cn2 n W.pos
  have hn := W.pos
  have st : ∀ (b b' s s' : Nat), s + s' = n - 1 → b + b' = n - 1 → ∀ k,
      (coefMat W.psi s)⁻¹.mulVec (block data' b) k = ε * (coefMat W.psi s')⁻¹.mulVec (block data b') k.rev := by
    intro b b' s s' hs hb k
    have : (block data' b : Fin n → ℝ) = fun i => (fun j => ε * block data b' j) i.rev := by
      funext i
      have := i.2
      simp only [block]
      rw [hd _ (by omega)]
      congr 2
      rw [Fin.val_rev]
      omega
    rw [this]
    refine (coefMat_inv_rev W.basis W.inj hW.nodes s s' hs (fun j => ε * block data b' j) k).trans ?_
    have := congrFun (Matrix.mulVec_smul (coefMat W.psi s')⁻¹ ε (block data b')) k.rev
    simp only [Pi.smul_apply, smul_eq_mul] at this
    rw [← this]
    rfl
  have wt : ∀ w w' : Fin n → ℝ, (∀ k, w' k = ε * w k.rev) → ∀ lam, weight W.T w' lam = weight W.T w lam :=
    fun w w' hw lam => weight_rev W.T hW.sig ε hε w w' hw lam
  have hL : ∀ k, W.T.mLinv.mulVec (block data' 0) k = ε * W.T.mRinv.mulVec (block data (n - 1)) k.rev := by
    rw [hT]; exact st 0 (n - 1) (n - 1) 0 (by omega) (by omega)
  have hR : ∀ k, W.T.mRinv.mulVec (block data' (n - 1)) k = ε * W.T.mLinv.mulVec (block data 0) k.rev := by
    rw [hT]; exact st (n - 1) 0 0 (n - 1) (by omega) (by omega)
  have hCL : ∀ k, W.T.mCLinv.mulVec (block data' (fn2 n)) k = ε * W.T.mCRinv.mulVec (block data (cn2 n)) k.rev := by
    rw [hT]; exact st (fn2 n) (cn2 n) (cn2 n) (fn2 n) (by omega) (by omega)
  have hCR : ∀ k, W.T.mCRinv.mulVec (block data' (cn2 n)) k = ε * W.T.mCLinv.mulVec (block data (fn2 n)) k.rev := by
    rw [hT]; exact st (cn2 n) (fn2 n) (fn2 n) (cn2 n) (by omega) (by omega)
  have hodd : n % 2 = 1 → fn2 n = cn2 n := by unfold fn2 cn2; omega
  have hm : n % 2 = 1 → W.T.mCLinv = W.T.mCRinv := fun ho => by rw [hT]; simp only [mkTables]; rw [hodd ho]
  have c1 : ∀ ind : Nat, decide ((ind : Int) ≥ 0) = true := fun ind => by simp
  have c2 : ∀ ind : Nat, ind < nx → decide ((ind : Int) ≤ (nx : Int) - 0 - 1) = true := fun ind h => by
    simp only [decide_eq_true_eq]; omega
  have c3 : ∀ ind : Nat, decide ((ind : Int) + (fn2 n : Nat) ≥ 0) = true := fun ind => by
    simp only [decide_eq_true_eq]; omega
  have c4 : ∀ ind : Nat, ind < nx → decide ((ind : Int) - (fn2 n : Nat) ≤ (nx : Int) - 0 - 1) = true := fun ind h => by
    simp only [decide_eq_true_eq]; omega
  have key : (coeffsND W.T data' nx 0 ind').2 = (coeffsND W.T data nx 0 ind).2 ∧
      ∀ k, (coeffsND W.T data' nx 0 ind').1 k = ε * (coeffsND W.T data nx 0 ind).1 k.rev := by
    unfold coeffsND
    simp only [c1, c2 _ hi, c2 _ hi', c3, c4 _ hi, c4 _ hi', Bool.and_true]
    rw [wt _ _ hL, wt _ _ hR, wt _ _ hCL, wt _ _ hCR]
    by_cases h2 : n > 2
    · rcases Nat.mod_two_eq_zero_or_one n with he | ho
      · simp only [acc, h2, he, decide_true, Bool.and_true, if_true]
        refine ⟨by ring, fun k => ?_⟩
        simp only [Pi.add_apply, Pi.smul_apply, Pi.zero_apply, smul_eq_mul, hL, hR, hCL, hCR]
        ring
      · have h3 : decide (n % 2 = 0) = false := by rw [ho]; rfl
        simp only [acc, h2, h3, decide_true, Bool.and_false, if_true]
        rw [← hm ho, ← hodd ho]
        refine ⟨by simp; ring, fun k => ?_⟩
        simp only [Pi.add_apply, Pi.smul_apply, Pi.zero_apply, smul_eq_mul, hL, hR, hCL, ← hm ho, ← hodd ho, Bool.false_eq_true, if_false]
        ring
    · simp only [acc, h2, decide_false, Bool.false_and, if_true, Bool.false_eq_true, if_false]
      refine ⟨by ring, fun k => ?_⟩
      simp only [Pi.add_apply, Pi.smul_apply, Pi.zero_apply, smul_eq_mul, hL, hR]
      ring
  have hpos : (coeffsND W.T data nx 0 ind).2 ≠ 0 := by
    have := (coeffs_functional W.T W.ok undef data nx 0 ind (0 : (Fin n → ℝ) →ₗ[ℝ] ℝ) 0 (by simp) (by simp) (by simp) (by simp)).1
    exact (this.1 (Or.inl (by simp))).ne'
  unfold coeffs
  simp only [key.1, hpos, if_false, key.2]
  ring

end Verif.Weno
