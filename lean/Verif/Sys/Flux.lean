import Verif.Sys.Model
import Verif.Fv.Props
import Mathlib.Data.Complex.BigOperators
import Mathlib.Algebra.BigOperators.Intervals

/-!
# C18 and C42: interface functions and the non-conservative product

Model of `fluxes.cpp` over the model of `system`.  `max_abs_eigs` and the eigenvalue solver of Eigen are
arbitrary functions.
-/

namespace Verif.Sys

open Verif.Dg Verif.Fv

noncomputable section

/-- Eigen's `EigenSolver` and the QR solve with the eigenvector matrix (fluxes.cpp:36, 57). -/
structure EigSolver where
  vectors : (Nat → Nat → ℝ) → Nat → Nat → ℂ
  values : (Nat → Nat → ℝ) → Nat → ℂ
  solve : (Nat → Nat → ℂ) → (Nat → ℂ) → Nat → ℂ

/-- `b` and `es.eigenvectors() * b`, fluxes.cpp:35-38, 56-60. -/
def dissipate (nv : Nat) (es : EigSolver) (J : Nat → Nat → ℝ) (dq : St) : Nat → ℂ := fun i =>
  let E := es.vectors J
  ∑ j ∈ Finset.range nv, E i j * (es.solve E (fun k => (dq k : ℂ)) j * (‖es.values J j‖ : ℂ))

variable {n : Nat}

/-- `D_OSH`, fluxes.cpp:22-44. -/
def dOsh (c : Cfg) (P : Par) (T : Tab n) (es : EigSolver) (qL qR : St) (d : Fin 3) : St :=
  let dq : St := fun i => qL i - qR i
  let ret : Nat → ℂ := (List.finRange n).foldl (fun ret k =>
    let q : St := fun i => qR i + T.nodes k * dq i
    fun i => ret i + T.w k * dissipate c.V es (systemMatrix c P q d) dq i) fun _ => 0
  let f : St := fun i => (ret i).re
  flux c P qR d (flux c P qL d f)

/-- `D_ROE`, fluxes.cpp:46-64. -/
def dRoe (c : Cfg) (P : Par) (T : Tab n) (es : EigSolver) (qL qR : St) (d : Fin 3) : St :=
  let dq : St := fun i => qL i - qR i
  let J : Nat → Nat → ℝ := (List.finRange n).foldl (fun J k =>
    let q : St := fun i => qR i + T.nodes k * dq i
    fun i j => J i j + T.w k * systemMatrix c P q d i j) fun _ _ => 0
  let f : St := fun i => (dissipate c.V es J dq i).re
  flux c P qR d (flux c P qL d f)

/-- `D_RUS`, fluxes.cpp:66-75 (the file defines it twice with the same text, lines 77-86, which a compiler
rejects). -/
def dRus (c : Cfg) (P : Par) (maxAbsEigs : St → Fin 3 → ℝ) (qL qR : St) (d : Fin 3) : St :=
  let f : St := fun i => max (maxAbsEigs qL d) (maxAbsEigs qR d) * (qL i - qR i)
  flux c P qR d (flux c P qL d f)

/-! ### `flux` adds -/

theorem addAt_add (k : Nat) (x : ℝ) (r s : St) : addAt k x (r + s) = r + addAt k x s := by
  funext i; unfold addAt; simp only [Pi.add_apply]; split_ifs <;> ring

theorem addSeg_add (k : Nat) (x : V3) (r s : St) : addSeg k x (r + s) = r + addSeg k x s := by
  unfold addSeg; rw [addAt_add, addAt_add, addAt_add]

/-- Without the `MULTI` feature `flux` adds the physical flux to its argument. -/
theorem flux_adds (c : Cfg) (P : Par) (Q : St) (d : Fin 3) (hm : c.multi = false) (r : St) :
    flux c P Q d r = r + flux c P Q d 0 := by
  have hb : ∀ s, fluxBase c P Q d (r + s) = r + fluxBase c P Q d s := fun s => by
    simp only [fluxBase, addAt_add, addSeg_add]
  have hv : ∀ s, fluxViscous P Q d (r + s) = r + fluxViscous P Q d s := fun s => by
    simp only [fluxViscous, addAt_add, addSeg_add]
  have ht : ∀ s, fluxThermal c P Q d (r + s) = r + fluxThermal c P Q d s := fun s => by
    simp only [fluxThermal, addAt_add, addSeg_add]
  have h0 := hb 0
  rw [add_zero] at h0
  simp only [flux, hm, Bool.false_eq_true, if_false, h0]
  split_ifs <;> simp only [hv, ht]

/-- With `MULTI`, component `mV` is overwritten instead. -/
theorem flux_multi (c : Cfg) (P : Par) (Q : St) (d : Fin 3) (hm : c.multi = true) (r : St) :
    flux c P Q d r c.mV = Q c.mV * (Q (2 + d) / Q 0) := by
  simp [flux, hm, setAt, getRv]

/-- The other components still add. -/
theorem flux_multi_other (c : Cfg) (P : Par) (Q : St) (d : Fin 3) (r : St) (i : Nat) (hi : i ≠ c.mV) :
    flux c P Q d r i = r i + flux c P Q d 0 i := by
  have hb : ∀ s, fluxBase c P Q d (r + s) = r + fluxBase c P Q d s := fun s => by
    simp only [fluxBase, addAt_add, addSeg_add]
  have hv : ∀ s, fluxViscous P Q d (r + s) = r + fluxViscous P Q d s := fun s => by
    simp only [fluxViscous, addAt_add, addSeg_add]
  have ht : ∀ s, fluxThermal c P Q d (r + s) = r + fluxThermal c P Q d s := fun s => by
    simp only [fluxThermal, addAt_add, addSeg_add]
  have h0 := hb 0
  rw [add_zero] at h0
  simp only [flux, h0]
  split_ifs <;> simp only [hv, ht, setAt, if_neg hi, Pi.add_apply]

theorem dissipate_zero (nv : Nat) (es : EigSolver) (hs : ∀ E, es.solve E (fun _ => 0) = fun _ => 0)
    (J : Nat → Nat → ℝ) (i : Nat) : dissipate nv es J (fun _ => 0) i = 0 := by
  simp [dissipate, hs]

theorem foldl_zero (T : Tab n) (F : Fin n → Nat → ℂ) (hF : ∀ k i, F k i = 0) (l : List (Fin n)) :
    l.foldl (fun (ret : Nat → ℂ) k => fun i => ret i + T.w k * F k i) (fun _ => 0) = fun _ => 0 := by
  induction l with
  | nil => rfl
  | cons a l ih => simp [List.foldl_cons, hF]

/-- **C18 without `MULTI`.**  For equal states each of the three interface functions is twice the flux.
`es` is any eigenvalue solver whose linear solve maps zero to zero. -/
theorem interface_consistent (c : Cfg) (P : Par) (T : Tab n) (mae : St → Fin 3 → ℝ) (es : EigSolver)
    (hs : ∀ E, es.solve E (fun _ => 0) = fun _ => 0) (hm : c.multi = false) (q : St) (d : Fin 3) (i : Nat) :
    dRus c P mae q q d i = 2 * flux c P q d 0 i ∧
    dRoe c P T es q q d i = 2 * flux c P q d 0 i ∧
    dOsh c P T es q q d i = 2 * flux c P q d 0 i := by
  refine ⟨?_, ?_, ?_⟩
  · simp only [dRus, sub_self, mul_zero]
    rw [flux_adds c P q d hm, flux_adds c P q d hm (fun _ => 0)]
    simp only [Pi.add_apply]
    ring
  · simp only [dRoe, sub_self, dissipate_zero _ es hs, Complex.zero_re]
    rw [flux_adds c P q d hm, flux_adds c P q d hm (fun _ => 0)]
    simp only [Pi.add_apply]
    ring
  · simp only [dOsh, sub_self]
    rw [foldl_zero T _ (fun k i => dissipate_zero _ es hs _ i)]
    simp only [Complex.zero_re]
    rw [flux_adds c P q d hm, flux_adds c P q d hm (fun _ => 0)]
    simp only [Pi.add_apply]
    ring

/-- **C18 with `MULTI`, the part that holds**: every component but the mass fraction. -/
theorem interface_consistent_multi_partial (c : Cfg) (P : Par) (T : Tab n) (mae : St → Fin 3 → ℝ)
    (es : EigSolver) (hs : ∀ E, es.solve E (fun _ => 0) = fun _ => 0) (q : St) (d : Fin 3) (i : Nat)
    (hi : i ≠ c.mV) :
    dRus c P mae q q d i = 2 * flux c P q d 0 i ∧
    dRoe c P T es q q d i = 2 * flux c P q d 0 i ∧
    dOsh c P T es q q d i = 2 * flux c P q d 0 i := by
  refine ⟨?_, ?_, ?_⟩
  · simp only [dRus, sub_self, mul_zero]
    rw [flux_multi_other c P q d _ i hi, flux_multi_other c P q d _ i hi]
    ring
  · simp only [dRoe, sub_self, dissipate_zero _ es hs, Complex.zero_re]
    rw [flux_multi_other c P q d _ i hi, flux_multi_other c P q d _ i hi]
    ring
  · simp only [dOsh, sub_self]
    rw [foldl_zero T _ (fun k i => dissipate_zero _ es hs _ i)]
    simp only [Complex.zero_re]
    rw [flux_multi_other c P q d _ i hi, flux_multi_other c P q d _ i hi]
    ring

/-- **C18 is false with `MULTI`**: whatever the states, the mass-fraction component of the Rusanov, Roe and
Osher functions is the flux of the right state alone, without dissipation; for equal states it is half of what
it should be unless the flux is zero. -/
theorem interface_multi_false (c : Cfg) (P : Par) (T : Tab n) (mae : St → Fin 3 → ℝ) (es : EigSolver)
    (hm : c.multi = true) (qL qR : St) (d : Fin 3) :
    dRus c P mae qL qR d c.mV = qR c.mV * (qR (2 + d) / qR 0) ∧
    dRoe c P T es qL qR d c.mV = qR c.mV * (qR (2 + d) / qR 0) ∧
    dOsh c P T es qL qR d c.mV = qR c.mV * (qR (2 + d) / qR 0) ∧
    (dRus c P mae qR qR d c.mV = 2 * flux c P qR d 0 c.mV ↔ flux c P qR d 0 c.mV = 0) := by
  have h : dRus c P mae qR qR d c.mV = flux c P qR d 0 c.mV := by
    rw [dRus, flux_multi c P qR d hm, flux_multi c P qR d hm]
  refine ⟨flux_multi c P qR d hm _, flux_multi c P qR d hm _, flux_multi c P qR d hm _, ?_⟩
  rw [h]
  constructor <;> intro h <;> linarith

/-! ### C42 -/

/-- `sum over a row of the block matrix`: `(block(Q, d) x)_i`. -/
def blockMul (c : Cfg) (Q : St) (d : Fin 3) (x : St) (i : Nat) : ℝ :=
  ∑ j ∈ Finset.range c.V, block c Q d i j * x j

theorem sum_one (V i : Nat) (hi : i < V) (f : Nat → ℝ) (hf : ∀ j, j ≠ i → f j = 0) :
    ∑ j ∈ Finset.range V, f j = f i :=
  Finset.sum_eq_single_of_mem i (Finset.mem_range.mpr hi) fun j _ h => hf j h

/-- A row meeting the distortion block is a sum of nine terms. -/
theorem sum_nine (V : Nat) (hV : 14 ≤ V) (f : Nat → ℝ) (hf : ∀ j, j < 5 ∨ 14 ≤ j → f j = 0) :
    ∑ j ∈ Finset.range V, f j = f 5 + f 6 + f 7 + f 8 + f 9 + f 10 + f 11 + f 12 + f 13 := by
  have h1 : ∑ j ∈ Finset.range V, f j = ∑ j ∈ Finset.range 14, f j :=
    (Finset.sum_subset (Finset.range_mono hV) fun j _ h =>
      hf j (Or.inr (by simpa using h))).symm
  have h2 : ∀ k, k < 5 → f k = 0 := fun k hk => hf k (Or.inl hk)
  rw [h1]
  simp only [Finset.sum_range_succ, Finset.sum_range_zero]
  rw [h2 0 (by norm_num), h2 1 (by norm_num), h2 2 (by norm_num), h2 3 (by norm_num), h2 4 (by norm_num)]
  ring

theorem V_ge (c : Cfg) (hv : c.viscous = true) : 14 ≤ c.V - c.lset := by
  unfold Cfg.V Cfg.mV; rw [hv]; simp only [if_true]; omega

/-- **C42.**  For every configuration with distortion, direction, state and vector, `Bdot` writes all `V`
components, whatever they held, with the product of `block(Q, d)` and `x`. -/
theorem bdot_eq_block (c : Cfg) (hv : c.viscous = true) (Q x : St) (d : Fin 3) (ret : St) (i : Nat)
    (hi : i < c.V) : bdot c Q x d ret i = blockMul c Q d x i := by
  have hV := V_ge c hv
  have hVl : 14 ≤ c.V := by omega
  unfold blockMul bdot
  rw [if_pos hv]
  by_cases hl : c.V - c.lset ≤ i
  · rw [if_pos ⟨hl, hi⟩, sum_one _ i hi]
    · simp only [block, hl, hi, true_and, if_true, vel]
    · intro j hj
      have : i ≠ j := fun h => hj h.symm
      simp [block, this, show ¬ i < 14 by omega]
  rw [if_neg (fun h => hl h.1)]
  by_cases h9 : 5 ≤ i ∧ i < 14
  · rw [if_pos h9, sum_nine _ hVl]
    · obtain ⟨h5, h14⟩ := h9
      have hn : ∀ j, ¬ (c.V - c.lset ≤ i ∧ i < c.V ∧ i = j) := fun j h => hl h.1
      simp only [block, hv, if_neg (hn _)]
      clear hn hl
      interval_cases i <;> fin_cases d <;> simp [bdotA, vel, getRv] <;> ring
    · intro j hj
      have : i ≠ j := by omega
      rcases hj with hj | hj
      · simp [block, this, show ¬ 5 ≤ j by omega]
      · simp [block, this, show ¬ j < 14 by omega]
  · rw [if_neg h9, if_pos hi]
    symm
    refine Finset.sum_eq_zero fun j _ => ?_
    have h1 : ¬ (c.V - c.lset ≤ i ∧ i < c.V ∧ i = j) := fun h => hl h.1
    simp only [block, if_neg h1, Bool.and_assoc]
    by_cases h5 : 5 ≤ i
    · simp [show ¬ i < 14 by omega]
    · simp [h5]

/-- **C42**: density, energy and momentum carry no non-conservative term, `Bdot` is linear in `x`. -/
theorem bdot_hydro_zero (c : Cfg) (hv : c.viscous = true) (Q x : St) (d : Fin 3) (ret : St) (i : Nat)
    (hi : i < 5) : bdot c Q x d ret i = 0 := by
  have hV := V_ge c hv
  have h1 : ¬ (c.V - c.lset ≤ i ∧ i < c.V) := fun h => by omega
  have h2 : ¬ (5 ≤ i ∧ i < 14) := fun h => by omega
  simp only [bdot, hv, if_true, if_neg h1, if_neg h2, if_pos (show i < c.V by omega)]

theorem bdot_linear (c : Cfg) (hv : c.viscous = true) (Q x y : St) (a b : ℝ) (d : Fin 3) (r r' r'' : St)
    (i : Nat) (hi : i < c.V) :
    bdot c Q (fun k => a * x k + b * y k) d r i = a * bdot c Q x d r' i + b * bdot c Q y d r'' i := by
  rw [bdot_eq_block c hv _ _ _ _ _ hi, bdot_eq_block c hv _ _ _ _ _ hi, bdot_eq_block c hv _ _ _ _ _ hi]
  unfold blockMul
  rw [Finset.mul_sum, Finset.mul_sum, ← Finset.sum_add_distrib]
  exact Finset.sum_congr rfl fun j _ => by ring

/-- **C42 fails without distortion** (`VISCOUS = false`): `Bdot` writes nothing while `block` still transports
the level sets, so the result is whatever the output vector held. -/
theorem bdot_inviscid_unset (c : Cfg) (hv : c.viscous = false) (Q x : St) (d : Fin 3) (ret : St) :
    bdot c Q x d ret = ret := by
  funext i; simp [bdot, hv]

theorem bdot_inviscid_false (c : Cfg) (hv : c.viscous = false) (hl : 0 < c.lset) :
    ∃ (Q x ret : St) (i : Nat), i < c.V ∧ bdot c Q x 0 ret i ≠ blockMul c Q 0 x i := by
  have hV : c.V - 1 < c.V := by unfold Cfg.V Cfg.mV; omega
  refine ⟨fun _ => 1, fun _ => 1, fun _ => 0, c.V - 1, hV, ?_⟩
  rw [bdot_inviscid_unset c hv]
  unfold blockMul
  rw [sum_one _ (c.V - 1) hV]
  · simp [block, getRv, show c.V ≤ c.V - 1 + c.lset by omega, show 0 < c.V by omega]
  · intro j hj
    have : c.V - 1 ≠ j := fun h => hj h.symm
    simp [block, hv, this]

/-- **C18**: the path-conservative term of equal states vanishes. -/
theorem bdot_zero (c : Cfg) (hv : c.viscous = true) (Q : St) (d : Fin 3) (ret : St) (i : Nat) (hi : i < c.V) :
    bdot c Q (fun _ => 0) d ret i = 0 := by
  rw [bdot_eq_block c hv _ _ _ _ _ hi]
  simp [blockMul]

/-- A direction of a loop counter. -/
def dir : Nat → Fin 3
  | 0 => 0
  | 1 => 1
  | _ => 2

/-- A `V`-vector as a state; entries outside are never read by the code. -/
def ofVec (c : Cfg) (q : Fin c.V → ℝ) : St := fun i => if h : i < c.V then q ⟨i, h⟩ else 0

/-- The equations as the schemes see them.  `junk` is what the local variable `tmp` held. -/
def gpr (c : Cfg) (P : Par) (src : St → St) (junk : St) : Dg.Sys (Fin c.V) where
  flux := fun d q i => flux c P (ofVec c q) (dir d) 0 i
  source := fun q i => src (ofVec c q) i
  bdot := fun d q x i => bdot c (ofVec c q) (ofVec c x) (dir d) junk i

theorem ofVec_zero (c : Cfg) : ofVec c 0 = fun _ => 0 := by
  funext i; unfold ofVec; split <;> rfl

/-- **C18**: `Bint(q, q) = 0`. -/
theorem bint_self (c : Cfg) (hv : c.viscous = true) (P : Par) (src : St → St) (junk : St) (T : Tab n) (d : Nat)
    (q : Fin c.V → ℝ) : bint (gpr c P src junk) T d q q = 0 := by
  funext i
  rw [bint_get]
  refine Finset.sum_eq_zero fun k _ => ?_
  rw [sub_self]
  simp only [gpr, ofVec_zero]
  rw [bdot_zero c hv _ _ _ _ i.2, mul_zero]

/-- The hypotheses of the scheme theorems (C15, C16) about the non-conservative product hold for this system. -/
theorem gpr_conservative_components (c : Cfg) (hv : c.viscous = true) (P : Par) (src : St → St) (junk : St)
    (v : Fin c.V) (h5 : v.1 < 5) (d : Nat) (q x : Fin c.V → ℝ) : (gpr c P src junk).bdot d q x v = 0 :=
  bdot_hydro_zero c hv _ _ _ _ _ h5

theorem gpr_bdot_zero (c : Cfg) (hv : c.viscous = true) (P : Par) (src : St → St) (junk : St)
    (d : Nat) (q : Fin c.V → ℝ) : (gpr c P src junk).bdot d q 0 = 0 := by
  funext i
  simp only [gpr, ofVec_zero]
  exact bdot_zero c hv _ _ _ _ i.2

/-- A reactive configuration and state for which the interface functions are not consistent. -/
example (mix : Par → ℝ → ℝ → ℝ → ℝ × ℝ) (mae : St → Fin 3 → ℝ) :
    let c : Cfg := ⟨true, false, true, 2, mix⟩
    let q : St := fun _ => 1
    dRus c (samplePar sample) mae q q 0 c.mV ≠ 2 * flux c (samplePar sample) q 0 0 c.mV := by
  intro c q h
  have := (interface_multi_false (n := 0) c (samplePar sample) ⟨fun _ => 0, fun _ => 0, fun _ => [], 0, 0⟩ mae
    ⟨fun _ _ _ => 0, fun _ _ => 0, fun _ _ _ => 0⟩ rfl q q 0).2.2.2.mp h
  rw [flux_multi c _ _ _ rfl] at this
  norm_num [q] at this

end

end Verif.Sys
