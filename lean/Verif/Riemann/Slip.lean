import Verif.Riemann.Star

/-!
# Shear stress at a surface along which materials slide

Without `RIEMANN_STICK` a step of `star_stepper` removes the shear traction from both sides of a surface (`slip_traction`), but the
loop around it is left as soon as the components across the surface agree.
-/

namespace Verif.Riemann

open Verif.Sys Verif.Rot

noncomputable section

variable {c : Cfg}

/-- The component of a vector across the surface with normal `n`. -/
def across (n : List ℝ) (x : V3) : ℝ := ∑ i, pad n i * x i

theorem rotated_first (n : List ℝ) (x : V3) : (rotationMatrix n).mulVec x 0 = across n x := by
  simp [across, rotationMatrix, Matrix.mulVec, dotProduct, Fin.sum_univ_three]

/-- **Materials that slide are left alone whatever their shear stress**: if the tractions and the velocities agree across the surface,
no step is made and the left state is returned, with the shear traction it had. -/
theorem slip_idle (hv : c.viscous = true) (ht : c.thermal = false) (relax : Bool) (tol : ℝ) (htol : 0 < tol) (S : Solvers)
    (svd : M3 → M3 × V3 × M3) (junk : Fin 2 → Fin (n1 c) → ℝ) (PL PR : Par) (hbL : 0 < PL.b02) (hbR : 0 < PR.b02) (hdL : 0 < PL.ρ0)
    (hdR : 0 < PR.ρ0) (dt : ℝ) (n : List ℝ) (hn : Unit n) (fuel : Nat) (hf : 1 ≤ fuel) (QL QR : St) (hL : QL 0 ≠ 0) (hR : QR 0 ≠ 0)
    (htr : across n (traction c PL QL n) = across n (traction c PR QR n)) (hve : across n (vel QL) = across n (vel QR)) :
    leftStar c false relax tol S svd junk PL (some PR) dt n fuel QL QR = some (0, some QL) := by
  have hs : ∀ b : ℝ, 0 < b → small tol 0 b := fun b hb => ⟨hb.ne', by rw [zero_div]; exact htol⟩
  have hb0 : 0 < min PL.b02 PR.b02 := lt_min hbL hbR
  have hr0 : 0 < min PL.ρ0 PR.ρ0 := lt_min hdL hdR
  refine left_star_idle _ _ _ _ _ _ _ _ _ _ _ _ _ _ hf hn ⟨⟨?_, fun _ => ?_⟩, ?_, fun h => by rw [ht] at h; simp at h⟩
  · show rotateTensors c QL _ 0 ≠ 0
    rwa [rotate_other c QL _ 0 (Or.inl (by omega))]
  · show rotateTensors c QR _ 0 ≠ 0
    rwa [rotate_other c QR _ 0 (Or.inl (by omega))]
  · simp only [Bool.false_eq_true, if_false, rotated_total c _ _ n hv hn, vel_rotate, rotated_first, htr, hve, sub_self, abs_zero]
    exact ⟨hs _ (mul_pos hb0 hr0), hs _ (Real.sqrt_pos.2 hb0)⟩

/-- A body at rest under simple shear `a`. -/
def slab (r E a : ℝ) : St := fun i =>
  if i = 0 then r else if i = 1 then E else if i = 5 ∨ i = 9 ∨ i = 13 then 1 else if i = 6 then a else 0

theorem slab_A (r E a : ℝ) : getA (slab r E a) = !![1, a, 0; 0, 1, 0; 0, 0, 1] := by
  ext i j
  fin_cases i <;> fin_cases j <;> simp [getA, slab]

theorem slab_vel (r E a : ℝ) : vel (slab r E a) = 0 := by
  ext i
  fin_cases i <;> simp [vel, getRv, slab]

theorem slab_strain (a : ℝ) : AdevG !![1, a, 0; 0, 1, 0; 0, 0, 1] 0 0 = 2 * a ^ 2 / 3 ∧
    AdevG !![1, a, 0; 0, 1, 0; 0, 0, 1] 0 1 = a + 2 * a ^ 3 / 3 ∧ AdevG !![1, a, 0; 0, 1, 0; 0, 0, 1] 0 2 = 0 := by
  refine ⟨?_, ?_, ?_⟩ <;>
  · simp only [AdevG, Matrix.mul_apply, Fin.sum_univ_three, Matrix.of_apply, Matrix.transpose_apply]
    norm_num [Matrix.cons_val_two, show ¬ (0 : Fin 3) = 2 by decide, show ¬ (1 : Fin 3) = 2 by decide]
    try ring

/-- The stresses on the face across the first axis. -/
theorem slab_sigma (P : Params) (r E a : ℝ) :
    sigma P (slab r E a) 0 0 = -(r * cs2 P r * (2 * a ^ 2 / 3)) ∧
    sigma P (slab r E a) 1 0 = -(r * cs2 P r * (a + 2 * a ^ 3 / 3)) ∧ sigma P (slab r E a) 2 0 = 0 := by
  have h0 : slab r E a 0 = r := rfl
  obtain ⟨e0, e1, e2⟩ := slab_strain a
  have key : ∀ i, sigma P (slab r E a) i 0 = -(r * cs2 P r * AdevG !![1, a, 0; 0, 1, 0; 0, 0, 1] 0 i) := by
    intro i
    simp only [sigma, dEdAs, h0, slab_A, Matrix.smul_apply, Matrix.mul_apply, Matrix.transpose_apply, Fin.sum_univ_three, smul_eq_mul]
    simp
    ring
  refine ⟨by rw [key, e0], by rw [key, e1], by rw [key, e2]; simp⟩

theorem slab_pressure (hv : c.viscous = true) (P : Par) (r E a : ℝ) : pressure c P (slab r E (-a)) = pressure c P (slab r E a) := by
  have hV : 14 ≤ c.mV := (mV_other c hv (Bool.eq_false_or_eq_true _)).1
  have hm : slab r E (-a) c.mV = slab r E a c.mV := by
    unfold slab
    rw [if_neg (by omega), if_neg (by omega), if_neg (by omega), if_neg (by omega), if_neg (by omega), if_neg (by omega),
      if_neg (by omega), if_neg (by omega)]
  have hd : devGsq (getA (slab r E (-a))) = devGsq (getA (slab r E a)) := by
    rw [slab_A, slab_A]
    simp [devGsq, dot3]
  have hJ : getRJ (slab r E (-a)) = getRJ (slab r E a) := by
    ext i; fin_cases i <;> rfl
  have he : internalEnergy c P (slab r E (-a)) = internalEnergy c P (slab r E a) := by
    unfold internalEnergy
    rw [slab_vel, slab_vel, hm, hJ]
    simp only [E2A, hd]
    rfl
  unfold pressure solveMulti
  rw [he, hm]
  rfl

/-- The tractions on the face across the first axis. -/
theorem slab_traction (P : Par) (r E a : ℝ) :
    traction c P (slab r E a) [1] 0 = pressure c P (slab r E a) + r * cs2 P.toParams r * (2 * a ^ 2 / 3) ∧
    traction c P (slab r E a) [1] 1 = r * cs2 P.toParams r * (a + 2 * a ^ 3 / 3) ∧ traction c P (slab r E a) [1] 2 = 0 := by
  obtain ⟨e0, e1, e2⟩ := slab_sigma P.toParams r E a
  refine ⟨?_, ?_, ?_⟩ <;> simp [traction, pad, Matrix.mulVec, dotProduct, Fin.sum_univ_three, e0, e1, e2]

/-- **Sliding bodies keep opposite shear tractions.**  Two halves of any material, at rest and under opposite shears, meet at a surface
along which they may slide.  Neither side is changed, although the traction along the surface, which should vanish, is
`± ρ c_s² (a + 2 a³ / 3)` on the two sides. -/
theorem slip_shear_false (hv : c.viscous = true) (ht : c.thermal = false) (relax : Bool) (tol : ℝ) (htol : 0 < tol) (S : Solvers)
    (svd : M3 → M3 × V3 × M3) (junk : Fin 2 → Fin (n1 c) → ℝ) (P : Par) (hb : 0 < P.b02) (hd : 0 < P.ρ0) (dt : ℝ)
    (fuel : Nat) (hf : 1 ≤ fuel) (r E a : ℝ) (hr : 0 < r) (ha : 0 < a) :
    leftStar c false relax tol S svd junk P (some P) dt [1] fuel (slab r E a) (slab r E (-a)) = some (0, some (slab r E a)) ∧
    leftStar c false relax tol S svd junk P (some P) dt [-1] fuel (slab r E (-a)) (slab r E a) = some (0, some (slab r E (-a))) ∧
    traction c P (slab r E a) [1] 1 = r * cs2 P.toParams r * (a + 2 * a ^ 3 / 3) ∧
    traction c P (slab r E (-a)) [1] 1 = -(r * cs2 P.toParams r * (a + 2 * a ^ 3 / 3)) ∧
    0 < r * cs2 P.toParams r * (a + 2 * a ^ 3 / 3) := by
  obtain ⟨t0, t1, -⟩ := slab_traction P r E a
  obtain ⟨s0, s1, -⟩ := slab_traction P r E (-a)
  have hcs : 0 < cs2 P.toParams r := mul_pos hb (Real.rpow_pos_of_pos (div_pos hr hd) _)
  have hneg : ∀ Q : St, across [-1] (traction c P Q [-1]) = across [1] (traction c P Q [1]) := fun Q => by
    simp [across, traction, pad, Matrix.mulVec, dotProduct, Fin.sum_univ_three]
    ring
  have heq : across [1] (traction c P (slab r E a) [1]) = across [1] (traction c P (slab r E (-a)) [1]) := by
    have : ∀ x : V3, across [1] x = x 0 := fun x => by simp [across, pad, Fin.sum_univ_three]
    rw [this, this, t0, s0, slab_pressure hv]
    ring
  refine ⟨?_, ?_, t1, by rw [s1]; ring, by positivity⟩
  · exact slip_idle hv ht relax tol htol S svd junk P P hb hb hd hd dt [1] (by norm_num [Rot.Unit]) fuel hf _ _ hr.ne' hr.ne' heq
      (by rw [slab_vel, slab_vel])
  · exact slip_idle hv ht relax tol htol S svd junk P P hb hb hd hd dt [-1] (by norm_num [Rot.Unit]) fuel hf _ _ hr.ne' hr.ne'
      (by rw [hneg, hneg, heq]) (by rw [slab_vel, slab_vel])

/-- A material for which all of this holds. -/
example : 0 < (samplePar sample).b02 ∧ 0 < (samplePar sample).ρ0 ∧ traction (cfgOf false) (samplePar sample) (slab 1 5 3) [1] 1 = 21 := by
  refine ⟨by norm_num [samplePar, sample], by norm_num [samplePar, sample], ?_⟩
  rw [(slab_traction _ _ _ _).2.1]
  norm_num [cs2, samplePar, sample]

end

end Verif.Riemann
