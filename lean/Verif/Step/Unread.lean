import Verif.Step.Props

/-!
# Property C121: memory that was not written is not read

`ader_stepper` allocates the output of the predictor without initialising it (steppers.cpp:15), and the
predictor leaves out the cells outside the mask.  The finite-volume update reads only what lies in the mask,
so the result of a step does not depend on what the memory held, as long as the predictor delivers a result in
every cell of the mask.
-/

namespace Verif.Step

open Verif.Fv

variable {E D R : Type}

/-- The update of a line reads its input in cells of the mask only. -/
theorem fv1_reads (K : Kern E D R) (rec rec' : Nat → R) (nx nt : Nat) (mask : Nat → Bool)
    (hr : ∀ i < nx + 2, mask i = true → ∀ t < nt, rec (i * nt + t) = rec' (i * nt + t)) :
    fv1 K rec nx nt mask = fv1 K rec' nx nt mask := by
  unfold fv1
  congr 1
  · refine flatMap_congr' _ _ _ fun t ht => ?_
    have ht := List.mem_range.mp ht
    refine flatMap_congr' _ _ _ fun i hi => ?_
    have hi := List.mem_range.mp hi
    split
    · next h =>
      unfold ind2
      rw [hr (i + 1) (by omega) h t ht]
    · rfl
  · refine flatMap_congr' _ _ _ fun t ht => ?_
    have ht := List.mem_range.mp ht
    refine flatMap_congr' _ _ _ fun i hi => ?_
    have hi := List.mem_range.mp hi
    dsimp only
    split
    · next h =>
      rw [Bool.and_eq_true] at h
      unfold ind2
      rw [hr i (by omega) h.1 t ht, hr (i + 1) (by omega) h.2 t ht]
    · rfl

/-- The update of a plane reads its input in cells of the mask only. -/
theorem fv2_reads (K : Kern E D R) (rec rec' : Nat → R) (nx ny nt : Nat) (mask : Nat → Bool)
    (hr : ∀ i < nx + 2, ∀ j < ny + 2, mask (i * (ny + 2) + j) = true → ∀ t < nt,
      rec ((i * (ny + 2) + j) * nt + t) = rec' ((i * (ny + 2) + j) * nt + t)) :
    fv2 K rec nx ny nt mask = fv2 K rec' nx ny nt mask := by
  unfold fv2
  congr 1
  · refine flatMap_congr' _ _ _ fun t ht => ?_
    have ht := List.mem_range.mp ht
    refine flatMap_congr' _ _ _ fun i hi => ?_
    have hi := List.mem_range.mp hi
    refine flatMap_congr' _ _ _ fun j hj => ?_
    have hj := List.mem_range.mp hj
    split
    · next h =>
      unfold ind3
      rw [hr (i + 1) (by omega) (j + 1) (by omega) h t ht]
    · rfl
  · refine flatMap_congr' _ _ _ fun t ht => ?_
    have ht := List.mem_range.mp ht
    refine flatMap_congr' _ _ _ fun i hi => ?_
    have hi := List.mem_range.mp hi
    refine flatMap_congr' _ _ _ fun j hj => ?_
    have hj := List.mem_range.mp hj
    split
    · next h =>
      unfold cell at h
      congr 1
      · unfold faceX
        split
        · next h' =>
          rw [Bool.and_eq_true] at h'
          have h1 := h'.1
          unfold cell at h1
          unfold ind3
          rw [hr i (by omega) j (by omega) h t ht, hr (i + 1) (by omega) j (by omega) h1 t ht]
        · rfl
      · unfold faceY
        split
        · next h' =>
          rw [Bool.and_eq_true] at h'
          have h1 := h'.1
          unfold cell at h1
          unfold ind3
          rw [hr i (by omega) j (by omega) h t ht, hr i (by omega) (j + 1) (by omega) h1 t ht]
        · rfl
    · rfl

/-- A step on a line does not depend on what the memory of the predictor held before, if the predictor delivers
a result in every cell of the mask. -/
theorem ader1_unread {n : Nat} (coef : Coef n E) (pred : (Fin n → E) → Option (Nat → R)) (K : Kern E D R)
    (ub : Nat → E) (nx : Nat) (mask : Nat → Bool) (gar gar' : Nat → Nat → R)
    (hp : ∀ i < nx + 2, mask i = true →
      pred (weno1G coef ub ((nx + 2 : Nat) : Int) 0 i) ≠ none) :
    ader1 coef pred K ub nx mask gar = ader1 coef pred K ub nx mask gar' := by
  unfold ader1
  refine fv1_reads K _ _ nx n mask fun i hi hm t ht => ?_
  have e1 : (i * n + t) / n = i := by
    rw [Nat.mul_comm, Nat.mul_add_div (by omega), Nat.div_eq_of_lt ht, Nat.add_zero]
  have h := hp i hi hm
  dsimp only
  rw [e1]
  unfold orGarbage
  rw [if_pos hm, if_pos hm]
  cases hq : pred (weno1G coef ub ((nx + 2 : Nat) : Int) 0 i) with
  | none => exact absurd hq h
  | some q => rfl

/-- The same on a plane. -/
theorem ader2_unread {n : Nat} (coef : Coef n E) (nc : Bool) (pred : (Fin n → Fin n → E) → Option (Nat → R))
    (K : Kern E D R) (ub : Nat → E) (nx ny : Nat) (mask : Nat → Bool) (gar gar' : Nat → Nat → R)
    (hp : ∀ i < nx + 2, ∀ j < ny + 2, mask (i * (ny + 2) + j) = true →
      pred (weno2G coef nc ub (nx + 2) (ny + 2) i j) ≠ none) :
    ader2 coef nc pred K ub nx ny mask gar = ader2 coef nc pred K ub nx ny mask gar' := by
  unfold ader2
  refine fv2_reads K _ _ nx ny n mask fun i hi j hj hm t ht => ?_
  have e1 : ((i * (ny + 2) + j) * n + t) / n = i * (ny + 2) + j := by
    rw [Nat.mul_comm, Nat.mul_add_div (by omega), Nat.div_eq_of_lt ht, Nat.add_zero]
  have e2 : (i * (ny + 2) + j) / (ny + 2) = i := by
    rw [Nat.mul_comm, Nat.mul_add_div (by omega), Nat.div_eq_of_lt hj, Nat.add_zero]
  have e3 : (i * (ny + 2) + j) % (ny + 2) = j := by
    rw [Nat.mul_comm, Nat.mul_add_mod, Nat.mod_eq_of_lt hj]
  have h := hp i hi j hj hm
  dsimp only
  rw [e1]
  unfold orGarbage
  rw [if_pos hm, if_pos hm, e2, e3]
  cases hq : pred (weno2G coef nc ub (nx + 2) (ny + 2) i j) with
  | none => exact absurd hq h
  | some q => rfl

/-- Without that condition it does: where the predictor delivers nothing in the only cell of the mask, the update
of that cell is computed from what the memory held, whatever the data are. -/
theorem ader1_unwritten (coef : Coef 1 E) (K : Kern E D R) (ub : Nat → E) (pred : (Fin 1 → E) → Option (Nat → R))
    (hp : pred (weno1G coef ub ((1 + 2 : Nat) : Int) 0 1) = none) (gar : Nat → Nat → R) :
    ader1 coef pred K ub 1 (fun i => i == 1) gar = (K.cen 0 (gar 1 0)).map fun d => (0, d) := by
  have e : (List.range 2) = [0, 1] := rfl
  have hp : pred (weno1G coef ub 3 0 1) = none := hp
  simp [ader1, fv1, centers1Inner, interfs1Inner, ind2, orGarbage, hp, e]

/-- A step of three cells, the third of them outside the mask, with a predictor that delivers its input: any two
contents of the memory give the same result. -/
example (coef : Coef 1 ℝ) (ub : Nat → ℝ) (gar gar' : Nat → Nat → ℝ) :
    ader1 coef (fun w => some fun _ => w 0) ⟨(· + ·), fun _ r => [r], fun _ _ l r => (l - r, r - l)⟩ ub 3
        (fun i => decide (i < 3)) gar =
      ader1 coef (fun w => some fun _ => w 0) ⟨(· + ·), fun _ r => [r], fun _ _ l r => (l - r, r - l)⟩ ub 3
        (fun i => decide (i < 3)) gar' :=
  ader1_unread coef _ _ ub 3 _ gar gar' fun _ _ _ h => by simp at h

/-- Two contents of the memory that give different results. -/
example (coef : Coef 1 ℝ) (ub : Nat → ℝ) : ∃ gar gar' : Nat → Nat → ℝ,
    ader1 coef (fun _ => none) ⟨(· + ·), fun _ r => [r], fun _ _ l r => (l - r, r - l)⟩ ub 1 (fun i => i == 1) gar ≠
      ader1 coef (fun _ => none) ⟨(· + ·), fun _ r => [r], fun _ _ l r => (l - r, r - l)⟩ ub 1 (fun i => i == 1) gar' := by
  refine ⟨fun _ _ => 0, fun _ _ => 1, fun h => ?_⟩
  rw [ader1_unwritten _ _ _ _ rfl, ader1_unwritten _ _ _ _ rfl] at h
  simp at h

end Verif.Step
