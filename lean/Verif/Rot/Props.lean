import Verif.Rot.Model
import Verif.Sys.Stress
import Verif.Sys.Convert

/-!
# C43, C44: the interface rotation
-/

namespace Verif.Rot

open Verif.Sys

/-- A unit normal of one, two or three components. -/
def Unit (n : List ℝ) : Prop := n.length ≤ 3 ∧ (n.map fun x => x * x).sum = 1

theorem unit_pad {n : List ℝ} (h : Unit n) : pad n 0 * pad n 0 + pad n 1 * pad n 1 + pad n 2 * pad n 2 = 1 := by
  obtain ⟨hl, hs⟩ := h
  rw [← hs]
  match n, hl with
  | [], _ => simp [pad]
  | [a], _ => simp [pad]
  | [a, b], _ => simp [pad]
  | [a, b, c], _ => simp [pad]; ring

/-- The first branch is taken exactly when the last two entries do not have the same sign. -/
theorem branch_iff (e : V3) : |e 1 + e 2| ≤ |e 1 - e 2| ↔ e 1 * e 2 ≤ 0 := by
  rw [← sq_le_sq]
  constructor <;> intro h <;> nlinarith

theorem den_sq_pos (e : V3) (h : e 0 * e 0 + e 1 * e 1 + e 2 * e 2 = 1) :
    (e 1 * e 2 ≤ 0 → 0 < 2 * (1 - e 0 * e 1 - e 1 * e 2 - e 2 * e 0)) ∧
    (0 < e 1 * e 2 → 0 < 2 * (1 + e 0 * e 1 + e 1 * e 2 - e 2 * e 0)) := by
  have key1 : 2 * (1 - e 0 * e 1 - e 1 * e 2 - e 2 * e 0) =
      (e 1 - e 2) ^ 2 + (e 2 - e 0) ^ 2 + (e 0 - e 1) ^ 2 := by rw [← h]; ring
  have key2 : 2 * (1 + e 0 * e 1 + e 1 * e 2 - e 2 * e 0) =
      (e 1 + e 2) ^ 2 + (e 2 - e 0) ^ 2 + (e 0 + e 1) ^ 2 := by rw [← h]; ring
  constructor
  · intro h0
    rw [key1]
    rcases lt_or_eq_of_le (by positivity : 0 ≤ (e 1 - e 2) ^ 2 + (e 2 - e 0) ^ 2 + (e 0 - e 1) ^ 2) with h1 | h1
    · exact h1
    · exfalso
      have a : e 1 - e 2 = 0 := by
        apply pow_eq_zero_iff (two_ne_zero) |>.mp; nlinarith [sq_nonneg (e 1 - e 2), sq_nonneg (e 2 - e 0), sq_nonneg (e 0 - e 1)]
      have b : e 0 - e 1 = 0 := by
        apply pow_eq_zero_iff (two_ne_zero) |>.mp; nlinarith [sq_nonneg (e 1 - e 2), sq_nonneg (e 2 - e 0), sq_nonneg (e 0 - e 1)]
      have a' : e 2 = e 1 := by linarith
      have b' : e 0 = e 1 := by linarith
      rw [a', b'] at h
      rw [a'] at h0
      nlinarith
  · intro h0
    rw [key2]
    nlinarith [sq_nonneg (e 1 - e 2), sq_nonneg (e 2 - e 0), sq_nonneg (e 0 + e 1), sq_nonneg (e 1), sq_nonneg (e 2)]

theorem den_pos (e : V3) (h : e 0 * e 0 + e 1 * e 1 + e 2 * e 2 = 1) : 0 < den e := by
  have := den_sq_pos e h
  unfold den
  simp only [branch_iff]
  split_ifs with hb
  · exact Real.sqrt_pos.mpr (this.1 hb)
  · exact Real.sqrt_pos.mpr (this.2 (not_le.mp hb))

/-- What the two constructed directions satisfy. -/
theorem raw_facts (e : V3) (h : e 0 * e 0 + e 1 * e 1 + e 2 * e 2 = 1) :
    (∀ i, raw3 e i = ![e 1 * raw2 e 2 - e 2 * raw2 e 1, e 2 * raw2 e 0 - e 0 * raw2 e 2,
      e 0 * raw2 e 1 - e 1 * raw2 e 0] i) ∧
    e 0 * raw2 e 0 + e 1 * raw2 e 1 + e 2 * raw2 e 2 = 0 ∧
    raw2 e 0 * raw2 e 0 + raw2 e 1 * raw2 e 1 + raw2 e 2 * raw2 e 2 = den e * den e := by
  have hp := den_sq_pos e h
  unfold raw2 raw3 den
  simp only [branch_iff]
  split_ifs with hb
  · refine ⟨fun i => ?_, ?_, ?_⟩
    · fin_cases i <;> simp <;> ring
    · simp; ring
    · rw [Real.mul_self_sqrt (hp.1 hb).le]
      simp
      linear_combination 2 * h
  · refine ⟨fun i => ?_, ?_, ?_⟩
    · fin_cases i <;> simp <;> ring
    · simp; ring
    · rw [Real.mul_self_sqrt (hp.2 (not_le.mp hb)).le]
      simp
      linear_combination 2 * h

/-- The algebra of an orthonormal triple whose third vector is the cross product. -/
theorem triple (a b c x y z d : ℝ) (hd : d ≠ 0) (h1 : a * a + b * b + c * c = 1)
    (h2 : a * x + b * y + c * z = 0) (h3 : x * x + y * y + z * z = d * d) (R : M3)
    (hR : R = Matrix.of ![![a, b, c], ![x / d, y / d, z / d],
      ![(b * z - c * y) / d, (c * x - a * z) / d, (a * y - b * x) / d]]) :
    R * R.transpose = 1 ∧ R.det = 1 := by
  have hdd : d * d ≠ 0 := mul_ne_zero hd hd
  have n3 : (b * z - c * y) * (b * z - c * y) + (c * x - a * z) * (c * x - a * z) + (a * y - b * x) * (a * y - b * x)
      = d * d := by
    linear_combination (x * x + y * y + z * z) * h1 + h3 - (a * x + b * y + c * z) * h2
  constructor
  · subst hR
    ext i j
    fin_cases i <;> fin_cases j <;>
      simp [Matrix.mul_apply, Fin.sum_univ_three] <;> field_simp <;> ring_nf
    all_goals first
      | linear_combination h1
      | linear_combination h2
      | linear_combination h3
      | linear_combination n3
  · subst hR
    rw [Matrix.det_fin_three]
    simp
    field_simp
    linear_combination (x * x + y * y + z * z) * h1 + h3 - (a * x + b * y + c * z) * h2

/-- **C43**: for every unit vector the result is a rotation that takes the vector to the first axis, and the square
root that is divided by is positive. -/
theorem rotation_matrix_proper (n : List ℝ) (h : Unit n) :
    0 < den (pad n) ∧ rotationMatrix n * (rotationMatrix n).transpose = 1 ∧
      (rotationMatrix n).transpose * rotationMatrix n = 1 ∧ (rotationMatrix n).det = 1 ∧
      (rotationMatrix n).mulVec (pad n) = ![1, 0, 0] ∧ rotationMatrix n 0 = pad n := by
  have hu := unit_pad h
  set e := pad n with he
  have hp := den_pos e hu
  obtain ⟨h3, h2, h4⟩ := raw_facts e hu
  have hR : rotationMatrix n = Matrix.of ![![e 0, e 1, e 2],
      ![raw2 e 0 / den e, raw2 e 1 / den e, raw2 e 2 / den e],
      ![(e 1 * raw2 e 2 - e 2 * raw2 e 1) / den e, (e 2 * raw2 e 0 - e 0 * raw2 e 2) / den e,
        (e 0 * raw2 e 1 - e 1 * raw2 e 0) / den e]] := by
    ext i j
    fin_cases i <;> fin_cases j <;> simp [rotationMatrix, ← he, h3]
  have ht := triple (e 0) (e 1) (e 2) (raw2 e 0) (raw2 e 1) (raw2 e 2) (den e) hp.ne' hu h2 h4 _ hR
  refine ⟨hp, ht.1, mul_eq_one_comm.mp ht.1, ht.2, ?_, ?_⟩
  · rw [hR]
    funext i
    fin_cases i
    · simpa [Matrix.mulVec, dotProduct, Fin.sum_univ_three] using hu
    · simp [Matrix.mulVec, dotProduct, Fin.sum_univ_three]
      field_simp
      linear_combination h2
    · simp [Matrix.mulVec, dotProduct, Fin.sum_univ_three]
      field_simp
      ring
  · funext i
    fin_cases i <;> simp [rotationMatrix, ← he]

/-! ### `rotate_tensors` -/

theorem setSeg_get (k : Nat) (x : V3) (r : St) (i : Fin 3) : setSeg k x r (k + i) = x i := by
  fin_cases i <;> simp [setSeg, setAt]

theorem setSeg_other (k : Nat) (x : V3) (r : St) (j : Nat) (h : j < k ∨ k + 3 ≤ j) : setSeg k x r j = r j := by
  simp only [setSeg, setAt]
  rw [if_neg (by omega), if_neg (by omega), if_neg (by omega)]

theorem setA_getA (A : M3) (r : St) : getA (setA A r) = A := by
  ext i j
  fin_cases i <;> fin_cases j <;> simp [getA, setA, setSeg, setAt]

theorem setA_other (A : M3) (r : St) (j : Nat) (h : j < 5 ∨ 14 ≤ j) : setA A r j = r j := by
  unfold setA
  rw [setSeg_other _ _ _ _ (by omega), setSeg_other _ _ _ _ (by omega), setSeg_other _ _ _ _ (by omega)]

theorem getA_congr {Q Q' : St} (h : ∀ j, 5 ≤ j → j < 14 → Q j = Q' j) : getA Q = getA Q' := by
  ext i j
  exact h _ (by omega) (by omega)

/-- What `rotate_tensors` does to the state. -/
theorem rotate_rv (c : Cfg) (Q : St) (R : M3) : getRv (rotateTensors c Q R) = R.mulVec (getRv Q) := by
  funext i
  have h : ∀ r : St, setA (R * getA (setSeg 2 (R.mulVec (getRv Q)) Q) * R.transpose)
      (setSeg 2 (R.mulVec (getRv Q)) Q) (2 + i) = R.mulVec (getRv Q) i := fun _ => by
    rw [setA_other _ _ _ (by omega), setSeg_get]
  simp only [rotateTensors, getRv]
  split_ifs
  · rw [setSeg_other _ _ _ _ (by omega)]; exact h Q
  · exact h Q

theorem rotate_A (c : Cfg) (Q : St) (R : M3) : getA (rotateTensors c Q R) = R * getA Q * R.transpose := by
  have h : getA (setSeg 2 (R.mulVec (getRv Q)) Q) = getA Q :=
    getA_congr fun j h1 _ => setSeg_other _ _ _ _ (by omega)
  simp only [rotateTensors]
  split_ifs
  · rw [getA_congr (fun j _ h2 => setSeg_other _ _ _ _ (by omega)), setA_getA, h]
  · rw [setA_getA, h]

theorem rotate_J (c : Cfg) (Q : St) (R : M3) (ht : c.thermal = true) :
    getRJ (rotateTensors c Q R) = R.mulVec (getRJ Q) := by
  have h : ∀ i : Fin 3, getRJ (setA (R * getA (setSeg 2 (R.mulVec (getRv Q)) Q) * R.transpose)
      (setSeg 2 (R.mulVec (getRv Q)) Q)) i = getRJ Q i := fun i => by
    simp only [getRJ]
    rw [setA_other _ _ _ (by omega), setSeg_other _ _ _ _ (by omega)]
  funext i
  simp only [rotateTensors, ht, if_true, getRJ]
  rw [setSeg_get]
  congr 1
  funext i
  exact h i

theorem rotate_other (c : Cfg) (Q : St) (R : M3) (j : Nat) (h : j < 2 ∨ (14 ≤ j ∧ (c.thermal = true → 17 ≤ j))) :
    rotateTensors c Q R j = Q j := by
  simp only [rotateTensors]
  split_ifs with ht
  · have h17 : j < 2 ∨ 17 ≤ j := h.imp id fun h => h.2 ht
    rw [setSeg_other _ _ _ _ (by omega), setA_other _ _ _ (by omega), setSeg_other _ _ _ _ (by omega)]
  · rw [setA_other _ _ _ (by omega), setSeg_other _ _ _ _ (by omega)]

/-- A state is determined by its parts. -/
theorem state_ext (c : Cfg) (Q Q' : St) (h1 : ∀ j, j < 2 ∨ (14 ≤ j ∧ (c.thermal = true → 17 ≤ j)) → Q j = Q' j)
    (h2 : getRv Q = getRv Q') (h3 : getA Q = getA Q') (h4 : c.thermal = true → getRJ Q = getRJ Q') : Q = Q' := by
  funext j
  rcases Nat.lt_or_ge j 2 with h | h
  · exact h1 j (Or.inl h)
  rcases Nat.lt_or_ge j 5 with h' | h'
  · have := congrFun h2 ⟨j - 2, by omega⟩
    simpa [getRv, show 2 + (j - 2) = j by omega] using this
  rcases Nat.lt_or_ge j 14 with h'' | h''
  · have := congrFun (congrFun h3 ⟨(j - 5) / 3, by omega⟩) ⟨(j - 5) % 3, by omega⟩
    simpa [getA, show 5 + (3 * ((j - 5) / 3) + (j - 5) % 3) = j by omega] using this
  by_cases ht : c.thermal = true
  · rcases Nat.lt_or_ge j 17 with h5 | h5
    · have := congrFun (h4 ht) ⟨j - 14, by omega⟩
      simpa [getRJ, show 14 + (j - 14) = j by omega] using this
    · exact h1 j (Or.inr ⟨h'', fun _ => h5⟩)
  · exact h1 j (Or.inr ⟨h'', fun h => absurd h ht⟩)

/-- **C43**: rotating with one orthogonal matrix and then with its inverse gives the state back. -/
theorem rotate_back (c : Cfg) (Q : St) (R S : M3) (h : S * R = 1) :
    rotateTensors c (rotateTensors c Q R) S = Q := by
  refine state_ext c _ _ (fun j hj => ?_) ?_ ?_ (fun ht => ?_)
  · rw [rotate_other c _ _ _ hj, rotate_other c _ _ _ hj]
  · rw [rotate_rv, rotate_rv, Matrix.mulVec_mulVec, h, Matrix.one_mulVec]
  · rw [rotate_A, rotate_A]
    have : R.transpose * S.transpose = 1 := by rw [← Matrix.transpose_mul, h, Matrix.transpose_one]
    calc S * (R * getA Q * R.transpose) * S.transpose = (S * R) * getA Q * (R.transpose * S.transpose) := by
          simp only [Matrix.mul_assoc]
      _ = getA Q := by rw [h, this, Matrix.one_mul, Matrix.mul_one]
  · rw [rotate_J c _ _ ht, rotate_J c _ _ ht, Matrix.mulVec_mulVec, h, Matrix.one_mulVec]

/-- **C43**: in the form in which the interface solver uses it, riemann.cpp:182-206. -/
theorem rotation_round_trip (c : Cfg) (Q : St) (n : List ℝ) (h : Unit n) :
    rotateTensors c (rotateTensors c Q (rotationMatrix n)) (rotationMatrix n).transpose = Q :=
  rotate_back c Q _ _ (rotation_matrix_proper n h).2.2.1

/-! ### Invariance -/

theorem sq3_rotate (R : M3) (h : R.transpose * R = 1) (v : V3) : sq3 (R.mulVec v) = sq3 v := by
  have hh : ∀ v : V3, sq3 v = v ⬝ᵥ v := fun v => by simp [sq3, dotProduct, Fin.sum_univ_three]
  rw [hh, hh, Matrix.dotProduct_mulVec, Matrix.vecMul_mulVec, h, Matrix.vecMul_one]

theorem dev_eq (G : M3) : dev G = G - (G.trace / 3) • (1 : M3) := by
  ext i j
  simp only [dev, Matrix.of_apply, Matrix.sub_apply, Matrix.smul_apply, Matrix.one_apply, Matrix.trace,
    Fin.sum_univ_three, Matrix.diag_apply, smul_eq_mul]
  split_ifs <;> ring

theorem dev_rotate (R G : M3) (h : R.transpose * R = 1) :
    dev (R * G * R.transpose) = R * dev G * R.transpose := by
  have h' : R * R.transpose = 1 := mul_eq_one_comm.mp h
  have ht : (R * G * R.transpose).trace = G.trace := by
    rw [Matrix.trace_mul_comm, ← Matrix.mul_assoc, h, Matrix.one_mul]
  rw [dev_eq, dev_eq, ht, Matrix.mul_sub, Matrix.sub_mul, Matrix.mul_smul, Matrix.smul_mul, Matrix.mul_one, h']

theorem gram_rotate (R A : M3) (h : R.transpose * R = 1) :
    (R * A * R.transpose).transpose * (R * A * R.transpose) = R * (A.transpose * A) * R.transpose := by
  rw [Matrix.transpose_mul, Matrix.transpose_mul, Matrix.transpose_transpose]
  calc R * (A.transpose * R.transpose) * (R * A * R.transpose) = R * (A.transpose * ((R.transpose * R) * (A * R.transpose))) := by
        simp only [Matrix.mul_assoc]
    _ = _ := by rw [h, Matrix.one_mul]; simp only [Matrix.mul_assoc]

theorem devGsq_trace (A : M3) : devGsq A =
    ((dev (A.transpose * A)).transpose * dev (A.transpose * A)).trace := by
  rw [devGsq_eq]
  simp only [Matrix.trace, Matrix.diag_apply, Matrix.mul_apply, Matrix.transpose_apply]
  rw [Finset.sum_comm]

theorem devGsq_rotate (R A : M3) (h : R.transpose * R = 1) : devGsq (R * A * R.transpose) = devGsq A := by
  rw [devGsq_trace, devGsq_trace, gram_rotate R A h, dev_rotate R _ h, gram_rotate R _ h, Matrix.trace_mul_comm,
    ← Matrix.mul_assoc, h, Matrix.one_mul]

theorem AdevG_rotate (R A : M3) (h : R.transpose * R = 1) : AdevG (R * A * R.transpose) = R * AdevG A * R.transpose := by
  rw [AdevG_eq, AdevG_eq, gram_rotate R A h, dev_rotate R _ h]
  calc R * A * R.transpose * (R * dev (A.transpose * A) * R.transpose)
      = R * A * ((R.transpose * R) * (dev (A.transpose * A) * R.transpose)) := by simp only [Matrix.mul_assoc]
    _ = _ := by rw [h, Matrix.one_mul]; simp only [Matrix.mul_assoc]

theorem vel_rotate (c : Cfg) (Q : St) (R : M3) : vel (rotateTensors c Q R) = R.mulVec (vel Q) := by
  have h0 : rotateTensors c Q R 0 = Q 0 := rotate_other c Q R 0 (by omega)
  have e : ∀ Q : St, vel Q = (Q 0)⁻¹ • getRv Q := fun Q => by
    funext i; simp [vel, div_eq_inv_mul]
  rw [e, e, h0, rotate_rv, Matrix.mulVec_smul]

theorem mV_other (c : Cfg) (hv : c.viscous = true) (h : c.thermal = true ∨ c.thermal = false) :
    14 ≤ c.mV ∧ (c.thermal = true → 17 ≤ c.mV) := by
  rcases h with h | h <;> simp [Cfg.mV, hv, h]

theorem internalEnergy_rotate (c : Cfg) (P : Par) (Q : St) (R : M3) (hv : c.viscous = true)
    (h : R.transpose * R = 1) : internalEnergy c P (rotateTensors c Q R) = internalEnergy c P Q := by
  have h0 : rotateTensors c Q R 0 = Q 0 := rotate_other c Q R 0 (by omega)
  have h1 : rotateTensors c Q R 1 = Q 1 := rotate_other c Q R 1 (by omega)
  have hm : rotateTensors c Q R c.mV = Q c.mV :=
    rotate_other c Q R c.mV (Or.inr (mV_other c hv (Bool.eq_false_or_eq_true _)))
  unfold internalEnergy
  rw [h0, h1, hm, vel_rotate, rotate_A]
  simp only [E3, E2A, E2J, sq3_rotate R h, devGsq_rotate R _ h]
  by_cases ht : c.thermal = true
  · have e : (fun i => getRJ (rotateTensors c Q R) i / Q 0) = R.mulVec (fun i => getRJ Q i / Q 0) := by
      rw [rotate_J c Q R ht]
      have : (fun i => getRJ Q i / Q 0) = (Q 0)⁻¹ • getRJ Q := by funext i; simp [div_eq_inv_mul]
      rw [this, Matrix.mulVec_smul]
      funext i
      simp [div_eq_inv_mul]
    rw [e, sq3_rotate R h]
  · simp only [ht, if_false, Bool.false_eq_true]

/-- **C44**: rotating a state changes neither density nor total energy nor pressure nor temperature, and turns the
stress, column and traction of every direction as a tensor. -/
theorem rotation_invariant (c : Cfg) (P : Par) (Q : St) (R : M3) (hv : c.viscous = true) (h : R.transpose * R = 1) :
    rotateTensors c Q R 0 = Q 0 ∧ rotateTensors c Q R 1 = Q 1 ∧
      pressure c P (rotateTensors c Q R) = pressure c P Q ∧
      temperature c P (rotateTensors c Q R) = temperature c P Q ∧
      sigma P.toParams (rotateTensors c Q R) = R * sigma P.toParams Q * R.transpose ∧
      (∀ i, 14 ≤ i → (c.thermal = true → 17 ≤ i) → rotateTensors c Q R i = Q i) := by
  have h0 : rotateTensors c Q R 0 = Q 0 := rotate_other c Q R 0 (by omega)
  have hm : rotateTensors c Q R c.mV = Q c.mV :=
    rotate_other c Q R c.mV (Or.inr (mV_other c hv (Bool.eq_false_or_eq_true _)))
  have hp : pressure c P (rotateTensors c Q R) = pressure c P Q := by
    unfold pressure solveMulti
    rw [internalEnergy_rotate c P Q R hv h, h0, hm]
  refine ⟨h0, rotate_other c Q R 1 (by omega), hp, ?_, ?_, fun i h1 h2 => rotate_other c Q R i (Or.inr ⟨h1, h2⟩)⟩
  · unfold temperature
    rw [h0, hp]
  · unfold sigma dEdAs
    rw [h0, rotate_A, AdevG_rotate R _ h]
    rw [Matrix.transpose_smul, Matrix.transpose_smul, Matrix.smul_mul, Matrix.smul_mul, Matrix.mul_smul,
      Matrix.mul_smul, Matrix.smul_mul, Matrix.smul_mul]
    congr 2
    rw [Matrix.transpose_mul, Matrix.transpose_mul, Matrix.transpose_transpose]
    calc R * ((AdevG (getA Q)).transpose * R.transpose) * (R * getA Q * R.transpose)
        = R * ((AdevG (getA Q)).transpose * ((R.transpose * R) * (getA Q * R.transpose))) := by
          simp only [Matrix.mul_assoc]
      _ = _ := by rw [h, Matrix.one_mul]; simp only [Matrix.mul_assoc]

/-- The normal traction seen by the interface solver: after rotating by `rotation_matrix n`, the first column of the
stress is the traction on the surface with normal `n`, expressed in the rotated axes. -/
theorem rotated_traction (c : Cfg) (P : Par) (Q : St) (n : List ℝ) (hv : c.viscous = true) (h : Unit n) :
    sigmaCol P.toParams (rotateTensors c Q (rotationMatrix n)) 0 =
      (rotationMatrix n).mulVec ((sigma P.toParams Q).mulVec (pad n)) := by
  have hr := rotation_matrix_proper n h
  have hs := (rotation_invariant c P Q (rotationMatrix n) hv hr.2.2.1).2.2.2.2.1
  funext i
  rw [← sigma_apply, hs, Matrix.mul_assoc, Matrix.mulVec_mulVec]
  simp only [Matrix.mul_apply, Matrix.mulVec, dotProduct, Matrix.transpose_apply, hr.2.2.2.2.2]
  simp only [Finset.mul_sum, Finset.sum_mul]
  rw [Finset.sum_comm]
  refine Finset.sum_congr rfl fun x _ => Finset.sum_congr rfl fun y _ => by ring

/-- **C44 fails without distortion** (`VISCOUS = false`): the level sets are stored where the distortion would be and
are overwritten; the shipped layout then has them in entries 5 and 6. -/
theorem rotate_inviscid_false (c : Cfg) (hv : c.viscous = false) (ht : c.thermal = false) (hm : c.multi = false)
    (hl : 1 ≤ c.lset) : (c.V - c.lset ≤ 5 ∧ 5 < c.V) ∧ ∃ (Q : St) (n : List ℝ), Unit n ∧
      rotateTensors c Q (rotationMatrix n) 5 ≠ Q 5 := by
  refine ⟨by simp [Cfg.V, Cfg.mV, hv, ht, hm]; omega, fun i => if i = 9 then 1 else 0, [0, 1], ⟨by simp, by simp⟩, ?_⟩
  have hA := rotate_A c (fun i => if i = 9 then 1 else 0) (rotationMatrix [0, 1])
  have h00 := congrFun (congrFun hA 0) 0
  have hr := (rotation_matrix_proper [0, 1] ⟨by simp, by simp⟩).2.2.2.2.2
  have e : ∀ j, rotationMatrix [0, 1] 0 j = pad [0, 1] j := fun j => congrFun hr j
  simp only [Matrix.mul_apply, Fin.sum_univ_three, Matrix.transpose_apply, e] at h00
  have g : getA (rotateTensors c (fun i => if i = 9 then 1 else 0) (rotationMatrix [0, 1])) 0 0 =
    rotateTensors c (fun i => if i = 9 then 1 else 0) (rotationMatrix [0, 1]) 5 := rfl
  rw [← g, h00]
  norm_num [pad, getA]

/-- The hypotheses hold for an oblique plane normal and a sheared moving state. -/
example : Unit [3 / 5, 4 / 5] ∧ (cfgOf false).viscous = true ∧
    rotationMatrix [3 / 5, 4 / 5] 0 1 = 4 / 5 ∧ getA (fun i => (i : ℝ)) 0 1 ≠ 0 := by
  refine ⟨⟨by simp, by norm_num⟩, rfl, ?_, by norm_num [getA]⟩
  have := congrFun (rotation_matrix_proper [3 / 5, 4 / 5] ⟨by simp, by norm_num⟩).2.2.2.2.2 1
  rw [this]
  norm_num [pad]

end Verif.Rot
