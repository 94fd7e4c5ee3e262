import Verif.Run.Column
import Verif.Rot.Mirror

/-! # Densities stay positive

What a cell can lose through its faces with the interface function of Rusanov, for any order; in first order (`N = 1`) that
is less than what it holds. -/

namespace Verif.Run

open Verif.Sys Verif.Iter Verif.Dg Verif.Fv Verif.Step Verif.Grid Verif.Rot

noncomputable section

variable {c : Sys.Cfg} {n : Nat}

/-- The signal speed `max_abs_eigs` of a cell along axis `d`. -/
abbrev speed (c : Sys.Cfg) (P : Sys.Par) (q : Fin c.V → ℝ) (d : Nat) : ℝ := Eig.maxAbsEigs c P (ofVec c q) (dir d)

theorem speed_ge (P : Sys.Par) (Q : St) (d : Fin 3) : |Q (2 + d) / Q 0| ≤ Eig.maxAbsEigs c P Q d := by
  unfold Eig.maxAbsEigs
  have h := Real.sqrt_nonneg (if c.thermal = true then Eig.specMax (Eig.tensor4 c P Q d) else Eig.specMax (Eig.tensor3 c P Q d))
  generalize Real.sqrt _ = r at h
  simp only
  split_ifs with h1 <;> rw [abs_le] <;> constructor <;> linarith

theorem flux_mass (P : Sys.Par) (Q : St) (d : Fin 3) (r : St) : flux c P Q d r 0 = r 0 + Q (2 + d) := by
  have h5 := mV_pos c
  rw [flux_multi_other c P Q d r 0 (by omega)]
  congr 1
  have : ∀ d : Fin 3, (0 : Nat) ≠ 2 + d := fun d => by omega
  unfold flux
  fin_cases d <;> split_ifs <;> simp [fluxBase, fluxViscous, fluxThermal, addAt, addSeg, setAt, getRv] <;> (intro h; omega)

/-- The mass through a face. -/
theorem rusanov_mass (P : Sys.Par) (d : Nat) (ql qr : Fin c.V → ℝ) (v : Fin c.V) (hv : v.1 = 0) (m : Fin c.V)
    (hm : m.1 = 2 + (dir d).1) : rusanov c P d ql qr v =
      ql m + qr m + max (speed c P ql d) (speed c P qr d) * (ql v - qr v) := by
  unfold rusanov dRus
  rw [hv, flux_mass, flux_mass]
  have e : ∀ q : Fin c.V → ℝ, ofVec c q 0 = q v := fun q => by
    unfold ofVec; rw [dif_pos (by omega)]; congr 1; exact Fin.ext hv.symm
  have e' : ∀ q : Fin c.V → ℝ, ofVec c q (2 + (dir d).1) = q m := fun q => by
    unfold ofVec; rw [dif_pos (by omega)]; congr 1; exact Fin.ext hm.symm
  simp only [e, e']
  ring

/-- What crosses a face between densities that are not negative: at most what moves right with the signal speed, at least what
moves left with it. -/
theorem face_mass (P : Sys.Par) (d : Nat) (ql qr : Fin c.V → ℝ) (v : Fin c.V) (hv : v.1 = 0) (m : Fin c.V)
    (hm : m.1 = 2 + (dir d).1) (hl : 0 < ql v) (hr : 0 < qr v) :
    rusanov c P d ql qr v ≤ max (speed c P ql d) (speed c P qr d) * ql v + ql m ∧
    -(max (speed c P ql d) (speed c P qr d) * qr v - qr m) ≤ rusanov c P d ql qr v ∧
    0 ≤ max (speed c P ql d) (speed c P qr d) * ql v + ql m ∧ 0 ≤ max (speed c P ql d) (speed c P qr d) * qr v - qr m := by
  rw [rusanov_mass P d ql qr v hv m hm]
  have e : ∀ q : Fin c.V → ℝ, 0 < q v → |q m| ≤ speed c P q d * q v := fun q h => by
    have := speed_ge (c := c) P (ofVec c q) (dir d)
    rw [show ofVec c q 0 = q v by unfold ofVec; rw [dif_pos (by omega)]; congr 1; exact Fin.ext hv.symm,
      show ofVec c q (2 + (dir d).1) = q m by unfold ofVec; rw [dif_pos (by omega)]; congr 1; exact Fin.ext hm.symm,
      abs_div, abs_of_pos h, div_le_iff₀ h] at this
    exact this
  have a1 := (abs_le.1 (e ql hl))
  have a2 := (abs_le.1 (e qr hr))
  have b1 := mul_le_mul_of_nonneg_right (le_max_left (speed c P ql d) (speed c P qr d)) hl.le
  have b2 := mul_le_mul_of_nonneg_right (le_max_right (speed c P ql d) (speed c P qr d)) hr.le
  refine ⟨?_, ?_, ?_, ?_⟩ <;> nlinarith

section outflow

variable (S : Dg.Sys (Fin c.V)) (T : Tab n) (P : Sys.Par) (wt : Nat → ℝ)

/-- The most a cell can give away during the step through its right end, where `qi` is its own trace there and `qo` that of the
neighbour: what moves right with the signal speed of the face. -/
def goesRight (P : Sys.Par) (d : Nat) (v m : Fin c.V) (qi qo : Fin c.V → ℝ) : ℝ :=
  max (speed c P qi d) (speed c P qo d) * qi v + qi m

/-- Likewise through its left end. -/
def goesLeft (P : Sys.Par) (d : Nat) (v m : Fin c.V) (qo qi : Fin c.V → ℝ) : ℝ :=
  max (speed c P qo d) (speed c P qi d) * qi v - qi m

/-- **What a cell of a line can lose in one step**, for any order, mask and number of time nodes, if the traces have positive
density: half of what moves outwards with the signal speed. -/
theorem line_loss (hwt : ∀ t, 0 ≤ wt t) (dx : ℝ) (hdx : 0 < dx) (sources : Bool) (rec : Nat → Fin n → Fin c.V → ℝ) (nx nt : Nat)
    (mask : Nat → Bool) (u : Nat → Fin c.V → ℝ) (i : Nat) (hi : i < nx) (v : Fin c.V) (hv : v.1 = 0) (m : Fin c.V) (hm : m.1 = 2)
    (hB : ∀ d q x, S.bdot d q x v = 0) (hs : ∀ q, S.source q v = 0)
    (hpos : ∀ g, i ≤ g → g ≤ i + 2 → ∀ t < nt, ∀ e, 0 < trace T e (rec (g * nt + t)) v) :
    u i v - ∑ t ∈ Finset.range nt, wt t / (2 * dx) *
      (goesRight P 0 v m (trace T 1 (rec ((i + 1) * nt + t))) (trace T 0 (rec ((i + 2) * nt + t))) +
        goesLeft P 0 v m (trace T 1 (rec (i * nt + t))) (trace T 0 (rec ((i + 1) * nt + t)))) ≤
      apply (kern1 S T (rusanov c P) wt dx sources).app (fv1 (kern1 S T (rusanov c P) wt dx sources) rec nx nt mask) u i v := by
  rw [fv1_cell S T (rusanov c P) wt dx sources rec nx nt mask u i hi v hB]
  have h0 : cellSource1 S T wt rec nt (i + 1) v = 0 := by simp [cellSource1, hs]
  have k : ∀ t, 0 ≤ wt t / (2 * dx) := fun t => div_nonneg (hwt t) (by positivity)
  have hm' : m.1 = 2 + (dir 0).1 := hm
  have hR : (if mask (i + 1) && mask (i + 2) then faceFlux1 T (rusanov c P) wt dx rec nt (i + 1) v else 0) ≤
      ∑ t ∈ Finset.range nt, wt t / (2 * dx) *
        goesRight P 0 v m (trace T 1 (rec ((i + 1) * nt + t))) (trace T 0 (rec ((i + 2) * nt + t))) := by
    split_ifs
    · refine Finset.sum_le_sum fun t ht => mul_le_mul_of_nonneg_left ?_ (k t)
      have ht := Finset.mem_range.1 ht
      exact (face_mass P 0 _ _ v hv m hm' (hpos _ (by omega) (by omega) t ht 1) (hpos _ (by omega) (by omega) t ht 0)).1
    · refine Finset.sum_nonneg fun t ht => mul_nonneg (k t) ?_
      have ht := Finset.mem_range.1 ht
      exact (face_mass P 0 _ _ v hv m hm' (hpos _ (by omega) (by omega) t ht 1) (hpos _ (by omega) (by omega) t ht 0)).2.2.1
  have hL : -(∑ t ∈ Finset.range nt, wt t / (2 * dx) *
        goesLeft P 0 v m (trace T 1 (rec (i * nt + t))) (trace T 0 (rec ((i + 1) * nt + t)))) ≤
      (if mask i && mask (i + 1) then faceFlux1 T (rusanov c P) wt dx rec nt i v else 0) := by
    split_ifs
    · rw [← Finset.sum_neg_distrib]
      refine Finset.sum_le_sum fun t ht => ?_
      rw [← mul_neg]
      refine mul_le_mul_of_nonneg_left ?_ (k t)
      have ht := Finset.mem_range.1 ht
      exact (face_mass P 0 _ _ v hv m hm' (hpos _ (by omega) (by omega) t ht 1) (hpos _ (by omega) (by omega) t ht 0)).2.1
    · rw [neg_nonpos]
      refine Finset.sum_nonneg fun t ht => mul_nonneg (k t) ?_
      have ht := Finset.mem_range.1 ht
      exact (face_mass P 0 _ _ v hv m hm' (hpos _ (by omega) (by omega) t ht 1) (hpos _ (by omega) (by omega) t ht 0)).2.2.2
  simp only [h0, ite_self, add_zero, mul_add, Finset.sum_add_distrib]
  linarith

/-- **The same on a plane**, through four sides. -/
theorem plane_loss (hw : ∀ s, 0 < T.w s) (hwt : ∀ t, 0 ≤ wt t) (dx dy : ℝ) (hdx : 0 < dx) (hdy : 0 < dy) (sources : Bool)
    (rec : Nat → Nat → Fin c.V → ℝ) (nx ny nt : Nat) (mask : Nat → Bool) (u : Nat → Fin c.V → ℝ) (x y : Nat) (hx : x < nx)
    (hy : y < ny) (v : Fin c.V) (hv : v.1 = 0) (mx my : Fin c.V) (hmx : mx.1 = 2) (hmy : my.1 = 3)
    (hB : ∀ d q x, S.bdot d q x v = 0) (hs : ∀ q, S.source q v = 0)
    (hpos : ∀ p q, p ≤ 2 → q ≤ 2 → p = 1 ∨ q = 1 → ∀ t < nt, ∀ d e s,
      0 < trace2 T d e (rec (cell (x + p) (y + q) (ny + 2) * nt + t)) s v) :
    let R := fun p q t => rec (cell (x + p) (y + q) (ny + 2) * nt + t)
    u (cell x y ny) v - ∑ t ∈ Finset.range nt, ∑ s,
      (wt t / (2 * dx) * T.w s * (goesRight P 0 v mx (trace2 T 0 1 (R 1 1 t) s) (trace2 T 0 0 (R 2 1 t) s) +
        goesLeft P 0 v mx (trace2 T 0 1 (R 0 1 t) s) (trace2 T 0 0 (R 1 1 t) s)) +
      wt t / (2 * dy) * T.w s * (goesRight P 1 v my (trace2 T 1 1 (R 1 1 t) s) (trace2 T 1 0 (R 1 2 t) s) +
        goesLeft P 1 v my (trace2 T 1 1 (R 1 0 t) s) (trace2 T 1 0 (R 1 1 t) s))) ≤
      apply (kern2 S T (rusanov c P) wt dx dy sources).app (fv2 (kern2 S T (rusanov c P) wt dx dy sources) rec nx ny nt mask) u
        (cell x y ny) v := by
  intro R
  rw [fv2_cell S T (rusanov c P) wt dx dy sources rec nx ny nt mask u x y hx hy v hB]
  have h0 : cellSource2 S T wt rec nt (cell (x + 1) (y + 1) (ny + 2)) v = 0 := by simp [cellSource2, hs]
  have hR : ∀ d h (b : Bool) (m : Fin c.V) (p q p' q' : Nat), 0 < h → m.1 = 2 + (dir d).1 → p ≤ 2 → q ≤ 2 → (p = 1 ∨ q = 1) → p' ≤ 2 → q' ≤ 2 →
      (p' = 1 ∨ q' = 1) →
      (if b then faceFlux2 T (rusanov c P) wt h rec nt d (cell (x + p) (y + q) (ny + 2)) (cell (x + p') (y + q') (ny + 2)) v else 0) ≤
      ∑ t ∈ Finset.range nt, ∑ s, wt t / (2 * h) * T.w s *
        goesRight P d v m (trace2 T d 1 (R p q t) s) (trace2 T d 0 (R p' q' t) s) := by
    intro d h b m p q p' q' hh hm p1 q1 pq p1' q1' pq'
    have k : ∀ t s, 0 ≤ wt t / (2 * h) * T.w s := fun t s => mul_nonneg (div_nonneg (hwt t) (by positivity)) (hw s).le
    split_ifs
    · refine Finset.sum_le_sum fun t ht => Finset.sum_le_sum fun s _ => mul_le_mul_of_nonneg_left ?_ (k t s)
      have ht := Finset.mem_range.1 ht
      exact (face_mass P d _ _ v hv m hm (hpos p q p1 q1 pq t ht d 1 s) (hpos p' q' p1' q1' pq' t ht d 0 s)).1
    · refine Finset.sum_nonneg fun t ht => Finset.sum_nonneg fun s _ => mul_nonneg (k t s) ?_
      have ht := Finset.mem_range.1 ht
      exact (face_mass P d _ _ v hv m hm (hpos p q p1 q1 pq t ht d 1 s) (hpos p' q' p1' q1' pq' t ht d 0 s)).2.2.1
  have hL : ∀ d h (b : Bool) (m : Fin c.V) (p q p' q' : Nat), 0 < h → m.1 = 2 + (dir d).1 → p ≤ 2 → q ≤ 2 → (p = 1 ∨ q = 1) → p' ≤ 2 → q' ≤ 2 →
      (p' = 1 ∨ q' = 1) →
      -(∑ t ∈ Finset.range nt, ∑ s, wt t / (2 * h) * T.w s *
        goesLeft P d v m (trace2 T d 1 (R p q t) s) (trace2 T d 0 (R p' q' t) s)) ≤
      (if b then faceFlux2 T (rusanov c P) wt h rec nt d (cell (x + p) (y + q) (ny + 2)) (cell (x + p') (y + q') (ny + 2)) v else 0) := by
    intro d h b m p q p' q' hh hm p1 q1 pq p1' q1' pq'
    have k : ∀ t s, 0 ≤ wt t / (2 * h) * T.w s := fun t s => mul_nonneg (div_nonneg (hwt t) (by positivity)) (hw s).le
    split_ifs
    · rw [← Finset.sum_neg_distrib]
      refine Finset.sum_le_sum fun t ht => ?_
      rw [← Finset.sum_neg_distrib]
      refine Finset.sum_le_sum fun s _ => ?_
      rw [← mul_neg]
      refine mul_le_mul_of_nonneg_left ?_ (k t s)
      have ht := Finset.mem_range.1 ht
      exact (face_mass P d _ _ v hv m hm (hpos p q p1 q1 pq t ht d 1 s) (hpos p' q' p1' q1' pq' t ht d 0 s)).2.1
    · rw [neg_nonpos]
      refine Finset.sum_nonneg fun t ht => Finset.sum_nonneg fun s _ => mul_nonneg (k t s) ?_
      have ht := Finset.mem_range.1 ht
      exact (face_mass P d _ _ v hv m hm (hpos p q p1 q1 pq t ht d 1 s) (hpos p' q' p1' q1' pq' t ht d 0 s)).2.2.2
  have a1 := hR 0 dx (mask (cell (x + 1) (y + 1) (ny + 2)) && mask (cell (x + 2) (y + 1) (ny + 2))) mx 1 1 2 1 hdx hmx (by omega)
    (by omega) (by omega) (by omega) (by omega) (by omega)
  have a2 := hR 1 dy (mask (cell (x + 1) (y + 1) (ny + 2)) && mask (cell (x + 1) (y + 2) (ny + 2))) my 1 1 1 2 hdy hmy (by omega)
    (by omega) (by omega) (by omega) (by omega) (by omega)
  have a3 := hL 0 dx (mask (cell x (y + 1) (ny + 2)) && mask (cell (x + 1) (y + 1) (ny + 2))) mx 0 1 1 1 hdx hmx (by omega)
    (by omega) (by omega) (by omega) (by omega) (by omega)
  have a4 := hL 1 dy (mask (cell (x + 1) y (ny + 2)) && mask (cell (x + 1) (y + 1) (ny + 2))) my 1 0 1 1 hdy hmy (by omega)
    (by omega) (by omega) (by omega) (by omega) (by omega)
  simp only [add_zero] at a1 a2 a3 a4
  simp only [h0, ite_self, add_zero, mul_add, Finset.sum_add_distrib]
  linarith

end outflow

end

end Verif.Run
