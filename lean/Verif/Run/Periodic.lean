import Verif.Run.Finish
import Verif.Step.Real
import Verif.Relax.Launch
import Verif.Fv.Props

/-! # Totals over periodic grids: one step -/

namespace Verif.Run

open Verif.Dg Verif.Fv Verif.Step

noncomputable section

variable {n : Nat} {ι : Type} (S : Dg.Sys ι) (T : Tab n) (fl : Nat → (ι → ℝ) → (ι → ℝ) → (ι → ℝ)) (wt : Nat → ℝ)
  (dx : ℝ)

/-- The finite volume step on a periodic line with all cells active: only sources change the total. -/
theorem fv1_periodic (sources : Bool) (rec : Nat → Fin n → ι → ℝ) (nx nt : Nat) (mask : Nat → Bool)
    (u : Nat → ι → ℝ) (v : ι) (hB : ∀ d q x, S.bdot d q x v = 0) (hm : ∀ i < nx + 2, mask i = true)
    (hp : ∀ t < nt, rec (0 * nt + t) = rec (nx * nt + t) ∧ rec (1 * nt + t) = rec ((nx + 1) * nt + t)) (s0 : ℝ)
    (hs : sources = true → ∀ q, S.source q v = s0) (hw : ∑ s, T.w s = 1) :
    ∑ c ∈ Finset.range nx,
      apply (kern1 S T fl wt dx sources).app (fv1 (kern1 S T fl wt dx sources) rec nx nt mask) u c v =
    ∑ c ∈ Finset.range nx, u c v + if sources then nx * ((∑ t ∈ Finset.range nt, wt t) * s0) else 0 := by
  rw [fv1_conservative S T fl wt dx sources rec nx nt mask u v hB]
  have : faceFlux1 T fl wt dx rec nt 0 v = faceFlux1 T fl wt dx rec nt nx v := by
    unfold faceFlux1
    refine Finset.sum_congr rfl fun t ht => ?_
    have := hp t (Finset.mem_range.mp ht)
    rw [this.1, show 0 + 1 = 1 from rfl, this.2]
  rw [hm 0 (by omega), hm 1 (by omega), hm nx (by omega), hm (nx + 1) (by omega), this, sub_self, add_zero]
  congr 1
  cases sources
  · simp
  · have e : ∀ c ∈ Finset.range nx, (if mask (c + 1) && true then cellSource1 S T wt rec nt (c + 1) v else 0) =
        (∑ t ∈ Finset.range nt, wt t) * s0 := by
      intro c hc
      rw [hm (c + 1) (by have := Finset.mem_range.1 hc; omega)]
      simp only [Bool.and_self, if_true]
      unfold cellSource1
      simp only [hs rfl]
      rw [Finset.sum_mul]
      refine Finset.sum_congr rfl fun t _ => ?_
      rw [← Finset.sum_mul, ← Finset.mul_sum, hw, mul_one]
    rw [Finset.sum_congr rfl e, Finset.sum_const, Finset.card_range, nsmul_eq_mul]
    simp

/-- `ader_stepper` on a periodic line: the total of a component changes by the constant source only. -/
theorem ader1_periodic (coef : Coef n (ι → ℝ)) (pred : (Fin n → ι → ℝ) → Option (Nat → Fin n → ι → ℝ))
    (ub : Nat → ι → ℝ) (nx : Nat) (mask : Nat → Bool) (gar : Nat → Nat → Fin n → ι → ℝ) (u : Nat → ι → ℝ) (v : ι)
    (hB : ∀ d q x, S.bdot d q x v = 0) (hm : ∀ i < nx + 2, mask i = true)
    (hub : ∀ k < 2 * n, ub (nx + k) = ub k)
    (hpred : ∀ i < 2, (pred (weno1G coef ub ((nx + 2 : Nat) : Int) 0 i)).isSome) (s0 dt : ℝ)
    (hs : ∀ q, S.source q v = s0) (hw : ∑ s, T.w s = 1) (hwt : ∑ t ∈ Finset.range n, wt t = dt) (hn : 0 < n) :
    ∑ c ∈ Finset.range nx, apply (kern1 S T fl wt dx true).app
      (ader1 coef pred (kern1 S T fl wt dx true) ub nx mask gar) u c v =
    ∑ c ∈ Finset.range nx, u c v + nx * (dt * s0) := by
  have hrec : ∀ i < 2, weno1G coef ub ((nx + 2 : Nat) : Int) 0 (nx + i) = weno1G coef ub ((nx + 2 : Nat) : Int) 0 i := by
    intro i hi
    rw [weno1G_gap_zero coef ub (nx + 2) (nx + i) (by omega), weno1G_gap_zero coef ub (nx + 2) i (by omega)]
    congr 1
    funext r
    rw [Nat.add_assoc]
    exact hub _ (by have := r.2; omega)
  unfold ader1
  rw [fv1_periodic S T fl wt dx true _ nx n mask u v hB hm ?_ s0 (fun _ => hs) hw, if_pos rfl, hwt]
  intro t ht
  have e : ∀ a, (a * n + t) / n = a ∧ (a * n + t) % n = t := fun a => by
    constructor
    · rw [Nat.mul_comm, Nat.mul_add_div hn, Nat.div_eq_of_lt ht, Nat.add_zero]
    · rw [Nat.mul_comm, Nat.mul_add_mod, Nat.mod_eq_of_lt ht]
  have g : ∀ i < 2, orGarbage (mask i) (pred (weno1G coef ub ((nx + 2 : Nat) : Int) 0 i)) (gar i) t =
      orGarbage (mask (nx + i)) (pred (weno1G coef ub ((nx + 2 : Nat) : Int) 0 (nx + i))) (gar (nx + i)) t := by
    intro i hi
    rw [hrec i hi, hm i (by omega), hm (nx + i) (by omega)]
    obtain ⟨r, hr⟩ := Option.isSome_iff_exists.1 (hpred i hi)
    rw [hr]
    rfl
  have g0 := g 0 (by omega)
  have g1 := g 1 (by omega)
  simp only [Nat.add_zero] at g0
  exact ⟨by simpa only [(e _).1, (e _).2] using g0, by simpa only [(e _).1, (e _).2] using g1⟩

/-- A cell after the writes of the split stepper. -/
theorem split_get {E D : Type} (ode : E → E) (app : E → D → E) (cells : Nat) (l : List (Nat × D)) (u : Nat → E) (c : Nat)
    (hc : c < cells) :
    apply (withOde ode app) (odeOps cells ++ someOps l ++ odeOps cells) u c =
      ode (apply app l (fun c => ode (u c)) c) := by
  rw [apply_get, apply_get]
  rw [at'_append, at'_append, at'_odeOps, at'_someOps, if_pos hc, List.foldl_append, List.foldl_append]
  simp only [List.foldl_cons, List.foldl_nil, withOde, List.foldl_map]

/-- The field of `split_stepper` before the second half step of the source terms, steppers.cpp:54-63. -/
def before1 (coef : Coef n (ι → ℝ)) (ode : (ι → ℝ) → (ι → ℝ)) (half : Bool)
    (mid : (Fin n → ι → ℝ) → (Fin n → ι → ℝ)) (K : Kern (ι → ℝ) (ι → ℝ) (Fin n → ι → ℝ)) (ub : Nat → ι → ℝ) (nx : Nat)
    (mask : Nat → Bool) (u : Nat → ι → ℝ) : Nat → ι → ℝ :=
  let wh := fun i => weno1G coef (fun r => ode (ub r)) ((nx + 2 : Nat) : Int) 0 i
  apply K.app (fv1 K (fun i => if half && mask i then mid (wh i) else wh i) nx 1 mask) fun c => ode (u c)

/-- `split_stepper` on a periodic line, if the ordinary differential equations add a constant to the component. -/
theorem split1_periodic (coef : Coef n (ι → ℝ)) (ode : (ι → ℝ) → (ι → ℝ)) (half : Bool)
    (mid : (Fin n → ι → ℝ) → (Fin n → ι → ℝ)) (ub : Nat → ι → ℝ) (nx : Nat) (mask : Nat → Bool) (u : Nat → ι → ℝ)
    (v : ι) (hB : ∀ d q x, S.bdot d q x v = 0) (hm : ∀ i < nx + 2, mask i = true)
    (hub : ∀ k < 2 * n, ub (nx + k) = ub k) (a : ℝ) (ho : ∀ c < nx, ode (u c) v = u c v + a)
    (ho' : ∀ c < nx, let w := before1 coef ode half mid (kern1 S T fl wt dx false) ub nx mask u
      ode (w c) v = w c v + a) (hw : ∑ s, T.w s = 1)
    (hn : 0 < n) :
    ∑ c ∈ Finset.range nx, apply (withOde ode (kern1 S T fl wt dx false).app)
      (split1 coef ode half mid (fun q => q) (kern1 S T fl wt dx false) ub nx mask) u c v =
    ∑ c ∈ Finset.range nx, u c v + nx * (2 * a) := by
  unfold split1
  rw [Finset.sum_congr rfl fun c hc =>
    (congrFun (split_get ode (kern1 S T fl wt dx false).app nx _ u c (Finset.mem_range.1 hc)) v).trans
      (ho' c (Finset.mem_range.1 hc))]
  unfold before1
  rw [Finset.sum_add_distrib, fv1_periodic S T fl wt dx false _ nx 1 mask _ v hB hm ?_ 0 (fun h => by cases h) hw]
  · simp only [Bool.false_eq_true, if_false, add_zero]
    rw [Finset.sum_congr rfl fun c hc => ho c (Finset.mem_range.1 hc), Finset.sum_add_distrib, Finset.sum_const, Finset.card_range,
      nsmul_eq_mul]
    ring
  · intro t ht
    obtain rfl : t = 0 := by omega
    have g : ∀ i < 2, weno1G coef (fun r => ode (ub r)) ((nx + 2 : Nat) : Int) 0 (nx + i) =
        weno1G coef (fun r => ode (ub r)) ((nx + 2 : Nat) : Int) 0 i := by
      intro i hi
      rw [weno1G_gap_zero coef _ (nx + 2) (nx + i) (by omega), weno1G_gap_zero coef _ (nx + 2) i (by omega)]
      congr 1
      funext r
      rw [Nat.add_assoc, hub _ (by have := r.2; omega)]
    have g' : ∀ i < 2, (if half && mask i then mid (weno1G coef (fun r => ode (ub r)) ((nx + 2 : Nat) : Int) 0 i)
        else weno1G coef (fun r => ode (ub r)) ((nx + 2 : Nat) : Int) 0 i) =
        if half && mask (nx + i) then mid (weno1G coef (fun r => ode (ub r)) ((nx + 2 : Nat) : Int) 0 (nx + i))
        else weno1G coef (fun r => ode (ub r)) ((nx + 2 : Nat) : Int) 0 (nx + i) := by
      intro i hi
      rw [g i hi, hm i (by omega), hm (nx + i) (by omega)]
    exact ⟨by simpa using g' 0 (by omega), by simpa using g' 1 (by omega)⟩

/-! ### Two dimensions -/

section two

variable (dy : ℝ)

/-- A padded cell that is not a corner. -/
def Side (nx ny i j : Nat) : Prop := i < nx + 2 ∧ j < ny + 2 ∧ (0 < i ∧ i < nx + 1 ∨ 0 < j ∧ j < ny + 1)

/-- The finite volume step on a periodic grid with all cells active: only sources change the total. -/
theorem fv2_periodic (sources : Bool) (rec : Nat → Nat → ι → ℝ) (nx ny nt : Nat) (mask : Nat → Bool)
    (u : Nat → ι → ℝ) (v : ι) (hB : ∀ d q x, S.bdot d q x v = 0) (hm : ∀ i j, Side nx ny i j → mask (cell i j (ny + 2)) = true)
    (hx : ∀ i < 2, ∀ j < ny + 1, 0 < j → ∀ t < nt,
      rec (cell i j (ny + 2) * nt + t) = rec (cell (nx + i) j (ny + 2) * nt + t))
    (hy : ∀ i < nx + 1, 0 < i → ∀ j < 2, ∀ t < nt,
      rec (cell i j (ny + 2) * nt + t) = rec (cell i (ny + j) (ny + 2) * nt + t)) (s0 : ℝ)
    (hs : sources = true → ∀ q, S.source q v = s0) (hw : ∑ s, T.w s = 1) :
    ∑ x ∈ Finset.range nx, ∑ y ∈ Finset.range ny,
      apply (kern2 S T fl wt dx dy sources).app (fv2 (kern2 S T fl wt dx dy sources) rec nx ny nt mask) u
        (cell x y ny) v =
    ∑ x ∈ Finset.range nx, ∑ y ∈ Finset.range ny, u (cell x y ny) v +
      if sources then nx * (ny * ((∑ t ∈ Finset.range nt, wt t) * s0)) else 0 := by
  rw [fv2_conservative S T fl wt dx dy sources rec nx ny nt mask u v hB]
  have ex : ∀ y ∈ Finset.range ny,
      ((if mask (cell 0 (y + 1) (ny + 2)) && mask (cell 1 (y + 1) (ny + 2)) then
          faceFlux2 T fl wt dx rec nt 0 (cell 0 (y + 1) (ny + 2)) (cell 1 (y + 1) (ny + 2)) v else 0) -
        (if mask (cell nx (y + 1) (ny + 2)) && mask (cell (nx + 1) (y + 1) (ny + 2)) then
          faceFlux2 T fl wt dx rec nt 0 (cell nx (y + 1) (ny + 2)) (cell (nx + 1) (y + 1) (ny + 2)) v else 0)) = 0 := by
    intro y hy'
    have hy' := Finset.mem_range.1 hy'
    rw [hm 0 _ ⟨by omega, by omega, by omega⟩, hm 1 _ ⟨by omega, by omega, by omega⟩,
      hm nx _ ⟨by omega, by omega, by omega⟩, hm (nx + 1) _ ⟨by omega, by omega, by omega⟩, sub_eq_zero]
    simp only [Bool.and_self, if_true]
    unfold faceFlux2
    refine Finset.sum_congr rfl fun t ht => Finset.sum_congr rfl fun s _ => ?_
    have h0 := hx 0 (by omega) (y + 1) (by omega) (by omega) t (Finset.mem_range.1 ht)
    have h1 := hx 1 (by omega) (y + 1) (by omega) (by omega) t (Finset.mem_range.1 ht)
    simp only [Nat.add_zero] at h0
    rw [h0, h1]
  have ey : ∀ x ∈ Finset.range nx,
      ((if mask (cell (x + 1) 0 (ny + 2)) && mask (cell (x + 1) 1 (ny + 2)) then
          faceFlux2 T fl wt dy rec nt 1 (cell (x + 1) 0 (ny + 2)) (cell (x + 1) 1 (ny + 2)) v else 0) -
        (if mask (cell (x + 1) ny (ny + 2)) && mask (cell (x + 1) (ny + 1) (ny + 2)) then
          faceFlux2 T fl wt dy rec nt 1 (cell (x + 1) ny (ny + 2)) (cell (x + 1) (ny + 1) (ny + 2)) v
          else 0)) = 0 := by
    intro x hx'
    have hx' := Finset.mem_range.1 hx'
    rw [hm _ 0 ⟨by omega, by omega, by omega⟩, hm _ 1 ⟨by omega, by omega, by omega⟩,
      hm _ ny ⟨by omega, by omega, by omega⟩, hm _ (ny + 1) ⟨by omega, by omega, by omega⟩, sub_eq_zero]
    simp only [Bool.and_self, if_true]
    unfold faceFlux2
    refine Finset.sum_congr rfl fun t ht => Finset.sum_congr rfl fun s _ => ?_
    have h0 := hy (x + 1) (by omega) (by omega) 0 (by omega) t (Finset.mem_range.1 ht)
    have h1 := hy (x + 1) (by omega) (by omega) 1 (by omega) t (Finset.mem_range.1 ht)
    simp only [Nat.add_zero] at h0
    rw [h0, h1]
  rw [Finset.sum_eq_zero ex, Finset.sum_eq_zero ey, add_zero, add_zero]
  congr 1
  cases sources
  · simp
  · have e : ∀ x ∈ Finset.range nx, ∀ y ∈ Finset.range ny, (if mask (cell (x + 1) (y + 1) (ny + 2)) && true then
        cellSource2 S T wt rec nt (cell (x + 1) (y + 1) (ny + 2)) v else 0) = (∑ t ∈ Finset.range nt, wt t) * s0 := by
      intro x hx' y hy'
      have hx' := Finset.mem_range.1 hx'
      have hy' := Finset.mem_range.1 hy'
      rw [hm _ _ ⟨by omega, by omega, by omega⟩]
      simp only [Bool.and_self, if_true]
      unfold cellSource2
      simp only [hs rfl]
      rw [Finset.sum_mul]
      refine Finset.sum_congr rfl fun t _ => ?_
      simp only [← Finset.sum_mul, ← Finset.mul_sum, hw, mul_one]
    rw [Finset.sum_congr rfl fun x hx' => Finset.sum_congr rfl fun y hy' => e x hx' y hy']
    simp [Finset.sum_const, nsmul_eq_mul]

/-- Without `NO_CORNERS` the reconstruction of a periodic grid is periodic. -/
theorem weno2G_periodic {E : Type} (coef : Coef n E) (ub : Nat → E) (nx ny : Nat) (hn : 0 < n)
    (hx : ∀ k < 2 * n, ∀ l < ny + 2 * n, ub ((nx + k) * (ny + 2 * n) + l) = ub (k * (ny + 2 * n) + l))
    (hy : ∀ k < nx + 2 * n, ∀ l < 2 * n, ub (k * (ny + 2 * n) + (ny + l)) = ub (k * (ny + 2 * n) + l)) :
    (∀ i < 2, ∀ j < ny + 2,
      weno2G coef false ub (nx + 2) (ny + 2) (nx + i) j = weno2G coef false ub (nx + 2) (ny + 2) i j) ∧
    ∀ i < nx + 2, ∀ j < 2,
      weno2G coef false ub (nx + 2) (ny + 2) i (ny + j) = weno2G coef false ub (nx + 2) (ny + 2) i j := by
  have hW : ny + 2 + 2 * (n - 1) = ny + 2 * n := by omega
  have gap : ∀ f : Nat → E, ∀ m i : Nat, i < m → weno1G coef f (m : Int) 0 i =
      coef true true (decide (n > 2)) (decide (n > 2) && decide (n % 2 = 0)) fun r => f (i + r) :=
    fun f m i hi => weno1G_gap_zero coef f m i hi
  constructor
  · intro i hi j hj
    funext ii jj
    simp only [weno2G, Bool.false_and, Bool.false_eq_true, if_false, hW]
    rw [gap _ (ny + 2) j hj, gap _ (ny + 2) j hj]
    congr 1
    funext r
    rw [gap _ (nx + 2) (nx + i) (by omega), gap _ (nx + 2) i (by omega)]
    congr 1
    funext r'
    have := r.2
    have := r'.2
    rw [Nat.add_assoc]
    exact hx _ (by omega) _ (by omega)
  · intro i hi j hj
    funext ii jj
    simp only [weno2G, Bool.false_and, Bool.false_eq_true, if_false, hW]
    rw [gap _ (ny + 2) (ny + j) (by omega), gap _ (ny + 2) j (by omega)]
    congr 1
    funext r
    rw [gap _ (nx + 2) i (by omega), gap _ (nx + 2) i (by omega)]
    congr 1
    funext r'
    have := r.2
    have := r'.2
    rw [Nat.add_assoc]
    exact hy _ (by omega) _ (by omega)

theorem cell_div (ny i j : Nat) (hj : j < ny) : cell i j ny / ny = i ∧ cell i j ny % ny = j := by
  unfold cell
  have : 0 < ny := by omega
  constructor
  · rw [Nat.mul_comm, Nat.mul_add_div this, Nat.div_eq_of_lt hj, Nat.add_zero]
  · rw [Nat.mul_comm, Nat.mul_add_mod, Nat.mod_eq_of_lt hj]

/-- `ader_stepper` on a periodic grid, for `NO_CORNERS = false`. -/
theorem ader2_periodic (coef : Coef n (ι → ℝ)) (pred : (Fin n → Fin n → ι → ℝ) → Option (Nat → Nat → ι → ℝ))
    (ub : Nat → ι → ℝ) (nx ny : Nat) (mask : Nat → Bool) (gar : Nat → Nat → Nat → ι → ℝ) (u : Nat → ι → ℝ) (v : ι)
    (hB : ∀ d q x, S.bdot d q x v = 0) (hm : ∀ i j, Side nx ny i j → mask (cell i j (ny + 2)) = true)
    (hx : ∀ k < 2 * n, ∀ l < ny + 2 * n, ub ((nx + k) * (ny + 2 * n) + l) = ub (k * (ny + 2 * n) + l))
    (hy : ∀ k < nx + 2 * n, ∀ l < 2 * n, ub (k * (ny + 2 * n) + (ny + l)) = ub (k * (ny + 2 * n) + l))
    (hpred : ∀ i j, Side nx ny i j → (pred (weno2G coef false ub (nx + 2) (ny + 2) i j)).isSome) (s0 dt : ℝ)
    (hs : ∀ q, S.source q v = s0) (hw : ∑ s, T.w s = 1) (hwt : ∑ t ∈ Finset.range n, wt t = dt) (hn : 0 < n) :
    ∑ x ∈ Finset.range nx, ∑ y ∈ Finset.range ny, apply (kern2 S T fl wt dx dy true).app
      (ader2 coef false pred (kern2 S T fl wt dx dy true) ub nx ny mask gar) u (cell x y ny) v =
    ∑ x ∈ Finset.range nx, ∑ y ∈ Finset.range ny, u (cell x y ny) v + nx * (ny * (dt * s0)) := by
  obtain ⟨px, py⟩ := weno2G_periodic coef ub nx ny hn hx hy
  have e : ∀ a t, t < n → (a * n + t) / n = a ∧ (a * n + t) % n = t := fun a t ht => by
    constructor
    · rw [Nat.mul_comm, Nat.mul_add_div hn, Nat.div_eq_of_lt ht, Nat.add_zero]
    · rw [Nat.mul_comm, Nat.mul_add_mod, Nat.mod_eq_of_lt ht]
  have g : ∀ i j i' j', Side nx ny i j → Side nx ny i' j' → ∀ t,
      weno2G coef false ub (nx + 2) (ny + 2) i j = weno2G coef false ub (nx + 2) (ny + 2) i' j' →
      orGarbage (mask (cell i j (ny + 2))) (pred (weno2G coef false ub (nx + 2) (ny + 2) i j))
        (gar (cell i j (ny + 2))) t =
      orGarbage (mask (cell i' j' (ny + 2))) (pred (weno2G coef false ub (nx + 2) (ny + 2) i' j'))
        (gar (cell i' j' (ny + 2))) t := by
    intro i j i' j' hi hi' t h
    rw [hm _ _ hi, hm _ _ hi', h]
    obtain ⟨r, hr⟩ := Option.isSome_iff_exists.1 (hpred i' j' hi')
    rw [hr]
    rfl
  unfold ader2
  rw [fv2_periodic S T fl wt dx dy true _ nx ny n mask u v hB hm ?_ ?_ s0 (fun _ => hs) hw, if_pos rfl, hwt]
  · intro i hi j hj hj0 t ht
    have hj2 : j < ny + 2 := by omega
    simp only [(e _ t ht).1, (e _ t ht).2, (cell_div (ny + 2) _ j hj2).1, (cell_div (ny + 2) _ j hj2).2]
    exact g i j (nx + i) j ⟨by omega, by omega, by omega⟩ ⟨by omega, by omega, by omega⟩ t (px i hi j hj2).symm
  · intro i hi hi0 j hj t ht
    simp only [(e _ t ht).1, (e _ t ht).2, (cell_div (ny + 2) i j (by omega)).1, (cell_div (ny + 2) i j (by omega)).2,
      (cell_div (ny + 2) i (ny + j) (by omega)).1, (cell_div (ny + 2) i (ny + j) (by omega)).2]
    exact g i j i (ny + j) ⟨by omega, by omega, by omega⟩ ⟨by omega, by omega, by omega⟩ t (py i (by omega) j hj).symm

/-- The field of `split_stepper` before the second half step of the source terms, steppers.cpp:54-63. -/
def before2 (coef : Coef n (ι → ℝ)) (noCorners : Bool) (ode : (ι → ℝ) → (ι → ℝ)) (half : Bool)
    (mid : (Fin n → Fin n → ι → ℝ) → (Fin n → Fin n → ι → ℝ)) (toR : (Fin n → Fin n → ι → ℝ) → Nat → ι → ℝ)
    (K : Kern (ι → ℝ) (ι → ℝ) (Nat → ι → ℝ)) (ub : Nat → ι → ℝ) (nx ny : Nat) (mask : Nat → Bool) (u : Nat → ι → ℝ) :
    Nat → ι → ℝ :=
  let wh := fun c => weno2G coef noCorners (fun r => ode (ub r)) (nx + 2) (ny + 2) (c / (ny + 2)) (c % (ny + 2))
  apply K.app (fv2 K (fun c => toR (if half && mask c then mid (wh c) else wh c)) nx ny 1 mask) fun c => ode (u c)

/-- `split_stepper` on a periodic grid, for `NO_CORNERS = false`. -/
theorem split2_periodic (coef : Coef n (ι → ℝ)) (ode : (ι → ℝ) → (ι → ℝ)) (half : Bool)
    (mid : (Fin n → Fin n → ι → ℝ) → (Fin n → Fin n → ι → ℝ)) (toR : (Fin n → Fin n → ι → ℝ) → Nat → ι → ℝ)
    (ub : Nat → ι → ℝ) (nx ny : Nat) (mask : Nat → Bool) (u : Nat → ι → ℝ)
    (v : ι) (hB : ∀ d q x, S.bdot d q x v = 0) (hm : ∀ i j, Side nx ny i j → mask (cell i j (ny + 2)) = true)
    (hx : ∀ k < 2 * n, ∀ l < ny + 2 * n, ub ((nx + k) * (ny + 2 * n) + l) = ub (k * (ny + 2 * n) + l))
    (hy : ∀ k < nx + 2 * n, ∀ l < 2 * n, ub (k * (ny + 2 * n) + (ny + l)) = ub (k * (ny + 2 * n) + l))
    (a : ℝ) (ho : ∀ c < nx * ny, ode (u c) v = u c v + a)
    (ho' : ∀ c < nx * ny, let w := before2 coef false ode half mid toR (kern2 S T fl wt dx dy false) ub nx ny mask u
      ode (w c) v = w c v + a) (hw : ∑ s, T.w s = 1) (hn : 0 < n) :
    ∑ x ∈ Finset.range nx, ∑ y ∈ Finset.range ny, apply (withOde ode (kern2 S T fl wt dx dy false).app)
      (split2 coef false ode half mid toR (kern2 S T fl wt dx dy false) ub nx ny mask) u (cell x y ny) v =
    ∑ x ∈ Finset.range nx, ∑ y ∈ Finset.range ny, u (cell x y ny) v + nx * (ny * (2 * a)) := by
  obtain ⟨px, py⟩ := weno2G_periodic coef (fun r => ode (ub r)) nx ny hn (fun k hk l hl => by rw [hx k hk l hl])
    (fun k hk l hl => by rw [hy k hk l hl])
  unfold split2
  rw [Finset.sum_congr rfl fun x hx' => Finset.sum_congr rfl fun y hy' =>
    (congrFun (split_get ode (kern2 S T fl wt dx dy false).app (nx * ny) _ u (cell x y ny)
      (cell_lt (Finset.mem_range.1 hx') (Finset.mem_range.1 hy'))) v).trans
      (ho' _ (cell_lt (Finset.mem_range.1 hx') (Finset.mem_range.1 hy')))]
  simp only [Finset.sum_add_distrib]
  unfold before2
  rw [fv2_periodic S T fl wt dx dy false _ nx ny 1 mask _ v hB hm ?_ ?_ 0 (fun h => by cases h) hw]
  · rw [Finset.sum_congr rfl fun x hx' => Finset.sum_congr rfl fun y hy' =>
      ho _ (cell_lt (Finset.mem_range.1 hx') (Finset.mem_range.1 hy'))]
    simp only [Bool.false_eq_true, if_false, add_zero, Finset.sum_add_distrib, Finset.sum_const,
      Finset.card_range, nsmul_eq_mul]
    ring
  · intro i hi j hj hj0 t ht
    have hj2 : j < ny + 2 := by omega
    obtain rfl : t = 0 := by omega
    simp only [Nat.mul_one, Nat.add_zero, (cell_div (ny + 2) _ j hj2).1, (cell_div (ny + 2) _ j hj2).2]
    rw [px i hi j hj2, hm i j ⟨by omega, by omega, by omega⟩, hm (nx + i) j ⟨by omega, by omega, by omega⟩]
  · intro i hi hi0 j hj t ht
    obtain rfl : t = 0 := by omega
    simp only [Nat.mul_one, Nat.add_zero, (cell_div (ny + 2) i j (by omega)).1,
      (cell_div (ny + 2) i j (by omega)).2, (cell_div (ny + 2) i (ny + j) (by omega)).1,
      (cell_div (ny + 2) i (ny + j) (by omega)).2]
    rw [py i (by omega) j hj, hm i j ⟨by omega, by omega, by omega⟩, hm i (ny + j) ⟨by omega, by omega, by omega⟩]

end two

end

end Verif.Run
