import Verif.Step.Par

/-!
# Property C14: parallel stepping equals serial stepping

One dimension without restriction; two dimensions when corner cells are used (`NO_CORNERS = false`).  The
shipped two-dimensional configuration is treated in `Verif.Step.Corners`.
-/

namespace Verif.Step

open Verif.Fv

variable {E D R : Type}

theorem flatMap_congr' {α β : Type} (l : List α) (f g : α → List β) (h : ∀ a ∈ l, f a = g a) :
    l.flatMap f = l.flatMap g := by
  rw [List.flatMap_def, List.flatMap_def, List.map_congr_left h]

/-- What happens to a cell depends on its mask entry, its neighbours' mask entries and the blocks of the
active ones only. -/
theorem fv1_at_congr (K : Kern E D R) (rec rec' : Nat → R) (nx nx' nt : Nat) (mask mask' : Nat → Bool)
    (c c' : Nat) (hc : c < nx) (hc' : c' < nx') (hm : ∀ k, k ≤ 2 → mask (c + k) = mask' (c' + k))
    (hr : ∀ k, k ≤ 2 → ∀ t, t < nt → mask (c + k) = true →
      rec (ind2 (c + k) t nt) = rec' (ind2 (c' + k) t nt)) :
    at' c (fv1 K rec nx nt mask) = at' c' (fv1 K rec' nx' nt mask') := by
  rw [fv1_at K rec nx nt mask c hc, fv1_at K rec' nx' nt mask' c' hc']
  have h0 := hm 0 (by omega)
  have h1 := hm 1 (by omega)
  have h2 := hm 2 (by omega)
  simp only [Nat.add_zero] at h0
  congr 1
  · refine flatMap_congr' _ _ _ fun t ht => ?_
    have ht := List.mem_range.mp ht
    rw [← h1]
    split
    · next h => rw [hr 1 (by omega) t ht h]
    · rfl
  · refine flatMap_congr' _ _ _ fun t ht => ?_
    have ht := List.mem_range.mp ht
    rw [← h0, ← h1, ← h2]
    congr 1
    · split
      · next h =>
        rw [Bool.and_eq_true] at h
        have r0 := hr 0 (by omega) t ht h.1
        simp only [Nat.add_zero] at r0
        rw [r0, hr 1 (by omega) t ht h.2]
      · rfl
    · split
      · next h =>
        rw [Bool.and_eq_true] at h
        rw [hr 1 (by omega) t ht h.1, hr 2 (by omega) t ht h.2]
      · rfl

/-- In two dimensions: the cell and its four neighbours. -/
theorem fv2_at_congr (K : Kern E D R) (rec rec' : Nat → R) (nx nx' ny nt : Nat) (mask mask' : Nat → Bool)
    (x x' y : Nat) (hx : x < nx) (hx' : x' < nx') (hy : y < ny)
    (hm : ∀ k j, k ≤ 2 → j < ny + 2 → mask (cell (x + k) j (ny + 2)) = mask' (cell (x' + k) j (ny + 2)))
    (hr : ∀ k j, k ≤ 2 → j < ny + 2 → ∀ t, t < nt → mask (cell (x + k) j (ny + 2)) = true →
      rec (ind3 (x + k) j t (ny + 2) nt) = rec' (ind3 (x' + k) j t (ny + 2) nt)) :
    at' (cell x y ny) (fv2 K rec nx ny nt mask) = at' (cell x' y ny) (fv2 K rec' nx' ny nt mask') := by
  rw [fv2_at K rec nx ny nt mask x y hx hy, fv2_at K rec' nx' ny nt mask' x' y hx' hy]
  have h0 := hm 0 (y + 1) (by omega) (by omega)
  have h1 := hm 1 (y + 1) (by omega) (by omega)
  have h2 := hm 2 (y + 1) (by omega) (by omega)
  have h3 := hm 1 y (by omega) (by omega)
  have h4 := hm 1 (y + 2) (by omega) (by omega)
  simp only [Nat.add_zero] at h0
  congr 1
  · refine flatMap_congr' _ _ _ fun t ht => ?_
    have ht := List.mem_range.mp ht
    rw [← h1]
    split
    · next h => rw [hr 1 (y + 1) (by omega) (by omega) t ht h]
    · rfl
  · refine flatMap_congr' _ _ _ fun t ht => ?_
    have ht := List.mem_range.mp ht
    rw [← h0, ← h1, ← h2, ← h3, ← h4]
    have r0 := hr 0 (y + 1) (by omega) (by omega) t ht
    simp only [Nat.add_zero] at r0
    have r1 := hr 1 (y + 1) (by omega) (by omega) t ht
    have r2 := hr 2 (y + 1) (by omega) (by omega) t ht
    have r3 := hr 1 y (by omega) (by omega) t ht
    have r4 := hr 1 (y + 2) (by omega) (by omega) t ht
    congr 1
    congr 1
    congr 1
    · split
      · next h => rw [Bool.and_eq_true] at h; rw [r0 h.1, r1 h.2]
      · rfl
    · split
      · next h => rw [Bool.and_eq_true] at h; rw [r3 h.1, r1 h.2]
      · rfl
    · split
      · next h => rw [Bool.and_eq_true] at h; rw [r1 h.1, r2 h.2]
      · rfl
    · split
      · next h => rw [Bool.and_eq_true] at h; rw [r1 h.1, r4 h.2]
      · rfl

theorem cell_lt {x y nx ny : Nat} (hx : x < nx) (hy : y < ny) : cell x y ny < nx * ny := by
  unfold cell
  calc x * ny + y < x * ny + ny := by omega
    _ = (x + 1) * ny := by ring
    _ ≤ _ := Nat.mul_le_mul_right _ hx

/-- `fv_launcher` never writes outside the grid. -/
theorem fv2_bound (K : Kern E D R) (rec : Nat → R) (nx ny nt : Nat) (mask : Nat → Bool) (op : Nat × D)
    (h : op ∈ fv2 K rec nx ny nt mask) : op.1 < nx * ny := by
  unfold fv2 at h
  rcases List.mem_append.mp h with h | h
  · obtain ⟨t, -, h⟩ := List.mem_flatMap.mp h
    unfold centers2Inner at h
    obtain ⟨i, hi, h⟩ := List.mem_flatMap.mp h
    obtain ⟨j, hj, h⟩ := List.mem_flatMap.mp h
    split at h
    · obtain ⟨d, -, rfl⟩ := List.mem_map.mp h
      exact cell_lt (List.mem_range.mp hi) (List.mem_range.mp hj)
    · simp at h
  · obtain ⟨t, -, h⟩ := List.mem_flatMap.mp h
    unfold interfs2Inner at h
    obtain ⟨i, hi, h⟩ := List.mem_flatMap.mp h
    obtain ⟨j, hj, h⟩ := List.mem_flatMap.mp h
    have hi := List.mem_range.mp hi
    have hj := List.mem_range.mp hj
    split at h
    · rcases List.mem_append.mp h with h | h
      · unfold faceX at h
        split at h
        · next hc =>
          simp only [Bool.and_eq_true, decide_eq_true_eq] at hc
          rcases List.mem_append.mp h with h | h
          · split at h
            · rw [List.mem_singleton] at h; rw [h]
              exact cell_lt (by omega) (by omega)
            · simp at h
          · split at h
            · rw [List.mem_singleton] at h; rw [h]
              exact cell_lt (by omega) (by omega)
            · simp at h
        · simp at h
      · unfold faceY at h
        split at h
        · next hc =>
          simp only [Bool.and_eq_true, decide_eq_true_eq] at hc
          rcases List.mem_append.mp h with h | h
          · split at h
            · rw [List.mem_singleton] at h; rw [h]
              exact cell_lt (by omega) (by omega)
            · simp at h
          · split at h
            · rw [List.mem_singleton] at h; rw [h]
              exact cell_lt (by omega) (by omega)
            · simp at h
        · simp at h
    · simp at h

theorem at'_bound (l : List (Nat × D)) (b : Nat) (h : ∀ op ∈ l, op.1 < b) (c : Nat) (hc : b ≤ c) :
    at' c l = [] := by
  unfold at'
  rw [List.map_eq_nil_iff, List.filter_eq_nil_iff]
  intro x hx
  have := h x hx
  simp only [beq_iff_eq]
  omega

/-! ### The reconstruction of a row does not depend on where the grid ends when the gap is zero -/

theorem weno1G_gap_zero {n : Nat} (coef : Coef n E) (ub : Nat → E) (nx i : Nat) (hi : i < nx) :
    weno1G coef ub nx 0 i =
      coef true true (decide (n > 2)) (decide (n > 2) && decide (n % 2 = 0)) fun r => ub (i + r) := by
  unfold weno1G
  have e1 : decide ((i : Int) ≥ 0) = true := by simp
  have e2 : decide ((i : Int) ≤ (nx : Int) - 0 - 1) = true := by simp; omega
  have e3 : decide ((i : Int) + ((n - 1) / 2 : Nat) ≥ 0) = true := by simp; omega
  have e4 : decide ((i : Int) - ((n - 1) / 2 : Nat) ≤ (nx : Int) - 0 - 1) = true := by simp; omega
  simp only [e1, e2, e3, e4, Bool.and_true]

theorem weno1G_shift {n : Nat} (coef : Coef n E) (ub : Nat → E) (nx nx' s i : Nat) (hi : i < nx')
    (hs : s + i < nx) :
    weno1G coef (fun r => ub (s + r)) nx' 0 i = weno1G coef ub nx 0 (s + i) := by
  rw [weno1G_gap_zero coef _ nx' i hi, weno1G_gap_zero coef ub nx (s + i) hs]
  simp only [Nat.add_assoc]

theorem weno2G_shift {n : Nat} (coef : Coef n E) (ub : Nat → E) (nx nx' ny s i j : Nat) (hi : i < nx')
    (hs : s + i < nx) :
    weno2G coef false (fun r => ub (s * (ny + 2 * (n - 1)) + r)) nx' ny i j =
      weno2G coef false ub nx ny (s + i) j := by
  unfold weno2G
  simp only [Bool.false_and, Bool.false_eq_true, if_false]
  funext ii jj
  congr 1
  funext J
  rw [← weno1G_shift coef (fun r => ub (r * (ny + 2 * (n - 1)) + J)) nx nx' s i hi hs]
  congr 2
  funext r
  congr 1
  ring

/-! ### `ader_stepper_para` -/

/-- **C14, `ader_stepper_para`, one dimension.**  Whatever the number of workers, the schedule and the
garbage in freshly allocated storage, provided the predictor wrote every active cell. -/
theorem ader_para1 {n : Nat} (coef : Coef n E) (pred : (Fin n → E) → Option (Nat → R)) (K : Kern E D R)
    (ub : Nat → E) (nx : Nat) (mask : Nat → Bool) (T : Nat) (hT : 0 < T) (gar0 : Nat → Nat → R)
    (gar : Nat → Nat → Nat → R)
    (hpred : ∀ i, i < nx + 2 → mask i = true → (pred (weno1G coef ub ((nx + 2 : Nat) : Int) 0 i)).isSome)
    (l : List (Nat × Nat × D))
    (hl : IsSchedule T (fun w => aderWorker1 coef pred K ub nx mask T (gar w) w) l) (u : Nat → E) :
    apply K.app (l.map Prod.snd) u = apply K.app (ader1 coef pred K ub nx mask gar0) u := by
  obtain ⟨-, hord, -, -⟩ := chunks_partition nx T hT
  refine schedule_serial K.app nx T 1 hT
    (fun w => ader1 coef pred K (fun r => ub (start nx T w + r)) (start nx T (w + 1) - start nx T w)
      (fun i => mask (start nx T w + i)) (gar w)) _ l ?_ ?_ ?_ ?_ u
  · simp only [Nat.mul_one]; exact hl
  · intro w _ c hc
    exact fv1_outside K _ _ _ _ c (by rw [Nat.mul_one] at hc; omega)
  · intro c hc
    exact fv1_outside K _ _ _ _ c (by rw [Nat.mul_one] at hc; omega)
  · intro w hw x y hy hx
    obtain rfl : y = 0 := by omega
    simp only [Nat.mul_one, Nat.add_zero]
    have hend := (hord w hw).2
    set s := start nx T w with hs
    set f := start nx T (w + 1) with hf
    refine fv1_at_congr K _ _ _ _ n _ _ x (s + x) (by omega) (by omega) ?_ ?_
    · intro k _; rw [Nat.add_assoc]
    · intro k hk t ht hm
      have e : ∀ a, ind2 a t n / n = a ∧ ind2 a t n % n = t := fun a => by
        unfold ind2
        have hn : 0 < n := by omega
        constructor
        · rw [Nat.mul_comm, Nat.mul_add_div hn, Nat.div_eq_of_lt ht, Nat.add_zero]
        · rw [Nat.mul_comm, Nat.mul_add_mod, Nat.mod_eq_of_lt ht]
      simp only [(e _).1, (e _).2]
      rw [weno1G_shift coef ub (nx + 2) (f - s + 2) s (x + k) (by omega) (by omega),
        ← Nat.add_assoc]
      rw [← Nat.add_assoc] at hm
      have := hpred (s + x + k) (by omega) hm
      obtain ⟨r, hr⟩ := Option.isSome_iff_exists.mp this
      rw [hr]
      simp [orGarbage, hm]

/-- **C14, `ader_stepper_para`, two dimensions**, for `NO_CORNERS = false`. -/
theorem ader_para2_partial {n : Nat} (hn : 0 < n) (coef : Coef n E) (pred : (Fin n → Fin n → E) → Option (Nat → R))
    (K : Kern E D R) (ub : Nat → E) (nx ny : Nat) (mask : Nat → Bool) (T : Nat) (hT : 0 < T)
    (gar0 : Nat → Nat → R) (gar : Nat → Nat → Nat → R)
    (hpred : ∀ i j, i < nx + 2 → j < ny + 2 → mask (cell i j (ny + 2)) = true →
      (pred (weno2G coef false ub (nx + 2) (ny + 2) i j)).isSome)
    (l : List (Nat × Nat × D))
    (hl : IsSchedule T (fun w => aderWorker2 coef false pred K ub nx ny mask T (gar w) w) l) (u : Nat → E) :
    apply K.app (l.map Prod.snd) u = apply K.app (ader2 coef false pred K ub nx ny mask gar0) u := by
  obtain ⟨-, hord, -, -⟩ := chunks_partition nx T hT
  refine schedule_serial K.app nx T ny hT
    (fun w => ader2 coef false pred K (fun r => ub (start nx T w * (ny + 2 * n) + r))
      (start nx T (w + 1) - start nx T w) ny (fun i => mask (start nx T w * (ny + 2) + i)) (gar w)) _ l
    hl ?_ ?_ ?_ u
  · intro w _ c hc
    exact at'_bound _ _ (fun op h => fv2_bound K _ _ _ _ _ op h) c hc
  · intro c hc
    exact at'_bound _ _ (fun op h => fv2_bound K _ _ _ _ _ op h) c hc
  · intro w hw x y hy hx
    have hend := (hord w hw).2
    set s := start nx T w with hs
    set f := start nx T (w + 1) with hf
    have hcell : ∀ a j, s * (ny + 2) + cell a j (ny + 2) = cell (s + a) j (ny + 2) := fun a j => by
      unfold cell; ring
    refine fv2_at_congr K _ _ _ _ ny n _ _ x (s + x) y (by omega) (by omega) hy ?_ ?_
    · intro k j _ _; rw [hcell, Nat.add_assoc]
    · intro k j hk hj t ht hm
      have e : ∀ a, ind3 a j t (ny + 2) n / n = cell a j (ny + 2) ∧ ind3 a j t (ny + 2) n % n = t := fun a => by
        unfold ind3 cell
        constructor
        · rw [Nat.mul_comm, Nat.mul_add_div hn, Nat.div_eq_of_lt ht, Nat.add_zero]
        · rw [Nat.mul_comm, Nat.mul_add_mod, Nat.mod_eq_of_lt ht]
      have d : ∀ a, cell a j (ny + 2) / (ny + 2) = a ∧ cell a j (ny + 2) % (ny + 2) = j := fun a => by
        unfold cell
        constructor
        · rw [Nat.mul_comm, Nat.mul_add_div (by omega), Nat.div_eq_of_lt hj, Nat.add_zero]
        · rw [Nat.mul_comm, Nat.mul_add_mod, Nat.mod_eq_of_lt hj]
      simp only [(e _).1, (e _).2, (d _).1, (d _).2]
      rw [show ny + 2 * n = ny + 2 + 2 * (n - 1) by omega,
        weno2G_shift coef ub (nx + 2) (f - s + 2) (ny + 2) s (x + k) j (by omega) (by omega)]
      rw [hcell] at hm ⊢
      rw [← Nat.add_assoc] at hm ⊢
      obtain ⟨r, hr⟩ := Option.isSome_iff_exists.mp (hpred (s + x + k) j (by omega) hj hm)
      rw [hr]
      simp [orGarbage, hm]

/-! ### `split_stepper_para` -/

theorem at'_someOps (c : Nat) (l : List (Nat × D)) : at' c (someOps l) = (at' c l).map some := by
  unfold at' someOps
  rw [List.filter_map, List.map_map, List.map_map]
  rfl

theorem at'_odeOps (c cells : Nat) : at' c (odeOps cells : List (Nat × Option D)) =
    if c < cells then [none] else [] := by
  unfold odeOps
  rw [List.map_eq_flatMap, at'_flatMap]
  simp only [at'_single]
  by_cases h : c < cells
  · rw [flatMap_range_one cells c _ h fun i _ hne => by simp [hne]]; simp [h]
  · rw [flatMap_range_none cells _ fun i hi => by simp [show i ≠ c by omega]]; simp [h]

/-- **C14, `split_stepper_para`, one dimension.** -/
theorem split_para1 {n : Nat} (coef : Coef n E) (ode : E → E) (half : Bool) (mid : (Fin n → E) → (Fin n → E))
    (toR : (Fin n → E) → R) (K : Kern E D R) (ub : Nat → E) (nx : Nat) (mask : Nat → Bool) (T : Nat)
    (hT : 0 < T) (l : List (Nat × Nat × Option D))
    (hl : IsSchedule T (splitWorker1 coef ode half mid toR K ub nx mask T) l) (u : Nat → E) :
    apply (withOde ode K.app) (l.map Prod.snd) u =
      apply (withOde ode K.app) (split1 coef ode half mid toR K ub nx mask) u := by
  obtain ⟨-, hord, -, -⟩ := chunks_partition nx T hT
  refine schedule_serial _ nx T 1 hT
    (fun w => split1 coef ode half mid toR K (fun r => ub (start nx T w + r))
      (start nx T (w + 1) - start nx T w) (fun i => mask (start nx T w + i))) _ l ?_ ?_ ?_ ?_ u
  · simp only [Nat.mul_one]; exact hl
  · intro w _ c hc
    rw [Nat.mul_one] at hc
    simp only [split1, at'_append, at'_odeOps, at'_someOps]
    rw [fv1_outside K _ _ _ _ c (by omega), if_neg (by omega)]; rfl
  · intro c hc
    rw [Nat.mul_one] at hc
    simp only [split1, at'_append, at'_odeOps, at'_someOps]
    rw [fv1_outside K _ _ _ _ c (by omega), if_neg (by omega)]; rfl
  · intro w hw x y hy hx
    obtain rfl : y = 0 := by omega
    simp only [Nat.mul_one, Nat.add_zero]
    have hend := (hord w hw).2
    set s := start nx T w with hs
    set f := start nx T (w + 1) with hf
    simp only [split1, at'_append, at'_odeOps, at'_someOps]
    rw [if_pos (by omega), if_pos (by omega)]
    congr 3
    refine fv1_at_congr K _ _ _ _ 1 _ _ x (s + x) (by omega) (by omega) ?_ ?_
    · intro k _; rw [Nat.add_assoc]
    · intro k hk t ht hm
      obtain rfl : t = 0 := by omega
      simp only [ind2, Nat.mul_one, Nat.add_zero]
      rw [weno1G_shift coef (fun r => ode (ub r)) (nx + 2) (f - s + 2) s (x + k) (by omega) (by omega),
        Nat.add_assoc]

/-- **C14, `split_stepper_para`, two dimensions**, for `NO_CORNERS = false`. -/
theorem split_para2_partial {n : Nat} (hn : 0 < n) (coef : Coef n E) (ode : E → E) (half : Bool)
    (mid : (Fin n → Fin n → E) → (Fin n → Fin n → E)) (toR : (Fin n → Fin n → E) → R) (K : Kern E D R)
    (ub : Nat → E) (nx ny : Nat) (mask : Nat → Bool) (T : Nat) (hT : 0 < T)
    (l : List (Nat × Nat × Option D))
    (hl : IsSchedule T (splitWorker2 coef false ode half mid toR K ub nx ny mask T) l) (u : Nat → E) :
    apply (withOde ode K.app) (l.map Prod.snd) u =
      apply (withOde ode K.app) (split2 coef false ode half mid toR K ub nx ny mask) u := by
  obtain ⟨-, hord, -, -⟩ := chunks_partition nx T hT
  refine schedule_serial _ nx T ny hT
    (fun w => split2 coef false ode half mid toR K (fun r => ub (start nx T w * (ny + 2 * n) + r))
      (start nx T (w + 1) - start nx T w) ny (fun i => mask (start nx T w * (ny + 2) + i))) _ l hl ?_ ?_ ?_ u
  · intro w _ c hc
    simp only [split2, at'_append, at'_odeOps, at'_someOps]
    rw [at'_bound _ _ (fun op h => fv2_bound K _ _ _ _ _ op h) c hc, if_neg (by omega)]; rfl
  · intro c hc
    simp only [split2, at'_append, at'_odeOps, at'_someOps]
    rw [at'_bound _ _ (fun op h => fv2_bound K _ _ _ _ _ op h) c hc, if_neg (by omega)]; rfl
  · intro w hw x y hy hx
    have hend := (hord w hw).2
    set s := start nx T w with hs
    set f := start nx T (w + 1) with hf
    have hcell : ∀ a j, s * (ny + 2) + cell a j (ny + 2) = cell (s + a) j (ny + 2) := fun a j => by
      unfold cell; ring
    change at' (cell x y ny) _ = at' (cell (s + x) y ny) _
    simp only [split2, at'_append, at'_odeOps, at'_someOps]
    rw [if_pos (cell_lt (show x < f - s by omega) hy), if_pos (cell_lt (show s + x < nx by omega) hy)]
    congr 3
    refine fv2_at_congr K _ _ _ _ ny 1 _ _ x (s + x) y (by omega) (by omega) hy ?_ ?_
    · intro k j _ _; rw [hcell, Nat.add_assoc]
    · intro k j hk hj t ht hm
      obtain rfl : t = 0 := by omega
      have d : ∀ a, cell a j (ny + 2) / (ny + 2) = a ∧ cell a j (ny + 2) % (ny + 2) = j := fun a => by
        unfold cell
        constructor
        · rw [Nat.mul_comm, Nat.mul_add_div (by omega), Nat.div_eq_of_lt hj, Nat.add_zero]
        · rw [Nat.mul_comm, Nat.mul_add_mod, Nat.mod_eq_of_lt hj]
      have e : ∀ a, ind3 a j 0 (ny + 2) 1 = cell a j (ny + 2) := fun a => by
        unfold ind3 cell; ring
      simp only [e, (d _).1, (d _).2, hcell]
      rw [show ny + 2 * n = ny + 2 + 2 * (n - 1) by omega,
        weno2G_shift coef (fun r => ode (ub r)) (nx + 2) (f - s + 2) (ny + 2) s (x + k) j (by omega) (by omega),
        Nat.add_assoc]

/-- Schedules exist: the workers one after the other. -/
theorem schedule_exists (T : Nat) (work : Nat → List (Nat × D)) :
    ∃ l, IsSchedule T work l := by
  refine ⟨(List.range T).flatMap fun w => (work w).map fun op => (w, op), ?_, ?_⟩
  · intro x hx
    obtain ⟨w, hw, hx⟩ := List.mem_flatMap.mp hx
    obtain ⟨op, -, rfl⟩ := List.mem_map.mp hx
    exact List.mem_range.mp hw
  · intro w hw
    rw [List.filter_flatMap, flatMap_range_one T w _ hw]
    · rw [List.filter_eq_self.mpr, List.map_map]
      · simp [Function.comp_def]
      · intro x hx
        obtain ⟨op, -, rfl⟩ := List.mem_map.mp hx
        simp
    · intro i _ hne
      rw [List.filter_eq_nil_iff]
      intro x hx
      obtain ⟨op, -, rfl⟩ := List.mem_map.mp hx
      simpa using hne

end Verif.Step
