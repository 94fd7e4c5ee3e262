import Verif.Run.Periodic
import Verif.Step.Mid

/-! # The parallel steppers on uniform fields -/

namespace Verif.Run

open Verif.Dg Verif.Fv Verif.Step Verif.Basis

variable {n : Nat} {ι : Type}

/-- What any schedule does to a cell is what the worker of its row does. -/
theorem schedule_cell {D : Type} (nx T width : Nat) (hT : 0 < T) (local' : Nat → List (Nat × D)) (l : List (Nat × Nat × D))
    (hl : IsSchedule T (fun w => (local' w).map fun op => (start nx T w * width + op.1, op.2)) l)
    (hout : ∀ w, w < T → ∀ c, (start nx T (w + 1) - start nx T w) * width ≤ c → at' c (local' w) = []) (c : Nat)
    (hc : c < nx * width) :
    ∃ w < T, ∃ x y, y < width ∧ start nx T w + x < start nx T (w + 1) ∧ c = (start nx T w + x) * width + y ∧
      at' c (l.map Prod.snd) = at' (x * width + y) (local' w) := by
  obtain ⟨hpart, hord, -, -⟩ := chunks_partition nx T hT
  have hmiss : ∀ w, w < T → ¬ (start nx T w * width ≤ c ∧ c < start nx T (w + 1) * width) →
      at' c ((local' w).map fun op => (start nx T w * width + op.1, op.2)) = [] := by
    intro w hw h
    by_cases h1 : c < start nx T w * width
    · exact at'_shift_lt _ _ h1 _
    · have h1 : start nx T w * width ≤ c := by omega
      have h2 : start nx T (w + 1) * width ≤ c := by
        by_contra h3
        exact h ⟨h1, by omega⟩
      rw [show c = start nx T w * width + (c - start nx T w * width) by omega, at'_shift]
      refine hout w hw _ ?_
      rw [Nat.sub_mul]; omega
  have hwid : 0 < width := by
    rcases Nat.eq_zero_or_pos width with h0 | h0
    · rw [h0, Nat.mul_zero] at hc; omega
    · exact h0
  have hx : c / width < nx := (Nat.div_lt_iff_lt_mul hwid).mpr hc
  obtain ⟨w, ⟨hw, hlo, hhi⟩, huniq⟩ := hpart _ hx
  have hrow : ∀ w, start nx T w * width ≤ c ∧ c < start nx T (w + 1) * width ↔
      start nx T w ≤ c / width ∧ c / width < start nx T (w + 1) := fun w => by
    rw [Nat.le_div_iff_mul_le hwid, Nat.div_lt_iff_lt_mul hwid]
  obtain ⟨k, hk⟩ := Nat.exists_eq_add_of_le hlo
  have hcw : c = (start nx T w + k) * width + c % width := by
    rw [← hk, Nat.mul_comm]; exact (Nat.div_add_mod c width).symm
  refine ⟨w, hw, k, c % width, Nat.mod_lt _ hwid, by omega, hcw, ?_⟩
  rw [schedule_at hl c w hw fun w' hw' hne => hmiss w' hw' fun h => hne (huniq w' ((hrow w').mp h))]
  conv_lhs => rw [hcw, Nat.add_mul, Nat.add_assoc]
  exact at'_shift _ _ _

/-- `fv2_uniform` with blocks that are constant where the mask holds. -/
theorem fv2_still {T : Tab n} (h : T.Ok) (S : Sys ι) (fl : Nat → (ι → ℝ) → (ι → ℝ) → (ι → ℝ)) (wt : Nat → ℝ)
    (dx dy : ℝ) (sources : Bool) (c : ι → ℝ) (hb : ∀ d, S.bdot d c 0 = 0)
    (hs : sources = true → S.source c = 0) (rec : Nat → Nat → ι → ℝ) (nx ny nt : Nat) (mask : Nat → Bool)
    (u : Nat → ι → ℝ) (x y : Nat) (hx : x < nx) (hy : y < ny)
    (hrec : ∀ i j, x ≤ i → i ≤ x + 2 → j < ny + 2 → mask (cell i j (ny + 2)) = true → ∀ t, t < nt → ∀ r, r < n * n →
      rec (ind3 i j t (ny + 2) nt) r = c)
    (hm : ∀ i j, x ≤ i → i ≤ x + 2 → y ≤ j → j ≤ y + 2 → i = x + 1 ∨ j = y + 1 → mask (cell i j (ny + 2)) = true) :
    apply (kern2 S T fl wt dx dy sources).app (fv2 (kern2 S T fl wt dx dy sources) rec nx ny nt mask) u
      (cell x y ny) = u (cell x y ny) := by
  let rec' : Nat → Nat → ι → ℝ := fun b r => if r < n * n then c else rec b r
  have hr' : ∀ i j, x ≤ i → i ≤ x + 2 → j < ny + 2 → mask (cell i j (ny + 2)) = true → ∀ t, t < nt →
      rec (ind3 i j t (ny + 2) nt) = rec' (ind3 i j t (ny + 2) nt) := by
    intro i j h1 h2 h3 h4 t ht
    funext r
    simp only [rec']
    split_ifs with hr
    · exact hrec i j h1 h2 h3 h4 t ht r hr
    · rfl
  have := fv2_uniform h S fl wt dx dy sources c hb hs rec' nx ny nt mask u x y hx hy
    (fun i j _ _ t _ r hr => by simp only [rec', if_pos hr])
    (fun _ => ⟨hm _ _ le_rfl (by omega) (by omega) (by omega) (by omega),
      hm _ _ (by omega) (by omega) (by omega) (by omega) (by omega),
      hm _ _ (by omega) (by omega) (by omega) (by omega) (by omega),
      hm _ _ (by omega) (by omega) (by omega) (by omega) (by omega)⟩)
  rw [apply_get] at this ⊢
  rw [fv2_at_congr (kern2 S T fl wt dx dy sources) rec rec' nx nx ny nt mask mask x x y hx hx hy (fun _ _ _ _ => rfl)
    fun k j hk hj t ht hmk => hr' (x + k) j (by omega) (by omega) hj hmk t ht]
  exact this

/-- Every chunk of rows is wide enough for the stencils that `NO_CORNERS` leaves. -/
def Chunks (n : Nat) (nc : Bool) (nx ny threads : Nat) : Prop := ∀ w < threads,
  start nx threads w < start nx threads (w + 1) → Weno.Wide n nc (start nx threads (w + 1) - start nx threads w + 2) (ny + 2)

theorem block_const (q : ι → ℝ) (nx ny s m : Nat) (ub : Nat → ι → ℝ) (hsm : s + m ≤ nx)
    (hub : ∀ k < (nx + 2 * n) * (ny + 2 * n), ub k = q) (k : Nat) (hk : k < (m + 2 * n) * (ny + 2 * n)) :
    ub (s * (ny + 2 * n) + k) = q := by
  refine hub _ ?_
  calc s * (ny + 2 * n) + k < s * (ny + 2 * n) + (m + 2 * n) * (ny + 2 * n) := by omega
    _ = (s + m + 2 * n) * (ny + 2 * n) := by ring
    _ ≤ _ := Nat.mul_le_mul_right _ (by omega)

section
variable {T : Tab n} (h : T.Ok) (W : Weno.Setup n) (undef : ℝ) (S : Sys ι)
  (fl : Nat → (ι → ℝ) → (ι → ℝ) → (ι → ℝ)) (wt : Nat → ℝ) (q : ι → ℝ) (dx dy : ℝ)

include h

/-! ### One worker -/

theorem ader1_still (hs : S.source q = 0) (hb : S.bdot 0 q 0 = 0)
    (pred : (Fin n → ι → ℝ) → Option (Nat → Fin n → ι → ℝ)) (r : Nat → Fin n → ι → ℝ)
    (hp : pred (fun _ => q) = some r) (hr : ∀ t < n, ∀ k, r t k = q) (nx : Nat) (ub : Nat → ι → ℝ)
    (hub : ∀ k < nx + 2 * n, ub k = q) (mask : Nat → Bool) (hm : ∀ i < nx + 2, mask i = true)
    (gar : Nat → Nat → Fin n → ι → ℝ) (u : Nat → ι → ℝ) (x : Nat) (hx : x < nx) :
    apply (kern1 S T fl wt dx true).app (ader1 (realCoef W.T undef) pred (kern1 S T fl wt dx true) ub nx mask gar) u x =
      u x := by
  have hn := h.pos
  unfold ader1
  refine fv1_uniform h S fl wt dx true q hb (fun _ => hs) _ nx n mask u x hx ?_
    (fun _ => ⟨hm _ (by omega), hm _ (by omega)⟩)
  intro i _ hi t ht k
  have e1 : (i * n + t) / n = i := by
    rw [Nat.mul_comm, Nat.mul_add_div hn, Nat.div_eq_of_lt ht, Nat.add_zero]
  have e2 : (i * n + t) % n = t := by
    rw [Nat.mul_comm, Nat.mul_add_mod, Nat.mod_eq_of_lt ht]
  have hw' : weno1G (realCoef W.T undef) ub ((nx + 2 : Nat) : Int) 0 i = fun _ => q := by
    funext k
    exact weno1G_const W undef _ _ 0 i (Weno.active_zero n _ i) q (fun r hr => hub _ (by omega)) k
  simp only [e1, e2, hw', hp, hm i (by omega), orGarbage, if_true, Option.getD_some]
  exact hr t ht k

theorem split1_still (hb : S.bdot 0 q 0 = 0) (ode : (ι → ℝ) → (ι → ℝ)) (ho : ode q = q) (half : Bool)
    (mid : (Fin n → ι → ℝ) → (Fin n → ι → ℝ)) (hmid : mid (fun _ => q) = fun _ => q) (nx : Nat) (ub : Nat → ι → ℝ)
    (hub : ∀ k < nx + 2 * n, ub k = q) (mask : Nat → Bool) (hm : ∀ i < nx + 2, mask i = true)
    (u : Nat → ι → ℝ) (x : Nat) (hx : x < nx) (hu : u x = q) :
    apply (withOde ode (kern1 S T fl wt dx false).app) (split1 (realCoef W.T undef) ode half mid (fun q => q)
      (kern1 S T fl wt dx false) ub nx mask) u x = q := by
  have hn := h.pos
  unfold split1
  rw [split_get _ _ _ _ _ _ hx, fv1_uniform h S fl wt dx false q hb (fun h => by cases h) _ nx 1 mask _ x hx ?_
    (fun _ => ⟨hm _ (by omega), hm _ (by omega)⟩), hu, ho, ho]
  intro i _ hi t ht k
  obtain rfl : t = 0 := by omega
  have hw' : weno1G (realCoef W.T undef) (fun r => ode (ub r)) ((nx + 2 : Nat) : Int) 0 i = fun _ => q := by
    funext k
    exact weno1G_const W undef _ _ 0 i (Weno.active_zero n _ i) q (fun r hr => by rw [hub _ (by omega), ho]) k
  simp only [Nat.mul_one, Nat.add_zero, hw', hmid, ite_self]

omit h in
theorem weno2G_still (nc : Bool) (hn : 0 < n) (m ny i j : Nat) (hw : Weno.Wide n nc (m + 2) (ny + 2)) (hi : i < m + 2)
    (hj : j < ny + 2) (ub : Nat → ι → ℝ) (hub : ∀ k < (m + 2 * n) * (ny + 2 * n), ub k = q) :
    weno2G (realCoef W.T undef) nc ub (m + 2) (ny + 2) i j = fun _ _ => q := by
  funext ii jj
  refine weno2G_const W undef nc ub (m + 2) (ny + 2) i j hw hi hj q (fun r hr => hub r ?_) ii jj
  rwa [show m + 2 + 2 * (n - 1) = m + 2 * n by omega, show ny + 2 + 2 * (n - 1) = ny + 2 * n by omega] at hr

theorem ader2_still (hs : S.source q = 0) (hb : ∀ d, S.bdot d q 0 = 0) (nc : Bool)
    (pred : (Fin n → Fin n → ι → ℝ) → Option (Nat → Nat → ι → ℝ)) (r : Nat → Nat → ι → ℝ)
    (hp : pred (fun _ _ => q) = some r) (hr : ∀ t < n, ∀ k < n * n, r t k = q) (nx ny : Nat)
    (hw : Weno.Wide n nc (nx + 2) (ny + 2)) (ub : Nat → ι → ℝ)
    (hub : ∀ k < (nx + 2 * n) * (ny + 2 * n), ub k = q) (mask : Nat → Bool)
    (gar : Nat → Nat → Nat → ι → ℝ) (u : Nat → ι → ℝ) (x y : Nat) (hx : x < nx) (hy : y < ny)
    (hm : ∀ i j, x ≤ i → i ≤ x + 2 → y ≤ j → j ≤ y + 2 → i = x + 1 ∨ j = y + 1 → mask (cell i j (ny + 2)) = true) :
    apply (kern2 S T fl wt dx dy true).app (ader2 (realCoef W.T undef) nc pred (kern2 S T fl wt dx dy true) ub nx ny mask
      gar) u (cell x y ny) = u (cell x y ny) := by
  have hn := h.pos
  unfold ader2
  refine fv2_still h S fl wt dx dy true q hb (fun _ => hs) _ nx ny n mask u x y hx hy ?_ hm
  intro i j h1 h2 h3 h4 t ht k hk
  have e1 : (cell i j (ny + 2) * n + t) / n = cell i j (ny + 2) := by
    rw [Nat.mul_comm, Nat.mul_add_div hn, Nat.div_eq_of_lt ht, Nat.add_zero]
  have e2 : (cell i j (ny + 2) * n + t) % n = t := by
    rw [Nat.mul_comm, Nat.mul_add_mod, Nat.mod_eq_of_lt ht]
  obtain ⟨e3, e4⟩ := cell_div (ny + 2) i j h3
  rw [show ind3 i j t (ny + 2) n = cell i j (ny + 2) * n + t by unfold ind3 cell; ring]
  simp only [e1, e2, e3, e4, weno2G_still W undef q nc hn nx ny i j hw (by omega) h3 ub hub, hp, h4, orGarbage, if_true,
    Option.getD_some]
  exact hr t ht k hk

theorem split2_still (hb : ∀ d, S.bdot d q 0 = 0) (nc : Bool) (ode : (ι → ℝ) → (ι → ℝ)) (ho : ode q = q)
    (half : Bool) (mid : (Fin n → Fin n → ι → ℝ) → (Fin n → Fin n → ι → ℝ)) (hmid : mid (fun _ _ => q) = fun _ _ => q)
    (block : (Fin n → Fin n → ι → ℝ) → Nat → ι → ℝ) (hbl : ∀ s < n * n, block (fun _ _ => q) s = q) (nx ny : Nat)
    (hw : Weno.Wide n nc (nx + 2) (ny + 2)) (ub : Nat → ι → ℝ)
    (hub : ∀ k < (nx + 2 * n) * (ny + 2 * n), ub k = q) (mask : Nat → Bool)
    (u : Nat → ι → ℝ) (x y : Nat) (hx : x < nx) (hy : y < ny) (hu : u (cell x y ny) = q)
    (hm : ∀ i j, x ≤ i → i ≤ x + 2 → y ≤ j → j ≤ y + 2 → i = x + 1 ∨ j = y + 1 → mask (cell i j (ny + 2)) = true) :
    apply (withOde ode (kern2 S T fl wt dx dy false).app) (split2 (realCoef W.T undef) nc ode half mid block
      (kern2 S T fl wt dx dy false) ub nx ny mask) u (cell x y ny) = q := by
  have hn := h.pos
  unfold split2
  rw [split_get _ _ _ _ _ _ (cell_lt hx hy), fv2_still h S fl wt dx dy false q hb (fun h => by cases h) _ nx ny 1 mask _ x y
    hx hy ?_ hm, hu, ho, ho]
  intro i j h1 h2 h3 h4 t ht k hk
  obtain rfl : t = 0 := by omega
  obtain ⟨e3, e4⟩ := cell_div (ny + 2) i j h3
  rw [show ind3 i j 0 (ny + 2) 1 = cell i j (ny + 2) by unfold ind3 cell; ring]
  simp only [e3, e4, weno2G_still W undef q nc hn nx ny i j hw (by omega) h3 (fun r => ode (ub r))
    (fun k hk => by rw [hub k hk, ho]), hmid, ite_self]
  exact hbl k hk

/-! ### All workers -/

variable (threads : Nat)

/-- `ader_stepper_para` on a line of one state. -/
theorem ader_still1 (hT : 0 < threads) (hs : S.source q = 0) (hb : S.bdot 0 q 0 = 0)
    (pred : (Fin n → ι → ℝ) → Option (Nat → Fin n → ι → ℝ)) (r : Nat → Fin n → ι → ℝ)
    (hp : pred (fun _ => q) = some r) (hr : ∀ t < n, ∀ k, r t k = q) (nx : Nat) (ub : Nat → ι → ℝ)
    (hub : ∀ k < nx + 2 * n, ub k = q) (mask : Nat → Bool) (hm : ∀ i < nx + 2, mask i = true)
    (gar : Nat → Nat → Nat → Fin n → ι → ℝ) (l : List (Nat × Nat × (ι → ℝ)))
    (hl : IsSchedule threads (fun w => aderWorker1 (realCoef W.T undef) pred (kern1 S T fl wt dx true) ub nx mask threads
      (gar w) w) l) (u : Nat → ι → ℝ) (c : Nat) (hc : c < nx) :
    apply (kern1 S T fl wt dx true).app (l.map Prod.snd) u c = u c := by
  obtain ⟨-, hord, -, -⟩ := chunks_partition nx threads hT
  obtain ⟨w, hw, x, y, hy, hx, hcx, e⟩ := schedule_cell nx threads 1 hT (fun w => ader1 (realCoef W.T undef) pred
    (kern1 S T fl wt dx true) (fun r => ub (start nx threads w + r)) (start nx threads (w + 1) - start nx threads w)
    (fun i => mask (start nx threads w + i)) (gar w)) l
    (by simp only [Nat.mul_one]; exact hl) (fun w _ c hc => fv1_outside _ _ _ _ _ c (by omega)) c (by omega)
  obtain rfl : y = 0 := by omega
  rw [Nat.mul_one, Nat.add_zero] at hcx e
  have := (hord w hw).2
  have key := ader1_still h W undef S fl wt q dx hs hb pred r hp hr (start nx threads (w + 1) - start nx threads w)
    (fun r => ub (start nx threads w + r)) (fun k hk => hub _ (by omega)) (fun i => mask (start nx threads w + i))
    (fun i hi => hm _ (by omega)) (gar w) (fun x => u (start nx threads w + x)) x (by omega)
  rw [apply_get] at key
  rw [apply_get, e, hcx]
  exact key

/-- `split_stepper_para` on a line of one state. -/
theorem split_still1 (hT : 0 < threads) (hb : S.bdot 0 q 0 = 0) (ode : (ι → ℝ) → (ι → ℝ)) (ho : ode q = q) (half : Bool)
    (mid : (Fin n → ι → ℝ) → (Fin n → ι → ℝ)) (hmid : mid (fun _ => q) = fun _ => q) (nx : Nat) (ub : Nat → ι → ℝ)
    (hub : ∀ k < nx + 2 * n, ub k = q) (mask : Nat → Bool) (hm : ∀ i < nx + 2, mask i = true)
    (l : List (Nat × Nat × Option (ι → ℝ)))
    (hl : IsSchedule threads (splitWorker1 (realCoef W.T undef) ode half mid (fun q => q) (kern1 S T fl wt dx false) ub nx mask
      threads) l) (u : Nat → ι → ℝ) (c : Nat) (hc : c < nx) (hu : u c = q) :
    apply (withOde ode (kern1 S T fl wt dx false).app) (l.map Prod.snd) u c = q := by
  obtain ⟨-, hord, -, -⟩ := chunks_partition nx threads hT
  obtain ⟨w, hw, x, y, hy, hx, hcx, e⟩ := schedule_cell nx threads 1 hT (fun w => split1 (realCoef W.T undef) ode half mid
    (fun q => q) (kern1 S T fl wt dx false) (fun r => ub (start nx threads w + r))
    (start nx threads (w + 1) - start nx threads w) (fun i => mask (start nx threads w + i))) l
    (by simp only [Nat.mul_one]; exact hl) (fun w _ c hc => by
      simp only [split1, at'_append, at'_odeOps, at'_someOps]
      rw [if_neg (by omega), fv1_outside (kern1 S T fl wt dx false) _ _ 1 _ c (by omega)]; rfl) c (by omega)
  obtain rfl : y = 0 := by omega
  rw [Nat.mul_one, Nat.add_zero] at hcx e
  have := (hord w hw).2
  have key := split1_still h W undef S fl wt q dx hb ode ho half mid hmid (start nx threads (w + 1) - start nx threads w)
    (fun r => ub (start nx threads w + r)) (fun k hk => hub _ (by omega)) (fun i => mask (start nx threads w + i))
    (fun i hi => hm _ (by omega)) (fun x => u (start nx threads w + x)) x (by omega) (by rw [← hcx]; exact hu)
  rw [apply_get] at key
  rw [apply_get, e, hcx]
  exact key

/-- `ader_stepper_para` on a plane of one state. -/
theorem ader_still2 (hT : 0 < threads) (hs : S.source q = 0) (hb : ∀ d, S.bdot d q 0 = 0) (nc : Bool)
    (pred : (Fin n → Fin n → ι → ℝ) → Option (Nat → Nat → ι → ℝ)) (r : Nat → Nat → ι → ℝ)
    (hp : pred (fun _ _ => q) = some r) (hr : ∀ t < n, ∀ k < n * n, r t k = q) (nx ny : Nat)
    (hw : Chunks n nc nx ny threads) (ub : Nat → ι → ℝ)
    (hub : ∀ k < (nx + 2 * n) * (ny + 2 * n), ub k = q) (mask : Nat → Bool)
    (hm : ∀ i j, Side nx ny i j → mask (cell i j (ny + 2)) = true)
    (gar : Nat → Nat → Nat → Nat → ι → ℝ) (l : List (Nat × Nat × (ι → ℝ)))
    (hl : IsSchedule threads (fun w => aderWorker2 (realCoef W.T undef) nc pred (kern2 S T fl wt dx dy true) ub nx ny mask
      threads (gar w) w) l) (u : Nat → ι → ℝ) (c : Nat) (hc : c < nx * ny) :
    apply (kern2 S T fl wt dx dy true).app (l.map Prod.snd) u c = u c := by
  obtain ⟨-, hord, -, -⟩ := chunks_partition nx threads hT
  obtain ⟨w, hw0, x, y, hy, hx, hcx, e⟩ := schedule_cell nx threads ny hT (fun w => ader2 (realCoef W.T undef) nc pred
    (kern2 S T fl wt dx dy true) (fun r => ub (start nx threads w * (ny + 2 * n) + r))
    (start nx threads (w + 1) - start nx threads w) ny (fun i => mask (start nx threads w * (ny + 2) + i)) (gar w)) l hl
    (fun w _ c hc => at'_bound _ _ (fun op ho => fv2_bound _ _ _ _ _ _ op ho) c hc) c hc
  have := (hord w hw0).2
  have key := ader2_still h W undef S fl wt q dx dy hs hb nc pred r hp hr (start nx threads (w + 1) - start nx threads w) ny
    (hw w hw0 (by omega)) (fun r => ub (start nx threads w * (ny + 2 * n) + r)) (block_const q nx ny _ _ ub (by omega) hub)
    (fun i => mask (start nx threads w * (ny + 2) + i)) (gar w) (fun x => u (start nx threads w * ny + x)) x y (by omega) hy
    (fun i j h1 h2 h3 h4 h5 => by
      rw [show start nx threads w * (ny + 2) + cell i j (ny + 2) = cell (start nx threads w + i) j (ny + 2) by
        unfold cell; ring]
      exact hm _ _ ⟨by omega, by omega, by omega⟩)
  rw [apply_get] at key
  have e3 : start nx threads w * ny + cell x y ny = (start nx threads w + x) * ny + y := by unfold cell; ring
  simp only [e3] at key
  rw [apply_get, e, hcx]
  exact key

/-- `split_stepper_para` on a plane of one state. -/
theorem split_still2 (hT : 0 < threads) (hb : ∀ d, S.bdot d q 0 = 0) (nc : Bool) (ode : (ι → ℝ) → (ι → ℝ)) (ho : ode q = q)
    (half : Bool) (mid : (Fin n → Fin n → ι → ℝ) → (Fin n → Fin n → ι → ℝ)) (hmid : mid (fun _ _ => q) = fun _ _ => q)
    (block : (Fin n → Fin n → ι → ℝ) → Nat → ι → ℝ) (hbl : ∀ s < n * n, block (fun _ _ => q) s = q) (nx ny : Nat)
    (hw : Chunks n nc nx ny threads) (ub : Nat → ι → ℝ)
    (hub : ∀ k < (nx + 2 * n) * (ny + 2 * n), ub k = q) (mask : Nat → Bool)
    (hm : ∀ i j, Side nx ny i j → mask (cell i j (ny + 2)) = true) (l : List (Nat × Nat × Option (ι → ℝ)))
    (hl : IsSchedule threads (splitWorker2 (realCoef W.T undef) nc ode half mid block (kern2 S T fl wt dx dy false) ub nx ny
      mask threads) l) (u : Nat → ι → ℝ) (c : Nat) (hc : c < nx * ny) (hu : u c = q) :
    apply (withOde ode (kern2 S T fl wt dx dy false).app) (l.map Prod.snd) u c = q := by
  obtain ⟨-, hord, -, -⟩ := chunks_partition nx threads hT
  obtain ⟨w, hw0, x, y, hy, hx, hcx, e⟩ := schedule_cell nx threads ny hT (fun w => split2 (realCoef W.T undef) nc ode half mid
    block (kern2 S T fl wt dx dy false) (fun r => ub (start nx threads w * (ny + 2 * n) + r))
    (start nx threads (w + 1) - start nx threads w) ny (fun i => mask (start nx threads w * (ny + 2) + i))) l hl
    (fun w _ c hc => by
      simp only [split2, at'_append, at'_odeOps, at'_someOps]
      rw [if_neg (by omega), at'_bound _ _ (fun op ho => fv2_bound (kern2 S T fl wt dx dy false) _ _ _ 1 _ op ho) c hc]
      rfl) c hc
  have := (hord w hw0).2
  have e3 : start nx threads w * ny + cell x y ny = (start nx threads w + x) * ny + y := by unfold cell; ring
  have key := split2_still h W undef S fl wt q dx dy hb nc ode ho half mid hmid block hbl
    (start nx threads (w + 1) - start nx threads w) ny (hw w hw0 (by omega))
    (fun r => ub (start nx threads w * (ny + 2 * n) + r)) (block_const q nx ny _ _ ub (by omega) hub)
    (fun i => mask (start nx threads w * (ny + 2) + i)) (fun x => u (start nx threads w * ny + x)) x y (by omega) hy
    (by simp only [e3]; rw [← hcx]; exact hu)
    (fun i j h1 h2 h3 h4 h5 => by
      rw [show start nx threads w * (ny + 2) + cell i j (ny + 2) = cell (start nx threads w + i) j (ny + 2) by
        unfold cell; ring]
      exact hm _ _ ⟨by omega, by omega, by omega⟩)
  rw [apply_get] at key
  simp only [e3] at key
  rw [apply_get, e, hcx]
  exact key

end

end Verif.Run
