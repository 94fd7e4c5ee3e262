import Verif.Fv.Lemmas

/-!
# Properties C15-C17 of the finite-volume update
-/

namespace Verif.Fv

open Verif.Dg Verif.Basis

variable {E D R : Type}

/-! ### C17: masked cells are untouched (any arithmetic) -/

/-- **C17, one dimension.**  `mask` is indexed with one ghost cell, so cell `c` is `mask (c + 1)`. -/
theorem fv1_masked (K : Kern E D R) (rec : Nat → R) (nx nt : Nat) (mask : Nat → Bool) (u : Nat → E) (c : Nat)
    (h : mask (c + 1) = false) : apply K.app (fv1 K rec nx nt mask) u c = u c := by
  rw [apply_get]
  by_cases hc : c < nx
  · rw [fv1_at K rec nx nt mask c hc]; simp [h, flatMap_range_none]
  · rw [fv1_outside K rec nx nt mask c hc]; rfl

/-- **C17, two dimensions.** -/
theorem fv2_masked (K : Kern E D R) (rec : Nat → R) (nx ny nt : Nat) (mask : Nat → Bool) (u : Nat → E)
    (x y : Nat) (hx : x < nx) (hy : y < ny) (h : mask ((x + 1) * (ny + 2) + (y + 1)) = false) :
    apply K.app (fv2 K rec nx ny nt mask) u (x * ny + y) = u (x * ny + y) := by
  rw [apply_get]
  change List.foldl _ _ (at' (cell x y ny) _) = _
  rw [fv2_at K rec nx ny nt mask x y hx hy]
  change mask (cell (x + 1) (y + 1) (ny + 2)) = false at h
  simp [h, flatMap_range_none]

/-! ### The update of one cell over the reals -/

variable {n : Nat} {ι : Type}

/-- Trace of a cell's polynomial at its right (`e = 1`) or left (`e = 0`) end. -/
noncomputable def trace (T : Tab n) (e : Fin 2) (qh : Fin n → ι → ℝ) : ι → ℝ := fun v => ∑ k, T.endvals e k * qh k v

/-- Trace at node `s` of the side of a square cell normal to axis `d`. -/
noncomputable def trace2 (T : Tab n) (d : Nat) (e : Fin 2) (qh : Nat → ι → ℝ) (s : Fin n) : ι → ℝ := fun v =>
  if d = 0 then ∑ k : Fin n, T.endvals e k * qh (s + k * n) v else ∑ k : Fin n, T.endvals e k * qh (s * n + k) v

/-- Time-integrated flux through the face between padded cells `g` and `g + 1`: half the interface function
of the traces, over the cell width. -/
noncomputable def faceFlux1 (T : Tab n) (fl : Nat → (ι → ℝ) → (ι → ℝ) → (ι → ℝ)) (wt : Nat → ℝ) (dx : ℝ)
    (rec : Nat → Fin n → ι → ℝ) (nt g : Nat) (v : ι) : ℝ :=
  ∑ t ∈ Finset.range nt, wt t / (2 * dx) *
    fl 0 (trace T 1 (rec (g * nt + t))) (trace T 0 (rec ((g + 1) * nt + t))) v

/-- Source increment of padded cell `g`. -/
noncomputable def cellSource1 (S : Sys ι) (T : Tab n) (wt : Nat → ℝ) (rec : Nat → Fin n → ι → ℝ)
    (nt g : Nat) (v : ι) : ℝ :=
  ∑ t ∈ Finset.range nt, ∑ s : Fin n, wt t * T.w s * S.source (rec (g * nt + t) s) v

/-- The same in two dimensions, for the face between padded cells `a` and `b` (flat cell numbers). -/
noncomputable def faceFlux2 (T : Tab n) (fl : Nat → (ι → ℝ) → (ι → ℝ) → (ι → ℝ)) (wt : Nat → ℝ) (h : ℝ)
    (rec : Nat → Nat → ι → ℝ) (nt d a b : Nat) (v : ι) : ℝ :=
  ∑ t ∈ Finset.range nt, ∑ s : Fin n, wt t / (2 * h) * T.w s *
    fl d (trace2 T d 1 (rec (a * nt + t)) s) (trace2 T d 0 (rec (b * nt + t)) s) v

noncomputable def cellSource2 (S : Sys ι) (T : Tab n) (wt : Nat → ℝ) (rec : Nat → Nat → ι → ℝ)
    (nt a : Nat) (v : ι) : ℝ :=
  ∑ t ∈ Finset.range nt, ∑ i : Fin n, ∑ j : Fin n,
    wt t * T.w i * T.w j * S.source (rec (a * nt + t) (i * n + j)) v

theorem foldl_add_get (l : List (ι → ℝ)) (a : ι → ℝ) (v : ι) :
    l.foldl (fun u d => u + d) a v = a v + (l.map (· v)).sum := by
  induction l generalizing a with
  | nil => simp
  | cons d l ih => rw [List.foldl_cons, ih, List.map_cons, List.sum_cons, Pi.add_apply, add_assoc]

theorem foldl_acc {α : Type} (l : List α) (f : α → ι → ℝ) (a : ι → ℝ) (v : ι) :
    l.foldl (fun u s => u + f s) a v = a v + (l.map (f · v)).sum := by
  induction l generalizing a with
  | nil => simp
  | cons d l ih => rw [List.foldl_cons, ih, List.map_cons, List.sum_cons, Pi.add_apply, add_assoc]

theorem sum_flatMap_range (m : Nat) (f : Nat → List (ι → ℝ)) (v : ι) :
    (((List.range m).flatMap f).map (· v)).sum = ∑ t ∈ Finset.range m, ((f t).map (· v)).sum := by
  induction m with
  | zero => simp
  | succ m ih =>
    rw [List.range_succ, List.flatMap_append, List.map_append, List.sum_append, ih, List.flatMap_singleton,
      Finset.sum_range_succ]

theorem sum_finRange {M : Type} [AddCommMonoid M] (f : Fin n → M) :
    ((List.finRange n).map f).sum = ∑ s, f s := by
  rw [← List.ofFn_eq_map, List.sum_ofFn]

theorem bint_get (S : Sys ι) (T : Tab n) (d : Nat) (ql qr : ι → ℝ) (v : ι) :
    bint S T d ql qr v = ∑ i, T.w i * S.bdot d (ql + T.nodes i • (qr - ql)) (qr - ql) v := by
  unfold bint
  rw [foldl_acc, sum_finRange]
  simp

theorem bint_zero (S : Sys ι) (T : Tab n) (v : ι) (hB : ∀ d q x, S.bdot d q x v = 0) (d : Nat)
    (ql qr : ι → ℝ) : bint S T d ql qr v = 0 := by
  rw [bint_get]; simp [hB]

theorem if_single_sum (p : Bool) (d : ι → ℝ) (v : ι) :
    ((if p = true then [d] else []).map (· v)).sum = if p = true then d v else 0 := by
  cases p <;> simp

section one

variable (S : Sys ι) (T : Tab n) (fl : Nat → (ι → ℝ) → (ι → ℝ) → (ι → ℝ)) (wt : Nat → ℝ) (dx : ℝ)
  (sources : Bool)

theorem kern1_cen_sum (t : Nat) (qh : Fin n → ι → ℝ) (v : ι) (hB : ∀ d q x, S.bdot d q x v = 0) :
    (((kern1 S T fl wt dx sources).cen t qh).map (· v)).sum =
      if sources then ∑ s, wt t * T.w s * S.source (qh s) v else 0 := by
  simp only [kern1, List.map_map]
  rw [show ((fun x : ι → ℝ => x v) ∘ fun s : Fin n => (wt t * T.w s) •
      ((if sources = true then S.source (qh s) else 0) -
        (1 / dx) • S.bdot 0 (qh s) (fun v => ∑ k, T.dervals s k * qh k v))) =
      fun s => if sources then wt t * T.w s * S.source (qh s) v else 0 from by
    funext s
    cases sources <;> simp [hB]]
  rw [sum_finRange]
  cases sources <;> simp

theorem kern1_face (t : Nat) (ql qr : Fin n → ι → ℝ) (v : ι) :
    ((kern1 S T fl wt dx sources).face 0 t ql qr).1 v =
      -(wt t / (2 * dx) * (bint S T 0 (trace T 1 ql) (trace T 0 qr) v + fl 0 (trace T 1 ql) (trace T 0 qr) v)) ∧
    ((kern1 S T fl wt dx sources).face 0 t ql qr).2 v =
      -(wt t / (2 * dx) * (bint S T 0 (trace T 1 ql) (trace T 0 qr) v - fl 0 (trace T 1 ql) (trace T 0 qr) v)) :=
  ⟨rfl, rfl⟩

/-- The new value of cell `c` in a component without non-conservative terms. -/
theorem fv1_cell (rec : Nat → Fin n → ι → ℝ) (nx nt : Nat) (mask : Nat → Bool) (u : Nat → ι → ℝ) (c : Nat)
    (hc : c < nx) (v : ι) (hB : ∀ d q x, S.bdot d q x v = 0) :
    apply (kern1 S T fl wt dx sources).app (fv1 (kern1 S T fl wt dx sources) rec nx nt mask) u c v = u c v +
      (if mask (c + 1) && sources then cellSource1 S T wt rec nt (c + 1) v else 0) +
      (if mask c && mask (c + 1) then faceFlux1 T fl wt dx rec nt c v else 0) -
      (if mask (c + 1) && mask (c + 2) then faceFlux1 T fl wt dx rec nt (c + 1) v else 0) := by
  rw [apply_get, fv1_at _ rec nx nt mask c hc]
  change List.foldl (fun (u d : ι → ℝ) => u + d) _ _ v = _
  rw [foldl_add_get, List.map_append, List.sum_append, sum_flatMap_range, sum_flatMap_range]
  have h1 : ∀ t, ((if mask (c + 1) = true then (kern1 S T fl wt dx sources).cen t (rec (ind2 (c + 1) t nt))
      else []).map (· v)).sum = if mask (c + 1) && sources then
        ∑ s, wt t * T.w s * S.source (rec ((c + 1) * nt + t) s) v else 0 := by
    intro t
    cases mask (c + 1)
    · simp
    · simp only [if_true]
      rw [kern1_cen_sum S T fl wt dx sources t _ v hB]; simp [ind2]
  have h2 : ∀ g t, ((kern1 S T fl wt dx sources).face 0 t (rec (ind2 g t nt)) (rec (ind2 (g + 1) t nt))).1 v =
      -(wt t / (2 * dx) * fl 0 (trace T 1 (rec (g * nt + t))) (trace T 0 (rec ((g + 1) * nt + t))) v) := by
    intro g t
    rw [(kern1_face S T fl wt dx sources t _ _ v).1, bint_zero S T v hB, zero_add]; rfl
  have h3 : ∀ g t, ((kern1 S T fl wt dx sources).face 0 t (rec (ind2 g t nt)) (rec (ind2 (g + 1) t nt))).2 v =
      wt t / (2 * dx) * fl 0 (trace T 1 (rec (g * nt + t))) (trace T 0 (rec ((g + 1) * nt + t))) v := by
    intro g t
    rw [(kern1_face S T fl wt dx sources t _ _ v).2, bint_zero S T v hB, zero_sub, mul_neg, neg_neg]; rfl
  simp only [h1, List.map_append, List.sum_append, if_single_sum, h3]
  simp only [h2 (c + 1)]
  rw [Finset.sum_add_distrib]
  unfold cellSource1 faceFlux1
  cases mask (c + 1) <;> cases mask c <;> cases mask (c + 2) <;> cases sources <;>
    simp [Finset.sum_neg_distrib] <;> ring

/-- **C15, one dimension.**  For a component whose non-conservative product vanishes, whatever the mask: the
total changes by the fluxes through the two domain boundaries and the sources, and by nothing else. -/
theorem fv1_conservative (rec : Nat → Fin n → ι → ℝ) (nx nt : Nat) (mask : Nat → Bool) (u : Nat → ι → ℝ)
    (v : ι) (hB : ∀ d q x, S.bdot d q x v = 0) :
    ∑ c ∈ Finset.range nx,
      apply (kern1 S T fl wt dx sources).app (fv1 (kern1 S T fl wt dx sources) rec nx nt mask) u c v =
    ∑ c ∈ Finset.range nx, u c v +
      ∑ c ∈ Finset.range nx, (if mask (c + 1) && sources then cellSource1 S T wt rec nt (c + 1) v else 0) +
      ((if mask 0 && mask 1 then faceFlux1 T fl wt dx rec nt 0 v else 0) -
        (if mask nx && mask (nx + 1) then faceFlux1 T fl wt dx rec nt nx v else 0)) := by
  rw [Finset.sum_congr rfl fun c hc =>
    fv1_cell S T fl wt dx sources rec nx nt mask u c (Finset.mem_range.mp hc) v hB]
  rw [← Finset.sum_range_sub' (fun g => if mask g && mask (g + 1) then faceFlux1 T fl wt dx rec nt g v else 0) nx,
    ← Finset.sum_add_distrib, ← Finset.sum_add_distrib]
  refine Finset.sum_congr rfl fun c _ => ?_
  ring

/-- C15 with every cell active and no boundary flux difference (for instance periodic data): the total is
unchanged when there are no sources. -/
theorem fv1_total (rec : Nat → Fin n → ι → ℝ) (nx nt : Nat) (u : Nat → ι → ℝ)
    (v : ι) (hB : ∀ d q x, S.bdot d q x v = 0)
    (hp : ∀ t < nt, rec (0 * nt + t) = rec (nx * nt + t) ∧ rec (1 * nt + t) = rec ((nx + 1) * nt + t)) :
    ∑ c ∈ Finset.range nx,
      apply (kern1 S T fl wt dx false).app (fv1 (kern1 S T fl wt dx false) rec nx nt fun _ => true) u c v =
    ∑ c ∈ Finset.range nx, u c v := by
  rw [fv1_conservative S T fl wt dx false rec nx nt _ u v hB]
  have : faceFlux1 T fl wt dx rec nt 0 v = faceFlux1 T fl wt dx rec nt nx v := by
    unfold faceFlux1
    refine Finset.sum_congr rfl fun t ht => ?_
    have := hp t (Finset.mem_range.mp ht)
    rw [this.1, show 0 + 1 = 1 from rfl, this.2]
  simp [this]

end one

section two

variable (S : Sys ι) (T : Tab n) (fl : Nat → (ι → ℝ) → (ι → ℝ) → (ι → ℝ)) (wt : Nat → ℝ) (dx dy : ℝ)
  (sources : Bool)

theorem endpts_trace (d : Nat) (hd : d = 0 ∨ d = 1) (e : Fin 2) (qh : Nat → ι → ℝ) (s : Fin n) :
    (fun v => endpts2d T.endvals (fun _ => 0) (fun r => qh r v) d e s) = trace2 T d e qh s := by
  funext v
  unfold endpts2d trace2
  have := s.2
  rcases hd with rfl | rfl <;> simp

theorem kern2_cen_sum (t : Nat) (qh : Nat → ι → ℝ) (v : ι) (hB : ∀ d q x, S.bdot d q x v = 0) :
    (((kern2 S T fl wt dx dy sources).cen t qh).map (· v)).sum =
      if sources then ∑ i : Fin n, ∑ j : Fin n, wt t * T.w i * T.w j * S.source (qh (i * n + j)) v else 0 := by
  simp only [kern2, List.map_flatMap, List.map_map]
  have e : ∀ (a : Fin n), ((fun x : ι → ℝ => x v) ∘ fun b : Fin n => (wt t * T.w a * T.w b) •
      ((if sources = true then S.source (qh (a * n + b)) else 0) -
        (1 / dx) • S.bdot 0 (qh (a * n + b))
          (fun v => derivs2d T.dervals (fun _ => 0) (fun r => qh r v) 0 (a * n + b)) -
        (1 / dy) • S.bdot 1 (qh (a * n + b))
          (fun v => derivs2d T.dervals (fun _ => 0) (fun r => qh r v) 1 (a * n + b)))) =
      fun b => if sources then wt t * T.w a * T.w b * S.source (qh (a * n + b)) v else 0 := by
    intro a
    funext b
    cases sources <;> simp [hB]
  simp only [e]
  rw [List.flatMap_def, List.sum_flatten, List.map_map]
  simp only [Function.comp_def, sum_finRange]
  cases sources <;> simp

theorem kern2_face (d : Nat) (hd : d = 0 ∨ d = 1) (t : Nat) (q0 q1 : Nat → ι → ℝ) (v : ι) :
    ((kern2 S T fl wt dx dy sources).face d t q0 q1).1 v =
      -(∑ s : Fin n, wt t / (2 * if d = 0 then dx else dy) * T.w s *
        (bint S T d (trace2 T d 1 q0 s) (trace2 T d 0 q1 s) v
          + fl d (trace2 T d 1 q0 s) (trace2 T d 0 q1 s) v)) ∧
    ((kern2 S T fl wt dx dy sources).face d t q0 q1).2 v =
      -(∑ s : Fin n, wt t / (2 * if d = 0 then dx else dy) * T.w s *
        (bint S T d (trace2 T d 1 q0 s) (trace2 T d 0 q1 s) v
          - fl d (trace2 T d 1 q0 s) (trace2 T d 0 q1 s) v)) := by
  constructor
  all_goals
    simp only [kern2, Pi.neg_apply]
    rw [foldl_acc, sum_finRange]
    simp only [Pi.zero_apply, zero_add, faceNode]
    simp only [endpts_trace T d hd, Pi.smul_apply, Pi.add_apply, Pi.sub_apply, smul_eq_mul]

/-- The new value of cell `(x, y)` in a component without non-conservative terms. -/
theorem fv2_cell (rec : Nat → Nat → ι → ℝ) (nx ny nt : Nat) (mask : Nat → Bool) (u : Nat → ι → ℝ) (x y : Nat)
    (hx : x < nx) (hy : y < ny) (v : ι) (hB : ∀ d q x, S.bdot d q x v = 0) :
    apply (kern2 S T fl wt dx dy sources).app (fv2 (kern2 S T fl wt dx dy sources) rec nx ny nt mask) u
        (cell x y ny) v = u (cell x y ny) v +
      (if mask (cell (x + 1) (y + 1) (ny + 2)) && sources then
        cellSource2 S T wt rec nt (cell (x + 1) (y + 1) (ny + 2)) v else 0) +
      ((if mask (cell x (y + 1) (ny + 2)) && mask (cell (x + 1) (y + 1) (ny + 2)) then
        faceFlux2 T fl wt dx rec nt 0 (cell x (y + 1) (ny + 2)) (cell (x + 1) (y + 1) (ny + 2)) v else 0) -
      (if mask (cell (x + 1) (y + 1) (ny + 2)) && mask (cell (x + 2) (y + 1) (ny + 2)) then
        faceFlux2 T fl wt dx rec nt 0 (cell (x + 1) (y + 1) (ny + 2)) (cell (x + 2) (y + 1) (ny + 2)) v else 0)) +
      ((if mask (cell (x + 1) y (ny + 2)) && mask (cell (x + 1) (y + 1) (ny + 2)) then
        faceFlux2 T fl wt dy rec nt 1 (cell (x + 1) y (ny + 2)) (cell (x + 1) (y + 1) (ny + 2)) v else 0) -
      (if mask (cell (x + 1) (y + 1) (ny + 2)) && mask (cell (x + 1) (y + 2) (ny + 2)) then
        faceFlux2 T fl wt dy rec nt 1 (cell (x + 1) (y + 1) (ny + 2)) (cell (x + 1) (y + 2) (ny + 2)) v
        else 0)) := by
  rw [apply_get, fv2_at _ rec nx ny nt mask x y hx hy]
  change List.foldl (fun (u d : ι → ℝ) => u + d) _ _ v = _
  rw [foldl_add_get, List.map_append, List.sum_append, sum_flatMap_range, sum_flatMap_range]
  have h1 : ∀ t, ((if mask (cell (x + 1) (y + 1) (ny + 2)) = true then
      (kern2 S T fl wt dx dy sources).cen t (rec (ind3 (x + 1) (y + 1) t (ny + 2) nt))
      else []).map (· v)).sum = if mask (cell (x + 1) (y + 1) (ny + 2)) && sources then
        ∑ i : Fin n, ∑ j : Fin n, wt t * T.w i * T.w j *
          S.source (rec (cell (x + 1) (y + 1) (ny + 2) * nt + t) (i * n + j)) v else 0 := by
    intro t
    cases mask (cell (x + 1) (y + 1) (ny + 2))
    · simp
    · simp only [if_true]
      rw [kern2_cen_sum S T fl wt dx dy sources t _ v hB]; simp [ind3, cell]
  have hd0 : (0 : Nat) = 0 ∨ (0 : Nat) = 1 := Or.inl rfl
  have hd1 : (1 : Nat) = 0 ∨ (1 : Nat) = 1 := Or.inr rfl
  have h2 : ∀ d, (d = 0 ∨ d = 1) → ∀ q0 q1 t, ((kern2 S T fl wt dx dy sources).face d t q0 q1).1 v =
      -(∑ s : Fin n, wt t / (2 * if d = 0 then dx else dy) * T.w s *
        fl d (trace2 T d 1 q0 s) (trace2 T d 0 q1 s) v) := by
    intro d hd q0 q1 t
    rw [(kern2_face S T fl wt dx dy sources d hd t _ _ v).1]
    simp only [bint_zero S T v hB, zero_add]
  have h3 : ∀ d, (d = 0 ∨ d = 1) → ∀ q0 q1 t, ((kern2 S T fl wt dx dy sources).face d t q0 q1).2 v =
      ∑ s : Fin n, wt t / (2 * if d = 0 then dx else dy) * T.w s *
        fl d (trace2 T d 1 q0 s) (trace2 T d 0 q1 s) v := by
    intro d hd q0 q1 t
    rw [(kern2_face S T fl wt dx dy sources d hd t _ _ v).2]
    simp only [bint_zero S T v hB, zero_sub, mul_neg, Finset.sum_neg_distrib, neg_neg]
  simp only [h1, List.map_append, List.sum_append, if_single_sum, h2 0 hd0, h2 1 hd1, h3 0 hd0, h3 1 hd1]
  rw [Finset.sum_add_distrib, Finset.sum_add_distrib, Finset.sum_add_distrib]
  unfold cellSource2 faceFlux2
  have hi : ∀ i j t, ind3 i j t (ny + 2) nt = cell i j (ny + 2) * nt + t := fun _ _ _ => rfl
  simp only [hi, if_true, show ¬ (1 : Nat) = 0 from by decide, if_false]
  have hneg : ∀ (p : Bool) (f : Nat → ℝ), ∑ t ∈ Finset.range nt, (if p = true then -f t else 0) =
      -(if p = true then ∑ t ∈ Finset.range nt, f t else 0) := by
    intro p f; cases p <;> simp
  have hpos : ∀ (p : Bool) (f : Nat → ℝ), ∑ t ∈ Finset.range nt, (if p = true then f t else 0) =
      (if p = true then ∑ t ∈ Finset.range nt, f t else 0) := by
    intro p f; cases p <;> simp
  simp only [hneg, hpos]
  ring

/-- **C15, two dimensions.**  The total over the grid changes by the fluxes through the four sides of the
domain and the sources, and by nothing else. -/
theorem fv2_conservative (rec : Nat → Nat → ι → ℝ) (nx ny nt : Nat) (mask : Nat → Bool) (u : Nat → ι → ℝ)
    (v : ι) (hB : ∀ d q x, S.bdot d q x v = 0) :
    ∑ x ∈ Finset.range nx, ∑ y ∈ Finset.range ny,
      apply (kern2 S T fl wt dx dy sources).app (fv2 (kern2 S T fl wt dx dy sources) rec nx ny nt mask) u
        (cell x y ny) v =
    ∑ x ∈ Finset.range nx, ∑ y ∈ Finset.range ny, u (cell x y ny) v +
      ∑ x ∈ Finset.range nx, ∑ y ∈ Finset.range ny, (if mask (cell (x + 1) (y + 1) (ny + 2)) && sources then
        cellSource2 S T wt rec nt (cell (x + 1) (y + 1) (ny + 2)) v else 0) +
      ∑ y ∈ Finset.range ny,
        ((if mask (cell 0 (y + 1) (ny + 2)) && mask (cell 1 (y + 1) (ny + 2)) then
          faceFlux2 T fl wt dx rec nt 0 (cell 0 (y + 1) (ny + 2)) (cell 1 (y + 1) (ny + 2)) v else 0) -
        (if mask (cell nx (y + 1) (ny + 2)) && mask (cell (nx + 1) (y + 1) (ny + 2)) then
          faceFlux2 T fl wt dx rec nt 0 (cell nx (y + 1) (ny + 2)) (cell (nx + 1) (y + 1) (ny + 2)) v else 0)) +
      ∑ x ∈ Finset.range nx,
        ((if mask (cell (x + 1) 0 (ny + 2)) && mask (cell (x + 1) 1 (ny + 2)) then
          faceFlux2 T fl wt dy rec nt 1 (cell (x + 1) 0 (ny + 2)) (cell (x + 1) 1 (ny + 2)) v else 0) -
        (if mask (cell (x + 1) ny (ny + 2)) && mask (cell (x + 1) (ny + 1) (ny + 2)) then
          faceFlux2 T fl wt dy rec nt 1 (cell (x + 1) ny (ny + 2)) (cell (x + 1) (ny + 1) (ny + 2)) v
          else 0)) := by
  rw [Finset.sum_congr rfl fun x hx => Finset.sum_congr rfl fun y hy =>
    fv2_cell S T fl wt dx dy sources rec nx ny nt mask u x y (Finset.mem_range.mp hx)
      (Finset.mem_range.mp hy) v hB]
  simp only [Finset.sum_add_distrib]
  congr 1
  · congr 1
    rw [Finset.sum_comm]
    refine Finset.sum_congr rfl fun y _ => ?_
    exact Finset.sum_range_sub' (fun x => if mask (cell x (y + 1) (ny + 2)) && mask (cell (x + 1) (y + 1) (ny + 2))
      then faceFlux2 T fl wt dx rec nt 0 (cell x (y + 1) (ny + 2)) (cell (x + 1) (y + 1) (ny + 2)) v else 0) nx
  · refine Finset.sum_congr rfl fun x _ => ?_
    exact Finset.sum_range_sub' (fun y => if mask (cell (x + 1) y (ny + 2)) && mask (cell (x + 1) (y + 1) (ny + 2))
      then faceFlux2 T fl wt dy rec nt 1 (cell (x + 1) y (ny + 2)) (cell (x + 1) (y + 1) (ny + 2)) v else 0) ny

end two

end Verif.Fv
