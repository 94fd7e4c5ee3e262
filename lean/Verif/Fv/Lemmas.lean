import Verif.Fv.Model
import Verif.Dg.Galerkin
import Mathlib.Algebra.BigOperators.Group.List.Basic

/-!
# The increments a single cell receives, in order
-/

namespace Verif.Fv

variable {E D R : Type}

/-- The increments addressed to cell `c`, in order. -/
def at' (c : Nat) (ops : List (Nat × D)) : List D :=
  (ops.filter fun op => op.1 == c).map Prod.snd

@[simp] theorem at'_nil (c : Nat) : at' c ([] : List (Nat × D)) = [] := rfl

@[simp] theorem at'_append (c : Nat) (l l' : List (Nat × D)) : at' c (l ++ l') = at' c l ++ at' c l' := by
  simp [at']

theorem at'_flatMap {α : Type} (c : Nat) (l : List α) (g : α → List (Nat × D)) :
    at' c (l.flatMap g) = l.flatMap fun a => at' c (g a) := by
  induction l with
  | nil => rfl
  | cons a l ih => rw [List.flatMap_cons, at'_append, ih, List.flatMap_cons]

theorem at'_if (c : Nat) (p : Bool) (l : List (Nat × D)) :
    at' c (if p then l else []) = if p then at' c l else [] := by cases p <;> rfl

theorem at'_single (c a : Nat) (d : D) : at' c [(a, d)] = if a = c then [d] else [] := by
  unfold at'
  by_cases h : a = c
  · simp [h]
  · simp [h]

theorem at'_map (c a : Nat) (l : List D) :
    at' c (l.map fun d => (a, d)) = if a = c then l else [] := by
  induction l with
  | nil => simp
  | cons d l ih =>
    rw [List.map_cons, ← List.singleton_append, at'_append, ih, at'_single]
    split <;> simp

/-- The value of a cell after the increments. -/
theorem apply_get (app : E → D → E) (ops : List (Nat × D)) (u : Nat → E) (c : Nat) :
    apply app ops u c = (at' c ops).foldl app (u c) := by
  induction ops generalizing u with
  | nil => rfl
  | cons op ops ih =>
    have h : apply app (op :: ops) u = apply app ops (Function.update u op.1 (app (u op.1) op.2)) := rfl
    rw [h, ih, ← List.singleton_append, at'_append]
    obtain ⟨a, d⟩ := op
    rw [at'_single]
    by_cases hc : a = c
    · subst hc; simp
    · rw [Function.update_of_ne (Ne.symm hc)]; simp [hc]

theorem flatMap_range_none {α : Type} (n : Nat) (f : Nat → List α) (h : ∀ i < n, f i = []) :
    (List.range n).flatMap f = [] := by
  rw [List.flatMap_eq_nil_iff]
  intro i hi
  exact h i (List.mem_range.mp hi)

theorem flatMap_range_one {α : Type} (n a : Nat) (f : Nat → List α) (ha : a < n)
    (h : ∀ i < n, i ≠ a → f i = []) : (List.range n).flatMap f = f a := by
  induction n with
  | zero => omega
  | succ n ih =>
    rw [List.range_succ, List.flatMap_append, List.flatMap_singleton]
    by_cases hn : a = n
    · subst hn
      rw [flatMap_range_none a f fun i hi => h i (by omega) (by omega), List.nil_append]
    · rw [ih (by omega) fun i hi hne => h i (by omega) hne, h n (by omega) (Ne.symm hn), List.append_nil]

theorem flatMap_range_two {α : Type} (n a : Nat) (f : Nat → List α) (ha : a + 1 < n)
    (h : ∀ i < n, i ≠ a → i ≠ a + 1 → f i = []) : (List.range n).flatMap f = f a ++ f (a + 1) := by
  induction n with
  | zero => omega
  | succ n ih =>
    rw [List.range_succ, List.flatMap_append, List.flatMap_singleton]
    by_cases hn : a + 1 = n
    · subst hn
      rw [flatMap_range_one (a + 1) a f (by omega) fun i hi hne => h i (by omega) hne (by omega)]
    · rw [ih (by omega) fun i hi h1 h2 => h i (by omega) h1 h2, h n (by omega) (by omega) (Ne.symm hn),
        List.append_nil]

theorem cell_inj {ny i j i' j' : Nat} (hj : j < ny) (hj' : j' < ny) (h : cell i j ny = cell i' j' ny) :
    i = i' ∧ j = j' := by
  unfold cell at h
  have h1 : (i * ny + j) / ny = i := by
    rw [Nat.mul_comm, Nat.mul_add_div (by omega), Nat.div_eq_of_lt hj, Nat.add_zero]
  have h2 : (i' * ny + j') / ny = i' := by
    rw [Nat.mul_comm, Nat.mul_add_div (by omega), Nat.div_eq_of_lt hj', Nat.add_zero]
  have : i = i' := by rw [← h1, ← h2, h]
  subst this
  exact ⟨rfl, by omega⟩

/-! ### One dimension -/

theorem centers1_at (K : Kern E D R) (rec : Nat → R) (nx nt t : Nat) (mask : Nat → Bool) (c : Nat) :
    at' c (centers1Inner K rec nx nt t mask) =
      if c < nx ∧ mask (c + 1) = true then K.cen t (rec (ind2 (c + 1) t nt)) else [] := by
  unfold centers1Inner
  rw [at'_flatMap]
  simp only [at'_if, at'_map]
  by_cases hc : c < nx
  · rw [flatMap_range_one nx c _ hc fun i _ hi => by simp [hi]]
    simp [hc]
  · rw [flatMap_range_none nx _ fun i hi => by simp [show i ≠ c by omega]]
    simp [hc]

theorem interfs1_at (K : Kern E D R) (rec : Nat → R) (nx nt t : Nat) (mask : Nat → Bool) (c : Nat) :
    at' c (interfs1Inner K rec nx nt t mask) =
      if c < nx then
        (if mask c && mask (c + 1) then
          [(K.face 0 t (rec (ind2 c t nt)) (rec (ind2 (c + 1) t nt))).2] else []) ++
        (if mask (c + 1) && mask (c + 2) then
          [(K.face 0 t (rec (ind2 (c + 1) t nt)) (rec (ind2 (c + 2) t nt))).1] else [])
      else [] := by
  unfold interfs1Inner
  rw [at'_flatMap]
  have e : ∀ i, at' c (if mask i && mask (i + 1) then
      (if i > 0 then [(i - 1, (K.face 0 t (rec (ind2 i t nt)) (rec (ind2 (i + 1) t nt))).1)] else []) ++
      (if i < nx then [(i, (K.face 0 t (rec (ind2 i t nt)) (rec (ind2 (i + 1) t nt))).2)] else []) else []) =
      if mask i && mask (i + 1) then
        (if i = c + 1 then [(K.face 0 t (rec (ind2 i t nt)) (rec (ind2 (i + 1) t nt))).1] else []) ++
        (if i < nx ∧ i = c then [(K.face 0 t (rec (ind2 i t nt)) (rec (ind2 (i + 1) t nt))).2] else [])
      else [] := by
    intro i
    rw [at'_if, at'_append]
    congr 2
    · by_cases hi : i > 0
      · rw [if_pos hi, at'_single]
        exact if_congr (by omega) rfl rfl
      · rw [if_neg hi, at'_nil, if_neg (by omega)]
    · by_cases hi : i < nx
      · rw [if_pos hi, at'_single]
        exact if_congr (by simp [hi]) rfl rfl
      · rw [if_neg hi, at'_nil, if_neg (by omega)]
  simp only [] at e ⊢
  simp only [e]
  by_cases hc : c < nx
  · rw [flatMap_range_two (nx + 1) c _ (by omega) fun i _ h1 h2 => by simp [h1, h2]]
    simp [hc]
  · rw [flatMap_range_none (nx + 1) _ fun i hi => by
      simp only [show ¬ (i = c + 1) by omega, show ¬ (i < nx ∧ i = c) by omega, if_false, List.append_nil,
        ite_self]]
    simp [hc]

/-- What `fv_launcher` does to one cell in one dimension: centre increments of all time nodes, then for each
time node the left face and the right face. -/
theorem fv1_at (K : Kern E D R) (rec : Nat → R) (nx nt : Nat) (mask : Nat → Bool) (c : Nat) (hc : c < nx) :
    at' c (fv1 K rec nx nt mask) =
      ((List.range nt).flatMap fun t =>
        if mask (c + 1) = true then K.cen t (rec (ind2 (c + 1) t nt)) else []) ++
      (List.range nt).flatMap fun t =>
        (if mask c && mask (c + 1) then
          [(K.face 0 t (rec (ind2 c t nt)) (rec (ind2 (c + 1) t nt))).2] else []) ++
        (if mask (c + 1) && mask (c + 2) then
          [(K.face 0 t (rec (ind2 (c + 1) t nt)) (rec (ind2 (c + 2) t nt))).1] else []) := by
  unfold fv1
  simp only [at'_append, at'_flatMap, centers1_at, interfs1_at, hc, true_and, if_true]

theorem fv1_outside (K : Kern E D R) (rec : Nat → R) (nx nt : Nat) (mask : Nat → Bool) (c : Nat)
    (hc : ¬ c < nx) : at' c (fv1 K rec nx nt mask) = [] := by
  unfold fv1
  simp only [at'_append, at'_flatMap, centers1_at, interfs1_at, hc, false_and, if_false]
  simp

/-! ### Two dimensions -/

theorem centers2_at (K : Kern E D R) (rec : Nat → R) (nx ny nt t : Nat) (mask : Nat → Bool) (x y : Nat)
    (hx : x < nx) (hy : y < ny) :
    at' (cell x y ny) (centers2Inner K rec nx ny nt t mask) =
      if mask (cell (x + 1) (y + 1) (ny + 2)) = true then
        K.cen t (rec (ind3 (x + 1) (y + 1) t (ny + 2) nt)) else [] := by
  unfold centers2Inner
  simp only [at'_flatMap, at'_if, at'_map]
  rw [flatMap_range_one nx x _ hx, flatMap_range_one ny y _ hy]
  · simp
  · intro j hj hne
    rw [if_neg (fun h => hne (cell_inj hj hy h).2)]; simp
  · intro i _ hne
    refine flatMap_range_none ny _ fun j hj => ?_
    rw [if_neg (fun h => hne (cell_inj hj hy h).1)]; simp

theorem faceX_at (K : Kern E D R) (rec : Nat → R) (nx ny nt t : Nat) (mask : Nat → Bool) (x y i j : Nat)
    (hx : x < nx) (hy : y < ny) (hj : j ≤ ny) :
    at' (cell x y ny) (faceX K rec nx ny nt t mask i j) =
      if mask (cell (i + 1) j (ny + 2)) = true ∧ j = y + 1 then
        (if i = x + 1 then
          [(K.face 0 t (rec (ind3 i j t (ny + 2) nt)) (rec (ind3 (i + 1) j t (ny + 2) nt))).1] else []) ++
        (if i = x then
          [(K.face 0 t (rec (ind3 i j t (ny + 2) nt)) (rec (ind3 (i + 1) j t (ny + 2) nt))).2] else [])
      else [] := by
  unfold faceX
  rw [at'_if]
  by_cases hm : mask (cell (i + 1) j (ny + 2)) = true
  · by_cases hj0 : j > 0
    · simp only [hm, hj0, decide_true, Bool.and_self, if_true, at'_append, true_and]
      have e1 : at' (cell x y ny) (if i > 0 then [(cell (i - 1) (j - 1) ny,
          (K.face 0 t (rec (ind3 i j t (ny + 2) nt)) (rec (ind3 (i + 1) j t (ny + 2) nt))).1)] else []) =
          if j = y + 1 ∧ i = x + 1 then
          [(K.face 0 t (rec (ind3 i j t (ny + 2) nt)) (rec (ind3 (i + 1) j t (ny + 2) nt))).1] else [] := by
        by_cases hi : i > 0
        · rw [if_pos hi, at'_single]
          refine if_congr ⟨fun h => ?_, fun h => ?_⟩ rfl rfl
          · have := cell_inj (by omega) hy h; omega
          · rw [h.1, h.2]; rfl
        · rw [if_neg hi, at'_nil, if_neg (by omega)]
      have e2 : at' (cell x y ny) (if i < nx then [(cell i (j - 1) ny,
          (K.face 0 t (rec (ind3 i j t (ny + 2) nt)) (rec (ind3 (i + 1) j t (ny + 2) nt))).2)] else []) =
          if j = y + 1 ∧ i = x then
          [(K.face 0 t (rec (ind3 i j t (ny + 2) nt)) (rec (ind3 (i + 1) j t (ny + 2) nt))).2] else [] := by
        by_cases hi : i < nx
        · rw [if_pos hi, at'_single]
          refine if_congr ⟨fun h => ?_, fun h => ?_⟩ rfl rfl
          · have := cell_inj (by omega) hy h; omega
          · rw [h.1, h.2]; rfl
        · rw [if_neg hi, at'_nil, if_neg (by omega)]
      rw [e1, e2]
      by_cases h : j = y + 1
      · simp [h]
      · simp [h]
    · simp [hj0, show ¬ j = y + 1 by omega]
  · simp [hm]

theorem faceY_at (K : Kern E D R) (rec : Nat → R) (nx ny nt t : Nat) (mask : Nat → Bool) (x y i j : Nat)
    (hy : y < ny) (hj : j ≤ ny) :
    at' (cell x y ny) (faceY K rec nx ny nt t mask i j) =
      if mask (cell i (j + 1) (ny + 2)) = true ∧ i = x + 1 then
        (if j = y + 1 then
          [(K.face 1 t (rec (ind3 i j t (ny + 2) nt)) (rec (ind3 i (j + 1) t (ny + 2) nt))).1] else []) ++
        (if j = y then
          [(K.face 1 t (rec (ind3 i j t (ny + 2) nt)) (rec (ind3 i (j + 1) t (ny + 2) nt))).2] else [])
      else [] := by
  unfold faceY
  rw [at'_if]
  by_cases hm : mask (cell i (j + 1) (ny + 2)) = true
  · by_cases hi0 : i > 0
    · simp only [hm, hi0, decide_true, Bool.and_self, if_true, at'_append, true_and]
      have e1 : at' (cell x y ny) (if j > 0 then [(cell (i - 1) (j - 1) ny,
          (K.face 1 t (rec (ind3 i j t (ny + 2) nt)) (rec (ind3 i (j + 1) t (ny + 2) nt))).1)] else []) =
          if i = x + 1 ∧ j = y + 1 then
          [(K.face 1 t (rec (ind3 i j t (ny + 2) nt)) (rec (ind3 i (j + 1) t (ny + 2) nt))).1] else [] := by
        by_cases hj0 : j > 0
        · rw [if_pos hj0, at'_single]
          refine if_congr ⟨fun h => ?_, fun h => ?_⟩ rfl rfl
          · have := cell_inj (by omega) hy h; omega
          · rw [h.1, h.2]; rfl
        · rw [if_neg hj0, at'_nil, if_neg (by omega)]
      have e2 : at' (cell x y ny) (if j < ny then [(cell (i - 1) j ny,
          (K.face 1 t (rec (ind3 i j t (ny + 2) nt)) (rec (ind3 i (j + 1) t (ny + 2) nt))).2)] else []) =
          if i = x + 1 ∧ j = y then
          [(K.face 1 t (rec (ind3 i j t (ny + 2) nt)) (rec (ind3 i (j + 1) t (ny + 2) nt))).2] else [] := by
        by_cases hj1 : j < ny
        · rw [if_pos hj1, at'_single]
          refine if_congr ⟨fun h => ?_, fun h => ?_⟩ rfl rfl
          · have := cell_inj hj1 hy h; omega
          · rw [h.1, h.2]; rfl
        · rw [if_neg hj1, at'_nil, if_neg (by omega)]
      rw [e1, e2]
      by_cases h : i = x + 1
      · simp [h]
      · simp [h]
    · simp [hi0, show ¬ i = x + 1 by omega]
  · simp [hm]

/-- The four faces of a cell in the order in which the double loop visits them: west, south, east, north. -/
theorem interfs2_at (K : Kern E D R) (rec : Nat → R) (nx ny nt t : Nat) (mask : Nat → Bool) (x y : Nat)
    (hx : x < nx) (hy : y < ny) :
    at' (cell x y ny) (interfs2Inner K rec nx ny nt t mask) =
      (if mask (cell x (y + 1) (ny + 2)) && mask (cell (x + 1) (y + 1) (ny + 2)) then
        [(K.face 0 t (rec (ind3 x (y + 1) t (ny + 2) nt)) (rec (ind3 (x + 1) (y + 1) t (ny + 2) nt))).2]
        else []) ++
      (if mask (cell (x + 1) y (ny + 2)) && mask (cell (x + 1) (y + 1) (ny + 2)) then
        [(K.face 1 t (rec (ind3 (x + 1) y t (ny + 2) nt)) (rec (ind3 (x + 1) (y + 1) t (ny + 2) nt))).2]
        else []) ++
      (if mask (cell (x + 1) (y + 1) (ny + 2)) && mask (cell (x + 2) (y + 1) (ny + 2)) then
        [(K.face 0 t (rec (ind3 (x + 1) (y + 1) t (ny + 2) nt)) (rec (ind3 (x + 2) (y + 1) t (ny + 2) nt))).1]
        else []) ++
      (if mask (cell (x + 1) (y + 1) (ny + 2)) && mask (cell (x + 1) (y + 2) (ny + 2)) then
        [(K.face 1 t (rec (ind3 (x + 1) (y + 1) t (ny + 2) nt)) (rec (ind3 (x + 1) (y + 2) t (ny + 2) nt))).1]
        else []) := by
  unfold interfs2Inner
  simp only [at'_flatMap, at'_if, at'_append]
  have e : ∀ i, ((List.range (ny + 1)).flatMap fun j => if mask (cell i j (ny + 2)) = true then
      at' (cell x y ny) (faceX K rec nx ny nt t mask i j) ++
        at' (cell x y ny) (faceY K rec nx ny nt t mask i j) else []) =
      (if mask (cell i y (ny + 2)) = true then
        at' (cell x y ny) (faceX K rec nx ny nt t mask i y) ++
        at' (cell x y ny) (faceY K rec nx ny nt t mask i y) else []) ++
      (if mask (cell i (y + 1) (ny + 2)) = true then
        at' (cell x y ny) (faceX K rec nx ny nt t mask i (y + 1)) ++
        at' (cell x y ny) (faceY K rec nx ny nt t mask i (y + 1)) else []) := by
    intro i
    refine flatMap_range_two (ny + 1) y _ (by omega) fun j hj h1 h2 => ?_
    rw [faceX_at K rec nx ny nt t mask x y i j hx hy (by omega),
      faceY_at K rec nx ny nt t mask x y i j hy (by omega)]
    simp [h1, h2]
  simp only [e]
  rw [flatMap_range_two (nx + 1) x _ (by omega)]
  · rw [faceX_at K rec nx ny nt t mask x y x y hx hy (by omega),
      faceY_at K rec nx ny nt t mask x y x y hy (by omega),
      faceX_at K rec nx ny nt t mask x y x (y + 1) hx hy (by omega),
      faceY_at K rec nx ny nt t mask x y x (y + 1) hy (by omega),
      faceX_at K rec nx ny nt t mask x y (x + 1) y hx hy (by omega),
      faceY_at K rec nx ny nt t mask x y (x + 1) y hy (by omega),
      faceX_at K rec nx ny nt t mask x y (x + 1) (y + 1) hx hy (by omega),
      faceY_at K rec nx ny nt t mask x y (x + 1) (y + 1) hy (by omega)]
    cases h0 : mask (cell (x + 1) (y + 1) (ny + 2))
    · simp
    · simp
  · intro i hi h1 h2
    rw [faceX_at K rec nx ny nt t mask x y i y hx hy (by omega),
      faceY_at K rec nx ny nt t mask x y i y hy (by omega),
      faceX_at K rec nx ny nt t mask x y i (y + 1) hx hy (by omega),
      faceY_at K rec nx ny nt t mask x y i (y + 1) hy (by omega)]
    simp [h1, h2]

theorem fv2_at (K : Kern E D R) (rec : Nat → R) (nx ny nt : Nat) (mask : Nat → Bool) (x y : Nat)
    (hx : x < nx) (hy : y < ny) :
    at' (cell x y ny) (fv2 K rec nx ny nt mask) =
      ((List.range nt).flatMap fun t =>
        if mask (cell (x + 1) (y + 1) (ny + 2)) = true then
          K.cen t (rec (ind3 (x + 1) (y + 1) t (ny + 2) nt)) else []) ++
      (List.range nt).flatMap fun t =>
      (if mask (cell x (y + 1) (ny + 2)) && mask (cell (x + 1) (y + 1) (ny + 2)) then
        [(K.face 0 t (rec (ind3 x (y + 1) t (ny + 2) nt)) (rec (ind3 (x + 1) (y + 1) t (ny + 2) nt))).2]
        else []) ++
      (if mask (cell (x + 1) y (ny + 2)) && mask (cell (x + 1) (y + 1) (ny + 2)) then
        [(K.face 1 t (rec (ind3 (x + 1) y t (ny + 2) nt)) (rec (ind3 (x + 1) (y + 1) t (ny + 2) nt))).2]
        else []) ++
      (if mask (cell (x + 1) (y + 1) (ny + 2)) && mask (cell (x + 2) (y + 1) (ny + 2)) then
        [(K.face 0 t (rec (ind3 (x + 1) (y + 1) t (ny + 2) nt)) (rec (ind3 (x + 2) (y + 1) t (ny + 2) nt))).1]
        else []) ++
      (if mask (cell (x + 1) (y + 1) (ny + 2)) && mask (cell (x + 1) (y + 2) (ny + 2)) then
        [(K.face 1 t (rec (ind3 (x + 1) (y + 1) t (ny + 2) nt)) (rec (ind3 (x + 1) (y + 2) t (ny + 2) nt))).1]
        else []) := by
  unfold fv2
  rw [at'_append, at'_flatMap, at'_flatMap]
  simp only [centers2_at K rec nx ny nt _ mask x y hx hy, interfs2_at K rec nx ny nt _ mask x y hx hy]

end Verif.Fv
