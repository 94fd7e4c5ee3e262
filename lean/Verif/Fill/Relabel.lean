import Verif.Fill.Ghost
import Verif.Fill.Field

/-!
# Numbering the materials the other way round

With `L` level sets there are `L + 1` materials, numbered by how many level sets are not negative.  Negating all level
sets and listing them from the last to the first describes the same bodies with the materials in reverse order.  Here
`fill_ghost_cells` is shown to give the same grids and masks for both descriptions.
-/

namespace Verif.Fill

open Verif.Sys Verif.Iter

noncomputable section

/-- The state with the level sets negated and in reverse order. -/
def reversed (c : Cfg) (Q : St) : St := fun k =>
  if k < c.V - c.lset then Q k else if k < c.V then -Q (c.V - c.lset + (c.V - 1 - k)) else Q k

theorem reversed_head (c : Cfg) (Q : St) {k : Nat} (hk : k < c.V - c.lset) : reversed c Q k = Q k := if_pos hk

theorem reversed_level (c : Cfg) (Q : St) {i : Nat} (hi : i < c.lset) :
    levels c (reversed c Q) i = -levels c Q (c.lset - 1 - i) := by
  have := lset_le c
  unfold levels reversed
  rw [if_neg (by omega), if_pos (by omega), show c.V - 1 - (c.V - c.lset + i) = c.lset - 1 - i by omega]

/-- No level set is zero. -/
def Sharp (c : Cfg) (Q : St) : Prop := ∀ i < c.lset, levels c Q i ≠ 0

/-- The materials are numbered the other way round. -/
theorem reversed_index (c : Cfg) (Q : St) (hQ : Sharp c Q) :
    materialIndex c (reversed c Q) = c.lset - materialIndex c Q := by
  classical
  have h1 := materialIndex_card c (reversed c Q)
  have h2 := materialIndex_card c Q
  have h3 : ((Finset.range c.lset).filter fun k => 0 ≤ reversed c Q (c.V - c.lset + k)).card =
      ((Finset.range c.lset).filter fun k => ¬ 0 ≤ Q (c.V - c.lset + k)).card := by
    refine Finset.card_nbij' (fun i => c.lset - 1 - i) (fun i => c.lset - 1 - i) ?_ ?_ ?_ ?_
    · intro i hi
      simp only [Finset.coe_filter, Finset.mem_range, Set.mem_ofPred_eq] at hi ⊢
      have h := reversed_level c Q hi.1
      have hn := hQ (c.lset - 1 - i) (by omega)
      unfold levels at h hn
      rw [h] at hi
      refine ⟨by omega, fun h' => hn (le_antisymm ?_ h')⟩
      linarith [hi.2]
    · intro i hi
      simp only [Finset.coe_filter, Finset.mem_range, Set.mem_ofPred_eq] at hi ⊢
      have h := reversed_level c Q (i := c.lset - 1 - i) (by omega)
      unfold levels at h
      rw [h, show c.lset - 1 - (c.lset - 1 - i) = i by omega]
      exact ⟨by omega, by linarith [not_le.1 hi.2]⟩
    · intro i hi
      simp only [Finset.coe_filter, Finset.mem_range, Set.mem_ofPred_eq] at hi
      show c.lset - 1 - (c.lset - 1 - i) = i
      omega
    · intro i hi
      simp only [Finset.coe_filter, Finset.mem_range, Set.mem_ofPred_eq] at hi
      show c.lset - 1 - (c.lset - 1 - i) = i
      omega
  have h4 := Finset.card_filter_add_card_filter_not (s := Finset.range c.lset) (fun k => 0 ≤ Q (c.V - c.lset + k))
  rw [Finset.card_range] at h4
  omega

theorem reversed_is (c : Cfg) (Q : St) (hQ : Sharp c Q) {m : Nat} (hm : m ≤ c.lset) :
    materialIndex c (reversed c Q) = c.lset - m ↔ materialIndex c Q = m := by
  rw [reversed_index c Q hQ]
  have := materialIndex_le c Q
  omega

theorem foldl_max_le (f : Nat → ℝ) (l : List Nat) (a b : ℝ) :
    l.foldl (fun φ i => max φ (f i)) a ≤ b ↔ a ≤ b ∧ ∀ i ∈ l, f i ≤ b := by
  induction l generalizing a with
  | nil => simp
  | cons x l ih => rw [List.foldl_cons, ih]; simp [and_assoc]

/-- What `material_indicator` passes to `distance` is bounded by the level sets of the material, each with its sign. -/
theorem indicator_le (L : Nat) (hL : 2 ≤ L) (lev : Nat → ℝ) (m : Nat) (hm : m ≤ L) (b : ℝ) :
    indicator L lev m (L + 1) ≤ b ↔ (∀ i < m, -lev i ≤ b) ∧ ∀ i, m ≤ i → i < L → lev i ≤ b := by
  unfold indicator
  simp only [if_pos (show L + 1 > 2 by omega), foldl_max_le, List.mem_range'_1]
  by_cases h0 : m = 0
  · subst h0
    simp only [if_true]
    constructor
    · rintro ⟨⟨h1, _⟩, h2⟩
      exact ⟨fun i hi => by omega, fun i _ hi => h2 i (by omega)⟩
    · rintro ⟨_, h⟩
      exact ⟨⟨h 0 le_rfl (by omega), fun i hi => by omega⟩, fun i hi => h i (by omega) (by omega)⟩
  · simp only [if_neg h0]
    constructor
    · rintro ⟨⟨h1, h2⟩, h3⟩
      refine ⟨fun i hi => ?_, fun i h4 h5 => h3 i (by omega)⟩
      by_cases hi0 : i = 0
      · rw [hi0]; exact h1
      · exact h2 i (by omega)
    · rintro ⟨h1, h2⟩
      exact ⟨⟨h1 0 (by omega), fun i hi => h1 i (by omega)⟩, fun i hi => h2 i (by omega) (by omega)⟩

/-- `material_indicator` passes the same field to `distance` for both numberings: whatever `distance` makes of it, the
result and its gradient are the same. -/
theorem indicator_reversed (c : Cfg) (hl : 1 ≤ c.lset) (Q : St) (m : Nat) (hm : m ≤ c.lset) :
    indicator c.lset (levels c (reversed c Q)) (c.lset - m) (c.lset + 1) = indicator c.lset (levels c Q) m (c.lset + 1) := by
  rcases Nat.lt_or_ge c.lset 2 with h | h
  · have h1 : c.lset = 1 := by omega
    have h0 := reversed_level c Q (i := 0) (by omega)
    unfold indicator
    simp only [h1] at hm h0 ⊢
    simp only [if_neg (show ¬ 1 + 1 > 2 by omega), h0]
    rcases Nat.lt_or_ge m 1 with h2 | h2
    · obtain rfl : m = 0 := by omega
      simp
    · obtain rfl : m = 1 := by omega
      simp
  · refine eq_of_forall_ge_iff fun b => ?_
    rw [indicator_le _ h _ _ (by omega), indicator_le _ h _ _ hm]
    constructor
    · rintro ⟨h1, h2⟩
      refine ⟨fun i hi => ?_, fun i h3 h4 => ?_⟩
      · have := h2 (c.lset - 1 - i) (by omega) (by omega)
        rw [reversed_level c Q (by omega), show c.lset - 1 - (c.lset - 1 - i) = i by omega] at this
        exact this
      · have := h1 (c.lset - 1 - i) (by omega)
        rw [reversed_level c Q (by omega), show c.lset - 1 - (c.lset - 1 - i) = i by omega, neg_neg] at this
        exact this
    · rintro ⟨h1, h2⟩
      refine ⟨fun i hi => ?_, fun i h3 h4 => ?_⟩
      · rw [reversed_level c Q (by omega), neg_neg]
        exact h2 _ (by omega) (by omega)
      · rw [reversed_level c Q (by omega)]
        exact h1 _ (by omega)

/-! ### The layers -/

/-- The layers with another content of the cells. -/
def Layers.image {α β : Type} (f : α → β) (s : Layers α) : Layers β := ⟨s.mask, fun k => f (s.grid k), s.isolates⟩

theorem copyCell_image {α β : Type} (f : α → β) (ncell : Nat) (src : Option Int) (mask : Mask) (grid : Nat → α) (ind indn : Nat) :
    copyCell ncell src mask (fun k => f (grid k)) ind indn =
      (copyCell ncell src mask grid ind indn).map fun g k => f (g k) := by
  unfold copyCell
  cases src with
  | none => rfl
  | some s =>
    simp only
    split_ifs
    · rfl
    all_goals
      rw [Option.map_some]
      congr 1
      funext k
      by_cases hk : k = ind
      · subst hk; simp
      · simp [hk]

theorem foldlM_image {β β' γ : Type} (F : β → β') (f : β → γ → Option β) (f' : β' → γ → Option β')
    (h : ∀ s x, f' (F s) x = (f s x).map F) (l : List γ) (s : β) : l.foldlM f' (F s) = (l.foldlM f s).map F := by
  induction l generalizing s with
  | nil => rfl
  | cons x l ih =>
    rw [List.foldlM_cons, List.foldlM_cons, h]
    cases f s x with
    | none => rfl
    | some t => exact ih t

theorem visit1_image {α β : Type} (f : α → β) (n : Nat) (src : Nat → Option Int) (N0 : Int) (s : Layers α) (i : Nat) :
    visit1 n src N0 (s.image f) i = (visit1 n src N0 s i).map (Layers.image f) := by
  unfold visit1
  simp only [Layers.image, copyCell_image, apply_ite (Option.map (Layers.image f)), Option.map_map, Option.map_some]
  rfl

theorem visit2_image {α β : Type} (f : α → β) (nx ny : Nat) (src : Nat → Option Int) (N0 : Int) (s : Layers α) (i j : Nat) :
    visit2 nx ny src N0 (s.image f) i j = (visit2 nx ny src N0 s i j).map (Layers.image f) := by
  unfold visit2
  simp only [Layers.image, copyCell_image, apply_ite (Option.map (Layers.image f)), Option.map_map, Option.map_some]
  rfl

theorem pass_image {α β : Type} (f : α → β) (nX : List Nat) (src : Nat → Option Int) (N0 : Int) (s : Layers α) :
    passOf nX src N0 (s.image f) = (passOf nX src N0 s).map (Layers.image f) := by
  unfold passOf
  split
  · exact foldlM_image _ _ _ (visit1_image f _ src N0) _ _
  · rename_i nx ny
    unfold pass2
    have := foldlM_image (Layers.image f) (fun s i => (List.range ny).foldlM (fun s j => visit2 nx ny src N0 s i j) s)
      (fun s i => (List.range ny).foldlM (fun s j => visit2 nx ny src N0 s i j) s)
      (fun s i => foldlM_image _ _ _ (fun s j => visit2_image f nx ny src N0 s i j) _ _) (List.range nx) { s with isolates := [] }
    simp only [Layers.image] at this ⊢
    rw [this, Option.map_map, Option.map_map]
    rfl
  · rfl

/-- `fill_neighbor_cells` copies whatever the cells hold. -/
theorem layers_image {α β : Type} (f : α → β) (nX : List Nat) (src : Nat → Option Int) (K : Nat) (mask : Mask) (grid : Nat → α) :
    fillNeighbors nX src K mask (fun k => f (grid k)) = (fillNeighbors nX src K mask grid).map (Layers.image f) :=
  foldlM_image (Layers.image f) _ _ (fun s _ => pass_image f nX src _ s) (List.range K) ⟨mask, grid, []⟩

/-! ### The interface cells -/

variable {c : Cfg} {m ncell : Nat}

/-- The left state that fill.cpp:152-191 selects, numbered the other way round. -/
theorem fallback_reversed (nX : List Nat) (hm : m ≤ c.lset) (grid : Nat → St) (hg : ∀ a < ncell, Sharp c (grid a))
    (inds : List Nat) (n : List ℝ) (indn : Int) :
    fallback c nX ncell (c.lset - m) (fun k => reversed c (grid k)) inds n indn =
      (fallback c nX ncell m grid inds n indn).map fun r => (reversed c r.1, r.2) := by
  unfold fallback
  split
  · rename_i ny i j n0 n1
    dsimp only
    cases h1 : inside ncell (if |n0| > |n1| then ((i : Int) - sgn n0) * ny + j else (i : Int) * ny + ((j : Int) - sgn n1)) with
    | none => rfl
    | some k1 =>
      dsimp only
      simp only [reversed_is c _ (hg k1 (inside_some h1).2) hm]
      generalize (if materialIndex c (grid k1) = m then _ else _ : Int × List ℝ) = r
      cases h2 : inside ncell r.1 with
      | none => rfl
      | some k =>
        dsimp only
        simp only [reversed_is c _ (hg k (inside_some h2).2) hm]
        split_ifs
        · rfl
        · rw [Option.map_map]
          rfl
  · rfl

theorem reversed_setHead (Q Q' old : St) (h : ∀ k < c.V - c.lset, Q' k = Q k) :
    setHeadOf c Q' (reversed c old) = reversed c (setHeadOf c Q old) := by
  have := lset_le c
  funext k
  unfold setHeadOf
  by_cases hk : k < c.V - c.lset
  · rw [if_pos hk, reversed_head c _ hk, if_pos hk, h k hk]
  · rw [if_neg hk]
    unfold reversed
    rw [if_neg hk, if_neg hk]
    dsimp only
    rw [if_neg (show ¬ c.V - c.lset + (c.V - 1 - k) < c.V - c.lset by omega), if_neg hk]

theorem sharp_setHead (Q old : St) (h : Sharp c old) : Sharp c (setHeadOf c Q old) := by
  intro i hi
  unfold levels setHeadOf
  rw [if_neg (by omega)]
  exact h i hi

theorem update_image {α β : Type} (f : α → β) (g : Nat → α) (i : Nat) (x : α) :
    Function.update (fun k => f (g k)) i (f x) = fun k => f (Function.update g i x k) := by
  funext k
  by_cases hk : k = i
  · subst hk; simp
  · simp [hk]

/-- `left_star_state` for the materials in reverse order: the materials with their parameters are where they were, and
no level set is read. -/
def SameStar (c : Cfg) (star star' : St → St → Nat → List ℝ → St) : Prop :=
  ∀ QL QR mi n, mi ≤ c.lset → ∀ k < c.V - c.lset, star' (reversed c QL) (reversed c QR) (c.lset - mi) n k = star QL QR mi n k

/-- The left state of `fill_boundary_inner`, fill.cpp:146-191. -/
def leftState (c : Cfg) (nX : List Nat) (dX : List ℝ) (ncell mat : Nat) (φi : ℝ) (inds : List Nat) (n : List ℝ) (indn : Int)
    (grid : Nat → St) (ki : Nat) : Option (St × List ℝ) :=
  if materialIndex c (grid ki) = mat then some (grid ki, n)
  else match inside ncell (probe nX dX n φi (-1) inds) with
  | none => none
  | some kL => if materialIndex c (grid kL) = mat then some (grid kL, n) else fallback c nX ncell mat grid inds n indn

/-- The writes of `fill_boundary_inner`, fill.cpp:193-197. -/
def writeStar (c : Cfg) (mat nmat : Nat) (star : St → St → Nat → List ℝ → St) (ind ki kR : Nat) (grid : Nat → St)
    (left : Option (St × List ℝ)) : Option (Nat → St) :=
  match left with
  | none => none
  | some QL => if materialIndex c (grid kR) < nmat then
      let Q := star QL.1 (grid kR) (materialIndex c (grid kR)) QL.2
      let g1 := Function.update grid ind (setHeadOf c Q (grid ind))
      if materialIndex c (g1 ki) ≠ mat then some (Function.update g1 ki (setHeadOf c Q (g1 ki))) else some g1
    else none

theorem boundaryCell_eq (c : Cfg) (nX : List Nat) (dX : List ℝ) (ncell mat nmat : Nat)
    (star : St → St → Nat → List ℝ → St) (φi : ℝ) (ind : Nat) (inds : List Nat) (n : List ℝ) (indn : Int)
    (grid : Nat → St) : boundaryCell c nX dX ncell mat nmat star φi ind inds n indn grid =
      match inside ncell (probe nX dX n φi 0 inds), inside ncell (probe nX dX n φi 1 inds) with
      | some ki, some kR => writeStar c mat nmat star ind ki kR grid (leftState c nX dX ncell mat φi inds n indn grid ki)
      | _, _ => none := rfl

/-- `fill_boundary_inner` for the materials in reverse order. -/
theorem cell_reversed (nX : List Nat) (dX : List ℝ) (hm : m ≤ c.lset) {star star' : St → St → Nat → List ℝ → St}
    (hs : SameStar c star star') (φi : ℝ) (ind : Nat) (inds : List Nat) (n : List ℝ) (indn : Int) (grid : Nat → St)
    (hg : ∀ a < ncell, Sharp c (grid a)) :
    boundaryCell c nX dX ncell (c.lset - m) (c.lset + 1) star' φi ind inds n indn (fun k => reversed c (grid k)) =
        (boundaryCell c nX dX ncell m (c.lset + 1) star φi ind inds n indn grid).map (fun g k => reversed c (g k)) ∧
      ∀ g, boundaryCell c nX dX ncell m (c.lset + 1) star φi ind inds n indn grid = some g → ∀ a < ncell, Sharp c (g a) := by
  rw [boundaryCell_eq, boundaryCell_eq]
  cases hi : inside ncell (probe nX dX n φi 0 inds) with
  | none => exact ⟨rfl, fun g h => by simp at h⟩
  | some ki =>
  cases hR : inside ncell (probe nX dX n φi 1 inds) with
  | none => exact ⟨rfl, fun g h => by simp at h⟩
  | some kR =>
  have bi := (inside_some hi).2
  have bR := (inside_some hR).2
  dsimp only
  have hl : leftState c nX dX ncell (c.lset - m) φi inds n indn (fun k => reversed c (grid k)) ki =
      (leftState c nX dX ncell m φi inds n indn grid ki).map fun r => (reversed c r.1, r.2) := by
    unfold leftState
    rw [fallback_reversed nX hm grid hg]
    simp only [reversed_is c _ (hg ki bi) hm]
    split_ifs
    · rfl
    · cases hL : inside ncell (probe nX dX n φi (-1) inds) with
      | none => rfl
      | some kL =>
        dsimp only
        simp only [reversed_is c _ (hg kL (inside_some hL).2) hm]
        split_ifs <;> rfl
  rw [hl]
  cases leftState c nX dX ncell m φi inds n indn grid ki with
  | none => exact ⟨rfl, fun g h => by simp [writeStar] at h⟩
  | some QL =>
  unfold writeStar
  have hmi := materialIndex_le c (grid kR)
  have hstar := hs QL.1 (grid kR) (materialIndex c (grid kR)) QL.2 hmi
  simp only [Option.map_some]
  rw [reversed_index c _ (hg kR bR), if_pos (show c.lset - materialIndex c (grid kR) < c.lset + 1 by omega),
    if_pos (show materialIndex c (grid kR) < c.lset + 1 by omega)]
  set Q := star QL.1 (grid kR) (materialIndex c (grid kR)) QL.2
  rw [reversed_setHead Q _ (grid ind) hstar, update_image (reversed c) grid ind]
  set g1 := Function.update grid ind (setHeadOf c Q (grid ind)) with hg1
  have s1 : ∀ a < ncell, Sharp c (g1 a) := by
    intro a ha
    rw [hg1]
    by_cases h : a = ind
    · subst h
      rw [Function.update_self]
      exact sharp_setHead _ _ (hg a ha)
    · rw [Function.update_of_ne h]
      exact hg a ha
  rw [reversed_setHead Q _ (g1 ki) hstar, update_image (reversed c) g1 ki]
  simp only [ne_eq, reversed_is c _ (s1 ki bi) hm]
  refine ⟨by split_ifs <;> rfl, fun g h => ?_⟩
  split_ifs at h
  · cases h
    exact s1
  · cases h
    intro a ha
    by_cases h : a = ki
    · subst h
      rw [Function.update_self]
      exact sharp_setHead _ _ (s1 a ha)
    · rw [Function.update_of_ne h]
      exact s1 a ha

theorem visit_reversed (nX : List Nat) (dX : List ℝ) (hm : m ≤ c.lset) {star star' : St → St → Nat → List ℝ → St}
    (hs : SameStar c star star') (φ : Nat → ℝ) (Δφ : Nat → List ℝ) (mask : Mask) (k : Nat) (grid : Nat → St)
    (hg : ∀ a < ncell, Sharp c (grid a)) :
    boundaryVisit c nX dX ncell (c.lset - m) (c.lset + 1) star' φ Δφ mask (fun k => reversed c (grid k)) k =
        (boundaryVisit c nX dX ncell m (c.lset + 1) star φ Δφ mask grid k).map (fun g k => reversed c (g k)) ∧
      ∀ g, boundaryVisit c nX dX ncell m (c.lset + 1) star φ Δφ mask grid k = some g → ∀ a < ncell, Sharp c (g a) := by
  unfold boundaryVisit
  split_ifs with hk
  · cases normal (Δφ k) with
    | none => exact ⟨rfl, fun g h => by simp at h⟩
    | some n => exact cell_reversed nX dX hm hs (φ k) k (coords nX k) n _ grid hg
  · refine ⟨rfl, fun g h => ?_⟩
    cases h
    exact hg

/-- `fill_boundary_cells` for the materials in reverse order. -/
theorem boundary_reversed (nX : List Nat) (dX : List ℝ) (hm : m ≤ c.lset) {star star' : St → St → Nat → List ℝ → St}
    (hs : SameStar c star star') (φ : Nat → ℝ) (Δφ : Nat → List ℝ) (mask : Mask) (order : List Nat) (grid : Nat → St)
    (hg : ∀ a < ncell, Sharp c (grid a)) :
    fillBoundary c nX dX ncell (c.lset - m) (c.lset + 1) star' φ Δφ mask order (fun k => reversed c (grid k)) =
      (fillBoundary c nX dX ncell m (c.lset + 1) star φ Δφ mask order grid).map (fun g k => reversed c (g k)) := by
  unfold fillBoundary
  induction order generalizing grid with
  | nil => rfl
  | cons k order ih =>
    rw [List.foldlM_cons, List.foldlM_cons]
    obtain ⟨h1, h2⟩ := visit_reversed nX dX hm hs φ Δφ mask k grid hg
    rw [h1]
    revert h2
    cases boundaryVisit c nX dX ncell m (c.lset + 1) star φ Δφ mask grid k with
    | none => exact fun _ => rfl
    | some g => exact fun h2 => ih g (h2 g rfl)

/-- **Numbering**: if no level set is zero in any cell, `fill_ghost_cells` gives the same states, the same masks, and
fails in the same cases, whichever way the materials are numbered.  The field `φ` and its gradient are the same by
`indicator_reversed`. -/
theorem ghost_reversed (nX : List Nat) (dX : List ℝ) (K : Nat) (hm : m ≤ c.lset) {star star' : St → St → Nat → List ℝ → St}
    (hs : SameStar c star star') (φ : Nat → ℝ) (Δφ : Nat → List ℝ) (order : List Nat) (u : Nat → St)
    (hu : ∀ a < nX.prod, Sharp c (u a)) :
    ghostCells c nX dX (c.lset - m) (c.lset + 1) K star' φ Δφ order (fun k => reversed c (u k)) =
      (ghostCells c nX dX m (c.lset + 1) K star φ Δφ order u).map fun r => (fun k => reversed c (r.1 k), r.2) := by
  unfold ghostCells
  dsimp only
  rw [boundary_reversed nX dX hm hs φ Δφ _ order u hu]
  cases fillBoundary c nX dX nX.prod m (c.lset + 1) star φ Δφ (find nX φ) order u with
  | none => rfl
  | some grid =>
    dsimp only [Option.map_some]
    rw [layers_image (reversed c), Option.map_map, Option.map_map]
    congr 1
    funext s
    refine Prod.ext ?_ rfl
    funext k a
    have := lset_le c
    simp only [Function.comp_apply, Layers.image]
    by_cases ha : a < c.V - c.lset
    · rw [if_pos ha, reversed_head c _ ha, reversed_head c _ ha, if_pos ha]
    · rw [if_neg ha]
      unfold reversed
      rw [if_neg ha, if_neg ha]
      dsimp only
      rw [if_neg (show ¬ c.V - c.lset + (c.V - 1 - a) < c.V - c.lset by omega), if_neg ha]

end

end Verif.Fill
