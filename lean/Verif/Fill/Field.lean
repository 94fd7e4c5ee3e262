import Verif.Fill.Model
import Verif.March.Props

/-!
# `material_indicator`, `finite_difference` and `normal`
-/

namespace Verif.Fill

open Verif.Sys Verif.Iter

theorem fold_max_lt (f : Nat → ℝ) (a n : Nat) (r : ℝ) :
    (List.range' a n).foldl (fun φ i => max φ (f i)) r < 0 ↔ r < 0 ∧ ∀ i, a ≤ i → i < a + n → f i < 0 := by
  induction n generalizing a r with
  | zero => simp; intro _ i h1 h2; omega
  | succ n ih =>
    rw [List.range'_succ, List.foldl_cons, ih, max_lt_iff]
    constructor
    · rintro ⟨⟨h1, h2⟩, h3⟩
      refine ⟨h1, fun i hi hi' => ?_⟩
      rcases Nat.eq_or_lt_of_le hi with rfl | hlt
      · exact h2
      · exact h3 i hlt (by omega)
    · rintro ⟨h1, h2⟩
      exact ⟨⟨h1, h2 a le_rfl (by omega)⟩, fun i hi hi' => h2 i (by omega) (by omega)⟩

/-- The sign pattern that `material_indicator` tests. -/
theorem indicator_neg (lset : Nat) (hl : 1 ≤ lset) (lev : Nat → ℝ) (mat nmat : Nat) (hm : mat ≤ lset)
    (hn : nmat > 2 ∨ lset = 1) : indicator lset lev mat nmat < 0 ↔
      (∀ i < mat, 0 < lev i) ∧ ∀ i, mat ≤ i → i < lset → lev i < 0 := by
  unfold indicator
  simp only
  by_cases hn2 : nmat > 2
  · rw [if_pos hn2, fold_max_lt, fold_max_lt]
    rcases Nat.eq_zero_or_pos mat with rfl | hpos
    · simp only [if_true]
      constructor
      · rintro ⟨⟨h1, _⟩, h3⟩
        exact ⟨fun i hi => absurd hi (Nat.not_lt_zero i), fun i hi hi' => h3 i hi (by omega)⟩
      · rintro ⟨_, h⟩
        exact ⟨⟨h 0 le_rfl hl, fun i h1 h2 => by omega⟩, fun i h1 h2 => h i h1 (by omega)⟩
    · rw [if_neg hpos.ne']
      constructor
      · rintro ⟨⟨h1, h2⟩, h3⟩
        refine ⟨fun i hi => ?_, fun i hi hi' => h3 i hi (by omega)⟩
        rcases Nat.eq_zero_or_pos i with rfl | hi0
        · linarith
        · linarith [h2 i hi0 (by omega)]
      · rintro ⟨h1, h2⟩
        exact ⟨⟨by linarith [h1 0 hpos], fun i hi hi' => by linarith [h1 i (by omega)]⟩,
          fun i hi hi' => h2 i hi (by omega)⟩
  · rw [if_neg hn2]
    have hl1 : lset = 1 := by omega
    subst hl1
    rcases Nat.eq_zero_or_pos mat with rfl | hpos
    · simp only [if_true]
      constructor
      · intro h
        refine ⟨fun i hi => by omega, fun i _ hi => ?_⟩
        obtain rfl : i = 0 := by omega
        exact h
      · rintro ⟨_, h⟩
        exact h 0 le_rfl (by omega)
    · obtain rfl : mat = 1 := by omega
      rw [if_neg (by omega)]
      constructor
      · intro h
        refine ⟨fun i hi => ?_, fun i h1 h2 => by omega⟩
        obtain rfl : i = 0 := by omega
        linarith
      · rintro ⟨h, _⟩
        linarith [h 0 (by omega)]

/-- The level sets of a state. -/
def levels (c : Cfg) (Q : St) (i : Nat) : ℝ := Q (c.V - c.lset + i)

/-- No level set is zero, and the places where a level set is positive lie inside those of the one before it. -/
def Nested (c : Cfg) (Q : St) : Prop :=
  (∀ i < c.lset, levels c Q i ≠ 0) ∧ ∀ i j, i < j → j < c.lset → 0 < levels c Q j → 0 < levels c Q i

/-- **Indicator**: for nested level sets, and one more material than level sets, the field of a material is negative
exactly where the material index is that material, and positive elsewhere. -/
theorem indicator_index (c : Cfg) (hl : 1 ≤ c.lset) (Q : St) (hQ : Nested c Q) (mat : Nat) (hm : mat ≤ c.lset) :
    (indicator c.lset (levels c Q) mat (c.lset + 1) < 0 ↔ materialIndex c Q = mat) := by
  classical
  rw [indicator_neg c.lset hl _ mat _ hm (by omega), materialIndex_card]
  have hset : ((Finset.range c.lset).filter fun k => 0 ≤ Q (c.V - c.lset + k)) =
      (Finset.range c.lset).filter fun k => 0 < levels c Q k := by
    ext k
    simp only [Finset.mem_filter, Finset.mem_range]
    constructor
    · rintro ⟨h1, h2⟩
      exact ⟨h1, lt_of_le_of_ne h2 (Ne.symm (hQ.1 k h1))⟩
    · rintro ⟨h1, h2⟩
      exact ⟨h1, h2.le⟩
  rw [hset]
  constructor
  · rintro ⟨h1, h2⟩
    have : ((Finset.range c.lset).filter fun k => 0 < levels c Q k) = Finset.range mat := by
      ext k
      simp only [Finset.mem_filter, Finset.mem_range]
      constructor
      · rintro ⟨h3, h4⟩
        by_contra hc
        exact absurd (h2 k (by omega) h3) (not_lt.2 h4.le)
      · intro h3
        exact ⟨by omega, h1 k h3⟩
    rw [this, Finset.card_range]
  · intro hcard
    -- the positive level sets form an initial segment
    have hseg : ((Finset.range c.lset).filter fun k => 0 < levels c Q k) = Finset.range mat := by
      have hsub : ∀ k, k < c.lset → 0 < levels c Q k → k < mat := by
        intro k hk hpos
        by_contra hc
        have : Finset.range (k + 1) ⊆ (Finset.range c.lset).filter fun k => 0 < levels c Q k := by
          intro i hi
          have hi' : i < k + 1 := Finset.mem_range.1 hi
          simp only [Finset.mem_filter, Finset.mem_range]
          refine ⟨by omega, ?_⟩
          rcases Nat.lt_succ_iff_lt_or_eq.1 hi' with h | rfl
          · exact hQ.2 i k h hk hpos
          · exact hpos
        have := Finset.card_le_card this
        rw [Finset.card_range] at this
        omega
      refine Finset.eq_of_subset_of_card_le ?_ (by rw [Finset.card_range]; omega)
      intro k hk
      obtain ⟨h1, h2⟩ := Finset.mem_filter.1 hk
      exact Finset.mem_range.2 (hsub k (Finset.mem_range.1 h1) h2)
    constructor
    · intro i hi
      have : i ∈ (Finset.range c.lset).filter fun k => 0 < levels c Q k := by
        rw [hseg]; exact Finset.mem_range.2 hi
      exact (Finset.mem_filter.1 this).2
    · intro i hi hi'
      have : i ∉ (Finset.range c.lset).filter fun k => 0 < levels c Q k := by
        rw [hseg]; exact fun h => by have := Finset.mem_range.1 h; omega
      have hn : ¬ 0 < levels c Q i := fun h => this (Finset.mem_filter.2 ⟨Finset.mem_range.2 hi', h⟩)
      exact lt_of_le_of_ne (not_lt.1 hn) (hQ.1 i hi')

/-- Every cell belongs to exactly one material. -/
theorem indicator_unique (c : Cfg) (hl : 1 ≤ c.lset) (Q : St) (hQ : Nested c Q) :
    ∃! mat, mat ≤ c.lset ∧ indicator c.lset (levels c Q) mat (c.lset + 1) < 0 := by
  refine ⟨materialIndex c Q, ⟨materialIndex_le c Q, (indicator_index c hl Q hQ _ (materialIndex_le c Q)).2 rfl⟩, ?_⟩
  rintro m ⟨h1, h2⟩
  exact ((indicator_index c hl Q hQ m h1).1 h2).symm

/-- Full claim: also for the field after `distance`.  Proved when that field has an interface and takes no value in
`(0, eps]`, see `March.distance_sign_partial`. -/
theorem distance_index_partial {shape : List Nat} (hs : shape.length = 1 ∨ shape.length = 2) {dx : Nat → ℝ} {eps : ℝ}
    (hdx : ∀ d, 0 < dx d) (heps : 0 ≤ eps) (c : Cfg) (hl : 1 ≤ c.lset) (u : Nat → St) (mat : Nat) (hm : mat ≤ c.lset)
    (hu : ∀ k < shape.prod, Nested c (u k))
    (hphi : ∀ k < shape.prod, indicator c.lset (levels c (u k)) mat (c.lset + 1) ≤ 0 ∨
      eps < indicator c.lset (levels c (u k)) mat (c.lset + 1))
    (hint : ∃ i < shape.prod, March.AtInterface
      ⟨March.gridOf shape, dx, fun k => indicator c.lset (levels c (u k)) mat (c.lset + 1), eps⟩ i)
    (g : March.Garbage) (fuel : Nat) (hfuel : shape.prod < fuel) :
    ∃ r, March.distance ⟨March.gridOf shape, dx, fun k => indicator c.lset (levels c (u k)) mat (c.lset + 1), eps⟩ g
        fuel = .ok r ∧
      ∀ k < shape.prod, ∃ v, r.dist k = some v ∧ (v < 0 ↔ materialIndex c (u k) = mat) := by
  obtain ⟨r, hr, h⟩ := March.distance_sign_partial hs hdx heps hphi hint g fuel hfuel
  refine ⟨r, hr, fun k hk => ?_⟩
  obtain ⟨v, hv, h1, h2, h3⟩ := h k hk
  refine ⟨v, hv, ?_⟩
  rw [← indicator_index c hl (u k) (hu k hk) mat hm]
  constructor
  · intro hneg
    rcases lt_trichotomy (indicator c.lset (levels c (u k)) mat (c.lset + 1)) 0 with h | h | h
    · exact h
    · have := h3 h; linarith
    · have := h1 h; linarith
  · exact h2

/-- With two level sets but only two materials the second level set is ignored: a cell of index 2 counts as a cell of
material 1. -/
theorem indicator_two_false : ∃ (c : Cfg) (Q : St), c.lset = 2 ∧ Nested c Q ∧
    indicator c.lset (levels c Q) 1 2 < 0 ∧ materialIndex c Q ≠ 1 := by
  refine ⟨cfgOf true, fun _ => 1, rfl, ⟨fun i _ => by simp [levels], fun i j _ _ _ => by simp [levels]⟩, ?_, ?_⟩
  · norm_num [indicator, levels, cfgOf]
  · rw [materialIndex_card]
    simp [cfgOf]

/-- Three materials: a cell of each. -/
example : let Q : ℝ → ℝ → St := fun a b k => if k = (cfgOf true).V - 2 then a else b
    Nested (cfgOf true) (Q 1 (-1)) ∧ indicator 2 (levels (cfgOf true) (Q 1 (-1))) 1 3 < 0 := by
  intro Q
  have h0 : levels (cfgOf true) (Q 1 (-1)) 0 = 1 := by simp [levels, cfgOf, Cfg.V, Cfg.mV, Q]
  have h1 : levels (cfgOf true) (Q 1 (-1)) 1 = -1 := by simp [levels, cfgOf, Cfg.V, Cfg.mV, Q]
  refine ⟨⟨?_, ?_⟩, ?_⟩
  · intro i hi
    have : i < 2 := hi
    interval_cases i
    · rw [h0]; norm_num
    · rw [h1]; norm_num
  · intro i j hij hj hpos
    have : j < 2 := hj
    obtain rfl : j = 1 := by omega
    rw [h1] at hpos
    norm_num at hpos
  · rw [indicator_neg 2 (by norm_num) _ 1 3 (by norm_num) (by norm_num)]
    refine ⟨fun i hi => ?_, fun i hi hi' => ?_⟩
    · obtain rfl : i = 0 := by omega
      rw [h0]; norm_num
    · obtain rfl : i = 1 := by omega
      rw [h1]; norm_num

/-! ### Differences -/

theorem lineDiff_affine (n : Nat) (hn : 3 ≤ n) (junk φ : Nat → ℝ) (scale a b : ℝ) (h : ∀ i < n, φ i = a + b * i)
    (i : Nat) (hi : i < n) : lineDiff n junk φ scale i = 2 * b / scale := by
  have inner : ∀ i, 1 ≤ i → i < n - 1 → (φ (i + 1) - φ (i - 1)) / scale = 2 * b / scale := by
    intro i h1 h2
    rw [h (i + 1) (by omega), h (i - 1) (by omega)]
    have : ((i - 1 : Nat) : ℝ) = (i : ℝ) - 1 := by rw [Nat.cast_sub h1]; simp
    rw [this]
    push_cast
    congr 1
    ring
  unfold lineDiff
  simp only
  by_cases hlast : i = n - 1
  · subst hlast
    rw [Function.update_self, Function.update_of_ne (by omega), if_pos (by omega)]
    exact inner _ (by omega) (by omega)
  · rw [Function.update_of_ne hlast]
    by_cases h0 : i = 0
    · subst h0
      rw [Function.update_self, if_pos (by omega)]
      exact inner _ le_rfl (by omega)
    · rw [Function.update_of_ne h0, if_pos (by omega)]
      exact inner _ (by omega) (by omega)

/-- **Gradient in one dimension**: exact for affine fields on at least three cells. -/
theorem gradient1 (n : Nat) (hn : 3 ≤ n) (junk φ : Nat → ℝ) (dx a b : ℝ) (hdx : 0 < dx)
    (h : ∀ i < n, φ i = a + b * (((i : ℝ) + 0.5) * dx)) (i : Nat) (hi : i < n) :
    finiteDifference1 n junk φ dx i = b := by
  unfold finiteDifference1
  rw [lineDiff_affine n hn junk φ 1 (a + b * (0.5 * dx)) (b * dx) (fun i hi => by rw [h i hi]; ring) i hi]
  field_simp

/-- **Gradient in two dimensions**: exact for affine fields on at least three cells along each axis. -/
theorem gradient2 (nx ny : Nat) (hx : 3 ≤ nx) (hy : 3 ≤ ny) (junk : Nat → Nat → ℝ) (φ : Nat → ℝ) (dx dy a bx b_y : ℝ)
    (hdx : 0 < dx) (hdy : 0 < dy)
    (h : ∀ i < nx, ∀ j < ny, φ (i * ny + j) = a + bx * (((i : ℝ) + 0.5) * dx) + b_y * (((j : ℝ) + 0.5) * dy))
    (i j : Nat) (hi : i < nx) (hj : j < ny) :
    finiteDifference2 nx ny junk φ dx dy 0 i j = bx ∧ finiteDifference2 nx ny junk φ dx dy 1 i j = b_y := by
  constructor
  · unfold finiteDifference2
    rw [if_pos rfl, lineDiff_affine nx hx _ _ (2 * dx) (a + b_y * (((j : ℝ) + 0.5) * dy) + bx * (0.5 * dx)) (bx * dx)
      (fun i hi => by rw [h i hi j hj]; ring) i hi]
    field_simp
  · unfold finiteDifference2
    rw [if_neg (by decide), lineDiff_affine ny hy _ _ (2 * dy) (a + bx * (((i : ℝ) + 0.5) * dx) + b_y * (0.5 * dy))
      (b_y * dy) (fun j hj => by rw [h i hi j hj]; ring) j hj]
    field_simp

/-- With two cells along an axis the result is whatever was in memory. -/
theorem gradient_two_false (φ junk : Nat → ℝ) (dx : ℝ) : finiteDifference1 2 junk φ dx 0 = junk 1 / (2 * dx) := by
  simp [finiteDifference1, lineDiff]

/-- **Normal**: a unit vector along the gradient unless the gradient vanishes. -/
theorem normal_unit (g : List ℝ) :
    (normal g = none ↔ ∀ x ∈ g, x = 0) ∧
    ∀ n, normal g = some n → (n.map fun x => x * x).sum = 1 ∧ ∃ l : ℝ, 0 < l ∧ g = n.map fun x => l * x := by
  have hnn : 0 ≤ (g.map fun x => x * x).sum := by
    apply List.sum_nonneg
    intro y hy
    obtain ⟨x, _, rfl⟩ := List.mem_map.1 hy
    exact mul_self_nonneg x
  have hz : Real.sqrt (g.map fun x => x * x).sum = 0 ↔ ∀ x ∈ g, x = 0 := by
    rw [Real.sqrt_eq_zero hnn]
    clear hnn
    induction g with
    | nil => simp
    | cons a g ih =>
      have hg : 0 ≤ (g.map fun x => x * x).sum := by
        apply List.sum_nonneg
        intro y hy
        obtain ⟨x, _, rfl⟩ := List.mem_map.1 hy
        exact mul_self_nonneg x
      rw [List.map_cons, List.sum_cons]
      constructor
      · intro h
        have h1 : a * a = 0 := by nlinarith [mul_self_nonneg a]
        have h2 : (g.map fun x => x * x).sum = 0 := by linarith
        intro x hx
        rcases List.mem_cons.1 hx with rfl | hx
        · exact mul_self_eq_zero.1 h1
        · exact ih.1 h2 x hx
      · intro h
        rw [h a (by simp), ih.2 fun x hx => h x (by simp [hx])]
        simp
  constructor
  · unfold normal
    simp only
    rw [← hz]
    split_ifs with h <;> simp [h]
  · intro n hn
    unfold normal at hn
    simp only at hn
    split_ifs at hn with h
    cases hn
    set l := Real.sqrt (g.map fun x => x * x).sum with hl
    have hpos : 0 < l := lt_of_le_of_ne (Real.sqrt_nonneg _) (Ne.symm h)
    have hsq : l * l = (g.map fun x => x * x).sum := Real.mul_self_sqrt hnn
    refine ⟨?_, l, hpos, ?_⟩
    · have : ∀ g : List ℝ, ((g.map fun x => x / l).map fun x => x * x).sum = (g.map fun x => x * x).sum / (l * l) := by
        intro g
        induction g with
        | nil => simp
        | cons a g ih =>
          rw [List.map_cons, List.map_cons, List.sum_cons, ih, List.map_cons, List.sum_cons]
          field_simp
      rw [this, ← hsq]
      field_simp
    · rw [List.map_map]
      conv_lhs => rw [← List.map_id g]
      refine List.map_congr_left fun x _ => ?_
      simp only [id, Function.comp]
      field_simp

example : normal [3, 4] = some [3 / 5, 4 / 5] := by
  have : Real.sqrt ([(3 : ℝ), 4].map fun x => x * x).sum = 5 := by
    rw [show ([(3 : ℝ), 4].map fun x => x * x).sum = 5 ^ 2 by norm_num, Real.sqrt_sq (by norm_num)]
  unfold normal
  simp only [this]
  norm_num

end Verif.Fill
