import Verif.March.Columns

/-! # The result of fast marching is the solution of the upwind equations -/

namespace Verif.March

/-- One axis of the upwind equation: only neighbours nearer to the interface count. -/
noncomputable def pos (dx : ℝ) (o : Option ℝ) (r : ℝ) : ℝ :=
  match o with
  | none => 0
  | some m => (max (r - m) 0 / dx) ^ 2

/-- The upwind equation of a cell, in terms of the final values of all its neighbours. -/
def Upwind (G : Grid) (dx : Nat → ℝ) (D : Nat → ℝ) (i : Nat) : Prop :=
  ∃ o : Nat → Option ℝ, (∀ d < G.ndim, MinOver G (fun _ => True) D i d (o d)) ∧
    ∑ d ∈ Finset.range G.ndim, pos (dx d) (o d) |D i| = 1

theorem minOver_exists (G : Grid) (S : Nat → Prop) (D : Nat → ℝ) (i d : Nat) : ∃ o, MinOver G S D i d o := by
  classical
  by_cases h : ∃ dir a, G.nb i d dir = some a ∧ S a
  · have hb : ∀ dir, (∃ a, G.nb i d dir = some a ∧ S a) ∨ ∀ a, G.nb i d dir = some a → ¬ S a := fun dir => by
      by_cases h : ∃ a, G.nb i d dir = some a ∧ S a
      · exact Or.inl h
      · exact Or.inr fun a h1 h2 => h ⟨a, h1, h2⟩
    rcases hb true with ⟨a, ha, hSa⟩ | ht <;> rcases hb false with ⟨b, hb', hSb⟩ | hf
    · refine ⟨some (min |D a| |D b|), ?_, fun dir y hy hS => ?_⟩
      · rcases le_total |D a| |D b| with hl | hl
        · exact ⟨true, a, ha, hSa, min_eq_left hl⟩
        · exact ⟨false, b, hb', hSb, min_eq_right hl⟩
      · cases dir
        · rw [hb'] at hy; cases hy; exact min_le_right _ _
        · rw [ha] at hy; cases hy; exact min_le_left _ _
    · refine ⟨some |D a|, ⟨true, a, ha, hSa, rfl⟩, fun dir y hy hS => ?_⟩
      cases dir
      · exact absurd hS (hf y hy)
      · rw [ha] at hy; cases hy; exact le_rfl
    · refine ⟨some |D b|, ⟨false, b, hb', hSb, rfl⟩, fun dir y hy hS => ?_⟩
      cases dir
      · rw [hb'] at hy; cases hy; exact le_rfl
      · exact absurd hS (ht y hy)
    · obtain ⟨dir, a, h1, h2⟩ := h
      cases dir
      · exact absurd h2 (hf a h1)
      · exact absurd h2 (ht a h1)
  · exact ⟨none, fun dir a h1 h2 => h ⟨dir, a, h1, h2⟩⟩

/-- **Every cell away from the interface satisfies the upwind equation** with the final values of all its neighbours, whatever the
order was in which they were accepted, if the spacings are equal. -/
theorem distance_upwind {shape : List Nat} (hs : shape.length = 1 ∨ shape.length = 2) {h : ℝ} {phi : Nat → ℝ} {eps : ℝ} (hh : 0 < h)
    (heps : 0 ≤ eps) (hphi : ∀ i < shape.prod, phi i ≤ 0 ∨ eps < phi i)
    (hint : ∃ i < shape.prod, AtInterface ⟨gridOf shape, fun _ => h, phi, eps⟩ i) (g : Garbage) (fuel : Nat) (hfuel : shape.prod < fuel) :
    ∃ (r : Res) (D : Nat → ℝ), distance ⟨gridOf shape, fun _ => h, phi, eps⟩ g fuel = .ok r ∧
      (∀ i < shape.prod, r.dist i = some (D i)) ∧ (∀ i < shape.prod, SignOK (phi i) (D i)) ∧
      ∀ i < shape.prod, ¬ AtInterface ⟨gridOf shape, fun _ => h, phi, eps⟩ i → Upwind (gridOf shape) (fun _ => h) D i := by
  obtain ⟨ok, hc⟩ := grid_ok (dx := fun _ => h) hs (fun _ => hh) heps hphi
  obtain ⟨r, D, e, h0, h1, h2, h3, h4, h5⟩ := distance_run ok hc hint g fuel hfuel
  refine ⟨r, D, e, h1, h2, fun i hi hI => ?_⟩
  obtain ⟨pre, suf, hl, hsuf, hfirst, o, ho, h6, h7⟩ := h5 i ((h3 i).2 ⟨hi, hI⟩)
  set S : Nat → Prop := fun j => (j < shape.prod ∧ AtInterface ⟨gridOf shape, fun _ => h, phi, eps⟩ j) ∨ j ∈ pre with hS
  have hlate : ∀ d < (gridOf shape).ndim, ∀ dir a, (gridOf shape).nb i d dir = some a → ¬ S a → |D i| ≤ |D a| := by
    intro d hd dir a ha hSa
    have hal : a < shape.prod := ok.wf.lt i d dir a hi hd ha
    simp only [hS, not_or, not_and] at hSa
    have halog : a ∈ r.log := (h3 a).2 ⟨hal, hSa.1 hal⟩
    rw [hl, List.mem_append] at halog
    exact hfirst a (halog.resolve_left hSa.2)
  -- what counts is below the spacing or nearer
  have hval : ∀ d < (gridOf shape).ndim, ∀ m, o d = some m → 0 ≤ m ∧ (m < h ∨ m ≤ |D i|) := by
    intro d hd m hm
    have hq := ho d hd
    rw [hm] at hq
    obtain ⟨⟨dir, a, ha, hSa, rfl⟩, -⟩ := hq
    refine ⟨abs_nonneg _, ?_⟩
    rcases hSa with ⟨ha1, ha2⟩ | hap
    · left
      obtain ⟨s, v, es, hv, hz, hnz⟩ := distance_interface_values ok.wf ok.dx' g fuel hfuel a ha1 ha2
      rw [e] at es
      cases es
      rw [h1 a ha1] at hv
      cases hv
      by_cases hz' : phi a = 0
      · rw [hz hz', abs_zero]; exact hh
      · obtain ⟨⟨_, _, _, _, _, _, _, _, hlt⟩, -⟩ := hnz hz'
        exact hlt
    · right
      rw [hl] at h4
      exact (List.pairwise_append.1 h4).2.2 a hap i hsuf
  have hpos : ∀ d < (gridOf shape).ndim, ∀ m, o d = some m → m ≤ |D i| := by
    intro d hd m hm
    by_contra hlt
    push Not at hlt
    have hmh : m < h := (hval d hd m hm).2.resolve_right (not_le.2 hlt)
    have hn : (gridOf shape).ndim = shape.length := rfl
    have h22 : 0 < h ^ 2 := pow_pos hh 2
    rcases hs with hs | hs
    · have hd0 : d = 0 := by omega
      subst hd0
      change 0 < ∑ d ∈ Finset.range shape.length, _ at h7
      rw [hs, Finset.sum_range_one, hm] at h7
      have := (div_pos_iff_of_pos_right h22).1 h7
      linarith
    · obtain ⟨d', hax⟩ : ∃ d', d < 2 ∧ d' < 2 ∧ d ≠ d' := ⟨1 - d, by omega⟩
      change ∑ d ∈ Finset.range shape.length, _ = _ at h6
      change 0 < ∑ d ∈ Finset.range shape.length, _ at h7
      rw [hs, sum_axes hax, hm] at h6 h7
      cases hm' : o d' with
      | none =>
        rw [hm'] at h7
        simp only [slope, add_zero] at h7
        have := (div_pos_iff_of_pos_right h22).1 h7
        linarith
      | some m' =>
        rw [hm'] at h6 h7
        obtain ⟨hm0, -⟩ := hval d' (by omega) m' hm'
        simp only [slope, term, div_pow, ← add_div] at h6 h7
        have h7' := (div_pos_iff_of_pos_right h22).1 h7
        rw [div_eq_one_iff_eq h22.ne'] at h6
        nlinarith
  choose q hq using fun d => minOver_exists (gridOf shape) (fun _ => True) D i d
  refine ⟨q, fun d _ => hq d, ?_⟩
  rw [← h6]
  refine Finset.sum_congr rfl fun d hd => ?_
  have hd' := Finset.mem_range.1 hd
  have ho' := ho d hd'
  have hq' := hq d
  cases hod : o d with
  | none =>
    rw [hod] at ho'
    cases hqd : q d with
    | none => rfl
    | some m =>
      rw [hqd] at hq'
      obtain ⟨⟨dir, a, ha, -, rfl⟩, -⟩ := hq'
      have := hlate d hd' dir a ha (ho' dir a ha)
      simp [pos, term, max_eq_right (sub_nonpos.2 this)]
  | some m =>
    have hmr := hpos d hd' m hod
    rw [hod] at ho'
    obtain ⟨⟨dir, a, ha, hSa, hma⟩, hmin⟩ := ho'
    cases hqd : q d with
    | none => rw [hqd] at hq'; exact absurd trivial (hq' dir a ha)
    | some m' =>
      rw [hqd] at hq'
      obtain ⟨⟨dir', a', ha', -, hma'⟩, hmin'⟩ := hq'
      have hle : m' ≤ m := by rw [hma]; exact hmin' dir a ha trivial
      have hmm : m' = m := by
        by_cases hSa' : S a'
        · refine le_antisymm hle ?_
          rw [hma']; exact hmin dir' a' ha' hSa'
        · have := hlate d hd' dir' a' ha' hSa'
          rw [← hma'] at this
          linarith
      simp [pos, term, hmm, max_eq_left (sub_nonneg.2 hmr)]

theorem pos_nonneg (dx : ℝ) (o : Option ℝ) (r : ℝ) : 0 ≤ pos dx o r := by
  unfold pos
  split
  · exact le_rfl
  · positivity

theorem pos_mono {dx : ℝ} (hdx : 0 < dx) (o : Option ℝ) {r r' : ℝ} (h : r < r') : pos dx o r ≤ pos dx o r' ∧ (0 < pos dx o r → pos dx o r < pos dx o r') := by
  cases o with
  | none => exact ⟨le_rfl, fun h => absurd h (lt_irrefl _)⟩
  | some m =>
    simp only [pos, div_pow]
    have h2 : 0 < dx ^ 2 := pow_pos hdx 2
    rw [div_le_div_iff_of_pos_right h2, div_lt_div_iff_of_pos_right h2, div_pos_iff_of_pos_right h2]
    have hm : max (r - m) 0 ≤ max (r' - m) 0 := max_le_max (by linarith) le_rfl
    refine ⟨pow_le_pow_left₀ (le_max_right _ _) hm 2, fun h3 => ?_⟩
    have h4 : 0 < r - m := by
      by_contra hc
      rw [max_eq_right (not_lt.1 hc)] at h3
      simp at h3
    rw [max_eq_left h4.le, max_eq_left (by linarith)]
    exact pow_lt_pow_left₀ (by linarith) h4.le two_ne_zero

/-- Of two solutions that differ, the one with the least value among the places where they differ would be too small. -/
theorem upwind_least {G : Grid} (wf : G.WF) {dx : Nat → ℝ} (hdx : ∀ d, 0 < dx d) {D D' : Nat → ℝ} {x : Nat} (hx : x < G.size)
    (hmin : ∀ y < G.size, |D y| ≠ |D' y| → |D x| ≤ |D y|) (hD : Upwind G dx D x) (hD' : Upwind G dx D' x) : |D' x| ≤ |D x| := by
  by_contra hlt
  push Not at hlt
  obtain ⟨o, ho, h1⟩ := hD
  obtain ⟨o', ho', h1'⟩ := hD'
  have hle : ∀ d < G.ndim, pos (dx d) (o d) |D x| ≤ pos (dx d) (o' d) |D x| := by
    intro d hd
    have hq := ho d hd
    have hq' := ho' d hd
    cases hod : o d with
    | none => exact pos_nonneg _ _ _
    | some m =>
      rw [hod] at hq
      obtain ⟨⟨dir, a, ha, -, hma⟩, -⟩ := hq
      by_cases hmr : |D x| ≤ m
      · have hz : pos (dx d) (some m) |D x| = 0 := by simp [pos, max_eq_right (sub_nonpos.2 hmr)]
        rw [hz]
        exact pos_nonneg _ _ _
      · have haN := wf.lt x d dir a hx hd ha
        have hsame : |D a| = |D' a| := by
          by_contra hc
          exact hmr (by rw [hma]; exact hmin a haN hc)
        cases hod' : o' d with
        | none => rw [hod'] at hq'; exact absurd trivial (hq' dir a ha)
        | some m' =>
          rw [hod'] at hq'
          have hm' : m' ≤ m := by rw [hma, hsame]; exact hq'.2 dir a ha trivial
          simp only [pos, div_pow]
          rw [div_le_div_iff_of_pos_right (pow_pos (hdx d) 2)]
          exact pow_le_pow_left₀ (le_max_right _ _) (max_le_max (by linarith) le_rfl) 2
  have hge : 1 ≤ ∑ d ∈ Finset.range G.ndim, pos (dx d) (o' d) |D x| := by
    rw [← h1]
    exact Finset.sum_le_sum fun d hd => hle d (Finset.mem_range.1 hd)
  obtain ⟨d, hd, hdp⟩ := Finset.exists_lt_of_sum_lt (s := Finset.range G.ndim) (f := fun _ => (0 : ℝ))
    (g := fun d => pos (dx d) (o' d) |D x|) (by simpa using lt_of_lt_of_le one_pos hge)
  have : ∑ d ∈ Finset.range G.ndim, pos (dx d) (o' d) |D x| < ∑ d ∈ Finset.range G.ndim, pos (dx d) (o' d) |D' x| :=
    Finset.sum_lt_sum (fun d _ => (pos_mono (hdx d) _ hlt).1) ⟨d, hd, (pos_mono (hdx d) _ hlt).2 hdp⟩
  linarith

/-- **The upwind equations have one solution only**, given the values at the interface. -/
theorem upwind_unique {G : Grid} (wf : G.WF) {dx : Nat → ℝ} (hdx : ∀ d, 0 < dx d) {I : Nat → Prop} {D D' : Nat → ℝ}
    (hI : ∀ x < G.size, I x → |D x| = |D' x|) (hD : ∀ x < G.size, ¬ I x → Upwind G dx D x) (hD' : ∀ x < G.size, ¬ I x → Upwind G dx D' x) :
    ∀ x < G.size, |D x| = |D' x| := by
  classical
  by_contra hne
  push Not at hne
  obtain ⟨z, hz, hzne⟩ := hne
  obtain ⟨x, hxF, hmin⟩ := ((Finset.range G.size).filter fun x => |D x| ≠ |D' x|).exists_min_image (fun x => min |D x| |D' x|)
    ⟨z, by simp [hz, hzne]⟩
  simp only [Finset.mem_filter, Finset.mem_range] at hxF hmin
  obtain ⟨hx, hxne⟩ := hxF
  have hxI : ¬ I x := fun h => hxne (hI x hx h)
  rcases lt_or_gt_of_ne hxne with h | h
  · refine absurd (upwind_least wf hdx hx (fun y hy hne => ?_) (hD x hx hxI) (hD' x hx hxI)) (not_le.2 h)
    have := hmin y ⟨hy, hne⟩
    rw [min_eq_left h.le] at this
    exact this.trans (min_le_left _ _)
  · refine absurd (upwind_least wf hdx hx (fun y hy hne => ?_) (hD' x hx hxI) (hD x hx hxI)) (not_le.2 h)
    have := hmin y ⟨hy, hne.symm⟩
    rw [min_eq_right h.le] at this
    exact this.trans (min_le_right _ _)

/-- `σ` takes the cells of one grid to those of another one, and `e` its axes, in such a way that neighbours correspond. -/
structure Alike (G G' : Grid) (σ e : Nat → Nat) : Prop where
  lt : ∀ x < G.size, σ x < G'.size
  cover : ∀ x' < G'.size, ∃ x < G.size, σ x = x'
  ax : ∀ d < G.ndim, e d < G'.ndim
  onto : ∀ d' < G'.ndim, ∃ d < G.ndim, e d = d'
  sum : ∀ f : Nat → ℝ, ∑ d ∈ Finset.range G'.ndim, f d = ∑ d ∈ Finset.range G.ndim, f (e d)
  step : ∀ x < G.size, ∀ d < G.ndim, ∀ dir y, G.nb x d dir = some y → ∃ dir', G'.nb (σ x) (e d) dir' = some (σ y)
  lift : ∀ x < G.size, ∀ d < G.ndim, ∀ dir y', G'.nb (σ x) (e d) dir = some y' → ∃ dir' y, G.nb x d dir' = some y ∧ σ y = y'

theorem Alike.upwind {G G' : Grid} {σ e : Nat → Nat} (s : Alike G G' σ e) {h : ℝ} {D : Nat → ℝ} {x : Nat} (hx : x < G.size)
    (hU : Upwind G' (fun _ => h) D (σ x)) : Upwind G (fun _ => h) (fun y => D (σ y)) x := by
  obtain ⟨o, ho, h1⟩ := hU
  refine ⟨fun d => o (e d), fun d hd => ?_, by rw [s.sum] at h1; exact h1⟩
  have hq := ho (e d) (s.ax d hd)
  show MinOver G _ _ x d (o (e d))
  cases hod : o (e d) with
  | none =>
    rw [hod] at hq
    intro dir a ha
    obtain ⟨dir', ha'⟩ := s.step x hx d hd dir a ha
    exact hq dir' _ ha'
  | some m =>
    rw [hod] at hq
    obtain ⟨⟨dir, a', ha', -, hma⟩, hmin⟩ := hq
    obtain ⟨dir', a, ha, rfl⟩ := s.lift x hx d hd dir a' ha'
    refine ⟨⟨dir', a, ha, trivial, hma⟩, fun dir2 b hb _ => ?_⟩
    obtain ⟨dir3, hb'⟩ := s.step x hx d hd dir2 b hb
    exact hmin dir3 _ hb' trivial

/-- **Distances depend on the level set and the grid only**: if two level sets correspond to one another up to a factor on grids that
correspond to one another (mirror images, exchanged axes, or the same grid), so do the distances, with the sign of the factor.  No content
of uninitialised memory, no order of scanning and no order among equally distant cells has any influence. -/
theorem distance_alike {shape shape' : List Nat} (hs : shape.length = 1 ∨ shape.length = 2) (hs' : shape'.length = 1 ∨ shape'.length = 2)
    {σ e : Nat → Nat} (s : Alike (gridOf shape) (gridOf shape') σ e) {h : ℝ} (hh : 0 < h) {phi phi' : Nat → ℝ} {eps : ℝ} (heps : 0 ≤ eps)
    (hphi : ∀ x < shape.prod, phi x ≤ 0 ∨ eps < phi x) (hphi' : ∀ x < shape'.prod, phi' x ≤ 0 ∨ eps < phi' x) (c : ℝ) (hc : c ≠ 0)
    (hcor : ∀ x < shape.prod, phi' (σ x) = c * phi x) (hint : ∃ x < shape.prod, AtInterface ⟨gridOf shape, fun _ => h, phi, eps⟩ x)
    (g g' : Garbage) (fuel fuel' : Nat) (hfuel : shape.prod < fuel) (hfuel' : shape'.prod < fuel') :
    ∃ (r r' : Res) (D : Nat → ℝ), distance ⟨gridOf shape, fun _ => h, phi, eps⟩ g fuel = .ok r ∧
      distance ⟨gridOf shape', fun _ => h, phi', eps⟩ g' fuel' = .ok r' ∧
      ∀ x < shape.prod, r.dist x = some (D x) ∧ r'.dist (σ x) = some (if 0 < c then D x else -D x) := by
  set P : Prob := ⟨gridOf shape, fun _ => h, phi, eps⟩ with hP
  set P' : Prob := ⟨gridOf shape', fun _ => h, phi', eps⟩ with hP'
  obtain ⟨ok, -⟩ := grid_ok (dx := fun _ => h) hs (fun _ => hh) heps hphi
  obtain ⟨ok', -⟩ := grid_ok (dx := fun _ => h) hs' (fun _ => hh) heps hphi'
  have hc2 : 0 < c ^ 2 := by positivity
  have hcross : ∀ x < shape.prod, ∀ y < shape.prod, Crosses P' (σ x) (σ y) ↔ Crosses P x y := by
    intro x hx y hy
    show phi' (σ x) * phi' (σ y) < 0 ↔ phi x * phi y < 0
    rw [hcor x hx, hcor y hy, show c * phi x * (c * phi y) = c ^ 2 * (phi x * phi y) by ring]
    constructor <;> intro h <;> nlinarith
  have hinterp : ∀ x < shape.prod, ∀ y < shape.prod, ∀ d d', interpDist P' (σ x) (σ y) d' = interpDist P x y d := by
    intro x hx y hy d d'
    simp only [interpDist, hP, hP', hcor x hx, hcor y hy, abs_mul]
    rw [← mul_add, mul_div_mul_left _ _ (abs_pos.2 hc).ne']
  have hz : ∀ x < shape.prod, phi' (σ x) = 0 ↔ phi x = 0 := fun x hx => by
    rw [hcor x hx]; simp [hc]
  have hI : ∀ x < shape.prod, AtInterface P' (σ x) ↔ AtInterface P x := by
    intro x hx
    constructor
    · rintro (h | ⟨d', hd', dir, y', hy', hx'⟩)
      · exact Or.inl ((hz x hx).1 h)
      · obtain ⟨d, hd, rfl⟩ := s.onto d' hd'
        obtain ⟨dir', y, hy, rfl⟩ := s.lift x hx d hd dir y' hy'
        exact Or.inr ⟨d, hd, dir', y, hy, (hcross x hx y (ok.wf.lt x d dir' y hx hd hy)).1 hx'⟩
    · rintro (h | ⟨d, hd, dir, y, hy, hx'⟩)
      · exact Or.inl ((hz x hx).2 h)
      · obtain ⟨dir', hy'⟩ := s.step x hx d hd dir y hy
        exact Or.inr ⟨e d, s.ax d hd, dir', _, hy', (hcross x hx y (ok.wf.lt x d dir y hx hd hy)).2 hx'⟩
  have hint' : ∃ x < shape'.prod, AtInterface P' x := by
    obtain ⟨x, hx, h⟩ := hint
    exact ⟨σ x, s.lt x hx, (hI x hx).2 h⟩
  obtain ⟨r, D, e1, h1, h2, h3⟩ := distance_upwind hs hh heps hphi hint g fuel hfuel
  obtain ⟨r', D', e1', h1', h2', h3'⟩ := distance_upwind hs' hh heps hphi' hint' g' fuel' hfuel'
  have habs := upwind_unique (G := gridOf shape) ok.wf (dx := fun _ => h) (fun _ => hh) (I := AtInterface P) (D := D) (D' := fun x => D' (σ x)) (by
    intro x hx hIx
    obtain ⟨t, v, et, hv, hv0, hvn⟩ := distance_interface_values ok.wf ok.dx' g fuel hfuel x hx hIx
    rw [e1] at et
    cases et
    rw [h1 x hx] at hv
    cases hv
    obtain ⟨t, v, et, hv, hv0', hvn'⟩ := distance_interface_values ok'.wf ok'.dx' g' fuel' hfuel' (σ x) (s.lt x hx) ((hI x hx).2 hIx)
    rw [e1'] at et
    cases et
    rw [h1' _ (s.lt x hx)] at hv
    cases hv
    by_cases hzx : phi x = 0
    · rw [hv0 hzx, hv0' ((hz x hx).2 hzx)]
    · obtain ⟨⟨d, hd, dir, a, ha, hxa, hva, -, -⟩, hmin, -⟩ := hvn hzx
      obtain ⟨⟨d', hd', dir', a', ha', hxa', hva', -, -⟩, hmin', -⟩ := hvn' fun h => hzx ((hz x hx).1 h)
      refine le_antisymm ?_ ?_
      · obtain ⟨k, hk, rfl⟩ := s.onto d' hd'
        obtain ⟨dir2, b, hb, rfl⟩ := s.lift x hx k hk dir' a' ha'
        have hbN := ok.wf.lt x k dir2 b hx hk hb
        rw [hva', hinterp x hx b hbN k]
        exact hmin k hk dir2 b hb ((hcross x hx b hbN).1 hxa')
      · have haN := ok.wf.lt x d dir a hx hd ha
        obtain ⟨dir2, ha2⟩ := s.step x hx d hd dir a ha
        rw [hva, ← hinterp x hx a haN d (e d)]
        exact hmin' (e d) (s.ax d hd) dir2 _ ha2 ((hcross x hx a haN).2 hxa)) (fun x hx hn => h3 x hx hn)
    (fun x hx hn => s.upwind hx (h3' (σ x) (s.lt x hx) fun h => hn ((hI x hx).1 h)))
  refine ⟨r, r', D, e1, e1', fun x hx => ⟨h1 x hx, ?_⟩⟩
  rw [h1' _ (s.lt x hx)]
  congr 1
  have ha : |D x| = |D' (σ x)| := habs x hx
  obtain ⟨s1, s2, s3⟩ := h2 x hx
  obtain ⟨t1, t2, t3⟩ := h2' (σ x) (s.lt x hx)
  rw [hcor x hx] at t1 t2 t3
  rcases lt_trichotomy (phi x) 0 with hp | hp | hp <;> by_cases hc0 : 0 < c
  · rw [if_pos hc0]
    rw [abs_of_neg (s2 hp), abs_of_neg (t2 (mul_neg_of_pos_of_neg hc0 hp))] at ha
    linarith
  · rw [if_neg hc0]
    have hcn : c < 0 := lt_of_le_of_ne (not_lt.1 hc0) hc
    rw [abs_of_neg (s2 hp), abs_of_pos (t1 (mul_pos_of_neg_of_neg hcn hp))] at ha
    linarith
  · rw [if_pos hc0, s3 hp, t3 (by rw [hp, mul_zero])]
  · rw [if_neg hc0, s3 hp, t3 (by rw [hp, mul_zero]), neg_zero]
  · rw [if_pos hc0]
    rw [abs_of_pos (s1 hp), abs_of_pos (t1 (mul_pos hc0 hp))] at ha
    linarith
  · rw [if_neg hc0]
    have hcn : c < 0 := lt_of_le_of_ne (not_lt.1 hc0) hc
    rw [abs_of_pos (s1 hp), abs_of_neg (t2 (mul_neg_of_neg_of_pos hcn hp))] at ha
    linarith

/-- The same grid. -/
theorem alike_self (G : Grid) : Alike G G id id where
  lt _ h := h
  cover x h := ⟨x, h, rfl⟩
  ax _ h := h
  onto d h := ⟨d, h, rfl⟩
  sum _ := rfl
  step _ _ _ _ dir _ h := ⟨dir, h⟩
  lift _ _ _ _ dir y h := ⟨dir, y, h, rfl⟩

theorem size1 (n : Nat) : (gridOf [n]).size = n := by simp [gridOf]

theorem size2 (n m : Nat) : (gridOf [n, m]).size = n * m := by simp [gridOf]

/-- A line read backwards. -/
theorem alike_line (n : Nat) : Alike (gridOf [n]) (gridOf [n]) (fun x => n - 1 - x) id where
  lt x h := by rw [size1] at h ⊢; omega
  cover x h := by
    rw [size1] at h ⊢
    exact ⟨n - 1 - x, by omega, by omega⟩
  ax _ h := h
  onto d h := ⟨d, h, rfl⟩
  sum _ := rfl
  step x hx d hd dir y h := by
    rw [size1] at hx
    obtain rfl : d = 0 := by simpa [gridOf] using hd
    refine ⟨!dir, ?_⟩
    show (gridOf [n]).nb _ 0 _ = _
    rw [nb1] at h ⊢
    cases dir <;> simp only [Bool.not_true, Bool.not_false, Bool.false_eq_true, if_false, if_true] at h ⊢ <;> split at h <;>
      first | (simp at h; done) | (cases h; rw [if_neg (by omega)]; congr 1 <;> omega)
  lift x hx d hd dir y h := by
    rw [size1] at hx
    obtain rfl : d = 0 := by simpa [gridOf] using hd
    change (gridOf [n]).nb _ 0 _ = _ at h
    refine ⟨!dir, n - 1 - y, ?_⟩
    rw [nb1] at h ⊢
    cases dir <;> simp only [Bool.not_true, Bool.not_false, Bool.false_eq_true, if_false, if_true] at h ⊢ <;> split at h <;>
      first | (simp at h; done) | (cases h; rw [if_neg (by omega)]; exact ⟨by congr 1; omega, by omega⟩)

/-- Neighbours in coordinates. -/
theorem nb_at {n m i j : Nat} (hi : i < n) (hj : j < m) (d : Nat) (hd : d < 2) (dir : Bool) : (gridOf [n, m]).nb (i * m + j) d dir =
    if d = 0 then ((gridOf [n]).nb i 0 dir).map (· * m + j) else ((gridOf [m]).nb j 0 dir).map (i * m + ·) := by
  have e1 : (i * m + j) / m = i := by rw [Nat.mul_comm, Nat.mul_add_div (by omega), Nat.div_eq_of_lt hj, Nat.add_zero]
  have e2 : (i * m + j) % m = j := by rw [Nat.mul_comm, Nat.mul_add_mod, Nat.mod_eq_of_lt hj]
  rcases (show d = 0 ∨ d = 1 by omega) with rfl | rfl
  · rw [nb2_0, nb1, e1, if_pos rfl]
    cases dir <;> simp only [Bool.false_eq_true, if_false, if_true] <;> split
    · rfl
    · rename_i hc
      obtain ⟨k, rfl⟩ : ∃ k, i = k + 1 := ⟨i - 1, by omega⟩
      simp only [Option.map_some, Option.some.injEq, Nat.add_sub_cancel]
      rw [Nat.add_mul]; omega
    · rfl
    · simp only [Option.map_some, Option.some.injEq]
      rw [Nat.add_mul]; omega
  · rw [nb2_1, if_neg one_ne_zero, nb1, e2]
    cases dir <;> simp only [Bool.false_eq_true, if_false, if_true] <;> split
    · rfl
    · simp only [Option.map_some, Option.some.injEq]; omega
    · rfl
    · simp only [Option.map_some, Option.some.injEq]; omega

theorem coords {n m x : Nat} (hx : x < n * m) : ∃ i < n, ∃ j < m, x = i * m + j ∧ x / m = i ∧ x % m = j := by
  have hm : 0 < m := Nat.pos_of_ne_zero fun h => by rw [h, Nat.mul_zero] at hx; omega
  exact ⟨x / m, (Nat.div_lt_iff_lt_mul hm).2 hx, x % m, Nat.mod_lt x hm, by rw [Nat.mul_comm, Nat.div_add_mod], rfl, rfl⟩

theorem in_plane {n m i j : Nat} (hi : i < n) (hj : j < m) : i * m + j < n * m := by
  have : (i + 1) * m ≤ n * m := Nat.mul_le_mul_right m hi
  rw [Nat.add_mul] at this
  omega

theorem div_mod_at {m j : Nat} (i : Nat) (hj : j < m) : (i * m + j) / m = i ∧ (i * m + j) % m = j :=
  ⟨by rw [Nat.mul_comm, Nat.mul_add_div (by omega), Nat.div_eq_of_lt hj, Nat.add_zero], by rw [Nat.mul_comm, Nat.mul_add_mod, Nat.mod_eq_of_lt hj]⟩

/-- Two lines that correspond to themselves give planes that correspond to themselves. -/
theorem alike_plane {n m : Nat} {a b : Nat → Nat} (sa : Alike (gridOf [n]) (gridOf [n]) a id) (sb : Alike (gridOf [m]) (gridOf [m]) b id) :
    Alike (gridOf [n, m]) (gridOf [n, m]) (fun x => a (x / m) * m + b (x % m)) id := by
  have la : ∀ i < n, a i < n := fun i hi => by simpa [size1] using sa.lt i (by rwa [size1])
  have lb : ∀ j < m, b j < m := fun j hj => by simpa [size1] using sb.lt j (by rwa [size1])
  refine ⟨fun x hx => ?_, fun x hx => ?_, fun _ h => h, fun d h => ⟨d, h, rfl⟩, fun _ => rfl, fun x hx d hd dir y h => ?_,
    fun x hx d hd dir y h => ?_⟩ <;> rw [size2] at hx
  · rw [size2]
    obtain ⟨i, hi, j, hj, -, e1, e2⟩ := coords hx
    rw [e1, e2]
    exact in_plane (la i hi) (lb j hj)
  · rw [size2]
    obtain ⟨i, hi, j, hj, rfl, -, -⟩ := coords hx
    obtain ⟨i', hi', rfl⟩ := sa.cover i (by rwa [size1])
    obtain ⟨j', hj', rfl⟩ := sb.cover j (by rwa [size1])
    rw [size1] at hi' hj'
    refine ⟨i' * m + j', in_plane hi' hj', ?_⟩
    rw [(div_mod_at i' hj').1, (div_mod_at i' hj').2]
  · obtain ⟨i, hi, j, hj, rfl, e1, e2⟩ := coords hx
    have hd2 : d < 2 := hd
    simp only [e1, e2, id]
    rw [nb_at hi hj d hd2] at h
    simp only [nb_at (la i hi) (lb j hj) d hd2]
    by_cases hd0 : d = 0
    · rw [if_pos hd0] at h
      simp only [if_pos hd0]
      obtain ⟨k, hk, rfl⟩ := Option.map_eq_some_iff.1 h
      obtain ⟨dir', hk'⟩ := sa.step i (by rwa [size1]) 0 Nat.one_pos dir k hk
      refine ⟨dir', ?_⟩
      change (gridOf [n]).nb (a i) 0 dir' = _ at hk'
      rw [hk', (div_mod_at k hj).1, (div_mod_at k hj).2]
      rfl
    · rw [if_neg hd0] at h
      simp only [if_neg hd0]
      obtain ⟨k, hk, rfl⟩ := Option.map_eq_some_iff.1 h
      have hkm : k < m := by simpa [size1] using (wf1 m).lt j 0 dir k (by rwa [size1]) Nat.one_pos hk
      obtain ⟨dir', hk'⟩ := sb.step j (by rwa [size1]) 0 Nat.one_pos dir k hk
      refine ⟨dir', ?_⟩
      change (gridOf [m]).nb (b j) 0 dir' = _ at hk'
      rw [hk', (div_mod_at i hkm).1, (div_mod_at i hkm).2]
      rfl
  · obtain ⟨i, hi, j, hj, rfl, e1, e2⟩ := coords hx
    have hd2 : d < 2 := hd
    simp only [e1, e2, id] at h
    rw [nb_at (la i hi) (lb j hj) d hd2] at h
    simp only [nb_at hi hj d hd2]
    by_cases hd0 : d = 0
    · rw [if_pos hd0] at h
      simp only [if_pos hd0]
      obtain ⟨k, hk, rfl⟩ := Option.map_eq_some_iff.1 h
      obtain ⟨dir', k', hk', rfl⟩ := sa.lift i (by rwa [size1]) 0 Nat.one_pos dir k hk
      exact ⟨dir', _, by rw [hk']; rfl, by rw [(div_mod_at k' hj).1, (div_mod_at k' hj).2]⟩
    · rw [if_neg hd0] at h
      simp only [if_neg hd0]
      obtain ⟨k, hk, rfl⟩ := Option.map_eq_some_iff.1 h
      obtain ⟨dir', k', hk', rfl⟩ := sb.lift j (by rwa [size1]) 0 Nat.one_pos dir k hk
      have hkm : k' < m := by simpa [size1] using (wf1 m).lt j 0 dir' k' (by rwa [size1]) Nat.one_pos hk'
      exact ⟨dir', _, by rw [hk']; rfl, by rw [(div_mod_at i hkm).1, (div_mod_at i hkm).2]⟩

/-- Exchanged axes. -/
theorem alike_swap (n m : Nat) : Alike (gridOf [n, m]) (gridOf [m, n]) (fun x => x % m * n + x / m) (1 - ·) := by
  refine ⟨fun x hx => ?_, fun x hx => ?_, fun d hd => ?_, fun d hd => ?_, fun f => ?_, fun x hx d hd dir y h => ?_,
    fun x hx d hd dir y h => ?_⟩
  · rw [size2] at hx ⊢
    obtain ⟨i, hi, j, hj, -, e1, e2⟩ := coords hx
    rw [e1, e2]
    exact in_plane hj hi
  · rw [size2] at hx ⊢
    obtain ⟨j, hj, i, hi, rfl, -, -⟩ := coords hx
    exact ⟨i * m + j, in_plane hi hj, by rw [(div_mod_at i hj).1, (div_mod_at i hj).2]⟩
  · show 1 - d < 2; omega
  · have hd2 : d < 2 := hd
    exact ⟨1 - d, by show 1 - d < 2; omega, by omega⟩
  · show ∑ d ∈ Finset.range 2, f d = ∑ d ∈ Finset.range 2, f (1 - d)
    simp only [Finset.sum_range_succ, Finset.sum_range_zero]
    ring
  · rw [size2] at hx
    obtain ⟨i, hi, j, hj, rfl, e1, e2⟩ := coords hx
    have hd2 : d < 2 := hd
    simp only [e1, e2]
    rw [nb_at hi hj d hd2] at h
    refine ⟨dir, ?_⟩
    rw [nb_at hj hi (1 - d) (by omega)]
    by_cases hd0 : d = 0
    · rw [if_pos hd0] at h
      rw [if_neg (by omega)]
      obtain ⟨k, hk, rfl⟩ := Option.map_eq_some_iff.1 h
      rw [hk, (div_mod_at k hj).1, (div_mod_at k hj).2]
      rfl
    · rw [if_neg hd0] at h
      rw [if_pos (by omega)]
      obtain ⟨k, hk, rfl⟩ := Option.map_eq_some_iff.1 h
      have hkm : k < m := by simpa [size1] using (wf1 m).lt j 0 dir k (by rwa [size1]) Nat.one_pos hk
      rw [hk, (div_mod_at i hkm).1, (div_mod_at i hkm).2]
      rfl
  · rw [size2] at hx
    obtain ⟨i, hi, j, hj, rfl, e1, e2⟩ := coords hx
    have hd2 : d < 2 := hd
    simp only [e1, e2] at h
    rw [nb_at hj hi (1 - d) (by omega)] at h
    by_cases hd0 : d = 0
    · rw [if_neg (by omega)] at h
      simp only [nb_at hi hj d hd2, if_pos hd0]
      obtain ⟨k, hk, rfl⟩ := Option.map_eq_some_iff.1 h
      exact ⟨dir, k * m + j, by rw [hk]; rfl, by rw [(div_mod_at k hj).1, (div_mod_at k hj).2]⟩
    · rw [if_pos (by omega)] at h
      simp only [nb_at hi hj d hd2, if_neg hd0]
      obtain ⟨k, hk, rfl⟩ := Option.map_eq_some_iff.1 h
      have hkm : k < m := by simpa [size1] using (wf1 m).lt j 0 dir k (by rwa [size1]) Nat.one_pos hk
      exact ⟨dir, i * m + k, by rw [hk]; rfl, by rw [(div_mod_at i hkm).1, (div_mod_at i hkm).2]⟩

/-- **Uninitialised memory does not matter, nor the scale of the level set**; exchanging inside and outside changes the sign. -/
theorem distance_scale {shape : List Nat} (hs : shape.length = 1 ∨ shape.length = 2) {h : ℝ} (hh : 0 < h) {phi : Nat → ℝ} {eps : ℝ}
    (heps : 0 ≤ eps) (c : ℝ) (hc : c ≠ 0) (hphi : ∀ x < shape.prod, phi x ≤ 0 ∨ eps < phi x)
    (hphi' : ∀ x < shape.prod, c * phi x ≤ 0 ∨ eps < c * phi x)
    (hint : ∃ x < shape.prod, AtInterface ⟨gridOf shape, fun _ => h, phi, eps⟩ x)
    (g g' : Garbage) (fuel fuel' : Nat) (hfuel : shape.prod < fuel) (hfuel' : shape.prod < fuel') :
    ∃ (r r' : Res) (D : Nat → ℝ), distance ⟨gridOf shape, fun _ => h, phi, eps⟩ g fuel = .ok r ∧
      distance ⟨gridOf shape, fun _ => h, fun x => c * phi x, eps⟩ g' fuel' = .ok r' ∧
      ∀ x < shape.prod, r.dist x = some (D x) ∧ r'.dist x = some (if 0 < c then D x else -D x) :=
  distance_alike hs hs (alike_self _) hh heps hphi hphi' c hc (fun _ _ => rfl) hint g g' fuel fuel' hfuel hfuel'

/-- **A mirror image of a plane has the mirror image of the distances**, in the first axis. -/
theorem distance_mirror {n m : Nat} {h : ℝ} (hh : 0 < h) {phi : Nat → ℝ} {eps : ℝ} (heps : 0 ≤ eps)
    (hphi : ∀ x < n * m, phi x ≤ 0 ∨ eps < phi x) (hint : ∃ x < n * m, AtInterface ⟨gridOf [n, m], fun _ => h, phi, eps⟩ x)
    (phi' : Nat → ℝ) (hcor : ∀ i < n, ∀ j < m, phi' ((n - 1 - i) * m + j) = phi (i * m + j))
    (g g' : Garbage) (fuel fuel' : Nat) (hfuel : n * m < fuel) (hfuel' : n * m < fuel') :
    ∃ (r r' : Res), distance ⟨gridOf [n, m], fun _ => h, phi, eps⟩ g fuel = .ok r ∧
      distance ⟨gridOf [n, m], fun _ => h, phi', eps⟩ g' fuel' = .ok r' ∧
      ∀ i < n, ∀ j < m, r'.dist ((n - 1 - i) * m + j) = r.dist (i * m + j) := by
  have hp : ([n, m] : List Nat).prod = n * m := by simp
  have hc' : ∀ x < ([n, m] : List Nat).prod, phi' ((n - 1 - x / m) * m + id (x % m)) = 1 * phi x := by
    rw [hp]
    intro x hx
    obtain ⟨i, hi, j, hj, rfl, e1, e2⟩ := coords hx
    rw [e1, e2, one_mul]
    exact hcor i hi j hj
  obtain ⟨r, r', D, e, e', hd⟩ := distance_alike (Or.inr rfl) (Or.inr rfl) (alike_plane (alike_line n) (alike_self (gridOf [m]))) hh heps
    (by rwa [hp]) (phi' := phi') (by
      rw [hp]
      intro x hx
      obtain ⟨i, hi, j, hj, rfl, -, -⟩ := coords hx
      have := hcor (n - 1 - i) (by omega) j hj
      rw [show n - 1 - (n - 1 - i) = i by omega] at this
      rw [this]
      exact hphi _ (in_plane (by omega) hj)) 1 one_ne_zero hc' (by rwa [hp]) g g' fuel fuel' (by rwa [hp]) (by rwa [hp])
  rw [hp] at hd
  refine ⟨r, r', e, e', fun i hi j hj => ?_⟩
  obtain ⟨h1, h2⟩ := hd (i * m + j) (in_plane hi hj)
  rw [(div_mod_at i hj).1, (div_mod_at i hj).2, if_pos one_pos] at h2
  rw [h1]
  exact h2

/-- **Exchanging the axes of a plane exchanges those of the distances.** -/
theorem distance_swap {n m : Nat} {h : ℝ} (hh : 0 < h) {phi : Nat → ℝ} {eps : ℝ} (heps : 0 ≤ eps)
    (hphi : ∀ x < n * m, phi x ≤ 0 ∨ eps < phi x) (hint : ∃ x < n * m, AtInterface ⟨gridOf [n, m], fun _ => h, phi, eps⟩ x)
    (phi' : Nat → ℝ) (hcor : ∀ i < n, ∀ j < m, phi' (j * n + i) = phi (i * m + j))
    (g g' : Garbage) (fuel fuel' : Nat) (hfuel : n * m < fuel) (hfuel' : n * m < fuel') :
    ∃ (r r' : Res), distance ⟨gridOf [n, m], fun _ => h, phi, eps⟩ g fuel = .ok r ∧
      distance ⟨gridOf [m, n], fun _ => h, phi', eps⟩ g' fuel' = .ok r' ∧
      ∀ i < n, ∀ j < m, r'.dist (j * n + i) = r.dist (i * m + j) := by
  have hp : ∀ n m : Nat, ([n, m] : List Nat).prod = n * m := by simp
  obtain ⟨r, r', D, e, e', hd⟩ := distance_alike (Or.inr rfl) (Or.inr rfl) (alike_swap n m) hh heps
    (by rwa [hp]) (phi' := phi') (by
      rw [hp]
      intro x hx
      obtain ⟨j, hj, i, hi, rfl, -, -⟩ := coords hx
      rw [hcor i hi j hj]
      exact hphi _ (in_plane hi hj)) 1 one_ne_zero (by
      rw [hp]
      intro x hx
      obtain ⟨i, hi, j, hj, rfl, e1, e2⟩ := coords hx
      rw [e1, e2, one_mul]
      exact hcor i hi j hj) (by rwa [hp]) g g' fuel fuel' (by rwa [hp]) (by rw [hp, Nat.mul_comm]; exact hfuel')
  rw [hp] at hd
  refine ⟨r, r', e, e', fun i hi j hj => ?_⟩
  obtain ⟨h1, h2⟩ := hd (i * m + j) (in_plane hi hj)
  rw [(div_mod_at i hj).1, (div_mod_at i hj).2, if_pos one_pos] at h2
  rw [h1]
  exact h2

/-- A level set of both signs on a plane of two by three cells and its negative. -/
example (g g' : Garbage) : ∃ (r r' : Res) (D : Nat → ℝ),
    distance ⟨gridOf [2, 3], fun _ => 1, fun i => if i = 0 then -1 else 2, 1 / 10⟩ g 7 = .ok r ∧
    distance ⟨gridOf [2, 3], fun _ => 1, fun x => -3 * (fun i => if i = 0 then -1 else 2) x, 1 / 10⟩ g' 8 = .ok r' ∧
    ∀ x < 6, r.dist x = some (D x) ∧ r'.dist x = some (-D x) := by
  obtain ⟨r, r', D, e, e', h⟩ := distance_scale (shape := [2, 3]) (h := 1) (phi := fun i => if i = 0 then -1 else 2) (eps := 1 / 10)
    (Or.inr rfl) one_pos (by norm_num) (-3) (by norm_num)
    (fun x _ => by by_cases hx : x = 0 <;> simp only [hx, if_true, if_false] <;> norm_num)
    (fun x _ => by by_cases hx : x = 0 <;> simp only [hx, if_true, if_false] <;> norm_num)
    ⟨0, by norm_num, Or.inr ⟨0, by simp [gridOf], true, 3, by simp [nb2_0], by unfold Crosses; norm_num⟩⟩ g g' 7 8 (by norm_num) (by norm_num)
  exact ⟨r, r', D, e, e', fun x hx => by simpa [show ¬ (0 : ℝ) < -3 by norm_num] using h x (by simpa using hx)⟩

/-- **With unequal spacings the upwind equation may fail.**  If the spacing along the second axis is more than twice the one along the
first, cell 0 of this plane of two by three cells, whose neighbour along the first axis lies on the surface, gets less than the
spacing, because its neighbour along the second axis counts although it is farther away. -/
theorem distance_upwind_false (dx : Nat → ℝ) (h0 : ∀ d, 0 < dx d) (h01 : 2 * dx 0 < dx 1) (g : Garbage) : ∃ (r : Res) (D : Nat → ℝ),
    distance ⟨gridOf [2, 3], dx, fun i => if i = 3 then 0 else if i % 3 = 2 then -1 else 1, 1 / 10⟩ g 7 = .ok r ∧
      (∀ i < 6, r.dist i = some (D i)) ∧ 0 < D 0 ∧ D 0 < dx 0 ∧ D 3 = 0 ∧ D 1 = dx 1 / 2 ∧ ¬ Upwind (gridOf [2, 3]) dx D 0 := by
  set phi : Nat → ℝ := fun i => if i = 3 then 0 else if i % 3 = 2 then -1 else 1 with hphi
  have hI3 : AtInterface ⟨gridOf [2, 3], dx, phi, 1 / 10⟩ 3 := Or.inl (by simp [hphi])
  have hp : ∀ i < ([2, 3] : List Nat).prod, phi i ≤ 0 ∨ 1 / 10 < phi i := fun i _ => by
    simp only [hphi]
    split_ifs <;> norm_num
  obtain ⟨ok, hc⟩ := grid_ok (shape := [2, 3]) (Or.inr rfl) h0 (by norm_num : (0 : ℝ) ≤ 1 / 10) hp
  obtain ⟨r, D, e, -, h1, h2, h3, h4, h5⟩ := distance_run ok hc ⟨3, by simp [gridOf], hI3⟩ g 7 (by simp [gridOf])
  have h1' : ∀ i < 6, r.dist i = some (D i) := fun i hi => h1 i (by simpa [gridOf] using hi)
  have n0 : ∀ dir a, (gridOf [2, 3]).nb 0 0 dir = some a → a = 3 := by
    intro dir a h
    rw [nb2_0] at h
    cases dir <;> simp at h
    exact h.symm
  have n1 : ∀ dir a, (gridOf [2, 3]).nb 0 1 dir = some a → a = 1 := by
    intro dir a h
    rw [nb2_1] at h
    cases dir <;> simp at h
    exact h.symm
  have m0 : (gridOf [2, 3]).nb 0 0 true = some 3 := by simp [nb2_0]
  have m1 : (gridOf [2, 3]).nb 0 1 true = some 1 := by simp [nb2_1]
  have m2 : (gridOf [2, 3]).nb 1 1 true = some 2 := by simp [nb2_1]
  have hI1 : AtInterface ⟨gridOf [2, 3], dx, phi, 1 / 10⟩ 1 :=
    Or.inr ⟨1, by simp [gridOf], true, 2, m2, by unfold Crosses; simp [hphi]⟩
  have hI0 : ¬ AtInterface ⟨gridOf [2, 3], dx, phi, 1 / 10⟩ 0 := by
    rintro (h | ⟨d, hd, dir, a, ha, hx⟩)
    · simp [hphi] at h
    · have hd2 : d < 2 := hd
      rcases (show d = 0 ∨ d = 1 by omega) with rfl | rfl
      · rw [n0 dir a ha] at hx; unfold Crosses at hx; simp [hphi] at hx
      · rw [n1 dir a ha] at hx; unfold Crosses at hx; norm_num [hphi] at hx
  have hD0 : 0 < D 0 := (h2 0 (by simp [gridOf])).1 (by simp [hphi])
  have hD3 : D 3 = 0 := (h2 3 (by simp [gridOf])).2.2 (by simp [hphi])
  have hD1 : D 1 = dx 1 / 2 := by
    obtain ⟨s, v, es, hv, -, hnz⟩ := distance_interface_values ok.wf ok.dx' g 7 (by simp [gridOf]) 1 (by simp [gridOf]) hI1
    rw [e] at es
    cases es
    rw [h1' 1 (by norm_num)] at hv
    cases hv
    obtain ⟨⟨d, hd, dir, a, ha, hx, hva, -, -⟩, -, hvp, -⟩ := hnz (by simp [hphi])
    have hpos := hvp (by simp [hphi])
    have hd2 : d < 2 := hd
    rw [abs_of_pos hpos] at hva
    rw [hva]
    rcases (show d = 0 ∨ d = 1 by omega) with rfl | rfl
    · exfalso
      change (gridOf [2, 3]).nb 1 0 dir = some a at ha
      rw [nb2_0] at ha
      cases dir <;> simp at ha
      subst ha
      unfold Crosses at hx
      norm_num [hphi] at hx
    · change (gridOf [2, 3]).nb 1 1 dir = some a at ha
      rw [nb2_1] at ha
      cases dir <;> simp at ha <;> subst ha
      · unfold Crosses at hx
        norm_num [hphi] at hx
      · simp only [interpDist, hphi]
        norm_num
        ring
  have hdx0 := h0 0
  have hdx1 := h0 1
  obtain ⟨pre, suf, -, -, -, o, ho, h6, -⟩ := h5 0 ((h3 0).2 ⟨by simp [gridOf], hI0⟩)
  have o0 : o 0 = some 0 := by
    have hq := ho 0 (by simp [gridOf])
    cases hod : o 0 with
    | none => rw [hod] at hq; exact absurd (Or.inl ⟨by simp [gridOf], hI3⟩) (hq true 3 m0)
    | some m =>
      rw [hod] at hq
      obtain ⟨⟨dir, a, ha, -, rfl⟩, -⟩ := hq
      rw [n0 dir a ha, hD3, abs_zero]
  have o1 : o 1 = some (dx 1 / 2) := by
    have hq := ho 1 (by simp [gridOf])
    cases hod : o 1 with
    | none => rw [hod] at hq; exact absurd (Or.inl ⟨by simp [gridOf], hI1⟩) (hq true 1 m1)
    | some m =>
      rw [hod] at hq
      obtain ⟨⟨dir, a, ha, -, rfl⟩, -⟩ := hq
      rw [n1 dir a ha, hD1, abs_of_pos (by positivity)]
  change ∑ d ∈ Finset.range 2, term (dx d) (o d) |D 0| = 1 at h6
  rw [Finset.sum_range_succ, Finset.sum_range_one, o0, o1, abs_of_pos hD0] at h6
  simp only [term, sub_zero] at h6
  have hlt : D 0 < dx 0 := by
    by_contra hge
    push Not at hge
    have p1 : 1 ≤ D 0 / dx 0 := (one_le_div hdx0).2 hge
    have p2 : 0 ≤ ((D 0 - dx 1 / 2) / dx 1) ^ 2 := sq_nonneg _
    have p3 : D 0 / dx 0 = 1 := by nlinarith
    have p4 : ((D 0 - dx 1 / 2) / dx 1) ^ 2 = 0 := by rw [p3] at h6; linarith
    rw [div_eq_one_iff_eq hdx0.ne'] at p3
    rw [sq_eq_zero_iff, div_eq_zero_iff] at p4
    rcases p4 with p4 | p4 <;> linarith
  refine ⟨r, D, e, h1', hD0, hlt, hD3, hD1, ?_⟩
  rintro ⟨q, hq, h8⟩
  have q0 : q 0 = some 0 := by
    have hq0 := hq 0 (by simp [gridOf])
    cases hqd : q 0 with
    | none => rw [hqd] at hq0; exact absurd trivial (hq0 true 3 m0)
    | some m =>
      rw [hqd] at hq0
      obtain ⟨⟨dir, a, ha, -, rfl⟩, -⟩ := hq0
      rw [n0 dir a ha, hD3, abs_zero]
  have q1 : q 1 = some (dx 1 / 2) := by
    have hq1 := hq 1 (by simp [gridOf])
    cases hqd : q 1 with
    | none => rw [hqd] at hq1; exact absurd trivial (hq1 true 1 m1)
    | some m =>
      rw [hqd] at hq1
      obtain ⟨⟨dir, a, ha, -, rfl⟩, -⟩ := hq1
      rw [n1 dir a ha, hD1, abs_of_pos (by positivity)]
  change ∑ d ∈ Finset.range 2, pos (dx d) (q d) |D 0| = 1 at h8
  rw [Finset.sum_range_succ, Finset.sum_range_one, q0, q1, abs_of_pos hD0] at h8
  simp only [pos, sub_zero, max_eq_left hD0.le, max_eq_right (show D 0 - dx 1 / 2 ≤ 0 by linarith), zero_div] at h8
  have p1 : D 0 / dx 0 < 1 := (div_lt_one hdx0).2 hlt
  have p2 : 0 < D 0 / dx 0 := div_pos hD0 hdx0
  nlinarith

/-- Spacings 1 and 3. -/
example (g : Garbage) : ∃ (r : Res) (D : Nat → ℝ),
    distance ⟨gridOf [2, 3], fun d => if d = 0 then 1 else 3, fun i => if i = 3 then 0 else if i % 3 = 2 then -1 else 1, 1 / 10⟩ g 7 = .ok r ∧
      r.dist 0 = some (D 0) ∧ D 0 < 1 := by
  obtain ⟨r, D, e, h, -, h1, -⟩ := distance_upwind_false (fun d => if d = 0 then 1 else 3) (fun d => by by_cases hd : d = 0 <;> simp [hd])
    (by norm_num) g
  exact ⟨r, D, e, h 0 (by norm_num), by simpa using h1⟩

end Verif.March
