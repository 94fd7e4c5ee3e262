import Verif.March.Upwind

/-! # How far distances can be from the true ones: comparison with convex level sets and with rows -/

namespace Verif.March

/-- `E` has a support at the cell `x`: a plane through its value there that lies below its values at the neighbours and rises by at
most `k` per unit of length. -/
def Support (G : Grid) (h : ℝ) (E : Nat → ℝ) (k : ℝ) (x : Nat) : Prop :=
  ∃ p : Nat → ℝ, ∑ d ∈ Finset.range G.ndim, p d ^ 2 ≤ k ^ 2 ∧ ∀ d < G.ndim, ∀ a,
    (G.nb x d true = some a → E x + p d * h ≤ E a) ∧ (G.nb x d false = some a → E x - p d * h ≤ E a)

theorem Support.fall {G : Grid} {h : ℝ} {E : Nat → ℝ} {x : Nat} {p : Nat → ℝ} (hh : 0 < h)
    (hp : ∀ d < G.ndim, ∀ a, (G.nb x d true = some a → E x + p d * h ≤ E a) ∧ (G.nb x d false = some a → E x - p d * h ≤ E a))
    {d : Nat} (hd : d < G.ndim) {dir : Bool} {a : Nat} (ha : G.nb x d dir = some a) : E x - E a ≤ |p d| * h := by
  cases dir
  · have h1 := (hp d hd a).2 ha
    have h2 := mul_le_mul_of_nonneg_right (le_abs_self (p d)) hh.le
    linarith
  · have h1 := (hp d hd a).1 ha
    have h2 := mul_le_mul_of_nonneg_right (neg_abs_le (p d)) hh.le
    linarith

/-- A solution of the upwind equations stays above every function with supports of slope `k`, if it does so at the interface. -/
theorem upwind_above {G : Grid} (wf : G.WF) {h k : ℝ} (hh : 0 < h) (hk : 0 < k) {I : Nat → Prop} {D E : Nat → ℝ}
    (hI : ∀ x < G.size, I x → E x ≤ k * |D x|) (hD : ∀ x < G.size, ¬ I x → Upwind G (fun _ => h) D x)
    (hE : ∀ x < G.size, Support G h E k x) : ∀ x < G.size, E x ≤ k * |D x| := by
  classical
  by_contra hne
  push Not at hne
  obtain ⟨z, hz, hzne⟩ := hne
  obtain ⟨x, hxF, hmin⟩ := ((Finset.range G.size).filter fun x => k * |D x| < E x).exists_min_image (fun x => |D x|)
    ⟨z, by simp [hz, hzne]⟩
  simp only [Finset.mem_filter, Finset.mem_range] at hxF hmin
  obtain ⟨hx, hxlt⟩ := hxF
  obtain ⟨o, ho, h1⟩ := hD x hx fun h => absurd (hI x hx h) (not_le.2 hxlt)
  obtain ⟨p, hp2, hp⟩ := hE x hx
  have hle : ∀ d < G.ndim, pos h (o d) |D x| ≤ p d ^ 2 / k ^ 2 ∧ (0 < pos h (o d) |D x| → pos h (o d) |D x| < p d ^ 2 / k ^ 2) := by
    intro d hd
    have hnn : 0 ≤ p d ^ 2 / k ^ 2 := by positivity
    have hq := ho d hd
    cases hod : o d with
    | none => exact ⟨hnn, fun h => absurd h (lt_irrefl _)⟩
    | some m =>
      rw [hod] at hq
      obtain ⟨⟨dir, a, ha, -, hma⟩, -⟩ := hq
      by_cases hmr : |D x| ≤ m
      · have hz : pos h (some m) |D x| = 0 := by simp [pos, max_eq_right (sub_nonpos.2 hmr)]
        rw [hz]
        exact ⟨hnn, fun h => absurd h (lt_irrefl _)⟩
      · push Not at hmr
        have haN := wf.lt x d dir a hx hd ha
        have hEa : E a ≤ k * |D a| := by
          by_contra hc
          exact absurd (hmin a ⟨haN, not_le.1 hc⟩) (not_le.2 (hma ▸ hmr))
        have hf := Support.fall hh hp hd ha
        have hlt : pos h (some m) |D x| < p d ^ 2 / k ^ 2 := by
          simp only [pos, max_eq_left (sub_nonneg.2 hmr.le)]
          rw [← sq_abs (p d), ← div_pow]
          refine pow_lt_pow_left₀ ?_ (div_nonneg (sub_nonneg.2 hmr.le) hh.le) two_ne_zero
          rw [div_lt_div_iff₀ hh hk, hma]
          nlinarith
        exact ⟨hlt.le, fun _ => hlt⟩
  obtain ⟨d, hd, hdp⟩ := Finset.exists_lt_of_sum_lt (s := Finset.range G.ndim) (f := fun _ => (0 : ℝ))
    (g := fun d => pos h (o d) |D x|) (by simpa using lt_of_lt_of_le one_pos h1.ge)
  have h2 : ∑ d ∈ Finset.range G.ndim, pos h (o d) |D x| < ∑ d ∈ Finset.range G.ndim, p d ^ 2 / k ^ 2 :=
    Finset.sum_lt_sum (fun d hd => (hle d (Finset.mem_range.1 hd)).1) ⟨d, hd, (hle d (Finset.mem_range.1 hd)).2 hdp⟩
  have h3 : ∑ d ∈ Finset.range G.ndim, p d ^ 2 / k ^ 2 = (∑ d ∈ Finset.range G.ndim, p d ^ 2) * (k ^ 2)⁻¹ := by
    rw [Finset.sum_mul]
    rfl
  rw [show ∑ d ∈ Finset.range G.ndim, pos h (o d) |D x| = 1 from h1, h3, ← div_eq_mul_inv, lt_div_iff₀ (by positivity)] at h2
  linarith

/-- The data of a run used below. -/
theorem distance_facts {shape : List Nat} (hs : shape.length = 1 ∨ shape.length = 2) {h : ℝ} (hh : 0 < h) {phi : Nat → ℝ} {eps : ℝ}
    (heps : 0 ≤ eps) (hphi : ∀ x < shape.prod, phi x ≤ 0 ∨ eps < phi x)
    (hint : ∃ x < shape.prod, AtInterface ⟨gridOf shape, fun _ => h, phi, eps⟩ x) (g : Garbage) (fuel : Nat) (hfuel : shape.prod < fuel) :
    ∃ (r : Res) (D : Nat → ℝ), distance ⟨gridOf shape, fun _ => h, phi, eps⟩ g fuel = .ok r ∧
      (∀ x < shape.prod, r.dist x = some (D x)) ∧ (∀ x < shape.prod, SignOK (phi x) (D x)) ∧
      -- lower bound
      (∀ c k : ℝ, c ≠ 0 → 0 < k → (∀ x < shape.prod, Support (gridOf shape) h (fun y => c * phi y) k x) →
        ∀ x < shape.prod, c * phi x ≤ k * |D x|) ∧
      -- upper bound
      ∀ c s : ℝ, c ≠ 0 → 0 < s → ∀ d < shape.length, ∀ dir, ∀ (n : Nat) (path : Nat → Nat), path 0 < shape.prod →
        (∀ k < n, (gridOf shape).nb (path k) d dir = some (path (k + 1))) → (∀ k < n, c * phi (path (k + 1)) ≤ c * phi (path k) - s) →
        c * phi (path n) ≤ 0 → 0 ≤ c * phi (path 0) → s * |D (path 0)| ≤ h * (c * phi (path 0)) := by
  obtain ⟨ok, -⟩ := grid_ok (dx := fun _ => h) hs (fun _ => hh) heps hphi
  obtain ⟨r, D, e, h1, h2, h3⟩ := distance_upwind hs hh heps hphi hint g fuel hfuel
  obtain ⟨r', D', e', h1', -, h4⟩ := distance_neighbour_partial (dx := fun _ => h) hs (fun _ => hh) heps hphi hint g fuel hfuel
  rw [e] at e'
  cases e'
  have hDD : ∀ x < shape.prod, D' x = D x := fun x hx => by
    have := h1' x hx
    rw [h1 x hx] at this
    exact (Option.some.inj this).symm
  have hval : ∀ x < shape.prod, AtInterface ⟨gridOf shape, fun _ => h, phi, eps⟩ x → phi x ≠ 0 →
      (∃ d < (gridOf shape).ndim, ∃ dir a, (gridOf shape).nb x d dir = some a ∧ phi x * phi a < 0 ∧
        |D x| = h * (|phi x| / (|phi x| + |phi a|)) ∧ |D x| < h) ∧
      ∀ d < (gridOf shape).ndim, ∀ dir a, (gridOf shape).nb x d dir = some a → phi x * phi a < 0 →
        |D x| ≤ h * (|phi x| / (|phi x| + |phi a|)) := by
    intro x hx hI hn
    obtain ⟨t, v, et, hv, -, hvn⟩ := distance_interface_values ok.wf ok.dx' g fuel hfuel x hx hI
    rw [e] at et
    cases et
    rw [h1 x hx] at hv
    cases hv
    obtain ⟨⟨d, hd, dir, a, ha, hxa, hva, -, hlt⟩, hmin, -⟩ := hvn hn
    exact ⟨⟨d, hd, dir, a, ha, hxa, hva, hlt⟩, hmin⟩
  have hsum : ∀ c x a, c * phi x > 0 → phi x * phi a < 0 → |c| * (|phi x| + |phi a|) = c * phi x - c * phi a ∧ 0 < |phi x| + |phi a| ∧
      |c| * |phi x| = c * phi x := by
    intro c x a hc hx
    have hx0 : phi x ≠ 0 := by rintro h0; simp [h0] at hx
    have hca : c * phi a < 0 := by
      have : (c * phi x) * (c * phi a) ≤ 0 := by nlinarith [sq_nonneg c]
      have hc0 : c ≠ 0 := by rintro h0; simp [h0] at hc
      have : (c * phi x) * (c * phi a) < 0 := by
        have hc2 : 0 < c ^ 2 := by positivity
        nlinarith
      by_contra hge
      nlinarith [mul_nonneg hc.le (not_lt.1 hge)]
    refine ⟨?_, by have := abs_pos.2 hx0; positivity, ?_⟩
    · rw [mul_add, ← abs_mul, ← abs_mul, abs_of_pos hc, abs_of_neg hca]
      ring
    · rw [← abs_mul, abs_of_pos hc]
  refine ⟨r, D, e, h1, h2, ?_, ?_⟩
  · intro c k hc hk hE
    refine upwind_above (G := gridOf shape) ok.wf hh hk (I := AtInterface ⟨gridOf shape, fun _ => h, phi, eps⟩) ?_ h3 hE
    intro x hx hI
    by_cases hpos : c * phi x ≤ 0
    · exact hpos.trans (by positivity)
    · push Not at hpos
      have hn : phi x ≠ 0 := by rintro h0; simp [h0] at hpos
      obtain ⟨⟨d, hd, dir, a, ha, hxa, hva, -⟩, -⟩ := hval x hx hI hn
      obtain ⟨p, hp2, hp⟩ := hE x hx
      have hf : c * phi x - c * phi a ≤ |p d| * h := Support.fall (E := fun y => c * phi y) hh hp hd ha
      have hpk : |p d| ≤ k := by
        refine abs_le_of_sq_le_sq (le_trans ?_ hp2) hk.le
        exact Finset.single_le_sum (f := fun d => p d ^ 2) (fun _ _ => sq_nonneg _) (Finset.mem_range.2 hd)
      obtain ⟨s1, s2, s3⟩ := hsum c x a hpos hxa
      rw [hva, ← mul_assoc, mul_div_assoc', le_div_iff₀ s2]
      have hcp : 0 < |c| := abs_pos.2 hc
      have h5 : |c| * (|phi x| + |phi a|) ≤ k * h := by rw [s1]; exact hf.trans (mul_le_mul_of_nonneg_right hpk hh.le)
      rw [← s3]
      nlinarith [abs_nonneg (phi x), mul_le_mul_of_nonneg_right h5 (abs_nonneg (phi x))]
  · intro c s hc hs0 d hd dir n
    induction n with
    | zero =>
      intro path hp0 _ _ hn hnn
      have h0 : phi (path 0) = 0 := by
        have := le_antisymm hn hnn
        exact (mul_eq_zero.1 this).resolve_left hc
      rw [(h2 _ hp0).2.2 h0, h0]
      simp
    | succ n ih =>
      intro path hp0 hstep hfall hn hnn
      rcases hnn.lt_or_eq with hpos | hz
      · have hx0 : phi (path 0) ≠ 0 := by rintro h0; simp [h0] at hpos
        have st := hstep 0 (by omega)
        have fl := hfall 0 (by omega)
        have hp1 : path 1 < shape.prod := ok.wf.lt _ d dir _ hp0 (by simpa [gridOf] using hd) st
        simp only [zero_add] at st fl
        by_cases hneg : c * phi (path 1) < 0
        · have hcr : phi (path 0) * phi (path 1) < 0 := by
            have hc2 : 0 < c ^ 2 := by positivity
            have : (c * phi (path 0)) * (c * phi (path 1)) < 0 := mul_neg_of_pos_of_neg hpos hneg
            by_contra hge
            nlinarith [mul_nonneg hc2.le (not_lt.1 hge)]
          have hI : AtInterface ⟨gridOf shape, fun _ => h, phi, eps⟩ (path 0) :=
            Or.inr ⟨d, by simpa [gridOf] using hd, dir, path 1, st, hcr⟩
          have hle := (hval _ hp0 hI hx0).2 d (by simpa [gridOf] using hd) dir _ st hcr
          obtain ⟨s1, s2, s3⟩ := hsum c _ _ hpos hcr
          rw [mul_div_assoc', le_div_iff₀ s2] at hle
          have hcp : 0 < |c| := abs_pos.2 hc
          have h5 : |D (path 0)| * (c * phi (path 0) - c * phi (path 1)) ≤ h * (c * phi (path 0)) := by
            rw [← s1, ← s3]
            nlinarith [mul_le_mul_of_nonneg_left hle hcp.le]
          nlinarith [abs_nonneg (D (path 0))]
        · push Not at hneg
          by_cases hI : AtInterface ⟨gridOf shape, fun _ => h, phi, eps⟩ (path 0)
          · obtain ⟨⟨-, -, -, -, -, -, -, hlt⟩, -⟩ := hval _ hp0 hI hx0
            nlinarith
          · have h5 := (h4 _ hp0 hI).1 d hd dir _ st
            rw [hDD _ hp0, hDD _ hp1] at h5
            have h6 := ih (fun k => path (k + 1)) hp1 (fun k hk => hstep (k + 1) (by omega)) (fun k hk => hfall (k + 1) (by omega)) hn hneg
            simp only [zero_add] at h6
            nlinarith
      · have h0 : phi (path 0) = 0 := (mul_eq_zero.1 hz.symm).resolve_left hc
        rw [(h2 _ hp0).2.2 h0, h0]
        simp

theorem abs_one_of_sq {c : ℝ} (hc : c ^ 2 = 1) : |c| = 1 := by
  rcases sq_eq_one_iff.1 hc with rfl | rfl <;> norm_num

/-- The neighbours of a cell of a plane. -/
theorem plane_nb {n m i j : Nat} (hi : i < n) (hj : j < m) {d : Nat} (hd : d < 2) {dir : Bool} {a : Nat}
    (h : (gridOf [n, m]).nb (i * m + j) d dir = some a) :
    (d = 0 ∧ dir = true ∧ i + 1 < n ∧ a = (i + 1) * m + j) ∨ (d = 0 ∧ dir = false ∧ 0 < i ∧ a = (i - 1) * m + j) ∨
    (d = 1 ∧ dir = true ∧ j + 1 < m ∧ a = i * m + (j + 1)) ∨ (d = 1 ∧ dir = false ∧ 0 < j ∧ a = i * m + (j - 1)) := by
  rw [nb_at hi hj d hd dir] at h
  rcases (show d = 0 ∨ d = 1 by omega) with rfl | rfl <;> cases dir
  · rw [if_pos rfl, nb1] at h
    simp only [Bool.false_eq_true, if_false, Option.map_eq_some_iff] at h
    obtain ⟨b, hb, rfl⟩ := h
    split at hb
    · cases hb
    · cases hb
      exact Or.inr (Or.inl ⟨rfl, rfl, by omega, rfl⟩)
  · rw [if_pos rfl, nb1] at h
    simp only [if_true, Option.map_eq_some_iff] at h
    obtain ⟨b, hb, rfl⟩ := h
    split at hb
    · cases hb
    · cases hb
      exact Or.inl ⟨rfl, rfl, by omega, rfl⟩
  · rw [if_neg one_ne_zero, nb1] at h
    simp only [Bool.false_eq_true, if_false, Option.map_eq_some_iff] at h
    obtain ⟨b, hb, rfl⟩ := h
    split at hb
    · cases hb
    · cases hb
      exact Or.inr (Or.inr (Or.inr ⟨rfl, rfl, by omega, rfl⟩))
  · rw [if_neg one_ne_zero, nb1] at h
    simp only [if_true, Option.map_eq_some_iff] at h
    obtain ⟨b, hb, rfl⟩ := h
    split at hb
    · cases hb
    · cases hb
      exact Or.inr (Or.inr (Or.inl ⟨rfl, rfl, by omega, rfl⟩))

/-- The supports of a function on a plane, in coordinates. -/
theorem plane_support {n m : Nat} {h : ℝ} {E : Nat → ℝ} {k : ℝ} (p q : Nat → Nat → ℝ) (hpq : ∀ i < n, ∀ j < m, p i j ^ 2 + q i j ^ 2 ≤ k ^ 2)
    (h1 : ∀ i j, i + 1 < n → j < m → E (i * m + j) + p i j * h ≤ E ((i + 1) * m + j) ∧ E ((i + 1) * m + j) - p (i + 1) j * h ≤ E (i * m + j))
    (h2 : ∀ i j, i < n → j + 1 < m → E (i * m + j) + q i j * h ≤ E (i * m + (j + 1)) ∧ E (i * m + (j + 1)) - q i (j + 1) * h ≤ E (i * m + j)) :
    ∀ x < ([n, m] : List Nat).prod, Support (gridOf [n, m]) h E k x := by
  intro x hx
  obtain ⟨i, hi, j, hj, rfl, -, -⟩ := coords (n := n) (m := m) (by simpa using hx)
  refine ⟨fun d => if d = 0 then p i j else q i j, ?_, fun d hd a => ?_⟩
  · change ∑ d ∈ Finset.range 2, (if d = 0 then p i j else q i j) ^ 2 ≤ k ^ 2
    rw [Finset.sum_range_succ, Finset.sum_range_one]
    simpa using hpq i hi j hj
  · have hd2 : d < 2 := hd
    constructor <;> intro ha <;>
      rcases plane_nb hi hj hd2 ha with ⟨rfl, e, hb, rfl⟩ | ⟨rfl, e, hb, rfl⟩ | ⟨rfl, e, hb, rfl⟩ | ⟨rfl, e, hb, rfl⟩ <;>
      first
      | (simp at e; done)
      | skip
    · simpa using (h1 i j hb hj).1
    · simpa using (h2 i j hi hb).1
    · obtain ⟨i, rfl⟩ : ∃ l, i = l + 1 := ⟨i - 1, by omega⟩
      simpa using (h1 i j hi hj).2
    · obtain ⟨j, rfl⟩ : ∃ l, j = l + 1 := ⟨j - 1, by omega⟩
      simpa using (h2 i j hi hj).2

/-- **Distances from a straight front.**  If the level set rises by `α` from cell to cell along the first axis and by `β` along the
second one, no distance is smaller than the distance of the cell centre from the straight line on which the level set vanishes; and
it is at most the distance from that line along a row or a column that meets it. -/
theorem distance_straight {n m : Nat} {h : ℝ} (hh : 0 < h) {phi : Nat → ℝ} {eps : ℝ} (heps : 0 ≤ eps)
    (hphi : ∀ x < n * m, phi x ≤ 0 ∨ eps < phi x) (hint : ∃ x < n * m, AtInterface ⟨gridOf [n, m], fun _ => h, phi, eps⟩ x)
    (α β γ : ℝ) (hab : α ≠ 0 ∨ β ≠ 0) (hlin : ∀ i < n, ∀ j < m, phi (i * m + j) = α * i + β * j - γ)
    (g : Garbage) (fuel : Nat) (hfuel : n * m < fuel) :
    ∃ (r : Res) (D : Nat → ℝ), distance ⟨gridOf [n, m], fun _ => h, phi, eps⟩ g fuel = .ok r ∧
      ∀ i < n, ∀ j < m, r.dist (i * m + j) = some (D (i * m + j)) ∧ SignOK (phi (i * m + j)) (D (i * m + j)) ∧
        h * |phi (i * m + j)| ≤ √(α ^ 2 + β ^ 2) * |D (i * m + j)| ∧
        (α ≠ 0 → ∀ l < n, phi (i * m + j) * phi (l * m + j) ≤ 0 → |α| * |D (i * m + j)| ≤ h * |phi (i * m + j)|) ∧
        (β ≠ 0 → ∀ l < m, phi (i * m + j) * phi (i * m + l) ≤ 0 → |β| * |D (i * m + j)| ≤ h * |phi (i * m + j)|) := by
  have hp : ([n, m] : List Nat).prod = n * m := by simp
  obtain ⟨r, D, e, h1, h2, h3, h4⟩ := distance_facts (shape := [n, m]) (Or.inr rfl) hh heps (by rw [hp]; exact hphi)
    (by rw [hp]; exact hint) g fuel (by rw [hp]; exact hfuel)
  rw [hp] at h1 h2
  have hpos : 0 < α ^ 2 + β ^ 2 := by
    rcases hab with h | h
    · have := sq_pos_of_ne_zero h
      positivity
    · have := sq_pos_of_ne_zero h
      positivity
  have hsq : √(α ^ 2 + β ^ 2) ^ 2 = α ^ 2 + β ^ 2 := Real.sq_sqrt hpos.le
  have hsp : 0 < √(α ^ 2 + β ^ 2) := Real.sqrt_pos.2 hpos
  have low : ∀ c : ℝ, c ^ 2 = 1 → ∀ x < n * m, c * phi x ≤ √(α ^ 2 + β ^ 2) / h * |D x| := by
    intro c hc x hx
    refine h3 c (√(α ^ 2 + β ^ 2) / h) (by rintro rfl; norm_num at hc) (by positivity) ?_ x (by rw [hp]; exact hx)
    refine plane_support (fun _ _ => c * α / h) (fun _ _ => c * β / h) (fun _ _ _ _ => ?_) (fun i j hi hj => ?_) (fun i j hi hj => ?_)
    · rw [div_pow, div_pow, div_pow, ← add_div, hsq, mul_pow, mul_pow, hc, one_mul, one_mul]
    · rw [hlin i (by omega) j hj, hlin (i + 1) hi j hj, div_mul_cancel₀ _ hh.ne']
      push_cast
      constructor <;> linarith
    · rw [hlin i hi j (by omega), hlin i hi (j + 1) hj, div_mul_cancel₀ _ hh.ne']
      push_cast
      constructor <;> linarith
  have sgn : ∀ t : ℝ, ∃ c : ℝ, c ^ 2 = 1 ∧ c * t = |t| := by
    intro t
    rcases le_total 0 t with ht | ht
    · exact ⟨1, by norm_num, by rw [abs_of_nonneg ht, one_mul]⟩
    · exact ⟨-1, by norm_num, by rw [abs_of_nonpos ht]; ring⟩
  refine ⟨r, D, e, fun i hi j hj => ⟨h1 _ (in_plane hi hj), h2 _ (in_plane hi hj), ?_, ?_, ?_⟩⟩
  · obtain ⟨c, hc, hct⟩ := sgn (phi (i * m + j))
    have := low c hc _ (in_plane hi hj)
    rw [hct, div_mul_eq_mul_div, le_div_iff₀ hh] at this
    linarith
  · intro hα l hl hle
    by_cases hz : phi (i * m + j) = 0
    · rw [(h2 _ (in_plane hi hj)).2.2 hz, hz]; simp
    obtain ⟨c, hc, hct⟩ := sgn (phi (i * m + j))
    have hc0 : c ≠ 0 := by rintro rfl; norm_num at hc
    have hp0 : 0 < c * phi (i * m + j) := by rw [hct]; exact abs_pos.2 hz
    have hl0 : c * phi (l * m + j) ≤ 0 := by
      by_contra hgt
      have := mul_pos hp0 (not_le.1 hgt)
      rw [show c * phi (i * m + j) * (c * phi (l * m + j)) = c ^ 2 * (phi (i * m + j) * phi (l * m + j)) by ring, hc] at this
      linarith
    have hil : c * α * ((l : ℝ) - i) < 0 := by
      rw [hlin i hi j hj] at hp0
      rw [hlin l hl j hj] at hl0
      linarith
    rw [← hct]
    rcases Nat.lt_or_ge i l with hlt | hge
    · have hs : 0 < -(c * α) := by
        have : (0 : ℝ) < (l : ℝ) - i := by rw [sub_pos]; exact_mod_cast hlt
        by_contra hn
        nlinarith [mul_nonneg (by linarith : 0 ≤ c * α) this.le]
      have habs : |α| = -(c * α) := by
        rw [← abs_of_pos hs, abs_neg, abs_mul, abs_one_of_sq hc, one_mul]
      rw [habs]
      have := h4 c (-(c * α)) hc0 hs 0 (by simp) true (l - i) (fun k => (i + k) * m + j) (by rw [hp]; simpa using in_plane hi hj)
        (fun k hk => by
          rw [nb_at (by omega) hj 0 (by omega) true, if_pos rfl, nb1]
          simp only [if_true]
          rw [if_neg (by omega)]; rfl)
        (fun k hk => by
          rw [hlin _ (by omega) j hj, hlin _ (by omega) j hj]; push_cast; linarith)
        (by simpa [show i + (l - i) = l by omega] using hl0) (by simpa using hp0.le)
      simpa using this
    · have hs : 0 < c * α := by
        have : (l : ℝ) - i ≤ 0 := by rw [sub_nonpos]; exact_mod_cast hge
        by_contra hn
        nlinarith [mul_nonneg_of_nonpos_of_nonpos (not_lt.1 hn) this]
      have habs : |α| = c * α := by
        rw [← abs_of_pos hs, abs_mul, abs_one_of_sq hc, one_mul]
      rw [habs]
      have := h4 c (c * α) hc0 hs 0 (by simp) false (i - l) (fun k => (i - k) * m + j) (by rw [hp]; simpa using in_plane hi hj)
        (fun k hk => by
          rw [nb_at (by omega) hj 0 (by omega) false, if_pos rfl, nb1]
          simp only [Bool.false_eq_true, if_false]
          rw [if_neg (by omega)]; rfl)
        (fun k hk => by
          rw [hlin _ (by omega) j hj, hlin _ (by omega) j hj, Nat.cast_sub (by omega), Nat.cast_sub (by omega)]; push_cast; linarith)
        (by simpa [show i - (i - l) = l by omega] using hl0) (by simpa using hp0.le)
      simpa using this
  · intro hβ l hl hle
    by_cases hz : phi (i * m + j) = 0
    · rw [(h2 _ (in_plane hi hj)).2.2 hz, hz]; simp
    obtain ⟨c, hc, hct⟩ := sgn (phi (i * m + j))
    have hc0 : c ≠ 0 := by rintro rfl; norm_num at hc
    have hp0 : 0 < c * phi (i * m + j) := by rw [hct]; exact abs_pos.2 hz
    have hl0 : c * phi (i * m + l) ≤ 0 := by
      by_contra hgt
      have := mul_pos hp0 (not_le.1 hgt)
      rw [show c * phi (i * m + j) * (c * phi (i * m + l)) = c ^ 2 * (phi (i * m + j) * phi (i * m + l)) by ring, hc] at this
      linarith
    have hil : c * β * ((l : ℝ) - j) < 0 := by
      rw [hlin i hi j hj] at hp0
      rw [hlin i hi l hl] at hl0
      linarith
    rw [← hct]
    rcases Nat.lt_or_ge j l with hlt | hge
    · have hs : 0 < -(c * β) := by
        have : (0 : ℝ) < (l : ℝ) - j := by rw [sub_pos]; exact_mod_cast hlt
        by_contra hn
        nlinarith [mul_nonneg (by linarith : 0 ≤ c * β) this.le]
      have habs : |β| = -(c * β) := by
        rw [← abs_of_pos hs, abs_neg, abs_mul, abs_one_of_sq hc, one_mul]
      rw [habs]
      have := h4 c (-(c * β)) hc0 hs 1 (by simp) true (l - j) (fun k => i * m + (j + k)) (by rw [hp]; simpa using in_plane hi hj)
        (fun k hk => by
          rw [nb_at hi (by omega) 1 (by omega) true, if_neg one_ne_zero, nb1]
          simp only [if_true]
          rw [if_neg (by omega)]; rfl)
        (fun k hk => by
          rw [hlin i hi _ (by omega), hlin i hi _ (by omega)]; push_cast; linarith)
        (by simpa [show j + (l - j) = l by omega] using hl0) (by simpa using hp0.le)
      simpa using this
    · have hs : 0 < c * β := by
        have : (l : ℝ) - j ≤ 0 := by rw [sub_nonpos]; exact_mod_cast hge
        by_contra hn
        nlinarith [mul_nonneg_of_nonpos_of_nonpos (not_lt.1 hn) this]
      have habs : |β| = c * β := by
        rw [← abs_of_pos hs, abs_mul, abs_one_of_sq hc, one_mul]
      rw [habs]
      have := h4 c (c * β) hc0 hs 1 (by simp) false (j - l) (fun k => i * m + (j - k)) (by rw [hp]; simpa using in_plane hi hj)
        (fun k hk => by
          rw [nb_at hi (by omega) 1 (by omega) false, if_neg one_ne_zero, nb1]
          simp only [Bool.false_eq_true, if_false]
          rw [if_neg (by omega)]; rfl)
        (fun k hk => by
          rw [hlin i hi _ (by omega), hlin i hi _ (by omega), Nat.cast_sub (by omega), Nat.cast_sub (by omega)]; push_cast; linarith)
        (by simpa [show j - (j - l) = l by omega] using hl0) (by simpa using hp0.le)
      simpa using this

/-- The distance from a point has a support of slope 1 everywhere. -/
theorem norm_support (a b : ℝ) : ∃ p q : ℝ, p ^ 2 + q ^ 2 ≤ 1 ∧ ∀ t, √(a ^ 2 + b ^ 2) + p * t ≤ √((a + t) ^ 2 + b ^ 2) ∧
    √(a ^ 2 + b ^ 2) + q * t ≤ √(a ^ 2 + (b + t) ^ 2) := by
  rcases (Real.sqrt_nonneg (a ^ 2 + b ^ 2)).lt_or_eq with h | h
  · have hs : √(a ^ 2 + b ^ 2) ^ 2 = a ^ 2 + b ^ 2 := Real.sq_sqrt (by positivity)
    set ρ := √(a ^ 2 + b ^ 2) with hρ
    have ha : a ^ 2 / ρ ^ 2 ≤ 1 := by rw [div_le_one (by positivity), hs]; nlinarith [sq_nonneg b]
    have hb : b ^ 2 / ρ ^ 2 ≤ 1 := by rw [div_le_one (by positivity), hs]; nlinarith [sq_nonneg a]
    refine ⟨a / ρ, b / ρ, ?_, fun t => ⟨Real.le_sqrt_of_sq_le ?_, Real.le_sqrt_of_sq_le ?_⟩⟩
    · rw [div_pow, div_pow, ← add_div, ← hs, div_self (by positivity)]
    · have : (ρ + a / ρ * t) ^ 2 = ρ ^ 2 + 2 * a * t + a ^ 2 / ρ ^ 2 * t ^ 2 := by field_simp; ring
      rw [this]
      nlinarith [mul_le_mul_of_nonneg_right ha (sq_nonneg t)]
    · have : (ρ + b / ρ * t) ^ 2 = ρ ^ 2 + 2 * b * t + b ^ 2 / ρ ^ 2 * t ^ 2 := by field_simp; ring
      rw [this]
      nlinarith [mul_le_mul_of_nonneg_right hb (sq_nonneg t)]
  · rw [← h]
    exact ⟨0, 0, by norm_num, fun t => ⟨by simp, by simp⟩⟩

/-- **Outside a convex body no distance is too small**: if the level set has a support of slope `k` in every cell (for instance, if it
is the restriction of a convex function with that Lipschitz constant), distances are at least the level set divided by `k`. -/
theorem distance_convex {shape : List Nat} (hs : shape.length = 1 ∨ shape.length = 2) {h : ℝ} (hh : 0 < h) {phi : Nat → ℝ} {eps : ℝ}
    (heps : 0 ≤ eps) (hphi : ∀ x < shape.prod, phi x ≤ 0 ∨ eps < phi x)
    (hint : ∃ x < shape.prod, AtInterface ⟨gridOf shape, fun _ => h, phi, eps⟩ x) {k : ℝ} (hk : 0 < k)
    (hsup : ∀ x < shape.prod, Support (gridOf shape) h phi k x) (g : Garbage) (fuel : Nat) (hfuel : shape.prod < fuel) :
    ∃ (r : Res) (D : Nat → ℝ), distance ⟨gridOf shape, fun _ => h, phi, eps⟩ g fuel = .ok r ∧
      ∀ x < shape.prod, r.dist x = some (D x) ∧ SignOK (phi x) (D x) ∧ (0 < phi x → phi x / k ≤ D x) := by
  obtain ⟨r, D, e, h1, h2, h3, -⟩ := distance_facts hs hh heps hphi hint g fuel hfuel
  refine ⟨r, D, e, fun x hx => ⟨h1 x hx, h2 x hx, fun hp => ?_⟩⟩
  have h4 := h3 1 k one_ne_zero hk (by simpa using hsup) x hx
  rw [one_mul, abs_of_pos ((h2 x hx).1 hp)] at h4
  rw [div_le_iff₀ hk]
  linarith

/-- **Distances from a disc.**  If the level set is a positive multiple of the distance from the circle of radius `R` about
`(u, w)`, no cell outside gets less than its distance from the circle. -/
theorem distance_disc {n m : Nat} {h : ℝ} (hh : 0 < h) {phi : Nat → ℝ} {eps : ℝ} (heps : 0 ≤ eps)
    (hphi : ∀ x < n * m, phi x ≤ 0 ∨ eps < phi x) (hint : ∃ x < n * m, AtInterface ⟨gridOf [n, m], fun _ => h, phi, eps⟩ x)
    (c u w R : ℝ) (hc : 0 < c)
    (hdisc : ∀ i < n, ∀ j < m, phi (i * m + j) = c * (√((h * i - u) ^ 2 + (h * j - w) ^ 2) - R))
    (g : Garbage) (fuel : Nat) (hfuel : n * m < fuel) :
    ∃ (r : Res) (D : Nat → ℝ), distance ⟨gridOf [n, m], fun _ => h, phi, eps⟩ g fuel = .ok r ∧
      ∀ i < n, ∀ j < m, r.dist (i * m + j) = some (D (i * m + j)) ∧ SignOK (phi (i * m + j)) (D (i * m + j)) ∧
        (0 < phi (i * m + j) → √((h * i - u) ^ 2 + (h * j - w) ^ 2) - R ≤ D (i * m + j)) := by
  have hp : ([n, m] : List Nat).prod = n * m := by simp
  choose p q hpq hsup using fun i j : Nat => norm_support (h * i - u) (h * j - w)
  obtain ⟨r, D, e, h1⟩ := distance_convex (shape := [n, m]) (Or.inr rfl) hh heps (by rw [hp]; exact hphi) (by rw [hp]; exact hint) hc
    (plane_support (fun i j => c * p i j) (fun i j => c * q i j) (fun i _ j _ => by nlinarith [hpq i j, sq_nonneg c]) (fun i j hi hj => by
      rw [hdisc i (by omega) j hj, hdisc (i + 1) hi j hj]
      have a1 := (hsup i j h).1
      have a2 := (hsup (i + 1) j (-h)).1
      rw [show h * (i : ℝ) - u + h = h * ((i + 1 : ℕ) : ℝ) - u by push_cast; ring] at a1
      rw [show h * ((i + 1 : ℕ) : ℝ) - u + -h = h * (i : ℝ) - u by push_cast; ring] at a2
      constructor <;> nlinarith) (fun i j hi hj => by
      rw [hdisc i hi j (by omega), hdisc i hi (j + 1) hj]
      have a1 := (hsup i j h).2
      have a2 := (hsup i (j + 1) (-h)).2
      rw [show h * (j : ℝ) - w + h = h * ((j + 1 : ℕ) : ℝ) - w by push_cast; ring] at a1
      rw [show h * ((j + 1 : ℕ) : ℝ) - w + -h = h * (j : ℝ) - w by push_cast; ring] at a2
      constructor <;> nlinarith)) g fuel (by rw [hp]; exact hfuel)
  rw [hp] at h1
  refine ⟨r, D, e, fun i hi j hj => ?_⟩
  obtain ⟨a, b, k⟩ := h1 _ (in_plane hi hj)
  refine ⟨a, b, fun h0 => ?_⟩
  have := k h0
  rwa [hdisc i hi j hj, mul_div_cancel_left₀ _ hc.ne'] at this

/-- **Along a diagonal front the distances next to it are too large by a factor of √2**: there they are the distances along the axes. -/
theorem distance_diagonal_false {n m : Nat} {h : ℝ} (hh : 0 < h) {phi : Nat → ℝ} {eps : ℝ} (heps : 0 ≤ eps)
    (hphi : ∀ x < n * m, phi x ≤ 0 ∨ eps < phi x) (α β γ : ℝ) (hab : |α| = |β|)
    (hlin : ∀ i < n, ∀ j < m, phi (i * m + j) = α * i + β * j - γ) (g : Garbage) (fuel : Nat) (hfuel : n * m < fuel)
    (i j : Nat) (hi : i < n) (hj : j < m) (hI : AtInterface ⟨gridOf [n, m], fun _ => h, phi, eps⟩ (i * m + j)) :
    ∃ r v, distance ⟨gridOf [n, m], fun _ => h, phi, eps⟩ g fuel = .ok r ∧ r.dist (i * m + j) = some v ∧
      √(α ^ 2 + β ^ 2) * |v| = √2 * (h * |phi (i * m + j)|) := by
  have hp : ([n, m] : List Nat).prod = n * m := by simp
  obtain ⟨ok, -⟩ := grid_ok (shape := [n, m]) (dx := fun _ => h) (Or.inr rfl) (fun _ => hh) heps (by rw [hp]; exact hphi)
  obtain ⟨r, v, e, hv, hv0, hvn⟩ := distance_interface_values ok.wf ok.dx' g fuel (by rw [← hp] at hfuel; exact hfuel) (i * m + j)
    (by rw [size2]; exact in_plane hi hj) hI
  refine ⟨r, v, e, hv, ?_⟩
  by_cases hz : phi (i * m + j) = 0
  · rw [hv0 hz, hz]; simp
  obtain ⟨⟨d, hd, dir, a, ha, hxa, hva, -, -⟩, -, -, -⟩ := hvn hz
  have hd2 : d < 2 := hd
  change phi (i * m + j) * phi a < 0 at hxa
  change |v| = h * (|phi (i * m + j)| / (|phi (i * m + j)| + |phi a|)) at hva
  have hdiff : |phi (i * m + j)| + |phi a| = |phi (i * m + j) - phi a| := by
    rcases mul_neg_iff.1 hxa with ⟨h1, h2⟩ | ⟨h1, h2⟩
    · rw [abs_of_pos h1, abs_of_neg h2, abs_of_pos (by linarith)]; ring
    · rw [abs_of_neg h1, abs_of_pos h2, abs_of_neg (by linarith)]; ring
  have hsum : |phi (i * m + j)| + |phi a| = |α| := by
    rw [hdiff]
    rcases plane_nb hi hj hd2 ha with ⟨-, -, hb, rfl⟩ | ⟨-, -, hb, rfl⟩ | ⟨-, -, hb, rfl⟩ | ⟨-, -, hb, rfl⟩
    · rw [hlin i hi j hj, hlin _ hb j hj, ← abs_neg]; congr 1; push_cast; ring
    · rw [hlin i hi j hj, hlin _ (by omega) j hj]; congr 1; rw [Nat.cast_sub (by omega)]; push_cast; ring
    · rw [hlin i hi j hj, hlin i hi _ hb, ← abs_neg, hab]; congr 1; push_cast; ring
    · rw [hlin i hi j hj, hlin i hi _ (by omega), hab]; congr 1; rw [Nat.cast_sub (by omega)]; push_cast; ring
  have hα : 0 < |α| := by rw [← hsum]; have := abs_pos.2 hz; positivity
  have hsq : √(α ^ 2 + β ^ 2) = √2 * |α| := by
    rw [← sq_abs β, ← hab, sq_abs, ← two_mul, Real.sqrt_mul (by norm_num), Real.sqrt_sq_eq_abs]
  rw [hva, hsum, hsq]
  field_simp

/-- A diagonal front through a plane of three by three cells: the corner cell gets `1/2`. -/
example (g : Garbage) : ∃ r v, distance ⟨gridOf [3, 3], fun _ => 1, fun x => (x / 3 : ℕ) + (x % 3 : ℕ) - 1 / 2, 1 / 10⟩ g 10 = .ok r ∧
    r.dist 0 = some v ∧ √2 * |v| = √2 * (1 / 2) := by
  obtain ⟨r, v, e, hv, h⟩ := distance_diagonal_false (n := 3) (m := 3) (h := 1) (phi := fun x => (x / 3 : ℕ) + (x % 3 : ℕ) - 1 / 2) (eps := 1 / 10)
    one_pos (by norm_num) (fun x hx => by
      rcases Nat.eq_zero_or_pos (x / 3 + x % 3) with h0 | h0
      · left
        have h1 : x / 3 = 0 := by omega
        have h2 : x % 3 = 0 := by omega
        simp only [h1, h2]
        norm_num
      · right
        have : (1 : ℝ) ≤ ((x / 3 : ℕ) : ℝ) + ((x % 3 : ℕ) : ℝ) := by exact_mod_cast h0
        show (1 / 10 : ℝ) < ((x / 3 : ℕ) : ℝ) + ((x % 3 : ℕ) : ℝ) - 1 / 2
        linarith) 1 1 (1 / 2) rfl (fun i hi j hj => by
      simp only [(div_mod_at i hj).1, (div_mod_at i hj).2]
      ring) g 10 (by norm_num) 0 0 (by norm_num) (by norm_num)
    (Or.inr ⟨0, by simp [gridOf], true, 3, by simp [nb2_0], by unfold Crosses; norm_num⟩)
  refine ⟨r, v, e, by simpa using hv, ?_⟩
  have h2 : (1 : ℝ) ^ 2 + 1 ^ 2 = 2 := by norm_num
  rw [h2] at h
  rw [h]
  norm_num

/-- A front of slope one half through a plane of any size of at least two by two cells. -/
example (n m : Nat) (hn : 1 < n) (hm : 1 < m) (g : Garbage) : ∃ (r : Res) (D : Nat → ℝ),
    distance ⟨gridOf [n, m], fun _ => 1, fun x => 2 * (x / m : ℕ) + (x % m : ℕ) - 1 / 2, 1 / 10⟩ g (n * m + 1) = .ok r ∧
    ∀ i < n, ∀ j < m, r.dist (i * m + j) = some (D (i * m + j)) ∧ |2 * (i : ℝ) + j - 1 / 2| ≤ √5 * |D (i * m + j)| := by
  have hm0 : 0 < m := by omega
  have hlin : ∀ i < n, ∀ j < m, (fun x : Nat => 2 * ((x / m : ℕ) : ℝ) + ((x % m : ℕ) : ℝ) - 1 / 2) (i * m + j) = 2 * i + 1 * j - 1 / 2 := by
    intro i _ j hj
    simp only [(div_mod_at i hj).1, (div_mod_at i hj).2]
    ring
  obtain ⟨r, D, e, h⟩ := distance_straight (n := n) (m := m) (h := 1) (phi := fun x => 2 * (x / m : ℕ) + (x % m : ℕ) - 1 / 2) (eps := 1 / 10)
    one_pos (by norm_num) (fun x hx => by
      rcases Nat.eq_zero_or_pos (2 * (x / m) + x % m) with h0 | h0
      · left
        have h1 : x / m = 0 := by omega
        have h2 : x % m = 0 := by omega
        simp only [h1, h2]
        norm_num
      · right
        have : (1 : ℝ) ≤ 2 * ((x / m : ℕ) : ℝ) + ((x % m : ℕ) : ℝ) := by exact_mod_cast h0
        show (1 / 10 : ℝ) < 2 * ((x / m : ℕ) : ℝ) + ((x % m : ℕ) : ℝ) - 1 / 2
        linarith)
    ⟨0 * m + 0, in_plane (by omega) hm0, Or.inr ⟨1, by simp [gridOf], true, 0 * m + (0 + 1), by
        rw [nb_at (by omega) hm0 1 (by omega), if_neg one_ne_zero, nb1]
        simp only [if_true]
        rw [if_neg (by omega)]; rfl, by
        unfold Crosses
        show (fun x : Nat => 2 * ((x / m : ℕ) : ℝ) + ((x % m : ℕ) : ℝ) - 1 / 2) (0 * m + 0) *
          (fun x : Nat => 2 * ((x / m : ℕ) : ℝ) + ((x % m : ℕ) : ℝ) - 1 / 2) (0 * m + (0 + 1)) < 0
        rw [hlin 0 (by omega) 0 hm0, hlin 0 (by omega) (0 + 1) (by omega)]
        norm_num⟩⟩
    2 1 (1 / 2) (Or.inl two_ne_zero) hlin g (n * m + 1) (by omega)
  refine ⟨r, D, e, fun i hi j hj => ⟨(h i hi j hj).1, ?_⟩⟩
  have h1 := (h i hi j hj).2.2.1
  have h2 : (2 : ℝ) ^ 2 + 1 ^ 2 = 5 := by norm_num
  rw [h2] at h1
  have h3 := hlin i hi j hj
  simp only at h3 h1
  rw [h3, one_mul, one_mul] at h1
  exact h1

end Verif.March
