import Verif.March.Convex

/-! # Renormalising a level set a second time -/

namespace Verif.March

/-- **Renormalising again changes nothing** if the neighbours to which the level set of a cell changes sign all have the same value, and
no distance falls into `(0, eps]`: the distances of the distances are the distances. -/
theorem distance_again {shape : List Nat} (hs : shape.length = 1 ∨ shape.length = 2) {h : ℝ} (hh : 0 < h) {phi : Nat → ℝ} {eps : ℝ}
    (heps : 0 ≤ eps) (hphi : ∀ x < shape.prod, phi x ≤ 0 ∨ eps < phi x)
    (hint : ∃ x < shape.prod, AtInterface ⟨gridOf shape, fun _ => h, phi, eps⟩ x)
    (heven : ∀ x < shape.prod, ∀ d < shape.length, ∀ d' < shape.length, ∀ dir dir' a b, (gridOf shape).nb x d dir = some a →
      (gridOf shape).nb x d' dir' = some b → phi x * phi a < 0 → phi x * phi b < 0 → phi a = phi b)
    (g g' : Garbage) (fuel fuel' : Nat) (hfuel : shape.prod < fuel) (hfuel' : shape.prod < fuel') :
    ∃ (r : Res) (D : Nat → ℝ), distance ⟨gridOf shape, fun _ => h, phi, eps⟩ g fuel = .ok r ∧
      (∀ x < shape.prod, r.dist x = some (D x)) ∧
      ((∀ x < shape.prod, D x ≤ 0 ∨ eps < D x) → ∃ r', distance ⟨gridOf shape, fun _ => h, D, eps⟩ g' fuel' = .ok r' ∧
        ∀ x < shape.prod, r'.dist x = some (D x)) := by
  obtain ⟨ok, -⟩ := grid_ok (dx := fun _ => h) hs (fun _ => hh) heps hphi
  obtain ⟨r, D, e, h1, h2, h3⟩ := distance_upwind hs hh heps hphi hint g fuel hfuel
  refine ⟨r, D, e, h1, fun hD => ?_⟩
  set P : Prob := ⟨gridOf shape, fun _ => h, phi, eps⟩ with hP
  set P' : Prob := ⟨gridOf shape, fun _ => h, D, eps⟩ with hP'
  have hcross : ∀ x < shape.prod, ∀ y < shape.prod, D x * D y < 0 ↔ phi x * phi y < 0 := by
    intro x hx y hy
    obtain ⟨s1, s2, s3⟩ := h2 x hx
    obtain ⟨t1, t2, t3⟩ := h2 y hy
    rcases lt_trichotomy (phi x) 0 with hp | hp | hp <;> rcases lt_trichotomy (phi y) 0 with hq | hq | hq
    · exact ⟨fun h => absurd h (not_lt.2 (mul_pos_of_neg_of_neg (s2 hp) (t2 hq)).le),
        fun h => absurd h (not_lt.2 (mul_pos_of_neg_of_neg hp hq).le)⟩
    · rw [t3 hq, hq]; simp
    · exact ⟨fun _ => mul_neg_of_neg_of_pos hp hq, fun _ => mul_neg_of_neg_of_pos (s2 hp) (t1 hq)⟩
    · rw [s3 hp, hp]; simp
    · rw [s3 hp, hp]; simp
    · rw [s3 hp, hp]; simp
    · exact ⟨fun _ => mul_neg_of_pos_of_neg hp hq, fun _ => mul_neg_of_pos_of_neg (s1 hp) (t2 hq)⟩
    · rw [t3 hq, hq]; simp
    · exact ⟨fun h => absurd h (not_lt.2 (mul_pos (s1 hp) (t1 hq)).le), fun h => absurd h (not_lt.2 (mul_pos hp hq).le)⟩
  have hz : ∀ x < shape.prod, D x = 0 ↔ phi x = 0 := by
    intro x hx
    obtain ⟨s1, s2, s3⟩ := h2 x hx
    refine ⟨fun h0 => ?_, s3⟩
    rcases lt_trichotomy (phi x) 0 with hp | hp | hp
    · exact absurd h0 (s2 hp).ne
    · exact hp
    · exact absurd h0 (s1 hp).ne'
  have hI : ∀ x < shape.prod, AtInterface P' x ↔ AtInterface P x := by
    intro x hx
    constructor
    · rintro (h0 | ⟨d, hd, dir, a, ha, hc⟩)
      · exact Or.inl ((hz x hx).1 h0)
      · exact Or.inr ⟨d, hd, dir, a, ha, (hcross x hx a (ok.wf.lt x d dir a hx hd ha)).1 hc⟩
    · rintro (h0 | ⟨d, hd, dir, a, ha, hc⟩)
      · exact Or.inl ((hz x hx).2 h0)
      · exact Or.inr ⟨d, hd, dir, a, ha, (hcross x hx a (ok.wf.lt x d dir a hx hd ha)).2 hc⟩
  -- the value of a cell next to a change of sign
  have hval : ∀ x < shape.prod, ∀ d < (gridOf shape).ndim, ∀ dir a, (gridOf shape).nb x d dir = some a → phi x * phi a < 0 →
      |D x| = h * (|phi x| / (|phi x| + |phi a|)) := by
    intro x hx d hd dir a ha hc
    have hn : phi x ≠ 0 := by rintro h0; simp [h0] at hc
    obtain ⟨t, v, et, hv, -, hvn⟩ := distance_interface_values ok.wf ok.dx' g fuel hfuel x hx (Or.inr ⟨d, hd, dir, a, ha, hc⟩)
    rw [e] at et
    cases et
    rw [h1 x hx] at hv
    cases hv
    obtain ⟨⟨d', hd', dir', b, hb, hxb, hvb, -, -⟩, -, -⟩ := hvn hn
    rw [hvb, heven x hx d hd d' hd' dir dir' a b ha hb hc hxb]
    rfl
  have hone : ∀ x < shape.prod, ∀ d < (gridOf shape).ndim, ∀ dir a, (gridOf shape).nb x d dir = some a → phi x * phi a < 0 →
      |D x| + |D a| = h := by
    intro x hx d hd dir a ha hc
    have haN := ok.wf.lt x d dir a hx hd ha
    rw [hval x hx d hd dir a ha hc, hval a haN d hd (!dir) x (ok.wf.symm x d dir a hx hd ha) (by rw [mul_comm]; exact hc),
      add_comm |phi a| |phi x|]
    have hn : phi x ≠ 0 := by rintro h0; simp [h0] at hc
    have : 0 < |phi x| + |phi a| := by have := abs_pos.2 hn; positivity
    field_simp
  have hint' : ∃ x < shape.prod, AtInterface P' x := by
    obtain ⟨x, hx, h0⟩ := hint
    exact ⟨x, hx, (hI x hx).2 h0⟩
  obtain ⟨ok', -⟩ := grid_ok (dx := fun _ => h) hs (fun _ => hh) heps hD
  obtain ⟨r', D', e', h1', h2', h3'⟩ := distance_upwind hs hh heps hD hint' g' fuel' hfuel'
  have habs := upwind_unique (G := gridOf shape) ok.wf (dx := fun _ => h) (fun _ => hh) (I := AtInterface P) (D := D) (D' := D') (by
    intro x hx hIx
    by_cases hzx : phi x = 0
    · rw [(h2 x hx).2.2 hzx, (h2' x hx).2.2 ((hz x hx).2 hzx)]
    · obtain ⟨t, v, et, hv, -, hvn⟩ := distance_interface_values ok'.wf ok'.dx' g' fuel' hfuel' x hx ((hI x hx).2 hIx)
      rw [e'] at et
      cases et
      rw [h1' x hx] at hv
      cases hv
      obtain ⟨⟨d, hd, dir, a, ha, hxa, hva, -, -⟩, -, -⟩ := hvn fun h0 => hzx ((hz x hx).1 h0)
      have hc := (hcross x hx a (ok.wf.lt x d dir a hx hd ha)).1 hxa
      rw [hva]
      show |D x| = h * (|D x| / (|D x| + |D a|))
      rw [hone x hx d hd dir a ha hc]
      field_simp) h3 (fun x hx hn => h3' x hx fun h0 => hn ((hI x hx).1 h0))
  refine ⟨r', e', fun x hx => ?_⟩
  rw [h1' x hx]
  congr 1
  have ha : |D x| = |D' x| := habs x hx
  obtain ⟨t1, t2, t3⟩ := h2' x hx
  rcases lt_trichotomy (D x) 0 with hp | hp | hp
  · rw [abs_of_neg hp, abs_of_neg (t2 hp)] at ha
    linarith
  · rw [t3 hp, hp]
  · rw [abs_of_pos hp, abs_of_pos (t1 hp)] at ha
    linarith

/-- A diagonal front is of this kind. -/
theorem diagonal_even {n m : Nat} {phi : Nat → ℝ} (α β γ : ℝ) (hab : |α| = |β|)
    (hlin : ∀ i < n, ∀ j < m, phi (i * m + j) = α * i + β * j - γ) : ∀ x < ([n, m] : List Nat).prod, ∀ d < 2, ∀ d' < 2, ∀ dir dir' a b,
    (gridOf [n, m]).nb x d dir = some a → (gridOf [n, m]).nb x d' dir' = some b → phi x * phi a < 0 → phi x * phi b < 0 → phi a = phi b := by
  intro x hx d hd d' hd' dir dir' a b ha hb hca hcb
  obtain ⟨i, hi, j, hj, rfl, -, -⟩ := coords (n := n) (m := m) (by simpa using hx)
  have key : ∀ d < 2, ∀ dir a, (gridOf [n, m]).nb (i * m + j) d dir = some a → phi (i * m + j) * phi a < 0 →
      phi a = phi (i * m + j) - |α| ∧ 0 < phi (i * m + j) ∨ phi a = phi (i * m + j) + |α| ∧ phi (i * m + j) < 0 := by
    intro d hd dir a ha hc
    have hdiff : |phi a - phi (i * m + j)| = |α| := by
      rcases plane_nb hi hj hd ha with ⟨-, -, hb, rfl⟩ | ⟨-, -, hb, rfl⟩ | ⟨-, -, hb, rfl⟩ | ⟨-, -, hb, rfl⟩
      · rw [hlin i hi j hj, hlin _ hb j hj]; congr 1; push_cast; ring
      · rw [hlin i hi j hj, hlin _ (by omega) j hj, ← abs_neg]; congr 1; rw [Nat.cast_sub (by omega)]; push_cast; ring
      · rw [hlin i hi j hj, hlin i hi _ hb, hab]; congr 1; push_cast; ring
      · rw [hlin i hi j hj, hlin i hi _ (by omega), ← abs_neg, hab]; congr 1; rw [Nat.cast_sub (by omega)]; push_cast; ring
    rcases mul_neg_iff.1 hc with ⟨p1, p2⟩ | ⟨p1, p2⟩
    · rw [abs_of_neg (by linarith)] at hdiff
      exact Or.inl ⟨by linarith, p1⟩
    · rw [abs_of_pos (by linarith)] at hdiff
      exact Or.inr ⟨by linarith, p1⟩
  rcases key d hd dir a ha hca with ⟨e1, p1⟩ | ⟨e1, p1⟩ <;> rcases key d' hd' dir' b hb hcb with ⟨e2, p2⟩ | ⟨e2, p2⟩ <;>
    first | (rw [e1, e2]; done) | (exfalso; linarith)

/-- A line on which no cell has a change of sign on both sides is of this kind. -/
theorem line_even {n : Nat} {phi : Nat → ℝ} (hone : ∀ i, i + 2 < n → phi i * phi (i + 1) < 0 → ¬ phi (i + 1) * phi (i + 2) < 0) :
    ∀ x < ([n] : List Nat).prod, ∀ d < 1, ∀ d' < 1, ∀ dir dir' a b, (gridOf [n]).nb x d dir = some a →
      (gridOf [n]).nb x d' dir' = some b → phi x * phi a < 0 → phi x * phi b < 0 → phi a = phi b := by
  intro x hx d hd d' hd' dir dir' a b ha hb hca hcb
  obtain rfl : d = 0 := by omega
  obtain rfl : d' = 0 := by omega
  rw [nb1] at ha hb
  have hxn : x < n := by simpa using hx
  have key : ∀ k, x = k + 1 → k + 2 < n → phi x * phi k < 0 → phi x * phi (x + 1) < 0 → False := by
    rintro k rfl hk h1 h2
    exact hone k hk (by rw [mul_comm]; exact h1) h2
  cases dir <;> cases dir' <;> simp only [Bool.false_eq_true, if_false, if_true] at ha hb <;> split at ha <;> split at hb <;>
    first
    | (cases ha; done)
    | (cases hb; done)
    | skip
  · cases ha; cases hb; rfl
  · cases ha; cases hb
    exact (key (x - 1) (by omega) (by omega) hca hcb).elim
  · cases ha; cases hb
    exact (key (x - 1) (by omega) (by omega) hcb hca).elim
  · cases ha; cases hb; rfl

/-- `psi` is what `distance` makes of `phi`, with some contents of uninitialised memory. -/
def Becomes (shape : List Nat) (h eps : ℝ) (phi psi : Nat → ℝ) : Prop :=
  ∃ (g : Garbage) (fuel : Nat) (r : Res), shape.prod < fuel ∧ distance ⟨gridOf shape, fun _ => h, phi, eps⟩ g fuel = .ok r ∧
    ∀ x < shape.prod, r.dist x = some (psi x)

/-- One renormalisation of the plane of two by two cells of `distance_drift_false`. -/
theorem drift_step {h eps : ℝ} (hh : 0 < h) (heps : 0 ≤ eps) {s d : ℝ} (hs : 0 < s) (hd : 0 < d) (hds : d ≤ 3 * s) {phi psi : Nat → ℝ}
    (p0 : phi 0 = -s) (p1 : phi 1 = d) (p2 : phi 2 = 3 * s) (e1 : eps < phi 1) (e2 : eps < phi 2) (e3 : eps < phi 3)
    (hb : Becomes [2, 2] h eps phi psi) :
    psi 0 = -(h / 4) ∧ psi 1 = h * (d / (d + s)) ∧ psi 2 = 3 * (h / 4) ∧ (psi 1 < psi 3 ∨ psi 2 < psi 3) := by
  obtain ⟨g, fuel, r, hf, e, hr⟩ := hb
  have hp : ([2, 2] : List Nat).prod = 4 := by simp
  have p3 : 0 < phi 3 := lt_of_le_of_lt heps e3
  have hphi : ∀ x < ([2, 2] : List Nat).prod, phi x ≤ 0 ∨ eps < phi x := by
    intro x hx
    rw [hp] at hx
    rcases (show x = 0 ∨ x = 1 ∨ x = 2 ∨ x = 3 by omega) with rfl | rfl | rfl | rfl
    · exact Or.inl (by rw [p0]; linarith)
    · exact Or.inr e1
    · exact Or.inr e2
    · exact Or.inr e3
  obtain ⟨ok, -⟩ := grid_ok (shape := [2, 2]) (dx := fun _ => h) (Or.inr rfl) (fun _ => hh) heps hphi
  have n00 : (gridOf [2, 2]).nb 0 0 true = some 2 := by simp [nb2_0]
  have n01 : (gridOf [2, 2]).nb 0 1 true = some 1 := by simp [nb2_1]
  have n1 : (gridOf [2, 2]).nb 1 1 false = some 0 := by simp [nb2_1]
  have n2 : (gridOf [2, 2]).nb 2 0 false = some 0 := by simp [nb2_0]
  have c02 : phi 0 * phi 2 < 0 := by rw [p0, p2]; nlinarith
  have c01 : phi 0 * phi 1 < 0 := by rw [p0, p1]; nlinarith
  have I0 : AtInterface ⟨gridOf [2, 2], fun _ => h, phi, eps⟩ 0 := Or.inr ⟨0, by simp [gridOf], true, 2, n00, c02⟩
  have I1 : AtInterface ⟨gridOf [2, 2], fun _ => h, phi, eps⟩ 1 := Or.inr ⟨1, by simp [gridOf], false, 0, n1, by
    show phi 1 * phi 0 < 0; rw [mul_comm]; exact c01⟩
  have I2 : AtInterface ⟨gridOf [2, 2], fun _ => h, phi, eps⟩ 2 := Or.inr ⟨0, by simp [gridOf], false, 0, n2, by
    show phi 2 * phi 0 < 0; rw [mul_comm]; exact c02⟩
  have val : ∀ x < 4, AtInterface ⟨gridOf [2, 2], fun _ => h, phi, eps⟩ x → phi x ≠ 0 →
      (∃ d < 2, ∃ dir a, (gridOf [2, 2]).nb x d dir = some a ∧ phi x * phi a < 0 ∧ |psi x| = h * (|phi x| / (|phi x| + |phi a|))) ∧
      (∀ d < 2, ∀ dir a, (gridOf [2, 2]).nb x d dir = some a → phi x * phi a < 0 → |psi x| ≤ h * (|phi x| / (|phi x| + |phi a|))) ∧
      (0 < phi x → 0 < psi x) ∧ (phi x < 0 → psi x < 0) := by
    intro x hx hI hn
    obtain ⟨t, v, et, hv, -, hvn⟩ := distance_interface_values ok.wf ok.dx' g fuel hf x (by rw [size2]; exact hx) hI
    rw [e] at et
    cases et
    rw [hr x (by rw [hp]; exact hx)] at hv
    cases hv
    obtain ⟨⟨d, hd, dir, a, ha, hxa, hva, -, -⟩, hmin, hs1, hs2⟩ := hvn hn
    exact ⟨⟨d, hd, dir, a, ha, hxa, hva⟩, hmin, hs1, hs2⟩
  have f0 : psi 0 = -(h / 4) := by
    obtain ⟨⟨d', hd', dir, a, ha, hxa, hva⟩, hmin, -, hneg⟩ := val 0 (by norm_num) I0 (by rw [p0]; linarith)
    have hlt := hneg (by rw [p0]; linarith)
    have hle := hmin 0 (by norm_num) true 2 n00 c02
    have ev : h * (|phi 0| / (|phi 0| + |phi 2|)) = h / 4 := by
      rw [p0, p2, abs_neg, abs_of_pos hs, abs_of_pos (by linarith)]
      field_simp
      ring
    have hge : h / 4 ≤ |psi 0| := by
      rw [hva]
      have hpa : |phi a| ≤ 3 * s := by
        have hq := plane_nb (n := 2) (m := 2) (i := 0) (j := 0) (by norm_num) (by norm_num) hd' ha
        rcases hq with ⟨-, -, -, rfl⟩ | ⟨-, -, hb, -⟩ | ⟨-, -, -, rfl⟩ | ⟨-, -, hb, -⟩
        · norm_num [p2, abs_of_pos hs]
        · omega
        · norm_num
          rw [p1, abs_of_pos hd]
          exact hds
        · omega
      rw [p0, abs_neg, abs_of_pos hs, mul_div_assoc', div_le_div_iff₀ (by norm_num) (by have := abs_nonneg (phi a); linarith)]
      nlinarith
    rw [ev] at hle
    rw [abs_of_neg hlt] at hle hge
    linarith
  have f1 : psi 1 = h * (d / (d + s)) := by
    obtain ⟨⟨d', hd', dir, a, ha, hxa, hva⟩, -, hpos, -⟩ := val 1 (by norm_num) I1 (by rw [p1]; linarith)
    rw [abs_of_pos (hpos (by rw [p1]; exact hd))] at hva
    rw [hva]
    have hq := plane_nb (n := 2) (m := 2) (i := 0) (j := 1) (by norm_num) (by norm_num) hd' ha
    rcases hq with ⟨-, -, -, rfl⟩ | ⟨-, -, hb, -⟩ | ⟨-, -, hb, -⟩ | ⟨-, -, -, rfl⟩
    · norm_num at hxa
      rw [p1] at hxa
      nlinarith
    · omega
    · omega
    · norm_num
      rw [p0, p1, abs_neg, abs_of_pos hs, abs_of_pos hd]
      exact Or.inl rfl
  have f2 : psi 2 = 3 * (h / 4) := by
    obtain ⟨⟨d', hd', dir, a, ha, hxa, hva⟩, -, hpos, -⟩ := val 2 (by norm_num) I2 (by rw [p2]; linarith)
    rw [abs_of_pos (hpos (by rw [p2]; linarith))] at hva
    rw [hva]
    have hq := plane_nb (n := 2) (m := 2) (i := 1) (j := 0) (by norm_num) (by norm_num) hd' ha
    rcases hq with ⟨-, -, hb, -⟩ | ⟨-, -, -, rfl⟩ | ⟨-, -, -, rfl⟩ | ⟨-, -, hb, -⟩
    · omega
    · norm_num
      rw [p0, p2, abs_neg, abs_of_pos hs, abs_of_pos (by linarith)]
      field_simp
      ring
    · norm_num at hxa
      rw [p2] at hxa
      nlinarith
    · omega
  refine ⟨f0, f1, f2, ?_⟩
  have nI3 : ¬ AtInterface ⟨gridOf [2, 2], fun _ => h, phi, eps⟩ 3 := by
    rintro (h0 | ⟨d', hd', dir, a, ha, hxa⟩)
    · exact p3.ne' h0
    · change phi 3 * phi a < 0 at hxa
      have hq := plane_nb (n := 2) (m := 2) (i := 1) (j := 1) (by norm_num) (by norm_num) hd' ha
      rcases hq with ⟨-, -, hb, -⟩ | ⟨-, -, -, rfl⟩ | ⟨-, -, hb, -⟩ | ⟨-, -, -, rfl⟩
      · omega
      · norm_num at hxa
        rw [p1] at hxa
        nlinarith
      · omega
      · norm_num at hxa
        rw [p2] at hxa
        nlinarith
  obtain ⟨r', D, e', h1, h2, h4⟩ := distance_neighbour_partial (shape := [2, 2]) (dx := fun _ => h) (Or.inr rfl) (fun _ => hh) heps hphi
    ⟨0, by rw [hp]; norm_num, I0⟩ g fuel hf
  rw [e] at e'
  cases e'
  have hD : ∀ x < 4, D x = psi x := fun x hx => by
    have := h1 x (by rw [hp]; exact hx)
    rw [hr x (by rw [hp]; exact hx)] at this
    exact (Option.some.inj this).symm
  obtain ⟨d', hd', dir, a, ha, hlt, -⟩ := (h4 3 (by rw [hp]; norm_num) nI3).2
  rw [hD 3 (by norm_num)] at hlt
  have hs3 : 0 < psi 3 := by rw [← hD 3 (by norm_num)]; exact (h2 3 (by rw [hp]; norm_num)).1 p3
  rw [abs_of_pos hs3] at hlt
  have hq := plane_nb (n := 2) (m := 2) (i := 1) (j := 1) (by norm_num) (by norm_num) (by simpa using hd') ha
  rcases hq with ⟨-, -, hb, -⟩ | ⟨-, -, -, rfl⟩ | ⟨-, -, hb, -⟩ | ⟨-, -, -, rfl⟩
  · omega
  · left
    norm_num at hlt
    rw [hD 1 (by norm_num)] at hlt
    exact (le_abs_self _).trans_lt hlt
  · omega
  · right
    norm_num at hlt
    rw [hD 2 (by norm_num)] at hlt
    exact (le_abs_self _).trans_lt hlt

/-- **Renormalising again and again moves a front that is oblique to the axes, although nothing flows.**  Let the level set of a plane
of two by two cells be a positive multiple of `2 i + j - 1/2`, and renormalise it any number of times.  The distance of cell
`(0, 1)` grows with every call, from `h/2` towards `3h/4`, so the zero between the cells `(0, 0)` and `(0, 1)` moves from the middle
towards the first one. -/
theorem distance_drift_false {h eps c : ℝ} (hh : 0 < h) (heps : 0 ≤ eps) (he : eps < h / 2) (hc : 2 * eps < c) (F : Nat → Nat → ℝ)
    (h0 : ∀ i < 2, ∀ j < 2, F 0 (i * 2 + j) = c * (2 * i + j - 1 / 2)) (hF : ∀ k, Becomes [2, 2] h eps (F k) (F (k + 1))) :
    ∀ k, F (k + 1) 0 = -(h / 4) ∧ F (k + 1) 1 = h / (4 / 3 + 2 / 3 * (1 / 4) ^ k) ∧ F (k + 1) 2 = 3 * (h / 4) ∧
      F (k + 1) 1 < F (k + 2) 1 := by
  have hc0 : 0 < c := by linarith
  have a0 : F 0 0 = -(c / 2) := by have := h0 0 (by norm_num) 0 (by norm_num); norm_num at this; rw [this]; ring
  have a1 : F 0 1 = c / 2 := by have := h0 0 (by norm_num) 1 (by norm_num); norm_num at this; rw [this]; ring
  have a2 : F 0 2 = 3 * (c / 2) := by have := h0 1 (by norm_num) 0 (by norm_num); norm_num at this; rw [this]; ring
  have a3 : F 0 3 = 5 * (c / 2) := by have := h0 1 (by norm_num) 1 (by norm_num); norm_num at this; rw [this]; ring
  have main : ∀ k, F (k + 1) 0 = -(h / 4) ∧ F (k + 1) 1 = h / (4 / 3 + 2 / 3 * (1 / 4) ^ k) ∧ F (k + 1) 2 = 3 * (h / 4) ∧
      eps < F (k + 1) 3 := by
    intro k
    induction k with
    | zero =>
      obtain ⟨b0, b1, b2, b3⟩ := drift_step hh heps (s := c / 2) (d := c / 2) (by linarith) (by linarith) (by linarith) a0 a1 a2
        (by rw [a1]; linarith) (by rw [a2]; linarith) (by rw [a3]; linarith) (hF 0)
      have b1' : F 1 1 = h / 2 := by rw [b1]; field_simp; norm_num
      refine ⟨b0, by rw [zero_add, b1']; norm_num, b2, ?_⟩
      rw [zero_add]
      rcases b3 with b3 | b3
      · rw [b1'] at b3; linarith
      · rw [b2] at b3; linarith
    | succ k ih =>
      obtain ⟨i0, i1, i2, i3⟩ := ih
      have hq : 0 < (1 / 4 : ℝ) ^ k := by positivity
      have hq1 : (1 / 4 : ℝ) ^ k ≤ 1 := pow_le_one₀ (by norm_num) (by norm_num)
      have hge : h / 2 ≤ F (k + 1) 1 := by
        rw [i1, div_le_div_iff₀ (by norm_num) (by positivity)]
        nlinarith
      have hle : F (k + 1) 1 ≤ 3 * (h / 4) := by
        rw [i1, div_le_iff₀ (by positivity)]
        nlinarith
      obtain ⟨b0, b1, b2, b3⟩ := drift_step hh heps (s := h / 4) (d := F (k + 1) 1) (by linarith) (by linarith) hle i0 rfl i2
        (by linarith) (by rw [i2]; linarith) i3 (hF (k + 1))
      have b1' : F (k + 1 + 1) 1 = h / (4 / 3 + 2 / 3 * (1 / 4) ^ (k + 1)) := by
        rw [b1, i1, pow_succ]
        field_simp
        ring
      have hq2 : (1 / 4 : ℝ) ^ (k + 1) ≤ 1 := pow_le_one₀ (by norm_num) (by norm_num)
      refine ⟨b0, b1', b2, ?_⟩
      rcases b3 with b3 | b3
      · have : h / 2 ≤ F (k + 1 + 1) 1 := by
          rw [b1', div_le_div_iff₀ (by norm_num) (by positivity)]
          nlinarith
        linarith
      · rw [b2] at b3; linarith
  intro k
  obtain ⟨m0, m1, m2, -⟩ := main k
  refine ⟨m0, m1, m2, ?_⟩
  rw [m1, (main (k + 1)).2.1]
  have hq : 0 < (1 / 4 : ℝ) ^ k := by positivity
  rw [div_lt_div_iff_of_pos_left hh (by positivity) (by positivity), pow_succ]
  linarith

/-- There are such sequences, with any factor of the level set. -/
theorem drift_exists {h eps c : ℝ} (hh : 0 < h) (heps : 0 ≤ eps) (he : eps < h / 2) (hc : 2 * eps < c) :
    ∃ F : Nat → Nat → ℝ, (∀ i < 2, ∀ j < 2, F 0 (i * 2 + j) = c * (2 * i + j - 1 / 2)) ∧
      ∀ k, Becomes [2, 2] h eps (F k) (F (k + 1)) := by
  let T := {phi : Nat → ℝ // ∃ s d : ℝ, 0 < s ∧ s ≤ d ∧ d ≤ 3 * s ∧ phi 0 = -s ∧ phi 1 = d ∧ phi 2 = 3 * s ∧ eps < phi 1 ∧ eps < phi 2 ∧ eps < phi 3}
  have next : ∀ t : T, ∃ t' : T, Becomes [2, 2] h eps t.1 t'.1 := by
    rintro ⟨phi, s, d, hs, hsd, hds, p0, p1, p2, e1, e2, e3⟩
    have hp : ([2, 2] : List Nat).prod = 4 := by simp
    obtain ⟨r, psi, e, h1, -⟩ := distance_upwind (shape := [2, 2]) (phi := phi) (Or.inr rfl) hh heps (fun x hx => by
        rw [hp] at hx
        rcases (show x = 0 ∨ x = 1 ∨ x = 2 ∨ x = 3 by omega) with rfl | rfl | rfl | rfl
        · exact Or.inl (by rw [p0]; linarith)
        · exact Or.inr e1
        · exact Or.inr e2
        · exact Or.inr e3)
      ⟨0, by rw [hp]; norm_num, Or.inr ⟨0, by simp [gridOf], true, 2, by simp [nb2_0], by
        show phi 0 * phi 2 < 0; rw [p0, p2]; nlinarith⟩⟩ ⟨fun _ => 0, fun _ => 0, fun _ => 0, fun _ => 0, fun _ => 0⟩ 5 (by rw [hp]; norm_num)
    have hb : Becomes [2, 2] h eps phi psi := ⟨_, 5, r, by rw [hp]; norm_num, e, h1⟩
    obtain ⟨b0, b1, b2, b3⟩ := drift_step hh heps hs (by linarith) hds p0 p1 p2 e1 e2 e3 hb
    have l1 : h / 2 ≤ psi 1 := by
      rw [b1, mul_div_assoc', div_le_div_iff₀ (by norm_num) (by linarith)]
      nlinarith
    have l2 : psi 1 ≤ 3 * (h / 4) := by
      rw [b1, mul_div_assoc', div_le_iff₀ (by linarith)]
      nlinarith
    exact ⟨⟨psi, h / 4, psi 1, by linarith, by linarith, l2, b0, rfl, b2, by linarith, by rw [b2]; linarith, by
      rcases b3 with b3 | b3
      · linarith
      · rw [b2] at b3; linarith⟩, hb⟩
  choose f hf using next
  let t0 : T := ⟨fun x => c * (2 * ((x / 2 : ℕ) : ℝ) + ((x % 2 : ℕ) : ℝ) - 1 / 2), c / 2, c / 2, by linarith, le_rfl, by linarith,
    by norm_num; ring, by norm_num; ring, by norm_num; ring, by norm_num; linarith, by norm_num; linarith, by norm_num; linarith⟩
  refine ⟨fun k => (f^[k] t0).1, fun i hi j hj => ?_, fun k => ?_⟩
  · show c * (2 * (((i * 2 + j) / 2 : ℕ) : ℝ) + (((i * 2 + j) % 2 : ℕ) : ℝ) - 1 / 2) = _
    rw [(div_mod_at i hj).1, (div_mod_at i hj).2]
  · show Becomes [2, 2] h eps (f^[k] t0).1 (f^[k + 1] t0).1
    rw [Function.iterate_succ_apply']
    exact hf _

/-- A front that does stay: a line of any length, negative up to a cell and positive behind it. -/
example (n k : Nat) (hk : k + 1 < n) (g g' : Garbage) : ∃ (r : Res) (D : Nat → ℝ),
    distance ⟨gridOf [n], fun _ => 1, fun x => if x ≤ k then -1 else 1, 1 / 10⟩ g (n + 1) = .ok r ∧ (∀ x < n, r.dist x = some (D x)) ∧
      ((∀ x < n, D x ≤ 0 ∨ 1 / 10 < D x) → ∃ r', distance ⟨gridOf [n], fun _ => 1, D, 1 / 10⟩ g' (n + 1) = .ok r' ∧
        ∀ x < n, r'.dist x = some (D x)) := by
  have hp : ([n] : List Nat).prod = n := by simp
  have := distance_again (shape := [n]) (h := 1) (phi := fun x => if x ≤ k then -1 else 1) (eps := 1 / 10) (Or.inl rfl) one_pos
    (by norm_num) (fun x _ => by by_cases hx : x ≤ k <;> simp only [hx, if_true, if_false] <;> norm_num)
    ⟨k, by rw [hp]; omega, Or.inr ⟨0, by simp [gridOf], true, k + 1, by
      rw [nb1]; simp only [if_true]; rw [if_neg (by omega)], by unfold Crosses; simp⟩⟩
    (line_even fun i _ h1 h2 => by
      by_cases a : i ≤ k <;> by_cases b : i + 1 ≤ k <;> by_cases d : i + 2 ≤ k <;>
        first
        | omega
        | (exfalso; norm_num [a, b, d] at h1; done)
        | (exfalso; norm_num [a, b, d] at h2))
    g g' (n + 1) (n + 1) (by rw [hp]; omega) (by rw [hp]; omega)
  rw [hp] at this
  exact this

end Verif.March
