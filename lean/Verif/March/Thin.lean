import Verif.March.Again

/-! # Renormalising a layer one cell thick -/

namespace Verif.March

/-- One renormalisation of a line with one cell inside. -/
theorem thin_step {n m : Nat} (hm : m + 2 < n) {h eps : ℝ} (hh : 0 < h) (heps : 0 ≤ eps) {phi psi : Nat → ℝ}
    (hin : eps < phi (m + 1)) (hout : ∀ x < n, x ≠ m + 1 → phi x < 0) (hle : -phi m ≤ -phi (m + 2)) (hb : Becomes [n] h eps phi psi) :
    psi m = -(h * (-phi m / (-phi m + phi (m + 1)))) ∧ psi (m + 1) = h * (phi (m + 1) / (phi (m + 1) + -phi (m + 2))) ∧
      psi (m + 2) = -(h * (-phi (m + 2) / (-phi (m + 2) + phi (m + 1)))) ∧ ∀ x < n, x ≠ m + 1 → psi x < 0 := by
  obtain ⟨g, fuel, r, hf, e, hr⟩ := hb
  have hp : ([n] : List Nat).prod = n := by simp
  rw [hp] at hr
  have q0 : 0 < phi (m + 1) := lt_of_le_of_lt heps hin
  have a0 : phi m < 0 := hout m (by omega) (by omega)
  have b0 : phi (m + 2) < 0 := hout (m + 2) (by omega) (by omega)
  have hphi : ∀ x < ([n] : List Nat).prod, phi x ≤ 0 ∨ eps < phi x := by
    intro x hx
    rw [hp] at hx
    by_cases hxm : x = m + 1
    · exact Or.inr (hxm ▸ hin)
    · exact Or.inl (hout x hx hxm).le
  obtain ⟨ok, -⟩ := grid_ok (shape := [n]) (dx := fun _ => h) (Or.inl rfl) (fun _ => hh) heps hphi
  have nbr : ∀ x < n, ∀ dir a, (gridOf [n]).nb x 0 dir = some a → (dir = true ∧ x + 1 < n ∧ a = x + 1) ∨ (dir = false ∧ 0 < x ∧ a = x - 1) := by
    intro x hx dir a ha
    rw [nb1] at ha
    cases dir <;> simp only [Bool.false_eq_true, if_false, if_true] at ha <;> split at ha <;> cases ha
    · exact Or.inr ⟨rfl, by omega, rfl⟩
    · exact Or.inl ⟨rfl, by omega, rfl⟩
  have up : ∀ x, x + 1 < n → (gridOf [n]).nb x 0 true = some (x + 1) := fun x hx => by
    rw [nb1]; simp only [if_true]; rw [if_neg (by omega)]
  have down : ∀ x, x + 1 < n → (gridOf [n]).nb (x + 1) 0 false = some x := fun x hx => by
    rw [nb1]; simp only [Bool.false_eq_true, if_false]; rw [if_neg (by omega)]; rfl
  have val : ∀ x < n, (∃ dir a, (gridOf [n]).nb x 0 dir = some a ∧ phi x * phi a < 0) →
      (∃ dir a, (gridOf [n]).nb x 0 dir = some a ∧ phi x * phi a < 0 ∧ |psi x| = h * (|phi x| / (|phi x| + |phi a|))) ∧
      (∀ dir a, (gridOf [n]).nb x 0 dir = some a → phi x * phi a < 0 → |psi x| ≤ h * (|phi x| / (|phi x| + |phi a|))) ∧
      (0 < phi x → 0 < psi x) ∧ (phi x < 0 → psi x < 0) := by
    rintro x hx ⟨dir0, a0, ha0, hc0⟩
    have hn : phi x ≠ 0 := by rintro h0; simp [h0] at hc0
    obtain ⟨t, v, et, hv, -, hvn⟩ := distance_interface_values ok.wf ok.dx' g fuel hf x (by rw [size1]; exact hx)
      (Or.inr ⟨0, by simp [gridOf], dir0, a0, ha0, hc0⟩)
    rw [e] at et
    cases et
    rw [hr x hx] at hv
    cases hv
    obtain ⟨⟨d, hd, dir, a, ha, hxa, hva, -, -⟩, hmin, hs1, hs2⟩ := hvn hn
    have hd1 : d < 1 := hd
    obtain rfl : d = 0 := by omega
    exact ⟨⟨dir, a, ha, hxa, hva⟩, hmin 0 hd, hs1, hs2⟩
  have cr0 : phi (m + 1) * phi m < 0 := mul_neg_of_pos_of_neg q0 a0
  have cr2 : phi (m + 1) * phi (m + 2) < 0 := mul_neg_of_pos_of_neg q0 b0
  refine ⟨?_, ?_, ?_, ?_⟩
  · obtain ⟨⟨dir, a, ha, hxa, hva⟩, -, -, hneg⟩ := val m (by omega) ⟨true, m + 1, up m (by omega), by rw [mul_comm]; exact cr0⟩
    have hlt := hneg a0
    rw [abs_of_neg hlt, abs_of_neg a0] at hva
    rcases nbr m (by omega) dir a ha with ⟨-, -, rfl⟩ | ⟨-, hpos, rfl⟩
    · rw [abs_of_pos q0] at hva
      linarith
    · exact absurd hxa (not_lt.2 (mul_pos_of_neg_of_neg a0 (hout (m - 1) (by omega) (by omega))).le)
  · obtain ⟨⟨dir, a, ha, hxa, hva⟩, hmin, hps, -⟩ := val (m + 1) (by omega) ⟨true, m + 2, up (m + 1) (by omega), cr2⟩
    have h2 := hmin true (m + 2) (up (m + 1) (by omega)) cr2
    rw [abs_of_pos (hps q0), abs_of_pos q0] at hva h2
    rw [abs_of_neg b0] at h2
    refine le_antisymm h2 ?_
    rw [hva]
    refine mul_le_mul_of_nonneg_left ?_ hh.le
    rcases nbr (m + 1) (by omega) dir a ha with ⟨-, -, rfl⟩ | ⟨-, -, rfl⟩
    · rw [show m + 1 + 1 = m + 2 by omega, abs_of_neg b0]
    · rw [abs_of_neg a0]
      exact div_le_div_of_nonneg_left q0.le (by linarith) (by linarith)
  · obtain ⟨⟨dir, a, ha, hxa, hva⟩, -, -, hneg⟩ := val (m + 2) (by omega) ⟨false, m + 1, down (m + 1) (by omega), by rw [mul_comm]; exact cr2⟩
    have hlt := hneg b0
    rw [abs_of_neg hlt, abs_of_neg b0] at hva
    rcases nbr (m + 2) (by omega) dir a ha with ⟨-, hl, rfl⟩ | ⟨-, -, rfl⟩
    · exact absurd hxa (not_lt.2 (mul_pos_of_neg_of_neg b0 (hout (m + 2 + 1) hl (by omega))).le)
    · rw [show m + 2 - 1 = m + 1 by omega, abs_of_pos q0] at hva
      linarith
  · intro x hx hxm
    obtain ⟨r', D, e', h1, h2, -⟩ := distance_upwind (shape := [n]) (Or.inl rfl) hh heps hphi
      ⟨m + 1, by rw [hp]; omega, Or.inr ⟨0, by simp [gridOf], true, m + 2, up (m + 1) (by omega), cr2⟩⟩ g fuel hf
    rw [e] at e'
    cases e'
    have h3 := h1 x (by rw [hp]; exact hx)
    rw [hr x hx] at h3
    rw [Option.some.inj h3]
    exact (h2 x (by rw [hp]; exact hx)).2.1 (hout x hx hxm)

/-- **A layer one cell thick shrinks with every renormalisation until it is symmetric about its cell.**  On a line of any length let the
level set be positive in the cell `m + 1` only, and let the neighbour on its left be the nearer one in value.  However often the level
set is renormalised, the cell keeps the distance `h t` it gets from its right neighbour, and its left neighbour gets the distances
`h u` with `1 / u = 1 / (1 - t) + t ^ k (1 / u0 - 1 / (1 - t))`, which grow towards `h (1 - t)`. -/
theorem distance_thin_false {n m : Nat} (hm : m + 2 < n) {h eps : ℝ} (hh : 0 < h) (heps : 0 ≤ eps) (F : Nat → Nat → ℝ)
    (hin : eps < F 0 (m + 1)) (hout : ∀ x < n, x ≠ m + 1 → F 0 x < 0) (hlt : -F 0 m < -F 0 (m + 2))
    (ht : eps < h * (F 0 (m + 1) / (F 0 (m + 1) + -F 0 (m + 2)))) (hF : ∀ k, Becomes [n] h eps (F k) (F (k + 1))) :
    ∃ t u0 : ℝ, t = F 0 (m + 1) / (F 0 (m + 1) + -F 0 (m + 2)) ∧ u0 = -F 0 m / (-F 0 m + F 0 (m + 1)) ∧ 0 < t ∧ 0 < u0 ∧ u0 < 1 - t ∧
      ∀ k, F (k + 1) (m + 1) = h * t ∧ F (k + 1) (m + 2) = -(h * (1 - t)) ∧
        F (k + 1) m = -(h / (1 / (1 - t) + t ^ k * (1 / u0 - 1 / (1 - t)))) ∧ F (k + 2) m < F (k + 1) m := by
  have q0 : 0 < F 0 (m + 1) := lt_of_le_of_lt heps hin
  have a0 : F 0 m < 0 := hout m (by omega) (by omega)
  have b0 : F 0 (m + 2) < 0 := hout (m + 2) (by omega) (by omega)
  set q := F 0 (m + 1) with hq
  set t := q / (q + -F 0 (m + 2)) with htt
  set u0 := -F 0 m / (-F 0 m + q) with hu0
  have t0 : 0 < t := div_pos q0 (by linarith)
  have t1 : t < 1 := by rw [htt, div_lt_one (by linarith)]; linarith
  have u00 : 0 < u0 := div_pos (by linarith) (by linarith)
  have ht1 : 1 - t = -F 0 (m + 2) / (-F 0 (m + 2) + q) := by
    rw [htt, eq_div_iff (by linarith), add_comm (-F 0 (m + 2)) q, sub_mul, div_mul_cancel₀ _ (by linarith)]
    ring
  have hu1 : u0 < 1 - t := by
    rw [ht1, hu0, div_lt_div_iff₀ (by linarith) (by linarith)]
    nlinarith
  have hpos : ∀ k, 0 < 1 / (1 - t) + t ^ k * (1 / u0 - 1 / (1 - t)) ∧ 1 / (1 - t) < 1 / (1 - t) + t ^ k * (1 / u0 - 1 / (1 - t)) := by
    intro k
    have h1 : 0 < 1 / u0 - 1 / (1 - t) := sub_pos.2 (one_div_lt_one_div_of_lt u00 hu1)
    have h2 : 0 < 1 / (1 - t) := by have : 0 < 1 - t := by linarith
                                    positivity
    have h3 : 0 < t ^ k * (1 / u0 - 1 / (1 - t)) := by positivity
    exact ⟨by linarith, by linarith⟩
  have main : ∀ k, F (k + 1) (m + 1) = h * t ∧ F (k + 1) (m + 2) = -(h * (1 - t)) ∧
      F (k + 1) m = -(h / (1 / (1 - t) + t ^ k * (1 / u0 - 1 / (1 - t)))) ∧ ∀ x < n, x ≠ m + 1 → F (k + 1) x < 0 := by
    intro k
    induction k with
    | zero =>
      obtain ⟨s1, s2, s3, s4⟩ := thin_step hm hh heps hin hout hlt.le (hF 0)
      refine ⟨s2, ?_, ?_, s4⟩
      · rw [zero_add, s3, ht1]
      · rw [zero_add, s1, pow_zero, one_mul, add_sub_cancel, div_div_eq_mul_div, div_one]
    | succ k ih =>
      obtain ⟨i1, i2, i3, i4⟩ := ih
      obtain ⟨p1, p2⟩ := hpos k
      have h1t : 0 < 1 - t := by linarith
      have hw : h / (1 / (1 - t) + t ^ k * (1 / u0 - 1 / (1 - t))) < h * (1 - t) := by
        rw [div_lt_iff₀ p1]
        have := mul_lt_mul_of_pos_left p2 (mul_pos hh h1t)
        rw [mul_one_div, mul_div_assoc, div_self h1t.ne', mul_one] at this
        exact this
      obtain ⟨s1, s2, s3, s4⟩ := thin_step hm hh heps (by rw [i1]; exact ht) i4 (by rw [i2, i3, neg_neg, neg_neg]; exact hw.le) (hF (k + 1))
      have hne : h * t + h * (1 - t) = h := by ring
      refine ⟨?_, ?_, ?_, s4⟩
      · rw [s2, i1, i2, neg_neg, hne, mul_div_assoc', mul_div_cancel_left₀ _ hh.ne']
      · rw [s3, i1, i2, neg_neg, add_comm, hne, mul_div_assoc', mul_div_cancel_left₀ _ hh.ne']
      · rw [s1, i1, i3, neg_neg, pow_succ]
        congr 1
        set w := 1 / (1 - t) + t ^ k * (1 / u0 - 1 / (1 - t)) with hwd
        have e1 : 1 / (1 - t) + t ^ k * t * (1 / u0 - 1 / (1 - t)) = 1 + t * w := by
          rw [hwd]
          field_simp
          ring
        rw [e1]
        have : 0 < 1 + t * w := by positivity
        field_simp
  refine ⟨t, u0, rfl, rfl, t0, u00, hu1, fun k => ⟨(main k).1, (main k).2.1, (main k).2.2.1, ?_⟩⟩
  rw [(main k).2.2.1, (main (k + 1)).2.2.1, neg_lt_neg_iff]
  have h1 : 0 < 1 / u0 - 1 / (1 - t) := sub_pos.2 (one_div_lt_one_div_of_lt u00 hu1)
  have h2 : t ^ (k + 1) < t ^ k := pow_lt_pow_right_of_lt_one₀ t0 t1 (Nat.lt_succ_self k)
  rw [div_lt_div_iff_of_pos_left hh (hpos k).1 (hpos (k + 1)).1]
  linarith [mul_lt_mul_of_pos_right h2 h1]

/-- Every level set of this kind has such a sequence of renormalisations. -/
theorem thin_exists {n m : Nat} (hm : m + 2 < n) {h eps : ℝ} (hh : 0 < h) (heps : 0 ≤ eps) (phi : Nat → ℝ)
    (hin : eps < phi (m + 1)) (hout : ∀ x < n, x ≠ m + 1 → phi x < 0) (hle : -phi m ≤ -phi (m + 2))
    (ht : eps < h * (phi (m + 1) / (phi (m + 1) + -phi (m + 2)))) :
    ∃ F : Nat → Nat → ℝ, F 0 = phi ∧ ∀ k, Becomes [n] h eps (F k) (F (k + 1)) := by
  let T := {phi : Nat → ℝ // eps < phi (m + 1) ∧ (∀ x < n, x ≠ m + 1 → phi x < 0) ∧ -phi m ≤ -phi (m + 2) ∧
    eps < h * (phi (m + 1) / (phi (m + 1) + -phi (m + 2)))}
  have next : ∀ t : T, ∃ t' : T, Becomes [n] h eps t.1 t'.1 := by
    rintro ⟨phi, c1, c2, c3, c4⟩
    have hp : ([n] : List Nat).prod = n := by simp
    have q0 : 0 < phi (m + 1) := lt_of_le_of_lt heps c1
    have a0 : phi m < 0 := c2 m (by omega) (by omega)
    have b0 : phi (m + 2) < 0 := c2 (m + 2) (by omega) (by omega)
    obtain ⟨r, psi, e, h1, -⟩ := distance_upwind (shape := [n]) (phi := phi) (Or.inl rfl) hh heps (fun x hx => by
        rw [hp] at hx
        by_cases hxm : x = m + 1
        · exact Or.inr (hxm ▸ c1)
        · exact Or.inl (c2 x hx hxm).le)
      ⟨m + 1, by rw [hp]; omega, Or.inr ⟨0, by simp [gridOf], true, m + 2, by
        rw [nb1]; simp only [if_true]; rw [if_neg (by omega)], mul_neg_of_pos_of_neg q0 b0⟩⟩
      ⟨fun _ => 0, fun _ => 0, fun _ => 0, fun _ => 0, fun _ => 0⟩ (n + 1) (by rw [hp]; omega)
    have hb : Becomes [n] h eps phi psi := ⟨_, n + 1, r, by rw [hp]; omega, e, h1⟩
    obtain ⟨s1, s2, s3, s4⟩ := thin_step hm hh heps c1 c2 c3 hb
    refine ⟨⟨psi, by rw [s2]; exact c4, s4, ?_, ?_⟩, hb⟩
    · rw [s1, s3, neg_neg, neg_neg]
      refine mul_le_mul_of_nonneg_left ?_ hh.le
      rw [div_le_div_iff₀ (by linarith) (by linarith)]
      nlinarith
    · have hs : psi (m + 1) + -psi (m + 2) = h := by
        rw [s2, s3, neg_neg, add_comm (-phi (m + 2)), ← mul_add, ← add_div, div_self (by linarith), mul_one]
      rw [hs, s2, mul_div_assoc', mul_div_cancel_left₀ _ hh.ne']
      exact c4
  choose f hf using next
  refine ⟨fun k => (f^[k] ⟨phi, hin, hout, hle, ht⟩).1, rfl, fun k => ?_⟩
  show Becomes [n] h eps (f^[k] _).1 (f^[k + 1] _).1
  rw [Function.iterate_succ_apply']
  exact hf _

/-- Values `-1, 1, -3`: the layer is three quarters of a cell thick at first and shrinks towards half a cell. -/
example : ∃ F : Nat → Nat → ℝ, (∀ k, Becomes [3] 1 (1 / 10) (F k) (F (k + 1))) ∧
    ∀ k, F (k + 1) 1 = 1 / 4 ∧ F (k + 1) 0 = -(1 / (4 / 3 + (1 / 4) ^ k * (2 / 3))) := by
  obtain ⟨F, h0, hF⟩ := thin_exists (n := 3) (m := 0) (by norm_num) (h := 1) (eps := 1 / 10) one_pos (by norm_num)
    (fun x => if x = 0 then -1 else if x = 1 then 1 else -3) (by norm_num) (fun x hx hx1 => by
      rcases (show x = 0 ∨ x = 2 by omega) with rfl | rfl <;> norm_num) (by norm_num) (by norm_num)
  obtain ⟨t, u0, et, eu, -, -, -, h⟩ := distance_thin_false (n := 3) (m := 0) (by norm_num) (h := 1) (eps := 1 / 10) one_pos (by norm_num) F
    (by rw [h0]; norm_num) (fun x hx hx1 => by
      rw [h0]
      rcases (show x = 0 ∨ x = 2 by omega) with rfl | rfl <;> norm_num) (by rw [h0]; norm_num) (by rw [h0]; norm_num) hF
  rw [h0] at et eu
  norm_num at et eu
  subst et eu
  refine ⟨F, hF, fun k => ?_⟩
  obtain ⟨h1, -, h2, -⟩ := h k
  constructor
  · rw [h1]; norm_num
  · rw [h2]; norm_num

end Verif.March
