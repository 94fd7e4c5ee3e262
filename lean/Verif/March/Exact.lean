import Verif.March.Props

/-! # Distances of neighbouring cells, and exact distances on a line -/

namespace Verif.March

/-- **Neighbouring cells**: away from the interface a distance exceeds the one of a face neighbour by no more than the spacing
between them, and the distance of some face neighbour is smaller.  Full claim: all fields; proved for fields with an interface and
without values in `(0, eps]`. -/
theorem distance_neighbour_partial {shape : List Nat} (hs : shape.length = 1 ∨ shape.length = 2)
    {dx phi : Nat → ℝ} {eps : ℝ} (hdx : ∀ d, 0 < dx d) (heps : 0 ≤ eps)
    (hphi : ∀ i < shape.prod, phi i ≤ 0 ∨ eps < phi i)
    (hint : ∃ i < shape.prod, AtInterface ⟨gridOf shape, dx, phi, eps⟩ i)
    (g : Garbage) (fuel : Nat) (hfuel : shape.prod < fuel) :
    ∃ (r : Res) (D : Nat → ℝ), distance ⟨gridOf shape, dx, phi, eps⟩ g fuel = .ok r ∧
      (∀ i < shape.prod, r.dist i = some (D i)) ∧ (∀ i < shape.prod, SignOK (phi i) (D i)) ∧
      ∀ i < shape.prod, ¬ AtInterface ⟨gridOf shape, dx, phi, eps⟩ i →
        (∀ d < shape.length, ∀ dir a, (gridOf shape).nb i d dir = some a → |D i| ≤ |D a| + dx d) ∧
        ∃ d < shape.length, ∃ dir a, (gridOf shape).nb i d dir = some a ∧ |D a| < |D i| ∧
          (shape.length = 1 → |D i| = |D a| + dx 0) := by
  obtain ⟨ok, hc⟩ := grid_ok hs hdx heps hphi
  obtain ⟨r, D, e, h0, h1, h2, h3, h4, h5⟩ := distance_run ok hc hint g fuel hfuel
  refine ⟨r, D, e, h1, h2, fun i hi hI => ?_⟩
  obtain ⟨pre, suf, hl, hsuf, hfirst, o, ho, h6, h7⟩ := h5 i ((h3 i).2 ⟨hi, hI⟩)
  constructor
  · intro d hd dir a ha
    have hal : a < shape.prod := ok.wf.lt i d dir a hi hd ha
    by_cases hS : (a < shape.prod ∧ AtInterface ⟨gridOf shape, dx, phi, eps⟩ a) ∨ a ∈ pre
    · have hm := ho d hd
      cases hod : o d with
      | none => rw [hod] at hm; exact absurd hS (hm dir a ha)
      | some m =>
        rw [hod] at hm
        have hma := hm.2 dir a ha hS
        have hle : term (dx d) (o d) |D i| ≤ 1 := by
          rw [← h6]
          refine Finset.single_le_sum (f := fun d => term (dx d) (o d) |D i|) (fun k _ => ?_) (Finset.mem_range.2 hd)
          unfold term
          split
          · exact le_rfl
          · positivity
        rw [hod] at hle
        have h8 : ((|D i| - m) / dx d) ^ 2 ≤ 1 ^ 2 := by simpa [term] using hle
        have h9 := (abs_le.1 (abs_le_of_sq_le_sq h8 zero_le_one)).2
        rw [div_le_one (hdx d)] at h9
        linarith
    · push Not at hS
      have halog : a ∈ r.log := (h3 a).2 ⟨hal, hS.1 hal⟩
      rw [hl, List.mem_append] at halog
      have := hfirst a (halog.resolve_left hS.2)
      have := hdx d
      linarith
  · obtain ⟨d, hd, hpos⟩ := Finset.exists_lt_of_sum_lt (s := Finset.range (gridOf shape).ndim) (f := fun _ => (0 : ℝ))
      (g := fun d => slope (dx d) (o d) |D i|) (by simpa using h7)
    have hd' : d < shape.length := Finset.mem_range.1 hd
    have hm := ho d hd'
    cases hod : o d with
    | none => rw [hod] at hpos; simp [slope] at hpos
    | some m =>
      rw [hod] at hm hpos
      obtain ⟨⟨dir, a, ha, hSa, rfl⟩, -⟩ := hm
      have hgt : |D a| < |D i| := by
        simp only [slope] at hpos
        have := (div_pos_iff_of_pos_right (pow_pos (hdx d) 2)).1 hpos
        linarith
      refine ⟨d, hd', dir, a, ha, hgt, fun hs1 => ?_⟩
      have hd0 : d = 0 := by omega
      subst hd0
      have h10 : (gridOf shape).ndim = 1 := hs1
      rw [h10, Finset.sum_range_one, hod] at h6
      simp only [term] at h6
      have h11 : (|D i| - |D a|) / dx 0 = 1 := by
        have hp : 0 < (|D i| - |D a|) / dx 0 := div_pos (by linarith) (hdx 0)
        nlinarith
      rw [div_eq_one_iff_eq (hdx 0).ne'] at h11
      linarith

/-- On a plane: two columns, one on each side of a front. -/
example (g : Garbage) : ∃ (r : Res) (D : Nat → ℝ), distance ⟨gridOf [2, 3], fun _ => 1, fun i => if i < 3 then -1 else 1, 1 / 10⟩ g 7 = .ok r ∧
    ∀ i < 6, r.dist i = some (D i) := by
  obtain ⟨r, D, e, h, -⟩ := distance_neighbour_partial (shape := [2, 3]) (dx := fun _ => 1) (phi := fun i => if i < 3 then -1 else 1)
    (eps := 1 / 10) (Or.inr rfl) (fun _ => one_pos) (by norm_num)
    (fun i _ => by by_cases h : i < 3 <;> simp only [h, if_true, if_false] <;> norm_num)
    ⟨0, by norm_num, Or.inr ⟨0, by simp [gridOf], true, 3, by simp [nb2_0], by unfold Crosses; norm_num⟩⟩ g 7 (by norm_num)
  exact ⟨r, D, e, h⟩

/-- **On a line distances are exact**: a cell is as far from the interface as the nearest interface cell says, that is, the
distance is the least of `|D a| + dx |j - a|` over the cells `a` at the interface, with the sign of `phi`.  Full claim: all
fields; proved for fields with an interface and without values in `(0, eps]`. -/
theorem distance_line_partial {n : Nat} {dx phi : Nat → ℝ} {eps : ℝ} (hdx : ∀ d, 0 < dx d) (heps : 0 ≤ eps)
    (hphi : ∀ i < n, phi i ≤ 0 ∨ eps < phi i) (hint : ∃ i < n, AtInterface ⟨gridOf [n], dx, phi, eps⟩ i)
    (g : Garbage) (fuel : Nat) (hfuel : n < fuel) :
    ∃ (r : Res) (D : Nat → ℝ), distance ⟨gridOf [n], dx, phi, eps⟩ g fuel = .ok r ∧
      (∀ i < n, r.dist i = some (D i)) ∧ (∀ i < n, SignOK (phi i) (D i)) ∧
      ∀ j < n, (∀ a < n, AtInterface ⟨gridOf [n], dx, phi, eps⟩ a → |D j| ≤ |D a| + dx 0 * |(j : ℝ) - a|) ∧
        ∃ a < n, AtInterface ⟨gridOf [n], dx, phi, eps⟩ a ∧ |D j| = |D a| + dx 0 * |(j : ℝ) - a| := by
  have hp : ([n] : List Nat).prod = n := by simp
  obtain ⟨r, D, e, h1, h2, h3⟩ := distance_neighbour_partial (shape := [n]) (Or.inl rfl) hdx heps (by rwa [hp])
    (by rwa [hp]) g fuel (by rwa [hp])
  rw [hp] at h1 h2 h3
  have h0 := hdx 0
  -- neighbours
  have hnb : ∀ i < n, ∀ a, (a = i + 1 ∨ i = a + 1) → a < n → |D i| ≤ |D a| + dx 0 := by
    intro i hi a ha han
    by_cases hI : AtInterface ⟨gridOf [n], dx, phi, eps⟩ i
    · obtain ⟨r', v, e', hv, hz, hnz⟩ := distance_interface_values (P := ⟨gridOf [n], dx, phi, eps⟩) (wf1 n) (fun d _ => hdx d) g fuel
        (by simpa [gridOf] using hfuel) i (by simpa [gridOf] using hi) hI
      rw [e] at e'
      cases e'
      rw [h1 i hi] at hv
      cases hv
      have := abs_nonneg (D a)
      by_cases hz' : phi i = 0
      · rw [hz hz', abs_zero]; linarith
      · obtain ⟨d, hd, -, -, -, -, -, -, hlt⟩ := (hnz hz').1
        have hd0 : d = 0 := by simp [gridOf] at hd; exact hd
        rw [hd0] at hlt
        simp only at hlt
        linarith
    · refine (h3 i hi hI).1 0 (by simp) (decide (a = i + 1)) a ?_
      rw [nb1]
      rcases ha with rfl | rfl
      · rw [decide_eq_true rfl, if_pos rfl, if_neg (by omega)]
      · rw [decide_eq_false (by omega), if_neg (by simp), if_neg (by omega)]
        simp
  have hfar : ∀ k i a, i < n → a < n → (a = i + k ∨ i = a + k) → |D i| ≤ |D a| + dx 0 * k := by
    intro k
    induction k with
    | zero =>
      intro i a _ _ h
      have : i = a := by omega
      subst this; simp
    | succ k ih =>
      intro i a hi ha h
      rcases h with h | h
      · have e1 := hnb i hi (i + 1) (Or.inl rfl) (by omega)
        have e2 := ih (i + 1) a (by omega) ha (Or.inl (by omega))
        push_cast
        linarith
      · have e1 := hnb i hi (i - 1) (Or.inr (by omega)) (by omega)
        have e2 := ih (i - 1) a (by omega) ha (Or.inr (by omega))
        push_cast
        linarith
  have hup : ∀ j < n, ∀ a < n, |D j| ≤ |D a| + dx 0 * |(j : ℝ) - a| := by
    intro j hj a ha
    rcases le_total j a with h | h
    · obtain ⟨k, rfl⟩ := Nat.exists_eq_add_of_le h
      have := hfar k j (j + k) hj ha (Or.inl rfl)
      rwa [show ((j : ℝ) - ((j + k : ℕ) : ℝ)) = -(k : ℝ) by push_cast; ring, abs_neg, Nat.abs_cast]
    · obtain ⟨k, rfl⟩ := Nat.exists_eq_add_of_le h
      have := hfar k (a + k) a hj ha (Or.inr rfl)
      rwa [show (((a + k : ℕ) : ℝ) - (a : ℝ)) = (k : ℝ) by push_cast; ring, Nat.abs_cast]
  refine ⟨r, D, e, h1, h2, fun j hj => ⟨fun a ha _ => hup j hj a ha, ?_⟩⟩
  -- going down
  have hdown : ∀ N : Nat, ∀ i < n, |D i| < N * dx 0 → ∃ a < n, AtInterface ⟨gridOf [n], dx, phi, eps⟩ a ∧
      |D a| + dx 0 * |(i : ℝ) - a| ≤ |D i| := by
    intro N
    induction N with
    | zero => intro i _ h; have := abs_nonneg (D i); simp at h; linarith
    | succ N ih =>
      intro i hi hN
      by_cases hI : AtInterface ⟨gridOf [n], dx, phi, eps⟩ i
      · exact ⟨i, hi, hI, by simp⟩
      · obtain ⟨d, hd, dir, b, hb, hlt, heq⟩ := (h3 i hi hI).2
        have hd0 : d = 0 := by simpa using hd
        subst hd0
        have heq := heq rfl
        have hbn : b < n := by simpa [gridOf] using (wf1 n).lt i 0 dir b (by simpa [gridOf] using hi) (by simp [gridOf]) hb
        obtain ⟨a, han, haI, hle⟩ := ih b hbn (by push_cast at hN; linarith)
        refine ⟨a, han, haI, ?_⟩
        have hib : |(i : ℝ) - b| = 1 := by
          rw [nb1] at hb
          cases dir
          · simp only [Bool.false_eq_true, if_false] at hb
            split at hb
            · cases hb
            · cases hb
              rw [Nat.cast_sub (by omega)]; simp
          · simp only [if_true] at hb
            split at hb
            · cases hb
            · cases hb; simp
        have htri : |(i : ℝ) - a| ≤ 1 + |(b : ℝ) - a| := by
          have := abs_add_le ((i : ℝ) - b) ((b : ℝ) - a)
          rw [hib] at this
          rwa [sub_add_sub_cancel] at this
        nlinarith
  obtain ⟨N, hN⟩ := exists_nat_gt (|D j| / dx 0)
  rw [div_lt_iff₀ h0] at hN
  obtain ⟨a, han, haI, hle⟩ := hdown N j hj hN
  exact ⟨a, han, haI, le_antisymm (hup j hj a han) hle⟩

/-- Two fronts: the distances of five cells from both ends. -/
example (g : Garbage) : ∃ (r : Res) (D : Nat → ℝ), distance ⟨gridOf [5], fun _ => 1, fun i => if i = 0 ∨ i = 4 then 1 else -1, 1 / 10⟩ g 6 = .ok r ∧
    ∀ i < 5, r.dist i = some (D i) := by
  obtain ⟨r, D, e, h, -⟩ := distance_line_partial (n := 5) (dx := fun _ => 1) (phi := fun i => if i = 0 ∨ i = 4 then 1 else -1)
    (eps := 1 / 10) (fun _ => one_pos) (by norm_num)
    (fun i _ => by by_cases h : i = 0 ∨ i = 4 <;> simp only [h, if_true, if_false] <;> norm_num)
    ⟨0, by norm_num, Or.inr ⟨0, by simp [gridOf], true, 1, by simp [nb1], by unfold Crosses; norm_num⟩⟩ g 6 (by norm_num)
  exact ⟨r, D, e, h⟩

/-- **One front on a line**: a field that is negative below cell `k` and above `eps` from it on comes back as the signed distance
of the cell centres from the point `x` where the straight line through the two values around the sign change vanishes. -/
theorem distance_front {n k : Nat} {dx : Nat → ℝ} {phi : Nat → ℝ} {eps : ℝ} (hdx : ∀ d, 0 < dx d) (heps : 0 ≤ eps)
    (hk : 0 < k) (hkn : k < n) (hneg : ∀ i < k, phi i < 0) (hpos : ∀ i < n, k ≤ i → eps < phi i)
    (g : Garbage) (fuel : Nat) (hfuel : n < fuel) :
    ∃ r, distance ⟨gridOf [n], dx, phi, eps⟩ g fuel = .ok r ∧
      ∀ j < n, r.dist j = some (((j : ℝ) - k) * dx 0 + dx 0 * (phi k / (phi k - phi (k - 1)))) := by
  have h0 := hdx 0
  have hk1 := hneg (k - 1) (by omega)
  have hk2 := lt_of_le_of_lt heps (hpos k hkn le_rfl)
  -- the cells at the interface are those on both sides of the sign change
  have hcross : ∀ i a, (a = i + 1 ∨ i = a + 1) → i < n → a < n → phi i * phi a < 0 →
      (i = k ∧ a = k - 1) ∨ (i = k - 1 ∧ a = k) := by
    intro i a h hi ha hlt
    by_cases h1 : i < k <;> by_cases h2 : a < k
    · nlinarith [hneg i h1, hneg a h2]
    · omega
    · omega
    · nlinarith [lt_of_le_of_lt heps (hpos i hi (by omega)), lt_of_le_of_lt heps (hpos a ha (by omega))]
  have hnear : ∀ i a d dir, i < n → d < 1 → (gridOf [n]).nb i d dir = some a → (a = i + 1 ∨ i = a + 1) ∧ a < n := by
    intro i a d dir hi hd h
    have hd0 : d = 0 := by omega
    subst hd0
    rw [nb1] at h
    cases dir
    · simp only [Bool.false_eq_true, if_false] at h
      split at h
      · cases h
      · cases h; omega
    · simp only [if_true] at h
      split at h
      · cases h
      · cases h; omega
  have hiface : ∀ i < n, AtInterface ⟨gridOf [n], dx, phi, eps⟩ i → i = k ∨ i = k - 1 := by
    rintro i hi (h | ⟨d, hd, dir, a, ha, hx⟩)
    · simp only at h
      by_cases h1 : i < k
      · have := hneg i h1; linarith
      · have := lt_of_le_of_lt heps (hpos i hi (by omega)); linarith
    · obtain ⟨h1, h2⟩ := hnear i a d dir hi (by simpa [gridOf] using hd) ha
      rcases hcross i a h1 hi h2 hx with h | h
      · exact Or.inl h.1
      · exact Or.inr h.1
  have hIk : AtInterface ⟨gridOf [n], dx, phi, eps⟩ k := by
    refine Or.inr ⟨0, by simp [gridOf], false, k - 1, ?_, by unfold Crosses; simp only; nlinarith⟩
    show (gridOf [n]).nb k 0 false = _
    rw [nb1, if_neg (by simp), if_neg (by omega)]
  have hIk1 : AtInterface ⟨gridOf [n], dx, phi, eps⟩ (k - 1) := by
    refine Or.inr ⟨0, by simp [gridOf], true, k, ?_, by unfold Crosses; simp only; nlinarith⟩
    show (gridOf [n]).nb (k - 1) 0 true = _
    rw [nb1, if_pos rfl, if_neg (by omega)]
    congr 1; omega
  obtain ⟨r, D, e, h1, h2, h3⟩ := distance_line_partial (n := n) (phi := phi) hdx heps (by
    intro i hi
    by_cases h : i < k
    · exact Or.inl (hneg i h).le
    · exact Or.inr (hpos i hi (by omega))) ⟨k, hkn, hIk⟩ g fuel hfuel
  refine ⟨r, e, ?_⟩
  -- the values next to the sign change
  have hval : ∀ i < n, ∀ a, (i = k ∧ a = k - 1) ∨ (i = k - 1 ∧ a = k) → |D i| = dx 0 * (|phi i| / (|phi i| + |phi a|)) := by
    intro i hi a hia
    have hI : AtInterface ⟨gridOf [n], dx, phi, eps⟩ i := by
      rcases hia with ⟨rfl, -⟩ | ⟨rfl, -⟩
      · exact hIk
      · exact hIk1
    obtain ⟨r', v, e', hv, -, hnz⟩ := distance_interface_values (P := ⟨gridOf [n], dx, phi, eps⟩) (wf1 n) (fun d _ => hdx d) g fuel
      (by simpa [gridOf] using hfuel) i (by simpa [gridOf] using hi) hI
    rw [e] at e'
    cases e'
    rw [h1 i hi] at hv
    cases hv
    have hne : phi i ≠ 0 := by rcases hia with ⟨rfl, -⟩ | ⟨rfl, -⟩ <;> [exact hk2.ne'; exact hk1.ne]
    obtain ⟨⟨d, hd, dir, a', ha', hx, hd', -, -⟩, -⟩ := hnz hne
    have hd1 : d < 1 := by simpa [gridOf] using hd
    obtain ⟨g1, g2⟩ := hnear i a' d dir hi hd1 ha'
    have hd0 : d = 0 := by omega
    subst hd0
    have haa : a' = a := by
      rcases hcross i a' g1 hi g2 hx with h | h <;> omega
    rw [hd', haa]
    rfl
  have vk := hval k hkn (k - 1) (Or.inl ⟨rfl, rfl⟩)
  have vk1 := hval (k - 1) (by omega) k (Or.inr ⟨rfl, rfl⟩)
  rw [abs_of_pos hk2, abs_of_neg hk1] at vk vk1
  have hsum : 0 < phi k - phi (k - 1) := by linarith
  have hkk : ((k - 1 : ℕ) : ℝ) = (k : ℝ) - 1 := by rw [Nat.cast_sub hk]; simp
  have vk1' : |D (k - 1)| = dx 0 - |D k| := by
    rw [vk, vk1]
    have : phi k + -phi (k - 1) ≠ 0 := by linarith [hsum]
    have h' : -phi (k - 1) + phi k ≠ 0 := by linarith [hsum]
    field_simp
    ring
  have hfrac : |D k| = dx 0 * (phi k / (phi k - phi (k - 1))) := by rw [vk]; ring_nf
  have hlt : |D k| < dx 0 := by
    rw [hfrac]
    have : phi k / (phi k - phi (k - 1)) < 1 := by rw [div_lt_one hsum]; linarith
    nlinarith
  intro j hj
  rw [h1 j hj, ← hfrac]
  congr 1
  obtain ⟨hup, a, han, haI, heq⟩ := h3 j hj
  have u1 := hup k hkn hIk
  have u2 := hup (k - 1) (by omega) hIk1
  rw [vk1', hkk] at u2
  have hnn := abs_nonneg (D k)
  by_cases hjk : j < k
  · have hjk' : (j : ℝ) ≤ k - 1 := by
      have : j + 1 ≤ k := hjk
      have : ((j + 1 : ℕ) : ℝ) ≤ k := by exact_mod_cast this
      push_cast at this; linarith
    have hs : D j < 0 := (h2 j hj).2.1 (hneg j hjk)
    rw [abs_of_neg hs] at heq u1 u2
    rw [abs_of_nonpos (by linarith : (j : ℝ) - (k - 1) ≤ 0)] at u2
    rcases hiface a han haI with rfl | rfl
    · rw [abs_of_nonpos (by linarith : (j : ℝ) - a ≤ 0)] at heq
      nlinarith
    · rw [vk1', hkk, abs_of_nonpos (by linarith : (j : ℝ) - (k - 1) ≤ 0)] at heq
      nlinarith
  · have hjk' : (k : ℝ) ≤ j := by exact_mod_cast not_lt.1 hjk
    have hs : 0 < D j := (h2 j hj).1 (lt_of_le_of_lt heps (hpos j hj (by omega)))
    rw [abs_of_pos hs] at heq u1 u2
    rw [abs_of_nonneg (by linarith : (0:ℝ) ≤ (j : ℝ) - k)] at u1
    rcases hiface a han haI with rfl | rfl
    · rw [abs_of_nonneg (by linarith : (0:ℝ) ≤ (j : ℝ) - a)] at heq
      nlinarith
    · rw [vk1', hkk, abs_of_nonneg (by linarith : (0:ℝ) ≤ (j : ℝ) - (k - 1))] at heq
      nlinarith

/-- A steep field: `-1, 3, 3, 3` with spacing 1 comes back as `-1/4, 3/4, 7/4, 11/4`. -/
example (g : Garbage) : ∃ r, distance ⟨gridOf [4], fun _ => 1, fun i => if i = 0 then -1 else 3, 1 / 10⟩ g 5 = .ok r ∧
    r.dist 3 = some (11 / 4) := by
  obtain ⟨r, e, h⟩ := distance_front (n := 4) (k := 1) (dx := fun _ => 1) (phi := fun i => if i = 0 then -1 else 3) (eps := 1 / 10)
    (fun _ => one_pos) (by norm_num) (by norm_num) (by norm_num) (fun i hi => by simp [show i = 0 by omega])
    (fun i _ hi => by simp only [show ¬ i = 0 by omega, if_false]; norm_num) g 5 (by norm_num)
  refine ⟨r, e, ?_⟩
  rw [h 3 (by norm_num)]
  norm_num

end Verif.March
