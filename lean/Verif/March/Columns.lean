import Verif.March.Exact

/-! # Distances from a front along an axis of a plane -/

namespace Verif.March

/-- `π` takes the cells of a plane to the cells of a line: steps along the axis `d` become steps on the line, steps along the other
axis `d'` leave the cell of the line alone. -/
structure Onto (n m N : Nat) (d d' : Nat) (π : Nat → Nat) : Prop where
  lt : ∀ x < n * m, π x < N
  cover : ∀ i < N, ∃ x < n * m, π x = i
  ax : d < 2 ∧ d' < 2 ∧ d ≠ d'
  step : ∀ x < n * m, ∀ dir y, (gridOf [n, m]).nb x d dir = some y → (gridOf [N]).nb (π x) 0 dir = some (π y)
  lift : ∀ x < n * m, ∀ dir i, (gridOf [N]).nb (π x) 0 dir = some i → ∃ y, (gridOf [n, m]).nb x d dir = some y ∧ π y = i
  flat : ∀ x < n * m, ∀ dir y, (gridOf [n, m]).nb x d' dir = some y → π y = π x

theorem sum_axes {d d' : Nat} (h : d < 2 ∧ d' < 2 ∧ d ≠ d') (f : Nat → ℝ) : ∑ k ∈ Finset.range 2, f k = f d + f d' := by
  obtain ⟨h1, h2, h3⟩ := h
  rw [Finset.sum_range_succ, Finset.sum_range_one]
  rcases (show (d = 0 ∧ d' = 1) ∨ (d = 1 ∧ d' = 0) by omega) with ⟨rfl, rfl⟩ | ⟨rfl, rfl⟩
  · rfl
  · exact add_comm _ _

/-- **A plane field that varies along one axis only has the distances of the line**, if it has an interface and no values in `(0, eps]`.
Neither the order in which cells are accepted nor the spacing along the other axis matters. -/
theorem distance_onto {n m N d d' : Nat} {π : Nat → Nat} (o : Onto n m N d d' π) {dx f : Nat → ℝ} {eps : ℝ} (hdx : ∀ d, 0 < dx d)
    (heps : 0 ≤ eps) (hf : ∀ i < N, f i ≤ 0 ∨ eps < f i) (hint : ∃ i < N, AtInterface ⟨gridOf [N], fun _ => dx d, f, eps⟩ i)
    (phi : Nat → ℝ) (hphi : ∀ x < n * m, phi x = f (π x)) (g g' : Garbage) (fuel fuel' : Nat) (hfuel : n * m < fuel) (hfuel' : N < fuel') :
    ∃ (r r' : Res) (L : Nat → ℝ), distance ⟨gridOf [n, m], dx, phi, eps⟩ g fuel = .ok r ∧
      distance ⟨gridOf [N], fun _ => dx d, f, eps⟩ g' fuel' = .ok r' ∧
      (∀ i < N, r'.dist i = some (L i)) ∧ ∀ x < n * m, r.dist x = some (L (π x)) := by
  have hp : ([n, m] : List Nat).prod = n * m := by simp
  have hp1 : ([N] : List Nat).prod = N := by simp
  set P : Prob := ⟨gridOf [n, m], dx, phi, eps⟩ with hP
  set Q : Prob := ⟨gridOf [N], fun _ => dx d, f, eps⟩ with hQ
  have hd0 := hdx d
  have hPs : P.G.size = n * m := hp
  have hPn : P.G.ndim = 2 := rfl
  -- the interface
  have hx2 : ∀ x < n * m, ∀ dir y, (gridOf [n, m]).nb x d dir = some y → y < n * m := fun x hx dir y h => by
    simpa [gridOf] using (wf2 n m).lt x d dir y (by simpa [gridOf] using hx) o.ax.1 h
  have hx3 : ∀ x < n * m, ∀ dir y, (gridOf [n, m]).nb x d' dir = some y → y < n * m := fun x hx dir y h => by
    simpa [gridOf] using (wf2 n m).lt x d' dir y (by simpa [gridOf] using hx) o.ax.2.1 h
  have axis : ∀ k < 2, k = d ∨ k = d' := fun k hk => by
    obtain ⟨h1, h2, h3⟩ := o.ax
    omega
  have hcr : ∀ x < n * m, ∀ k < 2, ∀ dir y, (gridOf [n, m]).nb x k dir = some y → Crosses P x y →
      k = d ∧ (gridOf [N]).nb (π x) 0 dir = some (π y) ∧ Crosses Q (π x) (π y) := by
    intro x hx k hk dir y h hc
    have hc' : phi x * phi y < 0 := hc
    rcases axis k hk with rfl | rfl
    · refine ⟨rfl, o.step x hx dir y h, ?_⟩
      show f (π x) * f (π y) < 0
      rwa [← hphi x hx, ← hphi y (hx2 x hx dir y h)]
    · exfalso
      rw [hphi x hx, hphi y (hx3 x hx dir y h), o.flat x hx dir y h] at hc'
      nlinarith
  have hcl : ∀ x < n * m, ∀ dir i, (gridOf [N]).nb (π x) 0 dir = some i → Crosses Q (π x) i →
      ∃ y, (gridOf [n, m]).nb x d dir = some y ∧ π y = i ∧ Crosses P x y := by
    intro x hx dir i h hc
    obtain ⟨y, hy, rfl⟩ := o.lift x hx dir i h
    refine ⟨y, hy, rfl, ?_⟩
    show phi x * phi y < 0
    rw [hphi x hx, hphi y (hx2 x hx dir y hy)]
    exact hc
  have hI : ∀ x < n * m, AtInterface P x ↔ AtInterface Q (π x) := by
    intro x hx
    constructor
    · rintro (h | ⟨k, hk, dir, y, hy, hc⟩)
      · exact Or.inl (by show f (π x) = 0; rw [← hphi x hx]; exact h)
      · obtain ⟨-, h1, h2⟩ := hcr x hx k hk dir y hy hc
        exact Or.inr ⟨0, Nat.one_pos, dir, _, h1, h2⟩
    · rintro (h | ⟨k, hk, dir, i, hi, hc⟩)
      · exact Or.inl (by show phi x = 0; rw [hphi x hx]; exact h)
      · obtain rfl : k = 0 := by simpa [hQ, gridOf] using hk
        obtain ⟨y, h1, -, h2⟩ := hcl x hx dir i hi hc
        exact Or.inr ⟨d, o.ax.1, dir, y, h1, h2⟩
  have hphi' : ∀ x < ([n, m] : List Nat).prod, phi x ≤ 0 ∨ eps < phi x := by
    rw [hp]
    intro x hx
    rw [hphi x hx]
    exact hf _ (o.lt x hx)
  have hintP : ∃ x < ([n, m] : List Nat).prod, AtInterface P x := by
    obtain ⟨i, hi, h⟩ := hint
    obtain ⟨x, hx, rfl⟩ := o.cover i hi
    exact ⟨x, by rwa [hp], (hI x hx).2 h⟩
  obtain ⟨r', L, e', l1, l2, l3⟩ := distance_neighbour_partial (shape := [N]) (dx := fun _ => dx d) (phi := f) (Or.inl rfl) (fun _ => hd0) heps
    (by rwa [hp1]) (by rwa [hp1]) g' fuel' (by rwa [hp1])
  rw [hp1] at l1 l2 l3
  obtain ⟨ok, hcn⟩ := grid_ok (shape := [n, m]) (Or.inr rfl) hdx heps hphi'
  obtain ⟨r, D, e, -, h1, h2, h3, h4, h5⟩ := distance_run ok hcn hintP g fuel (by simpa [gridOf] using hfuel)
  obtain ⟨r2, D2, e2, k1, -, k3⟩ := distance_neighbour_partial (shape := [n, m]) (Or.inr rfl) hdx heps hphi' hintP g fuel (by rwa [hp])
  rw [e] at e2
  cases e2
  obtain ⟨r3, e3, hnd, -⟩ := distance_terminates_grid (shape := [n, m]) (Or.inr rfl) dx phi eps (fun d _ => hdx d) g fuel (by rwa [hp])
  rw [e] at e3
  cases e3
  rw [hp] at k1 k3
  change ∀ x < ([n, m] : List Nat).prod, _ at h1
  change ∀ x < ([n, m] : List Nat).prod, _ at h2
  rw [hp] at h1 h2
  have h3' : ∀ x, x ∈ r.log ↔ x < n * m ∧ ¬ AtInterface P x := fun x => by rw [h3 x]; simp [gridOf, hP]
  have hDD : ∀ x < n * m, D2 x = D x := fun x hx => Option.some.inj ((k1 x hx).symm.trans (h1 x hx))
  -- values at the interface
  have hbase : ∀ x < n * m, AtInterface P x → |D x| = |L (π x)| := by
    intro x hx hIx
    obtain ⟨s, v, es, hv, hz, hnz⟩ := distance_interface_values (P := P) (wf2 n m) (fun d _ => hdx d) g fuel
      (by rwa [hPs]) x (by rwa [hPs]) hIx
    rw [e] at es
    cases es
    rw [h1 x hx] at hv
    cases hv
    obtain ⟨s, v, es, hv, hz', hnz'⟩ := distance_interface_values (P := Q) (wf1 N) (fun _ _ => hd0) g' fuel'
      (by simpa [hQ, gridOf] using hfuel') (π x) (by simpa [hQ, gridOf] using o.lt x hx) ((hI x hx).1 hIx)
    rw [e'] at es
    cases es
    rw [l1 _ (o.lt x hx)] at hv
    cases hv
    by_cases h0 : phi x = 0
    · rw [hz h0, hz' (by show f (π x) = 0; rw [← hphi x hx]; exact h0)]
    · obtain ⟨⟨k, hk, dir, a, ha, hc, hva, -, -⟩, hmin, -⟩ := hnz h0
      obtain ⟨⟨k', hk', dir', a', ha', hc', hva', -, -⟩, hmin', -⟩ := hnz' (by show f (π x) ≠ 0; rw [← hphi x hx]; exact h0)
      obtain ⟨rfl, q1, q2⟩ := hcr x hx k hk dir a ha hc
      obtain rfl : k' = 0 := by simpa [hQ, gridOf] using hk'
      obtain ⟨y, q3, q4, q5⟩ := hcl x hx dir' a' ha' hc'
      have i1 : ∀ y < n * m, interpDist P x y k = interpDist Q (π x) (π y) 0 := fun y hy => by
        simp only [interpDist, hP, hQ, hphi x hx, hphi y hy]
      refine le_antisymm ?_ ?_
      · rw [hva', ← q4, ← i1 y (hx2 x hx _ _ q3)]
        exact hmin k hk dir' y q3 q5
      · rw [hva, i1 a (hx2 x hx _ _ ha)]
        exact hmin' 0 Nat.one_pos dir _ q1 q2
  -- the line
  have hlip : ∀ i < N, ∀ dir a, (gridOf [N]).nb i 0 dir = some a → ¬ AtInterface Q i → |L i| ≤ |L a| + dx d := fun i hi dir a ha hn =>
    (l3 i hi hn).1 0 (by simp) dir a ha
  have hdesc : ∀ i < N, ¬ AtInterface Q i → ∃ dir a, (gridOf [N]).nb i 0 dir = some a ∧ |L i| = |L a| + dx d := by
    intro i hi hn
    obtain ⟨k, hk, dir, a, ha, -, heq⟩ := (l3 i hi hn).2
    obtain rfl : k = 0 := by simpa using hk
    exact ⟨dir, a, ha, heq rfl⟩
  -- one cell
  have hone : ∀ x ∈ r.log, ∀ pre suf, r.log = pre ++ suf → (∀ y ∈ suf, |D x| ≤ |D y|) →
      Eikonal P.G P.dx (fun y => (y < P.G.size ∧ AtInterface P y) ∨ y ∈ pre) D x |D x| →
      (∀ y ∈ pre, |D y| = |L (π y)|) → |D x| = |L (π x)| := by
    rintro x hxl pre suf hl hfirst ⟨q, hq, h6, h7⟩ hpre
    obtain ⟨hx, hxI⟩ := (h3' x).1 hxl
    have hQI : ¬ AtInterface Q (π x) := fun h => hxI ((hI x hx).2 h)
    have hS : ∀ y, (y < P.G.size ∧ AtInterface P y) ∨ y ∈ pre → |D y| = |L (π y)| := by
      rintro y (h | h)
      · exact hbase y (by rw [← hPs]; exact h.1) h.2
      · exact hpre y h
    rw [hPn] at hq h6 h7
    rw [sum_axes o.ax] at h6 h7
    -- what has not been accepted is farther away
    have hdown : ∀ K : Nat, ∀ y < n * m, |L (π y)| < K * dx d →
        ((y < P.G.size ∧ AtInterface P y) ∨ y ∈ pre) ∨ |D x| ≤ |L (π y)| := by
      intro K
      induction K with
      | zero => intro y _ h; have := abs_nonneg (L (π y)); simp at h; linarith
      | succ K ih =>
        intro y hy hK
        by_cases hyI : AtInterface P y
        · exact Or.inl (Or.inl ⟨by rwa [hPs], hyI⟩)
        · by_cases hyp : y ∈ pre
          · exact Or.inl (Or.inr hyp)
          right
          obtain ⟨dir, a, ha, hLa⟩ := hdesc (π y) (o.lt y hy) fun h => hyI ((hI y hy).2 h)
          obtain ⟨z, hz, rfl⟩ := o.lift y hy dir a ha
          have hzl := hx2 y hy dir z hz
          rcases ih z hzl (by push_cast at hK; linarith) with h | h
          · have hys : y ∈ suf := by
              have : y ∈ r.log := (h3' y).2 ⟨hy, hyI⟩
              rw [hl, List.mem_append] at this
              exact this.resolve_left hyp
            have b1 := hfirst y hys
            have b2 := (k3 y hy hyI).1 d o.ax.1 dir z hz
            rw [hDD y hy, hDD z hzl, hS z h] at b2
            linarith
          · linarith
    have hdown' : ∀ y < n * m, ((y < P.G.size ∧ AtInterface P y) ∨ y ∈ pre) ∨ |D x| ≤ |L (π y)| := by
      intro y hy
      obtain ⟨K, hK⟩ := exists_nat_gt (|L (π y)| / dx d)
      rw [div_lt_iff₀ hd0] at hK
      exact hdown K y hy hK
    have hd1 := hdx d'
    have t0 : ∀ k (o : Option ℝ), 0 ≤ term (dx k) o |D x| := fun k o => by
      unfold term
      split
      · exact le_rfl
      · positivity
    refine le_antisymm ?_ ?_
    · obtain ⟨dir, a, ha, hLa⟩ := hdesc (π x) (o.lt x hx) hQI
      obtain ⟨z, hz, rfl⟩ := o.lift x hx dir a ha
      rcases hdown' z (hx2 x hx dir z hz) with h | h
      · have hm := hq d o.ax.1
        cases hqd : q d with
        | none => rw [hqd] at hm; exact absurd h (hm dir z hz)
        | some μ =>
          rw [hqd] at hm
          have b1 := hm.2 dir z hz h
          rw [hS z h] at b1
          have b2 : term (dx d) (q d) |D x| ≤ 1 := by
            have := t0 d' (q d')
            linarith
          rw [hqd] at b2
          have b3 : ((|D x| - μ) / dx d) ^ 2 ≤ 1 ^ 2 := by simpa [term] using b2
          have b4 := (abs_le.1 (abs_le_of_sq_le_sq b3 zero_le_one)).2
          rw [div_le_one hd0] at b4
          linarith
      · linarith
    · by_contra hlt
      push Not at hlt
      -- the neighbours that count
      have c0 : ∀ μ, q d = some μ → |L (π x)| ≤ μ + dx d := by
        intro μ hμ
        have hm := hq d o.ax.1
        rw [hμ] at hm
        obtain ⟨⟨dir, z, hz, hSz, rfl⟩, -⟩ := hm
        rw [hS z hSz]
        exact hlip _ (o.lt x hx) dir _ (o.step x hx dir z hz) hQI
      have c1 : ∀ μ, q d' = some μ → μ = |L (π x)| := by
        intro μ hμ
        have hm := hq d' o.ax.2.1
        rw [hμ] at hm
        obtain ⟨⟨dir, z, hz, hSz, rfl⟩, -⟩ := hm
        rw [hS z hSz, o.flat x hx dir z hz]
      cases hqd : q d with
      | none =>
        cases hqd' : q d' with
        | none => rw [hqd, hqd'] at h6; simp [term] at h6
        | some μ' =>
          rw [hqd, hqd'] at h7
          simp only [slope, zero_add] at h7
          have := (div_pos_iff_of_pos_right (pow_pos hd1 2)).1 h7
          rw [c1 μ' hqd'] at this
          linarith
      | some μ =>
        have e0 := c0 μ hqd
        cases hqd' : q d' with
        | none =>
          rw [hqd, hqd'] at h6 h7
          simp only [slope, term, add_zero] at h6 h7
          have p0 := (div_pos_iff_of_pos_right (pow_pos hd0 2)).1 h7
          have p1 : 0 < (|D x| - μ) / dx d := div_pos p0 hd0
          have p2 : (|D x| - μ) / dx d = 1 := by nlinarith
          rw [div_eq_one_iff_eq hd0.ne'] at p2
          linarith
        | some μ' =>
          rw [hqd, hqd', c1 μ' hqd'] at h6 h7
          simp only [slope, term, div_pow] at h6 h7
          set E := |L (π x)|
          set R := |D x|
          have sx : 0 < dx d ^ 2 := pow_pos hd0 2
          have sy : 0 < dx d' ^ 2 := pow_pos hd1 2
          have p0 : 0 < R - μ := by
            have : (R - E) / dx d' ^ 2 < 0 := div_neg_of_neg_of_pos (by linarith) sy
            have : 0 < (R - μ) / dx d ^ 2 := by linarith
            exact (div_pos_iff_of_pos_right sx).1 this
          -- the left-hand side is convex and increasing at `R`
          have p1 : (E - μ) ^ 2 / dx d ^ 2 ≤ 1 := by
            rw [div_le_one sx]
            exact pow_le_pow_left₀ (by linarith) (by linarith) 2
          have p2 : (E - μ) ^ 2 / dx d ^ 2 = ((R - μ) ^ 2 / dx d ^ 2 + (R - E) ^ 2 / dx d' ^ 2) +
              2 * (E - R) * ((R - μ) / dx d ^ 2 + (R - E) / dx d' ^ 2) + (E - R) ^ 2 * (1 / dx d ^ 2 + 1 / dx d' ^ 2) := by
            field_simp
            ring
          have p3 : 0 < 2 * (E - R) * ((R - μ) / dx d ^ 2 + (R - E) / dx d' ^ 2) := mul_pos (by linarith) h7
          have p4 : 0 ≤ (E - R) ^ 2 * (1 / dx d ^ 2 + 1 / dx d' ^ 2) := by positivity
          linarith
  -- along the log
  have key : ∀ k, ∀ x ∈ r.log.take k, |D x| = |L (π x)| := by
    intro k
    induction k with
    | zero => simp
    | succ k ih =>
      intro x hx
      have hxl := List.mem_of_mem_take hx
      obtain ⟨pre, suf, hl, hsuf, hfirst, hE⟩ := h5 x hxl
      refine hone x hxl pre suf hl hfirst hE fun y hy => ih y ?_
      have hpk : pre.length ≤ k := by
        by_contra hc
        push Not at hc
        have hxp : x ∈ pre := by
          have : r.log.take (k + 1) = pre.take (k + 1) := by rw [hl, List.take_append_of_le_length hc]
          rw [this] at hx
          exact List.mem_of_mem_take hx
        rw [hl] at hnd
        exact (List.nodup_append.1 hnd).2.2 x hxp x hsuf rfl
      rw [hl, List.take_append]
      exact List.mem_append_left _ (by rwa [List.take_of_length_le hpk])
  refine ⟨r, r', L, e, e', l1, fun x hx => ?_⟩
  have habs : |D x| = |L (π x)| := by
    by_cases hIx : AtInterface P x
    · exact hbase x hx hIx
    · have := (h3' x).2 ⟨hx, hIx⟩
      exact key r.log.length x (by rwa [List.take_length])
  rw [h1 x hx]
  congr 1
  obtain ⟨s1, s2, s3⟩ := h2 x hx
  obtain ⟨t1, t2, t3⟩ := l2 (π x) (o.lt x hx)
  have hpx : P.phi x = f (π x) := hphi x hx
  rw [hpx] at s1 s2 s3
  rcases lt_trichotomy (f (π x)) 0 with h | h | h
  · rw [abs_of_neg (s2 h), abs_of_neg (t2 h)] at habs; linarith
  · rw [s3 h, t3 h]
  · rwa [abs_of_pos (s1 h), abs_of_pos (t1 h)] at habs

theorem div_sub_self {n m x : Nat} (hm : 0 < m) (h : ¬ (x / m = 0 ∨ x / m - 1 ≥ n)) : (x - m) / m = x / m - 1 := by
  have h1 : m ≤ x := by
    by_contra hc
    exact h (Or.inl (Nat.div_eq_of_lt (by omega)))
  obtain ⟨k, rfl⟩ := Nat.exists_eq_add_of_le h1
  rw [Nat.add_sub_cancel_left, Nat.add_div_left _ hm]
  rfl

theorem mod_sub_self {n m x : Nat} (h : ¬ (x / m = 0 ∨ x / m - 1 ≥ n)) : (x - m) % m = x % m := by
  have h1 : m ≤ x := by
    by_contra hc
    exact h (Or.inl (Nat.div_eq_of_lt (by omega)))
  exact (Nat.mod_eq_sub_mod h1).symm

/-- The first coordinate of a cell. -/
theorem onto_first (n m : Nat) (hm : 0 < m) : Onto n m n 0 1 (· / m) where
  lt x hx := (Nat.div_lt_iff_lt_mul hm).2 hx
  cover i hi := ⟨i * m, Nat.mul_lt_mul_of_pos_right hi hm, Nat.mul_div_cancel i hm⟩
  ax := by omega
  step x hx dir y h := by
    rw [nb2_0] at h
    rw [nb1]
    cases dir
    · simp only [Bool.false_eq_true, if_false] at h ⊢
      split at h
      · cases h
      · rename_i hc
        cases h
        rw [if_neg hc, div_sub_self hm hc]
    · simp only [if_true] at h ⊢
      split at h
      · cases h
      · rename_i hc
        cases h
        rw [if_neg hc, Nat.add_div_right _ hm]
  lift x hx dir i h := by
    rw [nb1] at h
    rw [nb2_0]
    cases dir
    · simp only [Bool.false_eq_true, if_false] at h ⊢
      split at h
      · cases h
      · rename_i hc
        cases h
        rw [if_neg hc]
        exact ⟨_, rfl, (div_sub_self hm hc)⟩
    · simp only [if_true] at h ⊢
      split at h
      · cases h
      · rename_i hc
        cases h
        rw [if_neg hc]
        exact ⟨_, rfl, Nat.add_div_right _ hm⟩
  flat x hx dir y h := by
    rw [nb2_1] at h
    cases dir
    · simp only [Bool.false_eq_true, if_false] at h
      split at h
      · cases h
      · rename_i hc
        cases h
        exact (div_mod_pred hm (by omega)).1
    · simp only [if_true] at h
      split at h
      · cases h
      · rename_i hc
        cases h
        exact (div_mod_succ (by omega)).1

/-- The second coordinate of a cell. -/
theorem onto_second (n m : Nat) (hn : 0 < n) (hm : 0 < m) : Onto n m m 1 0 (· % m) where
  lt x hx := Nat.mod_lt x hm
  cover i hi := ⟨i, hi.trans_le (Nat.le_mul_of_pos_left m hn), Nat.mod_eq_of_lt hi⟩
  ax := by omega
  step x hx dir y h := by
    rw [nb2_1] at h
    rw [nb1]
    cases dir
    · simp only [Bool.false_eq_true, if_false] at h ⊢
      split at h
      · cases h
      · rename_i hc
        cases h
        rw [if_neg hc, (div_mod_pred hm (by omega)).2.1]
    · simp only [if_true] at h ⊢
      split at h
      · cases h
      · rename_i hc
        cases h
        rw [if_neg hc, (div_mod_succ (by omega)).2]
  lift x hx dir i h := by
    rw [nb1] at h
    rw [nb2_1]
    cases dir
    · simp only [Bool.false_eq_true, if_false] at h ⊢
      split at h
      · cases h
      · rename_i hc
        cases h
        rw [if_neg hc]
        exact ⟨_, rfl, (div_mod_pred hm (by omega)).2.1⟩
    · simp only [if_true] at h ⊢
      split at h
      · cases h
      · rename_i hc
        cases h
        rw [if_neg hc]
        exact ⟨_, rfl, (div_mod_succ (by omega)).2⟩
  flat x hx dir y h := by
    rw [nb2_0] at h
    cases dir
    · simp only [Bool.false_eq_true, if_false] at h
      split at h
      · cases h
      · rename_i hc
        cases h
        exact mod_sub_self hc
    · simp only [if_true] at h
      split at h
      · cases h
      · cases h
        exact Nat.add_mod_right x m

/-- **A straight front across a plane**: a field that depends on the first coordinate only, negative below `k` and above `eps` from it
on, comes back as the signed distance of the cell centres from the line where the straight line through the two values vanishes. -/
theorem distance_front_first {n m k : Nat} (hm : 0 < m) {dx f : Nat → ℝ} {eps : ℝ} (hdx : ∀ d, 0 < dx d) (heps : 0 ≤ eps)
    (hk : 0 < k) (hkn : k < n) (hneg : ∀ i < k, f i < 0) (hpos : ∀ i < n, k ≤ i → eps < f i) (phi : Nat → ℝ)
    (hphi : ∀ x < n * m, phi x = f (x / m)) (g : Garbage) (fuel : Nat) (hfuel : n * m < fuel) :
    ∃ r, distance ⟨gridOf [n, m], dx, phi, eps⟩ g fuel = .ok r ∧
      ∀ x < n * m, r.dist x = some ((((x / m : ℕ) : ℝ) - k) * dx 0 + dx 0 * (f k / (f k - f (k - 1)))) := by
  have hk1 := hneg (k - 1) (by omega)
  have hk2 := lt_of_le_of_lt heps (hpos k hkn le_rfl)
  obtain ⟨r, r', L, e, e', h1, h2⟩ := distance_onto (onto_first n m hm) hdx heps (f := f) (fun i hi => by
      by_cases h : i < k
      · exact Or.inl (hneg i h).le
      · exact Or.inr (hpos i hi (by omega))) ⟨k, hkn, Or.inr ⟨0, Nat.one_pos, false, k - 1, by
        show (gridOf [n]).nb k 0 false = _
        rw [nb1, if_neg (by simp), if_neg (by omega)], by unfold Crosses; simp only; nlinarith⟩⟩ phi hphi g g fuel (n + 1) hfuel (by omega)
  obtain ⟨r2, e2, h3⟩ := distance_front (dx := fun _ => dx 0) (fun _ => hdx 0) heps hk hkn hneg hpos g (n + 1) (by omega)
  rw [e'] at e2
  cases e2
  refine ⟨r, e, fun x hx => ?_⟩
  have hx' := (onto_first n m hm).lt x hx
  rw [h2 x hx, ← h1 _ hx', h3 _ hx']

/-- The same for fronts across the second coordinate. -/
theorem distance_front_second {n m k : Nat} (hn : 0 < n) {dx f : Nat → ℝ} {eps : ℝ} (hdx : ∀ d, 0 < dx d) (heps : 0 ≤ eps)
    (hk : 0 < k) (hkm : k < m) (hneg : ∀ i < k, f i < 0) (hpos : ∀ i < m, k ≤ i → eps < f i) (phi : Nat → ℝ)
    (hphi : ∀ x < n * m, phi x = f (x % m)) (g : Garbage) (fuel : Nat) (hfuel : n * m < fuel) :
    ∃ r, distance ⟨gridOf [n, m], dx, phi, eps⟩ g fuel = .ok r ∧
      ∀ x < n * m, r.dist x = some ((((x % m : ℕ) : ℝ) - k) * dx 1 + dx 1 * (f k / (f k - f (k - 1)))) := by
  have hk1 := hneg (k - 1) (by omega)
  have hk2 := lt_of_le_of_lt heps (hpos k hkm le_rfl)
  have ho := onto_second n m hn (by omega)
  obtain ⟨r, r', L, e, e', h1, h2⟩ := distance_onto ho hdx heps (f := f) (fun i hi => by
      by_cases h : i < k
      · exact Or.inl (hneg i h).le
      · exact Or.inr (hpos i hi (by omega))) ⟨k, hkm, Or.inr ⟨0, Nat.one_pos, false, k - 1, by
        show (gridOf [m]).nb k 0 false = _
        rw [nb1, if_neg (by simp), if_neg (by omega)], by unfold Crosses; simp only; nlinarith⟩⟩ phi hphi g g fuel (m + 1) hfuel (by omega)
  obtain ⟨r2, e2, h3⟩ := distance_front (dx := fun _ => dx 1) (fun _ => hdx 1) heps hk hkm hneg hpos g (m + 1) (by omega)
  rw [e'] at e2
  cases e2
  refine ⟨r, e, fun x hx => ?_⟩
  have hx' := ho.lt x hx
  rw [h2 x hx, ← h1 _ hx', h3 _ hx']

/-- Four columns of three cells: `-1, 3, 3, 3` with spacings 1 and 2 comes back as `-1/4, 3/4, 7/4, 11/4`. -/
example (g : Garbage) : ∃ r, distance ⟨gridOf [4, 3], fun d => if d = 0 then 1 else 2, fun x => if x / 3 = 0 then -1 else 3, 1 / 10⟩ g 13 = .ok r ∧
    r.dist 10 = some (11 / 4) := by
  obtain ⟨r, e, h⟩ := distance_front_first (n := 4) (m := 3) (k := 1) (dx := fun d => if d = 0 then 1 else 2)
    (f := fun i => if i = 0 then -1 else 3) (eps := 1 / 10) (by norm_num)
    (fun d => by by_cases h : d = 0 <;> simp [h]) (by norm_num) (by norm_num) (by norm_num) (fun i hi => by simp [show i = 0 by omega])
    (fun i _ hi => by simp only [show ¬ i = 0 by omega, if_false]; norm_num) (fun x => if x / 3 = 0 then -1 else 3) (fun x _ => rfl) g 13 (by norm_num)
  refine ⟨r, e, ?_⟩
  rw [h 10 (by norm_num)]
  norm_num

end Verif.March
