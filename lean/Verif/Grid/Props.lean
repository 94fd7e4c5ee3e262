import Verif.Grid.Lemmas
import Mathlib.Data.Rat.Defs
import Mathlib.Tactic.FieldSimp
import Mathlib.LinearAlgebra.Matrix.Determinant.Basic
import Mathlib.LinearAlgebra.Matrix.Notation
import Mathlib.Tactic.NormNum
import Mathlib.Tactic.IntervalCases
import Mathlib.Tactic.LinearCombination

/-!
# Properties of the padding and of the mask extension (C09–C12)
-/

namespace Verif.Grid

variable {K : Type} [Field K]

/-! ### C09, C10 in one dimension -/

/-- Every padded row is the wall map of the interior row `srcOf`; `u` and everything beyond the
padded array are untouched; no out-of-range access. -/
theorem boundaries_1d (c : Cfg K) (nx : Nat) (b0 b1 : BT) (m : Mem K) (hN : c.N ≤ nx)
    (h0 : b0 ≠ .other) (h1 : b1 ≠ .other) :
    ∃ m', boundaries1D c nx b0 b1 m = some m' ∧
      (∀ k < nx + 2 * c.N,
        m' (true, k) = ghostOf c 0 b0 b1 nx k (m (false, srcOf c.N b0 b1 nx k))) ∧
      (∀ k, m' (false, k) = m (false, k)) ∧
      ∀ k ≥ nx + 2 * c.N, m' (true, k) = m (true, k) := by
  obtain ⟨m', e, a, f⟩ := boundaries1_spec c (fun k => (false, k)) (fun k => (true, k)) nx b0 b1 0
    (copySeg c.N 0 nx m) hN h0 h1 (fun i j _ _ h => by simpa using h) (fun i _ j _ => by simp)
  refine ⟨m', e, ?_, ?_, ?_⟩
  · intro k hk
    by_cases hg : Ghost c.N nx k
    · rw [a k hg]; simp [copySeg]
    · obtain ⟨g1, g2, g3, g4⟩ := interior_eq (d := 0) (b0 := b0) (b1 := b1) hg hk
        (m (false, srcOf c.N b0 b1 nx k))
      rw [f _ (fun j hj h => hg (by have : j = k := by simpa using h
                                    exact this ▸ hj)), g1, g2]
      simp [copySeg, g3, g4]
  · intro k; rw [f _ (by simp)]; simp [copySeg]
  · intro k hk
    rw [f _ (fun j hj h => by
      have : j = k := by simpa using h
      subst this; rcases hj with hj | hj <;> omega)]
    simp only [copySeg]
    rw [if_neg (by omega)]

/-! ### C09, C10 in two dimensions -/

theorem flat_inj {W k k' l l' : Nat} (h : k * W + l = k' * W + l') (hl : l < W) (hl' : l' < W) :
    k = k' ∧ l = l' := by
  have hW : 0 < W := by omega
  have h1 : (k * W + l) / W = k := by
    rw [Nat.mul_comm, Nat.mul_add_div hW, Nat.div_eq_of_lt hl, Nat.add_zero]
  have h2 : (k' * W + l') / W = k' := by
    rw [Nat.mul_comm, Nat.mul_add_div hW, Nat.div_eq_of_lt hl', Nat.add_zero]
  have : k = k' := by rw [← h1, h, h2]
  subst this
  exact ⟨rfl, by omega⟩

theorem flat_lt {W k l n : Nat} (hk : k < n) (hl : l < W) : k * W + l < n * W := by
  have : (k + 1) * W ≤ n * W := Nat.mul_le_mul_right _ hk
  rw [Nat.add_mul, Nat.one_mul] at this; omega

/-- Untouched by `boundaries2D`: `u` and whatever lies beyond the padded array. -/
def Outside (n : Nat) (l : Loc) : Prop := l.1 = false ∨ n ≤ l.2

omit [Field K] in
theorem copy_spec (c : Cfg K) (nx ny n : Nat) (hn : n ≤ nx) (m : Mem K) :
    let m' := (List.range n).foldl
      (fun m i => copySeg ((i + c.N) * (ny + 2 * c.N) + c.N) (i * ny) ny m) m
    (∀ i < n, ∀ j < ny, m' (true, (i + c.N) * (ny + 2 * c.N) + c.N + j) = m (false, i * ny + j)) ∧
      ∀ l, Outside ((nx + 2 * c.N) * (ny + 2 * c.N)) l → m' l = m l := by
  induction n with
  | zero => simp
  | succ n ih =>
    obtain ⟨h1, h2⟩ := ih (by omega)
    simp only [List.range_succ, List.foldl_append, List.foldl_cons, List.foldl_nil]
    constructor
    · intro i hi j hj
      rw [copySeg]
      split
      · rename_i h
        simp only at h
        have hin : i = n := by
          by_contra hne
          have hin' : i < n := by omega
          have := flat_lt (W := ny + 2 * c.N) (k := i + c.N) (l := c.N + j) (n := n + c.N)
            (by omega) (by omega)
          omega
        subst hin
        rw [h2 _ (.inl rfl)]
        congr 2; omega
      · rename_i h
        simp only at h
        have hin : i ≠ n := by rintro rfl; exact h ⟨trivial, by omega, by omega⟩
        exact h1 i (by omega) j hj
    · intro l hl
      rw [copySeg, if_neg, h2 l hl]
      rintro ⟨ha, hb, hc⟩
      rcases hl with hl | hl
      · rw [hl] at ha; cases ha
      · have := flat_lt (W := ny + 2 * c.N) (k := n + c.N) (l := l.2 - (n + c.N) * (ny + 2 * c.N))
          (n := nx + 2 * c.N) (by omega) (by omega)
        omega

theorem pass1_spec (c : Cfg K) (nx ny : Nat) (b0 b1 : BT) (m : Mem K) (hN : c.N ≤ nx)
    (h0 : b0 ≠ .other) (h1 : b1 ≠ .other) :
    ∃ m', pass1 c nx ny b0 b1 m = some m' ∧
      (∀ l, Outside ((nx + 2 * c.N) * (ny + 2 * c.N)) l → m' l = m l) ∧
      ∀ j < ny, ∀ k, 
        (Ghost c.N nx k → m' (true, k * (ny + 2 * c.N) + (c.N + j)) =
          ghostOf c 0 b0 b1 nx k (m (false, srcOf c.N b0 b1 nx k * ny + j))) ∧
        (¬ Ghost c.N nx k → m' (true, k * (ny + 2 * c.N) + (c.N + j)) =
          m (true, k * (ny + 2 * c.N) + (c.N + j))) := by
  have key := fold_frame (fun m j => boundaries1 c
    (fun k => (false, j + k * ny)) (fun k => (true, j + c.N + k * (ny + 2 * c.N))) nx b0 b1 0 m) ny
    (fun j m' => ∀ k, Ghost c.N nx k → m' (true, k * (ny + 2 * c.N) + (c.N + j)) =
          ghostOf c 0 b0 b1 nx k (m (false, srcOf c.N b0 b1 nx k * ny + j)))
    (fun m m' => (∀ l, Outside ((nx + 2 * c.N) * (ny + 2 * c.N)) l → m' l = m l) ∧
      ∀ j < ny, ∀ k, ¬ Ghost c.N nx k → m' (true, k * (ny + 2 * c.N) + (c.N + j)) =
          m (true, k * (ny + 2 * c.N) + (c.N + j))) m ⟨fun _ _ => rfl, fun _ _ _ _ => rfl⟩ ?_
  · obtain ⟨m', e, ⟨q1, q2⟩, p⟩ := key
    exact ⟨m', e, q1, fun j hj k => ⟨p j hj k, q2 j hj k⟩⟩
  · intro j hj s' ⟨q1, q2⟩ p
    obtain ⟨s'', e, a, f⟩ := boundaries1_spec c (fun k => (false, j + k * ny))
      (fun k => (true, j + c.N + k * (ny + 2 * c.N))) nx b0 b1 0 s' hN h0 h1
      (fun i i' _ _ h => by
        have h' : j + c.N + i * (ny + 2 * c.N) = j + c.N + i' * (ny + 2 * c.N) := by simpa using h
        exact (flat_inj (l := 0) (l' := 0) (W := ny + 2 * c.N) (by omega) (by omega) (by omega)).1)
      (fun i _ i' _ => by simp)
    have hmem : ∀ k k' j', j' < ny → (true, j + c.N + k * (ny + 2 * c.N)) =
        ((true, k' * (ny + 2 * c.N) + (c.N + j')) : Loc) → k = k' ∧ j = j' := by
      intro k k' j' hj' h
      have h' : j + c.N + k * (ny + 2 * c.N) = k' * (ny + 2 * c.N) + (c.N + j') := by simpa using h
      have := flat_inj (W := ny + 2 * c.N) (k := k) (l := c.N + j) (k' := k') (l' := c.N + j')
        (by omega) (by omega) (by omega)
      omega
    refine ⟨s'', e, ⟨?_, ?_⟩, ?_⟩
    · intro l hl
      rw [f l ?_, q1 l hl]
      intro k hk h
      have hkk : k < nx + 2 * c.N := by rcases hk with hk | hk <;> omega
      rcases hl with hl | hl
      · rw [← h] at hl; simp at hl
      · rw [← h] at hl
        have := flat_lt (W := ny + 2 * c.N) (k := k) (l := c.N + j) hkk (by omega)
        simp only at hl; omega
    · intro j' hj' k hk
      rw [f _ ?_, q2 j' hj' k hk]
      intro k' hk' h
      obtain ⟨rfl, _⟩ := hmem k' k j' hj' h
      exact hk hk'
    · intro j' hj' k hk
      by_cases hjj : j' = j
      · subst hjj
        have := a k hk
        have hc : k * (ny + 2 * c.N) + (c.N + j') = j' + c.N + k * (ny + 2 * c.N) := by omega
        rw [hc, this, q1 _ (.inl rfl), Nat.add_comm j']
      · rw [f _ ?_]
        · exact p j' (by omega) k hk
        · intro k' hk' h
          have := (hmem k' k j' (by omega) h).2
          omega

theorem pass2_spec (c : Cfg K) (nx ny : Nat) (b2 b3 : BT) (m : Mem K) (hN : c.N ≤ ny)
    (h2 : b2 ≠ .other) (h3 : b3 ≠ .other) :
    ∃ m', pass2 c nx ny b2 b3 m = some m' ∧
      (∀ l, Outside ((nx + 2 * c.N) * (ny + 2 * c.N)) l → m' l = m l) ∧
      ∀ k < nx + 2 * c.N, ∀ l < ny + 2 * c.N, m' (true, k * (ny + 2 * c.N) + l) =
          ghostOf c 1 b2 b3 ny l
            (m (true, k * (ny + 2 * c.N) + (c.N + srcOf c.N b2 b3 ny l))) := by
  have key := fold_frame (fun m i => boundaries1 c
    (fun k => (true, i * (ny + 2 * c.N) + c.N + k)) (fun k => (true, i * (ny + 2 * c.N) + k))
    ny b2 b3 1 m) (nx + 2 * c.N)
    (fun k m' => ∀ l < ny + 2 * c.N, m' (true, k * (ny + 2 * c.N) + l) =
          ghostOf c 1 b2 b3 ny l
            (m (true, k * (ny + 2 * c.N) + (c.N + srcOf c.N b2 b3 ny l))))
    (fun m m' => (∀ l, Outside ((nx + 2 * c.N) * (ny + 2 * c.N)) l → m' l = m l) ∧
      ∀ k, ∀ j < ny, m' (true, k * (ny + 2 * c.N) + (c.N + j)) =
          m (true, k * (ny + 2 * c.N) + (c.N + j))) m ⟨fun _ _ => rfl, fun _ _ _ => rfl⟩ ?_
  · obtain ⟨m', e, ⟨q1, _⟩, p⟩ := key
    exact ⟨m', e, q1, p⟩
  · intro i hi s' ⟨q1, q2⟩ p
    have hG : ∀ k, Ghost c.N ny k → k < ny + 2 * c.N ∧ (k < c.N ∨ c.N + ny ≤ k) := by
      rintro k (hk | hk) <;> omega
    obtain ⟨s'', e, a, f⟩ := boundaries1_spec c (fun k => (true, i * (ny + 2 * c.N) + c.N + k))
      (fun k => (true, i * (ny + 2 * c.N) + k)) ny b2 b3 1 s' hN h2 h3
      (fun k k' _ _ h => by simpa using h)
      (fun k hk j hj h => by
        have h' : i * (ny + 2 * c.N) + k = i * (ny + 2 * c.N) + c.N + j := by simpa using h
        have := hG k hk
        omega)
    have hmem : ∀ k k' l, Ghost c.N ny k → l < ny + 2 * c.N → (true, i * (ny + 2 * c.N) + k) =
        ((true, k' * (ny + 2 * c.N) + l) : Loc) → i = k' ∧ k = l := by
      intro k k' l hk hl h
      have h' : i * (ny + 2 * c.N) + k = k' * (ny + 2 * c.N) + l := by simpa using h
      exact flat_inj h' (hG k hk).1 hl
    have q2' : ∀ k, ∀ j < ny, s'' (true, k * (ny + 2 * c.N) + (c.N + j)) =
          m (true, k * (ny + 2 * c.N) + (c.N + j)) := by
      intro k j hj
      rw [f _ ?_, q2 k j hj]
      intro k' hk' h
      have := (hmem k' k (c.N + j) hk' (by omega) h).2
      have := (hG k' hk').2
      omega
    refine ⟨s'', e, ⟨?_, q2'⟩, ?_⟩
    · intro l hl
      rw [f l ?_, q1 l hl]
      intro k hk h
      rcases hl with hl | hl
      · rw [← h] at hl; simp at hl
      · rw [← h] at hl
        have := flat_lt (W := ny + 2 * c.N) (k := i) (l := k) hi (hG k hk).1
        simp only at hl; omega
    · intro i' hi' l hl
      by_cases hii : i' = i
      · subst hii
        by_cases hg : Ghost c.N ny l
        · rw [a l hg]
          have hl0 : 0 < ny ∨ c.N = 0 := by omega
          have hs : srcOf c.N b2 b3 ny l < ny := srcOf_lt hN (by
            rcases hl0 with h | h
            · exact h
            · have := (hG l hg).2; have := (hG l hg).1; omega) hl
          have := q2 i' _ hs
          rw [← this]
          congr 3; omega
        · obtain ⟨g1, g2, g3, g4⟩ := interior_eq (d := 1) (b0 := b2) (b1 := b3) hg hl
            (m (true, i' * (ny + 2 * c.N) + (c.N + srcOf c.N b2 b3 ny l)))
          rw [g1, g2]
          have := q2' i' (l - c.N) (by omega)
          rw [show c.N + (l - c.N) = l by omega] at this ⊢
          exact this
      · rw [f _ ?_]
        · exact p i' (by omega) l hl
        · intro k hk h
          have := (hmem k i' l hk hl h).1
          omega

/-- C09/C10 in two dimensions: every padded cell `(k, l)`, corners included, is the y-wall map of
the x-wall map of one interior cell; `u` and everything beyond the padded array are untouched; no
out-of-range access. -/
theorem boundaries_2d (c : Cfg K) (nx ny : Nat) (b0 b1 b2 b3 : BT) (m : Mem K) (hx : c.N ≤ nx)
    (hy : c.N ≤ ny) (h0 : b0 ≠ .other) (h1 : b1 ≠ .other) (h2 : b2 ≠ .other) (h3 : b3 ≠ .other) :
    ∃ m', boundaries2D c nx ny b0 b1 b2 b3 m = some m' ∧
      (∀ k < nx + 2 * c.N, ∀ l < ny + 2 * c.N, m' (true, k * (ny + 2 * c.N) + l) =
        ghostOf c 1 b2 b3 ny l (ghostOf c 0 b0 b1 nx k
          (m (false, srcOf c.N b0 b1 nx k * ny + srcOf c.N b2 b3 ny l)))) ∧
      ∀ l, Outside ((nx + 2 * c.N) * (ny + 2 * c.N)) l → m' l = m l := by
  obtain ⟨d1, d2⟩ := copy_spec c nx ny nx le_rfl m
  set m1 := (List.range nx).foldl
      (fun m i => copySeg ((i + c.N) * (ny + 2 * c.N) + c.N) (i * ny) ny m) m with hm1
  obtain ⟨m2, e2, f2, a2⟩ := pass1_spec c nx ny b0 b1 m1 hx h0 h1
  obtain ⟨m3, e3, f3, a3⟩ := pass2_spec c nx ny b2 b3 m2 hy h2 h3
  refine ⟨m3, ?_, ?_, ?_⟩
  · unfold boundaries2D
    simp only [← hm1, Option.bind_eq_bind]
    rw [e2]; exact e3
  · intro k hk l hl
    rw [a3 k hk l hl]
    congr 1
    by_cases hny : ny = 0
    · -- then `N = 0` and there is no `l`
      omega
    have hs : srcOf c.N b2 b3 ny l < ny := srcOf_lt hy (by omega) hl
    obtain ⟨p1, p2⟩ := a2 _ hs k
    by_cases hg : Ghost c.N nx k
    · rw [p1 hg, d2 _ (.inl rfl)]
    · obtain ⟨g1, g2, g3, g4⟩ := interior_eq (d := 0) (b0 := b0) (b1 := b1) hg hk
        (m (false, srcOf c.N b0 b1 nx k * ny + srcOf c.N b2 b3 ny l))
      rw [p2 hg, g1, g2]
      have := d1 (k - c.N) (by omega) _ hs
      rw [show k - c.N + c.N = k by omega] at this
      rw [← this]
      congr 2; omega
  · intro l hl
    rw [f3 l hl, f2 l hl, d2 l hl]

/-- C09: interior cells are copied, 1D and 2D. -/
theorem boundaries_interior (c : Cfg K) (nx ny : Nat) (b0 b1 b2 b3 : BT) (m : Mem K)
    (hx : c.N ≤ nx) (hy : c.N ≤ ny) (h0 : b0 ≠ .other) (h1 : b1 ≠ .other) (h2 : b2 ≠ .other)
    (h3 : b3 ≠ .other) :
    (∃ m', boundaries1D c nx b0 b1 m = some m' ∧
      ∀ i < nx, m' (true, i + c.N) = m (false, i)) ∧
    ∃ m', boundaries2D c nx ny b0 b1 b2 b3 m = some m' ∧ ∀ i < nx, ∀ j < ny,
      m' (true, (i + c.N) * (ny + 2 * c.N) + (j + c.N)) = m (false, i * ny + j) := by
  have hng : ∀ n i, i < n → ¬ Ghost c.N n (i + c.N) := by
    rintro n i hi (h | h) <;> omega
  constructor
  · obtain ⟨m', e, a, _⟩ := boundaries_1d c nx b0 b1 m hx h0 h1
    refine ⟨m', e, fun i hi => ?_⟩
    rw [a _ (by omega), (interior_eq (hng nx i hi) (by omega) _).1,
      (interior_eq (K := K) (c := c) (d := 0) (hng nx i hi) (by omega) (fun _ => 0)).2.1,
      Nat.add_sub_cancel]
  · obtain ⟨m', e, a, _⟩ := boundaries_2d c nx ny b0 b1 b2 b3 m hx hy h0 h1 h2 h3
    refine ⟨m', e, fun i hi j hj => ?_⟩
    rw [a _ (by omega) _ (by omega), (interior_eq (hng ny j hj) (by omega) _).1,
      (interior_eq (hng nx i hi) (by omega) _).1,
      (interior_eq (K := K) (c := c) (d := 0) (hng nx i hi) (by omega) (fun _ => 0)).2.1,
      (interior_eq (K := K) (c := c) (d := 0) (hng ny j hj) (by omega) (fun _ => 0)).2.1,
      Nat.add_sub_cancel, Nat.add_sub_cancel]

/-- C10: with periodic walls the padded array is the periodic extension of `u`. -/
theorem boundaries_periodic (c : Cfg K) (nx ny : Nat) (m : Mem K) (hx : c.N ≤ nx) (hy : c.N ≤ ny) :
    ∃ m', boundaries2D c nx ny .periodic .periodic .periodic .periodic m = some m' ∧
      ∀ k < nx + 2 * c.N, ∀ l < ny + 2 * c.N, ∀ i < nx, ∀ j < ny,
        k % nx = (i + c.N) % nx → l % ny = (j + c.N) % ny →
        m' (true, k * (ny + 2 * c.N) + l) = m (false, i * ny + j) := by
  obtain ⟨m', e, a, _⟩ := boundaries_2d c nx ny .periodic .periodic .periodic .periodic m hx hy
    (by decide) (by decide) (by decide) (by decide)
  refine ⟨m', e, fun k hk l hl i hi j hj hki hlj => ?_⟩
  have gen : ∀ n k i, c.N ≤ n → k < n + 2 * c.N → i < n → k % n = (i + c.N) % n →
      srcOf c.N .periodic .periodic n k = i := by
    intro n k i hn hk hi h
    have hs := srcOf_lt (b0 := .periodic) (b1 := .periodic) hn (by omega) hk
    have h1 : (srcOf c.N .periodic .periodic n k + c.N) % n = k % n := by
      unfold srcOf
      split
      · simp only
        rw [show k + n - c.N + c.N = k + n by omega, Nat.add_mod_right]
      · split
        · rw [show k - c.N + c.N = k by omega]
        · simp only
          have : k = (k - c.N - n + c.N) + n := by omega
          conv_rhs => rw [this, Nat.add_mod_right]
    rw [h] at h1
    have h2 : srcOf c.N .periodic .periodic n k % n = i % n := Nat.ModEq.add_right_cancel' c.N h1
    rwa [Nat.mod_eq_of_lt hs, Nat.mod_eq_of_lt hi] at h2
  have hw : ∀ d n k q, ghostOf c d .periodic .periodic n k q = q := by
    intro d n k q; unfold ghostOf wall; split_ifs <;> rfl
  rw [a k hk l hl, hw, hw, gen nx k i hx hk hi hki, gen ny l j hy hl hj hlj]

/-- A grid narrower than `N` with a periodic wall reads outside `u`. -/
theorem boundaries_narrow_ub (c : Cfg K) (nx : Nat) (b1 : BT) (m : Mem K) (h : nx < c.N) :
    boundaries1D c nx .periodic b1 m = none := by
  unfold boundaries1D boundaries1
  rw [leftLoop_eq (by decide)]
  obtain ⟨n, hn⟩ : ∃ n, c.N = n + 1 := ⟨c.N - 1, by omega⟩
  have hz : ∀ m : Mem K, fillRow c 0 .periodic (fun k => (false, k)) (fun k => (true, k)) nx 0
      (leftSrc (n + 1) .periodic nx 0) m = none := by
    intro m
    unfold fillRow
    exact if_neg (by simp only [leftSrc]; omega)
  rw [hn, List.range_succ_eq_map, List.foldlM_cons, hz]
  rfl

/-! ### C11: wall states -/

/-- Distortion matrix of a cell, `A(i,j) = q(5+3i+j)` (vectors.cpp:12-16). -/
def distortion (q : Cell K) : Matrix (Fin 3) (Fin 3) K := fun i j => q (5 + 3 * i + j)

/-- Internal plus elastic (plus thermal) energy per volume: total minus kinetic. -/
def restEnergy (q : Cell K) : K := q 1 - (q 2 ^ 2 + q 3 ^ 2 + q 4 ^ 2) / (2 * q 0)

/-- C11 for all wall types (`DESTRESS` off): density, energy without kinetic part, squared
determinant of the distortion and all further components are those of the mirror cell. -/
theorem wall_preserves (c : Cfg K) (hds : c.destress = none) (d : Nat) (hd : d < 3) (bt : BT)
    (q : Cell K) (hρ : q 0 ≠ 0) (h2 : (2 : K) ≠ 0) :
    wall c d bt q q 0 = q 0 ∧ restEnergy (wall c d bt q q) = restEnergy q ∧
      (distortion (wall c d bt q q)).det = (distortion q).det ∧
      (bt ≠ .symmetric → distortion (wall c d bt q q) = distortion q) ∧
      (bt = .symmetric → distortion (wall c d bt q q) =
        Matrix.diagonal (fun i : Fin 3 => if i.val = d then -1 else 1) * distortion q *
        Matrix.diagonal (fun i : Fin 3 => if i.val = d then -1 else 1)) ∧
      ∀ k ≥ 14, wall c d bt q q k = q k := by
  have hds' : ∀ q : Cell K, c.ds q = q := fun q => by unfold Cfg.ds; rw [hds]
  have hnk : ∀ (q : Cell K) (j k : Nat), negAt q j k = if k = j then -q k else q k := by
    intro q j k
    unfold negAt
    by_cases h : k = j
    · subst h; simp
    · simp [h]
  have hA : bt ≠ .symmetric → ∀ k, 5 ≤ k → wall c d bt q q k = q k := by
    intro hb k hk
    have e1 : k ≠ 1 := by omega
    have e2 : k ≠ 2 := by omega
    have e3 : k ≠ 3 := by omega
    have e4 : k ≠ 4 := by omega
    have e5 : k ≠ 2 + d := by omega
    cases bt <;> simp [wall, slip, stick, moving, negMom, hds', hnk,
      e1, e2, e3, e4, e5] at hb ⊢
  have hsym : ∀ i j : Fin 3, symmetric d q (5 + 3 * i + j) =
      (if i.val = d then -1 else 1) * q (5 + 3 * i + j) * (if j.val = d then -1 else 1) := by
    intro i j
    have := i.isLt
    have := j.isLt
    obtain ⟨i, hi⟩ := i
    obtain ⟨j, hj⟩ := j
    simp only [symmetric, hnk]
    interval_cases d <;> interval_cases i <;> interval_cases j <;> simp
  have hD : bt ≠ .symmetric → distortion (wall c d bt q q) = distortion q := by
    intro hb; ext i j; exact hA hb _ (by omega)
  have hDs : bt = .symmetric → distortion (wall c d bt q q) =
        Matrix.diagonal (fun i : Fin 3 => if i.val = d then -1 else 1) * distortion q *
        Matrix.diagonal (fun i : Fin 3 => if i.val = d then -1 else 1) := by
    rintro rfl
    ext i j
    rw [Matrix.mul_diagonal, Matrix.diagonal_mul]
    exact hsym i j
  refine ⟨?_, ?_, ?_, hD, hDs, ?_⟩
  · interval_cases d <;> cases bt <;> simp [wall, slip, stick, moving, symmetric, negMom, hds', hnk]
  · interval_cases d <;> cases bt <;> simp [restEnergy, wall, slip, stick, moving, symmetric, negMom, hds', hnk]
    all_goals (field_simp; ring)
  · by_cases hb : bt = .symmetric
    · rw [hDs hb, Matrix.det_mul, Matrix.det_mul]
      have : (Matrix.diagonal (fun i : Fin 3 => if i.val = d then (-1 : K) else 1)).det ^ 2 = 1 := by
        rw [Matrix.det_diagonal, Fin.prod_univ_three]
        interval_cases d <;> simp
      linear_combination (distortion q).det * this
    · rw [hD hb]
  · intro k hk
    by_cases hb : bt = .symmetric
    · subst hb
      simp only [wall, symmetric, hnk]
      interval_cases d <;>
      rw [if_neg (by omega), if_neg (by omega), if_neg (by omega), if_neg (by omega), if_neg (by omega), if_neg (by omega), if_neg (by omega)]
    · exact hA hb k (by omega)

/-- Mean velocity of ghost and mirror cell along component `k`. -/
def meanVel (g q : Cell K) (k : Nat) : K := (g (2 + k) / g 0 + q (2 + k) / q 0) / 2

/-- C11: the mean of the ghost and mirror velocities is the wall velocity: zero normal component
for slip and symmetric walls, zero for stick walls, one along x for moving walls; slip and
symmetric walls leave the tangential velocity alone. -/
theorem wall_velocity (c : Cfg K) (hds : c.destress = none) (d : Nat) (hd : d < 3) (q : Cell K)
    (hρ : q 0 ≠ 0) (h2 : (2 : K) ≠ 0) :
    meanVel (wall c d .slip q q) q d = 0 ∧ meanVel (wall c d .symmetric q q) q d = 0 ∧
      (∀ k < 3, k ≠ d → wall c d .slip q q (2 + k) = q (2 + k) ∧
        wall c d .symmetric q q (2 + k) = q (2 + k)) ∧
      (∀ k < 3, meanVel (wall c d .stick q q) q k = 0) ∧
      (∀ k < 3, meanVel (wall c d .moving q q) q k = if k = 0 then 1 else 0) := by
  have hds' : ∀ q : Cell K, c.ds q = q := fun q => by unfold Cfg.ds; rw [hds]
  have hnk : ∀ (q : Cell K) (j k : Nat), negAt q j k = if k = j then -q k else q k := by
    intro q j k
    unfold negAt
    by_cases h : k = j
    · subst h; simp
    · simp [h]
  refine ⟨?_, ?_, ?_, ?_, ?_⟩
  · interval_cases d <;> simp [meanVel, wall, slip, hds', hnk] <;> left <;> ring
  · interval_cases d <;> simp [meanVel, wall, symmetric, hnk] <;> left <;> ring
  · intro k hk hkd
    interval_cases d <;> interval_cases k <;> simp_all [wall, slip, symmetric]
  · intro k hk
    interval_cases k <;> simp [meanVel, wall, stick, negMom, hds', hnk] <;> left <;> ring
  · intro k hk
    interval_cases k <;> simp [meanVel, wall, moving, negMom, hds', hnk]
    · field_simp; ring
    · left; ring
    · left; ring

/-! ### C12: mask extension -/

/-- Face adjacency of one-dimensional indices. -/
def Near (i j : Nat) : Prop := i = j ∨ i + 1 = j ∨ j + 1 = i

/-- C12, one dimension: interior cells exactly; both ghosts contain what they must. -/
theorem extend_mask_1d (nx : Nat) (hnx : 0 < nx) (mask maskb : Nat → Bool) :
    let r := extendMask1 nx mask maskb
    (∀ i < nx, r (i + 1) = true ↔ ∃ j < nx, Near i j ∧ mask j = true) ∧
      (mask 0 = true → r 0 = true) ∧ (mask (nx - 1) = true → r (nx + 1) = true) ∧
      r 0 = r 1 ∧ r (nx + 1) = r nx := by
  have hloop : ∀ n ≤ nx, ∀ i, ((List.range n).foldl (fun mb i => Function.update mb (i + 1)
      (mask i || (decide (0 < i) && mask (i - 1)) || (decide (i + 1 < nx) && mask (i + 1)))) maskb)
        (i + 1) = if i < n then
      (mask i || (decide (0 < i) && mask (i - 1)) || (decide (i + 1 < nx) && mask (i + 1)))
        else maskb (i + 1) := by
    intro n
    induction n with
    | zero => intro _ i; simp
    | succ n ih =>
      intro hn i
      rw [List.range_succ, List.foldl_append]
      simp only [List.foldl_cons, List.foldl_nil]
      by_cases hin : i = n
      · subst hin; simp
      · rw [Function.update_of_ne (by omega), ih (by omega) i]
        by_cases h : i < n
        · rw [if_pos h, if_pos (by omega)]
        · rw [if_neg h, if_neg (by omega)]
  have hval : ∀ i < nx, extendMask1 nx mask maskb (i + 1) =
      (mask i || (decide (0 < i) && mask (i - 1)) || (decide (i + 1 < nx) && mask (i + 1))) := by
    intro i hi
    unfold extendMask1
    rw [Function.update_of_ne (by omega), Function.update_of_ne (by omega), hloop nx le_rfl i,
      if_pos hi]
  have h0 : extendMask1 nx mask maskb 0 = extendMask1 nx mask maskb 1 := by
    unfold extendMask1
    rw [Function.update_of_ne (by omega), Function.update_self, Function.update_of_ne (by omega),
      Function.update_of_ne (by omega)]
  have hn : extendMask1 nx mask maskb (nx + 1) = extendMask1 nx mask maskb nx := by
    unfold extendMask1
    rw [Function.update_self, Function.update_of_ne (by omega : nx ≠ nx + 1)]
  refine ⟨?_, ?_, ?_, h0, hn⟩
  · intro i hi
    rw [hval i hi]
    simp only [Bool.or_eq_true, Bool.and_eq_true, decide_eq_true_eq]
    constructor
    · rintro ((h | ⟨h1, h2⟩) | ⟨h1, h2⟩)
      · exact ⟨i, hi, .inl rfl, h⟩
      · exact ⟨i - 1, by omega, .inr (.inr (by omega)), h2⟩
      · exact ⟨i + 1, h1, .inr (.inl rfl), h2⟩
    · rintro ⟨j, hj, (rfl | rfl | rfl), h⟩
      · exact .inl (.inl h)
      · exact .inr ⟨hj, h⟩
      · exact .inl (.inr ⟨by omega, by simpa using h⟩)
  · intro h
    rw [h0, hval 0 hnx, h]; rfl
  · intro h
    obtain ⟨n, rfl⟩ : ∃ n, nx = n + 1 := ⟨nx - 1, by omega⟩
    rw [hn, hval n (by omega)]
    rw [Nat.add_sub_cancel] at h
    rw [h]; rfl

/-- Value the ghost layer of the extended mask receives. -/
def ghostVal (nx ny : Nat) (mask : Nat → Bool) (a b : Nat) : Bool :=
  if a = 0 ∨ a = nx + 1 then
    if b = 0 ∨ b = ny + 1 then false
    else if a = 0 then mask (b - 1) else mask ((nx - 1) * ny + (b - 1))
  else if b = 0 then mask ((a - 1) * ny) else mask ((a - 1) * ny + (ny - 1))

/-- The ghost layer of an `nx × ny` grid. -/
def Rim (nx ny a b : Nat) : Prop := a = 0 ∨ a = nx + 1 ∨ b = 0 ∨ b = ny + 1

instance (nx ny a b : Nat) : Decidable (Rim nx ny a b) := by unfold Rim; infer_instance

theorem ghostMask2_spec (nx ny : Nat) (hx : 0 < nx) (hy : 0 < ny) (mask mb : Nat → Bool) (a b : Nat)
    (ha : a < nx + 2) (hb : b < ny + 2) :
    ghostMask2 nx ny mask mb (a * (ny + 2) + b) =
      if Rim nx ny a b then ghostVal nx ny mask a b else mb (a * (ny + 2) + b) := by
  have hf : ∀ a' b', b' < ny + 2 →
      (a * (ny + 2) + b = a' * (ny + 2) + b' ↔ a = a' ∧ b = b') := by
    intro a' b' hb'
    constructor
    · intro h; exact flat_inj h hb hb'
    · rintro ⟨rfl, rfl⟩; rfl
  have hf0 : ∀ a', (a * (ny + 2) + b = a' * (ny + 2) ↔ a = a' ∧ b = 0) := by
    intro a'; have := hf a' 0 (by omega); simpa using this
  have hfb : ∀ b', b' < ny + 2 → (a * (ny + 2) + b = b' ↔ a = 0 ∧ b = b') := by
    intro b' hb'; have := hf 0 b' hb'; simpa using this
  have l1 : ∀ n ≤ nx, ((List.range n).foldl (fun mb i =>
      Function.update (Function.update mb ((i + 1) * (ny + 2)) (mask (i * ny)))
        ((i + 1) * (ny + 2) + (ny + 1)) (mask (i * ny + (ny - 1)))) mb) (a * (ny + 2) + b) =
      if 1 ≤ a ∧ a ≤ n ∧ b = 0 then mask ((a - 1) * ny)
      else if 1 ≤ a ∧ a ≤ n ∧ b = ny + 1 then mask ((a - 1) * ny + (ny - 1))
      else mb (a * (ny + 2) + b) := by
    intro n
    induction n with
    | zero => intro _; rw [if_neg (by omega), if_neg (by omega)]; rfl
    | succ n ih =>
      intro hn
      rw [List.range_succ, List.foldl_append]
      simp only [List.foldl_cons, List.foldl_nil, Function.update_apply]
      rw [ih (by omega), if_congr (hf (n + 1) (ny + 1) (by omega)) rfl rfl,
        if_congr (hf0 (n + 1)) rfl rfl]
      by_cases h1 : a = n + 1
      · subst h1
        by_cases h2 : b = 0
        · subst h2; simp
        · by_cases h3 : b = ny + 1
          · subst h3; simp
          · simp [h2, h3]
      · by_cases h2 : b = 0
        · by_cases h3 : 1 ≤ a ∧ a ≤ n
          · rw [if_neg (by omega), if_neg (by omega), if_pos (by omega), if_pos (by omega)]
          · rw [if_neg (by omega), if_neg (by omega), if_neg (by omega), if_neg (by omega),
              if_neg (by omega), if_neg (by omega)]
        · by_cases h3 : 1 ≤ a ∧ a ≤ n ∧ b = ny + 1
          · rw [if_neg (by omega), if_neg (by omega), if_neg (by omega), if_pos (by omega),
              if_neg (by omega), if_pos (by omega)]
          · rw [if_neg (by omega), if_neg (by omega), if_neg (by omega), if_neg (by omega),
              if_neg (by omega), if_neg (by omega)]
  have l2 : ∀ (mc : Nat → Bool), ∀ n ≤ ny, ((List.range n).foldl (fun mb j =>
      Function.update (Function.update mb (j + 1) (mask j))
        ((nx + 1) * (ny + 2) + (j + 1)) (mask ((nx - 1) * ny + j))) mc) (a * (ny + 2) + b) =
      if a = 0 ∧ 1 ≤ b ∧ b ≤ n then mask (b - 1)
      else if a = nx + 1 ∧ 1 ≤ b ∧ b ≤ n then mask ((nx - 1) * ny + (b - 1))
      else mc (a * (ny + 2) + b) := by
    intro mc n
    induction n with
    | zero => intro _; rw [if_neg (by omega), if_neg (by omega)]; rfl
    | succ n ih =>
      intro hn
      rw [List.range_succ, List.foldl_append]
      simp only [List.foldl_cons, List.foldl_nil, Function.update_apply]
      rw [ih (by omega), if_congr (hf (nx + 1) (n + 1) (by omega)) rfl rfl,
        if_congr (hfb (n + 1) (by omega)) rfl rfl]
      by_cases h1 : b = n + 1
      · subst h1
        by_cases h2 : a = 0
        · subst h2; simp
        · by_cases h3 : a = nx + 1
          · subst h3; simp
          · simp [h2, h3]
      · by_cases h2 : a = 0 ∧ 1 ≤ b ∧ b ≤ n
        · rw [if_neg (by omega), if_neg (by omega), if_pos h2, if_pos (by omega)]
        · rw [if_neg (by omega), if_neg (by omega), if_neg h2]
          by_cases h3 : a = nx + 1 ∧ 1 ≤ b ∧ b ≤ n
          · rw [if_pos h3, if_neg (by omega), if_pos (by omega)]
          · rw [if_neg h3, if_neg (by omega), if_neg (by omega)]
  unfold ghostMask2
  simp only [Function.update_apply]
  rw [l2 _ ny le_rfl, l1 nx le_rfl, if_congr (hf (nx + 1) (ny + 1) (by omega)) rfl rfl,
    if_congr (hf0 (nx + 1)) rfl rfl, if_congr (hfb (ny + 1) (by omega)) rfl rfl,
    if_congr (hfb 0 (by omega)) rfl rfl]
  unfold ghostVal Rim
  by_cases a0 : a = 0
  · subst a0
    by_cases b0 : b = 0
    · simp [b0]
    · by_cases b1 : b = ny + 1
      · simp [b1]
      · have : 1 ≤ b ∧ b ≤ ny := by omega
        simp [b0, b1, this]
  · by_cases a1 : a = nx + 1
    · subst a1
      by_cases b0 : b = 0
      · simp [b0]
      · by_cases b1 : b = ny + 1
        · simp [b1]
        · have : 1 ≤ b ∧ b ≤ ny := by omega
          simp [b0, b1, this]
    · have : 1 ≤ a ∧ a ≤ nx := by omega
      by_cases b0 : b = 0
      · simp [a0, a1, b0, this]
      · by_cases b1 : b = ny + 1
        · simp [a0, a1, b1, this]
        · simp [a0, a1, b0, b1]

/-- Face adjacency (or equality) in two dimensions. -/
def Near2 (i j i' j' : Nat) : Prop := (i = i' ∧ Near j j') ∨ (Near i i' ∧ j = j')

/-- C12, two dimensions: interior cells exactly; a ghost is marked iff the interior cell it touches
is; the four corners are not. -/
theorem extend_mask_2d (nx ny : Nat) (hx : 0 < nx) (hy : 0 < ny) (mask maskb : Nat → Bool) :
    let r := fun a b => extendMask2 nx ny mask maskb (a * (ny + 2) + b)
    (∀ i < nx, ∀ j < ny, r (i + 1) (j + 1) = true ↔
      ∃ i' < nx, ∃ j' < ny, Near2 i j i' j' ∧ mask (i' * ny + j') = true) ∧
    (∀ i < nx, r (i + 1) 0 = mask (i * ny) ∧ r (i + 1) (ny + 1) = mask (i * ny + (ny - 1))) ∧
    (∀ j < ny, r 0 (j + 1) = mask j ∧ r (nx + 1) (j + 1) = mask ((nx - 1) * ny + j)) ∧
    r 0 0 = false ∧ r 0 (ny + 1) = false ∧ r (nx + 1) 0 = false ∧ r (nx + 1) (ny + 1) = false := by
  intro r
  -- interior value of task `(i,j)`
  let val : Nat → Nat → Bool := fun i j =>
    (mask (i * ny + j) || (decide (0 < i) && mask ((i - 1) * ny + j)) ||
      (decide (i + 1 < nx) && mask ((i + 1) * ny + j)) ||
      (decide (0 < j) && mask (i * ny + (j - 1))) ||
      (decide (j + 1 < ny) && mask (i * ny + (j + 1))))
  have hstep : ∀ mb i j a b, i < nx → j < ny → a < nx + 2 → b < ny + 2 →
      maskCell2 nx ny mask mb (i, j) (a * (ny + 2) + b) =
        if Rim nx ny a b then ghostVal nx ny mask a b
        else if a = i + 1 ∧ b = j + 1 then val i j else mb (a * (ny + 2) + b) := by
    intro mb i j a b hi hj ha hb
    unfold maskCell2
    simp only
    rw [ghostMask2_spec nx ny hx hy mask _ a b ha hb]
    split
    · rfl
    · rw [Function.update_apply]
      have : (a * (ny + 2) + b = (i + 1) * (ny + 2) + (j + 1)) ↔ a = i + 1 ∧ b = j + 1 := by
        constructor
        · intro h; exact flat_inj h hb (by omega)
        · rintro ⟨rfl, rfl⟩; rfl
      rw [if_congr this rfl rfl]
  have hfold : ∀ (ts : List (Nat × Nat)), (∀ t ∈ ts, t.1 < nx ∧ t.2 < ny) → ∀ mb a b,
      a < nx + 2 → b < ny + 2 →
      (Rim nx ny a b → ts ≠ [] →
        ts.foldl (maskCell2 nx ny mask) mb (a * (ny + 2) + b) = ghostVal nx ny mask a b) ∧
      (¬ Rim nx ny a b → ((a - 1, b - 1) ∈ ts ∨ mb (a * (ny + 2) + b) = val (a - 1) (b - 1)) →
        ts.foldl (maskCell2 nx ny mask) mb (a * (ny + 2) + b) = val (a - 1) (b - 1)) := by
    intro ts
    induction ts with
    | nil =>
      intro _ mb a b _ _
      exact ⟨fun _ h => absurd rfl h, fun _ h => by simpa using h⟩
    | cons t ts ih =>
      intro ht mb a b ha hb
      obtain ⟨t1, t2⟩ := t
      have h1 := ht (t1, t2) (by simp)
      obtain ⟨i1, i2⟩ := ih (fun t h => ht t (by simp [h])) (maskCell2 nx ny mask mb (t1, t2)) a b
        ha hb
      have hs := hstep mb t1 t2 a b h1.1 h1.2 ha hb
      constructor
      · intro hr _
        rw [List.foldl_cons]
        by_cases he : ts = []
        · subst he; rw [List.foldl_nil, hs, if_pos hr]
        · exact i1 hr he
      · intro hr hm
        rw [List.foldl_cons]
        apply i2 hr
        rw [hs, if_neg hr]
        rcases hm with hm | hm
        · rcases List.mem_cons.1 hm with hm | hm
          · right
            have e1 : a - 1 = t1 := (Prod.mk.inj hm).1
            have e2 : b - 1 = t2 := (Prod.mk.inj hm).2
            have : 1 ≤ a ∧ 1 ≤ b := by unfold Rim at hr; omega
            rw [if_pos (by omega), e1, e2]
          · exact .inl hm
        · right
          split
          · rename_i h; obtain ⟨rfl, rfl⟩ := h; rfl
          · exact hm
  have hts : ∀ t ∈ ((List.range nx).flatMap fun i => (List.range ny).map fun j => (i, j)),
      t.1 < nx ∧ t.2 < ny := by
    intro t ht
    simp only [List.mem_flatMap, List.mem_range, List.mem_map] at ht
    obtain ⟨i, hi, j, hj, rfl⟩ := ht
    exact ⟨hi, hj⟩
  have hmem : ∀ i < nx, ∀ j < ny,
      (i, j) ∈ ((List.range nx).flatMap fun i => (List.range ny).map fun j => (i, j)) := by
    intro i hi j hj
    simp only [List.mem_flatMap, List.mem_range, List.mem_map]
    exact ⟨i, hi, j, hj, rfl⟩
  have hne : ((List.range nx).flatMap fun i => (List.range ny).map fun j => (i, j)) ≠ [] :=
    List.ne_nil_of_mem (hmem 0 hx 0 hy)
  have hR : ∀ a b, a < nx + 2 → b < ny + 2 → Rim nx ny a b → r a b = ghostVal nx ny mask a b :=
    fun a b ha hb hr => (hfold _ hts maskb a b ha hb).1 hr hne
  have hI : ∀ i < nx, ∀ j < ny, r (i + 1) (j + 1) = val i j := by
    intro i hi j hj
    exact (hfold _ hts maskb (i + 1) (j + 1) (by omega) (by omega)).2
      (by unfold Rim; omega) (.inl (hmem i hi j hj))
  refine ⟨?_, ?_, ?_, ?_⟩
  · intro i hi j hj
    rw [hI i hi j hj]
    simp only [val, Bool.or_eq_true, Bool.and_eq_true, decide_eq_true_eq]
    constructor
    · rintro ((((h | ⟨h1, h2⟩) | ⟨h1, h2⟩) | ⟨h1, h2⟩) | ⟨h1, h2⟩)
      · exact ⟨i, hi, j, hj, .inl ⟨rfl, .inl rfl⟩, h⟩
      · exact ⟨i - 1, by omega, j, hj, .inr ⟨.inr (.inr (by omega)), rfl⟩, h2⟩
      · exact ⟨i + 1, h1, j, hj, .inr ⟨.inr (.inl rfl), rfl⟩, h2⟩
      · exact ⟨i, hi, j - 1, by omega, .inl ⟨rfl, .inr (.inr (by omega))⟩, h2⟩
      · exact ⟨i, hi, j + 1, h1, .inl ⟨rfl, .inr (.inl rfl)⟩, h2⟩
    · rintro ⟨i', hi', j', hj', (⟨rfl, (rfl | rfl | rfl)⟩ | ⟨(rfl | rfl | rfl), rfl⟩), h⟩
      · exact .inl (.inl (.inl (.inl h)))
      · exact .inr ⟨hj', h⟩
      · exact .inl (.inr ⟨by omega, by simpa using h⟩)
      · exact .inl (.inl (.inl (.inl h)))
      · exact .inl (.inl (.inr ⟨hi', h⟩))
      · exact .inl (.inl (.inl (.inr ⟨by omega, by simpa using h⟩)))
  · intro i hi
    rw [hR _ _ (by omega) (by omega) (by unfold Rim; omega),
      hR _ _ (by omega) (by omega) (by unfold Rim; omega)]
    unfold ghostVal
    have : ¬ i = nx := by omega
    simp [this]
  · intro j hj
    rw [hR _ _ (by omega) (by omega) (by unfold Rim; omega),
      hR _ _ (by omega) (by omega) (by unfold Rim; omega)]
    unfold ghostVal
    have : ¬ j = ny := by omega
    simp [this]
  · refine ⟨?_, ?_, ?_, ?_⟩ <;>
    rw [hR _ _ (by omega) (by omega) (by unfold Rim; omega)] <;> unfold ghostVal <;> simp

/-! ### The hypotheses are met -/

/-- Two ghost rows, three interior rows, slip and moving walls, state of density 2. -/
example : ∃ m', boundaries1D (K := ℚ) ⟨2, none⟩ 3 .slip .moving (fun _ _ => 2) = some m' ∧
    m' (true, 0) 2 = -2 := by
  obtain ⟨m', e, a, _⟩ := boundaries_1d (K := ℚ) ⟨2, none⟩ 3 .slip .moving (fun _ _ => 2)
    (by decide) (by decide) (by decide)
  refine ⟨m', e, ?_⟩
  rw [a 0 (by decide)]
  simp [ghostOf, wall, slip, Cfg.ds, negAt]

example : (distortion (wall (K := ℚ) ⟨2, none⟩ 1 .symmetric (fun k => k + 1) (fun k => k + 1))).det =
    (distortion (fun k => (k : ℚ) + 1)).det :=
  (wall_preserves ⟨2, none⟩ rfl 1 (by decide) .symmetric (fun k => (k : ℚ) + 1) (by norm_num)
    (by norm_num)).2.2.1

/-- A corner cell marked in a 2 × 3 grid marks its neighbour across. -/
example : extendMask2 2 3 (fun k => k == 0) (fun _ => true) (1 * 5 + 2) = true :=
  ((extend_mask_2d 2 3 (by decide) (by decide) (fun k => k == 0) (fun _ => true)).1 0 (by decide) 1
    (by decide)).2 ⟨0, by decide, 0, by decide, .inl ⟨rfl, .inr (.inr rfl)⟩, rfl⟩

end Verif.Grid
