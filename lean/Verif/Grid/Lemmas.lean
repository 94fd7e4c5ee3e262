import Verif.Grid.Spec
import Mathlib.Tactic.Ring
import Mathlib.Tactic.Linarith
import Mathlib.Tactic.SplitIfs

namespace Verif.Grid

variable {K : Type} [Field K]

/-- One `for` loop: distinct targets, targets disjoint from sources. -/
theorem loop_spec (c : Cfg K) (d : Nat) (bt : BT) (vu vb : Nat → Loc) (nx n : Nat)
    (dst : Nat → Nat) (src : Nat → Int) (m : Mem K)
    (hsrc : ∀ i < n, 0 ≤ src i ∧ src i < nx)
    (hinj : ∀ i < n, ∀ j < n, vb (dst i) = vb (dst j) → i = j)
    (hdis : ∀ i < n, ∀ j < nx, vb (dst i) ≠ vu j) :
    ∃ m', (List.range n).foldlM (fun m i => fillRow c d bt vu vb nx (dst i) (src i) m) m = some m' ∧
      (∀ i < n, m' (vb (dst i)) = wall c d bt (m (vu (src i).toNat)) (m (vu (src i).toNat))) ∧
      ∀ l, (∀ i < n, vb (dst i) ≠ l) → m' l = m l := by
  induction n with
  | zero => exact ⟨m, rfl, by simp, by simp⟩
  | succ n ih =>
    obtain ⟨m1, e, h1, h2⟩ := ih (fun i hi => hsrc i (by omega))
      (fun i hi j hj => hinj i (by omega) j (by omega)) (fun i hi => hdis i (by omega))
    have hs := hsrc n (by omega)
    rw [List.range_succ, List.foldlM_append, e]
    simp only [Option.bind_eq_bind, Option.bind_some, List.foldlM_cons, List.foldlM_nil, fillRow]
    rw [if_pos hs]
    have hk : (src n).toNat < nx := by omega
    refine ⟨_, rfl, ?_, ?_⟩
    · intro i hi
      by_cases hin : i = n
      · subst hin
        have hne : vu (src i).toNat ≠ vb (dst i) := fun h => hdis i (by omega) _ hk h.symm
        have hold : m1 (vu (src i).toNat) = m (vu (src i).toNat) :=
          h2 _ (fun j hj => hdis j (by omega) _ hk)
        rw [Function.update_self, Function.update_self, Function.update_of_ne hne, hold]
      · have hne : vb (dst i) ≠ vb (dst n) := fun h => hin (hinj i hi n (by omega) h)
        rw [Function.update_of_ne hne, Function.update_of_ne hne]
        exact h1 i (by omega)
    · intro l hl
      have hne : l ≠ vb (dst n) := fun h => hl n (by omega) h.symm
      rw [Function.update_of_ne hne, Function.update_of_ne hne]
      exact h2 l (fun i hi => hl i (by omega))

theorem leftSrc_range {N nx i : Nat} {bt : BT} (hN : N ≤ nx) (hi : i < N) :
    0 ≤ leftSrc N bt nx i ∧ leftSrc N bt nx i < nx := by
  cases bt <;> simp only [leftSrc] <;> omega

theorem rightSrc_range {N nx i : Nat} {bt : BT} (hN : N ≤ nx) (hi : i < N) :
    0 ≤ rightSrc bt nx i ∧ rightSrc bt nx i < nx := by
  cases bt <;> simp only [rightSrc] <;> omega

theorem leftLoop_eq {c : Cfg K} {d : Nat} {bt : BT} (h : bt ≠ .other) (vu vb : Nat → Loc) (nx : Nat)
    (m : Mem K) : leftLoop c d bt vu vb nx m = (List.range c.N).foldlM
      (fun m i => fillRow c d bt vu vb nx i (leftSrc c.N bt nx i) m) m := by
  cases bt <;> first | rfl | exact absurd rfl h

theorem rightLoop_eq {c : Cfg K} {d : Nat} {bt : BT} (h : bt ≠ .other) (vu vb : Nat → Loc) (nx : Nat)
    (m : Mem K) : rightLoop c d bt vu vb nx m = (List.range c.N).foldlM
      (fun m i => fillRow c d bt vu vb nx (i + nx + c.N) (rightSrc bt nx i) m) m := by
  cases bt <;> first | rfl | exact absurd rfl h

theorem left_src {N nx k : Nat} {b0 b1 : BT} (hN : N ≤ nx) (hk : k < N) :
    (leftSrc N b0 nx k).toNat = srcOf N b0 b1 nx k := by
  unfold srcOf; rw [if_pos hk]
  cases b0 <;> simp only [leftSrc] <;> omega

theorem right_src {N nx i : Nat} {b0 b1 : BT} (hN : N ≤ nx) (hi : i < N) :
    (rightSrc b1 nx i).toNat = srcOf N b0 b1 nx (i + nx + N) := by
  unfold srcOf; rw [if_neg (by omega), if_neg (by omega)]
  cases b1 <;> simp only [rightSrc] <;> omega

/-- `boundaries1` on arbitrary non-clashing views. -/
theorem boundaries1_spec (c : Cfg K) (vu vb : Nat → Loc) (nx : Nat) (b0 b1 : BT) (d : Nat)
    (m : Mem K) (hN : c.N ≤ nx) (h0 : b0 ≠ .other) (h1 : b1 ≠ .other)
    (hinj : ∀ i j, Ghost c.N nx i → Ghost c.N nx j → vb i = vb j → i = j)
    (hdis : ∀ i, Ghost c.N nx i → ∀ j < nx, vb i ≠ vu j) :
    ∃ m', boundaries1 c vu vb nx b0 b1 d m = some m' ∧
      (∀ k, Ghost c.N nx k →
        m' (vb k) = ghostOf c d b0 b1 nx k (m (vu (srcOf c.N b0 b1 nx k)))) ∧
      ∀ l, (∀ k, Ghost c.N nx k → vb k ≠ l) → m' l = m l := by
  obtain ⟨m1, e1, a1, f1⟩ := loop_spec c d b0 vu vb nx c.N (fun i => i)
    (fun i => leftSrc c.N b0 nx i) m (fun i hi => leftSrc_range hN hi)
    (fun i hi j hj => hinj i j (.inl hi) (.inl hj)) (fun i hi => hdis i (.inl hi))
  obtain ⟨m2, e2, a2, f2⟩ := loop_spec c d b1 vu vb nx c.N (fun i => i + nx + c.N)
    (fun i => rightSrc b1 nx i) m1 (fun i hi => rightSrc_range hN hi)
    (fun i hi j hj h => by
      have := hinj (i + nx + c.N) (j + nx + c.N) (.inr (by omega)) (.inr (by omega)) h; omega)
    (fun i hi => hdis (i + nx + c.N) (.inr (by omega)))
  refine ⟨m2, ?_, ?_, ?_⟩
  · unfold boundaries1
    rw [leftLoop_eq h0, e1]
    simp only [Option.bind_eq_bind, Option.bind_some]
    rw [rightLoop_eq h1, e2]
  · rintro k (hk | ⟨hk1, hk2⟩)
    · rw [f2 _ (fun i hi h => by
        have := hinj (i + nx + c.N) k (.inr (by omega)) (.inl hk) h; omega)]
      have := a1 k hk
      rw [this, left_src (b1 := b1) hN hk]
      unfold ghostOf; rw [if_pos hk]
    · obtain ⟨i, rfl⟩ : ∃ i, k = i + nx + c.N := ⟨k - nx - c.N, by omega⟩
      have hi : i < c.N := by omega
      have := a2 i hi
      have hr := rightSrc_range (N := c.N) (bt := b1) hN hi
      rw [this, right_src (b0 := b0) hN hi, f1]
      · unfold ghostOf; rw [if_neg (by omega), if_neg (by omega)]
      · intro j hj
        rw [← right_src (b0 := b0) hN hi]
        exact hdis j (.inl hj) _ (by omega)
  · intro l hl
    rw [f2 l (fun i hi => hl _ (.inr (by omega))), f1 l (fun i hi => hl _ (.inl hi))]

theorem srcOf_lt {N nx k : Nat} {b0 b1 : BT} (hN : N ≤ nx) (hx : 0 < nx) (hk : k < nx + 2 * N) :
    srcOf N b0 b1 nx k < nx := by
  unfold srcOf
  split
  · cases b0 <;> simp only <;> omega
  · split
    · omega
    · cases b1 <;> simp only <;> omega

theorem interior_eq {c : Cfg K} {d : Nat} {b0 b1 : BT} {nx k : Nat} (h : ¬ Ghost c.N nx k)
    (hk : k < nx + 2 * c.N) (q : Cell K) :
    ghostOf c d b0 b1 nx k q = q ∧ srcOf c.N b0 b1 nx k = k - c.N ∧ c.N ≤ k ∧ k < c.N + nx := by
  unfold Ghost at h
  have h1 : ¬ k < c.N := fun h' => h (.inl h')
  have h2 : k < c.N + nx := by by_contra h'; exact h (.inr ⟨by omega, hk⟩)
  unfold ghostOf srcOf
  rw [if_neg h1, if_pos h2, if_neg h1, if_pos h2]
  exact ⟨rfl, rfl, by omega, h2⟩

/-- A fold whose steps act on disjoint sets of locations. -/
theorem fold_frame {σ : Type} (f : σ → Nat → Option σ) (n : Nat) (P : Nat → σ → Prop)
    (Q : σ → σ → Prop) (s : σ) (hQ : Q s s)
    (step : ∀ i < n, ∀ s', Q s s' → (∀ j < i, P j s') → ∃ s'', f s' i = some s'' ∧ Q s s'' ∧
      ∀ j ≤ i, P j s'') :
    ∃ s', (List.range n).foldlM f s = some s' ∧ Q s s' ∧ ∀ j < n, P j s' := by
  induction n with
  | zero => exact ⟨s, rfl, hQ, by simp⟩
  | succ n ih =>
    obtain ⟨s1, e1, q1, p1⟩ := ih (fun i hi => step i (by omega))
    obtain ⟨s2, e2, q2, p2⟩ := step n (by omega) s1 q1 p1
    refine ⟨s2, ?_, q2, fun j hj => p2 j (by omega)⟩
    rw [List.range_succ, List.foldlM_append, e1]
    simp [e2]

end Verif.Grid
