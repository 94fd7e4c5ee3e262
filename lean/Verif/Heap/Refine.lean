import Verif.Heap.Lemmas
import Verif.Heap.Spec
import Mathlib.Data.Finset.Image

/-! Representation invariant of the heap and the simulation of the abstract queue. -/

namespace Verif.Heap

variable {α : Type} [LinearOrder α]

/-- Concrete state `s` represents the abstract queue `q`. -/
structure Rep (s : State α) (q : Queue α) : Prop where
  hcap : s.maxLength = q.cap
  hnext : s.listLength = q.next
  hlen : s.heapLength ≤ s.listLength
  hlist : s.listLength ≤ s.maxLength
  ent : ∀ i < s.heapLength, s.heap i < s.listLength
  bij : Bij s.heapLength s.heap s.back
  ord : ∀ i, 0 < i → i < s.heapLength → s.distance (s.heap (par i)) ≤ s.distance (s.heap i)
  live_some : ∀ i < s.heapLength,
    q.live (s.heap i) = some (s.address (s.heap i), s.distance (s.heap i))
  live_none : ∀ h, (¬ ∃ i < s.heapLength, s.heap i = h) → q.live h = none

theorem Rep.init (cap : Nat) (d : Nat → α) (h : Nat → Nat) (a : Nat → Int) (b : Nat → Nat) :
    Rep (Heap.init cap d h a b) (Queue.empty cap) where
  hcap := rfl
  hnext := rfl
  hlen := Nat.le_refl _
  hlist := Nat.zero_le _
  ent := fun i hi => absurd hi (Nat.not_lt_zero i)
  bij := fun i hi => absurd hi (Nat.not_lt_zero i)
  ord := fun i _ hi => absurd hi (Nat.not_lt_zero i)
  live_some := fun i hi => absurd hi (Nat.not_lt_zero i)
  live_none := fun _ _ => rfl

theorem Rep.live_iff {s : State α} {q : Queue α} (r : Rep s q) (h : Nat) :
    (∃ i < s.heapLength, s.heap i = h) ↔ q.live h ≠ none := by
  constructor
  · rintro ⟨i, hi, rfl⟩
    rw [r.live_some i hi]; simp
  · intro hne
    by_contra hc
    exact hne (r.live_none h hc)

theorem Rep.live_eq {s : State α} {q : Queue α} (r : Rep s q) {h : Nat} {p : Int × α}
    (e : q.live h = some p) : (∃ i < s.heapLength, s.heap i = h) ∧
      p = (s.address h, s.distance h) := by
  have : ∃ i < s.heapLength, s.heap i = h := (r.live_iff h).2 (by rw [e]; simp)
  obtain ⟨i, hi, rfl⟩ := this
  refine ⟨⟨i, hi, rfl⟩, ?_⟩
  rw [r.live_some i hi] at e
  exact (Option.some.inj e).symm

theorem Rep.card_eq {s : State α} {q : Queue α} (r : Rep s q) : q.card = s.heapLength := by
  have : (Finset.range q.next).filter (fun h => (q.live h).isSome) =
      (Finset.range s.heapLength).image s.heap := by
    ext h
    simp only [Finset.mem_filter, Finset.mem_range, Finset.mem_image]
    rw [Option.isSome_iff_ne_none, ← r.live_iff h]
    constructor
    · rintro ⟨_, h2⟩; exact h2
    · rintro ⟨i, hi, rfl⟩
      exact ⟨by have := r.ent i hi; rw [r.hnext] at this; exact this, i, hi, rfl⟩
  unfold Queue.card
  rw [this, Finset.card_image_of_injOn, Finset.card_range]
  intro i hi j hj e
  exact r.bij.inj (by simpa using hi) (by simpa using hj) e

theorem Rep.min {s : State α} {q : Queue α} (r : Rep s q) :
    ∀ i < s.heapLength, s.distance (s.heap 0) ≤ s.distance (s.heap i) := by
  intro i
  induction i using Nat.strongRecOn with
  | ind i ih =>
    intro hi
    rcases Nat.eq_zero_or_pos i with rfl | h0
    · exact le_rfl
    · have : par i < i := by simp only [par]; omega
      exact (ih _ this (by omega)).trans (r.ord i h0 hi)

theorem bij_update_self {hl : Nat} {H B : Nat → Nat} {p : Nat} (hp : p < hl) (h : Bij hl H B) :
    Bij hl H (Function.update B (H p) p) := by
  intro i hi
  by_cases e : H i = H p
  · rw [e, Function.update_self]; exact (h.inj hi hp e).symm
  · rw [Function.update_of_ne e]; exact h i hi

/-- `push` succeeds while the number of pushes is below the capacity. -/
theorem push_rep {s : State α} {q : Queue α} (r : Rep s q) (hroom : q.next < q.cap) (a : Int)
    (v : α) : ∃ s', push s a v = .ok (s', q.next) ∧
      Rep s' { q with next := q.next + 1, live := Function.update q.live q.next (some (a, v)) } := by
  have h1 := r.hlen
  have h2 := r.hnext
  have h3 := r.hcap
  have hll : s.listLength < s.maxLength := by omega
  have hne : ∀ i < s.heapLength, s.heap i ≠ s.listLength := fun i hi e => by
    have := r.ent i hi; omega
  have hH : ∀ i < s.heapLength, Function.update s.heap s.heapLength s.listLength i = s.heap i :=
    fun i hi => Function.update_of_ne (by omega) _ _
  have hD : ∀ i < s.heapLength,
      Function.update s.distance s.listLength v (s.heap i) = s.distance (s.heap i) :=
    fun i hi => Function.update_of_ne (hne i hi) _ _
  obtain ⟨h', b', e, g1, g2, g3, g4⟩ := siftDown_spec (n := s.maxLength) (hl := s.heapLength + 1)
    (d := Function.update s.distance s.listLength v) (s := 0) (pos := s.heapLength)
    (heap := Function.update s.heap s.heapLength s.listLength)
    (back := Function.update s.back s.listLength s.heapLength) (by omega) (by omega)
    (anc_zero _)
    (by
      intro i hi
      by_cases e : i = s.heapLength
      · subst e; simpa using hll
      · rw [hH i (by omega)]; have := r.ent i (by omega); omega)
    (by
      intro i hi
      by_cases e : i = s.heapLength
      · subst e; simp
      · rw [hH i (by omega)]
        have h5 := hne i (by omega)
        simp only [Function.update_self]
        rw [Function.update_of_ne h5, Function.update_of_ne h5]
        exact r.bij i (by omega))
    (by
      intro i h0 hi hne'
      have hp : par i < i := by simp only [par]; omega
      rw [hH i (by omega), hH (par i) (by omega), hD i (by omega), hD (par i) (by omega)]
      exact r.ord i h0 (by omega))
    (by
      intro c _ hc hc0 hcp
      simp only [par] at hcp; omega)
    (by intro h; omega)
  refine ⟨⟨s.maxLength, s.heapLength + 1, s.listLength + 1, Function.update s.distance s.listLength v, h',
    Function.update s.address s.listLength a, b'⟩, ?_, ?_⟩
  · unfold push
    rw [if_neg (by omega)]
    simp only [bind, Except.bind, wr_ok (show s.heapLength < s.maxLength by omega), wr_ok hll, e, ← h2]
  · have hmem : ∀ k, (∃ i < s.heapLength + 1, h' i = k) ↔
        (k = s.listLength ∨ ∃ i < s.heapLength, s.heap i = k) := by
      intro k
      rw [g2 k]
      constructor
      · rintro ⟨i, hi, e⟩
        by_cases e' : i = s.heapLength
        · subst e'; left; simpa using e.symm
        · right; exact ⟨i, by omega, by rw [← hH i (by omega)]; exact e⟩
      · rintro (rfl | ⟨i, hi, e⟩)
        · exact ⟨s.heapLength, by omega, by simp⟩
        · exact ⟨i, by omega, by rw [hH i hi]; exact e⟩
    refine ⟨h3, by simp [h2], by simp; omega, by simp; omega, ?_, g3, g4, ?_, ?_⟩
    · intro i hi
      simp only
      rcases (hmem (h' i)).1 ⟨i, hi, rfl⟩ with e | ⟨j, hj, e⟩
      · rw [e]; simp
      · rw [← e]; have := r.ent j hj; simp; omega
    · intro i hi
      simp only
      rcases (hmem (h' i)).1 ⟨i, hi, rfl⟩ with e | ⟨j, hj, e⟩
      · rw [e, h2]; simp
      · rw [← e]
        have h5 := hne j hj
        rw [Function.update_of_ne h5, Function.update_of_ne h5, Function.update_of_ne (h2 ▸ h5)]
        exact r.live_some j hj
    · intro h hn
      simp only at hn ⊢
      rw [hmem h] at hn
      push Not at hn
      rw [Function.update_of_ne (h2 ▸ hn.1)]
      exact r.live_none h (by push Not; exact hn.2)

theorem push_full {s : State α} (a : Int) (v : α) (h : s.heapLength = s.maxLength) :
    push s a v = .error .thrown := by
  simp [push, h]

/-- `peek` reports the minimum. -/
theorem peek_rep {s : State α} {q : Queue α} (r : Rep s q) (h : 0 < s.heapLength) :
    peek s = .ok (s.distance (s.heap 0)) := by
  have h1 := r.hlen
  have h2 := r.hlist
  have h3 := r.ent 0 h
  unfold peek
  rw [if_neg (by omega)]
  simp only [bind, Except.bind, rd_ok (show 0 < s.maxLength by omega),
    rd_ok (show s.heap 0 < s.maxLength by omega)]

/-- `_siftUp` on a heap that has just become empty only rewrites slot 0. -/
theorem siftUp_zero {n : Nat} {d : Nat → α} {heap back : Nat → Nat} (hn : 0 < n)
    (h0 : heap 0 < n) : ∃ h' b', siftUp n d 0 heap back 0 = .ok (h', b') := by
  unfold siftUp
  simp only [bind, Except.bind, rd_ok hn]
  rw [siftUpLoop]
  simp only [Nat.not_lt_zero, dite_false]
  rw [wr_ok hn]
  unfold siftDown
  simp only [bind, Except.bind, rd_ok hn]
  rw [siftDownLoop]
  simp only [Nat.not_lt_zero, dite_false, Function.update_self]
  rw [wr_ok hn]
  simp only
  rw [wr_ok h0]
  exact ⟨_, _, rfl⟩

/-- `pop` removes the root entry. -/
theorem pop_rep {s : State α} {q : Queue α} (r : Rep s q) (h : 0 < s.heapLength) :
    ∃ s', pop s = .ok (s', (s.address (s.heap 0), s.distance (s.heap 0))) ∧
      Rep s' { q with live := Function.update q.live (s.heap 0) none } := by
  have h1 := r.hlen
  have h2 := r.hlist
  have h3 := r.ent 0 h
  have hl1 := r.ent (s.heapLength - 1) (by omega)
  have main : ∃ h' b', siftUp s.maxLength s.distance (s.heapLength - 1)
      (Function.update s.heap 0 (s.heap (s.heapLength - 1)))
      (Function.update s.back (s.heap (s.heapLength - 1)) 0) 0 = .ok (h', b') ∧
      (∀ i < s.heapLength - 1, h' i < s.maxLength) ∧
      SameItems (s.heapLength - 1) (Function.update s.heap 0 (s.heap (s.heapLength - 1))) h' ∧
      Bij (s.heapLength - 1) h' b' ∧
      (∀ i, 0 < i → i < s.heapLength - 1 → s.distance (h' (par i)) ≤ s.distance (h' i)) := by
    by_cases hz : s.heapLength - 1 = 0
    · rw [hz]
      obtain ⟨h', b', e⟩ := siftUp_zero (n := s.maxLength) (d := s.distance)
        (heap := Function.update s.heap 0 (s.heap 0))
        (back := Function.update s.back (s.heap 0) 0) (by omega) (by simp; omega)
      exact ⟨h', b', e, fun i hi => absurd hi (Nat.not_lt_zero i), fun k => by simp,
        fun i hi => absurd hi (Nat.not_lt_zero i), fun i _ hi => absurd hi (Nat.not_lt_zero i)⟩
    · apply siftUp_spec (by omega) (by omega)
      · intro i hi
        by_cases e : i = 0
        · subst e; simp; omega
        · rw [Function.update_of_ne e]; have := r.ent i (by omega); omega
      · intro i hi
        simp only [Function.update_self]
        by_cases e : i = 0
        · subst e; simp
        · rw [Function.update_of_ne e]
          have hne : s.heap i ≠ s.heap (s.heapLength - 1) := by
            intro e'; have := r.bij.inj (by omega) (by omega) e'; omega
          rw [Function.update_of_ne hne, Function.update_of_ne hne]
          exact r.bij i (by omega)
      · intro i h0 hi _ hp
        rw [Function.update_of_ne hp, Function.update_of_ne (by omega)]
        exact r.ord i h0 (by omega)
      · intro c hp; omega
      · intro hp; omega
  obtain ⟨h', b', e, g1, g2, g3, g4⟩ := main
  refine ⟨⟨s.maxLength, s.heapLength - 1, s.listLength, s.distance, h', s.address, b'⟩, ?_, ?_⟩
  · unfold pop
    rw [if_neg (by omega)]
    simp only [bind, Except.bind, rd_ok (show 0 < s.maxLength by omega),
      rd_ok (show s.heap 0 < s.maxLength by omega),
      rd_ok (show s.heapLength - 1 < s.maxLength by omega)]
    rw [wr_ok (show 0 < s.maxLength by omega)]
    simp only []
    rw [wr_ok (show s.heap (s.heapLength - 1) < s.maxLength by omega)]
    simp only [e]
  · have hmem : ∀ k, (∃ i < s.heapLength - 1, h' i = k) ↔
        (k ≠ s.heap 0 ∧ ∃ i < s.heapLength, s.heap i = k) := by
      intro k
      rw [g2 k]
      constructor
      · rintro ⟨i, hi, e⟩
        by_cases e' : i = 0
        · subst e'
          rw [Function.update_self] at e
          refine ⟨?_, s.heapLength - 1, by omega, e⟩
          rintro rfl
          have := r.bij.inj (by omega) (by omega) e; omega
        · rw [Function.update_of_ne e'] at e
          refine ⟨?_, i, by omega, e⟩
          rintro rfl
          have := r.bij.inj (by omega) (by omega) e; omega
      · rintro ⟨hk, i, hi, e⟩
        have hi0 : i ≠ 0 := by rintro rfl; exact hk e.symm
        by_cases e' : i = s.heapLength - 1
        · subst e'; exact ⟨0, by omega, by rw [Function.update_self]; exact e⟩
        · exact ⟨i, by omega, by rw [Function.update_of_ne hi0]; exact e⟩
    refine ⟨r.hcap, r.hnext, by simp; omega, h2, ?_, g3, g4, ?_, ?_⟩
    · intro i hi
      obtain ⟨_, j, hj, e⟩ := (hmem (h' i)).1 ⟨i, hi, rfl⟩
      simp only
      rw [← e]; exact r.ent j hj
    · intro i hi
      obtain ⟨hk, j, hj, e⟩ := (hmem (h' i)).1 ⟨i, hi, rfl⟩
      simp only
      rw [Function.update_of_ne hk, ← e]
      exact r.live_some j hj
    · intro k hn
      simp only at hn ⊢
      rw [hmem k] at hn
      by_cases hk : k = s.heap 0
      · subst hk; simp
      · rw [Function.update_of_ne hk]
        exact r.live_none k (fun hx => hn ⟨hk, hx⟩)

/-- `set` on a live handle changes that entry only. -/
theorem set_rep {s : State α} {q : Queue α} (r : Rep s q) {h : Nat} {a : Int} {w : α} (v : α)
    (hlive : q.live h = some (a, w)) :
    ∃ s', set s h v = .ok s' ∧
      Rep s' { q with live := Function.update q.live h (some (a, v)) } := by
  obtain ⟨⟨p, hp, rfl⟩, hpw⟩ := r.live_eq hlive
  have haw : a = s.address (s.heap p) := (Prod.mk.inj hpw).1
  have hw : w = s.distance (s.heap p) := (Prod.mk.inj hpw).2
  subst haw; subst hw
  have h1 := r.hlen
  have h2 := r.hlist
  have h3 := r.ent p hp
  have hbp := r.bij p hp
  set d' := Function.update s.distance (s.heap p) v with hd'
  have hdp : d' (s.heap p) = v := by simp [hd']
  have hdo : ∀ i < s.heapLength, i ≠ p → d' (s.heap i) = s.distance (s.heap i) := by
    intro i hi hne
    rw [hd', Function.update_of_ne]
    intro e; exact hne (r.bij.inj hi hp e)
  -- state after the optional `_siftUp`
  have mid : ∃ H B, raise s.maxLength d' s.heapLength s.heap s.back p (s.distance (s.heap p)) v = .ok (H, B) ∧
      (∀ i < s.heapLength, H i < s.maxLength) ∧ SameItems s.heapLength s.heap H ∧
      Bij s.heapLength H B ∧
      ((∀ i, 0 < i → i < s.heapLength → d' (H (par i)) ≤ d' (H i)) ∨
        (H = s.heap ∧ v ≤ s.distance (s.heap p))) := by
    unfold raise
    split
    · rename_i hlt
      obtain ⟨H, B, e, g1, g2, g3, g4⟩ := siftUp_spec (n := s.maxLength) (hl := s.heapLength)
        (d := d') (pos := p) (heap := s.heap) (back := s.back) (by omega) hp
        (fun i hi => by have := r.ent i hi; omega) (bij_update_self hp r.bij)
        (by
          intro i h0 hi hip hpp
          have : par i < i := by simp only [par]; omega
          rw [hdo i hi hip, hdo (par i) (by omega) hpp]
          exact r.ord i h0 hi)
        (by
          intro c hp0 hc hc0 hcp
          have h5 : par p < p := by simp only [par]; omega
          have h6 : c ≠ p := by simp only [par] at hcp; omega
          rw [hdo (par p) (by omega) (by omega), hdo c hc h6]
          have h7 := r.ord c hc0 hc
          rw [hcp] at h7
          exact (r.ord p hp0 hp).trans h7)
        (by
          intro hp0
          have h5 : par p < p := by simp only [par]; omega
          rw [hdo (par p) (by omega) (by omega), hdp]
          exact (r.ord p hp0 hp).trans hlt.le)
      exact ⟨H, B, e, g1, g2, g3, .inl g4⟩
    · rename_i hnlt
      exact ⟨s.heap, s.back, rfl, fun i hi => by have := r.ent i hi; omega, .rfl, r.bij,
        .inr ⟨rfl, not_lt.mp hnlt⟩⟩
  obtain ⟨H, B, e, g1, g2, g3, g4⟩ := mid
  -- any final arrangement with these properties represents the updated queue
  have fin : ∀ H' B', SameItems s.heapLength s.heap H' → Bij s.heapLength H' B' →
      (∀ i, 0 < i → i < s.heapLength → d' (H' (par i)) ≤ d' (H' i)) →
      Rep { s with distance := d', heap := H', back := B' }
        { q with live := Function.update q.live (s.heap p) (some (s.address (s.heap p), v)) } := by
    intro H' B' k1 k2 k3
    refine ⟨r.hcap, r.hnext, h1, h2, ?_, k2, k3, ?_, ?_⟩
    · intro i hi
      obtain ⟨j, hj, ej⟩ := (k1 (H' i)).1 ⟨i, hi, rfl⟩
      simp only
      rw [← ej]; exact r.ent j hj
    · intro i hi
      obtain ⟨j, hj, ej⟩ := (k1 (H' i)).1 ⟨i, hi, rfl⟩
      simp only
      rw [← ej]
      by_cases hjp : j = p
      · subst hjp; simp [hd']
      · have hne : s.heap j ≠ s.heap p := fun e => hjp (r.bij.inj hj hp e)
        rw [Function.update_of_ne hne, hd', Function.update_of_ne hne]
        exact r.live_some j hj
    · intro k hn
      simp only at hn ⊢
      rw [k1 k] at hn
      have hk : k ≠ s.heap p := by rintro rfl; exact hn ⟨p, hp, rfl⟩
      rw [Function.update_of_ne hk]
      exact r.live_none k hn
  unfold set
  simp only [bind, Except.bind, rd_ok (show s.heap p < s.maxLength by omega),
    wr_ok (show s.heap p < s.maxLength by omega), ← hd', hbp, e,
    rd_ok (show p < s.maxLength by omega), rd_ok (g1 p hp)]
  split
  · rename_i hne
    refine ⟨_, rfl, fin H B g2 g3 ?_⟩
    rcases g4 with g4 | ⟨rfl, _⟩
    · exact g4
    · exact absurd hdp hne
  · obtain ⟨H', B', e2, k1, k2, k3, k4⟩ := siftDown_spec (n := s.maxLength) (hl := s.heapLength)
      (d := d') (s := 0) (pos := p) (heap := H) (back := B) (by omega) hp (anc_zero _) g1
      (bij_update_self hp g3)
      (by
        intro i h0 hi hip
        rcases g4 with g4 | ⟨rfl, hle⟩
        · exact g4 i h0 hi
        · have hpi : par i < i := by simp only [par]; omega
          rw [hdo i hi hip]
          by_cases hpp : par i = p
          · rw [hpp, hdp]
            have := r.ord i h0 hi
            rw [hpp] at this
            exact hle.trans this
          · rw [hdo (par i) (by omega) hpp]
            exact r.ord i h0 hi)
      (by
        intro c hp0 hc hc0 hcp
        rcases g4 with g4 | ⟨rfl, hle⟩
        · have := g4 c hc0 hc
          rw [hcp] at this
          exact (g4 p hp0 hp).trans this
        · have h5 : par p < p := by simp only [par]; omega
          have h6 : c ≠ p := by simp only [par] at hcp; omega
          rw [hdo (par p) (by omega) (by omega), hdo c hc h6]
          have h7 := r.ord c hc0 hc
          rw [hcp] at h7
          exact (r.ord p hp0 hp).trans h7)
      (by intro h0; omega)
    rw [e2]
    exact ⟨_, rfl, fin H' B' (g2.trans k2) k3 k4⟩

end Verif.Heap
