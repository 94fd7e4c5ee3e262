import Verif.March.Update
import Verif.Heap.Refine

/-! The marcher's state and the heap: narrow cells are exactly the live heap entries. -/

namespace Verif.March

open Verif

variable {P : Prob}

/-- Assumptions on the problem: at most two dimensions, positive spacings, a well-formed grid and a
level set without values in `(0, eps]`. -/
structure OK (P : Prob) : Prop where
  nd : P.G.ndim ≤ 2
  dx : ∀ d, 0 < P.dx d
  wf : P.G.WF
  eps : 0 ≤ P.eps
  phi : ∀ i < P.G.size, P.phi i ≤ 0 ∨ P.eps < P.phi i

/-- Same strict sign. -/
def SignOK (x y : ℝ) : Prop := (0 < x → 0 < y) ∧ (x < 0 → y < 0) ∧ (x = 0 → y = 0)

/-- Cells frozen before marching starts. -/
def Ini (P : Prob) (i : Nat) : Prop := (initFrozen P).1 i = .frozen

structure Base (P : Prob) (flag : Nat → Flag) (dist : Nat → ℝ) : Prop where
  nm : NoMask flag
  ini : ∀ i < P.G.size, Ini P i → flag i = .frozen ∧ dist i = (initFrozen P).2 i
  sg : ∀ i < P.G.size, flag i ≠ .far → SignOK (P.phi i) (dist i)

theorem OK.dx' (ok : OK P) : ∀ d < P.G.ndim, 0 < P.dx d := fun d _ => ok.dx d

theorem init_sign (ok : OK P) {i : Nat} (hi : i < P.G.size) (h : Ini P i) :
    SignOK (P.phi i) ((initFrozen P).2 i) := by
  have hs := (initFrozen_spec (P := P) ok.dx').2 i hi
  by_cases hz : P.phi i = 0
  · rw [hz, (hs.zero hz).2]; simp [SignOK]
  · have hc : ∃ d < P.G.ndim, ∃ w, CrossAt P i d w := by
      by_contra hc
      have := (hs.rest hz hc).1
      unfold Ini at h; rw [this] at h; cases h
    obtain ⟨_, m, ⟨⟨d, hd, hm⟩, _⟩, e⟩ := hs.cross hz hc
    have hp := (hm.pos (ok.dx d)).1
    rw [e]
    rcases lt_or_gt_of_ne hz with h1 | h1
    · rw [if_pos h1]
      exact ⟨fun h => absurd h (not_lt.2 h1.le), fun _ => by linarith, fun h => absurd h hz⟩
    · rw [if_neg (not_lt.2 h1.le)]
      exact ⟨fun _ => hp, fun h => absurd h (not_lt.2 h1.le), fun h => absurd h hz⟩

theorem init_bound (ok : OK P) {i : Nat} (hi : i < P.G.size) (h : Ini P i) :
    |(initFrozen P).2 i| ≤ max (P.dx 0) (P.dx 1) := by
  have hB : 0 ≤ max (P.dx 0) (P.dx 1) := (ok.dx 0).le.trans (le_max_left _ _)
  have hs := (initFrozen_spec (P := P) ok.dx').2 i hi
  by_cases hz : P.phi i = 0
  · rw [(hs.zero hz).2]; simpa using hB
  · have hc : ∃ d < P.G.ndim, ∃ w, CrossAt P i d w := by
      by_contra hc
      have := (hs.rest hz hc).1
      unfold Ini at h; rw [this] at h; cases h
    obtain ⟨_, m, ⟨⟨d, hd, hm⟩, _⟩, e⟩ := hs.cross hz hc
    have hp := hm.pos (ok.dx d)
    have hd2 : d = 0 ∨ d = 1 := by have := ok.nd; omega
    have : |(initFrozen P).2 i| = m := by
      rw [e]; split
      · rw [abs_neg, abs_of_pos hp.1]
      · rw [abs_of_pos hp.1]
    rw [this]
    rcases hd2 with rfl | rfl
    · exact hp.2.trans (le_max_left _ _)
    · exact hp.2.trans (le_max_right _ _)

theorem not_ini {i : Nat} (ok : OK P) (hi : i < P.G.size) (h : ¬ Ini P i) :
    P.phi i ≠ 0 ∧ ∀ d < P.G.ndim, ∀ dir a, P.G.nb i d dir = some a → 0 ≤ P.phi i * P.phi a := by
  unfold Ini at h
  rw [init_frozen_iff ok.dx' hi] at h
  unfold AtInterface at h
  push Not at h
  refine ⟨h.1, fun d hd dir a ha => ?_⟩
  have := h.2 d hd dir a ha
  unfold Crosses at this
  linarith

theorem sg_eq (ok : OK P) {i : Nat} (hi : i < P.G.size) (hz : P.phi i ≠ 0) :
    (0 < P.phi i ∧ sg P i = 1) ∨ (P.phi i < 0 ∧ sg P i = -1) := by
  have he := ok.eps
  rcases ok.phi i hi with h | h
  · right
    have h' := lt_of_le_of_ne h hz
    refine ⟨h', ?_⟩
    unfold sg; rw [if_neg (by linarith)]
  · left
    refine ⟨by linarith, ?_⟩
    unfold sg; rw [if_pos h]

/-- Frozen neighbours of a cell that is not frozen lie on its side of the interface. -/
theorem coherent (ok : OK P) {flag : Nat → Flag} {dist : Nat → ℝ} (b : Base P flag dist)
    {i : Nat} (hi : i < P.G.size) (hf : flag i ≠ .frozen) :
    ∀ d < P.G.ndim, ∀ dir a, P.G.nb i d dir = some a → flag a = .frozen → 0 ≤ sg P i * dist a := by
  have hni : ¬ Ini P i := fun h => hf (b.ini i hi h).1
  obtain ⟨hz, hnc⟩ := not_ini ok hi hni
  intro d hd dir a ha hfa
  have hlt := ok.wf.lt i d dir a hi hd ha
  have hs := b.sg a hlt (by rw [hfa]; simp)
  have hc := hnc d hd dir a ha
  rcases sg_eq ok hi hz with ⟨h1, e⟩ | ⟨h1, e⟩
  · rw [e]
    have : 0 ≤ P.phi a := by
      by_contra hh
      have := mul_neg_of_pos_of_neg h1 (not_le.1 hh)
      linarith
    rcases this.eq_or_lt with h | h
    · rw [hs.2.2 h.symm]; simp
    · have := hs.1 h; linarith
  · rw [e]
    have : P.phi a ≤ 0 := by
      by_contra hh
      have := mul_neg_of_neg_of_pos h1 (not_le.1 hh)
      linarith
    rcases this.eq_or_lt with h | h
    · rw [hs.2.2 h]; simp
    · have := hs.2.1 h; linarith

theorem sign_of_sg (ok : OK P) {i : Nat} (hi : i < P.G.size) (hz : P.phi i ≠ 0) {U : ℝ}
    (hU : 0 < U) : SignOK (P.phi i) (sg P i * U) ∧ |sg P i * U| = U := by
  rcases sg_eq ok hi hz with ⟨h1, e⟩ | ⟨h1, e⟩
  · rw [e]
    exact ⟨⟨fun _ => by linarith, fun h => absurd h (not_lt.2 h1.le), fun h => absurd h hz⟩,
      by rw [one_mul, abs_of_pos hU]⟩
  · rw [e]
    exact ⟨⟨fun h => absurd h (not_lt.2 h1.le), fun _ => by linarith, fun h => absurd h hz⟩,
      by rw [neg_one_mul, abs_neg, abs_of_pos hU]⟩

/-- Number of far cells. -/
def farCount (P : Prob) (flag : Nat → Flag) : Nat :=
  ((Finset.range P.G.size).filter fun i => flag i = .far).card

/-- Narrow cells are exactly the live heap entries, keyed by absolute distance. -/
structure Link (P : Prob) (st : St) (q : Heap.Queue ℝ) : Prop where
  rep : Heap.Rep st.heap q
  nar : ∀ i < P.G.size, st.flag i = .narrow → q.live (st.ptr i) = some ((i : Int), |st.dist i|)
  live : ∀ h x, q.live h = some x →
    ∃ i < P.G.size, st.flag i = .narrow ∧ st.ptr i = h
  count : q.next + farCount P st.flag = q.cap

theorem farCount_update {flag : Nat → Flag} {i : Nat} (hi : i < P.G.size) (h : flag i = .far)
    {f : Flag} (hf : f ≠ .far) : farCount P (Function.update flag i f) + 1 = farCount P flag := by
  unfold farCount
  have hmem : i ∈ (Finset.range P.G.size).filter fun i => flag i = .far := by simp [hi, h]
  have : ((Finset.range P.G.size).filter fun j => Function.update flag i f j = .far) =
      ((Finset.range P.G.size).filter fun i => flag i = .far).erase i := by
    ext j
    simp only [Finset.mem_filter, Finset.mem_range, Finset.mem_erase]
    by_cases e : j = i
    · subst e; simp [hf]
    · rw [Function.update_of_ne e]; simp [e]
  rw [this, Finset.card_erase_of_mem hmem]
  have := Finset.card_pos.2 ⟨i, hmem⟩
  omega

theorem farCount_same {flag : Nat → Flag} {i : Nat} (h : flag i ≠ .far)
    {f : Flag} (hf : f ≠ .far) : farCount P (Function.update flag i f) = farCount P flag := by
  unfold farCount
  congr 1
  ext j
  simp only [Finset.mem_filter]
  by_cases e : j = i
  · subst e; simp [hf, h]
  · rw [Function.update_of_ne e]

theorem live_lt {s : Heap.State ℝ} {q : Heap.Queue ℝ} (r : Heap.Rep s q) {h : Nat} {x : Int × ℝ}
    (e : q.live h = some x) : h < q.next := by
  obtain ⟨⟨i, hi, rfl⟩, _⟩ := r.live_eq e
  rw [← r.hnext]; exact r.ent i hi

/-- Pushing a far cell. -/
theorem push_link {st : St} {q : Heap.Queue ℝ} (l : Link P st q) {i : Nat} (hi : i < P.G.size)
    (hf : st.flag i = .far) (d : ℝ) :
    ∃ h', Heap.push st.heap i |d| = .ok (h', q.next) ∧
      ∃ q', Link P ⟨Function.update st.flag i .narrow, Function.update st.dist i d,
        Function.update st.ptr i q.next, h', st.log⟩ q' := by
  have hcnt := farCount_update (P := P) hi hf (f := .narrow) (by simp)
  have hc := l.count
  obtain ⟨h', e, r'⟩ := Heap.push_rep l.rep (by omega) (i : Int) |d|
  refine ⟨h', e, _, r', ?_, ?_, ?_⟩
  · intro j hj hn
    simp only at hn ⊢
    by_cases eq : j = i
    · subst eq; simp
    · rw [Function.update_of_ne eq] at hn
      rw [Function.update_of_ne eq, Function.update_of_ne eq]
      have := l.nar j hj hn
      have hlt := live_lt l.rep this
      rw [Function.update_of_ne (by omega)]
      exact this
  · intro h x hx
    simp only at hx ⊢
    by_cases eq : h = q.next
    · exact ⟨i, hi, by simp, by simp [eq]⟩
    · rw [Function.update_of_ne eq] at hx
      obtain ⟨j, hj, hn, hp⟩ := l.live h x hx
      have hne : j ≠ i := by rintro rfl; rw [hf] at hn; cases hn
      exact ⟨j, hj, by rw [Function.update_of_ne hne]; exact hn,
        by rw [Function.update_of_ne hne]; exact hp⟩
  · simp only; omega

/-- Handles of different narrow cells differ. -/
theorem ptr_inj {st : St} {q : Heap.Queue ℝ} (l : Link P st q) {i j : Nat} (hi : i < P.G.size)
    (hj : j < P.G.size) (ni : st.flag i = .narrow) (nj : st.flag j = .narrow)
    (e : st.ptr i = st.ptr j) : i = j := by
  have h1 := l.nar i hi ni
  have h2 := l.nar j hj nj
  rw [e, h2] at h1
  have := (Prod.mk.inj (Option.some.inj h1)).1
  omega

/-- Changing the key of a narrow cell. -/
theorem set_link {st : St} {q : Heap.Queue ℝ} (l : Link P st q) {i : Nat} (hi : i < P.G.size)
    (hn : st.flag i = .narrow) (d : ℝ) :
    ∃ h', Heap.set st.heap (st.ptr i) |d| = .ok h' ∧
      ∃ q', Link P { st with heap := h', dist := Function.update st.dist i d } q' := by
  obtain ⟨h', e, r'⟩ := Heap.set_rep l.rep |d| (l.nar i hi hn)
  refine ⟨h', e, _, r', ?_, ?_, l.count⟩
  · intro j hj hnj
    simp only at hnj ⊢
    by_cases eq : j = i
    · subst eq; simp
    · have : st.ptr j ≠ st.ptr i := fun e' => eq (ptr_inj l hj hi hnj hn e')
      rw [Function.update_of_ne this, Function.update_of_ne eq]
      exact l.nar j hj hnj
  · intro h x hx
    simp only at hx ⊢
    by_cases eq : h = st.ptr i
    · exact ⟨i, hi, hn, eq.symm⟩
    · rw [Function.update_of_ne eq] at hx
      exact l.live h x hx

/-- Popping yields a narrow cell of least absolute distance. -/
theorem pop_link {st : St} {q : Heap.Queue ℝ} (l : Link P st q) (hne : 0 < st.heap.heapLength) :
    ∃ (h' : Heap.State ℝ) (i : Nat), Heap.pop st.heap = .ok (h', ((i : Int), |st.dist i|)) ∧
      Heap.peek st.heap = .ok |st.dist i| ∧ i < P.G.size ∧ st.flag i = .narrow ∧
      (∀ j < P.G.size, st.flag j = .narrow → |st.dist i| ≤ |st.dist j|) ∧
      h'.maxLength = st.heap.maxLength ∧ h'.heapLength < st.heap.heapLength ∧
      ∃ q', Link P (freeze { st with heap := h' } i) q' := by
  obtain ⟨h', e, r'⟩ := Heap.pop_rep l.rep hne
  have hpk := Heap.peek_rep l.rep hne
  have hl0 := l.rep.live_some 0 hne
  obtain ⟨i, hi, hni, hp⟩ := l.live _ _ hl0
  have hli := l.nar i hi hni
  rw [hp, hl0] at hli
  have ha := (Prod.mk.inj (Option.some.inj hli)).1
  have hd := (Prod.mk.inj (Option.some.inj hli)).2
  rw [ha, hd] at e
  have hc1 := l.rep.card_eq
  have hc2 := r'.card_eq
  refine ⟨h', i, e, by rw [hpk, hd], hi, hni, ?_, ?_, ?_, _, r', ?_, ?_, ?_⟩
  · intro j hj hnj
    have hlj := l.nar j hj hnj
    obtain ⟨⟨k, hk, ek⟩, hv⟩ := l.rep.live_eq hlj
    have := l.rep.min k hk
    rw [hd, ek] at this
    rw [(Prod.mk.inj hv).2]
    exact this
  · rw [l.rep.hcap, r'.hcap]
  · rw [← hc1, ← hc2]
    unfold Heap.Queue.card
    apply Finset.card_lt_card
    rw [Finset.ssubset_iff_of_subset]
    · refine ⟨st.heap.heap 0, ?_, ?_⟩
      · simp only [Finset.mem_filter, Finset.mem_range]
        exact ⟨live_lt l.rep hl0, by rw [hl0]; rfl⟩
      · simp
    · intro h
      simp only [Finset.mem_filter, Finset.mem_range]
      rintro ⟨h1, h2⟩
      refine ⟨h1, ?_⟩
      by_cases eq : h = st.heap.heap 0
      · subst eq; simp at h2
      · rwa [Function.update_of_ne eq] at h2
  · intro j hj hnj
    simp only [freeze] at hnj ⊢
    have hji : j ≠ i := by rintro rfl; simp at hnj
    rw [Function.update_of_ne hji] at hnj
    have : st.ptr j ≠ st.heap.heap 0 := by
      rw [← hp]; exact fun e' => hji (ptr_inj l hj hi hnj hni e')
    rw [Function.update_of_ne this]
    exact l.nar j hj hnj
  · intro h x hx
    simp only [freeze] at hx ⊢
    have hh : h ≠ st.heap.heap 0 := by rintro rfl; simp at hx
    rw [Function.update_of_ne hh] at hx
    obtain ⟨j, hj, hnj, hpj⟩ := l.live h x hx
    have hji : j ≠ i := by rintro rfl; exact hh (by rw [← hpj, hp])
    exact ⟨j, hj, by rw [Function.update_of_ne hji]; exact hnj, hpj⟩
  · simp only [freeze]
    rw [farCount_same (by rw [hni]; simp) (by simp)]
    exact l.count

/-- The heap is empty iff there is no narrow cell. -/
theorem empty_iff {st : St} {q : Heap.Queue ℝ} (l : Link P st q) :
    Heap.empty st.heap = true ↔ ∀ i < P.G.size, st.flag i ≠ .narrow := by
  unfold Heap.empty
  constructor
  · intro h i hi hn
    have := l.nar i hi hn
    obtain ⟨⟨k, hk, _⟩, _⟩ := l.rep.live_eq this
    simp at h; omega
  · intro h
    by_contra hc
    have h0 : 0 < st.heap.heapLength := by
      simp at hc; omega
    obtain ⟨i, hi, hn, _⟩ := l.live _ _ (l.rep.live_some 0 h0)
    exact h i hi hn

end Verif.March
