import Verif.March.Run

/-! Termination and heap safety for arbitrary fields (no assumption on `phi`, any dimension). -/

namespace Verif.March

open Verif

variable {P : Prob}

/-- Invariant that needs no assumption on the field. -/
structure Safe (P : Prob) (st : St) : Prop where
  link : ∃ q, Link P st q
  nm : NoMask st.flag
  ini : ∀ i < P.G.size, Ini P i → st.dist i = (initFrozen P).2 i
  fr : ∀ i, st.flag i = .frozen ↔ Ini P i ∨ i ∈ st.log
  new : ∀ i ∈ st.log, i < P.G.size ∧ ¬ Ini P i
  nodup : st.log.Nodup

theorem safe_push {st : St} (s : Safe P st) {i : Nat} (hi : i < P.G.size) (hf : st.flag i = .far)
    (d : ℝ) : ∃ h' n, Heap.push st.heap i |d| = .ok (h', n) ∧
      Safe P ⟨Function.update st.flag i .narrow, Function.update st.dist i d,
        Function.update st.ptr i n, h', st.log⟩ := by
  obtain ⟨q, l⟩ := s.link
  obtain ⟨h', e, l'⟩ := push_link l hi hf d
  have hni : ¬ (Ini P i ∨ i ∈ st.log) := fun h => by
    have := (s.fr i).2 h; rw [hf] at this; cases this
  refine ⟨h', q.next, e, l', ?_, ?_, ?_, s.new, s.nodup⟩
  · intro j
    by_cases e : j = i
    · subst e; simp
    · simp only [Function.update_of_ne e]; exact s.nm j
  · intro j hj hI
    have : j ≠ i := by rintro rfl; exact hni (.inl hI)
    simp only [Function.update_of_ne this]; exact s.ini j hj hI
  · intro j
    by_cases e : j = i
    · subst e
      simp only [Function.update_self]
      constructor
      · intro h; cases h
      · intro h; exact absurd h hni
    · simp only [Function.update_of_ne e]; exact s.fr j

theorem safe_set {st : St} (s : Safe P st) {i : Nat} (hi : i < P.G.size) (hf : st.flag i = .narrow)
    (d : ℝ) : ∃ h', Heap.set st.heap (st.ptr i) |d| = .ok h' ∧
      Safe P { st with heap := h', dist := Function.update st.dist i d } := by
  obtain ⟨q, l⟩ := s.link
  obtain ⟨h', e, l'⟩ := set_link l hi hf d
  refine ⟨h', e, l', s.nm, ?_, s.fr, s.new, s.nodup⟩
  intro j hj hI
  have : j ≠ i := by
    rintro rfl
    have := (s.fr j).2 (.inl hI); rw [hf] at this; cases this
  simp only [Function.update_of_ne this]; exact s.ini j hj hI

theorem relax_safe (wf : P.G.WF) {st : St} (s : Safe P st) {t : Nat × Nat × Bool}
    (ht : t.1 < P.G.size ∧ t.2.1 < P.G.ndim) :
    ∃ st', relax P st t = .ok st' ∧ Safe P st' ∧ st'.log = st.log := by
  unfold relax getN
  simp only
  cases hn : P.G.nb t.1 t.2.1 t.2.2 with
  | none => exact ⟨st, rfl, s, rfl⟩
  | some n =>
    simp only
    have hlt := wf.lt _ _ _ _ ht.1 ht.2 hn
    by_cases hfz : st.flag n = .frozen
    · rw [if_pos hfz]; exact ⟨st, rfl, s, rfl⟩
    · rw [if_neg hfz]
      simp only
      cases hfl : st.flag n with
      | frozen => exact absurd hfl hfz
      | mask => exact absurd hfl (s.nm n)
      | narrow =>
        simp only
        by_cases hd : update P st.flag st.dist n ≠ 0
        · rw [if_pos hd]
          obtain ⟨h', e, s'⟩ := safe_set s hlt hfl (update P st.flag st.dist n)
          simp only [bind, Except.bind, hp, e]
          exact ⟨_, rfl, s', rfl⟩
        · rw [if_neg hd]; exact ⟨st, rfl, s, rfl⟩
      | far =>
        simp only
        by_cases hd : update P st.flag st.dist n ≠ 0
        · rw [if_pos hd]
          obtain ⟨h', k, e, s'⟩ := safe_push s hlt hfl (update P st.flag st.dist n)
          simp only [bind, Except.bind, hp, e]
          exact ⟨_, rfl, s', rfl⟩
        · rw [if_neg hd]; exact ⟨st, rfl, s, rfl⟩

theorem relaxAll_safe (wf : P.G.WF) (ts : List (Nat × Nat × Bool))
    (hts : ∀ t ∈ ts, t.1 < P.G.size ∧ t.2.1 < P.G.ndim) : ∀ {st : St}, Safe P st →
    ∃ st', ts.foldlM (relax P) st = .ok st' ∧ Safe P st' ∧ st'.log = st.log := by
  induction ts with
  | nil => intro st s; exact ⟨st, rfl, s, rfl⟩
  | cons t ts ih =>
    intro st s
    obtain ⟨st1, e1, s1, l1⟩ := relax_safe wf s (hts t (by simp))
    obtain ⟨st2, e2, s2, l2⟩ := ih (fun t ht => hts t (by simp [ht])) s1
    refine ⟨st2, ?_, s2, by rw [l2, l1]⟩
    rw [List.foldlM_cons]
    simp only [bind, Except.bind, e1]
    exact e2

theorem bat_safe {st0 st : St} {K : ℝ} {acc : List Nat} (s : Safe P st0) (b : Bat P st0 K st acc) :
    Safe P st := by
  refine ⟨b.link, ?_, ?_, ?_, ?_, ?_⟩
  · intro i; rw [b.flag i]; split
    · simp
    · exact s.nm i
  · rw [b.dist]; exact s.ini
  · intro i
    rw [b.flag i, b.log, List.mem_append, ← or_assoc, ← s.fr i]
    split <;> simp_all
  · intro i hi
    rw [b.log] at hi
    rcases List.mem_append.1 hi with h | h
    · exact s.new i h
    · obtain ⟨h1, h2, _⟩ := b.mem i h
      refine ⟨h1, fun hI => ?_⟩
      have := (s.fr i).2 (.inl hI); rw [h2] at this; cases this
  · rw [b.log, List.nodup_append]
    refine ⟨s.nodup, b.nodup, ?_⟩
    rintro a ha c hc rfl
    have h1 := (s.fr a).2 (.inr ha)
    rw [(b.mem a hc).2.1] at h1; cases h1

theorem marchStep_safe (wf : P.G.WF) {st0 : St} (s : Safe P st0)
    (hne : Heap.empty st0.heap ≠ true) {fuel : Nat} (hfu : P.G.size < fuel) :
    ∃ st', marchStep P fuel st0 = .ok st' ∧ Safe P st' ∧ st0.log.length < st'.log.length := by
  obtain ⟨q, l⟩ := s.link
  have hpos : 0 < st0.heap.heapLength := by
    simp [Heap.empty] at hne; omega
  obtain ⟨h', i, e1, e2, hi, hn, hmin, _, hlt, l'⟩ := pop_link l hpos
  have hsz := heap_le_size l
  have b0 : Bat P st0 |st0.dist i| st0 [] :=
    ⟨fun j => by simp, rfl, ⟨q, l⟩, by simp, by simp, List.nodup_nil, hmin⟩
  have b1 := bat_freeze b0 hi hn rfl l'
  obtain ⟨st1, acc, e3, b, hlen⟩ := popEqual_spec fuel b1 (by simp only [freeze]; omega)
  obtain ⟨st2, e4, s2, l2⟩ := relaxAll_safe wf (tasks P.G acc) (by
    intro t ht
    obtain ⟨h1, h2⟩ := mem_tasks.1 ht
    exact ⟨(b.mem _ h1).1, h2⟩) (bat_safe s b)
  refine ⟨st2, ?_, s2, ?_⟩
  · unfold marchStep
    simp only [bind, Except.bind, hp, e1, Int.toNat_natCast]
    rw [show ([] ++ [i] : List Nat) = [i] from rfl] at e3
    rw [e3]
    exact e4
  · rw [l2, b.log, List.length_append]
    simp at hlen; omega

theorem safe_length {st : St} (s : Safe P st) : st.log.length ≤ P.G.size := by
  have : st.log.toFinset ⊆ Finset.range P.G.size := by
    intro a ha
    rw [List.mem_toFinset] at ha
    exact Finset.mem_range.2 (s.new a ha).1
  have h := Finset.card_le_card this
  rwa [List.toFinset_card_of_nodup s.nodup, Finset.card_range] at h

theorem marchLoop_safe (wf : P.G.WF) {fuel : Nat} (hfu : P.G.size < fuel) :
    ∀ (k : Nat) {st0 : St}, Safe P st0 → P.G.size < k + st0.log.length →
    ∃ st', marchLoop P fuel k st0 = .ok st' ∧ Safe P st' ∧ Heap.empty st'.heap = true := by
  intro k
  induction k with
  | zero => intro st0 s h; have := safe_length s; omega
  | succ k ih =>
    intro st0 s h
    unfold marchLoop
    by_cases he : Heap.empty st0.heap = true
    · rw [if_pos he]; exact ⟨st0, rfl, s, he⟩
    · rw [if_neg he]
      obtain ⟨st1, e, s1, hlt⟩ := marchStep_safe wf s he hfu
      simp only [bind, Except.bind, e]
      exact ih s1 (by omega)

theorem start_safe (hdx : ∀ d < P.G.ndim, 0 < P.dx d) (g : Garbage) : Safe P (start P g) := by
  obtain ⟨hnm, _⟩ := initFrozen_spec (P := P) hdx
  refine ⟨⟨_, Heap.Rep.init _ _ _ _ _, ?_, ?_, Nat.zero_add _⟩, hnm, fun _ _ _ => rfl, ?_, ?_, ?_⟩
  · intro i hi hn
    unfold start at hn; simp only at hn
    have := init_far hdx hi (by rw [hn]; simp)
    rw [hn] at this; cases this.1
  · intro h x hx; cases hx
  · intro i; simp [start, Ini]
  · simp [start]
  · simp [start]

theorem narrowSteps_safe {i : Nat} (hi : i < P.G.size) (ts : List (Nat × Bool)) :
    ∀ {st : St}, Safe P st → ∃ st', ts.foldlM (narrowStep P i) st = .ok st' ∧ Safe P st' ∧
      st'.log = st.log := by
  induction ts with
  | nil => intro st s; exact ⟨st, rfl, s, rfl⟩
  | cons t ts ih =>
    intro st s
    rw [List.foldlM_cons]
    have : ∃ st', narrowStep P i st t = .ok st' ∧ Safe P st' ∧ st'.log = st.log := by
      unfold narrowStep
      split
      · exact ⟨st, rfl, s, rfl⟩
      · rename_i a _
        by_cases hc : st.flag a = .frozen ∧ st.flag i = .far
        · rw [if_pos hc]
          obtain ⟨h', n, e, s'⟩ := safe_push s hi hc.2
            (update P (Function.update st.flag i .narrow) st.dist i)
          simp only [bind, Except.bind, hp, e]
          exact ⟨_, rfl, s', rfl⟩
        · rw [if_neg hc]; exact ⟨st, rfl, s, rfl⟩
    obtain ⟨st1, e1, s1, l1⟩ := this
    obtain ⟨st2, e2, s2, l2⟩ := ih s1
    simp only [bind, Except.bind, e1]
    exact ⟨st2, e2, s2, by rw [l2, l1]⟩

theorem initNarrow_safe (hdx : ∀ d < P.G.ndim, 0 < P.dx d) (g : Garbage) :
    ∃ st, initNarrow P (start P g) = .ok st ∧ Safe P st ∧ st.log = [] := by
  have gen : ∀ n ≤ P.G.size, ∃ st, (List.range n).foldlM (narrowCell P) (start P g) = .ok st ∧
      Safe P st ∧ st.log = [] := by
    intro n
    induction n with
    | zero => intro _; exact ⟨start P g, rfl, start_safe hdx g, rfl⟩
    | succ n ih =>
      intro hn
      obtain ⟨st, e, s, hl⟩ := ih (by omega)
      rw [List.range_succ, List.foldlM_append]
      simp only [bind, Except.bind, e, List.foldlM_cons, List.foldlM_nil]
      unfold narrowCell
      by_cases hf : st.flag n = .far
      · rw [if_pos hf]
        obtain ⟨st', e', s', l'⟩ := narrowSteps_safe (i := n) (by omega) (dimDirs P.G) s
        rw [e']
        exact ⟨st', rfl, s', by rw [l', hl]⟩
      · rw [if_neg hf]; exact ⟨st, rfl, s, hl⟩
  exact gen P.G.size le_rfl

theorem frozen_card {st : St} (s : Safe P st) (hl : st.log = []) :
    ((Finset.range P.G.size).filter fun i => st.flag i = .frozen).card = 0 ↔
      ∀ i < P.G.size, ¬ Ini P i := by
  rw [Finset.card_eq_zero, Finset.filter_eq_empty_iff]
  constructor
  · intro h i hi hI
    exact h (Finset.mem_range.2 hi) ((s.fr i).2 (.inl hI))
  · intro h i hi hf
    rcases (s.fr i).1 hf with h' | h'
    · exact h i (Finset.mem_range.1 hi) h'
    · rw [hl] at h'; cases h'

end Verif.March
