import Verif.March.Main

/-! The main loop. -/

namespace Verif.March

open Verif

variable {P : Prob}

theorem heap_le_size {st : St} {q : Heap.Queue ℝ} (l : Link P st q) :
    st.heap.heapLength ≤ P.G.size := by
  rw [← l.rep.card_eq]
  unfold Heap.Queue.card
  have : (Finset.range q.next).filter (fun h => (q.live h).isSome) ⊆
      (Finset.range P.G.size).image st.ptr := by
    intro h hh
    simp only [Finset.mem_filter, Finset.mem_range, Finset.mem_image] at hh ⊢
    obtain ⟨_, h2⟩ := hh
    obtain ⟨x, hx⟩ := Option.isSome_iff_exists.1 h2
    obtain ⟨i, hi, _, hp⟩ := l.live h x hx
    exact ⟨i, hi, hp⟩
  calc _ ≤ ((Finset.range P.G.size).image st.ptr).card := Finset.card_le_card this
    _ ≤ (Finset.range P.G.size).card := Finset.card_image_le
    _ = P.G.size := Finset.card_range _

/-- Progress of the inner loop that pops all cells of equal value. -/
structure Bat (P : Prob) (st0 : St) (K : ℝ) (st : St) (acc : List Nat) : Prop where
  flag : ∀ j, st.flag j = if j ∈ acc then .frozen else st0.flag j
  dist : st.dist = st0.dist
  link : ∃ q, Link P st q
  log : st.log = st0.log ++ acc
  mem : ∀ a ∈ acc, a < P.G.size ∧ st0.flag a = .narrow ∧ |st0.dist a| = K
  nodup : acc.Nodup
  low : ∀ j < P.G.size, st0.flag j = .narrow → K ≤ |st0.dist j|

theorem bat_freeze {st0 st : St} {K : ℝ} {acc : List Nat} (b : Bat P st0 K st acc)
    {h' : Heap.State ℝ} {i : Nat} (hi : i < P.G.size) (hn : st.flag i = .narrow)
    (hK : |st.dist i| = K) (l : ∃ q, Link P (freeze { st with heap := h' } i) q) :
    Bat P st0 K (freeze { st with heap := h' } i) (acc ++ [i]) := by
  have hfi := b.flag i
  have hni : i ∉ acc := by
    intro hm; rw [if_pos hm, hn] at hfi; cases hfi
  rw [if_neg hni, hn] at hfi
  refine ⟨?_, b.dist, l, ?_, ?_, ?_, b.low⟩
  · intro j
    simp only [freeze, List.mem_append, List.mem_singleton]
    by_cases e : j = i
    · subst e; simp
    · rw [Function.update_of_ne e, b.flag j]; simp [e]
  · simp only [freeze]; rw [b.log, List.append_assoc]
  · intro a ha
    rcases List.mem_append.1 ha with ha | ha
    · exact b.mem a ha
    · rw [List.mem_singleton] at ha; subst ha
      exact ⟨hi, hfi.symm, by rw [← b.dist]; exact hK⟩
  · rw [List.nodup_append]
    refine ⟨b.nodup, List.nodup_singleton i, ?_⟩
    intro a ha c hc
    rw [List.mem_singleton] at hc
    rintro rfl; subst hc; exact hni ha

theorem popEqual_spec {st0 : St} {K : ℝ} : ∀ (fuel : Nat) {st : St} {acc : List Nat},
    Bat P st0 K st acc → st.heap.heapLength < fuel →
    ∃ st' acc', popEqual K fuel st acc = .ok (st', acc') ∧ Bat P st0 K st' acc' ∧
      acc.length ≤ acc'.length := by
  intro fuel
  induction fuel with
  | zero => intro st acc _ h; exact absurd h (Nat.not_lt_zero _)
  | succ fuel ih =>
    intro st acc b hfu
    unfold popEqual
    by_cases he : Heap.empty st.heap = true
    · rw [if_pos he]; exact ⟨st, acc, rfl, b, le_rfl⟩
    · rw [if_neg he]
      obtain ⟨q, l⟩ := b.link
      have hpos : 0 < st.heap.heapLength := by
        simp [Heap.empty] at he; omega
      obtain ⟨h', i, e1, e2, hi, hn, hmin, _, hlt, l'⟩ := pop_link l hpos
      simp only [bind, Except.bind, hp, e2]
      by_cases hK : K = |st.dist i|
      · rw [if_pos hK]
        simp only [e1, Int.toNat_natCast]
        obtain ⟨st', acc', e, b', hl⟩ := ih (bat_freeze b hi hn hK.symm l') (by simp only [freeze]; omega)
        exact ⟨st', acc', e, b', by simp at hl; omega⟩
      · rw [if_neg hK]; exact ⟨st, acc, rfl, b, le_rfl⟩

theorem mins_same {F F0 : Nat → Prop} {D : Nat → ℝ} {i : Nat}
    (h : ∀ d < P.G.ndim, ∀ dir a, P.G.nb i d dir = some a → (F a ↔ F0 a)) (d : Nat) :
    mins P F D i d = mins P F0 D i d := by
  by_cases hd : d < P.G.ndim
  · apply MinOver.unique (mins_minOver F D i hd)
    have h0 := mins_minOver (P := P) F0 D i hd
    cases e : mins P F0 D i d with
    | none => rw [e] at h0; intro dir a ha; rw [h d hd dir a ha]; exact h0 dir a ha
    | some m =>
      rw [e] at h0
      obtain ⟨⟨dir, a, n1, n2, n3⟩, h2⟩ := h0
      exact ⟨⟨dir, a, n1, (h d hd dir a n1).2 n2, n3⟩,
        fun dir a n1 n2 => h2 dir a n1 ((h d hd dir a n1).1 n2)⟩
  · unfold mins; rw [if_neg hd, if_neg hd]

/-- Freezing a batch: the static facts survive and only neighbours of the batch become stale. -/
theorem batch_phase (ok : OK P) {st0 : St} {K0 K : ℝ} (t : Top P st0 K0) (hK : K0 ≤ K) {st : St}
    {acc : List Nat} (b : Bat P st0 K st acc) :
    Static P (Fz st) st0.dist K ∧
    Phase P (Fz st) st0.dist K
      (fun j => ∃ a ∈ acc, ∃ d < P.G.ndim, ∃ dir, P.G.nb a d dir = some j) st := by
  have hFz : ∀ a, Fz st a ↔ Fz st0 a ∨ a ∈ acc := by
    intro a; unfold Fz; rw [b.flag a]; split <;> simp_all
  have hsub : ∀ a, Fz st0 a → Fz st a := fun a h => (hFz a).2 (.inl h)
  have hnew : ∀ a, Fz st a → ¬ Fz st0 a → |st0.dist a| = K := fun a h h' =>
    (b.mem a (((hFz a).1 h).resolve_left h')).2.2
  have hKn : 0 ≤ K := t.stat.nonneg.trans hK
  have hst0 : ∀ i < P.G.size, ¬ Fz st i → ∃ U,
      (mins P (Fz st0) st0.dist i 0 = none ∧ mins P (Fz st0) st0.dist i 1 = none ∨
      IsU (P.idx2 0) (P.idx2 1) (mins P (Fz st0) st0.dist i 0) (mins P (Fz st0) st0.dist i 1) U ∧ K ≤ U) := by
    intro i hi hnF
    have hnF0 : ¬ Fz st0 i := fun h => hnF (hsub i h)
    cases hf : st0.flag i with
    | far => exact ⟨0, .inl (t.ph.far i hi hf (fun h => h))⟩
    | narrow => exact ⟨|st0.dist i|, .inr ⟨t.ph.nar i hi hf (fun h => h), b.low i hi hf⟩⟩
    | frozen => exact absurd hf hnF0
    | mask => exact absurd hf (t.ph.ag.nm i)
  have hmb : ∀ i < P.G.size, ∀ d m, mins P (Fz st0) st0.dist i d = some m →
      0 ≤ m ∧ (m ≤ max (P.dx 0) (P.dx 1) ∨ m ≤ K) := by
    intro i hi d m e
    obtain ⟨dir, a, hd, ha, hF, rfl⟩ := mins_nonneg e
    refine ⟨abs_nonneg _, ?_⟩
    rcases t.bound a (ok.wf.lt _ _ _ _ hi hd ha) hF with h | h
    · exact .inl h
    · exact .inr (h.trans hK)
  refine ⟨⟨hKn, ?_, ?_⟩, ?_, b.link, ⟨?_, fun _ => Iff.rfl, fun a _ => by rw [b.dist]⟩, ?_, ?_, ?_⟩
  · intro i hi hnF
    obtain ⟨U, hold⟩ := hst0 i hi hnF
    exact sep_step (ok.dx 0) (ok.dx 1) (le_max_left _ _) (le_max_right _ _) hKn
      (mins_lower hsub hnew 0) (mins_lower hsub hnew 1) hold (hmb i hi 0) (hmb i hi 1)
      (t.stat.sep i hi (fun h => hnF (hsub i h)))
  · intro i hi hnF U' hc
    obtain ⟨U, hold⟩ := hst0 i hi hnF
    exact good_step (idx2_pos ok 0) (idx2_pos ok 1) (mins_lower hsub hnew 0)
      (mins_lower hsub hnew 1) hold hc
  · refine ⟨?_, ?_, ?_⟩
    · intro i; rw [b.flag i]; split
      · simp
      · exact t.ph.ag.nm i
    · intro i hi hI
      obtain ⟨h1, h2⟩ := t.ph.base.ini i hi hI
      rw [b.dist]
      exact ⟨hsub i h1, h2⟩
    · intro i hi hne
      rw [b.dist]
      apply t.ph.base.sg i hi
      rw [b.flag i] at hne
      split at hne
      · rename_i hm; rw [(b.mem i hm).2.1]; simp
      · exact hne
  · intro i; rw [b.flag i]; split
    · simp
    · exact t.ph.ag.nm i
  · intro i hi hn hns
    have hn0 : st0.flag i = .narrow := by
      have := b.flag i; rw [hn] at this; split at this
      · cases this
      · exact this.symm
    have := t.ph.nar i hi hn0 (fun h => h)
    have hsame : ∀ d < P.G.ndim, ∀ dir a, P.G.nb i d dir = some a → (Fz st a ↔ Fz st0 a) := by
      intro d hd dir a ha
      rw [hFz a]
      constructor
      · rintro (h | h)
        · exact h
        · exact absurd ⟨a, h, d, hd, _, ok.wf.symm i d dir a hi hd ha⟩ hns
      · exact .inl
    unfold Cell at this ⊢
    rw [mins_same hsame, mins_same hsame, b.dist]
    exact this
  · intro i hi hn hns
    have hn0 : st0.flag i = .far := by
      have := b.flag i; rw [hn] at this; split at this
      · cases this
      · exact this.symm
    have := t.ph.far i hi hn0 (fun h => h)
    have hsame : ∀ d < P.G.ndim, ∀ dir a, P.G.nb i d dir = some a → (Fz st a ↔ Fz st0 a) := by
      intro d hd dir a ha
      rw [hFz a]
      constructor
      · rintro (h | h)
        · exact h
        · exact absurd ⟨a, h, d, hd, _, ok.wf.symm i d dir a hi hd ha⟩ hns
      · exact .inl
    rw [mins_same hsame, mins_same hsame]
    exact this
  · intro i hi hn
    have hn0 : st0.flag i = .narrow := by
      have := b.flag i; rw [hn] at this; split at this
      · cases this
      · exact this.symm
    rw [b.dist]; exact b.low i hi hn0

theorem mem_tasks {G : Grid} {l : List Nat} {t : Nat × Nat × Bool} :
    t ∈ tasks G l ↔ t.1 ∈ l ∧ t.2.1 < G.ndim := by
  obtain ⟨a, d, dir⟩ := t
  simp only [tasks, List.mem_flatMap, List.mem_map, Prod.mk.injEq]
  constructor
  · rintro ⟨x, hx, ⟨d', dir'⟩, ht, rfl, rfl, rfl⟩
    exact ⟨hx, mem_dimDirs.1 ht⟩
  · rintro ⟨h1, h2⟩
    exact ⟨a, h1, (d, dir), mem_dimDirs.2 h2, rfl, rfl, rfl⟩

/-- One iteration of the main loop. -/
theorem marchStep_spec (ok : OK P) {st0 : St} {K0 : ℝ} (t : Top P st0 K0) (lg : LogInv P st0 K0)
    (hne : Heap.empty st0.heap ≠ true) {fuel : Nat} (hfu : P.G.size < fuel) :
    ∃ st' K, marchStep P fuel st0 = .ok st' ∧ Top P st' K ∧ LogInv P st' K ∧
      st0.log.length < st'.log.length := by
  obtain ⟨q, l⟩ := t.ph.link
  have hpos : 0 < st0.heap.heapLength := by
    simp [Heap.empty] at hne; omega
  obtain ⟨h', i, e1, e2, hi, hn, hmin, _, hlt, l'⟩ := pop_link l hpos
  have hsz := heap_le_size l
  have b0 : Bat P st0 |st0.dist i| st0 [] :=
    ⟨fun j => by simp, rfl, ⟨q, l⟩, by simp, by simp, List.nodup_nil, hmin⟩
  have b1 := bat_freeze b0 hi hn rfl l'
  obtain ⟨st1, acc, e3, b, hlen⟩ := popEqual_spec fuel b1 (by simp only [freeze]; omega)
  have hK : K0 ≤ |st0.dist i| := t.ph.low i hi hn
  obtain ⟨hs, ph⟩ := batch_phase ok t hK b
  have hFz : ∀ a, Fz st1 a ↔ Fz st0 a ∨ a ∈ acc := by
    intro a; unfold Fz; rw [b.flag a]; split <;> simp_all
  obtain ⟨st2, e4, hlog, ph2⟩ := relaxAll_phase ok hs (tasks P.G acc) (by
    intro t ht
    obtain ⟨h1, h2⟩ := mem_tasks.1 ht
    exact ⟨(b.mem _ h1).1, (hFz _).2 (.inr h1), h2⟩) ph
  have ph3 := ph2.mono (s' := fun _ => False) (by
    rintro j hj ⟨⟨a, ha, d, hd, dir, hnb⟩, hall⟩ _
    exact hall (a, d, dir) (mem_tasks.2 ⟨ha, hd⟩) hnb)
  obtain ⟨ph4, hs4⟩ := ph3.self hs
  have hfr2 : ∀ a, st2.flag a = .frozen ↔ Fz st0 a ∨ a ∈ acc := by
    intro a; rw [ph2.ag.fr a, hFz a]
  have hd2 : ∀ a, Fz st0 a ∨ a ∈ acc → st2.dist a = st0.dist a := by
    intro a ha; exact ph2.ag.fd a ((hFz a).2 ha)
  refine ⟨st2, |st0.dist i|, ?_, ⟨hs4, ph4, ?_⟩, ?_, ?_⟩
  · unfold marchStep
    simp only [bind, Except.bind, hp, e1, Int.toNat_natCast]
    rw [show ([] ++ [i] : List Nat) = [i] from rfl] at e3
    rw [e3]
    exact e4
  · intro j hj hF
    have hF' := (hfr2 j).1 hF
    rw [hd2 j hF']
    rcases hF' with h | h
    · rcases t.bound j hj h with h' | h'
      · exact .inl h'
      · exact .inr (h'.trans hK)
    · right; rw [(b.mem j h).2.2]
  · have hlog2 : st2.log = st0.log ++ acc := by rw [hlog, b.log]
    have hdl : ∀ a ∈ st0.log, st2.dist a = st0.dist a :=
      fun a ha => hd2 a (.inl ((lg.fr a).2 (.inr ha)))
    have hda : ∀ a ∈ acc, st2.dist a = st0.dist a := fun a ha => hd2 a (.inr ha)
    refine ⟨?_, ?_, ?_, ?_, ?_, ?_⟩
    · intro a
      rw [hfr2 a, hlog2, List.mem_append]
      unfold Fz
      rw [lg.fr a, or_assoc]
    · intro a ha
      rw [hlog2] at ha
      rcases List.mem_append.1 ha with ha | ha
      · exact lg.new a ha
      · obtain ⟨h1, h2, _⟩ := b.mem a ha
        exact ⟨h1, fun hI => by
          have := (t.ph.base.ini a h1 hI).1; rw [h2] at this; cases this⟩
    · rw [hlog2, List.nodup_append]
      refine ⟨lg.nodup, b.nodup, ?_⟩
      rintro a ha c hc rfl
      have h1 := (lg.fr a).2 (.inr ha)
      rw [(b.mem a hc).2.1] at h1; cases h1
    · rw [hlog2, List.pairwise_append]
      refine ⟨?_, ?_, ?_⟩
      · apply lg.sorted.imp_of_mem
        intro a c ha hc h
        rw [hdl a ha, hdl c hc]; exact h
      · apply List.Pairwise.imp_of_mem (R := fun _ _ => True)
        · intro a c ha hc _
          rw [hda a ha, hda c hc, (b.mem a ha).2.2, (b.mem c hc).2.2]
        · exact List.pairwise_of_forall fun _ _ => trivial
      · intro a ha c hc
        rw [hdl a ha, hda c hc, (b.mem c hc).2.2]
        exact (lg.le a ha).trans hK
    · intro a ha
      rw [hlog2] at ha
      rcases List.mem_append.1 ha with ha | ha
      · rw [hdl a ha]; exact (lg.le a ha).trans hK
      · rw [hda a ha, (b.mem a ha).2.2]
    · intro a ha
      rw [hlog2] at ha ⊢
      rcases List.mem_append.1 ha with ha | ha
      · obtain ⟨pre, suf, e, hm, hf, hc⟩ := lg.eik a ha
        refine ⟨pre, suf ++ acc, by rw [e, List.append_assoc], by simp [hm], ?_, ?_⟩
        · intro j hj
          rw [hdl a ha]
          rcases List.mem_append.1 hj with hj | hj
          · rw [hdl j (by rw [e]; simp [hj])]; exact hf j hj
          · rw [hda j hj, (b.mem j hj).2.2]; exact (lg.le a ha).trans hK
        rw [hdl a ha]
        refine (Cell.congr (fun _ => Iff.rfl) ?_).1 hc
        intro c hc
        symm
        apply hd2 c
        left
        apply (lg.fr c).2
        rcases hc with hc | hc
        · exact .inl hc
        · right; rw [e]; simp [hc]
      · refine ⟨st0.log, acc, rfl, ha, ?_, ?_⟩
        · intro j hj
          rw [hda a ha, hda j hj, (b.mem a ha).2.2, (b.mem j hj).2.2]
        rw [hda a ha]
        obtain ⟨h1, h2, _⟩ := b.mem a ha
        refine (Cell.congr lg.fr ?_).1 (t.ph.nar a h1 h2 (fun h => h))
        intro c hc
        exact (hd2 c (.inl hc)).symm
  · rw [hlog, b.log, List.length_append]
    simp at hlen; omega

theorem log_length {st : St} {K : ℝ} (lg : LogInv P st K) : st.log.length ≤ P.G.size := by
  have : st.log.toFinset ⊆ Finset.range P.G.size := by
    intro a ha
    rw [List.mem_toFinset] at ha
    exact Finset.mem_range.2 (lg.new a ha).1
  have h := Finset.card_le_card this
  rwa [List.toFinset_card_of_nodup lg.nodup, Finset.card_range] at h

/-- The main loop terminates with an empty heap. -/
theorem marchLoop_spec (ok : OK P) {fuel : Nat} (hfu : P.G.size < fuel) :
    ∀ (k : Nat) {st0 : St} {K0 : ℝ}, Top P st0 K0 → LogInv P st0 K0 →
      P.G.size < k + st0.log.length →
    ∃ st' K, marchLoop P fuel k st0 = .ok st' ∧ Top P st' K ∧ LogInv P st' K ∧
      Heap.empty st'.heap = true := by
  intro k
  induction k with
  | zero => intro st0 K0 _ lg h; have := log_length lg; omega
  | succ k ih =>
    intro st0 K0 t lg h
    unfold marchLoop
    by_cases he : Heap.empty st0.heap = true
    · rw [if_pos he]; exact ⟨st0, K0, rfl, t, lg, he⟩
    · rw [if_neg he]
      obtain ⟨st1, K1, e, t1, lg1, hlt⟩ := marchStep_spec ok t lg he hfu
      simp only [bind, Except.bind, e]
      exact ih t1 lg1 (by omega)

end Verif.March
