import Verif.March.Link

/-! Invariants of the marching loop. -/

namespace Verif.March

open Verif

variable {P : Prob}

/-- Facts about a frozen set that do not depend on the rest of the state. -/
structure Static (P : Prob) (F : Nat → Prop) (D : Nat → ℝ) (K : ℝ) : Prop where
  nonneg : 0 ≤ K
  sep : ∀ i < P.G.size, ¬ F i → ∀ m m', mins P F D i 0 = some m → mins P F D i 1 = some m' →
    |m - m'| ≤ max (P.dx 0) (P.dx 1)
  good : ∀ i < P.G.size, ¬ F i → ∀ U, Cell P F D i U → K ≤ U

/-- While neighbours are being updated: every cell outside `stale` is up to date with the frozen
set `F`. -/
structure Phase (P : Prob) (F : Nat → Prop) (D : Nat → ℝ) (K : ℝ) (stale : Nat → Prop)
    (st : St) : Prop where
  base : Base P st.flag st.dist
  link : ∃ q, Link P st q
  ag : Agrees st.flag st.dist F D
  nar : ∀ i < P.G.size, st.flag i = .narrow → ¬ stale i → Cell P F D i |st.dist i|
  far : ∀ i < P.G.size, st.flag i = .far → ¬ stale i →
    mins P F D i 0 = none ∧ mins P F D i 1 = none
  low : ∀ i < P.G.size, st.flag i = .narrow → K ≤ |st.dist i|

theorem Phase.mono {F : Nat → Prop} {D : Nat → ℝ} {K : ℝ} {s s' : Nat → Prop} {st : St}
    (h : Phase P F D K s st) (hs : ∀ j < P.G.size, s j → ¬ F j → s' j) : Phase P F D K s' st where
  base := h.base
  link := h.link
  ag := h.ag
  nar := fun i hi hn hns => h.nar i hi hn fun x => hns (hs i hi x (fun hF => by
    have := (h.ag.fr i).2 hF; rw [hn] at this; cases this))
  far := fun i hi hn hns => h.far i hi hn fun x => hns (hs i hi x (fun hF => by
    have := (h.ag.fr i).2 hF; rw [hn] at this; cases this))
  low := h.low

theorem idx2_pos (ok : OK P) (d : Nat) : 0 < P.idx2 d := by
  have := ok.dx d; unfold Prob.idx2; positivity

theorem Cell.pos (ok : OK P) {F : Nat → Prop} {D : Nat → ℝ} {i : Nat} {U : ℝ}
    (h : Cell P F D i U) : 0 < U := by
  refine h.U_pos (idx2_pos ok 0) (idx2_pos ok 1) ?_ ?_ <;>
  · intro m e
    obtain ⟨_, a, _, _, _, rfl⟩ := mins_nonneg e
    exact abs_nonneg _

/-- The update of a non-frozen cell that has a frozen neighbour. -/
theorem upd (ok : OK P) {F : Nat → Prop} {D : Nat → ℝ} {K : ℝ} (hs : Static P F D K)
    {flag : Nat → Flag} {dist : Nat → ℝ} (b : Base P flag dist) (ag : Agrees flag dist F D)
    {i : Nat} (hi : i < P.G.size) (hf : flag i ≠ .frozen)
    (hex : mins P F D i 0 ≠ none ∨ mins P F D i 1 ≠ none) :
    ∃ U, update P flag dist i = sg P i * U ∧ Cell P F D i U ∧ 0 < U ∧ K ≤ U ∧
      SignOK (P.phi i) (update P flag dist i) ∧ |update P flag dist i| = U := by
  have hnF : ¬ F i := fun h => hf ((ag.fr i).2 h)
  obtain ⟨U, e, hc⟩ := update_spec (P := P) (i := i) ag ok.nd ok.dx
    (fun d hd dir a ha hFa => by
      rw [← ag.fd a hFa]
      exact coherent ok b hi hf d hd dir a ha ((ag.fr a).2 hFa))
    hex (hs.sep i hi hnF)
  have hz := (not_ini ok hi (fun h => hf (b.ini i hi h).1)).1
  have hU := hc.pos ok
  obtain ⟨s1, s2⟩ := sign_of_sg ok hi hz hU
  exact ⟨U, e, hc, hU, hs.good i hi hnF U hc, by rw [e]; exact s1, by rw [e]; exact s2⟩

/-- Marking a cell narrow does not change the frozen set. -/
theorem agrees_narrow {flag : Nat → Flag} {dist D : Nat → ℝ} {F : Nat → Prop}
    (ag : Agrees flag dist F D) {i : Nat} (hf : flag i ≠ .frozen) :
    Agrees (Function.update flag i .narrow) dist F D where
  nm := fun j => by
    by_cases e : j = i
    · subst e; simp
    · rw [Function.update_of_ne e]; exact ag.nm j
  fr := fun j => by
    by_cases e : j = i
    · subst e
      simp only [Function.update_self]
      constructor
      · intro h; cases h
      · intro h; exact absurd ((ag.fr j).2 h) hf
    · rw [Function.update_of_ne e]; exact ag.fr j
  fd := ag.fd

theorem agrees_dist {flag : Nat → Flag} {dist D : Nat → ℝ} {F : Nat → Prop}
    (ag : Agrees flag dist F D) {i : Nat} (hf : flag i ≠ .frozen) (d : ℝ) :
    Agrees flag (Function.update dist i d) F D where
  nm := ag.nm
  fr := ag.fr
  fd := fun j hj => by
    have : j ≠ i := by rintro rfl; exact hf ((ag.fr j).2 hj)
    rw [Function.update_of_ne this]; exact ag.fd j hj

/-- Pushing an updated far cell keeps the phase invariant and brings the cell up to date. -/
theorem phase_push {F : Nat → Prop} {D : Nat → ℝ} {K : ℝ} (hs : Static P F D K)
    {stale : Nat → Prop} {st : St} (h : Phase P F D K stale st) {i : Nat} (hi : i < P.G.size)
    (hf : st.flag i = .far) {U d : ℝ} (hc : Cell P F D i U) (hd : |d| = U)
    (hsg : SignOK (P.phi i) d) :
    ∃ h' n, Heap.push st.heap i |d| = .ok (h', n) ∧
      Phase P F D K (fun j => stale j ∧ j ≠ i)
        ⟨Function.update st.flag i .narrow, Function.update st.dist i d,
          Function.update st.ptr i n, h', st.log⟩ := by
  obtain ⟨q, l⟩ := h.link
  obtain ⟨h', e, l'⟩ := push_link l hi hf d
  have hnf : st.flag i ≠ .frozen := by rw [hf]; simp
  have hnF : ¬ F i := fun h' => hnf ((h.ag.fr i).2 h')
  refine ⟨h', q.next, e, ?_, l', ?_, ?_, ?_, ?_⟩
  · refine ⟨(agrees_narrow h.ag hnf).nm, ?_, ?_⟩
    · intro j hj hij
      obtain ⟨b1, b2⟩ := h.base.ini j hj hij
      have : j ≠ i := by rintro rfl; exact hnf b1
      simp only [Function.update_of_ne this]; exact ⟨b1, b2⟩
    · intro j hj hne
      by_cases eq : j = i
      · subst eq; simpa using hsg
      · simp only [Function.update_of_ne eq] at hne ⊢; exact h.base.sg j hj hne
  · have a1 := agrees_narrow h.ag hnf
    exact agrees_dist a1 (by simp) d
  · intro j hj hn hns
    simp only at hn ⊢
    by_cases eq : j = i
    · subst eq; simp only [Function.update_self]; rw [hd]; exact hc
    · simp only [Function.update_of_ne eq] at hn ⊢
      exact h.nar j hj hn (fun x => hns ⟨x, eq⟩)
  · intro j hj hn hns
    simp only at hn
    by_cases eq : j = i
    · subst eq; simp at hn
    · rw [Function.update_of_ne eq] at hn
      exact h.far j hj hn (fun x => hns ⟨x, eq⟩)
  · intro j hj hn
    simp only at hn ⊢
    by_cases eq : j = i
    · subst eq; simp only [Function.update_self]; rw [hd]; exact hs.good j hj hnF U hc
    · simp only [Function.update_of_ne eq] at hn ⊢
      exact h.low j hj hn

/-- Re-keying an updated narrow cell. -/
theorem phase_set {F : Nat → Prop} {D : Nat → ℝ} {K : ℝ} (hs : Static P F D K)
    {stale : Nat → Prop} {st : St} (h : Phase P F D K stale st) {i : Nat} (hi : i < P.G.size)
    (hf : st.flag i = .narrow) {U d : ℝ} (hc : Cell P F D i U) (hd : |d| = U)
    (hsg : SignOK (P.phi i) d) :
    ∃ h', Heap.set st.heap (st.ptr i) |d| = .ok h' ∧
      Phase P F D K (fun j => stale j ∧ j ≠ i)
        { st with heap := h', dist := Function.update st.dist i d } := by
  obtain ⟨q, l⟩ := h.link
  obtain ⟨h', e, l'⟩ := set_link l hi hf d
  have hnf : st.flag i ≠ .frozen := by rw [hf]; simp
  have hnF : ¬ F i := fun h' => hnf ((h.ag.fr i).2 h')
  refine ⟨h', e, ?_, l', ?_, ?_, ?_, ?_⟩
  · refine ⟨h.ag.nm, ?_, ?_⟩
    · intro j hj hij
      obtain ⟨b1, b2⟩ := h.base.ini j hj hij
      have : j ≠ i := by rintro rfl; exact hnf b1
      simp only [Function.update_of_ne this]; exact ⟨b1, b2⟩
    · intro j hj hne
      by_cases eq : j = i
      · subst eq; simpa using hsg
      · simp only [Function.update_of_ne eq] at hne ⊢; exact h.base.sg j hj hne
  · exact agrees_dist h.ag hnf d
  · intro j hj hn hns
    simp only at hn ⊢
    by_cases eq : j = i
    · subst eq; simp only [Function.update_self]; rw [hd]; exact hc
    · simp only [Function.update_of_ne eq] at hn ⊢
      exact h.nar j hj hn (fun x => hns ⟨x, eq⟩)
  · intro j hj hn hns
    simp only at hn
    by_cases eq : j = i
    · subst eq; rw [hf] at hn; cases hn
    · exact h.far j hj hn (fun x => hns ⟨x, eq⟩)
  · intro j hj hn
    simp only at hn ⊢
    by_cases eq : j = i
    · subst eq; simp only [Function.update_self]; rw [hd]; exact hs.good j hj hnF U hc
    · simp only [Function.update_of_ne eq] at hn ⊢
      exact h.low j hj hn

/-- One neighbour update of the main loop. -/
theorem relax_phase (ok : OK P) {F : Nat → Prop} {D : Nat → ℝ} {K : ℝ} (hs : Static P F D K)
    {stale : Nat → Prop} {st : St} (h : Phase P F D K stale st) {a d : Nat} {dir : Bool}
    (ha : a < P.G.size) (hF : F a) (hd : d < P.G.ndim) :
    ∃ st', relax P st (a, d, dir) = .ok st' ∧ st'.log = st.log ∧
      Phase P F D K (fun j => stale j ∧ P.G.nb a d dir ≠ some j) st' := by
  unfold relax getN
  simp only
  cases hn : P.G.nb a d dir with
  | none => exact ⟨st, rfl, rfl, h.mono fun j _ hj _ => ⟨hj, by simp⟩⟩
  | some n =>
    simp only
    have hnlt := ok.wf.lt a d dir n ha hd hn
    have hback := ok.wf.symm a d dir n ha hd hn
    have hex : mins P F D n 0 ≠ none ∨ mins P F D n 1 ≠ none := by
      have := mins_ne_none (P := P) (D := D) hd hback hF
      have h2 : d = 0 ∨ d = 1 := by have := ok.nd; omega
      rcases h2 with rfl | rfl
      · exact .inl this
      · exact .inr this
    by_cases hfz : st.flag n = .frozen
    · rw [if_pos hfz]
      refine ⟨st, rfl, rfl, h.mono fun j _ hj hjF => ⟨hj, ?_⟩⟩
      intro e; cases e
      exact hjF ((h.ag.fr n).1 hfz)
    · rw [if_neg hfz]
      obtain ⟨U, e, hc, hU, hKU, hsg, habs⟩ := upd ok hs h.base h.ag hnlt hfz hex
      have hne : update P st.flag st.dist n ≠ 0 := by
        intro h0; rw [h0] at habs; simp at habs; linarith
      simp only
      cases hfl : st.flag n with
      | frozen => exact absurd hfl hfz
      | mask => exact absurd hfl (h.ag.nm n)
      | narrow =>
        obtain ⟨h', e', ph⟩ := phase_set hs h hnlt hfl hc habs hsg
        simp only [if_pos hne, bind, Except.bind, hp, e']
        refine ⟨_, rfl, rfl, ph.mono fun j _ hj _ => ⟨hj.1, ?_⟩⟩
        intro e; cases e; exact hj.2 rfl
      | far =>
        obtain ⟨h', n', e', ph⟩ := phase_push hs h hnlt hfl hc habs hsg
        simp only [if_pos hne, bind, Except.bind, hp, e']
        refine ⟨_, rfl, rfl, ph.mono fun j _ hj _ => ⟨hj.1, ?_⟩⟩
        intro e; cases e; exact hj.2 rfl

/-- All neighbour updates of one batch. -/
theorem relaxAll_phase (ok : OK P) {F : Nat → Prop} {D : Nat → ℝ} {K : ℝ} (hs : Static P F D K)
    (ts : List (Nat × Nat × Bool)) (hts : ∀ t ∈ ts, t.1 < P.G.size ∧ F t.1 ∧ t.2.1 < P.G.ndim) :
    ∀ {stale : Nat → Prop} {st : St}, Phase P F D K stale st →
    ∃ st', ts.foldlM (relax P) st = .ok st' ∧ st'.log = st.log ∧
      Phase P F D K (fun j => stale j ∧ ∀ t ∈ ts, P.G.nb t.1 t.2.1 t.2.2 ≠ some j) st' := by
  induction ts with
  | nil =>
    intro stale st h
    exact ⟨st, rfl, rfl, h.mono fun j _ hj _ => ⟨hj, by simp⟩⟩
  | cons t ts ih =>
    intro stale st h
    obtain ⟨h1, h2, h3⟩ := hts t (by simp)
    obtain ⟨st1, e1, l1, p1⟩ := relax_phase ok hs h (dir := t.2.2) h1 h2 h3
    obtain ⟨st2, e2, l2, p2⟩ := ih (fun t ht => hts t (by simp [ht])) p1
    refine ⟨st2, ?_, by rw [l2, l1], p2.mono fun j _ hj _ => ⟨hj.1.1, ?_⟩⟩
    · rw [List.foldlM_cons]
      simp only [bind, Except.bind]
      rw [show relax P st t = relax P st (t.1, t.2.1, t.2.2) from rfl, e1]
      exact e2
    · intro t' ht'
      rcases List.mem_cons.1 ht' with rfl | ht'
      · exact hj.1.2
      · exact hj.2 t' ht'

end Verif.March
