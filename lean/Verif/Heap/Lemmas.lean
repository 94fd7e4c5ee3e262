import Verif.Heap.Model
import Mathlib.Order.Basic

/-! Helper lemmas for the heap model: behaviour of the two sift routines. -/

namespace Verif.Heap

variable {α : Type} [LinearOrder α]

/-- Parent position. -/
abbrev par (i : Nat) : Nat := (i - 1) / 2

/-- `p` is `s` or a descendant of `s`. -/
inductive Anc (s : Nat) : Nat → Prop
  | refl : Anc s s
  | child {p : Nat} : 0 < p → Anc s (par p) → Anc s p

theorem anc_zero (p : Nat) : Anc 0 p := by
  induction p using Nat.strongRecOn with
  | ind p ih =>
    rcases Nat.eq_zero_or_pos p with rfl | h
    · exact .refl
    · exact .child h (ih _ (by simp only [par]; omega))

theorem Anc.le {s p : Nat} (h : Anc s p) : s ≤ p := by
  induction h with
  | refl => exact Nat.le_refl _
  | child hp _ ih => simp only [par] at ih; omega

theorem Anc.par {s p : Nat} (h : Anc s p) (hs : s < p) : Anc s (par p) := by
  cases h with
  | refl => omega
  | child _ h => exact h

theorem rd_ok {β : Type} {n : Nat} {f : Nat → β} {i : Nat} (h : i < n) : rd n f i = .ok (f i) := by
  simp [rd, h]

theorem wr_ok {β : Type} {n : Nat} {f : Nat → β} {i : Nat} {v : β} (h : i < n) :
    wr n f i v = .ok (Function.update f i v) := by
  simp [wr, h]

/-- Same set of items in the first `hl` slots. -/
def SameItems (hl : Nat) (H H' : Nat → Nat) : Prop :=
  ∀ k, (∃ i < hl, H' i = k) ↔ (∃ i < hl, H i = k)

theorem SameItems.rfl {hl : Nat} {H : Nat → Nat} : SameItems hl H H := fun _ => Iff.rfl

theorem SameItems.trans {hl : Nat} {H H' H'' : Nat → Nat} (h1 : SameItems hl H H')
    (h2 : SameItems hl H' H'') : SameItems hl H H'' := fun k => (h2 k).trans (h1 k)

/-- Back-pointers are right for every slot. -/
def Bij (hl : Nat) (H B : Nat → Nat) : Prop := ∀ i < hl, B (H i) = i

theorem Bij.inj {hl : Nat} {H B : Nat → Nat} (h : Bij hl H B) {i j : Nat} (hi : i < hl)
    (hj : j < hl) (e : H i = H j) : i = j := by
  rw [← h i hi, ← h j hj, e]

/-- Exchanging two slots. -/
def swp (H : Nat → Nat) (p q : Nat) : Nat → Nat :=
  Function.update (Function.update H p (H q)) q (H p)

theorem swp_left {H : Nat → Nat} {p q : Nat} (h : p ≠ q) : swp H p q p = H q := by
  simp [swp, h]

theorem swp_right {H : Nat → Nat} {p q : Nat} : swp H p q q = H p := by
  simp [swp]

theorem swp_other {H : Nat → Nat} {p q i : Nat} (hp : i ≠ p) (hq : i ≠ q) :
    swp H p q i = H i := by
  simp [swp, hp, hq]

theorem swp_same {hl : Nat} {H : Nat → Nat} {p q : Nat} (hp : p < hl) (hq : q < hl)
    (hpq : p ≠ q) : SameItems hl H (swp H p q) := by
  intro k
  constructor
  · rintro ⟨i, hi, e⟩
    by_cases h1 : i = p
    · subst h1; exact ⟨q, hq, by rw [← e, swp_left hpq]⟩
    · by_cases h2 : i = q
      · subst h2; exact ⟨p, hp, by rw [← e, swp_right]⟩
      · exact ⟨i, hi, by rw [← e, swp_other h1 h2]⟩
  · rintro ⟨i, hi, e⟩
    by_cases h1 : i = p
    · subst h1; exact ⟨q, hq, by rw [← e, swp_right]⟩
    · by_cases h2 : i = q
      · subst h2; exact ⟨p, hp, by rw [← e, swp_left hpq]⟩
      · exact ⟨i, hi, by rw [← e, swp_other h1 h2]⟩

/-- Moving the hole from `pos` to `q` is a swap of the virtual heap. -/
theorem move_hole {heap : Nat → Nat} {pos q x : Nat} (h : pos ≠ q) :
    Function.update (Function.update heap pos (heap q)) q x =
      swp (Function.update heap pos x) pos q := by
  funext i
  unfold swp
  by_cases h1 : i = q
  · subst h1; simp
  · by_cases h2 : i = pos
    · subst h2; simp [h, Ne.symm h]
    · simp [h1, h2]

theorem bij_move {hl : Nat} {heap back : Nat → Nat} {pos q x : Nat} (hp : pos < hl) (hq : q < hl)
    (h : pos ≠ q)
    (hb : Bij hl (Function.update heap pos x) (Function.update back x pos)) :
    Bij hl (swp (Function.update heap pos x) pos q)
      (Function.update (Function.update back (heap q) pos) x q) := by
  intro i hi
  have hqx : heap q ≠ x := by
    intro e
    apply h
    apply hb.inj hp hq
    simp [Ne.symm h, e]
  by_cases h1 : i = pos
  · subst h1
    rw [swp_left h]
    simp [Ne.symm h, hqx]
  · by_cases h2 : i = q
    · subst h2; rw [swp_right]; simp
    · rw [swp_other h1 h2]
      have hb' := hb i hi
      simp only [Function.update_of_ne h1] at hb' ⊢
      have e1 : heap i ≠ x := by
        intro e; apply h1; apply hb.inj hi hp; simp [h1, e]
      have e2 : heap i ≠ heap q := by
        intro e; apply h2; apply hb.inj hi hq; simp [h1, Ne.symm h, e]
      rw [Function.update_of_ne e1] at hb'
      rw [Function.update_of_ne e1, Function.update_of_ne e2]
      exact hb'

/-- Specification of the `_siftDown` loop in terms of the virtual heap (hole filled by the item). -/
theorem siftDownLoop_spec {n hl : Nat} {d : Nat → α} {x s : Nat} (hln : hl ≤ n) :
    ∀ (pos : Nat) (heap back : Nat → Nat), pos < hl → Anc s pos →
    (∀ i < hl, Function.update heap pos x i < n) →
    Bij hl (Function.update heap pos x) (Function.update back x pos) →
    (∀ i, 0 < i → i < hl → i ≠ pos →
      d (Function.update heap pos x (par i)) ≤ d (Function.update heap pos x i)) →
    (∀ c, 0 < pos → c < hl → 0 < c → par c = pos →
      d (Function.update heap pos x (par pos)) ≤ d (Function.update heap pos x c)) →
    (0 < s → d (Function.update heap pos x (par s)) ≤ d x) →
    ∃ heap' back' pos', siftDownLoop n d x s pos heap back = .ok (heap', back', pos') ∧
      pos' < hl ∧ 
      (∀ i < hl, Function.update heap' pos' x i < n) ∧
      SameItems hl (Function.update heap pos x) (Function.update heap' pos' x) ∧
      Bij hl (Function.update heap' pos' x) (Function.update back' x pos') ∧
      (∀ i, 0 < i → i < hl →
        d (Function.update heap' pos' x (par i)) ≤ d (Function.update heap' pos' x i)) := by
  intro pos
  induction pos using Nat.strongRecOn with
  | ind pos ih =>
    intro heap back hpos hanc hent hbij ha hb hc
    rw [siftDownLoop]
    have hx : x < n := by simpa using hent pos hpos
    split
    · rename_i hlt
      have hpp : par pos < pos := by simp only [par]; omega
      have hne : pos ≠ par pos := by omega
      have hpn : heap (par pos) < n := by
        simpa [Function.update_of_ne (Ne.symm hne)] using hent (par pos) (by omega)
      have hs := hanc.le
      simp only [bind, Except.bind, rd_ok (show par pos < n by omega), rd_ok hx, rd_ok hpn]
      split
      · rename_i hd
        rw [wr_ok (by omega : pos < n)]
        simp only []
        rw [wr_ok hpn]
        simp only []
        have hmv := move_hole (heap := heap) (x := x) hne
        have hHp : Function.update heap pos x (par pos) = heap (par pos) := by
          simp [Ne.symm hne]
        obtain ⟨h', b', p', e, hp', h3, h4, h5, h6⟩ :=
          ih (par pos) hpp (Function.update heap pos (heap (par pos)))
            (Function.update back (heap (par pos)) pos) (by omega) (hanc.par hlt)
            (by
              rw [hmv]
              intro i hi
              by_cases h1 : i = pos
              · subst h1; rw [swp_left hne, hHp]; exact hpn
              · by_cases h2 : i = par pos
                · subst h2; rw [swp_right]; simpa using hx
                · rw [swp_other h1 h2]; exact hent i hi)
            (by
              rw [hmv]
              exact bij_move hpos (by omega) hne hbij)
            (by
              rw [hmv]
              intro i h0 hi hip
              by_cases h1 : i = pos
              · subst h1
                rw [swp_left hne, swp_right, hHp]
                simpa using hd.le
              · rw [swp_other h1 hip]
                by_cases h2 : par i = pos
                · rw [h2, swp_left hne]
                  exact hb i (by omega) hi h0 h2
                · by_cases h3 : par i = par pos
                  · rw [h3, swp_right]
                    have := ha i h0 hi h1
                    rw [h3, hHp] at this
                    simpa using hd.le.trans this
                  · rw [swp_other h2 h3]
                    exact ha i h0 hi h1)
            (by
              rw [hmv]
              intro c hp0 hcl hc0 hcp
              have hg : par (par pos) ≠ pos := by simp only [par]; omega
              have hg2 : par (par pos) ≠ par pos := by simp only [par] at hp0 ⊢; omega
              rw [swp_other hg hg2]
              have hpar : d (Function.update heap pos x (par (par pos))) ≤
                  d (Function.update heap pos x (par pos)) :=
                ha (par pos) hp0 (by omega) (Ne.symm hne)
              by_cases h1 : c = pos
              · subst h1; rw [swp_left hne]; exact hpar
              · have h2 : c ≠ par pos := by
                  intro h2; rw [h2] at hcp; exact hg2 hcp
                rw [swp_other h1 h2]
                refine hpar.trans ?_
                have := ha c hc0 hcl h1
                rwa [hcp] at this)
            (by
              intro hs0
              rw [hmv]
              have hsle := (hanc.par hlt).le
              have h1 : par s ≠ pos := by simp only [par] at hsle ⊢; omega
              have h2 : par s ≠ par pos := by
                have : par s < s := by simp only [par]; omega
                omega
              rw [swp_other h1 h2]
              exact hc hs0)
        refine ⟨h', b', p', e, hp', h3, ?_, h5, h6⟩
        rw [hmv] at h4
        exact (swp_same hpos (by omega) hne).trans h4
      · rename_i hd
        refine ⟨heap, back, pos, rfl, hpos, hent, .rfl, hbij, ?_⟩
        intro i h0 hi
        by_cases h1 : i = pos
        · subst h1
          simpa [Ne.symm hne] using not_lt.mp hd
        · exact ha i h0 hi h1
    · rename_i hlt
      have hsp : s = pos := by have := hanc.le; omega
      subst hsp
      refine ⟨heap, back, s, rfl, hpos, hent, .rfl, hbij, ?_⟩
      intro i h0 hi
      by_cases h1 : i = s
      · subst h1
        simpa using hc h0
      · exact ha i h0 hi h1

/-- Specification of `_siftDown`. -/
theorem siftDown_spec {n hl : Nat} {d : Nat → α} {s pos : Nat} {heap back : Nat → Nat}
    (hln : hl ≤ n) (hpos : pos < hl) (hanc : Anc s pos)
    (hent : ∀ i < hl, heap i < n)
    (hbij : Bij hl heap (Function.update back (heap pos) pos))
    (ha : ∀ i, 0 < i → i < hl → i ≠ pos → d (heap (par i)) ≤ d (heap i))
    (hb : ∀ c, 0 < pos → c < hl → 0 < c → par c = pos → d (heap (par pos)) ≤ d (heap c))
    (hc : 0 < s → d (heap (par s)) ≤ d (heap pos)) :
    ∃ heap' back', siftDown n d heap back s pos = .ok (heap', back') ∧
      (∀ i < hl, heap' i < n) ∧ SameItems hl heap heap' ∧ Bij hl heap' back' ∧
      (∀ i, 0 < i → i < hl → d (heap' (par i)) ≤ d (heap' i)) := by
  have hu : Function.update heap pos (heap pos) = heap := Function.update_eq_self pos heap
  obtain ⟨h', b', p', e, hp', h3, h4, h5, h6⟩ :=
    siftDownLoop_spec (n := n) (hl := hl) (d := d) (x := heap pos) (s := s) hln pos heap back hpos
      hanc (by rwa [hu]) (by rwa [hu]) (by rwa [hu]) (by rwa [hu]) (by rwa [hu])
  refine ⟨Function.update h' p' (heap pos), Function.update b' (heap pos) p', ?_, h3, ?_, h5, h6⟩
  · unfold siftDown
    simp only [bind, Except.bind, rd_ok (show pos < n by omega), e]
    rw [wr_ok (show p' < n by omega)]
    simp only []
    rw [wr_ok (hent pos hpos)]
  · rwa [hu] at h4

/-- What `pickChild` returns: a child of smallest distance. -/
theorem pickChild_spec {n hl : Nat} {d : Nat → α} {heap : Nat → Nat} {pos : Nat} (hln : hl ≤ n)
    (hent : ∀ i < hl, i ≠ pos → heap i < n) (h : 2 * pos + 1 < hl) :
    ∃ c, pickChild n d heap hl (2 * pos + 1) = .ok c ∧ c < hl ∧ pos < c ∧ par c = pos ∧
      (∀ c', c' < hl → 0 < c' → par c' = pos → d (heap c) ≤ d (heap c')) := by
  unfold pickChild
  have hc1 : heap (2 * pos + 1) < n := hent _ h (by omega)
  split
  · rename_i hr
    have hc2 : heap (2 * pos + 1 + 1) < n := hent _ hr (by omega)
    simp only [bind, Except.bind, rd_ok (show 2 * pos + 1 < n by omega),
      rd_ok (show 2 * pos + 1 + 1 < n by omega), rd_ok hc1, rd_ok hc2]
    split
    · rename_i hd
      refine ⟨_, rfl, h, by omega, by simp only [par]; omega, ?_⟩
      intro c' h1 h2 h3
      have : c' = 2 * pos + 1 ∨ c' = 2 * pos + 1 + 1 := by simp only [par] at h3; omega
      rcases this with rfl | rfl
      · exact le_rfl
      · exact hd.le
    · rename_i hd
      refine ⟨_, rfl, hr, by omega, by simp only [par]; omega, ?_⟩
      intro c' h1 h2 h3
      have : c' = 2 * pos + 1 ∨ c' = 2 * pos + 1 + 1 := by simp only [par] at h3; omega
      rcases this with rfl | rfl
      · exact not_lt.mp hd
      · exact le_rfl
  · rename_i hr
    refine ⟨_, rfl, h, by omega, by simp only [par]; omega, ?_⟩
    intro c' h1 h2 h3
    have : c' = 2 * pos + 1 := by simp only [par] at h3; omega
    subst this; exact le_rfl

/-- Specification of the `_siftUp` loop in terms of the virtual heap. -/
theorem siftUpLoop_spec {n hl : Nat} {d : Nat → α} {x s : Nat} (hln : hl ≤ n) :
    ∀ (k pos : Nat) (heap back : Nat → Nat), hl - pos = k → pos < hl → Anc s pos →
    (∀ i < hl, Function.update heap pos x i < n) →
    Bij hl (Function.update heap pos x) (Function.update back x pos) →
    (∀ i, 0 < i → i < hl → i ≠ pos → par i ≠ pos →
      d (Function.update heap pos x (par i)) ≤ d (Function.update heap pos x i)) →
    (∀ c, 0 < pos → c < hl → 0 < c → par c = pos →
      d (Function.update heap pos x (par pos)) ≤ d (Function.update heap pos x c)) →
    (0 < s → d (Function.update heap pos x (par s)) ≤ d x) →
    ∃ heap' back' pos', siftUpLoop n d hl pos heap back = .ok (heap', back', pos') ∧
      pos' < hl ∧ Anc s pos' ∧
      (∀ i < hl, Function.update heap' pos' x i < n) ∧
      SameItems hl (Function.update heap pos x) (Function.update heap' pos' x) ∧
      Bij hl (Function.update heap' pos' x) (Function.update back' x pos') ∧
      (∀ i, 0 < i → i < hl → i ≠ pos' →
        d (Function.update heap' pos' x (par i)) ≤ d (Function.update heap' pos' x i)) ∧
      (∀ c, c < hl → 0 < c → par c ≠ pos') ∧
      (0 < s → d (Function.update heap' pos' x (par s)) ≤ d x) := by
  intro k
  induction k using Nat.strongRecOn with
  | ind k ih =>
    intro pos heap back hk hpos hanc hent hbij ha hb hc
    rw [siftUpLoop]
    have hx : x < n := by simpa using hent pos hpos
    split
    · rename_i hlt
      obtain ⟨c, ec, hcl, hpc, hpar, hmin⟩ := pickChild_spec (n := n) (d := d) (heap := heap) hln
        (by intro i hi h; simpa [h] using hent i hi) hlt
      have hne : pos ≠ c := by omega
      have hc0 : 0 < c := by omega
      have hcn : heap c < n := by
        simpa [Ne.symm hne] using hent c hcl
      have hHc : Function.update heap pos x c = heap c := by simp [Ne.symm hne]
      split
      · rename_i e he; rw [ec] at he; cases he
      · rename_i c' he
        rw [ec] at he; cases he
        simp only [bind, Except.bind, rd_ok (show c < n by omega)]
        rw [wr_ok (show pos < n by omega)]
        simp only []
        rw [wr_ok hcn]
        simp only []
        have hmv := move_hole (heap := heap) (x := x) hne
        have hs := hanc.le
        obtain ⟨h', b', p', e, hp', hA', h3, h4, h5, h6, h7, h8⟩ :=
          ih (hl - c) (by omega) c (Function.update heap pos (heap c))
            (Function.update back (heap c) pos) rfl hcl
            (.child hc0 (by rw [hpar]; exact hanc))
            (by
              rw [hmv]
              intro i hi
              by_cases h1 : i = pos
              · subst h1; rw [swp_left hne, hHc]; exact hcn
              · by_cases h2 : i = c
                · subst h2; rw [swp_right]; simpa using hx
                · rw [swp_other h1 h2]; exact hent i hi)
            (by
              rw [hmv]
              exact bij_move hpos hcl hne hbij)
            (by
              rw [hmv]
              intro i h0 hi hic hpic
              by_cases h1 : i = pos
              · subst h1
                have hpne : par i ≠ i := by simp only [par]; omega
                rw [swp_left hne, swp_other hpne hpic]
                exact hb c h0 hcl hc0 hpar
              · rw [swp_other h1 hic]
                by_cases h2 : par i = pos
                · rw [h2, swp_left hne, hHc]
                  have := hmin i hi h0 h2
                  simpa [h1] using this
                · rw [swp_other h2 hpic]
                  exact ha i h0 hi h1 h2)
            (by
              rw [hmv]
              intro c' _ hcl' hc0' hcp'
              have h1 : c' ≠ pos := by simp only [par] at hcp'; omega
              have h2 : c' ≠ c := by simp only [par] at hcp'; omega
              rw [hpar, swp_left hne, swp_other h1 h2]
              have := ha c' hc0' hcl' h1 (by omega)
              rwa [hcp'] at this)
            (by
              intro hs0
              rw [hmv]
              have h1 : par s ≠ pos := by simp only [par]; omega
              have h2 : par s ≠ c := by simp only [par]; omega
              rw [swp_other h1 h2]
              exact hc hs0)
        refine ⟨h', b', p', e, hp', hA', h3, ?_, h5, h6, h7, h8⟩
        rw [hmv] at h4
        exact (swp_same hpos hcl hne).trans h4
    · rename_i hlt
      have hnc : ∀ c, c < hl → 0 < c → par c ≠ pos := by
        intro c h1 h2; simp only [par]; omega
      exact ⟨heap, back, pos, rfl, hpos, hanc, hent, .rfl, hbij,
        fun i h0 hi h1 => ha i h0 hi h1 (hnc i hi h0), hnc, hc⟩

/-- Specification of `_siftUp`. -/
theorem siftUp_spec {n hl : Nat} {d : Nat → α} {pos : Nat} {heap back : Nat → Nat}
    (hln : hl ≤ n) (hpos : pos < hl)
    (hent : ∀ i < hl, heap i < n)
    (hbij : Bij hl heap (Function.update back (heap pos) pos))
    (ha : ∀ i, 0 < i → i < hl → i ≠ pos → par i ≠ pos → d (heap (par i)) ≤ d (heap i))
    (hb : ∀ c, 0 < pos → c < hl → 0 < c → par c = pos → d (heap (par pos)) ≤ d (heap c))
    (hc : 0 < pos → d (heap (par pos)) ≤ d (heap pos)) :
    ∃ heap' back', siftUp n d hl heap back pos = .ok (heap', back') ∧
      (∀ i < hl, heap' i < n) ∧ SameItems hl heap heap' ∧ Bij hl heap' back' ∧
      (∀ i, 0 < i → i < hl → d (heap' (par i)) ≤ d (heap' i)) := by
  have hu : Function.update heap pos (heap pos) = heap := Function.update_eq_self pos heap
  obtain ⟨h', b', p', e, hp', hA', h3, h4, h5, h6, h7, h8⟩ :=
    siftUpLoop_spec (n := n) (hl := hl) (d := d) (x := heap pos) (s := pos) hln _ pos heap back rfl
      hpos .refl (by rwa [hu]) (by rwa [hu]) (by rwa [hu]) (by rwa [hu]) (by rwa [hu])
  rw [hu] at h4
  have hat : Function.update h' p' (heap pos) p' = heap pos := by simp
  obtain ⟨h'', b'', e2, g1, g2, g3, g4⟩ :=
    siftDown_spec (n := n) (hl := hl) (d := d) (s := pos) (pos := p')
      (heap := Function.update h' p' (heap pos)) (back := b') hln hp' hA' h3
      (by rw [hat]; exact h5) h6
      (fun c _ hcl hc0 hcp => absurd hcp (h7 c hcl hc0))
      (by rw [hat]; exact h8)
  refine ⟨h'', b'', ?_, g1, h4.trans g2, g3, g4⟩
  unfold siftUp
  simp only [bind, Except.bind, rd_ok (show pos < n by omega), e]
  rw [wr_ok (show p' < n by omega)]
  exact e2

end Verif.Heap
