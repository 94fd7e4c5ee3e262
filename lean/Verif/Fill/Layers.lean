import Verif.Fill.Find

/-!
# `fill_neighbor_cells`
-/

namespace Verif.Fill

variable {α : Type}

/-- What visiting cell `a` does, on a grid of either dimension; `iso` says whether isolated cells take part. -/
def Visit (nX : List Nat) (iso : Bool) (src : Nat → Option Int) (N0 : Int) (s s' : Layers α) (a : Nat) : Prop :=
  (¬ ((s.mask a = 0 ∨ (iso = true ∧ s.mask a = -2)) ∧ ∃ b, Adj nX a b ∧ s.mask b = N0) ∧ s' = s) ∨
  ((s.mask a = 0 ∨ (iso = true ∧ s.mask a = -2)) ∧ ∃ b, Adj nX a b ∧ s.mask b = N0 ∧
    s'.mask = Function.update s.mask a (N0 + 1) ∧ copyCell nX.prod (src a) s'.mask s.grid a b = some s'.grid ∧
    s'.isolates = if s.mask a = -2 then s.isolates ++ [a] else s.isolates)

theorem visit1_spec (n : Nat) (src : Nat → Option Int) (N0 : Int) (s s' : Layers α) (i : Nat) (hi : i < n)
    (h : visit1 n src N0 s i = some s') : Visit [n] false src N0 s s' i := by
  have adj := fun b => adj1_iff (b := b) hi
  unfold visit1 at h
  by_cases h0 : s.mask i = 0
  · rw [if_pos h0] at h
    simp only at h
    have fin : ∀ b : Nat, Adj [n] i b → s.mask b = N0 →
        (copyCell n (src i) (Function.update s.mask i (N0 + 1)) s.grid i ((b : Int)).toNat).map
          (fun g => (⟨Function.update s.mask i (N0 + 1), g, s.isolates⟩ : Layers α)) = some s' →
        Visit [n] false src N0 s s' i := by
      intro b hb hm hc
      obtain ⟨g, hg, rfl⟩ := Option.map_eq_some_iff.1 hc
      refine Or.inr ⟨Or.inl h0, b, hb, hm, rfl, ?_, ?_⟩
      · simpa using hg
      · rw [if_neg (by rw [h0]; norm_num)]
    by_cases c1 : i + 1 < n ∧ s.mask (i + 1) = N0
    · rw [if_pos c1, if_pos (by omega)] at h
      exact fin (i + 1) ((adj _).2 (Or.inr ⟨c1.1, rfl⟩)) c1.2 h
    · rw [if_neg c1] at h
      by_cases c2 : 0 < i ∧ s.mask (i - 1) = N0
      · rw [if_pos c2, if_pos (by omega)] at h
        exact fin (i - 1) ((adj _).2 (Or.inl ⟨c2.1, rfl⟩)) c2.2 h
      · rw [if_neg c2, if_neg (by omega)] at h
        cases h
        refine Or.inl ⟨?_, rfl⟩
        rintro ⟨_, b, hb, hm⟩
        rcases (adj b).1 hb with ⟨h1, rfl⟩ | ⟨h1, rfl⟩
        · exact c2 ⟨h1, hm⟩
        · exact c1 ⟨h1, hm⟩
  · rw [if_neg h0] at h
    cases h
    refine Or.inl ⟨?_, rfl⟩
    rintro ⟨h1 | ⟨h1, _⟩, _⟩
    · exact h0 h1
    · cases h1

/-- `neighbor_index` finds a neighbour with the value if there is one, and returns -1 otherwise. -/
theorem neighborIndex_spec (mask : Mask) (i j nx ny : Nat) (N0 : Int) (hi : i < nx) (hj : j < ny) :
    (∃ b : Nat, neighborIndex mask i j nx ny N0 = b ∧ Adj [nx, ny] (i * ny + j) b ∧ mask b = N0) ∨
    (neighborIndex mask i j nx ny N0 = -1 ∧ ¬ ∃ b, Adj [nx, ny] (i * ny + j) b ∧ mask b = N0) := by
  have adj := fun b => adj2_iff (b := b) hi hj
  unfold neighborIndex
  simp only
  by_cases c4 : j + 1 < ny ∧ mask (i * ny + (j + 1)) = N0
  · rw [if_pos c4]
    exact Or.inl ⟨_, rfl, (adj _).2 (Or.inr (Or.inr (Or.inr ⟨c4.1, rfl⟩))), c4.2⟩
  rw [if_neg c4]
  by_cases c3 : 0 < j ∧ mask (i * ny + (j - 1)) = N0
  · rw [if_pos c3]
    exact Or.inl ⟨_, rfl, (adj _).2 (Or.inr (Or.inr (Or.inl ⟨c3.1, rfl⟩))), c3.2⟩
  rw [if_neg c3]
  by_cases c2 : i + 1 < nx ∧ mask ((i + 1) * ny + j) = N0
  · rw [if_pos c2]
    exact Or.inl ⟨_, rfl, (adj _).2 (Or.inr (Or.inl ⟨c2.1, rfl⟩)), c2.2⟩
  rw [if_neg c2]
  by_cases c1 : 0 < i ∧ mask ((i - 1) * ny + j) = N0
  · rw [if_pos c1]
    exact Or.inl ⟨_, rfl, (adj _).2 (Or.inl ⟨c1.1, rfl⟩), c1.2⟩
  rw [if_neg c1]
  refine Or.inr ⟨rfl, ?_⟩
  rintro ⟨b, hb, hm⟩
  rcases (adj b).1 hb with ⟨h1, rfl⟩ | ⟨h1, rfl⟩ | ⟨h1, rfl⟩ | ⟨h1, rfl⟩
  · exact c1 ⟨h1, hm⟩
  · exact c2 ⟨h1, hm⟩
  · exact c3 ⟨h1, hm⟩
  · exact c4 ⟨h1, hm⟩

theorem visit2_spec (nx ny : Nat) (src : Nat → Option Int) (N0 : Int) (s s' : Layers α) (i j : Nat) (hi : i < nx)
    (hj : j < ny) (h : visit2 nx ny src N0 s i j = some s') : Visit [nx, ny] true src N0 s s' (i * ny + j) := by
  unfold visit2 at h
  simp only at h
  split_ifs at h with h0 h1 h2
  · obtain ⟨g, hg, rfl⟩ := Option.map_eq_some_iff.1 h
    rcases neighborIndex_spec s.mask i j nx ny N0 hi hj with ⟨b, hb, hadj, hm⟩ | ⟨hb, _⟩
    · rw [hb] at hg
      refine Or.inr ⟨by simpa using h0, b, hadj, hm, rfl, ?_, by rw [if_pos h2]⟩
      simpa using hg
    · omega
  · obtain ⟨g, hg, rfl⟩ := Option.map_eq_some_iff.1 h
    rcases neighborIndex_spec s.mask i j nx ny N0 hi hj with ⟨b, hb, hadj, hm⟩ | ⟨hb, _⟩
    · rw [hb] at hg
      refine Or.inr ⟨by simpa using h0, b, hadj, hm, rfl, ?_, by rw [if_neg h2]⟩
      simpa using hg
    · omega
  · cases h
    refine Or.inl ⟨?_, rfl⟩
    rintro ⟨_, hb⟩
    rcases neighborIndex_spec s.mask i j nx ny N0 hi hj with ⟨b, hb', _, _⟩ | ⟨_, hn⟩
    · omega
    · exact hn hb
  · cases h
    exact Or.inl ⟨fun hc => h0 (by simpa using hc.1), rfl⟩

/-- Visits of the cells `0, …, p - 1` in this order. -/
inductive Sweep (nX : List Nat) (iso : Bool) (src : Nat → Option Int) (N0 : Int) (s : Layers α) : Nat → Layers α → Prop
  | nil : Sweep nX iso src N0 s 0 s
  | cons {p : Nat} {t t' : Layers α} : Sweep nX iso src N0 s p t → Visit nX iso src N0 t t' p → Sweep nX iso src N0 s (p + 1) t'

theorem foldlM_snoc {β γ : Type} (f : β → γ → Option β) (l : List γ) (x : γ) (s s' : β)
    (h : (l ++ [x]).foldlM f s = some s') : ∃ t, l.foldlM f s = some t ∧ f t x = some s' := by
  rw [List.foldlM_append] at h
  obtain ⟨t, ht, h⟩ := Option.bind_eq_some_iff.1 h
  refine ⟨t, ht, ?_⟩
  simpa [List.foldlM] using h

theorem sweep1 (n : Nat) (src : Nat → Option Int) (N0 : Int) (s s' : Layers α) (h : pass1 n src N0 s = some s') :
    Sweep [n] false src N0 s n s' := by
  have key : ∀ p ≤ n, ∀ s', (List.range p).foldlM (visit1 n src N0) s = some s' → Sweep [n] false src N0 s p s' := by
    intro p hp
    induction p with
    | zero =>
      intro s' h
      have : s = s' := by simpa using h
      rw [← this]
      exact .nil
    | succ p ih =>
      intro s' h
      rw [List.range_succ] at h
      obtain ⟨t, ht, hv⟩ := foldlM_snoc _ _ _ _ _ h
      exact .cons (ih (by omega) t ht) (visit1_spec n src N0 t s' p (by omega) hv)
  exact key n le_rfl s' h

theorem sweep2 (nx ny : Nat) (src : Nat → Option Int) (N0 : Int) (s s' : Layers α)
    (h : (List.range nx).foldlM (fun s i => (List.range ny).foldlM (fun s j => visit2 nx ny src N0 s i j) s) s =
      some s') : Sweep [nx, ny] true src N0 s (nx * ny) s' := by
  have inner : ∀ i < nx, ∀ q ≤ ny, ∀ t t', Sweep [nx, ny] true src N0 s (i * ny) t →
      (List.range q).foldlM (fun s j => visit2 nx ny src N0 s i j) t = some t' →
      Sweep [nx, ny] true src N0 s (i * ny + q) t' := by
    intro i hi q hq
    induction q with
    | zero =>
      intro t t' ht h
      have : t = t' := by simpa using h
      rw [← this]
      exact ht
    | succ q ih =>
      intro t t' ht h
      rw [List.range_succ] at h
      obtain ⟨r, hr, hv⟩ := foldlM_snoc _ _ _ _ _ h
      exact .cons (ih (by omega) t r ht hr) (visit2_spec nx ny src N0 r t' i q hi (by omega) hv)
  have outer : ∀ p ≤ nx, ∀ s', (List.range p).foldlM
      (fun s i => (List.range ny).foldlM (fun s j => visit2 nx ny src N0 s i j) s) s = some s' →
      Sweep [nx, ny] true src N0 s (p * ny) s' := by
    intro p hp
    induction p with
    | zero =>
      intro s' h
      have : s = s' := by simpa using h
      rw [← this, Nat.zero_mul]
      exact .nil
    | succ p ih =>
      intro s' h
      rw [List.range_succ] at h
      obtain ⟨t, ht, hv⟩ := foldlM_snoc _ _ _ _ _ h
      have := inner p (by omega) ny le_rfl t s' (ih (by omega) t ht) hv
      rwa [show (p + 1) * ny = p * ny + ny by ring]
  exact outer nx le_rfl s' h

/-- The cells a pass fills. -/
def Hit (nX : List Nat) (iso : Bool) (N0 : Int) (m : Mask) (a : Nat) : Prop :=
  (m a = 0 ∨ (iso = true ∧ m a = -2)) ∧ ∃ b, Adj nX a b ∧ m b = N0

open Classical in
theorem sweep_mask (nX : List Nat) (iso : Bool) (src : Nat → Option Int) (N0 : Int) (hN : 1 ≤ N0) (s : Layers α)
    (p : Nat) (t : Layers α) (h : Sweep nX iso src N0 s p t) :
    (∀ a, t.mask a = if a < p ∧ Hit nX iso N0 s.mask a then N0 + 1 else s.mask a) ∧
    ∀ a, a ∈ t.isolates ↔ a ∈ s.isolates ∨ (a < p ∧ Hit nX iso N0 s.mask a ∧ s.mask a = -2) := by
  induction h with
  | nil => exact ⟨fun a => by simp, fun a => by simp⟩
  | @cons p t t' _ hv ih =>
    obtain ⟨ih1, ih2⟩ := ih
    have hself : t.mask p = s.mask p := by rw [ih1, if_neg (by omega)]
    have hsame : ∀ b, t.mask b = N0 ↔ s.mask b = N0 := by
      intro b
      rw [ih1]
      split_ifs with hc
      · constructor
        · intro h; omega
        · intro h
          rcases hc.2.1 with h' | ⟨_, h'⟩ <;> omega
      · rfl
    have hhit : ((t.mask p = 0 ∨ (iso = true ∧ t.mask p = -2)) ∧ ∃ b, Adj nX p b ∧ t.mask b = N0) ↔
        Hit nX iso N0 s.mask p := by
      unfold Hit
      rw [hself]
      simp only [hsame]
    rcases hv with ⟨hn, rfl⟩ | ⟨he, b, hb, hm, h1, _, h3⟩
    · rw [hhit] at hn
      constructor
      · intro a
        rw [ih1]
        by_cases ha : a = p
        · subst ha; simp [hn]
        · have : (a < p + 1 ∧ Hit nX iso N0 s.mask a) ↔ (a < p ∧ Hit nX iso N0 s.mask a) := by
            constructor <;> rintro ⟨h, h'⟩ <;> exact ⟨by omega, h'⟩
          simp only [this]
      · intro a
        rw [ih2]
        by_cases ha : a = p
        · subst ha; simp [hn]
        · have : (a < p + 1 ∧ Hit nX iso N0 s.mask a ∧ s.mask a = -2) ↔
              (a < p ∧ Hit nX iso N0 s.mask a ∧ s.mask a = -2) := by
            constructor <;> rintro ⟨h, h'⟩ <;> exact ⟨by omega, h'⟩
          simp only [this]
    · have hh : Hit nX iso N0 s.mask p := hhit.1 ⟨he, b, hb, hm⟩
      constructor
      · intro a
        rw [h1]
        by_cases ha : a = p
        · subst ha
          rw [Function.update_self, if_pos ⟨by omega, hh⟩]
        · have : (a < p + 1 ∧ Hit nX iso N0 s.mask a) ↔ (a < p ∧ Hit nX iso N0 s.mask a) := by
            constructor <;> rintro ⟨h, h'⟩ <;> exact ⟨by omega, h'⟩
          rw [Function.update_of_ne ha, ih1]
          simp only [this]
      · intro a
        rw [h3, hself]
        split_ifs with h2
        · rw [List.mem_append, ih2, List.mem_singleton]
          constructor
          · rintro ((h | ⟨h, h'⟩) | rfl)
            · exact Or.inl h
            · exact Or.inr ⟨by omega, h'⟩
            · exact Or.inr ⟨by omega, hh, h2⟩
          · rintro (h | ⟨h, h'⟩)
            · exact Or.inl (Or.inl h)
            · by_cases ha : a = p
              · exact Or.inr ha
              · exact Or.inl (Or.inr ⟨by omega, h'⟩)
        · rw [ih2]
          constructor
          · rintro (h | ⟨h, h'⟩)
            · exact Or.inl h
            · exact Or.inr ⟨by omega, h'⟩
          · rintro (h | ⟨h, h', h''⟩)
            · exact Or.inl h
            · by_cases ha : a = p
              · subst ha; exact absurd h'' h2
              · exact Or.inr ⟨by omega, h', h''⟩

theorem copyCell_some {ncell : Nat} {src : Option Int} {mask : Mask} {grid g : Nat → α} {ind indn : Nat}
    (h : copyCell ncell src mask grid ind indn = some g) :
    ∃ s < ncell, src = some (s : Int) ∧ g = Function.update grid ind (grid (if mask s < 1 then indn else s)) := by
  unfold copyCell at h
  split at h
  · cases h
  · rename_i s
    by_cases hs : s < 0 ∨ (ncell : Int) ≤ s
    · rw [if_pos hs] at h; cases h
    rw [if_neg hs] at h
    push Not at hs
    have e : ((s.toNat : Nat) : Int) = s := Int.toNat_of_nonneg hs.1
    exact ⟨s.toNat, by omega, by rw [e], (Option.some.inj h).symm⟩

theorem sweep_grid (nX : List Nat) (iso : Bool) (src : Nat → Option Int) (N0 : Int) (hN : 1 ≤ N0) (s : Layers α)
    (p : Nat) (t : Layers α) (h : Sweep nX iso src N0 s p t) :
    (∀ a, ¬ (a < p ∧ Hit nX iso N0 s.mask a) → t.grid a = s.grid a) ∧
    ∀ Good : α → Prop, (∀ a, Hit nX iso N0 s.mask a → src a ≠ some (a : Int)) →
      (∀ a < nX.prod, 1 ≤ s.mask a → Good (s.grid a)) →
      (∀ a < nX.prod, 1 ≤ t.mask a → Good (t.grid a)) ∧ ∀ a, t.grid a = s.grid a ∨ Good (t.grid a) := by
  classical
  induction h with
  | nil => exact ⟨fun _ _ => rfl, fun Good _ h => ⟨h, fun _ => Or.inl rfl⟩⟩
  | @cons p t t' hs hv ih =>
    obtain ⟨ih1, ih2⟩ := ih
    obtain ⟨m1, _⟩ := sweep_mask nX iso src N0 hN s p t hs
    have hself : t.mask p = s.mask p := by rw [m1, if_neg (by omega)]
    have hsame : ∀ b, t.mask b = N0 ↔ s.mask b = N0 := by
      intro b
      rw [m1]
      split_ifs with hc
      · constructor
        · intro h; omega
        · intro h
          rcases hc.2.1 with h' | ⟨_, h'⟩ <;> omega
      · rfl
    rcases hv with ⟨hn, rfl⟩ | ⟨he, b, hb, hm, h1, h2, _⟩
    · exact ⟨fun a ha => ih1 a fun hc => ha ⟨by omega, hc.2⟩, ih2⟩
    · obtain ⟨k, hk, hsrc, hg⟩ := copyCell_some h2
      have hh : Hit nX iso N0 s.mask p := by
        unfold Hit
        rw [← hself]
        exact ⟨he, b, hb, (hsame b).1 hm⟩
      refine ⟨fun a ha => ?_, fun Good hne h0 => ?_⟩
      · have hap : a ≠ p := fun hc => ha ⟨by omega, hc ▸ hh⟩
        rw [hg, Function.update_of_ne hap]
        exact ih1 a fun hc => ha ⟨by omega, hc.2⟩
      · obtain ⟨g1, g2⟩ := ih2 Good hne h0
        have hgood : Good (t'.grid p) := by
          rw [hg, Function.update_self]
          split_ifs with hlt
          · exact g1 b (adj_lt hb.symm) (by rw [hm]; exact hN)
          · have hkp : k ≠ p := fun hc => hne p hh (hc ▸ hsrc)
            rw [h1, Function.update_of_ne hkp] at hlt
            exact g1 k hk (by omega)
        have hother : ∀ a, a ≠ p → t'.grid a = t.grid a := fun a ha => by rw [hg, Function.update_of_ne ha]
        constructor
        · intro a ha hm'
          by_cases hap : a = p
          · rw [hap]; exact hgood
          · rw [hother a hap]
            refine g1 a ha ?_
            rwa [h1, Function.update_of_ne hap] at hm'
        · intro a
          by_cases hap : a = p
          · rw [hap]; exact Or.inr hgood
          · rw [hother a hap]; exact g2 a

theorem reset_mask (l : List Nat) (m : Mask) (a : Nat) :
    l.foldl (fun m k => Function.update m k (-2)) m a = if a ∈ l then -2 else m a := by
  induction l generalizing m with
  | nil => simp
  | cons k l ih =>
    rw [List.foldl_cons, ih]
    by_cases hal : a ∈ l
    · simp [hal]
    · by_cases hak : a = k
      · subst hak; simp [hal]
      · simp [hal, hak]

open Classical in
/-- The effect of a pass on a grid of one or two axes. -/
theorem pass_spec (nX : List Nat) (hd : nX.length = 1 ∨ nX.length = 2) (src : Nat → Option Int) (N0 : Int)
    (hN : 1 ≤ N0) (s s' : Layers α) (h : passOf nX src N0 s = some s') :
    (∀ a < nX.prod, s'.mask a = if s.mask a = 0 ∧ ∃ b, Adj nX a b ∧ s.mask b = N0 then N0 + 1 else s.mask a) ∧
    (∀ a, ¬ Hit nX true N0 s.mask a → s'.grid a = s.grid a) ∧
    ∀ Good : α → Prop, (∀ a, Hit nX true N0 s.mask a → src a ≠ some (a : Int)) →
      (∀ a < nX.prod, 1 ≤ s.mask a → Good (s.grid a)) →
      (∀ a < nX.prod, 1 ≤ s'.mask a → Good (s'.grid a)) ∧ ∀ a, s'.grid a = s.grid a ∨ Good (s'.grid a) := by
  rcases hd with hd | hd
  · obtain ⟨n, rfl⟩ := List.length_eq_one_iff.1 hd
    have hs := sweep1 n src N0 s s' h
    obtain ⟨m1, _⟩ := sweep_mask _ _ _ _ hN _ _ _ hs
    obtain ⟨g1, g2⟩ := sweep_grid _ _ _ _ hN _ _ _ hs
    have himp : ∀ a, Hit [n] false N0 s.mask a → Hit [n] true N0 s.mask a := by
      rintro a ⟨h1 | ⟨h1, _⟩, h2⟩
      · exact ⟨Or.inl h1, h2⟩
      · cases h1
    refine ⟨fun a ha => ?_, fun a ha => g1 a fun hc => ha (himp a hc.2), fun Good hne => g2 Good fun a ha =>
      hne a (himp a ha)⟩
    rw [m1]
    have ha' : a < n := by simpa using ha
    simp [Hit, ha']
  · obtain ⟨nx, ny, rfl⟩ := List.length_eq_two.1 hd
    unfold passOf pass2 at h
    simp only at h
    obtain ⟨t, ht, rfl⟩ := Option.map_eq_some_iff.1 h
    have hs := sweep2 nx ny src N0 _ t ht
    obtain ⟨m1, m2⟩ := sweep_mask _ _ _ _ hN _ _ _ hs
    obtain ⟨g1, g2⟩ := sweep_grid _ _ _ _ hN _ _ _ hs
    simp only at m1 m2 g1 g2 ⊢
    have hres : ∀ a < [nx, ny].prod, t.isolates.foldl (fun m k => Function.update m k (-2)) t.mask a =
        if s.mask a = 0 ∧ ∃ b, Adj [nx, ny] a b ∧ s.mask b = N0 then N0 + 1 else s.mask a := by
      intro a ha
      have ha' : a < nx * ny := by simpa using ha
      rw [reset_mask, m1]
      simp only [m2, List.not_mem_nil, false_or, ha', true_and]
      by_cases hh : Hit [nx, ny] true N0 s.mask a
      · by_cases h2 : s.mask a = -2
        · rw [if_pos ⟨hh, h2⟩, if_neg (by omega), h2]
        · rw [if_neg (by tauto), if_pos hh, if_pos]
          refine ⟨?_, hh.2⟩
          rcases hh.1 with h | ⟨_, h⟩
          · exact h
          · exact absurd h h2
      · rw [if_neg (by tauto), if_neg hh, if_neg fun hc => hh ⟨Or.inl hc.1, hc.2⟩]
    refine ⟨hres, fun a ha => g1 a fun hc => ha hc.2, fun Good hne h0 => ?_⟩
    obtain ⟨k1, k2⟩ := g2 Good hne h0
    refine ⟨fun a ha hm => k1 a ha ?_, k2⟩
    rw [reset_mask] at hm
    split_ifs at hm with hc
    · omega
    · exact hm

/-- A walk of `k` steps from a cell marked 1 through unmarked cells. -/
inductive Walk (nX : List Nat) (m : Mask) : Nat → Nat → Prop
  | start {a : Nat} : a < nX.prod → m a = 1 → Walk nX m 0 a
  | step {k a b : Nat} : Walk nX m k b → Adj nX b a → m a = 0 → Walk nX m (k + 1) a

/-- The distance of `a` from the cells marked 1 through unmarked cells is `k`. -/
def LayerDist (nX : List Nat) (m : Mask) (k a : Nat) : Prop := Walk nX m k a ∧ ∀ j < k, ¬ Walk nX m j a

theorem walk_zero {nX : List Nat} {m : Mask} {a : Nat} (h : Walk nX m 0 a) : m a = 1 := by
  cases h with
  | start _ h => exact h

theorem walk_lt {nX : List Nat} {m : Mask} {k a : Nat} (h : Walk nX m k a) : a < nX.prod := by
  cases h with
  | start h _ => exact h
  | step _ h _ => exact adj_lt h.symm

theorem walk_pos {nX : List Nat} {m : Mask} {k a : Nat} (h : Walk nX m k a) (hk : 0 < k) : m a = 0 := by
  cases h with
  | start _ _ => omega
  | step _ _ h => exact h

/-- **Layers**: after `K` passes a cell that was unmarked carries `k + 1`, for `1 ≤ k ≤ K`, iff its distance from the
cells marked 1 through unmarked cells is `k`, and 0 iff there is no walk of at most `K` steps to it; all other marks
stay.  This holds whatever the grid and the sources of the copies are. -/
theorem layers_spec (nX : List Nat) (hd : nX.length = 1 ∨ nX.length = 2) (src : Nat → Option Int) (K : Nat) (m : Mask)
    (hm : ∀ a < nX.prod, m a ≤ 1) (grid : Nat → α) (s : Layers α) (h : fillNeighbors nX src K m grid = some s) :
    (∀ a < nX.prod, m a ≠ 0 → s.mask a = m a) ∧
    (∀ a < nX.prod, m a = 0 → ∀ k, 1 ≤ k → k ≤ K → (s.mask a = (k : Int) + 1 ↔ LayerDist nX m k a)) ∧
    (∀ a < nX.prod, m a = 0 → (s.mask a = 0 ↔ ∀ k ≤ K, ¬ Walk nX m k a)) ∧
    ∀ a < nX.prod, m a = 0 → s.mask a = 0 ∨ ∃ k : Nat, 1 ≤ k ∧ k ≤ K ∧ s.mask a = (k : Int) + 1 := by
  classical
  have key : (∀ a < nX.prod, m a ≠ 0 → s.mask a = m a) ∧
      ∀ a < nX.prod, m a = 0 → (s.mask a = 0 ∧ ∀ k ≤ K, ¬ Walk nX m k a) ∨
        ∃ k : Nat, 1 ≤ k ∧ k ≤ K ∧ s.mask a = (k : Int) + 1 ∧ LayerDist nX m k a := by
    unfold fillNeighbors at h
    induction K generalizing s with
    | zero =>
      have e : (⟨m, grid, []⟩ : Layers α) = s := by simpa using h
      subst e
      refine ⟨fun _ _ _ => rfl, fun a _ ha => Or.inl ⟨ha, fun k hk hw => ?_⟩⟩
      obtain rfl : k = 0 := by omega
      have := walk_zero hw
      omega
    | succ K ih =>
      rw [List.range_succ] at h
      obtain ⟨t, ht, hp⟩ := foldlM_snoc _ _ _ _ _ h
      obtain ⟨i1, i2⟩ := ih t ht
      obtain ⟨p1, _⟩ := pass_spec nX hd src ((K : Int) + 1) (by omega) t s hp
      -- the cells of the last layer so far
      have hlast : ∀ b < nX.prod, m b ≤ 1 → (t.mask b = (K : Int) + 1 ↔ LayerDist nX m K b) := by
        intro b hb hmb
        by_cases h0 : m b = 0
        · rcases i2 b hb h0 with ⟨e, hw⟩ | ⟨k, hk1, hk2, e, hw⟩
          · constructor
            · intro h; omega
            · intro h; exact absurd h.1 (hw K le_rfl)
          · constructor
            · intro h
              obtain rfl : k = K := by omega
              exact hw
            · intro h
              have : k = K := by
                rcases Nat.lt_trichotomy k K with hlt | he | hgt
                · exact absurd hw.1 (h.2 k hlt)
                · exact he
                · omega
              rw [e, this]
        · rw [i1 b hb h0]
          constructor
          · intro h
            obtain rfl : K = 0 := by omega
            exact ⟨.start hb (by omega), fun j hj => by omega⟩
          · intro h
            rcases Nat.eq_zero_or_pos K with rfl | hK
            · have := walk_zero h.1
              omega
            · exact absurd (walk_pos h.1 hK) h0
      refine ⟨fun a ha h0 => ?_, fun a ha h0 => ?_⟩
      · rw [p1 a ha, if_neg (by rw [i1 a ha h0]; tauto), i1 a ha h0]
      · rcases i2 a ha h0 with ⟨e, hw⟩ | ⟨k, hk1, hk2, e, hw⟩
        · by_cases hb : ∃ b, Adj nX a b ∧ t.mask b = (K : Int) + 1
          · refine Or.inr ⟨K + 1, by omega, le_rfl, ?_, ?_, fun j hj => hw j (by omega)⟩
            · rw [p1 a ha, if_pos ⟨e, hb⟩]
              push_cast
              rfl
            · obtain ⟨b, hadj, hbm⟩ := hb
              have hlt := adj_lt hadj.symm
              exact .step ((hlast b hlt (hm b hlt)).1 hbm).1 hadj.symm h0
          · refine Or.inl ⟨by rw [p1 a ha, if_neg fun hc => hb hc.2, e], fun k hk hwk => ?_⟩
            by_cases hkK : k ≤ K
            · exact hw k hkK hwk
            · obtain rfl : k = K + 1 := by omega
              cases hwk with
              | @step _ _ b w hadj _ =>
                have hlt := adj_lt hadj
                refine hb ⟨b, hadj.symm, (hlast b hlt (hm b hlt)).2 ⟨w, fun j hj hwj => ?_⟩⟩
                exact hw (j + 1) (by omega) (.step hwj hadj h0)
        · refine Or.inr ⟨k, hk1, by omega, ?_, hw⟩
          rw [p1 a ha, if_neg (by omega), e]
  obtain ⟨k1, k2⟩ := key
  refine ⟨k1, fun a ha h0 k hk1 hk2 => ?_, fun a ha h0 => ?_, fun a ha h0 => ?_⟩
  · rcases k2 a ha h0 with ⟨e, hw⟩ | ⟨j, hj1, hj2, e, hw⟩
    · exact ⟨fun h => by omega, fun h => absurd h.1 (hw k hk2)⟩
    · constructor
      · intro h
        obtain rfl : j = k := by omega
        exact hw
      · intro h
        rcases Nat.lt_trichotomy j k with hlt | he | hgt
        · exact absurd hw.1 (h.2 j hlt)
        · rw [e, he]
        · exact absurd h.1 (hw.2 k hgt)
  · rcases k2 a ha h0 with ⟨e, hw⟩ | ⟨j, hj1, hj2, e, hw⟩
    · exact ⟨fun _ => hw, fun _ => e⟩
    · exact ⟨fun h => by omega, fun h => absurd hw.1 (h j hj2)⟩
  · rcases k2 a ha h0 with ⟨e, hw⟩ | ⟨j, hj1, hj2, e, hw⟩
    · exact Or.inl e
    · exact Or.inr ⟨j, hj1, hj2, e⟩

/-- The marks that are neither 0 nor -2 belong to cells whose states no pass touches. -/
theorem layers_keep (nX : List Nat) (hd : nX.length = 1 ∨ nX.length = 2) (src : Nat → Option Int) (K : Nat) (m : Mask)
    (grid : Nat → α) (s : Layers α) (h : fillNeighbors nX src K m grid = some s) (a : Nat) (ha : a < nX.prod)
    (h0 : m a ≠ 0) (h2 : m a ≠ -2) : s.grid a = grid a ∧ s.mask a = m a := by
  classical
  unfold fillNeighbors at h
  induction K generalizing s with
  | zero =>
    have e : (⟨m, grid, []⟩ : Layers α) = s := by simpa using h
    subst e
    exact ⟨rfl, rfl⟩
  | succ K ih =>
    rw [List.range_succ] at h
    obtain ⟨t, ht, hp⟩ := foldlM_snoc _ _ _ _ _ h
    obtain ⟨i1, i2⟩ := ih t ht
    obtain ⟨p1, p2, _⟩ := pass_spec nX hd src ((K : Int) + 1) (by omega) t s hp
    constructor
    · rw [p2 a, i1]
      rintro ⟨hc | ⟨_, hc⟩, _⟩ <;> rw [i2] at hc
      · exact h0 hc
      · exact h2 hc
    · rw [p1 a ha, if_neg (by rw [i2]; exact fun hc => h0 hc.1), i2]

/-- **Contents of the layers**: if no isolated cell and no cell of a layer is its own source, every numbered cell ends up with the state of a cell that
was marked 1, and so does every cell whose state changed. -/
theorem layers_copies (nX : List Nat) (hd : nX.length = 1 ∨ nX.length = 2) (src : Nat → Option Int) (K : Nat) (m : Mask)
    (grid : Nat → α) (s : Layers α) (h : fillNeighbors nX src K m grid = some s)
    (hne : ∀ a < nX.prod, (m a = -2 ∨ ∃ k, 0 < k ∧ k ≤ K ∧ Walk nX m k a) → src a ≠ some (a : Int))
    (hm : ∀ a < nX.prod, m a ≤ 1) :
    (∀ a < nX.prod, 1 ≤ s.mask a → ∃ b < nX.prod, m b = 1 ∧ s.grid a = grid b) ∧
    ∀ a, s.grid a = grid a ∨ ∃ b < nX.prod, m b = 1 ∧ s.grid a = grid b := by
  classical
  induction K generalizing s with
  | zero =>
    unfold fillNeighbors at h
    have e : (⟨m, grid, []⟩ : Layers α) = s := by simpa using h
    subst e
    exact ⟨fun a ha h1 => ⟨a, ha, le_antisymm (hm a ha) h1, rfl⟩, fun _ => Or.inl rfl⟩
  | succ K ih =>
    obtain ⟨f1, f2, _⟩ := layers_spec nX hd src (K + 1) m hm grid s h
    unfold fillNeighbors at h
    rw [List.range_succ] at h
    obtain ⟨t, ht, hp⟩ := foldlM_snoc _ _ _ _ _ h
    obtain ⟨i1, i2⟩ := ih t ht fun a ha hc => hne a ha (hc.imp id fun ⟨k, h1, h2, h3⟩ => ⟨k, h1, by omega, h3⟩)
    obtain ⟨e1, _, _, e4⟩ := layers_spec nX hd src K m hm grid t ht
    obtain ⟨p1, _, p3⟩ := pass_spec nX hd src ((K : Int) + 1) (by omega) t s hp
    obtain ⟨g1, g2⟩ := p3 (fun x => ∃ b < nX.prod, m b = 1 ∧ x = grid b) (by
      rintro a ⟨h0, b, hb, hmb⟩
      have ha := adj_lt hb
      refine hne a ha ?_
      by_cases hma : m a = 0
      · have h00 : t.mask a = 0 := by
          rcases h0 with h0 | ⟨_, h0⟩
          · exact h0
          · rcases e4 a ha hma with e | ⟨k, _, _, e⟩ <;> omega
        have hs := p1 a ha
        rw [if_pos ⟨h00, b, hb, hmb⟩] at hs
        have := (f2 a ha hma (K + 1) (by omega) le_rfl).1 (by rw [hs]; push_cast; rfl)
        exact Or.inr ⟨K + 1, by omega, le_rfl, this.1⟩
      · rw [e1 a ha hma] at h0
        rcases h0 with h0 | ⟨_, h0⟩
        · exact absurd h0 hma
        · exact Or.inl h0) i1
    refine ⟨g1, fun a => ?_⟩
    rcases g2 a with h | h
    · rw [h]; exact i2 a
    · exact Or.inr h

theorem copyCell_isSome {ncell : Nat} {src : Option Int} (mask : Mask) (grid : Nat → α) (ind indn : Nat)
    (h : ∃ s < ncell, src = some ((s : Nat) : Int)) : ∃ g, copyCell ncell src mask grid ind indn = some g := by
  obtain ⟨s, hs, rfl⟩ := h
  unfold copyCell
  simp only
  rw [if_neg (by omega)]
  exact ⟨_, rfl⟩

theorem foldlM_isSome {β γ : Type} (f : β → γ → Option β) (l : List γ) (h : ∀ x ∈ l, ∀ s, ∃ s', f s x = some s') (s : β) :
    ∃ s', l.foldlM f s = some s' := by
  induction l generalizing s with
  | nil => exact ⟨s, rfl⟩
  | cons x l ih =>
    obtain ⟨t, ht⟩ := h x (by simp) s
    obtain ⟨s', hs'⟩ := ih (fun y hy => h y (by simp [hy])) t
    exact ⟨s', by rw [List.foldlM_cons, ht]; exact hs'⟩

/-- The passes never leave the arrays if the sources lie in the grid. -/
theorem layers_defined (nX : List Nat) (src : Nat → Option Int) (K : Nat)
    (m : Mask) (grid : Nat → α) (hs : ∀ a < nX.prod, ∃ k < nX.prod, src a = some ((k : Nat) : Int)) :
    ∃ s, fillNeighbors nX src K m grid = some s := by
  refine foldlM_isSome _ _ (fun k _ s => ?_) _
  unfold passOf
  split
  · rename_i n
    refine foldlM_isSome _ _ (fun i hi s => ?_) _
    have hi' : i < n := List.mem_range.1 hi
    unfold visit1
    simp only
    have hx := hs i (by simpa using hi')
    simp only [List.prod_cons, List.prod_nil, mul_one] at hx
    by_cases h0 : s.mask i = 0
    · rw [if_pos h0]
      split_ifs
      all_goals first
        | exact ⟨_, rfl⟩
        | (obtain ⟨g, hg⟩ := copyCell_isSome (Function.update s.mask i ((k : Int) + 1 + 1)) s.grid i _ hx
           exact ⟨_, by rw [hg]; rfl⟩)
    · rw [if_neg h0]
      exact ⟨_, rfl⟩
  · rename_i nx ny
    unfold pass2
    obtain ⟨t, ht⟩ := foldlM_isSome
      (fun s i => (List.range ny).foldlM (fun s j => visit2 nx ny src ((k : Int) + 1) s i j) s) (List.range nx)
      (fun i hi s => foldlM_isSome _ _ (fun j hj s => by
        have hi' : i < nx := List.mem_range.1 hi
        have hj' : j < ny := List.mem_range.1 hj
        have hlt : i * ny + j < nx * ny := by
          calc i * ny + j < i * ny + ny := by omega
            _ = (i + 1) * ny := by ring
            _ ≤ nx * ny := Nat.mul_le_mul_right _ hi'
        have hx := hs (i * ny + j) (by simpa using hlt)
        simp only [List.prod_cons, List.prod_nil, mul_one] at hx
        unfold visit2
        simp only
        split_ifs
        all_goals first
          | exact ⟨_, rfl⟩
          | (obtain ⟨g, hg⟩ := copyCell_isSome (Function.update s.mask (i * ny + j) ((k : Int) + 1 + 1)) s.grid
                (i * ny + j) (neighborIndex s.mask i j nx ny ((k : Int) + 1)).toNat hx
             exact ⟨_, by rw [hg]; rfl⟩)) s) { s with isolates := [] }
    exact ⟨_, by rw [ht]; rfl⟩
  · exact ⟨_, rfl⟩

/-- The hypotheses can be met: on five cells the second is marked 1 and the fourth -1, and every cell copies its left
neighbour, the first one its right neighbour. -/
example : ∃ s : Layers Nat, fillNeighbors [5] (fun a => some (if a = 0 then 1 else ((a - 1 : Nat) : Int))) 19
      (fun a => if a = 1 then 1 else if a = 3 then -1 else 0) id = some s ∧
    (s.mask 0 = (1 : Nat) + 1 ↔ LayerDist [5] (fun a => if a = 1 then 1 else if a = 3 then -1 else 0) 1 0) ∧
    s.mask 3 = -1 ∧ s.grid 3 = 3 := by
  obtain ⟨s, hs⟩ := layers_defined (α := Nat) [5] (fun a => some (if a = 0 then 1 else ((a - 1 : Nat) : Int))) 19
    (fun a => if a = 1 then 1 else if a = 3 then -1 else 0) id (by
      intro a ha
      have : a < 5 := by simpa using ha
      rcases Nat.eq_zero_or_pos a with rfl | h
      · exact ⟨1, by simp, by simp⟩
      · exact ⟨a - 1, by simp; omega, by simp [h.ne']⟩)
  refine ⟨s, hs, ?_, ?_, ?_⟩
  · exact (layers_spec [5] (Or.inl rfl) _ 19 _ (by intro a _; split_ifs <;> norm_num) _ s hs).2.1 0 (by simp)
      (by simp) 1 le_rfl (by norm_num)
  · exact (layers_keep [5] (Or.inl rfl) _ 19 _ _ s hs 3 (by simp) (by simp) (by simp)).2
  · exact (layers_keep [5] (Or.inl rfl) _ 19 _ _ s hs 3 (by simp) (by simp) (by simp)).1

end Verif.Fill
