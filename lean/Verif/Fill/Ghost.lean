import Verif.Fill.Layers
import Verif.Fill.Field

/-!
# `fill_ghost_cells`
-/

namespace Verif.Fill

open Verif.Sys Verif.Iter

/-- Inside cells, without the isolated ones on a plane grid. -/
def Kept (nX : List Nat) (φ : Nat → ℝ) (a : Nat) : Prop := φ a ≤ 0 ∧ (nX.length = 2 → ¬ Isolated nX φ a)

theorem find_spec (nX : List Nat) (hd : nX.length = 1 ∨ nX.length = 2) (φ : Nat → ℝ) (a : Nat) (ha : a < nX.prod) :
    (φ a ≤ 0 → ¬ Kept nX φ a → find nX φ a = -2) ∧
    (Kept nX φ a → (∃ b, Adj nX a b ∧ φ a * φ b ≤ 0) → find nX φ a = -1) ∧
    (Kept nX φ a → (¬ ∃ b, Adj nX a b ∧ φ a * φ b ≤ 0) → find nX φ a = 0) ∧
    (0 < φ a → (∃ b, Adj nX a b ∧ Kept nX φ b) → find nX φ a = 1) ∧
    (0 < φ a → (¬ ∃ b, Adj nX a b ∧ Kept nX φ b) → find nX φ a = 0) := by
  rcases hd with hd | hd
  · obtain ⟨n, rfl⟩ := List.length_eq_one_iff.1 hd
    obtain ⟨h1, h2⟩ := find1_spec n φ a (by simpa using ha)
    have hk : ∀ b, Kept [n] φ b ↔ φ b ≤ 0 := fun b => by simp [Kept]
    have hout : 0 < φ a → ((∃ b, Adj [n] a b ∧ Kept [n] φ b) ↔ ∃ b, Adj [n] a b ∧ φ a * φ b ≤ 0) := by
      intro h
      simp only [hk]
      constructor
      · rintro ⟨b, hb, hb'⟩
        exact ⟨b, hb, mul_nonpos_of_nonneg_of_nonpos h.le hb'⟩
      · rintro ⟨b, hb, hb'⟩
        exact ⟨b, hb, nonpos_of_mul_nonpos_right hb' h⟩
    refine ⟨fun h hn => absurd ((hk a).2 h) hn, fun h hb => ?_, fun _ hb => h2 hb, fun h hb => ?_, fun h hb => ?_⟩
    · exact (h1 hb).trans (if_pos h.1)
    · exact (h1 ((hout h).1 hb)).trans (if_neg (not_le.2 h))
    · exact h2 (mt (hout h).2 hb)
  · obtain ⟨nx, ny, rfl⟩ := List.length_eq_two.1 hd
    obtain ⟨h1, h2, h3, h4, h5⟩ := find2_spec nx ny φ a (by simpa using ha)
    have hk : ∀ b, Kept [nx, ny] φ b ↔ φ b ≤ 0 ∧ ¬ Isolated [nx, ny] φ b := fun b => by simp [Kept]
    simp only [hk]
    refine ⟨fun h hn => h1 ?_, fun h => h2 h.1 h.2, fun h => h3 h.1 h.2, h4, h5⟩
    by_contra hc
    exact hn ⟨h, hc⟩

theorem find_one (nX : List Nat) (hd : nX.length = 1 ∨ nX.length = 2) (φ : Nat → ℝ) (a : Nat) (ha : a < nX.prod) :
    find nX φ a = 1 ↔ 0 < φ a ∧ ∃ b, Adj nX a b ∧ Kept nX φ b := by
  obtain ⟨h1, h2, h3, h4, h5⟩ := find_spec nX hd φ a ha
  constructor
  · intro h
    by_cases hp : 0 < φ a
    · refine ⟨hp, ?_⟩
      by_contra hc
      rw [h5 hp hc] at h
      norm_num at h
    · push Not at hp
      by_cases hk : Kept nX φ a
      · by_cases hb : ∃ b, Adj nX a b ∧ φ a * φ b ≤ 0
        · rw [h2 hk hb] at h; norm_num at h
        · rw [h3 hk hb] at h; norm_num at h
      · rw [h1 hp hk] at h; norm_num at h
  · rintro ⟨hp, hb⟩
    exact h4 hp hb

theorem find_neg_one (nX : List Nat) (hd : nX.length = 1 ∨ nX.length = 2) (φ : Nat → ℝ) (a : Nat) (ha : a < nX.prod)
    (h : find nX φ a = -1) : Kept nX φ a := by
  obtain ⟨h1, h2, h3, h4, h5⟩ := find_spec nX hd φ a ha
  by_contra hk
  by_cases hp : φ a ≤ 0
  · rw [h1 hp hk] at h; norm_num at h
  · push Not at hp
    by_cases hb : ∃ b, Adj nX a b ∧ Kept nX φ b
    · rw [h4 hp hb] at h; norm_num at h
    · rw [h5 hp hb] at h; norm_num at h

theorem find_neg_two (nX : List Nat) (hd : nX.length = 1 ∨ nX.length = 2) (φ : Nat → ℝ) (a : Nat) (ha : a < nX.prod) :
    find nX φ a = -2 ↔ φ a ≤ 0 ∧ ¬ Kept nX φ a := by
  obtain ⟨h1, h2, h3, h4, h5⟩ := find_spec nX hd φ a ha
  constructor
  · intro h
    by_cases hp : φ a ≤ 0
    · refine ⟨hp, fun hk => ?_⟩
      by_cases hb : ∃ b, Adj nX a b ∧ φ a * φ b ≤ 0
      · rw [h2 hk hb] at h; norm_num at h
      · rw [h3 hk hb] at h; norm_num at h
    · push Not at hp
      by_cases hb : ∃ b, Adj nX a b ∧ Kept nX φ b
      · rw [h4 hp hb] at h; norm_num at h
      · rw [h5 hp hb] at h; norm_num at h
  · rintro ⟨hp, hk⟩
    exact h1 hp hk

theorem find_le (nX : List Nat) (hd : nX.length = 1 ∨ nX.length = 2) (φ : Nat → ℝ) (a : Nat) (ha : a < nX.prod) :
    find nX φ a ≤ 1 := by
  obtain ⟨h1, h2, h3, h4, h5⟩ := find_spec nX hd φ a ha
  by_cases hp : φ a ≤ 0
  · by_cases hk : Kept nX φ a
    · by_cases hb : ∃ b, Adj nX a b ∧ φ a * φ b ≤ 0
      · rw [h2 hk hb]; norm_num
      · rw [h3 hk hb]; norm_num
    · rw [h1 hp hk]; norm_num
  · push Not at hp
    by_cases hb : ∃ b, Adj nX a b ∧ Kept nX φ b
    · rw [h4 hp hb]
    · rw [h5 hp hb]; norm_num

/-- The layers stay outside: a walk from the outer interface cells never meets an inside cell. -/
theorem walk_outside (nX : List Nat) (hd : nX.length = 1 ∨ nX.length = 2) (φ : Nat → ℝ) {k a : Nat}
    (h : Walk nX (find nX φ) k a) : 0 < φ a := by
  induction h with
  | start ha h1 => exact ((find_one nX hd φ _ ha).1 h1).1
  | @step k a b _ hadj h0 ih =>
    have ha := adj_lt hadj.symm
    obtain ⟨h1, h2, _⟩ := find_spec nX hd φ a ha
    by_contra hc
    push Not at hc
    by_cases hk : Kept nX φ a
    · rw [h2 hk ⟨b, hadj.symm, mul_nonpos_of_nonpos_of_nonneg hc ih.le⟩] at h0
      norm_num at h0
    · rw [h1 hc hk] at h0
      norm_num at h0

/-- A cell that no walk reaches and that is not isolated keeps its state. -/
theorem layers_untouched {α : Type} (nX : List Nat) (hd : nX.length = 1 ∨ nX.length = 2) (src : Nat → Option Int)
    (K : Nat) (m : Mask) (hm : ∀ a < nX.prod, m a ≤ 1) (grid : Nat → α) (s : Layers α)
    (h : fillNeighbors nX src K m grid = some s) (a : Nat) (ha : a < nX.prod) (h2 : m a ≠ -2)
    (hw : ∀ k, 0 < k → k ≤ K → ¬ Walk nX m k a) : s.grid a = grid a := by
  classical
  by_cases h0 : m a = 0
  · induction K generalizing s with
    | zero =>
      unfold fillNeighbors at h
      have e : (⟨m, grid, []⟩ : Layers α) = s := by simpa using h
      subst e
      rfl
    | succ K ih =>
      have hfin := (layers_spec nX hd src (K + 1) m hm grid s h).2.2.1 a ha h0
      unfold fillNeighbors at h
      rw [List.range_succ] at h
      obtain ⟨t, ht, hp⟩ := foldlM_snoc _ _ _ _ _ h
      have i1 := ih t ht fun k hk1 hk => hw k hk1 (by omega)
      have hmid := (layers_spec nX hd src K m hm grid t ht).2.2.1 a ha h0
      have nw : ∀ k ≤ K + 1, ¬ Walk nX m k a := by
        intro k hk hc
        rcases Nat.eq_zero_or_pos k with rfl | hk0
        · have := walk_zero hc; omega
        · exact hw k hk0 hk hc
      obtain ⟨p1, p2, _⟩ := pass_spec nX hd src ((K : Int) + 1) (by omega) t s hp
      rw [p2 a, i1]
      have e1 : s.mask a = 0 := hfin.2 nw
      have e0 : t.mask a = 0 := hmid.2 fun k hk => nw k (by omega)
      rintro ⟨_, hb⟩
      rw [p1 a ha, if_pos ⟨e0, hb⟩] at e1
      omega
  · exact (layers_keep nX hd src K m grid s h a ha h0 h2).1

/-! ### `fill_boundary_cells` -/

theorem inside_some {ncell : Nat} {k : Int} {j : Nat} (h : inside ncell k = some j) : (j : Int) = k ∧ j < ncell := by
  unfold inside at h
  split_ifs at h with hc
  cases h
  exact ⟨Int.toNat_of_nonneg hc.1, by omega⟩

/-- The level sets are never written, and a cell of the material that is not an outer interface cell keeps its
state. -/
def Safe (c : Cfg) (mat : Nat) (mask : Mask) (u g : Nat → St) : Prop :=
  (∀ a k, c.V - c.lset ≤ k → g a k = u a k) ∧ ∀ a, materialIndex c (u a) = mat → mask a ≠ 1 → g a = u a

theorem Safe.index {c : Cfg} {mat : Nat} {mask : Mask} {u g : Nat → St} (h : Safe c mat mask u g) (a : Nat) :
    materialIndex c (g a) = materialIndex c (u a) :=
  materialIndex_congr c _ _ fun k _ hk => h.1 a k hk

/-- The states that the Riemann solver gives for a cell of the material. -/
def StarOf (c : Cfg) (mat ncell : Nat) (star : St → St → Nat → List ℝ → St) (u : Nat → St) (Q : St) : Prop :=
  ∃ b < ncell, materialIndex c (u b) = mat ∧ ∃ (QR : St) (n : List ℝ),
    ∀ k < c.V - c.lset, Q k = star (u b) QR (materialIndex c QR) n k

/-- What one call of `fill_boundary_inner` does. -/
theorem boundaryCell_spec (c : Cfg) (nX : List Nat) (dX : List ℝ) (ncell mat nmat : Nat)
    (star : St → St → Nat → List ℝ → St) (φi : ℝ) (ind : Nat) (inds : List Nat) (n : List ℝ) (indn : Int)
    (g g' : Nat → St) (h : boundaryCell c nX dX ncell mat nmat star φi ind inds n indn g = some g') :
    ∃ (ki b : Nat) (QR : St) (n' : List ℝ), ki < ncell ∧ b < ncell ∧
      (materialIndex c (g b) = mat ∨ (b : Int) = indn) ∧ materialIndex c QR < nmat ∧
      (∀ a, a ≠ ind → (a ≠ ki ∨ materialIndex c (g a) = mat) → g' a = g a) ∧
      (∀ a, (a = ind ∨ (a = ki ∧ materialIndex c (g a) ≠ mat)) →
        g' a = setHeadOf c (star (g b) QR (materialIndex c QR) n') (g a)) := by
  unfold boundaryCell at h
  split at h
  · rename_i ki kR hi hR
    simp only at h
    obtain ⟨_, hki⟩ := inside_some hi
    have main : ∀ QL : St × List ℝ,
        (∃ b < ncell, (materialIndex c (g b) = mat ∨ (b : Int) = indn) ∧ QL.1 = g b) →
        (if materialIndex c (g kR) < nmat then
          if materialIndex c (Function.update g ind
              (setHeadOf c (star QL.1 (g kR) (materialIndex c (g kR)) QL.2) (g ind)) ki) ≠ mat then
            some (Function.update (Function.update g ind
              (setHeadOf c (star QL.1 (g kR) (materialIndex c (g kR)) QL.2) (g ind))) ki
              (setHeadOf c (star QL.1 (g kR) (materialIndex c (g kR)) QL.2)
                (Function.update g ind (setHeadOf c (star QL.1 (g kR) (materialIndex c (g kR)) QL.2) (g ind)) ki)))
          else some (Function.update g ind (setHeadOf c (star QL.1 (g kR) (materialIndex c (g kR)) QL.2) (g ind)))
        else none) = some g' →
        ∃ (ki b : Nat) (QR : St) (n' : List ℝ), ki < ncell ∧ b < ncell ∧
          (materialIndex c (g b) = mat ∨ (b : Int) = indn) ∧ materialIndex c QR < nmat ∧
          (∀ a, a ≠ ind → (a ≠ ki ∨ materialIndex c (g a) = mat) → g' a = g a) ∧
          (∀ a, (a = ind ∨ (a = ki ∧ materialIndex c (g a) ≠ mat)) →
            g' a = setHeadOf c (star (g b) QR (materialIndex c QR) n') (g a)) := by
      rintro ⟨QL, n'⟩ ⟨b, hb, hbm, rfl⟩ h
      simp only at h
      by_cases hn : materialIndex c (g kR) < nmat
      · rw [if_pos hn] at h
        set S := star (g b) (g kR) (materialIndex c (g kR)) n' with hS
        have hidem : ∀ Q : St, setHeadOf c S (setHeadOf c S Q) = setHeadOf c S Q := by
          intro Q; funext k; unfold setHeadOf; split_ifs <;> rfl
        have hmi : ∀ Q : St, materialIndex c (setHeadOf c S Q) = materialIndex c Q := fun Q =>
          materialIndex_congr c _ _ fun k _ hk => by unfold setHeadOf; rw [if_neg (by omega)]
        have hki' : materialIndex c (Function.update g ind (setHeadOf c S (g ind)) ki) = materialIndex c (g ki) := by
          by_cases hc : ki = ind
          · subst hc; rw [Function.update_self, hmi]
          · rw [Function.update_of_ne hc]
        refine ⟨ki, b, g kR, n', hki, hb, hbm, hn, ?_⟩
        rw [← hS]
        rw [hki'] at h
        by_cases hm : materialIndex c (g ki) ≠ mat
        · rw [if_pos hm] at h
          cases h
          constructor
          · intro a h1 h2
            have h3 : a ≠ ki := by
              rcases h2 with h2 | h2
              · exact h2
              · rintro rfl; exact hm h2
            rw [Function.update_of_ne h3, Function.update_of_ne h1]
          · intro a ha
            by_cases hak : a = ki
            · subst hak
              rw [Function.update_self]
              by_cases hc : a = ind
              · subst hc; rw [Function.update_self, hidem]
              · rw [Function.update_of_ne hc]
            · rw [Function.update_of_ne hak]
              rcases ha with rfl | ha
              · rw [Function.update_self]
              · exact absurd ha.1 hak
        · rw [if_neg hm] at h
          cases h
          push Not at hm
          constructor
          · intro a h1 h2
            rw [Function.update_of_ne h1]
          · intro a ha
            rcases ha with rfl | ⟨rfl, ha⟩
            · rw [Function.update_self]
            · exact absurd hm ha
      · rw [if_neg hn] at h
        cases h
    by_cases h1 : materialIndex c (g ki) = mat
    · simp only [if_pos h1] at h
      exact main (g ki, n) ⟨ki, hki, Or.inl h1, rfl⟩ h
    · simp only [if_neg h1] at h
      cases hL : inside ncell (probe nX dX n φi (-1) inds) with
      | none => simp only [hL] at h; cases h
      | some kL =>
        simp only [hL] at h
        obtain ⟨_, hkL⟩ := inside_some hL
        by_cases h2 : materialIndex c (g kL) = mat
        · simp only [if_pos h2] at h
          exact main (g kL, n) ⟨kL, hkL, Or.inl h2, rfl⟩ h
        · simp only [if_neg h2] at h
          split at h
          · cases h
          · rename_i QL hQL
            refine main QL ?_ h
            clear h
            unfold fallback at hQL
            split at hQL
            · simp only at hQL
              split at hQL
              · cases hQL
              · split at hQL
                · cases hQL
                · rename_i k hk
                  obtain ⟨_, hkk⟩ := inside_some hk
                  split at hQL
                  · rename_i hkm
                    cases hQL
                    exact ⟨k, hkk, Or.inl hkm, rfl⟩
                  · obtain ⟨j, hj, hjj⟩ := Option.map_eq_some_iff.1 hQL
                    obtain ⟨e, hj'⟩ := inside_some hj
                    exact ⟨j, hj', Or.inr e, by rw [← hjj]⟩
            · cases hQL
  · cases h

theorem boundary_safe (c : Cfg) (nX : List Nat) (dX : List ℝ) (ncell mat nmat : Nat)
    (star : St → St → Nat → List ℝ → St) (φ : Nat → ℝ) (Δφ : Nat → List ℝ) (mask : Mask) (order : List Nat)
    (u g : Nat → St) (h : fillBoundary c nX dX ncell mat nmat star φ Δφ mask order u = some g) :
    Safe c mat mask u g := by
  unfold fillBoundary at h
  induction order using List.reverseRecOn generalizing g with
  | nil =>
    have e : u = g := by simpa using h
    subst e
    exact ⟨fun _ _ _ => rfl, fun _ _ _ => rfl⟩
  | append_singleton l k ih =>
    obtain ⟨t, ht, hv⟩ := foldlM_snoc _ _ _ _ _ h
    have hs := ih t ht
    unfold boundaryVisit at hv
    split_ifs at hv with hm
    · split at hv
      · cases hv
      · rename_i n hn
        obtain ⟨ki, b, QR, n', _, _, _, _, hkeep, hset⟩ := boundaryCell_spec _ _ _ _ _ _ _ _ _ _ _ _ _ _ hv
        have split : ∀ a, (g a = t a ∧ (a ≠ k)) ∨ ∃ S, g a = setHeadOf c S (t a) := by
          intro a
          by_cases hc : a = k ∨ (a = ki ∧ materialIndex c (t a) ≠ mat)
          · exact Or.inr ⟨_, hset a hc⟩
          · push Not at hc
            refine Or.inl ⟨hkeep a hc.1 ?_, hc.1⟩
            by_cases hak : a = ki
            · exact Or.inr (hc.2 hak)
            · exact Or.inl hak
        constructor
        · intro a j hj
          rcases split a with ⟨e, _⟩ | ⟨S, e⟩
          · rw [e, hs.1 a j hj]
          · rw [e, setHeadOf, if_neg (by omega), hs.1 a j hj]
        · intro a ha hma
          rw [hkeep a (fun hc => hma (hc ▸ hm)) (Or.inr (by rw [hs.index, ha])), hs.2 a ha hma]
    · cases hv
      exact hs

/-- Every outer interface cell that has been visited holds a state computed from an unmodified cell of the material, if
the field is not positive exactly in the cells of the material. -/
theorem boundary_star (c : Cfg) (nX : List Nat) (hd : nX.length = 1 ∨ nX.length = 2) (dX : List ℝ) (mat nmat : Nat)
    (star : St → St → Nat → List ℝ → St) (φ : Nat → ℝ) (Δφ : Nat → List ℝ) (order : List Nat) (u g : Nat → St)
    (horder : ∀ k ∈ order, k < nX.prod) (hu : ∀ a < nX.prod, (materialIndex c (u a) = mat ↔ φ a ≤ 0))
    (h : fillBoundary c nX dX nX.prod mat nmat star φ Δφ (find nX φ) order u = some g) :
    ∀ a ∈ order, find nX φ a = 1 → StarOf c mat nX.prod star u (g a) := by
  have hreal : ∀ b < nX.prod, materialIndex c (u b) = mat → find nX φ b ≠ 1 := by
    intro b hb hmb hf
    exact absurd ((hu b hb).1 hmb) (not_le.2 ((find_one nX hd φ b hb).1 hf).1)
  induction order using List.reverseRecOn generalizing g with
  | nil => intro a ha; simp at ha
  | append_singleton l k ih =>
    unfold fillBoundary at h
    obtain ⟨t, ht, hv⟩ := foldlM_snoc _ _ _ _ _ h
    have hs := boundary_safe c nX dX nX.prod mat nmat star φ Δφ (find nX φ) l u t ht
    have i1 := ih t (fun k hk => horder k (by simp [hk])) ht
    have hk := horder k (by simp)
    unfold boundaryVisit at hv
    by_cases hm : find nX φ k = 1
    · rw [if_pos hm] at hv
      split at hv
      · cases hv
      · rename_i n hn
        obtain ⟨ki, b, QR, n', hki, hb, hbm, _, hkeep, hset⟩ := boundaryCell_spec _ _ _ _ _ _ _ _ _ _ _ _ _ _ hv
        -- the left state is an unmodified cell of the material
        have hbu : materialIndex c (u b) = mat := by
          rcases hbm with h | h
          · rw [← hs.index]; exact h
          · rcases hd with hd | hd
            · obtain ⟨m, rfl⟩ := List.length_eq_one_iff.1 hd
              simp only at h
              omega
            · obtain ⟨nx, ny, rfl⟩ := List.length_eq_two.1 hd
              simp only at h
              have hlt : k < nx * ny := by simpa using hk
              have hny : 0 < ny := by
                rcases Nat.eq_zero_or_pos ny with rfl | h
                · simp at hlt
                · exact h
              rcases neighborIndex_spec (find [nx, ny] φ) (k / ny) (k % ny) nx ny (-1)
                ((Nat.div_lt_iff_lt_mul hny).2 hlt) (Nat.mod_lt _ hny) with ⟨b', hb', _, hmb⟩ | ⟨hb', _⟩
              · have : b = b' := by omega
                subst this
                exact (hu b hb).2 (find_neg_one _ (Or.inr hd) φ b hb hmb).1
              · omega
        have htb : t b = u b := hs.2 b hbu (hreal b hb hbu)
        have hstar : ∀ Q, StarOf c mat nX.prod star u (setHeadOf c (star (t b) QR (materialIndex c QR) n') Q) := by
          intro Q
          refine ⟨b, hb, hbu, QR, n', fun j hj => ?_⟩
          rw [setHeadOf, if_pos hj, htb]
        intro a ha hma
        by_cases hc : a = k ∨ (a = ki ∧ materialIndex c (t a) ≠ mat)
        · rw [hset a hc]
          exact hstar _
        · push Not at hc
          have hal : a ∈ l := by
            rcases List.mem_append.1 ha with h | h
            · exact h
            · exact absurd (List.mem_singleton.1 h) hc.1
          rw [hkeep a hc.1 (by
            by_cases hak : a = ki
            · exact Or.inr (hc.2 hak)
            · exact Or.inl hak)]
          exact i1 a hal hma
    · rw [if_neg hm] at hv
      cases hv
      intro a ha hma
      have hal : a ∈ l := by
        rcases List.mem_append.1 ha with h | h
        · exact h
        · rw [List.mem_singleton.1 h] at hma
          exact absurd hma hm
      exact i1 a hal hma

/-! ### The whole of `fill_ghost_cells` -/

theorem ghost_parts {c : Cfg} {nX : List Nat} {dX : List ℝ} {mat nmat K : Nat}
    {star : St → St → Nat → List ℝ → St} {φ : Nat → ℝ} {Δφ : Nat → List ℝ} {order : List Nat} {u g : Nat → St}
    {mk : Nat → Bool} (h : ghostCells c nX dX mat nmat K star φ Δφ order u = some (g, mk)) :
    ∃ grid s, fillBoundary c nX dX nX.prod mat nmat star φ Δφ (find nX φ) order u = some grid ∧
      fillNeighbors nX (fun k => source nX dX (Δφ k) (coords nX k)) K (find nX φ) grid = some s ∧
      (g = fun k a => if a < c.V - c.lset then s.grid k a else u k a) ∧
      mk = fun k => decide ((φ k ≤ 0 ∧ s.mask k ≠ -2) ∨ s.mask k = 1) := by
  unfold ghostCells at h
  simp only at h
  split at h
  · cases h
  · rename_i grid hg
    obtain ⟨s, hs, he⟩ := Option.map_eq_some_iff.1 h
    cases he
    exact ⟨grid, s, hg, hs, rfl, rfl⟩

/-- **Real cells survive**: whatever the Riemann solver returns, wherever the probes land and in whatever order the cells
are visited, filling the ghost cells of a material leaves its level sets alone everywhere, and leaves every cell of the
material alone whose field is not positive and that is not isolated. -/
theorem ghost_keeps (c : Cfg) (nX : List Nat) (hd : nX.length = 1 ∨ nX.length = 2) (dX : List ℝ) (mat nmat K : Nat)
    (star : St → St → Nat → List ℝ → St) (φ : Nat → ℝ) (Δφ : Nat → List ℝ) (order : List Nat) (u g : Nat → St)
    (mk : Nat → Bool) (h : ghostCells c nX dX mat nmat K star φ Δφ order u = some (g, mk)) :
    (∀ a k, c.V - c.lset ≤ k → g a k = u a k) ∧
    ∀ a < nX.prod, materialIndex c (u a) = mat → Kept nX φ a → g a = u a := by
  obtain ⟨grid, s, hg, hs, rfl, _⟩ := ghost_parts h
  refine ⟨fun a k hk => if_neg (by omega), fun a ha hma hk => ?_⟩
  have hsafe := boundary_safe _ _ _ _ _ _ _ _ _ _ _ _ _ hg
  have hm1 : find nX φ a ≠ 1 := fun hc => absurd hk.1 (not_le.2 ((find_one nX hd φ a ha).1 hc).1)
  have hm2 : find nX φ a ≠ -2 := fun hc => ((find_neg_two nX hd φ a ha).1 hc).2 hk
  have h1 : s.grid a = grid a := layers_untouched nX hd _ K _ (fun b hb => find_le nX hd φ b hb) grid s hs a ha hm2
    fun k _ _ hw => absurd hk.1 (not_le.2 (walk_outside nX hd φ hw))
  funext k
  simp only
  split_ifs
  · rw [h1, hsafe.2 a hma hm1]
  · rfl

/-- **Masks**: the material is updated exactly in its own cells, isolated ones excepted, and in the cells next to
them. -/
theorem ghost_mask (c : Cfg) (nX : List Nat) (hd : nX.length = 1 ∨ nX.length = 2) (dX : List ℝ) (mat nmat K : Nat)
    (star : St → St → Nat → List ℝ → St) (φ : Nat → ℝ) (Δφ : Nat → List ℝ) (order : List Nat) (u g : Nat → St)
    (mk : Nat → Bool) (h : ghostCells c nX dX mat nmat K star φ Δφ order u = some (g, mk)) (a : Nat) (ha : a < nX.prod) :
    mk a = true ↔ Kept nX φ a ∨ (0 < φ a ∧ ∃ b, Adj nX a b ∧ Kept nX φ b) := by
  obtain ⟨grid, s, hg, hs, _, rfl⟩ := ghost_parts h
  obtain ⟨l1, _, _, l4⟩ := layers_spec nX hd _ K _ (fun b hb => find_le nX hd φ b hb) grid s hs
  have hone : s.mask a = 1 ↔ find nX φ a = 1 := by
    by_cases h0 : find nX φ a = 0
    · rcases l4 a ha h0 with e | ⟨k, hk, _, e⟩
      · rw [e, h0]
      · rw [e, h0]; omega
    · rw [l1 a ha h0]
  have htwo : s.mask a = -2 ↔ find nX φ a = -2 := by
    by_cases h0 : find nX φ a = 0
    · rcases l4 a ha h0 with e | ⟨k, hk, _, e⟩
      · rw [e, h0]
      · rw [e, h0]; omega
    · rw [l1 a ha h0]
  simp only [decide_eq_true_eq]
  rw [hone, find_one nX hd φ a ha, Ne, htwo, find_neg_two nX hd φ a ha]
  constructor
  · rintro (⟨h1, h2⟩ | h)
    · exact Or.inl (by by_contra hc; exact h2 ⟨h1, hc⟩)
    · exact Or.inr h
  · rintro (h | h)
    · exact Or.inl ⟨h.1, fun hc => hc.2 h⟩
    · exact Or.inr h

/-- **Ghost states**: if the field is not positive exactly in the cells of the material and no ghost or isolated cell is
its own source, every ghost cell within `K` layers ends up with a state that the Riemann solver computed from an unmodified cell
of the material. -/
theorem ghost_states (c : Cfg) (nX : List Nat) (hd : nX.length = 1 ∨ nX.length = 2) (dX : List ℝ) (mat nmat K : Nat)
    (star : St → St → Nat → List ℝ → St) (φ : Nat → ℝ) (Δφ : Nat → List ℝ) (order : List Nat) (u g : Nat → St)
    (mk : Nat → Bool) (hu : ∀ a < nX.prod, (materialIndex c (u a) = mat ↔ φ a ≤ 0))
    (horder : ∀ k, k ∈ order ↔ k < nX.prod)
    (hne : ∀ a < nX.prod, ¬ Kept nX φ a → source nX dX (Δφ a) (coords nX a) ≠ some (a : Int))
    (h : ghostCells c nX dX mat nmat K star φ Δφ order u = some (g, mk)) (a : Nat)
    (hw : ∃ k ≤ K, Walk nX (find nX φ) k a) : StarOf c mat nX.prod star u (g a) := by
  obtain ⟨grid, s, hg, hs, rfl, _⟩ := ghost_parts h
  obtain ⟨k, hk, hw⟩ := hw
  have ha := walk_lt hw
  have hm := fun b hb => find_le nX hd φ b hb
  obtain ⟨l1, l2, l3, l4⟩ := layers_spec nX hd _ K _ hm grid s hs
  have hpos : 1 ≤ s.mask a := by
    by_cases h0 : find nX φ a = 0
    · rcases l4 a ha h0 with e | ⟨j, hj, _, e⟩
      · exact absurd hw ((l3 a ha h0).1 e k hk)
      · omega
    · rw [l1 a ha h0]
      rcases Nat.eq_zero_or_pos k with rfl | hk0
      · rw [walk_zero hw]
      · exact absurd (walk_pos hw hk0) h0
  obtain ⟨b, hb, hb1, hgb⟩ := (layers_copies nX hd _ K _ grid s hs (fun a ha hc => hne a ha (by
    rcases hc with hc | ⟨j, _, _, hj⟩
    · exact ((find_neg_two nX hd φ a ha).1 hc).2
    · exact fun hk => absurd hk.1 (not_le.2 (walk_outside nX hd φ hj)))) hm).1 a ha hpos
  obtain ⟨d, hd', hdm, QR, n, hval⟩ := boundary_star c nX hd dX mat nmat star φ Δφ order u grid
    (fun k hk => (horder k).1 hk) hu hg b ((horder b).2 hb) hb1
  refine ⟨d, hd', hdm, QR, n, fun j hj => ?_⟩
  simp only
  rw [if_pos hj, hgb]
  exact hval j hj

/-! ### Sources -/

theorem sourceCoord_val (dx n : ℝ) (i : Nat) (hdx : 0 < dx) (hn : |n| ≤ 1) (hi : 1 ≤ i ∨ n ≤ 1 / 2) :
    sourceCoord dx n i = if 1 / 2 < n then (i : Int) - 1 else if -(1 / 2) < n then (i : Int) else (i : Int) + 1 := by
  obtain ⟨h1, h2⟩ := abs_le.1 hn
  have e : (((i : ℝ) + 0.5) * dx - dx * n) / dx = i + 1 / 2 - n := by
    field_simp
    ring
  have hi' : (0 : ℝ) ≤ i + 1 / 2 - n := by
    rcases hi with hi | hi
    · have : (1 : ℝ) ≤ i := by exact_mod_cast hi
      linarith
    · have : (0 : ℝ) ≤ i := Nat.cast_nonneg i
      linarith
  unfold sourceCoord
  rw [e, trunc, if_pos hi', Int.floor_eq_iff]
  split_ifs with a b
  · push_cast
    constructor <;> linarith
  · push_cast
    constructor <;> linarith
  · push_cast
    constructor <;> linarith

/-- A cell is not its own source unless the code would look for it beyond the low end of an axis; in two dimensions
there must be more than one column. -/
theorem source_ne (nX : List Nat) (dX g : List ℝ) (a : Nat) (ha : a < nX.prod) (n : List ℝ) (hn : normal g = some n)
    (hshape : (∃ m dx n0, nX = [m] ∧ dX = [dx] ∧ 0 < dx ∧ n = [n0] ∧ (1 ≤ a ∨ n0 ≤ 1 / 2)) ∨
      ∃ nx ny dx dy n0 n1, nX = [nx, ny] ∧ 2 ≤ ny ∧ dX = [dx, dy] ∧ 0 < dx ∧ 0 < dy ∧ n = [n0, n1] ∧
        (1 ≤ a / ny ∨ n0 ≤ 1 / 2) ∧ (1 ≤ a % ny ∨ n1 ≤ 1 / 2)) :
    source nX dX g (coords nX a) ≠ some (a : Int) := by
  obtain ⟨hu, _⟩ := (normal_unit g).2 n hn
  unfold source
  rw [hn]
  rcases hshape with ⟨m, dx, n0, rfl, rfl, hdx, rfl, he⟩ | ⟨nx, ny, dx, dy, n0, n1, rfl, hny, rfl, hdx, hdy, rfl, he0, he1⟩
  · have hsq : n0 * n0 = 1 := by simpa using hu
    have hn1 : |n0| ≤ 1 := abs_le_one_iff_mul_self_le_one.2 hsq.le
    simp only [Option.map_some, coords, List.zip_cons_cons, List.zip_nil_left, List.map_cons, List.map_nil, flat,
      ne_eq, Option.some.injEq]
    rw [sourceCoord_val dx n0 a hdx hn1 he]
    split_ifs with h1 h2
    · omega
    · push Not at h1
      nlinarith
    · omega
  · have hsq : n0 * n0 + n1 * n1 = 1 := by simpa using hu
    have h0 : |n0| ≤ 1 := abs_le_one_iff_mul_self_le_one.2 (by nlinarith [mul_self_nonneg n1])
    have h1 : |n1| ≤ 1 := abs_le_one_iff_mul_self_le_one.2 (by nlinarith [mul_self_nonneg n0])
    simp only [Option.map_some, coords, List.zip_cons_cons, List.zip_nil_left, List.map_cons, List.map_nil, flat,
      ne_eq, Option.some.injEq]
    rw [sourceCoord_val dx n0 _ hdx h0 he0, sourceCoord_val dy n1 _ hdy h1 he1]
    have hk : ((a / ny : Nat) : Int) * ny + ((a % ny : Nat) : Int) = a := by
      have := Nat.div_add_mod a ny
      rw [Nat.mul_comm] at this
      exact_mod_cast this
    generalize ((a / ny : Nat) : Int) = i at hk ⊢
    generalize ((a % ny : Nat) : Int) = j at hk ⊢
    rw [← hk]
    have hny' : (2 : Int) ≤ ny := by exact_mod_cast hny
    split_ifs
    · intro hc; nlinarith
    · intro hc; nlinarith
    · intro hc; nlinarith
    · intro hc; nlinarith
    · simp only [not_lt] at *
      nlinarith
    · intro hc; nlinarith
    · intro hc; nlinarith
    · intro hc; nlinarith
    · intro hc; nlinarith

/-- At the low end of an axis the conversion to `int` rounds up, so that a cell whose gradient points into the grid
copies itself; at the high end the code reads beyond the array. -/
theorem source_edges (m : Nat) : source [m + 1] [1] [1] (coords [m + 1] 0) = some 0 ∧
    source [m + 1] [1] [-1] (coords [m + 1] m) = some ((m : Int) + 1) := by
  have n1 : normal [1] = some [1] := by
    unfold normal
    norm_num
  have n2 : normal [-1] = some [-1] := by
    unfold normal
    norm_num
  constructor
  · unfold source
    rw [n1]
    simp only [Option.map_some, coords, List.zip_cons_cons, List.zip_nil_left, List.map_cons, List.map_nil, flat,
      Option.some.injEq]
    unfold sourceCoord trunc
    rw [if_neg (by norm_num), Int.ceil_eq_iff]
    norm_num
  · unfold source
    rw [n2]
    simp only [Option.map_some, coords, List.zip_cons_cons, List.zip_nil_left, List.map_cons, List.map_nil, flat,
      Option.some.injEq]
    rw [sourceCoord_val 1 (-1) m one_pos (by norm_num) (by norm_num)]
    norm_num

/-! ### An instance -/

theorem four_find (φ : Nat → ℝ) (hφ : φ = fun i : Nat => (i : ℝ) - 3 / 2) :
    find [4] φ 0 = 0 ∧ find [4] φ 1 = -1 ∧ find [4] φ 2 = 1 ∧ find [4] φ 3 = 0 := by
  subst hφ
  refine ⟨?_, ?_, ?_, ?_⟩
  · refine (find1_spec 4 _ 0 (by norm_num)).2 ?_
    rintro ⟨b, hb, h⟩
    rcases (adj1_iff (n := 4) (by norm_num)).1 hb with ⟨h1, rfl⟩ | ⟨h1, rfl⟩
    · omega
    · norm_num at h
  · refine ((find1_spec 4 _ 1 (by norm_num)).1 ⟨2, (adj1_iff (by norm_num)).2 (by omega), ?_⟩).trans (if_pos ?_) <;>
      norm_num
  · refine ((find1_spec 4 _ 2 (by norm_num)).1 ⟨1, (adj1_iff (by norm_num)).2 (by omega), ?_⟩).trans (if_neg ?_) <;>
      norm_num
  · refine (find1_spec 4 _ 3 (by norm_num)).2 ?_
    rintro ⟨b, hb, h⟩
    rcases (adj1_iff (n := 4) (by norm_num)).1 hb with ⟨h1, rfl⟩ | ⟨h1, rfl⟩
    · norm_num at h
    · omega

theorem trunc_eq (x : ℝ) (k : Nat) (h1 : (k : ℝ) ≤ x) (h2 : x < k + 1) : trunc x = k := by
  rw [trunc, if_pos (le_trans (Nat.cast_nonneg k) h1), Int.floor_eq_iff]
  exact ⟨by exact_mod_cast h1, by exact_mod_cast h2⟩

/-- Four cells with the interface in the middle: the material fills the first two, and the hypotheses above are met. -/
example : let c := cfgOf true
    let φ : Nat → ℝ := fun i => (i : ℝ) - 3 / 2
    let u : Nat → St := fun a k => if k = c.V - 2 then φ a else if k = c.V - 1 then -1 else a
    ∃ g mk, ghostCells c [4] [1] 0 3 19 (fun QL _ _ _ => QL) φ (fun _ => [1]) [0, 1, 2, 3] u = some (g, mk) ∧
      g 0 = u 0 ∧ mk 2 = true ∧ StarOf c 0 4 (fun QL _ _ _ => QL) u (g 3) := by
  intro c φ u
  obtain ⟨m0, m1, m2, m3⟩ := four_find φ rfl
  have hV : c.V - c.lset = c.V - 2 := rfl
  have hidx : ∀ a, materialIndex c (u a) = if φ a < 0 then 0 else 1 := by
    intro a
    have h1 : u a (c.V - c.lset + 0) = φ a := by simp [u, hV]
    have h2 : u a (c.V - c.lset + 1) = -1 := by
      simp only [u]
      rw [if_neg (by omega), if_pos (by simp [c, cfgOf, Cfg.V])]
    unfold materialIndex
    simp only [show c.lset = 2 from rfl, List.range_succ, List.range_zero, List.nil_append, List.cons_append,
      List.foldl_cons, List.foldl_nil]
    simp only [show (2 : Nat) = c.lset from rfl, h1, h2]
    by_cases h : φ a < 0
    · rw [if_pos h, if_neg (by norm_num), if_neg (not_le.2 h)]
    · rw [if_neg h, if_neg (by norm_num), if_pos (not_lt.1 h)]
  have i0 : materialIndex c (u 0) = 0 := by rw [hidx, if_pos (by norm_num [φ])]
  have i1 : materialIndex c (u 1) = 0 := by rw [hidx, if_pos (by norm_num [φ])]
  have i2 : materialIndex c (u 2) = 1 := by rw [hidx, if_neg (by norm_num [φ])]
  have i3 : materialIndex c (u 3) = 1 := by rw [hidx, if_neg (by norm_num [φ])]
  have n1 : normal [1] = some [1] := by unfold normal; norm_num
  -- the only outer interface cell
  have hp : ∀ (off : ℝ) (k : Nat), (k : ℝ) = 2 + off → probe [4] [1] [1] (φ 2) off [2] = k := by
    intro off k hk
    unfold probe probeCoord
    simp only [List.zip_cons_cons, List.zip_nil_left, List.map_cons, List.map_nil, flat]
    refine trunc_eq _ k ?_ ?_ <;> norm_num [φ] <;> linarith
  have hB : ∃ grid, fillBoundary c [4] [1] 4 0 3 (fun QL _ _ _ => QL) φ (fun _ => [1]) (find [4] φ) [0, 1, 2, 3] u =
      some grid := by
    have hv : ∃ g, boundaryVisit c [4] [1] 4 0 3 (fun QL _ _ _ => QL) φ (fun _ => [1]) (find [4] φ) u 2 = some g := by
      unfold boundaryVisit
      rw [if_pos m2, n1]
      simp only [coords]
      unfold boundaryCell
      rw [hp 0 2 (by norm_num), hp (-1) 1 (by norm_num), hp 1 3 (by norm_num)]
      have in1 : inside 4 ((1 : Nat) : Int) = some 1 := by decide
      have in2 : inside 4 ((2 : Nat) : Int) = some 2 := by decide
      have in3 : inside 4 ((3 : Nat) : Int) = some 3 := by decide
      rw [in1, in2, in3]
      simp only [i1, i2, i3]
      rw [if_neg (by norm_num)]
      simp only [if_true]
      rw [if_pos (by norm_num)]
      split_ifs
      · exact ⟨_, rfl⟩
      · exact ⟨_, rfl⟩
    obtain ⟨g, hg⟩ := hv
    refine ⟨g, ?_⟩
    unfold fillBoundary
    have s0 : boundaryVisit c [4] [1] 4 0 3 (fun QL _ _ _ => QL) φ (fun _ => [1]) (find [4] φ) u 0 = some u := by
      unfold boundaryVisit; rw [if_neg (by rw [m0]; norm_num)]
    have s1 : boundaryVisit c [4] [1] 4 0 3 (fun QL _ _ _ => QL) φ (fun _ => [1]) (find [4] φ) u 1 = some u := by
      unfold boundaryVisit; rw [if_neg (by rw [m1]; norm_num)]
    have s3 : boundaryVisit c [4] [1] 4 0 3 (fun QL _ _ _ => QL) φ (fun _ => [1]) (find [4] φ) g 3 = some g := by
      unfold boundaryVisit; rw [if_neg (by rw [m3]; norm_num)]
    simp only [List.foldlM_cons, List.foldlM_nil, s0, s1, hg, s3, Option.bind_eq_bind, Option.bind_some, Option.pure_def]
  obtain ⟨grid, hgrid⟩ := hB
  have hsrc : ∀ a < [4].prod, ∃ k < [4].prod, source [4] [1] [1] (coords [4] a) = some ((k : Nat) : Int) := by
    intro a ha
    rcases Nat.eq_zero_or_pos a with rfl | h
    · exact ⟨0, by simp, (source_edges 3).1⟩
    · refine ⟨a - 1, by omega, ?_⟩
      unfold source
      rw [n1]
      simp only [Option.map_some, coords, List.zip_cons_cons, List.zip_nil_left, List.map_cons, List.map_nil, flat,
        Option.some.injEq]
      rw [sourceCoord_val 1 1 a one_pos (by norm_num) (Or.inl h), if_pos (by norm_num)]
      omega
  obtain ⟨s, hs⟩ := layers_defined [4] (fun k => source [4] [1] [1] (coords [4] k)) 19 (find [4] φ) grid hsrc
  have hrun : ghostCells c [4] [1] 0 3 19 (fun QL _ _ _ => QL) φ (fun _ => [1]) [0, 1, 2, 3] u =
      some (fun k a => if a < c.V - c.lset then s.grid k a else u k a,
        fun k => decide ((φ k ≤ 0 ∧ s.mask k ≠ -2) ∨ s.mask k = 1)) := by
    unfold ghostCells
    simp only [List.prod_cons, List.prod_nil, mul_one, hgrid]
    have : fillNeighbors [4] (fun k => source [4] [1] [1] (coords [4] k)) 19 (find [4] φ) (fun k => grid k) = some s := hs
    rw [this]
    rfl
  refine ⟨_, _, hrun, ?_, ?_, ?_⟩
  · exact (ghost_keeps c [4] (Or.inl rfl) _ _ _ _ _ _ _ _ _ _ _ hrun).2 0 (by simp) i0
      ⟨by norm_num [φ], fun h => by simp at h⟩
  · refine (ghost_mask c [4] (Or.inl rfl) _ _ _ _ _ _ _ _ _ _ _ hrun 2 (by simp)).2 (Or.inr ⟨by norm_num [φ], 1, ?_, ?_⟩)
    · exact (adj1_iff (by norm_num)).2 (by omega)
    · exact ⟨by norm_num [φ], fun h => by simp at h⟩
  · refine ghost_states c [4] (Or.inl rfl) _ _ _ _ _ _ _ _ _ _ _ ?_ ?_ ?_ hrun 3 ?_
    · intro a ha
      have : a < 4 := by simpa using ha
      interval_cases a
      · simp [i0]; norm_num [φ]
      · simp [i1]; norm_num [φ]
      · simp [i2]; norm_num [φ]
      · simp [i3]; norm_num [φ]
    · intro k
      simp
      omega
    · intro a ha hk
      refine source_ne [4] [1] [1] a ha [1] n1 (Or.inl ⟨4, 1, 1, rfl, rfl, one_pos, rfl, Or.inl ?_⟩)
      by_contra hc
      obtain rfl : a = 0 := by omega
      exact hk ⟨by norm_num [φ], fun h => by simp at h⟩
    · exact ⟨1, by norm_num, .step (.start (by simp) m2) ((adj1_iff (by norm_num)).2 (by omega)) m3⟩

end Verif.Fill
