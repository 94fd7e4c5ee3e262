import Verif.Iter.Cells

/-!
# Properties of `make_u`, `limit_concentration` and `timestep`
-/

namespace Verif.Iter

open Verif.Sys

/-! ### C33 -/

theorem limitCell_val (c : Cfg) (u : Mem) (i k : Nat) : limitCell c u i k =
    if k = i * c.V + c.mV then max (min (u k) (u (i * c.V))) 0 else u k := by
  unfold limitCell
  by_cases h : k = i * c.V + c.mV
  · subst h
    rw [if_pos rfl, Function.update_self, Function.update_self]
    unfold stdMax stdMin
    split_ifs <;> simp_all <;> grind
  · rw [if_neg h, Function.update_of_ne h, Function.update_of_ne h]

theorem mV_pos (c : Cfg) : 5 ≤ c.mV := by unfold Cfg.mV; omega

theorem limit_val (c : Cfg) (n : Nat) (u : Mem) (hm : c.multi = true) (i k : Nat) (hk : k < c.V) :
    limitConcentration c n u (i * c.V + k) =
      if i < n ∧ k = c.mV then max (min (u (i * c.V + k)) (u (i * c.V))) 0 else u (i * c.V + k) := by
  have h5 := mV_pos c
  have hmV : c.mV < c.V := by unfold Cfg.V; rw [if_pos hm]; omega
  have idx : ∀ a b k l, k < c.V → l < c.V → a * c.V + k = b * c.V + l → a = b ∧ k = l := by
    intro a b k l hk hl h
    have h1 := congrArg (· / c.V) h
    have h2 := congrArg (· % c.V) h
    simp only [Nat.mul_comm _ c.V, Nat.mul_add_div (Nat.lt_of_le_of_lt (Nat.zero_le _) hk), Nat.mul_add_mod,
      Nat.mod_eq_of_lt hk, Nat.mod_eq_of_lt hl, Nat.div_eq_of_lt hk, Nat.div_eq_of_lt hl] at h1 h2
    exact ⟨by omega, h2⟩
  unfold limitConcentration
  rw [if_pos hm]
  induction n generalizing k with
  | zero => simp
  | succ n ih =>
    rw [List.range_succ, List.foldl_append]
    simp only [List.foldl_cons, List.foldl_nil]
    rw [limitCell_val, ih k hk]
    by_cases hin : i = n
    · subst hin
      have e : i * c.V + k = i * c.V + c.mV ↔ k = c.mV := by omega
      have h0 := ih 0 (by omega)
      simp only [Nat.add_zero] at h0
      rw [h0]
      by_cases hk' : k = c.mV
      · subst hk'; simp
      · simp [hk']
    · have : ¬ i * c.V + k = n * c.V + c.mV := fun h => hin (idx _ _ _ _ hk hmV h).1
      rw [if_neg this]
      have e : (i < n + 1 ∧ k = c.mV) ↔ (i < n ∧ k = c.mV) := by omega
      simp only [e]

/-- **Concentration limiting** leaves everything but the concentrations alone, brings every concentration into
`[0, ρ]`, keeps those that are there already, and a second call changes nothing. -/
theorem limit_concentration_spec (c : Cfg) (n : Nat) (u : Mem) (hm : c.multi = true) (i : Nat) (hi : i < n) :
    (∀ k < c.V, k ≠ c.mV → limitConcentration c n u (i * c.V + k) = u (i * c.V + k)) ∧
    (0 ≤ u (i * c.V) → 0 ≤ limitConcentration c n u (i * c.V + c.mV) ∧
      limitConcentration c n u (i * c.V + c.mV) ≤ u (i * c.V)) ∧
    (0 ≤ u (i * c.V + c.mV) → u (i * c.V + c.mV) ≤ u (i * c.V) →
      limitConcentration c n u (i * c.V + c.mV) = u (i * c.V + c.mV)) ∧
    ∀ k < c.V, limitConcentration c n (limitConcentration c n u) (i * c.V + k) =
      limitConcentration c n u (i * c.V + k) := by
  have h5 := mV_pos c
  have hmV : c.mV < c.V := by unfold Cfg.V; rw [if_pos hm]; omega
  have hv : limitConcentration c n u (i * c.V + c.mV) = max (min (u (i * c.V + c.mV)) (u (i * c.V))) 0 := by
    rw [limit_val c n u hm i _ hmV, if_pos ⟨hi, rfl⟩]
  have h0 : limitConcentration c n u (i * c.V) = u (i * c.V) := by
    have := limit_val c n u hm i 0 (by omega)
    rw [if_neg (by omega)] at this
    exact this
  refine ⟨fun k hk hne => ?_, fun hρ => ?_, fun h1 h2 => ?_, fun k hk => ?_⟩
  · rw [limit_val c n u hm i k hk, if_neg (by omega)]
  · rw [hv]
    exact ⟨le_max_right _ _, max_le (min_le_right _ _) hρ⟩
  · rw [hv, min_eq_left h2, max_eq_left h1]
  · rw [limit_val c n _ hm i k hk]
    split_ifs with h
    · obtain ⟨_, rfl⟩ := h
      rw [h0, hv]
      rcases le_total (u (i * c.V)) 0 with h | h
      · rw [max_eq_right ((min_le_right _ _).trans h)]
        rw [max_eq_right ((min_le_right _ _).trans h)]
      · rw [min_eq_left (max_le (min_le_right _ _) h), max_assoc, max_self]
    · rfl

/-- Without `MULTI` there is no concentration and nothing changes. -/
theorem limit_concentration_off (c : Cfg) (n : Nat) (u : Mem) (hm : c.multi = false) : limitConcentration c n u = u := by
  simp [limitConcentration, hm]

/-! ### C34 -/

theorem average_keep (c : Cfg) (grids : List Mem) (masks : List (Nat → Bool)) (u : Mem) (i k : Nat)
    (h : k < i * c.V + (c.V - c.lset) ∨ i * c.V + c.V ≤ k) : averageLevels c grids masks u i k = u k := by
  unfold averageLevels
  rw [if_neg (by omega)]

theorem average_congr (c : Cfg) (grids : List Mem) (masks : List (Nat → Bool)) (u w : Mem) (i k : Nat)
    (h : u k = w k) : averageLevels c grids masks u i k = averageLevels c grids masks w i k := by
  unfold averageLevels
  simp only [h]

theorem makeCell_local (c : Cfg) (grids : List Mem) (masks : List (Nat → Bool)) (MPs : List (Option Par)) :
    Local c.V (makeCell c grids masks MPs) := by
  have hl := lset_le c
  constructor
  · intro u i u' h k hk
    have e : (i + 1) * c.V = i * c.V + c.V := by rw [Nat.add_mul, Nat.one_mul]
    have key : ∀ g, setHead c i g (averageLevels c grids masks u i) k = u k := by
      intro g
      unfold setHead
      rw [if_neg (by omega), average_keep _ _ _ _ _ _ (by omega)]
    unfold makeCell at h
    simp only at h
    split at h
    · cases h
    · cases h; exact key _
    · split at h
      · cases h
      · cases h; exact key _
  · intro u w i u' huw h
    have hUU : ∀ k < c.V, averageLevels c grids masks u i (i * c.V + k) = averageLevels c grids masks w i (i * c.V + k) :=
      fun k hk => average_congr _ _ _ _ _ _ _ (huw k hk)
    have hmi : materialIndex c (view c (averageLevels c grids masks u i) i) =
        materialIndex c (view c (averageLevels c grids masks w i) i) :=
      materialIndex_congr c _ _ fun k hk _ => hUU k hk
    unfold makeCell at h ⊢
    simp only at h ⊢
    rw [← hmi]
    split at h
    · cases h
    · cases h
      exact ⟨_, rfl, fun k hk => by simp only [setHead, hUU k hk]⟩
    · split at h
      · cases h
      · cases h
        exact ⟨_, rfl, fun k hk => by simp only [setHead, hUU k hk]⟩

/-- **Merging the material grids.**  When `make_u` returns, in every cell:
the level sets are the mean of those on the grids whose mask holds there, or the old ones if there is none;
the material these level sets select exists, and if it is vacuum the rest of the cell is zero, otherwise the rest of
the cell is that of its own grid. -/
theorem make_u_spec (c : Cfg) (n : Nat) (grids : List Mem) (masks : List (Nat → Bool)) (MPs : List (Option Par))
    (u u' : Mem) (h : makeU c n grids masks MPs u = some u') (i : Nat) (hi : i < n) :
    (∀ k, c.V - c.lset ≤ k → k < c.V → u' (i * c.V + k) =
      let act := (Finset.range grids.length).filter fun m => (masks.getD m fun _ => false) i = true
      if act.card = 0 then u (i * c.V + k)
      else (∑ m ∈ act, (grids.getD m fun _ => 0) (i * c.V + k)) / act.card) ∧
    ∃ P, MPs[materialIndex c (view c u' i)]? = some P ∧
      (P = none → ∀ k < c.V - c.lset, u' (i * c.V + k) = 0) ∧
      (P ≠ none → ∃ g, grids[materialIndex c (view c u' i)]? = some g ∧
        ∀ k < c.V - c.lset, u' (i * c.V + k) = g (i * c.V + k)) := by
  have hl := lset_le c
  obtain ⟨w, hw, hwk⟩ := (cells_spec (makeCell_local c grids masks MPs) n u u' h).1 i hi
  -- levels of the result
  have hact : ∀ k, c.V - c.lset ≤ k → k < c.V → averageLevels c grids masks u i (i * c.V + k) =
      let act := (Finset.range grids.length).filter fun m => (masks.getD m fun _ => false) i = true
      if act.card = 0 then u (i * c.V + k)
      else (∑ m ∈ act, (grids.getD m fun _ => 0) (i * c.V + k)) / act.card := by
    intro k h1 h2
    have hcard : (active grids.length masks i).length =
        ((Finset.range grids.length).filter fun m => (masks.getD m fun _ => false) i = true).card := by
      unfold active
      rw [← List.toFinset_card_of_nodup (List.nodup_range.filter _)]
      congr 1
      ext m
      simp
    have hsum : ((active grids.length masks i).map fun m => (grids.getD m fun _ => 0) (i * c.V + k)).sum =
        ∑ m ∈ (Finset.range grids.length).filter fun m => (masks.getD m fun _ => false) i = true,
          (grids.getD m fun _ => 0) (i * c.V + k) := by
      unfold active
      rw [← List.sum_toFinset _ (List.nodup_range.filter _)]
      congr 1
      ext m
      simp
    unfold averageLevels
    simp only
    rw [hcard, hsum]
    split_ifs with h3 h4 h4
    · omega
    · rfl
    · rfl
    · omega
  have hidx : ∀ g, (∀ k < c.V, u' (i * c.V + k) = setHead c i g (averageLevels c grids masks u i) (i * c.V + k)) →
      (∀ k, c.V - c.lset ≤ k → k < c.V → u' (i * c.V + k) = averageLevels c grids masks u i (i * c.V + k)) ∧
      materialIndex c (view c u' i) = materialIndex c (view c (averageLevels c grids masks u i) i) ∧
      ∀ k < c.V - c.lset, u' (i * c.V + k) = g (i * c.V + k) := by
    intro g hg
    have e1 : ∀ k, c.V - c.lset ≤ k → k < c.V → u' (i * c.V + k) = averageLevels c grids masks u i (i * c.V + k) := by
      intro k h1 h2
      rw [hg k h2, setHead, if_neg (by omega)]
    refine ⟨e1, materialIndex_congr c _ _ fun k h2 h1 => e1 k h1 h2, fun k hk => ?_⟩
    rw [hg k (by omega), setHead, if_pos (by omega)]
  unfold makeCell at hw
  simp only at hw
  split at hw
  · cases hw
  · rename_i heq
    cases hw
    obtain ⟨e1, e2, e3⟩ := hidx _ hwk
    refine ⟨fun k h1 h2 => (e1 k h1 h2).trans (hact k h1 h2), none, by rw [e2, heq], fun _ => e3, fun h => absurd rfl h⟩
  · rename_i P heq
    split at hw
    · cases hw
    · rename_i g hg
      cases hw
      obtain ⟨e1, e2, e3⟩ := hidx _ hwk
      refine ⟨fun k h1 h2 => (e1 k h1 h2).trans (hact k h1 h2), some P, by rw [e2, heq],
        fun h => (Option.some_ne_none _ h).elim, fun _ => ⟨g, by rw [e2, hg], e3⟩⟩

/-- With one more material than level sets and a grid for each, `make_u` never indexes past its lists. -/
theorem make_u_defined (c : Cfg) (n : Nat) (grids : List Mem) (masks : List (Nat → Bool)) (MPs : List (Option Par))
    (u : Mem) (h1 : c.lset < MPs.length) (h2 : grids.length = MPs.length) :
    ∃ u', makeU c n grids masks MPs u = some u' := by
  rw [← Option.isSome_iff_exists, makeU, cells_some (makeCell_local c grids masks MPs)]
  intro i _
  have hle := materialIndex_le c (view c (averageLevels c grids masks u i) i)
  unfold makeCell
  simp only
  rw [List.getElem?_eq_getElem (by omega), List.getElem?_eq_getElem (by omega)]
  split <;> simp_all

/-- **The converse**: with no more materials than level sets, some field makes `make_u` index past the list of
materials. -/
theorem make_u_overrun (c : Cfg) (n : Nat) (hn : 0 < n) (grids : List Mem) (masks : List (Nat → Bool))
    (MPs : List (Option Par)) (h : MPs.length ≤ c.lset) (hm : ∀ m ∈ masks, m 0 = false) :
    ∃ u, makeU c n grids masks MPs u = none := by
  refine ⟨fun _ => 0, ?_⟩
  rw [← Option.not_isSome_iff_eq_none, makeU, cells_some (makeCell_local c grids masks MPs)]
  intro h0
  have hact : active grids.length masks 0 = [] := by
    unfold active
    rw [List.filter_eq_nil_iff]
    intro m _
    by_cases hlt : m < masks.length
    · have := hm _ (List.getElem_mem hlt)
      simp [List.getD_eq_getElem?_getD, hlt, this]
    · simp [List.getD_eq_getElem?_getD, not_lt.1 hlt]
  have hidx : materialIndex c (view c (averageLevels c grids masks (fun _ => 0) 0) 0) = c.lset := by
    rw [materialIndex_card]
    have : ∀ k, view c (averageLevels c grids masks (fun _ => 0) 0) 0 k = 0 := by
      intro k
      unfold view averageLevels
      simp [hact]
    simp [this]
  have := h0 0 hn
  unfold makeCell at this
  simp only [hidx] at this
  rw [List.getElem?_eq_none h] at this
  simp at this

/-! ### The hypotheses are met -/

/-- A concentration above the density is brought down to it. -/
example : limitConcentration (cfgOf true) 3 (fun k => if k = 17 then 2 else 5) 31 = 2 := by
  have h := limit_val (cfgOf true) 3 (fun k => if k = 17 then 2 else 5) rfl 1 14 (by decide)
  have hV : (cfgOf true).V = 17 := by decide
  have hmV : (cfgOf true).mV = 14 := by decide
  rw [hV, hmV] at h
  norm_num at h
  exact h

/-- Three materials, one of them vacuum, suit two level sets. -/
example : ∃ u', makeU (cfgOf false) 4 [fun _ => 1, fun _ => 2, fun k => k] [fun _ => true, fun i => i == 2, fun _ => false]
    [some (samplePar sample), none, some (samplePar sample)] (fun _ => 0) = some u' :=
  make_u_defined _ _ _ _ _ _ (by decide) rfl

end Verif.Iter
