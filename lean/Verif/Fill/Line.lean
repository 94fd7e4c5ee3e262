import Verif.Fill.Ghost

/-!
# One interface on a line

The states that `fill_ghost_cells` computes for a material that fills one end of a line.
-/

namespace Verif.Fill

open Verif.Sys Verif.Iter

noncomputable section

/-- One outer interface cell: visiting it once is all that `fill_boundary_cells` does. -/
theorem boundary_one (c : Cfg) (nX : List Nat) (dX : List ℝ) (ncell mat nmat : Nat) (star : St → St → Nat → List ℝ → St) (φ : Nat → ℝ)
    (Δφ : Nat → List ℝ) (mask : Mask) (order : List Nat) (u G : Nat → St) (k : Nat) (hk : k ∈ order) (hd : order.Nodup)
    (hone : ∀ b ∈ order, mask b = 1 → b = k) (hv : boundaryVisit c nX dX ncell mat nmat star φ Δφ mask u k = some G) :
    fillBoundary c nX dX ncell mat nmat star φ Δφ mask order u = some G := by
  obtain ⟨l, l', rfl⟩ := List.append_of_mem hk
  have skip : ∀ (l : List Nat) (g : Nat → St), (∀ b ∈ l, mask b ≠ 1) →
      l.foldlM (boundaryVisit c nX dX ncell mat nmat star φ Δφ mask) g = some g := by
    intro l
    induction l with
    | nil => intro g _; rfl
    | cons b l ih =>
      intro g h
      have : boundaryVisit c nX dX ncell mat nmat star φ Δφ mask g b = some g := by
        unfold boundaryVisit; rw [if_neg (h b (by simp))]
      rw [List.foldlM_cons, this]
      exact ih g fun b hb => h b (by simp [hb])
  rw [List.nodup_append, List.nodup_cons] at hd
  obtain ⟨h1, ⟨h2, h3⟩, h4⟩ := hd
  unfold fillBoundary
  rw [List.foldlM_append, skip l u fun b hb e => ?_]
  · change List.foldlM _ _ _ = _
    rw [List.foldlM_cons, hv]
    exact skip l' G fun b hb e => h2 (hone b (by simp [hb]) e ▸ hb)
  · exact h4 b hb k (by simp) (hone b (by simp [hb]) e)

theorem foldlM_inv {β γ : Type} (I : β → Prop) (f : β → γ → Option β) (l : List γ)
    (h : ∀ x ∈ l, ∀ s, I s → ∃ s', f s x = some s' ∧ I s') (s : β) (hs : I s) :
    ∃ s', l.foldlM f s = some s' ∧ I s' := by
  induction l generalizing s with
  | nil => exact ⟨s, rfl, hs⟩
  | cons x l ih =>
    obtain ⟨t, ht, hI⟩ := h x (by simp) s hs
    obtain ⟨s', hs', hI'⟩ := ih (fun y hy => h y (by simp [hy])) t hI
    exact ⟨s', by rw [List.foldlM_cons, ht]; exact hs', hI'⟩

/-- On a line the passes read the sources of cells outside of the material only. -/
theorem layers_defined1 {α : Type} (m : Nat) (src : Nat → Option Int) (K : Nat) (φ : Nat → ℝ) (grid : Nat → α)
    (hs : ∀ a < m, 0 < φ a → ∃ k < m, src a = some ((k : Nat) : Int)) :
    ∃ s, fillNeighbors [m] src K (find [m] φ) grid = some s := by
  have hd : [m].length = 1 ∨ [m].length = 2 := Or.inl rfl
  have hp : [m].prod = m := by simp
  let I : Layers α → Prop := fun s => ∀ a < m, (1 ≤ s.mask a → 0 < φ a) ∧ (s.mask a = 0 → find [m] φ a = 0)
  have kept : ∀ a, φ a ≤ 0 → Kept [m] φ a := fun a h => ⟨h, fun h => by simp at h⟩
  have key : ∀ a < m, ∀ b < m, find [m] φ a = 0 → Adj [m] a b → 0 < φ b → 0 < φ a := by
    intro a ha b hb h0 hab hpos
    by_contra hc
    have := (find_spec [m] hd φ a (by rw [hp]; exact ha)).2.1 (kept a (not_lt.1 hc))
      ⟨b, hab, mul_nonpos_of_nonpos_of_nonneg (not_lt.1 hc) hpos.le⟩
    omega
  obtain ⟨s, h, -⟩ := foldlM_inv I (fun s (k : Nat) => passOf [m] src ((k : Int) + 1) s) (List.range K) (fun k _ s hI => by
    refine foldlM_inv I _ (List.range m) (fun i hi s hI => ?_) s hI
    have hi' : i < m := List.mem_range.1 hi
    unfold visit1
    by_cases h0 : s.mask i = 0
    · rw [if_pos h0]
      simp only
      have fin : ∀ b < m, Adj [m] i b → s.mask b = (k : Int) + 1 → ∃ s',
          Option.map (fun g => (⟨Function.update s.mask i ((k : Int) + 1 + 1), g, s.isolates⟩ : Layers α))
            (copyCell m (src i) (Function.update s.mask i ((k : Int) + 1 + 1)) s.grid i ((b : Nat) : Int).toNat) = some s' ∧
            I s' := by
        intro b hb hab hmb
        have hpos := key i hi' b hb ((hI i hi').2 h0) hab ((hI b hb).1 (by omega))
        obtain ⟨g, hg⟩ := copyCell_isSome (Function.update s.mask i ((k : Int) + 1 + 1)) s.grid i ((b : Nat) : Int).toNat
          (hs i hi' hpos)
        refine ⟨_, by rw [hg]; rfl, fun a ha => ?_⟩
        by_cases hai : a = i
        · subst hai
          simp only [Function.update_self]
          exact ⟨fun _ => hpos, fun h => by omega⟩
        · simp only [Function.update_of_ne hai]
          exact hI a ha
      by_cases hr : i + 1 < m ∧ s.mask (i + 1) = (k : Int) + 1
      · rw [if_pos hr, if_pos (by omega)]
        exact fin (i + 1) hr.1 ((adj1_iff hi').2 (Or.inr ⟨hr.1, rfl⟩)) hr.2
      · rw [if_neg hr]
        by_cases hl : 0 < i ∧ s.mask (i - 1) = (k : Int) + 1
        · rw [if_pos hl, if_pos (by omega)]
          exact fin (i - 1) (by omega) ((adj1_iff hi').2 (Or.inl ⟨hl.1, rfl⟩)) hl.2
        · rw [if_neg hl, if_neg (by omega)]
          exact ⟨_, rfl, hI⟩
    · rw [if_neg h0]
      exact ⟨_, rfl, hI⟩) ⟨find [m] φ, grid, []⟩ (fun a ha => ⟨fun h => by
        have := find_le [m] hd φ a (by rw [hp]; exact ha)
        have h' : 1 ≤ find [m] φ a := h
        exact ((find_one [m] hd φ a (by rw [hp]; exact ha)).1 (by omega)).1, fun h => h⟩)
  exact ⟨s, h⟩

/-- One outer interface cell: all ghost cells get its state. -/
theorem ghost_one (c : Cfg) (m : Nat) (dX : List ℝ) (mat nmat K : Nat) (star : St → St → Nat → List ℝ → St) (φ : Nat → ℝ)
    (Δφ : Nat → List ℝ) (order : List Nat) (u : Nat → St) (k : Nat) (hk : k < m) (ho : order.Perm (List.range m))
    (hone : ∀ b < m, find [m] φ b = 1 ↔ b = k) (Q : St)
    (hv : boundaryVisit c [m] dX m mat nmat star φ Δφ (find [m] φ) u k = some (Function.update u k (setHeadOf c Q (u k))))
    (hs : ∀ a < m, 0 < φ a → ∃ b < m, source [m] dX (Δφ a) (coords [m] a) = some ((b : Nat) : Int))
    (hne : ∀ a < m, 0 < φ a → source [m] dX (Δφ a) (coords [m] a) ≠ some (a : Int)) :
    ∃ g mk, ghostCells c [m] dX mat nmat K star φ Δφ order u = some (g, mk) ∧
      (∀ a < m, (∃ j ≤ K, Walk [m] (find [m] φ) j a) → g a = setHeadOf c Q (u a)) ∧
      (∀ a < m, (¬ ∃ j ≤ K, Walk [m] (find [m] φ) j a) → g a = u a) ∧
      ∀ a < m, (mk a = true ↔ φ a ≤ 0 ∨ a = k) := by
  have hd : [m].length = 1 ∨ [m].length = 2 := Or.inl rfl
  have hp : [m].prod = m := by simp
  have hB := boundary_one c [m] dX m mat nmat star φ Δφ (find [m] φ) order u _ k (ho.mem_iff.2 (List.mem_range.2 hk))
    (ho.nodup_iff.2 List.nodup_range) (fun b hb e => (hone b (List.mem_range.1 (ho.mem_iff.1 hb))).1 e) hv
  obtain ⟨s, hS⟩ := layers_defined1 m (fun k => source [m] dX (Δφ k) (coords [m] k)) K φ
    (Function.update u k (setHeadOf c Q (u k))) hs
  have hm := fun b hb => find_le [m] hd φ b hb
  have hiso : ∀ a < m, find [m] φ a ≠ -2 := fun a ha h => by
    have := (find_neg_two [m] hd φ a (by rw [hp]; exact ha)).1 h
    exact this.2 ⟨this.1, fun h => by simp at h⟩
  have hrun : ghostCells c [m] dX mat nmat K star φ Δφ order u =
      some (fun k a => if a < c.V - c.lset then s.grid k a else u k a,
        fun k => decide ((φ k ≤ 0 ∧ s.mask k ≠ -2) ∨ s.mask k = 1)) := by
    unfold ghostCells
    simp only [hp, hB]
    have : fillNeighbors [m] (fun k => source [m] dX (Δφ k) (coords [m] k)) K (find [m] φ)
      (fun a => Function.update u k (setHeadOf c Q (u k)) a) = some s := hS
    rw [this]
    rfl
  obtain ⟨l1, l2, l3, l4⟩ := layers_spec [m] hd _ K _ hm _ s hS
  have hcop := (layers_copies [m] hd _ K _ _ s hS (fun a ha hc => hne a (by rwa [hp] at ha) (by
    rcases hc with hc | ⟨j, _, _, hj⟩
    · exact absurd hc (hiso a (by rwa [hp] at ha))
    · exact walk_outside [m] hd φ hj)) hm).1
  refine ⟨_, _, hrun, fun a ha hw => ?_, fun a ha hw => ?_, fun a ha => ?_⟩
  · obtain ⟨j, hj, hw⟩ := hw
    have ha' : a < [m].prod := by rw [hp]; exact ha
    have hpos : 1 ≤ s.mask a := by
      by_cases h0 : find [m] φ a = 0
      · rcases l4 a ha' h0 with e | ⟨j, hj, _, e⟩
        · exact absurd hw ((l3 a ha' h0).1 e j hj)
        · omega
      · rw [l1 a ha' h0]
        rcases Nat.eq_zero_or_pos j with rfl | hk0
        · rw [walk_zero hw]
        · exact absurd (walk_pos hw hk0) h0
    obtain ⟨b, hb, hb1, e⟩ := hcop a ha' hpos
    obtain rfl := (hone b (by rwa [hp] at hb)).1 hb1
    funext i
    simp only [e, Function.update_self, setHeadOf]
    split_ifs <;> rfl
  · have hak : a ≠ k := by
      rintro rfl
      exact hw ⟨0, by omega, .start (by rw [hp]; exact ha) ((hone a ha).2 rfl)⟩
    have := layers_untouched [m] hd _ K _ hm _ s hS a (by rw [hp]; exact ha) (hiso a ha) fun j _ hj h => hw ⟨j, hj, h⟩
    funext i
    simp only [this, Function.update_of_ne hak]
    split_ifs <;> rfl
  · have ha' : a < [m].prod := by rw [hp]; exact ha
    rw [ghost_mask c [m] hd _ _ _ _ _ _ _ _ _ _ _ hrun a ha', ← find_one [m] hd φ a ha', hone a ha]
    exact or_congr ⟨fun h => h.1, fun h => ⟨h, fun h => by simp at h⟩⟩ Iff.rfl

/-- The visit of an outer cell, given where the three probes fall. -/
theorem visit_one (c : Cfg) (nX : List Nat) (dX : List ℝ) (m mat nmat : Nat) (star : St → St → Nat → List ℝ → St) (φ : Nat → ℝ)
    (Δφ : Nat → List ℝ) (mask : Mask) (u : Nat → St) (k kL kR : Nat) (n : List ℝ) (hk1 : mask k = 1)
    (hn : normal (Δφ k) = some n) (hkm : k < m) (hLm : kL < m) (hRm : kR < m) (hL : materialIndex c (u kL) = mat)
    (hK : materialIndex c (u k) ≠ mat) (hR : materialIndex c (u kR) < nmat)
    (h : probe nX dX n (φ k) 0 (coords nX k) = k ∧ probe nX dX n (φ k) (-1) (coords nX k) = kL ∧
        probe nX dX n (φ k) 1 (coords nX k) = kR ∨
      probe nX dX n (φ k) 0 (coords nX k) = kL ∧ probe nX dX n (φ k) 1 (coords nX k) = kR) :
    boundaryVisit c nX dX m mat nmat star φ Δφ mask u k =
      some (Function.update u k (setHeadOf c (star (u kL) (u kR) (materialIndex c (u kR)) n) (u k))) := by
  have ins : ∀ a < m, inside m ((a : Nat) : Int) = some a := fun a ha => by
    unfold inside
    rw [if_pos (by omega)]
    simp
  have hne : k ≠ kL := fun e => hK (e ▸ hL)
  unfold boundaryVisit
  rw [if_pos hk1, hn]
  simp only
  unfold boundaryCell
  rcases h with ⟨h0, h1, h2⟩ | ⟨h0, h2⟩
  · rw [h0, h1, h2, ins k hkm, ins kL hLm, ins kR hRm]
    simp only [if_neg hK, if_pos hL, if_pos hR]
    split_ifs
    · rw [Function.update_self, Function.update_idem]
      congr 2
      funext i
      unfold setHeadOf
      split_ifs <;> rfl
    · rfl
  · rw [h0, h2, ins kL hLm, ins kR hRm]
    simp only [if_pos hL, if_pos hR]
    rw [Function.update_of_ne (Ne.symm hne), if_neg (fun h => h hL)]

/-- **A line filled up to `x0`**: the material occupies the cells before cell `k`, whose half open interval of centres
contains its surface, `φ` is the distance from the surface and its gradient is computed by the code.  Then all ghost cells
get the star state of the last cell of the material and of the cell `kR` behind the surface, which is `k + 1` if the
surface lies in cell `k` and `k` if it lies in cell `k - 1`; the normal is 1. -/
theorem ghost_line_right (c : Cfg) (m : Nat) (hm : 3 ≤ m) (dx x0 : ℝ) (hdx : 0 < dx) (mat nmat K : Nat)
    (star : St → St → Nat → List ℝ → St) (junk φ : Nat → ℝ) (order : List Nat) (ho : order.Perm (List.range m)) (u : Nat → St)
    (k : Nat) (hk : 1 ≤ k) (hkm : k + 1 < m) (hφ : ∀ i < m, φ i = ((i : ℝ) + 1 / 2) * dx - x0)
    (h1 : ((k : ℝ) - 1 / 2) * dx ≤ x0) (h2 : x0 < ((k : ℝ) + 1 / 2) * dx)
    (hmat : ∀ a < m, materialIndex c (u a) = mat ↔ a < k) (hn : ∀ a < m, materialIndex c (u a) < nmat) :
    let kR := if (k : ℝ) * dx ≤ x0 then k + 1 else k
    ∃ g mk, ghostCells c [m] [dx] mat nmat K star φ (fun a => [finiteDifference1 m junk φ dx a]) order u = some (g, mk) ∧
      ∀ a < m, (g a = if k ≤ a ∧ a ≤ k + K then
          fun i => if i < c.V - c.lset then star (u (k - 1)) (u kR) (materialIndex c (u kR)) [1] i else u a i
        else u a) ∧ (mk a = true ↔ a ≤ k) := by
  intro kR
  have hd : [m].length = 1 ∨ [m].length = 2 := Or.inl rfl
  have hp : [m].prod = m := by simp
  have n1 : normal [1] = some [1] := by unfold normal; norm_num
  have hΔ : ∀ a < m, [finiteDifference1 m junk φ dx a] = [1] := fun a ha => by
    rw [gradient1 m hm junk φ dx (-x0) 1 hdx (fun i hi => by rw [hφ i hi]; ring) a ha]
  have hpos : ∀ a < m, (0 < φ a ↔ k ≤ a) := by
    intro a ha
    rw [hφ a ha]
    constructor
    · intro h
      by_contra hc
      have : (a : ℝ) + 1 ≤ k := by exact_mod_cast (by omega : a + 1 ≤ k)
      nlinarith
    · intro h
      have : (k : ℝ) ≤ a := by exact_mod_cast h
      nlinarith
  have kept : ∀ a < m, (Kept [m] φ a ↔ a < k) := fun a ha => by
    unfold Kept
    rw [← not_lt, hpos a ha]
    exact ⟨fun h => by omega, fun h => ⟨by omega, fun h => by simp at h⟩⟩
  have hone : ∀ b < m, find [m] φ b = 1 ↔ b = k := by
    intro b hb
    rw [find_one [m] hd φ b (by rw [hp]; exact hb), hpos b hb]
    constructor
    · rintro ⟨h, b', hb', hk'⟩
      rw [adj1_iff hb] at hb'
      have := (kept b' (by omega)).1 hk'
      omega
    · rintro rfl
      exact ⟨le_refl _, b - 1, (adj1_iff hb).2 (Or.inl ⟨hk, rfl⟩), (kept _ (by omega)).2 (by omega)⟩
  have hzero : ∀ b < m, k < b → find [m] φ b = 0 := by
    intro b hb hkb
    refine (find_spec [m] hd φ b (by rw [hp]; exact hb)).2.2.2.2 ((hpos b hb).2 hkb.le) ?_
    rintro ⟨b', hb', hk'⟩
    rw [adj1_iff hb] at hb'
    have := (kept b' (by omega)).1 hk'
    omega
  have hsrc : ∀ a < m, k ≤ a → source [m] [dx] [finiteDifference1 m junk φ dx a] (coords [m] a) =
      some ((a - 1 : Nat) : Int) := by
    intro a ha hka
    unfold source
    rw [hΔ a ha, n1]
    simp only [Option.map_some, coords, List.zip_cons_cons, List.zip_nil_left, List.map_cons, List.map_nil, flat,
      Option.some.injEq]
    rw [sourceCoord_val dx 1 a hdx (by norm_num) (Or.inl (by omega)), if_pos (by norm_num)]
    omega
  have hpr : ∀ (off : ℝ) (b : Nat), (b : ℝ) * dx ≤ x0 + off * dx → x0 + off * dx < (b + 1) * dx →
      probe [m] [dx] [1] (φ k) off [k] = b := by
    intro off b hb1 hb2
    unfold probe probeCoord
    simp only [List.zip_cons_cons, List.zip_nil_left, List.map_cons, List.map_nil, flat]
    refine trunc_eq _ b ?_ ?_
    · rw [le_div_iff₀ hdx, hφ k (by omega)]; linarith
    · rw [div_lt_iff₀ hdx, hφ k (by omega)]; linarith
  have hcast : ((k - 1 : Nat) : ℝ) = (k : ℝ) - 1 := by push_cast [hk]; rfl
  have hR : kR < m := by simp only [kR]; split_ifs <;> omega
  have hv := visit_one c [m] [dx] m mat nmat star φ (fun a => [finiteDifference1 m junk φ dx a]) (find [m] φ) u k (k - 1) kR [1]
    ((hone k (by omega)).2 rfl) (by rw [hΔ k (by omega), n1]) (by omega) (by omega) hR
    ((hmat _ (by omega)).2 (by omega)) (fun h => by have := (hmat k (by omega)).1 h; omega) (hn _ hR) (by
      simp only [kR]
      by_cases hc : (k : ℝ) * dx ≤ x0
      · rw [if_pos hc]
        refine Or.inl ⟨hpr 0 k (by linarith) (by nlinarith), hpr (-1) (k - 1) ?_ ?_, hpr 1 (k + 1) ?_ ?_⟩
        · rw [hcast]; nlinarith
        · rw [hcast]; nlinarith
        · push_cast; nlinarith
        · push_cast; nlinarith
      · rw [if_neg hc]
        push Not at hc
        refine Or.inr ⟨hpr 0 (k - 1) ?_ ?_, hpr 1 k ?_ ?_⟩
        · rw [hcast]; nlinarith
        · rw [hcast]; nlinarith
        · nlinarith
        · nlinarith)
  obtain ⟨g, mk, hg, p1, p2, p3⟩ := ghost_one c m [dx] mat nmat K star φ _ order u k (by omega) ho hone _ hv
    (fun a ha h => ⟨a - 1, by omega, hsrc a ha ((hpos a ha).1 h)⟩)
    (fun a ha h => by
      rw [hsrc a ha ((hpos a ha).1 h)]
      have := (hpos a ha).1 h
      intro e
      injection e with e
      omega)
  have hwalk : ∀ j, k + j < m → Walk [m] (find [m] φ) j (k + j) := by
    intro j
    induction j with
    | zero => exact fun h => .start (by rw [hp]; omega) ((hone k (by omega)).2 rfl)
    | succ j ih => exact fun h => .step (ih (by omega)) ((adj1_iff (by omega)).2 (Or.inr ⟨by omega, rfl⟩)) (hzero _ h (by omega))
  have hwalk' : ∀ j a, Walk [m] (find [m] φ) j a → a < m ∧ k ≤ a ∧ a ≤ k + j := by
    intro j a h
    induction h with
    | start ha h1 =>
      rw [hp] at ha
      have := (hone _ ha).1 h1
      omega
    | step hw hab h0 ih =>
      rename_i a b
      rw [adj1_iff ih.1] at hab
      have := walk_outside [m] hd φ (.step hw ((adj1_iff ih.1).2 hab) h0)
      have := (hpos _ (by omega)).1 this
      omega
  refine ⟨g, mk, hg, fun a ha => ⟨?_, ?_⟩⟩
  · by_cases hc : k ≤ a ∧ a ≤ k + K
    · rw [if_pos hc, p1 a ha ⟨a - k, by omega, by
        have := hwalk (a - k) (by omega)
        rwa [show k + (a - k) = a by omega] at this⟩]
      rfl
    · rw [if_neg hc, p2 a ha]
      rintro ⟨j, hj, hw⟩
      have := hwalk' j a hw
      omega
  · rw [p3 a ha, ← not_lt, hpos a ha]
    omega

/-- **A line filled from `x0` on**: the mirror image of `ghost_line_right`, but for surfaces on cell boundaries, which belong
to the cell above them in both theorems. -/
theorem ghost_line_left (c : Cfg) (m : Nat) (hm : 3 ≤ m) (dx x0 : ℝ) (hdx : 0 < dx) (mat nmat K : Nat)
    (star : St → St → Nat → List ℝ → St) (junk φ : Nat → ℝ) (order : List Nat) (ho : order.Perm (List.range m)) (u : Nat → St)
    (k : Nat) (hk : 1 ≤ k) (hkm : k + 1 < m) (hφ : ∀ i < m, φ i = x0 - ((i : ℝ) + 1 / 2) * dx)
    (h1 : ((k : ℝ) + 1 / 2) * dx < x0) (h2 : x0 ≤ ((k : ℝ) + 3 / 2) * dx)
    (hmat : ∀ a < m, materialIndex c (u a) = mat ↔ k < a) (hn : ∀ a < m, materialIndex c (u a) < nmat) :
    let kR := if x0 < ((k : ℝ) + 1) * dx then k - 1 else k
    ∃ g mk, ghostCells c [m] [dx] mat nmat K star φ (fun a => [finiteDifference1 m junk φ dx a]) order u = some (g, mk) ∧
      ∀ a < m, (g a = if a ≤ k ∧ k ≤ a + K then
          fun i => if i < c.V - c.lset then star (u (k + 1)) (u kR) (materialIndex c (u kR)) [-1] i else u a i
        else u a) ∧ (mk a = true ↔ k ≤ a) := by
  intro kR
  have hd : [m].length = 1 ∨ [m].length = 2 := Or.inl rfl
  have hp : [m].prod = m := by simp
  have n1 : normal [-1] = some [-1] := by unfold normal; norm_num
  have hΔ : ∀ a < m, [finiteDifference1 m junk φ dx a] = [-1] := fun a ha => by
    rw [gradient1 m hm junk φ dx x0 (-1) hdx (fun i hi => by rw [hφ i hi]; ring) a ha]
  have hpos : ∀ a < m, (0 < φ a ↔ a ≤ k) := by
    intro a ha
    rw [hφ a ha]
    constructor
    · intro h
      by_contra hc
      have : (k : ℝ) + 1 ≤ a := by exact_mod_cast (by omega : k + 1 ≤ a)
      nlinarith
    · intro h
      have : (a : ℝ) ≤ k := by exact_mod_cast h
      nlinarith
  have kept : ∀ a < m, (Kept [m] φ a ↔ k < a) := fun a ha => by
    unfold Kept
    rw [← not_lt, hpos a ha]
    exact ⟨fun h => by omega, fun h => ⟨by omega, fun h => by simp at h⟩⟩
  have hone : ∀ b < m, find [m] φ b = 1 ↔ b = k := by
    intro b hb
    rw [find_one [m] hd φ b (by rw [hp]; exact hb), hpos b hb]
    constructor
    · rintro ⟨h, b', hb', hk'⟩
      rw [adj1_iff hb] at hb'
      have := (kept b' (by omega)).1 hk'
      omega
    · rintro rfl
      exact ⟨le_refl _, b + 1, (adj1_iff hb).2 (Or.inr ⟨hkm, rfl⟩), (kept _ (by omega)).2 (by omega)⟩
  have hzero : ∀ b < m, b < k → find [m] φ b = 0 := by
    intro b hb hkb
    refine (find_spec [m] hd φ b (by rw [hp]; exact hb)).2.2.2.2 ((hpos b hb).2 hkb.le) ?_
    rintro ⟨b', hb', hk'⟩
    rw [adj1_iff hb] at hb'
    have := (kept b' (by omega)).1 hk'
    omega
  have hsrc : ∀ a < m, a ≤ k → source [m] [dx] [finiteDifference1 m junk φ dx a] (coords [m] a) =
      some ((a + 1 : Nat) : Int) := by
    intro a ha hka
    unfold source
    rw [hΔ a ha, n1]
    simp only [Option.map_some, coords, List.zip_cons_cons, List.zip_nil_left, List.map_cons, List.map_nil, flat,
      Option.some.injEq]
    rw [sourceCoord_val dx (-1) a hdx (by norm_num) (Or.inr (by norm_num)), if_neg (by norm_num), if_neg (by norm_num)]
    push_cast
    ring
  have hpr : ∀ (off : ℝ) (b : Nat), (b : ℝ) * dx ≤ x0 - off * dx → x0 - off * dx < (b + 1) * dx →
      probe [m] [dx] [-1] (φ k) off [k] = b := by
    intro off b hb1 hb2
    unfold probe probeCoord
    simp only [List.zip_cons_cons, List.zip_nil_left, List.map_cons, List.map_nil, flat]
    refine trunc_eq _ b ?_ ?_
    · rw [le_div_iff₀ hdx, hφ k (by omega)]; linarith
    · rw [div_lt_iff₀ hdx, hφ k (by omega)]; linarith
  have hcast : ((k - 1 : Nat) : ℝ) = (k : ℝ) - 1 := by push_cast [hk]; rfl
  have hR : kR < m := by simp only [kR]; split_ifs <;> omega
  have hv := visit_one c [m] [dx] m mat nmat star φ (fun a => [finiteDifference1 m junk φ dx a]) (find [m] φ) u k (k + 1) kR [-1]
    ((hone k (by omega)).2 rfl) (by rw [hΔ k (by omega), n1]) (by omega) (by omega) hR
    ((hmat _ (by omega)).2 (by omega)) (fun h => by have := (hmat k (by omega)).1 h; omega) (hn _ hR) (by
      simp only [kR]
      by_cases hc : x0 < ((k : ℝ) + 1) * dx
      · rw [if_pos hc]
        refine Or.inl ⟨hpr 0 k (by nlinarith) (by linarith), hpr (-1) (k + 1) ?_ ?_, hpr 1 (k - 1) ?_ ?_⟩
        · push_cast; nlinarith
        · push_cast; nlinarith
        · rw [hcast]; nlinarith
        · rw [hcast]; nlinarith
      · rw [if_neg hc]
        push Not at hc
        refine Or.inr ⟨hpr 0 (k + 1) ?_ ?_, hpr 1 k ?_ ?_⟩
        · push_cast; nlinarith
        · push_cast; nlinarith
        · nlinarith
        · nlinarith)
  obtain ⟨g, mk, hg, p1, p2, p3⟩ := ghost_one c m [dx] mat nmat K star φ _ order u k (by omega) ho hone _ hv
    (fun a ha h => ⟨a + 1, by have := (hpos a ha).1 h; omega, hsrc a ha ((hpos a ha).1 h)⟩)
    (fun a ha h => by
      rw [hsrc a ha ((hpos a ha).1 h)]
      have := (hpos a ha).1 h
      intro e
      injection e with e
      omega)
  have hwalk : ∀ j ≤ k, Walk [m] (find [m] φ) j (k - j) := by
    intro j
    induction j with
    | zero => exact fun h => .start (by rw [hp]; omega) ((hone k (by omega)).2 rfl)
    | succ j ih =>
      intro h
      exact .step (ih (by omega)) ((adj1_iff (by omega)).2 (Or.inl ⟨by omega, (by omega : k - (j + 1) = k - j - 1)⟩))
        (hzero _ (by omega) (by omega))
  have hwalk' : ∀ j a, Walk [m] (find [m] φ) j a → a < m ∧ a ≤ k ∧ k ≤ a + j := by
    intro j a h
    induction h with
    | start ha h1 =>
      rw [hp] at ha
      have := (hone _ ha).1 h1
      omega
    | step hw hab h0 ih =>
      rename_i a b
      rw [adj1_iff ih.1] at hab
      have := walk_outside [m] hd φ (.step hw ((adj1_iff ih.1).2 hab) h0)
      have := (hpos _ (by omega)).1 this
      omega
  refine ⟨g, mk, hg, fun a ha => ⟨?_, ?_⟩⟩
  · by_cases hc : a ≤ k ∧ k ≤ a + K
    · rw [if_pos hc, p1 a ha ⟨k - a, by omega, by
        have := hwalk (k - a) (by omega)
        rwa [show k - (k - a) = a by omega] at this⟩]
      rfl
    · rw [if_neg hc, p2 a ha]
      rintro ⟨j, hj, hw⟩
      have := hwalk' j a hw
      omega
  · rw [p3 a ha, ← not_lt, hpos a ha]
    omega

/-- Two level sets of which the second is negative. -/
theorem level_index (x : ℝ) (v : St) : materialIndex (cfgOf true)
    (fun k => if k = (cfgOf true).V - 2 then x else if k = (cfgOf true).V - 1 then -1 else v k) = if x < 0 then 0 else 1 := by
  have hV : (cfgOf true).V - (cfgOf true).lset = (cfgOf true).V - 2 := rfl
  have hne : (cfgOf true).V - 1 ≠ (cfgOf true).V - 2 := by simp [cfgOf, Cfg.V]
  have h1 : (cfgOf true).V - 2 + 1 = (cfgOf true).V - 1 := by simp [cfgOf, Cfg.V]
  unfold materialIndex
  simp only [show (cfgOf true).lset = 2 from rfl, List.range_succ, List.range_zero, List.nil_append, List.cons_append,
    List.foldl_cons, List.foldl_nil, Nat.add_zero, h1, if_true]
  by_cases h : x < 0
  · simp only [if_pos h, if_neg hne, if_neg (not_le.2 h)]; norm_num
  · simp only [if_neg h, if_neg hne, if_pos (not_lt.1 h)]; norm_num

/-- Five cells, the surface in the middle of the second half of cell 1: the star state uses cells 1 and 2. -/
example : let c := cfgOf true
    let φ : Nat → ℝ := fun i => ((i : ℝ) + 1 / 2) * 1 - 7 / 4
    let u : Nat → St := fun a k => if k = c.V - 2 then φ a else if k = c.V - 1 then -1 else a
    ∃ g mk, ghostCells c [5] [1] 0 3 2 (fun QL QR _ n => fun k => QL k + QR k + n.sum) φ
      (fun a => [finiteDifference1 5 (fun _ => 0) φ 1 a]) [4, 0, 3, 1, 2] u = some (g, mk) ∧ g 3 0 = 4 ∧ g 1 = u 1 ∧
      mk 2 = true ∧ mk 3 = false := by
  intro c φ u
  have hidx : ∀ a, materialIndex c (u a) = if φ a < 0 then 0 else 1 := fun a => level_index (φ a) _
  have hneg : ∀ a : Nat, φ a < 0 ↔ a < 2 := by
    intro a
    simp only [φ]
    constructor
    · intro h
      by_contra hc
      have : (2 : ℝ) ≤ a := by exact_mod_cast (by omega : 2 ≤ a)
      linarith
    · intro h
      have : (a : ℝ) ≤ 1 := by exact_mod_cast (by omega : a ≤ 1)
      linarith
  obtain ⟨g, mk, hg, h⟩ := ghost_line_right c 5 (by norm_num) 1 (7 / 4) one_pos 0 3 2
    (fun QL QR _ n => fun k => QL k + QR k + n.sum) (fun _ => 0) φ [4, 0, 3, 1, 2] (by decide) u 2 (by norm_num) (by norm_num)
    (fun i _ => rfl) (by norm_num) (by norm_num) (fun a _ => by rw [hidx, ← hneg]; split_ifs <;> simp_all)
    (fun a _ => by rw [hidx]; split_ifs <;> norm_num)
  have hc : ¬ (((2 : Nat) : ℝ) * 1 ≤ 7 / 4) := by norm_num
  simp only [hc, if_false] at h
  refine ⟨g, mk, hg, ?_, ?_, ?_, ?_⟩
  · rw [(h 3 (by norm_num)).1]
    simp only [show (2 ≤ 3 ∧ 3 ≤ 2 + 2) by norm_num, and_self, if_true, List.sum_cons, List.sum_nil]
    norm_num [u, c, cfgOf, Cfg.V]
  · rw [(h 1 (by norm_num)).1, if_neg (by omega)]
  · exact (h 2 (by norm_num)).2.2 (by norm_num)
  · rw [← Bool.not_eq_true, (h 3 (by norm_num)).2]; norm_num

end

end Verif.Fill
