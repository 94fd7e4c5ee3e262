import Verif.Fill.Model

/-!
# `find_interface_cells`
-/

namespace Verif.Fill

/-- Face neighbours on a grid of one or two axes whose cells are numbered row by row. -/
def Adj (nX : List Nat) (a b : Nat) : Prop :=
  match nX with
  | [n] => a < n ∧ b < n ∧ (b = a + 1 ∨ a = b + 1)
  | [nx, ny] => ∃ i j k l, i < nx ∧ j < ny ∧ k < nx ∧ l < ny ∧ a = i * ny + j ∧ b = k * ny + l ∧
      ((j = l ∧ (k = i + 1 ∨ i = k + 1)) ∨ (i = k ∧ (l = j + 1 ∨ j = l + 1)))
  | _ => False

theorem Adj.symm {nX : List Nat} {a b : Nat} (h : Adj nX a b) : Adj nX b a := by
  unfold Adj at *
  split at h
  · obtain ⟨h1, h2, h3⟩ := h
    exact ⟨h2, h1, h3.symm⟩
  · obtain ⟨i, j, k, l, h1, h2, h3, h4, h5, h6, h7⟩ := h
    refine ⟨k, l, i, j, h3, h4, h1, h2, h6, h5, ?_⟩
    rcases h7 with ⟨rfl, h⟩ | ⟨rfl, h⟩
    · exact Or.inl ⟨rfl, h.symm⟩
    · exact Or.inr ⟨rfl, h.symm⟩
  · exact h

/-- An inside cell without inside neighbours. -/
def Isolated (nX : List Nat) (φ : Nat → ℝ) (a : Nat) : Prop := φ a ≤ 0 ∧ ∀ b, Adj nX a b → 0 < φ b

theorem index_inj {ny i j k l : Nat} (hj : j < ny) (hl : l < ny) (h : i * ny + j = k * ny + l) : i = k ∧ j = l := by
  have h1 := congrArg (· / ny) h
  have h2 := congrArg (· % ny) h
  simp only [Nat.mul_comm _ ny, Nat.mul_add_div (Nat.lt_of_le_of_lt (Nat.zero_le _) hj), Nat.mul_add_mod,
    Nat.mod_eq_of_lt hj, Nat.mod_eq_of_lt hl, Nat.div_eq_of_lt hj, Nat.div_eq_of_lt hl] at h1 h2
  exact ⟨by omega, h2⟩

/-- The neighbours of a cell, as the code lists them. -/
theorem adj2_iff {nx ny i j b : Nat} (hi : i < nx) (hj : j < ny) : Adj [nx, ny] (i * ny + j) b ↔
    (0 < i ∧ b = (i - 1) * ny + j) ∨ (i + 1 < nx ∧ b = (i + 1) * ny + j) ∨ (0 < j ∧ b = i * ny + (j - 1)) ∨
      (j + 1 < ny ∧ b = i * ny + (j + 1)) := by
  constructor
  · rintro ⟨i', j', k, l, h1, h2, h3, h4, h5, rfl, h7⟩
    obtain ⟨rfl, rfl⟩ := index_inj hj h2 h5
    rcases h7 with ⟨rfl, rfl | rfl⟩ | ⟨rfl, rfl | rfl⟩
    · exact Or.inr (Or.inl ⟨h3, rfl⟩)
    · exact Or.inl ⟨by omega, by simp⟩
    · exact Or.inr (Or.inr (Or.inr ⟨h4, rfl⟩))
    · exact Or.inr (Or.inr (Or.inl ⟨by omega, by simp⟩))
  · rintro (⟨h, rfl⟩ | ⟨h, rfl⟩ | ⟨h, rfl⟩ | ⟨h, rfl⟩)
    · exact ⟨i, j, i - 1, j, hi, hj, by omega, hj, rfl, rfl, Or.inl ⟨rfl, by omega⟩⟩
    · exact ⟨i, j, i + 1, j, hi, hj, h, hj, rfl, rfl, Or.inl ⟨rfl, by omega⟩⟩
    · exact ⟨i, j, i, j - 1, hi, hj, hi, by omega, rfl, rfl, Or.inr ⟨rfl, by omega⟩⟩
    · exact ⟨i, j, i, j + 1, hi, hj, hi, h, rfl, rfl, Or.inr ⟨rfl, by omega⟩⟩

theorem adj1_iff {n i b : Nat} (hi : i < n) : Adj [n] i b ↔ (0 < i ∧ b = i - 1) ∨ (i + 1 < n ∧ b = i + 1) := by
  unfold Adj
  simp only
  omega

theorem adj_lt {nX : List Nat} {a b : Nat} (h : Adj nX a b) : a < nX.prod := by
  unfold Adj at h
  split at h
  · simpa using h.1
  · rename_i nx ny
    obtain ⟨i, j, k, l, h1, h2, h3, h4, rfl, rfl, _⟩ := h
    simp only [List.prod_cons, List.prod_nil, mul_one]
    calc i * ny + j < i * ny + ny := by omega
      _ = (i + 1) * ny := by ring
      _ ≤ nx * ny := Nat.mul_le_mul_right _ h1
  · exact h.elim

section

variable (φ : Nat → ℝ) (val : Nat → Int)

open Classical in
/-- Every write so far put `val` in its cell, and `S` are the cells written. -/
def Written (m : Mask) (S : Nat → Prop) : Prop := ∀ k, m k = if S k then val k else 0

open Classical in
theorem written_update {m : Mask} {S : Nat → Prop} (h : Written val m S) (l r : Nat)
    (hl : φ l * φ r ≤ 0 → val l = sign (φ l)) (hr : φ l * φ r ≤ 0 → val r = sign (φ r)) :
    Written val (updateMask φ l r m) fun k => S k ∨ (φ l * φ r ≤ 0 ∧ (k = l ∨ k = r)) := by
  intro k
  unfold updateMask
  by_cases hp : φ l * φ r ≤ 0
  · rw [if_pos hp]
    by_cases hk : k = r
    · subst hk
      simp [hp, hr hp]
    · rw [Function.update_of_ne hk]
      by_cases hk' : k = l
      · subst hk'
        simp [hp, hl hp]
      · rw [Function.update_of_ne hk', h k]
        simp [hk, hk']
  · rw [if_neg hp, h k]
    simp [hp]

theorem written_congr {m : Mask} {S T : Nat → Prop} (h : Written val m S) (hST : ∀ k, S k ↔ T k) : Written val m T := by
  have : S = T := funext fun k => propext (hST k)
  rwa [← this]

end

/-- **Interface cells in one dimension**: a cell is marked, with its sign, iff a neighbour has the opposite sign or one
of the two is zero. -/
theorem find1_spec (n : Nat) (φ : Nat → ℝ) (a : Nat) (ha : a < n) :
    ((∃ b, Adj [n] a b ∧ φ a * φ b ≤ 0) → find1 n φ a = if φ a ≤ 0 then -1 else 1) ∧
    ((¬ ∃ b, Adj [n] a b ∧ φ a * φ b ≤ 0) → find1 n φ a = 0) := by
  classical
  have key : ∀ m, Written (fun k => sign (φ k)) ((List.range m).foldl (fun m i => updateMask φ i (i + 1) m) fun _ => 0)
      fun k => ∃ i < m, φ i * φ (i + 1) ≤ 0 ∧ (k = i ∨ k = i + 1) := by
    intro m
    induction m with
    | zero => intro k; simp
    | succ m ih =>
      rw [List.range_succ, List.foldl_append]
      simp only [List.foldl_cons, List.foldl_nil]
      refine written_congr _ (written_update φ _ ih m (m + 1) (fun _ => rfl) (fun _ => rfl)) fun k => ?_
      constructor
      · rintro (⟨i, hi, h⟩ | h)
        · exact ⟨i, by omega, h⟩
        · exact ⟨m, by omega, h⟩
      · rintro ⟨i, hi, h⟩
        rcases Nat.lt_succ_iff_lt_or_eq.1 hi with hi | rfl
        · exact Or.inl ⟨i, hi, h⟩
        · exact Or.inr h
  have hk := key (n - 1) a
  have hiff : (∃ i < n - 1, φ i * φ (i + 1) ≤ 0 ∧ (a = i ∨ a = i + 1)) ↔ ∃ b, Adj [n] a b ∧ φ a * φ b ≤ 0 := by
    constructor
    · rintro ⟨i, hi, hp, rfl | rfl⟩
      · exact ⟨a + 1, ⟨by omega, by omega, by omega⟩, hp⟩
      · exact ⟨i, ⟨by omega, by omega, by omega⟩, by rw [mul_comm]; exact hp⟩
    · rintro ⟨b, ⟨h1, h2, rfl | rfl⟩, hp⟩
      · exact ⟨a, by omega, hp, Or.inl rfl⟩
      · exact ⟨b, by omega, by rw [mul_comm]; exact hp, Or.inr rfl⟩
  constructor <;> intro h
  · rw [if_pos (hiff.2 h)] at hk
    exact hk
  · rw [if_neg (mt hiff.1 h)] at hk
    exact hk

/-- The cells written when the loop visits `a`. -/
def Writes (nX : List Nat) (φ : Nat → ℝ) (a k : Nat) : Prop :=
  (Isolated nX φ a ∧ k = a) ∨
    (φ a ≤ 0 ∧ ¬ Isolated nX φ a ∧ ∃ b, Adj nX a b ∧ φ a * φ b ≤ 0 ∧ (k = a ∨ k = b))

open Classical in
theorem written_cell (nx ny : Nat) (φ : Nat → ℝ) (i j : Nat) (hi : i < nx) (hj : j < ny) (m : Mask) (S : Nat → Prop)
    (h : Written (fun k => if Isolated [nx, ny] φ k then -2 else sign (φ k)) m S) :
    Written (fun k => if Isolated [nx, ny] φ k then -2 else sign (φ k)) (findCell nx ny φ i j m)
      fun k => S k ∨ Writes [nx, ny] φ (i * ny + j) k := by
  set val : Nat → Int := fun k => if Isolated [nx, ny] φ k then -2 else sign (φ k) with hval
  have adj := fun b => adj2_iff (b := b) hi hj
  unfold findCell
  by_cases hin : φ (i * ny + j) ≤ 0
  · rw [if_pos hin]
    have hiso : Isolated [nx, ny] φ (i * ny + j) ↔ ¬ ((0 < i ∧ φ ((i - 1) * ny + j) ≤ 0) ∨
        (i + 1 < nx ∧ φ ((i + 1) * ny + j) ≤ 0) ∨ (0 < j ∧ φ (i * ny + (j - 1)) ≤ 0) ∨
        (j + 1 < ny ∧ φ (i * ny + (j + 1)) ≤ 0)) := by
      constructor
      · rintro ⟨_, hall⟩ (⟨h1, h2⟩ | ⟨h1, h2⟩ | ⟨h1, h2⟩ | ⟨h1, h2⟩)
        · exact absurd (hall _ ((adj _).2 (Or.inl ⟨h1, rfl⟩))) (not_lt.2 h2)
        · exact absurd (hall _ ((adj _).2 (Or.inr (Or.inl ⟨h1, rfl⟩)))) (not_lt.2 h2)
        · exact absurd (hall _ ((adj _).2 (Or.inr (Or.inr (Or.inl ⟨h1, rfl⟩))))) (not_lt.2 h2)
        · exact absurd (hall _ ((adj _).2 (Or.inr (Or.inr (Or.inr ⟨h1, rfl⟩))))) (not_lt.2 h2)
      · intro hn
        refine ⟨hin, fun b hb => ?_⟩
        by_contra hc
        push Not at hc
        apply hn
        rcases (adj b).1 hb with ⟨h1, rfl⟩ | ⟨h1, rfl⟩ | ⟨h1, rfl⟩ | ⟨h1, rfl⟩
        · exact Or.inl ⟨h1, hc⟩
        · exact Or.inr (Or.inl ⟨h1, hc⟩)
        · exact Or.inr (Or.inr (Or.inl ⟨h1, hc⟩))
        · exact Or.inr (Or.inr (Or.inr ⟨h1, hc⟩))
    by_cases hI : Isolated [nx, ny] φ (i * ny + j)
    · rw [if_neg (hiso.1 hI)]
      intro k
      by_cases hk : k = i * ny + j
      · subst hk
        have hw : S (i * ny + j) ∨ Writes [nx, ny] φ (i * ny + j) (i * ny + j) := Or.inr (Or.inl ⟨hI, rfl⟩)
        rw [Function.update_self]
        simp only [hval, if_pos hI, if_pos hw]
      · rw [Function.update_of_ne hk, h k]
        have : Writes [nx, ny] φ (i * ny + j) k ↔ False := by
          simp [Writes, hI, hk]
        simp only [this, or_false]
    · rw [if_pos (not_not.1 fun hc => hI (hiso.2 hc))]
      have hv0 : val (i * ny + j) = sign (φ (i * ny + j)) := by simp only [hval, if_neg hI]
      have hvb : ∀ b, Adj [nx, ny] (i * ny + j) b → val b = sign (φ b) := by
        intro b hb
        have : ¬ Isolated [nx, ny] φ b := fun hc => absurd (hc.2 _ hb.symm) (not_lt.2 hin)
        simp only [hval, if_neg this]
      -- one conditional update
      have step : ∀ (m : Mask) (S : Nat → Prop) (P : Prop) [Decidable P] (b : Nat), Written val m S →
          (P → Adj [nx, ny] (i * ny + j) b) →
          Written val (if P then updateMask φ (i * ny + j) b m else m) fun k => S k ∨
            (P ∧ φ (i * ny + j) * φ b ≤ 0 ∧ (k = i * ny + j ∨ k = b)) := by
        intro m S P _ b hm hP
        by_cases hp : P
        · rw [if_pos hp]
          exact written_congr _ (written_update φ _ hm _ _ (fun _ => hv0) fun _ => hvb b (hP hp)) fun k => by simp [hp]
        · rw [if_neg hp]
          exact written_congr _ hm fun k => by simp [hp]
      unfold markAround
      simp only
      have s1 := step m S (0 < i) ((i - 1) * ny + j) h fun h => (adj _).2 (Or.inl ⟨h, rfl⟩)
      have s2 := step _ _ (i + 1 < nx) ((i + 1) * ny + j) s1 fun h => (adj _).2 (Or.inr (Or.inl ⟨h, rfl⟩))
      have s3 := step _ _ (0 < j) (i * ny + (j - 1)) s2 fun h => (adj _).2 (Or.inr (Or.inr (Or.inl ⟨h, rfl⟩)))
      have s4 := step _ _ (j + 1 < ny) (i * ny + (j + 1)) s3 fun h => (adj _).2 (Or.inr (Or.inr (Or.inr ⟨h, rfl⟩)))
      refine written_congr _ s4 fun k => ?_
      constructor
      · rintro ((((hS | ⟨h1, h2⟩) | ⟨h1, h2⟩) | ⟨h1, h2⟩) | ⟨h1, h2⟩)
        · exact Or.inl hS
        · exact Or.inr (Or.inr ⟨hin, hI, _, (adj _).2 (Or.inl ⟨h1, rfl⟩), h2⟩)
        · exact Or.inr (Or.inr ⟨hin, hI, _, (adj _).2 (Or.inr (Or.inl ⟨h1, rfl⟩)), h2⟩)
        · exact Or.inr (Or.inr ⟨hin, hI, _, (adj _).2 (Or.inr (Or.inr (Or.inl ⟨h1, rfl⟩))), h2⟩)
        · exact Or.inr (Or.inr ⟨hin, hI, _, (adj _).2 (Or.inr (Or.inr (Or.inr ⟨h1, rfl⟩))), h2⟩)
      · rintro (hS | ⟨hc, _⟩ | ⟨_, _, b, hb, h2⟩)
        · exact Or.inl (Or.inl (Or.inl (Or.inl hS)))
        · exact absurd hc hI
        · rcases (adj b).1 hb with ⟨h1, rfl⟩ | ⟨h1, rfl⟩ | ⟨h1, rfl⟩ | ⟨h1, rfl⟩
          · exact Or.inl (Or.inl (Or.inl (Or.inr ⟨h1, h2⟩)))
          · exact Or.inl (Or.inl (Or.inr ⟨h1, h2⟩))
          · exact Or.inl (Or.inr ⟨h1, h2⟩)
          · exact Or.inr ⟨h1, h2⟩
  · rw [if_neg hin]
    exact written_congr _ h fun k => by simp [Writes, Isolated, hin]

open Classical in
theorem written_all (nx ny : Nat) (φ : Nat → ℝ) :
    Written (fun k => if Isolated [nx, ny] φ k then -2 else sign (φ k)) (find2 nx ny φ)
      fun k => ∃ a < nx * ny, Writes [nx, ny] φ a k := by
  have inner : ∀ i < nx, ∀ q ≤ ny, ∀ m S, Written (fun k => if Isolated [nx, ny] φ k then -2 else sign (φ k)) m S →
      Written (fun k => if Isolated [nx, ny] φ k then -2 else sign (φ k))
        ((List.range q).foldl (fun m j => findCell nx ny φ i j m) m)
        fun k => S k ∨ ∃ j < q, Writes [nx, ny] φ (i * ny + j) k := by
    intro i hi q hq m S h
    induction q with
    | zero => exact written_congr _ h fun k => by simp
    | succ q ih =>
      rw [List.range_succ, List.foldl_append]
      simp only [List.foldl_cons, List.foldl_nil]
      refine written_congr _ (written_cell nx ny φ i q hi hq _ _ (ih (by omega))) fun k => ?_
      constructor
      · rintro ((hS | ⟨j, hj, h⟩) | h)
        · exact Or.inl hS
        · exact Or.inr ⟨j, by omega, h⟩
        · exact Or.inr ⟨q, by omega, h⟩
      · rintro (hS | ⟨j, hj, h⟩)
        · exact Or.inl (Or.inl hS)
        · rcases Nat.lt_succ_iff_lt_or_eq.1 hj with hj | rfl
          · exact Or.inl (Or.inr ⟨j, hj, h⟩)
          · exact Or.inr h
  have outer : ∀ p ≤ nx, Written (fun k => if Isolated [nx, ny] φ k then -2 else sign (φ k))
      ((List.range p).foldl (fun m i => (List.range ny).foldl (fun m j => findCell nx ny φ i j m) m) fun _ => 0)
      fun k => ∃ i < p, ∃ j < ny, Writes [nx, ny] φ (i * ny + j) k := by
    intro p hp
    induction p with
    | zero => intro k; simp
    | succ p ih =>
      rw [List.range_succ, List.foldl_append]
      simp only [List.foldl_cons, List.foldl_nil]
      refine written_congr _ (inner p hp ny le_rfl _ _ (ih (by omega))) fun k => ?_
      constructor
      · rintro (⟨i, hi, h⟩ | h)
        · exact ⟨i, by omega, h⟩
        · exact ⟨p, by omega, h⟩
      · rintro ⟨i, hi, h⟩
        rcases Nat.lt_succ_iff_lt_or_eq.1 hi with hi | rfl
        · exact Or.inl ⟨i, hi, h⟩
        · exact Or.inr h
  refine written_congr _ (outer nx le_rfl) fun k => ?_
  constructor
  · rintro ⟨i, hi, j, hj, h⟩
    refine ⟨i * ny + j, ?_, h⟩
    calc i * ny + j < i * ny + ny := by omega
      _ = (i + 1) * ny := by ring
      _ ≤ nx * ny := Nat.mul_le_mul_right _ hi
  · rintro ⟨a, ha, h⟩
    have hny : 0 < ny := by
      rcases Nat.eq_zero_or_pos ny with rfl | h
      · simp at ha
      · exact h
    refine ⟨a / ny, (Nat.div_lt_iff_lt_mul hny).2 ha, a % ny, Nat.mod_lt _ hny, ?_⟩
    have : a / ny * ny + a % ny = a := by rw [Nat.mul_comm]; exact Nat.div_add_mod a ny
    rwa [this]

/-- **Interface cells in two dimensions**: isolated inside cells are marked -2; other inside cells -1 iff a neighbour
has the opposite sign or one of the two is zero; outside cells 1 iff a neighbour is inside and not isolated; all other
cells 0. -/
theorem find2_spec (nx ny : Nat) (φ : Nat → ℝ) (a : Nat) (ha : a < nx * ny) :
    (Isolated [nx, ny] φ a → find2 nx ny φ a = -2) ∧
    (φ a ≤ 0 → ¬ Isolated [nx, ny] φ a → (∃ b, Adj [nx, ny] a b ∧ φ a * φ b ≤ 0) → find2 nx ny φ a = -1) ∧
    (φ a ≤ 0 → ¬ Isolated [nx, ny] φ a → (¬ ∃ b, Adj [nx, ny] a b ∧ φ a * φ b ≤ 0) → find2 nx ny φ a = 0) ∧
    (0 < φ a → (∃ b, Adj [nx, ny] a b ∧ φ b ≤ 0 ∧ ¬ Isolated [nx, ny] φ b) → find2 nx ny φ a = 1) ∧
    (0 < φ a → (¬ ∃ b, Adj [nx, ny] a b ∧ φ b ≤ 0 ∧ ¬ Isolated [nx, ny] φ b) → find2 nx ny φ a = 0) := by
  classical
  have hk := written_all nx ny φ a
  beta_reduce at hk
  refine ⟨fun hI => ?_, fun hin hI hb => ?_, fun hin hI hb => ?_, fun hout hb => ?_, fun hout hb => ?_⟩
  · rw [if_pos ⟨a, ha, Or.inl ⟨hI, rfl⟩⟩, if_pos hI] at hk
    exact hk
  · obtain ⟨b, hb, hp⟩ := hb
    rw [if_pos ⟨a, ha, Or.inr ⟨hin, hI, b, hb, hp, Or.inl rfl⟩⟩, if_neg hI] at hk
    rw [hk, sign, if_pos hin]
  · rw [hk, if_neg]
    rintro ⟨c, _, ⟨hc, rfl⟩ | ⟨h1, h2, b, h3, h4, rfl | rfl⟩⟩
    · exact hI hc
    · exact hb ⟨b, h3, h4⟩
    · exact hb ⟨c, h3.symm, by rw [mul_comm]; exact h4⟩
  · obtain ⟨b, hb, h1, h2⟩ := hb
    have hI : ¬ Isolated [nx, ny] φ a := fun hc => absurd hc.1 (not_le.2 hout)
    have hlt : b < nx * ny := by simpa using adj_lt hb.symm
    rw [if_pos ⟨b, hlt, Or.inr ⟨h1, h2, a, hb.symm, mul_nonpos_of_nonpos_of_nonneg h1 hout.le, Or.inr rfl⟩⟩,
      if_neg hI] at hk
    rw [hk, sign, if_neg (not_le.2 hout)]
  · rw [hk, if_neg]
    rintro ⟨c, _, ⟨hc, rfl⟩ | ⟨h1, h2, b, h3, h4, rfl | rfl⟩⟩
    · exact absurd hc.1 (not_le.2 hout)
    · exact absurd h1 (not_le.2 hout)
    · exact hb ⟨c, h3.symm, h1, h2⟩

/-- A 3 × 3 grid with an isolated inside cell in a corner and an inside column on the other side. -/
example : let φ : Nat → ℝ := fun k => if k = 0 ∨ k = 2 ∨ k = 5 ∨ k = 8 then -1 else 1
    find2 3 3 φ 0 = -2 ∧ find2 3 3 φ 1 = 1 ∧ find2 3 3 φ 2 = -1 ∧ find2 3 3 φ 3 = 0 := by
  intro φ
  have h := fun a ha => find2_spec 3 3 φ a ha
  have hin : ∀ a ∈ [0, 2, 5, 8], φ a ≤ 0 := by
    intro a ha; simp at ha; rcases ha with rfl | rfl | rfl | rfl <;> norm_num [φ]
  have i2 : ¬ Isolated [3, 3] φ 2 := fun hc => by
    have := hc.2 5 ⟨0, 2, 1, 2, by norm_num⟩
    norm_num [φ] at this
  refine ⟨(h 0 (by norm_num)).1 ⟨hin 0 (by simp), ?_⟩, ?_, ?_, ?_⟩
  · intro b hb
    have := (adj2_iff (nx := 3) (ny := 3) (i := 0) (j := 0) (by norm_num) (by norm_num)).1 hb
    rcases this with ⟨h, _⟩ | ⟨_, rfl⟩ | ⟨h, _⟩ | ⟨_, rfl⟩ <;> first | omega | norm_num [φ]
  · exact (h 1 (by norm_num)).2.2.2.1 (by norm_num [φ]) ⟨2, ⟨0, 1, 0, 2, by norm_num⟩, hin 2 (by simp), i2⟩
  · exact (h 2 (by norm_num)).2.1 (hin 2 (by simp)) i2 ⟨1, ⟨0, 2, 0, 1, by norm_num⟩, by norm_num [φ]⟩
  · refine (h 3 (by norm_num)).2.2.2.2 (by norm_num [φ]) ?_
    rintro ⟨b, hb, h1, h2⟩
    have := (adj2_iff (nx := 3) (ny := 3) (i := 1) (j := 0) (by norm_num) (by norm_num)).1 hb
    rcases this with ⟨_, rfl⟩ | ⟨_, rfl⟩ | ⟨h, _⟩ | ⟨_, rfl⟩
    · refine h2 ⟨h1, ?_⟩
      intro b hb
      have := (adj2_iff (nx := 3) (ny := 3) (i := 0) (j := 0) (by norm_num) (by norm_num)).1 hb
      rcases this with ⟨h, _⟩ | ⟨_, rfl⟩ | ⟨h, _⟩ | ⟨_, rfl⟩ <;> first | omega | norm_num [φ]
    · norm_num [φ] at h1
    · omega
    · norm_num [φ] at h1

end Verif.Fill
