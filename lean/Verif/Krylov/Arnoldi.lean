import Verif.Krylov.Model
import Mathlib.Tactic.Ring
import Mathlib.Tactic.Linarith
import Mathlib.Algebra.BigOperators.Ring.Finset
import Mathlib.Analysis.InnerProductSpace.Orthonormal

/-! # What the inner loop of `lgmres` maintains -/

namespace Verif.Krylov

noncomputable section

attribute [local instance] Classical.propDecidable

open scoped RealInnerProductSpace

variable {E : Type*} [NormedAddCommGroup E] [InnerProductSpace ℝ E]

/-- The first `j` vectors are orthonormal. -/
def Orth (vs : Nat → E) (j : Nat) : Prop := ∀ a < j, ∀ b < j, ⟪vs a, vs b⟫ = if a = b then (1 : ℝ) else 0

theorem gram_spec (vs : Nat → E) (j : Nat) (v : E) (h : Orth vs j) :
    (gram vs j v).1 + ∑ i ∈ Finset.range j, (gram vs j v).2 i • vs i = v ∧
    (∀ i < j, ⟪vs i, (gram vs j v).1⟫ = 0) ∧ ∀ k, j ≤ k → (gram vs j v).2 k = 0 := by
  have key : ∀ m, m ≤ j → ∀ s : E × (Nat → ℝ), s = (List.range m).foldl (fun (s : E × (Nat → ℝ)) i =>
      (s.1 - ⟪vs i, s.1⟫ • vs i, fun k => if k = i then ⟪vs i, s.1⟫ else s.2 k)) (v, fun _ => 0) →
      s.1 + ∑ i ∈ Finset.range m, s.2 i • vs i = v ∧ (∀ i < m, ⟪vs i, s.1⟫ = 0) ∧ ∀ k, m ≤ k → s.2 k = 0 := by
    intro m
    induction m with
    | zero => rintro _ s rfl; simp
    | succ m ih =>
      rintro hm s rfl
      rw [List.range_succ, List.foldl_append, List.foldl_cons, List.foldl_nil]
      generalize hs : (List.range m).foldl (fun (s : E × (Nat → ℝ)) i =>
        (s.1 - ⟪vs i, s.1⟫ • vs i, fun k => if k = i then ⟪vs i, s.1⟫ else s.2 k)) (v, fun _ => 0) = s
      obtain ⟨h1, h2, h3⟩ := ih (by omega) s hs.symm
      refine ⟨?_, fun i hi => ?_, fun k hk => ?_⟩
      · simp only
        rw [Finset.sum_range_succ, if_pos rfl]
        have : ∑ x ∈ Finset.range m, (if x = m then ⟪vs m, s.1⟫ else s.2 x) • vs x =
            ∑ x ∈ Finset.range m, s.2 x • vs x := by
          refine Finset.sum_congr rfl fun x hx => ?_
          rw [if_neg (by have := Finset.mem_range.1 hx; omega)]
        rw [this]
        conv_rhs => rw [← h1]
        abel
      · simp only
        rw [inner_sub_right, inner_smul_right, h i (by omega) m (by omega)]
        rcases Nat.lt_succ_iff_lt_or_eq.1 hi with hi | rfl
        · rw [h2 i hi, if_neg (by omega)]; simp
        · rw [if_pos rfl]; simp
      · simp only
        rw [if_neg (by omega)]
        exact h3 k (by omega)
  exact key j le_rfl _ rfl

/-- What holds before pass `j`. -/
structure Inv (L : E →ₗ[ℝ] E) (j : Nat) (s : Arn E) : Prop where
  orth : Orth s.vs j
  rel : ∀ c, c + 1 < j →
    L (s.ws c) = ∑ r ∈ Finset.range j, (∑ k ∈ Finset.range j, s.Q r k * s.R k c) • s.vs r
  col : ∀ a < j, ∀ b < j, ∑ l ∈ Finset.range j, s.Q l a * s.Q l b = if a = b then 1 else 0
  row : ∀ a < j, ∀ b < j, ∑ l ∈ Finset.range j, s.Q a l * s.Q b l = if a = b then 1 else 0
  upper : ∀ r c, c < r → s.R r c = 0
  out : ∀ r c, j ≤ r ∨ j ≤ c → s.Q r c = 0

/-- What holds after pass `j`. -/
structure Post (L : E →ₗ[ℝ] E) (j : Nat) (s : Arn E) : Prop where
  orth : Orth s.vs j
  last : Orth s.vs (j + 1) ∨ 1 ≤ j ∧ ∀ c < j, ∑ k ∈ Finset.range (j + 1), s.Q j k * s.R k c = 0
  rel : ∀ c < j,
    L (s.ws c) = ∑ r ∈ Finset.range (j + 1), (∑ k ∈ Finset.range (j + 1), s.Q r k * s.R k c) • s.vs r
  col : ∀ a < j + 1, ∀ b < j + 1, ∑ l ∈ Finset.range (j + 1), s.Q l a * s.Q l b = if a = b then 1 else 0
  row : ∀ a < j + 1, ∀ b < j + 1, ∑ l ∈ Finset.range (j + 1), s.Q a l * s.Q b l = if a = b then 1 else 0
  upper : ∀ r c, c < r → s.R r c = 0
  out : ∀ r c, j + 1 ≤ r ∨ j + 1 ≤ c → s.Q r c = 0

theorem Inv.post {L : E →ₗ[ℝ] E} {j : Nat} {s : Arn E} (h : Inv L (j + 1) s) : Post L j s :=
  ⟨fun a ha b hb => h.orth a (by omega) b (by omega), .inl h.orth, fun c hc => h.rel c (by omega), h.col, h.row, h.upper,
    h.out⟩

theorem Post.inv {L : E →ₗ[ℝ] E} {j : Nat} {s : Arn E} (h : Post L j s) (ho : Orth s.vs (j + 1)) : Inv L (j + 1) s :=
  ⟨ho, fun c hc => h.rel c (by omega), h.col, h.row, h.upper, h.out⟩

variable {qr : Nat → Nat → (Nat → Nat → ℝ) → (Nat → Nat → ℝ) × (Nat → Nat → ℝ)}

/-- One pass. -/
theorem pass_spec (hqr : IsQR qr) (L : E →ₗ[ℝ] E) (junk : E) (mEPS tol res0 : ℝ) (hm : 0 ≤ mEPS) (outer : List E) (j : Nat)
    (hj : 1 ≤ j) (s : Arn E) (h : Inv L j s) :
    Post L j (pass qr L (fun v => v) junk mEPS tol res0 outer j s).1 ∧
    (¬ (pass qr L (fun v => v) junk mEPS tol res0 outer j s).2 →
      Orth (pass qr L (fun v => v) junk mEPS tol res0 outer j s).1.vs (j + 1)) ∧
    (∀ k < j, (pass qr L (fun v => v) junk mEPS tol res0 outer j s).1.vs k = s.vs k) ∧
    (∀ k, k + 1 < j → (pass qr L (fun v => v) junk mEPS tol res0 outer j s).1.ws k = s.ws k) ∧
    (pass qr L (fun v => v) junk mEPS tol res0 outer j s).1.ws (j - 1) = direction outer s j ∧
    ((pass qr L (fun v => v) junk mEPS tol res0 outer j s).2 →
      |(pass qr L (fun v => v) junk mEPS tol res0 outer j s).1.Q 0 j| * res0 ≤ tol * res0 ∨
      (∀ c < j, ∑ k ∈ Finset.range (j + 1), (pass qr L (fun v => v) junk mEPS tol res0 outer j s).1.Q j k *
        (pass qr L (fun v => v) junk mEPS tol res0 outer j s).1.R k c = 0) ∨
      0 < ‖(gram s.vs j (L (direction outer s j))).1‖ ∧
        ‖(gram s.vs j (L (direction outer s j))).1‖ ≤ mEPS * ‖L (direction outer s j)‖) := by
  obtain ⟨g1, g2, g3⟩ := gram_spec s.vs j (L (direction outer s j)) h.orth
  unfold pass
  simp only
  generalize hv : L (direction outer s j) = v at *
  generalize hg : gram s.vs j v = g at *
  set A : Nat → Nat → ℝ := fun r c => if c = j - 1 then (if r = j then ‖g.1‖ else g.2 r) else
    ∑ k ∈ Finset.range (j + 1), (if r = j ∧ k = j then 1 else s.Q r k) * s.R k c with hA
  obtain ⟨d1, d2, d3, d4⟩ : (∀ a b, a < j + 1 → b < j + 1 → ∑ l ∈ Finset.range (j + 1),
      (qr (j + 1) j A).1 l a * (qr (j + 1) j A).1 l b = if a = b then 1 else 0) ∧ (∀ a b, a < j + 1 → b < j + 1 →
      ∑ l ∈ Finset.range (j + 1), (qr (j + 1) j A).1 a l * (qr (j + 1) j A).1 b l = if a = b then 1 else 0) ∧
      (∀ r c, c < r → (qr (j + 1) j A).2 r c = 0) ∧ (∀ r c, r < j + 1 → c < j →
      ∑ l ∈ Finset.range (j + 1), (qr (j + 1) j A).1 r l * (qr (j + 1) j A).2 l c = A r c) :=
    ⟨hqr.col _ _ A, hqr.row _ _ A, hqr.upper _ _ A, hqr.prod _ _ A⟩
  generalize qr (j + 1) j A = d at *
  set vs' : Nat → E := fun k => if k = j then (if ‖g.1‖ = 0 then junk else ‖g.1‖⁻¹ • g.1) else s.vs k with hvs'
  have hold : ∀ k < j, vs' k = s.vs k := fun k hk => by simp only [hvs']; rw [if_neg (by omega)]
  have hnew : ‖g.1‖ ≠ 0 → vs' j = ‖g.1‖⁻¹ • g.1 := fun hne => by simp [hvs', hne]
  have hin : ‖g.1‖ • vs' j = g.1 := by
    by_cases hne : ‖g.1‖ = 0
    · rw [hne, zero_smul, norm_eq_zero.1 hne]
    · rw [hnew hne, smul_smul, mul_inv_cancel₀ hne, one_smul]
  have horth : ‖g.1‖ ≠ 0 → Orth vs' (j + 1) := by
    intro hne a ha b hb
    have hjj : ⟪vs' j, vs' j⟫ = (1 : ℝ) := by
      rw [hnew hne, inner_smul_left, inner_smul_right, real_inner_self_eq_norm_sq]
      simp only [conj_trivial]
      field_simp
    have haj : ∀ a < j, ⟪vs' a, vs' j⟫ = (0 : ℝ) := by
      intro a ha
      rw [hold a ha, hnew hne, inner_smul_right, g2 a ha, mul_zero]
    rcases Nat.lt_succ_iff_lt_or_eq.1 ha with ha | rfl <;> rcases Nat.lt_succ_iff_lt_or_eq.1 hb with hb | rfl
    · rw [hold a ha, hold b hb]; exact h.orth a ha b hb
    · rw [haj a ha, if_neg (by omega)]
    · rw [real_inner_comm, haj b hb, if_neg (by omega)]
    · rw [hjj, if_pos rfl]
  have hQ : ∀ r < j + 1, ∀ c < j + 1, (if r < j + 1 ∧ c < j + 1 then d.1 r c else s.Q r c) = d.1 r c :=
    fun r hr c hc => if_pos ⟨hr, hc⟩
  have hR : ∀ r < j + 1, ∀ c < j, (if r < j + 1 ∧ c < j then d.2 r c else s.R r c) = d.2 r c :=
    fun r hr c hc => if_pos ⟨hr, hc⟩
  have hprod : ∀ r < j + 1, ∀ c < j, ∑ k ∈ Finset.range (j + 1), (if r < j + 1 ∧ k < j + 1 then d.1 r k else s.Q r k) *
      (if k < j + 1 ∧ c < j then d.2 k c else s.R k c) = A r c := by
    intro r hr c hc
    rw [← d4 r c hr hc]
    refine Finset.sum_congr rfl fun k hk => ?_
    have hk := Finset.mem_range.1 hk
    rw [hQ r hr k hk, hR k hk c hc]
  -- the old columns of `A`
  have hAold : ∀ r < j + 1, ∀ c, c + 1 < j → A r c = if r = j then 0 else ∑ k ∈ Finset.range j, s.Q r k * s.R k c := by
    intro r hr c hc
    simp only [hA]
    rw [if_neg (by omega), Finset.sum_range_succ, h.upper j c (by omega), mul_zero, add_zero]
    split_ifs with hrj
    · refine Finset.sum_eq_zero fun k hk => ?_
      have hk := Finset.mem_range.1 hk
      rw [if_neg (by omega), h.out r k (.inl (by omega)), zero_mul]
    · refine Finset.sum_congr rfl fun k hk => ?_
      rw [if_neg (by omega)]
  have hAnew : ∀ r, A r (j - 1) = if r = j then ‖g.1‖ else g.2 r := fun r => by simp [hA]
  have hrow : ‖g.1‖ = 0 → ∀ c < j, ∑ k ∈ Finset.range (j + 1), (if j < j + 1 ∧ k < j + 1 then d.1 j k else s.Q j k) *
      (if k < j + 1 ∧ c < j then d.2 k c else s.R k c) = 0 := by
    intro hne c hc
    rw [hprod j (by omega) c hc]
    by_cases hcj : c = j - 1
    · rw [hcj, hAnew, if_pos rfl, hne]
    · rw [hAold j (by omega) c (by omega), if_pos rfl]
  refine ⟨⟨?_, ?_, ?_, ?_, ?_, ?_, ?_⟩, ?_, hold, ?_, ?_, ?_⟩
  · intro a ha b hb
    simp only
    rw [hold a ha, hold b hb]
    exact h.orth a ha b hb
  · by_cases hne : ‖g.1‖ = 0
    · exact .inr ⟨hj, hrow hne⟩
    · exact .inl (horth hne)
  · intro c hc
    simp only
    have e : ∀ r ∈ Finset.range (j + 1), (∑ k ∈ Finset.range (j + 1), (if r < j + 1 ∧ k < j + 1 then d.1 r k else s.Q r k) *
        (if k < j + 1 ∧ c < j then d.2 k c else s.R k c)) • vs' r = A r c • vs' r := fun r hr => by
      rw [hprod r (Finset.mem_range.1 hr) c hc]
    rw [Finset.sum_congr rfl e, Finset.sum_range_succ]
    by_cases hcj : c = j - 1
    · rw [if_pos hcj, hv, hcj, hAnew, if_pos rfl, hin]
      conv_lhs => rw [← g1]
      rw [add_comm]
      congr 1
      refine Finset.sum_congr rfl fun r hr => ?_
      have hr := Finset.mem_range.1 hr
      rw [hAnew, if_neg (by omega), hold r hr]
    · rw [if_neg hcj, hAold j (by omega) c (by omega), if_pos rfl, zero_smul, add_zero, h.rel c (by omega)]
      refine Finset.sum_congr rfl fun r hr => ?_
      have hr := Finset.mem_range.1 hr
      rw [hAold r (by omega) c (by omega), if_neg (by omega), hold r hr]
  · intro a ha b hb
    rw [← d1 a b ha hb]
    refine Finset.sum_congr rfl fun l hl => ?_
    have hl := Finset.mem_range.1 hl
    simp only
    rw [hQ l hl a ha, hQ l hl b hb]
  · intro a ha b hb
    rw [← d2 a b ha hb]
    refine Finset.sum_congr rfl fun l hl => ?_
    have hl := Finset.mem_range.1 hl
    simp only
    rw [hQ a ha l hl, hQ b hb l hl]
  · intro r c hrc
    simp only
    split_ifs
    · exact d3 r c hrc
    · exact h.upper r c hrc
  · intro r c hrc
    simp only
    rw [if_neg (by omega)]
    exact h.out r c (by omega)
  · intro hstop
    apply horth
    intro hz
    apply hstop
    right
    rw [hz]
    positivity
  · intro k hk
    rw [if_neg (by omega)]
  · simp
  · rintro (hs | hs)
    · exact .inl hs
    · right
      rcases (norm_nonneg g.1).eq_or_lt with he | he
      · exact .inl (hrow he.symm)
      · exact .inr ⟨he, hs⟩

/-- The vectors of the search directions, once chosen, stay. -/
theorem inner_dirs (hqr : IsQR qr) (L : E →ₗ[ℝ] E) (junk : E) (mEPS tol res0 : ℝ) (hm : 0 ≤ mEPS) (outer : List E) (k : Nat) :
    ∀ j, 1 ≤ j → ∀ s : Arn E, Inv L j s → (∀ i, i + 1 < j → s.ws i = direction outer s (i + 1)) →
      (∀ i < (inner qr L (fun v => v) junk mEPS tol res0 outer k j s).1,
        (inner qr L (fun v => v) junk mEPS tol res0 outer k j s).2.ws i =
          direction outer (inner qr L (fun v => v) junk mEPS tol res0 outer k j s).2 (i + 1)) ∧
      (1 ≤ k → j ≤ (inner qr L (fun v => v) junk mEPS tol res0 outer k j s).1) := by
  induction k with
  | zero =>
    intro j hj s h hd
    exact ⟨fun i hi => hd i (by simp only [inner] at hi; omega), by omega⟩
  | succ k ih =>
    intro j hj s h hd
    obtain ⟨p1, p2, p3, p4, p5, -⟩ := pass_spec hqr L junk mEPS tol res0 hm outer j hj s h
    have key : ∀ i < j, (pass qr L (fun v => v) junk mEPS tol res0 outer j s).1.ws i =
        direction outer (pass qr L (fun v => v) junk mEPS tol res0 outer j s).1 (i + 1) := by
      intro i hi
      have e : direction outer (pass qr L (fun v => v) junk mEPS tol res0 outer j s).1 (i + 1) =
          direction outer s (i + 1) := by
        unfold direction
        rw [p3 0 (by omega), p3 (i + 1 - 1) (by omega)]
      rw [e]
      by_cases hij : i = j - 1
      · rw [hij, p5]; congr 1; omega
      · rw [p4 i (by omega), hd i (by omega)]
    rw [inner]
    split_ifs with hs
    · exact ⟨key, fun _ => le_rfl⟩
    · obtain ⟨q1, q2⟩ := ih (j + 1) (by omega) _ (p1.inv (p2 hs)) fun i hi => key i (by omega)
      refine ⟨q1, fun _ => ?_⟩
      rcases Nat.eq_zero_or_pos k with rfl | hk
      · exact le_rfl
      · exact (Nat.le_succ j).trans (q2 hk)

/-- There is a space with the vector `u` that `L` maps into itself up to a relative error of `mEPS`, but not exactly, at some
vector `w`. -/
def Breakdown (L : E →ₗ[ℝ] E) (mEPS : ℝ) (u : E) : Prop :=
  ∃ W : Submodule ℝ E, u ∈ W ∧ ∃ w ∈ W, L w ∉ W ∧ ∃ p ∈ W, ‖L w - p‖ ≤ mEPS * ‖L w‖

/-- How the inner loop ends. -/
theorem inner_stop (hqr : IsQR qr) (L : E →ₗ[ℝ] E) (junk : E) (mEPS tol res0 : ℝ) (hm : 0 ≤ mEPS) (k : Nat) :
    ∀ j, 1 ≤ j → ∀ s : Arn E, Inv L j s →
      (Orth (inner qr L (fun v => v) junk mEPS tol res0 [] k j s).2.vs (j + k)) ∨
      (1 ≤ (inner qr L (fun v => v) junk mEPS tol res0 [] k j s).1 ∧
        (|(inner qr L (fun v => v) junk mEPS tol res0 [] k j s).2.Q 0
          (inner qr L (fun v => v) junk mEPS tol res0 [] k j s).1| * res0 ≤ tol * res0 ∨
        ∀ c < (inner qr L (fun v => v) junk mEPS tol res0 [] k j s).1,
          ∑ l ∈ Finset.range ((inner qr L (fun v => v) junk mEPS tol res0 [] k j s).1 + 1),
            (inner qr L (fun v => v) junk mEPS tol res0 [] k j s).2.Q
              (inner qr L (fun v => v) junk mEPS tol res0 [] k j s).1 l *
            (inner qr L (fun v => v) junk mEPS tol res0 [] k j s).2.R l c = 0)) ∨
      Breakdown L mEPS (s.vs 0) := by
  induction k with
  | zero => intro j hj s h; exact .inl h.orth
  | succ k ih =>
    intro j hj s h
    obtain ⟨p1, p2, p3, p4, p5, p6⟩ := pass_spec hqr L junk mEPS tol res0 hm [] j hj s h
    rw [inner]
    split_ifs with hs
    · right
      rcases p6 hs with h' | h' | ⟨h', h''⟩
      · exact .inl ⟨hj, .inl h'⟩
      · exact .inl ⟨hj, .inr h'⟩
      · right
        obtain ⟨g1, g2, -⟩ := gram_spec s.vs j (L (direction [] s j)) h.orth
        have hmem : ∀ i < j, s.vs i ∈ Submodule.span ℝ (s.vs '' {i | i < j}) :=
          fun i hi => Submodule.subset_span ⟨i, hi, rfl⟩
        have hp : ∑ i ∈ Finset.range j, (gram s.vs j (L (direction [] s j))).2 i • s.vs i ∈
            Submodule.span ℝ (s.vs '' {i | i < j}) :=
          Submodule.sum_mem _ fun i hi => Submodule.smul_mem _ _ (hmem i (Finset.mem_range.1 hi))
        have horth : ∀ q ∈ Submodule.span ℝ (s.vs '' {i | i < j}),
            ⟪q, (gram s.vs j (L (direction [] s j))).1⟫ = (0 : ℝ) := by
          intro q hq
          induction hq using Submodule.span_induction with
          | mem x hx => obtain ⟨i, hi, rfl⟩ := hx; exact g2 i hi
          | zero => exact inner_zero_left _
          | add x y _ _ hx hy => rw [inner_add_left, hx, hy, add_zero]
          | smul a x _ hx => rw [inner_smul_left, hx, mul_zero]
        refine ⟨Submodule.span ℝ (s.vs '' {i | i < j}), hmem 0 hj, direction [] s j, ?_, ?_, _, hp, ?_⟩
        · simp only [direction, List.length_nil]
          rw [if_neg (by omega)]
          split_ifs
          · exact hmem 0 hj
          · exact hmem _ (by omega)
        · intro hin
          have : (gram s.vs j (L (direction [] s j))).1 ∈ Submodule.span ℝ (s.vs '' {i | i < j}) := by
            rw [← eq_sub_iff_add_eq] at g1
            rw [g1]
            exact Submodule.sub_mem _ hin hp
          have h0 := horth _ this
          rw [real_inner_self_eq_norm_sq] at h0
          exact h'.ne' (pow_eq_zero_iff two_ne_zero |>.1 h0)
        · rw [← eq_sub_iff_add_eq] at g1
          rw [← g1]
          exact h''
    · have := ih (j + 1) (by omega) _ (p1.inv (p2 hs))
      rwa [show j + 1 + k = j + (k + 1) by ring, p3 0 (by omega)] at this

theorem inner_spec (hqr : IsQR qr) (L : E →ₗ[ℝ] E) (junk : E) (mEPS tol res0 : ℝ) (hm : 0 ≤ mEPS) (outer : List E) (k : Nat) :
    ∀ j, 1 ≤ j → ∀ s : Arn E, Inv L j s →
      Post L (inner qr L (fun v => v) junk mEPS tol res0 outer k j s).1
        (inner qr L (fun v => v) junk mEPS tol res0 outer k j s).2 ∧
      (inner qr L (fun v => v) junk mEPS tol res0 outer k j s).2.vs 0 = s.vs 0 := by
  induction k with
  | zero =>
    intro j hj s h
    obtain ⟨m, rfl⟩ : ∃ m, j = m + 1 := ⟨j - 1, by omega⟩
    exact ⟨h.post, rfl⟩
  | succ k ih =>
    intro j hj s h
    obtain ⟨p1, p2, p3, -⟩ := pass_spec hqr L junk mEPS tol res0 hm outer j hj s h
    rw [inner]
    split_ifs with hs
    · exact ⟨p1, p3 0 (by omega)⟩
    · obtain ⟨q1, q2⟩ := ih (j + 1) (by omega) _ (p1.inv (p2 hs))
      exact ⟨q1, q2.trans (p3 0 (by omega))⟩

/-- The residual of any combination of the search directions. -/
theorem residual_sq (L : E →ₗ[ℝ] E) (j : Nat) (s : Arn E) (h : Post L j s) (β : ℝ) (y : Nat → ℝ) :
    ‖β • s.vs 0 - L (∑ c ∈ Finset.range j, y c • s.ws c)‖ ^ 2 =
      ∑ l ∈ Finset.range j, (β * s.Q 0 l - ∑ c ∈ Finset.range j, s.R l c * y c) ^ 2 + (β * s.Q 0 j) ^ 2 := by
  set ρ : Nat → ℝ := fun k => ∑ c ∈ Finset.range j, s.R k c * y c with hρ
  have hρj : ρ j = 0 := by
    refine Finset.sum_eq_zero fun c hc => ?_
    rw [h.upper j c (Finset.mem_range.1 hc), zero_mul]
  set u : Nat → ℝ := fun r => ∑ k ∈ Finset.range (j + 1), s.Q r k * (β * s.Q 0 k - ρ k) with hu
  have hL : L (∑ c ∈ Finset.range j, y c • s.ws c) =
      ∑ r ∈ Finset.range (j + 1), (∑ k ∈ Finset.range (j + 1), s.Q r k * ρ k) • s.vs r := by
    rw [map_sum]
    have : ∀ c ∈ Finset.range j, L (y c • s.ws c) = ∑ r ∈ Finset.range (j + 1),
        (∑ k ∈ Finset.range (j + 1), s.Q r k * (s.R k c * y c)) • s.vs r := by
      intro c hc
      rw [map_smul, h.rel c (Finset.mem_range.1 hc), Finset.smul_sum]
      refine Finset.sum_congr rfl fun r _ => ?_
      rw [smul_smul, Finset.mul_sum]
      congr 1
      exact Finset.sum_congr rfl fun k _ => by ring
    rw [Finset.sum_congr rfl this, Finset.sum_comm]
    refine Finset.sum_congr rfl fun r _ => ?_
    rw [← Finset.sum_smul, Finset.sum_comm]
    congr 1
    refine Finset.sum_congr rfl fun k _ => ?_
    rw [hρ, Finset.mul_sum]
  have hu' : ∀ r < j + 1, u r = (if r = 0 then β else 0) - ∑ k ∈ Finset.range (j + 1), s.Q r k * ρ k := by
    intro r hr
    have e : ∑ k ∈ Finset.range (j + 1), s.Q r k * (β * s.Q 0 k) = if r = 0 then β else 0 := by
      have := h.row r hr 0 (by omega)
      calc ∑ k ∈ Finset.range (j + 1), s.Q r k * (β * s.Q 0 k) =
          β * ∑ k ∈ Finset.range (j + 1), s.Q r k * s.Q 0 k := by
            rw [Finset.mul_sum]; exact Finset.sum_congr rfl fun k _ => by ring
        _ = _ := by rw [this]; split_ifs <;> ring
    rw [← e, ← Finset.sum_sub_distrib]
    exact Finset.sum_congr rfl fun k _ => by ring
  have hvec : β • s.vs 0 - L (∑ c ∈ Finset.range j, y c • s.ws c) = ∑ r ∈ Finset.range (j + 1), u r • s.vs r := by
    have e : ∑ r ∈ Finset.range (j + 1), u r • s.vs r = ∑ r ∈ Finset.range (j + 1), ((if r = 0 then β else 0) • s.vs r -
        (∑ k ∈ Finset.range (j + 1), s.Q r k * ρ k) • s.vs r) := by
      refine Finset.sum_congr rfl fun r hr => ?_
      rw [hu' r (Finset.mem_range.1 hr), sub_smul]
    rw [hL, e, Finset.sum_sub_distrib]
    congr 1
    simp
  have hnorm : ∀ m, Orth s.vs m → ‖∑ r ∈ Finset.range m, u r • s.vs r‖ ^ 2 = ∑ r ∈ Finset.range m, u r ^ 2 := by
    intro m ho
    rw [← real_inner_self_eq_norm_sq, sum_inner]
    refine Finset.sum_congr rfl fun r hr => ?_
    rw [inner_sum, Finset.sum_eq_single r]
    · rw [inner_smul_left, inner_smul_right, ho r (Finset.mem_range.1 hr) r (Finset.mem_range.1 hr), if_pos rfl]
      simp only [conj_trivial]; ring
    · intro b hb hbr
      rw [inner_smul_left, inner_smul_right, ho r (Finset.mem_range.1 hr) b (Finset.mem_range.1 hb), if_neg (Ne.symm hbr)]
      simp
    · exact fun hn => absurd hr hn
  have hsq : ∑ r ∈ Finset.range (j + 1), u r ^ 2 = ∑ k ∈ Finset.range (j + 1), (β * s.Q 0 k - ρ k) ^ 2 := by
    set w : Nat → ℝ := fun k => β * s.Q 0 k - ρ k with hw
    calc ∑ r ∈ Finset.range (j + 1), u r ^ 2 = ∑ r ∈ Finset.range (j + 1), ∑ a ∈ Finset.range (j + 1),
          ∑ b ∈ Finset.range (j + 1), (s.Q r a * w a) * (s.Q r b * w b) := by
            refine Finset.sum_congr rfl fun r _ => ?_
            rw [sq, hu, Finset.sum_mul_sum]
      _ = ∑ a ∈ Finset.range (j + 1), ∑ b ∈ Finset.range (j + 1), ∑ r ∈ Finset.range (j + 1),
          (s.Q r a * w a) * (s.Q r b * w b) := by
            rw [Finset.sum_comm]
            exact Finset.sum_congr rfl fun a _ => Finset.sum_comm
      _ = ∑ a ∈ Finset.range (j + 1), ∑ b ∈ Finset.range (j + 1), (if a = b then 1 else 0) * (w a * w b) := by
            refine Finset.sum_congr rfl fun a ha => Finset.sum_congr rfl fun b hb => ?_
            rw [← h.col a (Finset.mem_range.1 ha) b (Finset.mem_range.1 hb), Finset.sum_mul]
            exact Finset.sum_congr rfl fun r _ => by ring
      _ = _ := by
            refine Finset.sum_congr rfl fun a ha => ?_
            rw [Finset.sum_eq_single a]
            · rw [if_pos rfl]; ring
            · intro b _ hb; rw [if_neg (Ne.symm hb), zero_mul]
            · exact fun hn => absurd ha hn
  rw [hvec]
  have hfin : ‖∑ r ∈ Finset.range (j + 1), u r • s.vs r‖ ^ 2 = ∑ r ∈ Finset.range (j + 1), u r ^ 2 := by
    rcases h.last with ho | ⟨hj, hz⟩
    · exact hnorm _ ho
    · have huj : u j = 0 := by
        rw [hu' j (by omega), if_neg (by omega), zero_sub, neg_eq_zero]
        calc ∑ k ∈ Finset.range (j + 1), s.Q j k * ρ k = ∑ k ∈ Finset.range (j + 1), ∑ c ∈ Finset.range j,
              (s.Q j k * s.R k c) * y c := by
                refine Finset.sum_congr rfl fun k _ => ?_
                rw [hρ, Finset.mul_sum]
                exact Finset.sum_congr rfl fun c _ => by ring
          _ = ∑ c ∈ Finset.range j, (∑ k ∈ Finset.range (j + 1), s.Q j k * s.R k c) * y c := by
                rw [Finset.sum_comm]
                exact Finset.sum_congr rfl fun c _ => by rw [Finset.sum_mul]
          _ = 0 := Finset.sum_eq_zero fun c hc => by rw [hz c (Finset.mem_range.1 hc), zero_mul]
      rw [Finset.sum_range_succ, Finset.sum_range_succ, huj, zero_smul, add_zero, hnorm _ h.orth]
      ring
  rw [hfin, hsq, Finset.sum_range_succ, hρj, sub_zero]

end

end Verif.Krylov
