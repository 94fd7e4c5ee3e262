import Verif.March.Quad

/-! Pointwise characterisation of `initFrozen`. -/

namespace Verif.March

variable {P : Prob}

/-- No cell carries the mask flag (`pfmm.cpp` passes all zeros). -/
def NoMask (flag : Nat → Flag) : Prop := ∀ i, flag i ≠ .mask

theorem getN_mask {flag : Nat → Flag} (h : NoMask flag) (G : Grid) (i d : Nat) (dir : Bool) :
    getN G flag i d dir .mask = G.nb i d dir := by
  unfold getN
  cases G.nb i d dir with
  | none => rfl
  | some a => simp [h a]

/-- `d` is the distance to some crossing seen from `i` along `dim`. -/
def CrossAt (P : Prob) (i dim : Nat) (d : ℝ) : Prop :=
  ∃ dir a, P.G.nb i dim dir = some a ∧ Crosses P i a ∧ d = interpDist P i a dim

theorem interp_eq {i a dim : Nat} (h : Crosses P i a) :
    P.dx dim * P.phi i / (P.phi i - P.phi a) = interpDist P i a dim := by
  unfold Crosses at h
  unfold interpDist
  rcases mul_neg_iff.1 h with ⟨h1, h2⟩ | ⟨h1, h2⟩
  · rw [abs_of_pos h1, abs_of_neg h2, ← sub_eq_add_neg, mul_div_assoc]
  · rw [abs_of_neg h1, abs_of_pos h2, mul_div_assoc]
    congr 1
    rw [← neg_div_neg_eq]
    congr 1
    ring

theorem interp_bounds {i a dim : Nat} (hdx : 0 < P.dx dim) (h : Crosses P i a) :
    0 < interpDist P i a dim ∧ interpDist P i a dim ≤ P.dx dim := by
  unfold Crosses at h
  have h1 : P.phi i ≠ 0 := by rintro e; rw [e] at h; simp at h
  have h2 : P.phi a ≠ 0 := by rintro e; rw [e] at h; simp at h
  have h3 := abs_pos.2 h1
  have h4 := abs_pos.2 h2
  unfold interpDist
  constructor
  · positivity
  · have : |P.phi i| / (|P.phi i| + |P.phi a|) ≤ 1 := by
      rw [div_le_one (by positivity)]; linarith
    nlinarith

theorem crossDim_spec {flag : Nat → Flag} (hm : NoMask flag) {i dim : Nat}
    (hdx : 0 < P.dx dim) :
    ((crossDim P flag i dim).1 = true ∧ CrossAt P i dim (crossDim P flag i dim).2 ∧
      ∀ d, CrossAt P i dim d → (crossDim P flag i dim).2 ≤ d) ∨
    (crossDim P flag i dim = (false, 0) ∧ ∀ d, ¬ CrossAt P i dim d) := by
  have key : ∀ s dir, crossStep P flag i dim s dir =
      match P.G.nb i dim dir with
      | none => s
      | some a => if P.phi i * P.phi a < 0 then
          (true, if s.2 = 0 ∨ s.2 > interpDist P i a dim then interpDist P i a dim else s.2)
        else s := by
    intro s dir
    unfold crossStep
    rw [getN_mask hm]
    cases P.G.nb i dim dir with
    | none => rfl
    | some a =>
      simp only
      split
      · rename_i h
        rw [interp_eq (P := P) h]
      · rfl
  have hc : crossDim P flag i dim = crossStep P flag i dim (crossStep P flag i dim (false, 0) false) true := rfl
  rw [hc, key _ true, key _ false]
  have none_case : ∀ dir, P.G.nb i dim dir = none → ∀ a, P.G.nb i dim dir ≠ some a := by
    intro dir h a; rw [h]; simp
  have pos : ∀ a, P.phi i * P.phi a < 0 → 0 < interpDist P i a dim :=
    fun a h => (interp_bounds hdx h).1
  rcases e0 : P.G.nb i dim false with _ | a0
  · rcases e1 : P.G.nb i dim true with _ | a1
    · right
      refine ⟨rfl, ?_⟩
      rintro d ⟨dir, a, h, _⟩
      cases dir <;> simp_all
    · simp only
      by_cases c1 : P.phi i * P.phi a1 < 0
      · left
        simp only [c1, if_true, true_or, true_and]
        refine ⟨⟨true, a1, e1, c1, rfl⟩, ?_⟩
        rintro d ⟨dir, a, h, hc, rfl⟩
        cases dir <;> simp_all
      · right
        simp only [c1, if_false, true_and]
        rintro d ⟨dir, a, h, hc, rfl⟩
        cases dir <;> simp_all [Crosses]
        linarith
  · rcases e1 : P.G.nb i dim true with _ | a1
    · simp only
      by_cases c0 : P.phi i * P.phi a0 < 0
      · left
        simp only [c0, if_true, true_or, true_and]
        refine ⟨⟨false, a0, e0, c0, rfl⟩, ?_⟩
        rintro d ⟨dir, a, h, hc, rfl⟩
        cases dir <;> simp_all
      · right
        simp only [c0, if_false, true_and]
        rintro d ⟨dir, a, h, hc, rfl⟩
        cases dir <;> simp_all [Crosses]
        linarith
    · simp only
      by_cases c0 : P.phi i * P.phi a0 < 0
      · by_cases c1 : P.phi i * P.phi a1 < 0
        · left
          have p0 := pos a0 c0
          simp only [c0, c1, if_true, true_or, true_and, p0.ne', false_or]
          split
          · rename_i hlt
            refine ⟨⟨true, a1, e1, c1, rfl⟩, ?_⟩
            rintro d ⟨dir, a, h, hc, rfl⟩
            cases dir
            · rw [e0] at h; cases h; exact hlt.le
            · rw [e1] at h; cases h; exact le_rfl
          · rename_i hlt
            refine ⟨⟨false, a0, e0, c0, rfl⟩, ?_⟩
            rintro d ⟨dir, a, h, hc, rfl⟩
            cases dir
            · rw [e0] at h; cases h; exact le_rfl
            · rw [e1] at h; cases h; exact not_lt.1 hlt
        · left
          simp only [c0, c1, if_true, if_false, true_or, true_and]
          refine ⟨⟨false, a0, e0, c0, rfl⟩, ?_⟩
          rintro d ⟨dir, a, h, hc, rfl⟩
          cases dir
          · rw [e0] at h; cases h; exact le_rfl
          · rw [e1] at h; cases h; exact absurd hc c1
      · by_cases c1 : P.phi i * P.phi a1 < 0
        · left
          simp only [c0, c1, if_true, if_false, true_or, true_and]
          refine ⟨⟨true, a1, e1, c1, rfl⟩, ?_⟩
          rintro d ⟨dir, a, h, hc, rfl⟩
          cases dir
          · rw [e0] at h; cases h; exact absurd hc c0
          · rw [e1] at h; cases h; exact le_rfl
        · right
          simp only [c0, c1, if_false, true_and]
          rintro d ⟨dir, a, h, hc, rfl⟩
          cases dir
          · rw [e0] at h; cases h; exact absurd hc c0
          · rw [e1] at h; cases h; exact absurd hc c1

/-- `m` is the least crossing distance of `i`. -/
def LeastCross (P : Prob) (i : Nat) (m : ℝ) : Prop :=
  (∃ d < P.G.ndim, CrossAt P i d m) ∧ ∀ d < P.G.ndim, ∀ v, CrossAt P i d v → m ≤ v

theorem CrossAt.pos {i dim : Nat} {d : ℝ} (hdx : 0 < P.dx dim) (h : CrossAt P i dim d) :
    0 < d ∧ d ≤ P.dx dim := by
  obtain ⟨dir, a, _, hc, rfl⟩ := h
  exact interp_bounds hdx hc

theorem minDist_spec {flag : Nat → Flag} (hm : NoMask flag) {i : Nat}
    (hdx : ∀ d < P.G.ndim, 0 < P.dx d) :
    (∃ m, minDist P flag i = some m ∧ LeastCross P i m) ∨
    (minDist P flag i = none ∧ ∀ d < P.G.ndim, ∀ v, ¬ CrossAt P i d v) := by
  have gen : ∀ n ≤ P.G.ndim,
      let r := (List.range n).foldl (fun m dim =>
        let dist := |(crossDim P flag i dim).2|
        if 0 < dist then
          match m with
          | none => some dist
          | some m => some (min m dist)
        else m) none
      (∃ m, r = some m ∧ (∃ d < n, CrossAt P i d m) ∧ ∀ d < n, ∀ v, CrossAt P i d v → m ≤ v) ∨
      (r = none ∧ ∀ d < n, ∀ v, ¬ CrossAt P i d v) := by
    intro n
    induction n with
    | zero => intro _; right; simp
    | succ n ih =>
      intro hn
      have ih := ih (by omega)
      simp only [List.range_succ, List.foldl_append, List.foldl_cons, List.foldl_nil] at ih ⊢
      rcases crossDim_spec (P := P) hm (i := i) (hdx n (by omega)) with ⟨h1, h2, h3⟩ | ⟨h1, h2⟩
      · have hp := h2.pos (hdx n (by omega))
        have habs := abs_of_pos hp.1
        rw [habs]
        simp only [hp.1, if_true]
        left
        rcases ih with ⟨m, e, ⟨d, hd, hm1⟩, hm2⟩ | ⟨e, hno⟩
        · rw [e]
          refine ⟨_, rfl, ?_, ?_⟩
          · rcases min_choice m (crossDim P flag i n).2 with e' | e'
            · rw [e']; exact ⟨d, by omega, hm1⟩
            · rw [e']; exact ⟨n, by omega, h2⟩
          · intro d hd v hv
            rcases Nat.lt_succ_iff_lt_or_eq.1 hd with hd | rfl
            · exact (min_le_left _ _).trans (hm2 d hd v hv)
            · exact (min_le_right _ _).trans (h3 v hv)
        · rw [e]
          refine ⟨_, rfl, ⟨n, by omega, h2⟩, ?_⟩
          intro d hd v hv
          rcases Nat.lt_succ_iff_lt_or_eq.1 hd with hd | rfl
          · exact absurd hv (hno d hd v)
          · exact h3 v hv
      · rw [h1]
        simp only [abs_zero, lt_irrefl, if_false]
        rcases ih with ⟨m, e, ⟨d, hd, hm1⟩, hm2⟩ | ⟨e, hno⟩
        · left
          refine ⟨m, e, ⟨d, by omega, hm1⟩, ?_⟩
          intro d hd v hv
          rcases Nat.lt_succ_iff_lt_or_eq.1 hd with hd | rfl
          · exact hm2 d hd v hv
          · exact absurd hv (h2 v)
        · right
          refine ⟨e, ?_⟩
          intro d hd v hv
          rcases Nat.lt_succ_iff_lt_or_eq.1 hd with hd | rfl
          · exact hno d hd v hv
          · exact h2 v hv
  exact gen P.G.ndim le_rfl

theorem any_spec {flag : Nat → Flag} (hm : NoMask flag) {i : Nat}
    (hdx : ∀ d < P.G.ndim, 0 < P.dx d) :
    (List.range P.G.ndim).any (fun dim => (crossDim P flag i dim).1) = true ↔
      ∃ d < P.G.ndim, ∃ v, CrossAt P i d v := by
  rw [List.any_eq_true]
  constructor
  · rintro ⟨d, hd, h⟩
    rw [List.mem_range] at hd
    rcases crossDim_spec (P := P) hm (i := i) (hdx d hd) with ⟨_, h2, _⟩ | ⟨h1, _⟩
    · exact ⟨d, hd, _, h2⟩
    · rw [h1] at h; cases h
  · rintro ⟨d, hd, v, h⟩
    refine ⟨d, List.mem_range.2 hd, ?_⟩
    rcases crossDim_spec (P := P) hm (i := i) (hdx d hd) with ⟨h1, _, _⟩ | ⟨_, h2⟩
    · exact h1
    · exact absurd h (h2 v)

/-- What `initFrozen` leaves at cell `i < size`. -/
structure Init0 (P : Prob) (f : Flag) (v : ℝ) (i : Nat) : Prop where
  zero : P.phi i = 0 → f = .frozen ∧ v = 0
  cross : P.phi i ≠ 0 → (∃ d < P.G.ndim, ∃ w, CrossAt P i d w) →
    f = .frozen ∧ ∃ m, LeastCross P i m ∧ v = if P.phi i < 0 then -m else m
  rest : P.phi i ≠ 0 → (¬ ∃ d < P.G.ndim, ∃ w, CrossAt P i d w) → f = .far ∧ v = 0

theorem zeroLoop_spec (n : Nat) :
    let r := (List.range n).foldl (zeroStep P) (fun _ => Flag.far, fun _ => 0)
    (∀ i, r.1 i = if i < n ∧ P.phi i = 0 then .frozen else .far) ∧ ∀ i, r.2 i = 0 := by
  induction n with
  | zero => simp
  | succ n ih =>
    simp only [List.range_succ, List.foldl_append, List.foldl_cons, List.foldl_nil] at ih ⊢
    obtain ⟨h1, h2⟩ := ih
    set r := (List.range n).foldl (zeroStep P) (fun _ => Flag.far, fun _ => 0)
    unfold zeroStep
    have hm : r.1 n ≠ .mask := by rw [h1]; split <;> simp
    by_cases hz : P.phi n = 0
    · rw [if_pos ⟨hm, hz⟩]
      constructor
      · intro i
        by_cases e : i = n
        · subst e; simp [hz]
        · simp only [Function.update_of_ne e]
          rw [h1]
          have : i < n + 1 ↔ i < n := by omega
          simp only [this]
      · intro i
        by_cases e : i = n
        · subst e; simp
        · simp only [Function.update_of_ne e]; exact h2 i
    · rw [if_neg (by simp [hz])]
      constructor
      · intro i
        rw [h1]
        by_cases e : i = n
        · subst e; simp [hz]
        · have : i < n + 1 ↔ i < n := by omega
          simp only [this]
      · exact h2

theorem borderLoop_spec (hdx : ∀ d < P.G.ndim, 0 < P.dx d) (n : Nat) (hn : n ≤ P.G.size) :
    let r := (List.range n).foldl (borderStep P)
      ((List.range P.G.size).foldl (zeroStep P) (fun _ => Flag.far, fun _ => 0))
    NoMask r.1 ∧ (∀ i < n, Init0 P (r.1 i) (r.2 i) i) ∧
      ∀ i, n ≤ i → r.1 i = (if i < P.G.size ∧ P.phi i = 0 then .frozen else .far) ∧ r.2 i = 0 := by
  induction n with
  | zero =>
    obtain ⟨h1, h2⟩ := zeroLoop_spec (P := P) P.G.size
    refine ⟨fun i => ?_, fun i hi => absurd hi (Nat.not_lt_zero i), fun i _ => ⟨h1 i, h2 i⟩⟩
    simp only [List.range_zero, List.foldl_nil]
    rw [h1]; split <;> simp
  | succ n ih =>
    have ih := ih (by omega)
    simp only [List.range_succ, List.foldl_append, List.foldl_cons, List.foldl_nil] at ih ⊢
    obtain ⟨h0, h1, h2⟩ := ih
    set r := (List.range n).foldl (borderStep P)
      ((List.range P.G.size).foldl (zeroStep P) (fun _ => Flag.far, fun _ => 0))
    have hn2 := h2 n le_rfl
    have hn' : n < P.G.size := by omega
    simp only [hn', true_and] at hn2
    -- result of the step
    have step : NoMask (borderStep P r n).1 ∧ Init0 P ((borderStep P r n).1 n) ((borderStep P r n).2 n) n ∧
        ∀ i, i ≠ n → (borderStep P r n).1 i = r.1 i ∧ (borderStep P r n).2 i = r.2 i := by
      unfold borderStep
      by_cases hz : P.phi n = 0
      · rw [if_pos hz] at hn2
        rw [if_neg (by rw [hn2.1]; simp)]
        exact ⟨h0, ⟨fun _ => hn2, fun h => absurd hz h, fun h => absurd hz h⟩, fun i _ => ⟨rfl, rfl⟩⟩
      · rw [if_neg hz] at hn2
        rw [if_pos hn2.1]
        by_cases hc : (List.range P.G.ndim).any (fun dim => (crossDim P r.1 n dim).1) = true
        · rw [if_pos hc]
          have hc' := (any_spec h0 hdx).1 hc
          rcases minDist_spec (P := P) h0 (i := n) hdx with ⟨m, e, hl⟩ | ⟨_, hno⟩
          · rw [e]
            refine ⟨?_, ⟨fun h => absurd h hz, fun _ _ => ?_, fun _ h => absurd hc' h⟩, ?_⟩
            · intro i
              by_cases e : i = n
              · subst e; simp
              · simp only [Function.update_of_ne e]; exact h0 i
            · simp only [Function.update_self]
              exact ⟨trivial, m, hl, rfl⟩
            · intro i e
              simp [Function.update_of_ne e]
          · obtain ⟨d, hd, v, hv⟩ := hc'
            exact absurd hv (hno d hd v)
        · rw [if_neg hc]
          rw [any_spec h0 hdx] at hc
          exact ⟨h0, ⟨fun h => absurd h hz, fun _ h => absurd h hc, fun _ _ => hn2⟩, fun i _ => ⟨rfl, rfl⟩⟩
    obtain ⟨s0, s1, s2⟩ := step
    refine ⟨s0, ?_, ?_⟩
    · intro i hi
      rcases Nat.lt_succ_iff_lt_or_eq.1 hi with hi | rfl
      · obtain ⟨e1, e2⟩ := s2 i (by omega)
        rw [e1, e2]; exact h1 i hi
      · exact s1
    · intro i hi
      obtain ⟨e1, e2⟩ := s2 i (by omega)
      rw [e1, e2]; exact h2 i (by omega)

/-- Pointwise description of the cells after `initFrozen`. -/
theorem initFrozen_spec (hdx : ∀ d < P.G.ndim, 0 < P.dx d) :
    NoMask (initFrozen P).1 ∧
      ∀ i < P.G.size, Init0 P ((initFrozen P).1 i) ((initFrozen P).2 i) i := by
  have h := borderLoop_spec (P := P) hdx P.G.size le_rfl
  exact ⟨h.1, h.2.1⟩

theorem crossAt_iff {i : Nat} : (∃ d < P.G.ndim, ∃ w, CrossAt P i d w) ↔
    ∃ d < P.G.ndim, ∃ dir a, P.G.nb i d dir = some a ∧ Crosses P i a := by
  constructor
  · rintro ⟨d, hd, w, dir, a, h1, h2, _⟩; exact ⟨d, hd, dir, a, h1, h2⟩
  · rintro ⟨d, hd, dir, a, h1, h2⟩; exact ⟨d, hd, _, dir, a, h1, h2, rfl⟩

/-- Frozen initially iff at the interface. -/
theorem init_frozen_iff (hdx : ∀ d < P.G.ndim, 0 < P.dx d) {i : Nat} (hi : i < P.G.size) :
    (initFrozen P).1 i = .frozen ↔ AtInterface P i := by
  have h := (initFrozen_spec (P := P) hdx).2 i hi
  unfold AtInterface
  rw [← crossAt_iff]
  constructor
  · intro hf
    by_cases hz : P.phi i = 0
    · exact .inl hz
    · right
      by_contra hc
      rw [(h.rest hz hc).1] at hf; cases hf
  · rintro hz
    by_cases h0 : P.phi i = 0
    · exact (h.zero h0).1
    · exact (h.cross h0 (hz.resolve_left h0)).1

theorem init_far {i : Nat} (hdx : ∀ d < P.G.ndim, 0 < P.dx d) (hi : i < P.G.size)
    (hf : (initFrozen P).1 i ≠ .frozen) : (initFrozen P).1 i = .far ∧ (initFrozen P).2 i = 0 := by
  have h := (initFrozen_spec (P := P) hdx).2 i hi
  by_cases hz : P.phi i = 0
  · exact absurd (h.zero hz).1 hf
  · by_cases hc : ∃ d < P.G.ndim, ∃ w, CrossAt P i d w
    · exact absurd (h.cross hz hc).1 hf
    · exact h.rest hz hc

end Verif.March
