import Verif.March.Init

/-! The value computed by `update` solves the discrete eikonal equation. -/

namespace Verif.March

open Classical

variable {P : Prob}

theorem MinOver.unique {G : Grid} {S : Nat → Prop} {D : Nat → ℝ} {i d : Nat} {o o' : Option ℝ}
    (h : MinOver G S D i d o) (h' : MinOver G S D i d o') : o = o' := by
  cases o with
  | none =>
    cases o' with
    | none => rfl
    | some m => obtain ⟨⟨dir, a, h1, h2, _⟩, _⟩ := h'; exact absurd h2 (h dir a h1)
  | some m =>
    cases o' with
    | none => obtain ⟨⟨dir, a, h1, h2, _⟩, _⟩ := h; exact absurd h2 (h' dir a h1)
    | some m' =>
      obtain ⟨⟨dir, a, h1, h2, h3⟩, h4⟩ := h
      obtain ⟨⟨dir', a', h1', h2', h3'⟩, h4'⟩ := h'
      have e1 := h4 dir' a' h1' h2'
      have e2 := h4' dir a h1 h2
      congr 1
      rw [h3] at e1 ⊢; rw [h3'] at e2 ⊢
      linarith

/-- Result of the scan of one axis. -/
theorem scan_spec {flag : Nat → Flag} {dist : Nat → ℝ} (hm : NoMask flag) (i d : Nat) :
    (scan P flag dist i d = none ∧ ∀ dir a, P.G.nb i d dir = some a → flag a ≠ .frozen) ∨
    ∃ v, scan P flag dist i d = some v ∧
      (∃ dir a, P.G.nb i d dir = some a ∧ flag a = .frozen ∧ v = dist a) ∧
      ∀ dir a, P.G.nb i d dir = some a → flag a = .frozen → |v| ≤ |dist a| := by
  have key : ∀ v dir, scanStep P flag dist i d v dir =
      match P.G.nb i d dir with
      | none => v
      | some a => if flag a = .frozen then
          match v with
          | none => some (dist a)
          | some v => if |dist a| < |v| then some (dist a) else some v
        else v := by
    intro v dir
    unfold scanStep
    rw [getN_mask hm]
    cases P.G.nb i d dir <;> rfl
  have hs : scan P flag dist i d =
    scanStep P flag dist i d (scanStep P flag dist i d none false) true := rfl
  rw [hs, key _ true, key _ false]
  have split2 : ∀ {Q : Bool → Prop}, (∀ dir, Q dir) ↔ Q false ∧ Q true := by
    intro Q; constructor
    · intro h; exact ⟨h _, h _⟩
    · rintro ⟨h1, h2⟩ dir; cases dir <;> assumption
  simp only [split2]
  have ex2 : ∀ {Q : Bool → Prop}, (∃ dir, Q dir) ↔ Q false ∨ Q true := by
    intro Q; constructor
    · rintro ⟨dir, h⟩; cases dir <;> simp [h]
    · rintro (h | h); exacts [⟨_, h⟩, ⟨_, h⟩]
  simp only [ex2]
  rcases P.G.nb i d false with _ | a0 <;> rcases P.G.nb i d true with _ | a1
  · left; simp
  · simp only
    by_cases f1 : flag a1 = .frozen
    · right; simp [f1]
    · left; simp [f1]
  · simp only
    by_cases f0 : flag a0 = .frozen
    · right; simp [f0]
    · left; simp [f0]
  · simp only
    by_cases f0 : flag a0 = .frozen <;> by_cases f1 : flag a1 = .frozen
    · right
      simp only [f0, f1, if_true]
      by_cases hlt : |dist a1| < |dist a0|
      · simp [hlt, hlt.le, f0, f1]
      · simp [hlt, f0, f1, not_lt.1 hlt]
    · right; simp [f0, f1]
    · right; simp [f0, f1]
    · left; simp [f0, f1]

/-- The least absolute value on axis `d`, as an option (`none` beyond the dimensions). -/
noncomputable def mins (P : Prob) (F : Nat → Prop) (D : Nat → ℝ) (i d : Nat) : Option ℝ :=
  if d < P.G.ndim then
    (scan P (fun a => if F a then .frozen else .far) D i d).map abs
  else none

theorem mins_minOver (F : Nat → Prop) (D : Nat → ℝ) (i : Nat) {d : Nat} (hd : d < P.G.ndim) :
    MinOver P.G F D i d (mins P F D i d) := by
  unfold mins
  rw [if_pos hd]
  have hm : NoMask (fun a => if F a then Flag.frozen else Flag.far) := by
    intro a; simp only; split <;> simp
  have hf : ∀ a, ((if F a then Flag.frozen else Flag.far) = Flag.frozen) ↔ F a := by
    intro a; split <;> simp_all
  rcases scan_spec (P := P) (dist := D) hm i d with ⟨e, h⟩ | ⟨v, e, ⟨dir, a, h1, h2, rfl⟩, h3⟩
  · rw [e]
    intro dir a h1
    have := h dir a h1
    rwa [ne_eq, hf] at this
  · rw [e]
    refine ⟨⟨dir, a, h1, (hf a).1 h2, rfl⟩, ?_⟩
    intro dir' a' h1' h2'
    exact h3 dir' a' h1' ((hf a').2 h2')

/-- A flag array and value array agree with a frozen set `F` and its values `D`. -/
structure Agrees (flag : Nat → Flag) (dist : Nat → ℝ) (F : Nat → Prop) (D : Nat → ℝ) : Prop where
  nm : NoMask flag
  fr : ∀ i, flag i = .frozen ↔ F i
  fd : ∀ i, F i → dist i = D i

theorem scan_mins {flag : Nat → Flag} {dist D : Nat → ℝ} {F : Nat → Prop}
    (ag : Agrees flag dist F D) (i : Nat) {d : Nat} (hd : d < P.G.ndim) :
    (scan P flag dist i d).map abs = mins P F D i d ∧
      ∀ v, scan P flag dist i d = some v → ∃ dir a, P.G.nb i d dir = some a ∧ F a ∧ v = D a := by
  rcases scan_spec (P := P) (dist := dist) ag.nm i d with ⟨e, h⟩ | ⟨v, e, ⟨dir, a, h1, h2, rfl⟩, h3⟩
  · rw [e]
    constructor
    · apply MinOver.unique _ (mins_minOver F D i hd)
      intro dir a h1 hF
      exact h dir a h1 ((ag.fr a).2 hF)
    · intro v h; cases h
  · rw [e]
    have hFa := (ag.fr a).1 h2
    constructor
    · apply MinOver.unique _ (mins_minOver F D i hd)
      refine ⟨⟨dir, a, h1, hFa, by rw [ag.fd a hFa]⟩, ?_⟩
      intro dir' a' h1' hF'
      rw [← ag.fd a' hF']
      exact h3 dir' a' h1' ((ag.fr a').2 hF')
    · intro v h
      cases h
      exact ⟨dir, a, h1, hFa, ag.fd a hFa⟩

/-- `U` solves the eikonal quadratic of cell `i` with data from `F`. -/
def Cell (P : Prob) (F : Nat → Prop) (D : Nat → ℝ) (i : Nat) (U : ℝ) : Prop :=
  IsU (P.idx2 0) (P.idx2 1) (mins P F D i 0) (mins P F D i 1) U

/-- Sign used by `solveQuadratic` at cell `i`. -/
noncomputable def sg (P : Prob) (i : Nat) : ℝ := if P.eps < P.phi i then 1 else -1

theorem solve_spec {i : Nat} {A S1 S2 : ℝ} (hA : 0 < A) (hdet : 0 < S1 ^ 2 - A * (S2 - 1)) :
    ∃ U, solveQuadratic P i A (-2 * sg P i * S1) S2 = sg P i * U ∧
      A * U ^ 2 - 2 * S1 * U + S2 = 1 ∧ 0 < A * U - S1 := by
  have hsg : sg P i ^ 2 = 1 := by unfold sg; split <;> norm_num
  have hd1 : (-2 * sg P i * S1) ^ 2 - 4 * A * (S2 - 1) = 4 * (S1 ^ 2 - A * (S2 - 1)) := by
    linear_combination 4 * S1 ^ 2 * hsg
  have hpos : 0 < (-2 * sg P i * S1) ^ 2 - 4 * A * (S2 - 1) := by rw [hd1]; linarith
  have hq := quad_root (a := A) (b := -2 * S1) (c := S2) hA (by nlinarith)
  simp only at hq
  have hsame : (-2 * S1) ^ 2 - 4 * A * (S2 - 1) = (-2 * sg P i * S1) ^ 2 - 4 * A * (S2 - 1) := by
    rw [hd1]; ring
  rw [hsame] at hq
  refine ⟨(-(-2 * S1) + √((-2 * sg P i * S1) ^ 2 - 4 * A * (S2 - 1))) / 2 / A, ?_,
    by linarith [hq.1], by linarith [hq.2]⟩
  · unfold solveQuadratic
    simp only
    rw [if_pos hpos]
    by_cases he : P.eps < P.phi i
    · have : sg P i = 1 := by simp [sg, he]
      rw [if_pos he, this]; ring
    · have : sg P i = -1 := by simp [sg, he]
      rw [if_neg he, this]; ring

theorem eq_sg_abs {i : Nat} {x : ℝ} (h : 0 ≤ sg P i * x) : x = sg P i * |x| := by
  unfold sg at *
  split_ifs at h ⊢
  · rw [abs_of_nonneg (by linarith)]; ring
  · rw [abs_of_nonpos (by linarith)]; ring

/-- The update of a cell whose frozen neighbours all lie on its own side. -/
theorem update_spec {flag : Nat → Flag} {dist D : Nat → ℝ} {F : Nat → Prop} {i : Nat}
    (ag : Agrees flag dist F D) (hnd : P.G.ndim ≤ 2) (hdx : ∀ d, 0 < P.dx d)
    (coh : ∀ d < P.G.ndim, ∀ dir a, P.G.nb i d dir = some a → F a → 0 ≤ sg P i * D a)
    (hex : mins P F D i 0 ≠ none ∨ mins P F D i 1 ≠ none)
    (sep : ∀ m m', mins P F D i 0 = some m → mins P F D i 1 = some m' →
      |m - m'| ≤ max (P.dx 0) (P.dx 1)) :
    ∃ U, update P flag dist i = sg P i * U ∧ Cell P F D i U := by
  have hsg : sg P i ^ 2 = 1 := by unfold sg; split <;> norm_num
  have hh : ∀ d, 0 < P.idx2 d := by
    intro d; have := hdx d; unfold Prob.idx2; positivity
  -- each axis contributes `sg * m`
  have axis : ∀ d < P.G.ndim,
      (scan P flag dist i d = none ∧ mins P F D i d = none) ∨
      ∃ m, scan P flag dist i d = some (sg P i * m) ∧ mins P F D i d = some m := by
    intro d hd
    obtain ⟨h1, h2⟩ := scan_mins (P := P) ag i hd
    rcases e : scan P flag dist i d with _ | v
    · left; rw [e] at h1; exact ⟨rfl, h1.symm⟩
    · right
      obtain ⟨dir, a, hn, hF, rfl⟩ := h2 v e
      rw [e] at h1
      exact ⟨|D a|, by rw [← eq_sg_abs (coh d hd dir a hn hF)], h1.symm⟩
  have big : ∀ d, P.G.ndim ≤ d → mins P F D i d = none := by
    intro d hd; unfold mins; rw [if_neg (by omega)]
  unfold Cell
  unfold update
  have one : ∀ (hx mx : ℝ), 0 < hx → ∃ U, solveQuadratic P i hx (-2 * sg P i * (hx * mx)) (hx * mx ^ 2) =
      sg P i * U ∧ hx * (U - mx) ^ 2 = 1 ∧ 0 < hx * (U - mx) := by
    intro hx mx hp
    obtain ⟨U, h1, h2, h3⟩ := solve_spec (P := P) (i := i) (A := hx) (S1 := hx * mx)
      (S2 := hx * mx ^ 2) hp (by
        have : (hx * mx) ^ 2 - hx * (hx * mx ^ 2 - 1) = hx := by ring
        rw [this]; exact hp)
    exact ⟨U, h1, by linear_combination h2, by linarith⟩
  have hcases : P.G.ndim = 0 ∨ P.G.ndim = 1 ∨ P.G.ndim = 2 := by omega
  rcases hcases with e | e | e
  · exfalso
    rcases hex with h | h
    · exact h (big 0 (by omega))
    · exact h (big 1 (by omega))
  · have h1n := big 1 (by omega)
    rw [e, h1n]
    rcases axis 0 (by omega) with ⟨_, h⟩ | ⟨m, h, hm⟩
    · exact absurd h1n (by rcases hex with h' | h'; exacts [absurd h h', h'])
    · obtain ⟨U, u1, u2, u3⟩ := one (P.idx2 0) m (hh 0)
      refine ⟨U, ?_, ?_, ?_⟩
      · rw [← u1]
        simp only [List.range_one, List.foldl_cons, List.foldl_nil, accum, h]
        congr 1
        · ring
        · ring
        · linear_combination (P.idx2 0 * m ^ 2) * hsg
      · rw [hm]; simp only [tm]; linarith
      · rw [hm]; simp only [sl]; linarith
  · rw [e]
    have hr : List.range 2 = [0, 1] := rfl
    rw [hr]
    simp only [List.foldl_cons, List.foldl_nil, accum]
    rcases axis 0 (by omega) with ⟨h0, m0⟩ | ⟨mx, h0, m0⟩ <;>
      rcases axis 1 (by omega) with ⟨h1, m1⟩ | ⟨my, h1, m1⟩
    · exfalso; rcases hex with h | h <;> contradiction
    · obtain ⟨U, u1, u2, u3⟩ := one (P.idx2 1) my (hh 1)
      refine ⟨U, ?_, ?_, ?_⟩
      · rw [← u1]
        simp only [h0, h1]
        congr 1
        · ring
        · ring
        · linear_combination (P.idx2 1 * my ^ 2) * hsg
      · rw [m0, m1]; simp only [tm]; linarith
      · rw [m0, m1]; simp only [sl]; linarith
    · obtain ⟨U, u1, u2, u3⟩ := one (P.idx2 0) mx (hh 0)
      refine ⟨U, ?_, ?_, ?_⟩
      · rw [← u1]
        simp only [h0, h1]
        congr 1
        · ring
        · ring
        · linear_combination (P.idx2 0 * mx ^ 2) * hsg
      · rw [m0, m1]; simp only [tm]; linarith
      · rw [m0, m1]; simp only [sl]; linarith
    · have hdet := det_pos (mx := mx) (my := my) (hdx 0) (hdx 1) rfl (sep mx my m0 m1)
      have hx := hh 0
      have hy := hh 1
      change 0 < (P.idx2 0 + P.idx2 1) - P.idx2 0 * P.idx2 1 * (mx - my) ^ 2 at hdet
      obtain ⟨U, u1, u2, u3⟩ := solve_spec (P := P) (i := i) (A := P.idx2 0 + P.idx2 1)
        (S1 := P.idx2 0 * mx + P.idx2 1 * my) (S2 := P.idx2 0 * mx ^ 2 + P.idx2 1 * my ^ 2)
        (by linarith) (by linarith)
      refine ⟨U, ?_, ?_, ?_⟩
      · rw [← u1]
        simp only [h0, h1]
        congr 1
        · ring
        · ring
        · linear_combination (P.idx2 0 * mx ^ 2 + P.idx2 1 * my ^ 2) * hsg
      · rw [m0, m1]; simp only [tm]; linarith
      · rw [m0, m1]; simp only [sl]; linarith

/-- How the axis minima change when cells of absolute value `K` are added. -/
theorem mins_lower {F0 F : Nat → Prop} {D : Nat → ℝ} {K : ℝ} {i : Nat}
    (hsub : ∀ a, F0 a → F a) (hnew : ∀ a, F a → ¬ F0 a → |D a| = K) (d : Nat) :
    Lower K (mins P F0 D i d) (mins P F D i d) := by
  by_cases hd : d < P.G.ndim
  · have h0 := mins_minOver (P := P) F0 D i hd
    have h1 := mins_minOver (P := P) F D i hd
    revert h0 h1
    generalize mins P F0 D i d = o
    generalize mins P F D i d = o'
    intro h0 h1
    cases o with
    | none =>
      cases o' with
      | none => exact .same _
      | some m =>
        obtain ⟨⟨dir, a, n1, n2, rfl⟩, _⟩ := h1
        rw [hnew a n2 (h0 dir a n1)]
        exact .new
    | some m =>
      obtain ⟨⟨dir, a, n1, n2, n3⟩, hmin⟩ := h0
      cases o' with
      | none => exact absurd (hsub a n2) (h1 dir a n1)
      | some m' =>
        obtain ⟨⟨dir', a', n1', n2', n3'⟩, hmin'⟩ := h1
        have hle := hmin' dir a n1 (hsub a n2)
        rw [← n3] at hle
        by_cases hF : F0 a'
        · have := hmin dir' a' n1' hF
          have e : m = m' := by linarith
          subst e; exact .same _
        · have := hnew a' n2' hF
          have e : m' = K := by rw [n3', this]
          subst e
          exact .low hle
  · have e : mins P F0 D i d = none := by unfold mins; rw [if_neg hd]
    have e' : mins P F D i d = none := by unfold mins; rw [if_neg hd]
    rw [e, e']; exact .same _

theorem mins_nonneg {F : Nat → Prop} {D : Nat → ℝ} {i d : Nat} {m : ℝ}
    (h : mins P F D i d = some m) : ∃ dir a, d < P.G.ndim ∧ P.G.nb i d dir = some a ∧ F a ∧ m = |D a| := by
  by_cases hd : d < P.G.ndim
  · have h0 := mins_minOver (P := P) F D i hd
    rw [h] at h0
    obtain ⟨⟨dir, a, n1, n2, n3⟩, _⟩ := h0
    exact ⟨dir, a, hd, n1, n2, n3⟩
  · unfold mins at h; rw [if_neg hd] at h; cases h

theorem mins_ne_none {F : Nat → Prop} {D : Nat → ℝ} {i d : Nat} {dir : Bool} {a : Nat}
    (hd : d < P.G.ndim) (h : P.G.nb i d dir = some a) (hF : F a) : mins P F D i d ≠ none := by
  intro e
  have h0 := mins_minOver (P := P) F D i hd
  rw [e] at h0
  exact h0 dir a h hF

theorem mins_congr {F : Nat → Prop} {D D' : Nat → ℝ} (h : ∀ a, F a → D a = D' a) (i d : Nat) :
    mins P F D i d = mins P F D' i d := by
  by_cases hd : d < P.G.ndim
  · apply MinOver.unique (mins_minOver F D i hd)
    have h0 := mins_minOver (P := P) F D' i hd
    cases e : mins P F D' i d with
    | none => rw [e] at h0; exact h0
    | some m =>
      rw [e] at h0
      obtain ⟨⟨dir, a, n1, n2, n3⟩, h2⟩ := h0
      exact ⟨⟨dir, a, n1, n2, by rw [n3, h a n2]⟩, fun dir a n1 n2 => by rw [h a n2]; exact h2 dir a n1 n2⟩
  · unfold mins; rw [if_neg hd, if_neg hd]

/-- `Cell` in the vocabulary of the specification. -/
theorem Cell.eikonal {F : Nat → Prop} {D : Nat → ℝ} {i : Nat} {U : ℝ} (hnd : P.G.ndim ≤ 2)
    (h : Cell P F D i U) : Eikonal P.G P.dx F D i U := by
  refine ⟨mins P F D i, fun d hd => mins_minOver F D i hd, ?_, ?_⟩
  · have e : ∀ d, term (P.dx d) (mins P F D i d) U = tm (P.idx2 d) (mins P F D i d) U := by
      intro d
      cases mins P F D i d with
      | none => rfl
      | some m => simp only [term, tm, Prob.idx2]; rw [div_pow, div_div, sq (P.dx d)]; ring
    have h1 := h.eq
    rw [Finset.sum_congr rfl fun d _ => e d]
    have hcases : P.G.ndim = 0 ∨ P.G.ndim = 1 ∨ P.G.ndim = 2 := by omega
    rcases hcases with c | c | c
    · rw [show mins P F D i 0 = none by unfold mins; rw [if_neg (by omega)],
        show mins P F D i 1 = none by unfold mins; rw [if_neg (by omega)]] at h1
      simp [tm] at h1
    · rw [show mins P F D i 1 = none by unfold mins; rw [if_neg (by omega)]] at h1
      rw [c, Finset.sum_range_one]
      simpa [tm] using h1
    · rw [c, Finset.sum_range_succ, Finset.sum_range_one]; exact h1
  · have e : ∀ d, slope (P.dx d) (mins P F D i d) U = sl (P.idx2 d) (mins P F D i d) U := by
      intro d
      cases mins P F D i d with
      | none => rfl
      | some m => simp only [slope, sl, Prob.idx2]; rw [div_div, sq (P.dx d)]; ring
    have h1 := h.pos
    rw [Finset.sum_congr rfl fun d _ => e d]
    have hcases : P.G.ndim = 0 ∨ P.G.ndim = 1 ∨ P.G.ndim = 2 := by omega
    rcases hcases with c | c | c
    · rw [show mins P F D i 0 = none by unfold mins; rw [if_neg (by omega)],
        show mins P F D i 1 = none by unfold mins; rw [if_neg (by omega)]] at h1
      simp [sl] at h1
    · rw [show mins P F D i 1 = none by unfold mins; rw [if_neg (by omega)]] at h1
      rw [c, Finset.sum_range_one]
      simpa [sl] using h1
    · rw [c, Finset.sum_range_succ, Finset.sum_range_one]; exact h1

end Verif.March
