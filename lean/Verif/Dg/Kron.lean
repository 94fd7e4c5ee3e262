import Mathlib.Data.Matrix.Basic
import Mathlib.Tactic.Ring
import Mathlib.Tactic.Linarith

/-!
# Model of `kron`, `src/solvers/dg/dg_matrices.cpp:4-28` (C28)
-/

namespace Verif.Dg

variable {K : Type} [CommSemiring K]

/-- A dynamic matrix: sizes and entries (entries outside the sizes are never meaningful). -/
structure Mt (K : Type) where
  rows : Nat
  cols : Nat
  e : Nat → Nat → K

/-- Write one entry. -/
def Mt.set (m : Mt K) (i j : Nat) (v : K) : Mt K :=
  { m with e := fun a b => if a = i ∧ b = j then v else m.e a b }

/-- The quadruple loop of `kron` (lines 10-20) over fresh storage `junk`: `a = mats[idx-2]`,
`b = mats[idx-1]`. -/
def kronPair (junk : Nat → Nat → K) (a b : Mt K) : Mt K :=
  ((List.range a.rows).flatMap fun i0 => (List.range b.rows).flatMap fun i1 =>
    (List.range a.cols).flatMap fun j0 => (List.range b.cols).map fun j1 => (i0, i1, j0, j1)).foldl
    (fun ret (t : Nat × Nat × Nat × Nat) =>
      ret.set (t.1 * b.rows + t.2.1) (t.2.2.1 * b.cols + t.2.2.2) (a.e t.1 t.2.2.1 * b.e t.2.1 t.2.2.2))
    { rows := a.rows * b.rows, cols := a.cols * b.cols, e := junk }

/-- `kron` on the reversed vector: the last two matrices are merged until two remain (lines 21-27).
With fewer than two matrices `mats[idx - 2]` is out of range: `none`. -/
def kronRev (junk : Nat → Nat → K) : List (Mt K) → Option (Mt K)
  | [] => none
  | [_] => none
  | [b, a] => some (kronPair junk a b)
  | b :: a :: c :: rest => kronRev junk (kronPair junk a b :: c :: rest)
termination_by l => l.length

/-- `kron`, dg_matrices.cpp:4-28. -/
def kron (junk : Nat → Nat → K) (mats : List (Mt K)) : Option (Mt K) := kronRev junk mats.reverse

/-! ### Specification -/

/-- The number with mixed-radix digits `d` (most significant first) for the radices `r`. -/
def mixed : List (Nat × Nat) → Nat
  | [] => 0
  | (_, d) :: l => d * (l.map Prod.fst).prod + mixed l

/-- One selected entry per matrix. -/
structure Sel (K : Type) where
  m : Mt K
  i : Nat
  j : Nat
  hi : i < m.rows
  hj : j < m.cols

def rowIx (l : List (Sel K)) : Nat := mixed (l.map fun s => (s.m.rows, s.i))
def colIx (l : List (Sel K)) : Nat := mixed (l.map fun s => (s.m.cols, s.j))

/-! ### Proof -/

omit [CommSemiring K] in
theorem foldl_set_ne {α : Type} (l : List α) (f g : α → Nat) (v : α → K) (m : Mt K) (p q : Nat)
    (h : ∀ a ∈ l, ¬ (f a = p ∧ g a = q)) :
    (l.foldl (fun m t => m.set (f t) (g t) (v t)) m).e p q = m.e p q := by
  induction l generalizing m with
  | nil => rfl
  | cons a l ih =>
    rw [List.foldl_cons, ih _ fun b hb => h b (List.mem_cons_of_mem a hb)]
    have := h a List.mem_cons_self
    exact if_neg fun hc => this ⟨hc.1.symm, hc.2.symm⟩

omit [CommSemiring K] in
theorem foldl_set_get {α : Type} (l : List α) (f g : α → Nat) (v : α → K) (m : Mt K)
    (hinj : ∀ a ∈ l, ∀ b ∈ l, f a = f b → g a = g b → a = b) (a : α) (ha : a ∈ l) :
    (l.foldl (fun m t => m.set (f t) (g t) (v t)) m).e (f a) (g a) = v a := by
  classical
  induction l generalizing m with
  | nil => exact absurd ha (by simp)
  | cons b l ih =>
    rw [List.foldl_cons]
    by_cases hal : a ∈ l
    · exact ih _ (fun c hc d hd => hinj c (List.mem_cons_of_mem b hc) d (List.mem_cons_of_mem b hd)) hal
    · have hab : a = b := by
        rcases List.mem_cons.1 ha with h | h
        · exact h
        · exact absurd h hal
      subst hab
      rw [foldl_set_ne]
      · exact if_pos ⟨rfl, rfl⟩
      · rintro c hc ⟨h1, h2⟩
        exact hal (hinj c (List.mem_cons_of_mem a hc) a List.mem_cons_self h1 h2 ▸ hc)

omit [CommSemiring K] in
theorem foldl_set_size {α : Type} (l : List α) (f g : α → Nat) (v : α → K) (m : Mt K) :
    (l.foldl (fun m t => m.set (f t) (g t) (v t)) m).rows = m.rows ∧
      (l.foldl (fun m t => m.set (f t) (g t) (v t)) m).cols = m.cols := by
  induction l generalizing m with
  | nil => exact ⟨rfl, rfl⟩
  | cons a l ih => rw [List.foldl_cons]; exact ih _

theorem radix_inj {n a b c d : Nat} (hb : b < n) (hd : d < n) (h : a * n + b = c * n + d) :
    a = c ∧ b = d := by
  have hn : 0 < n := by omega
  have h1 : (a * n + b) / n = (c * n + d) / n := by rw [h]
  have h2 : (a * n + b) % n = (c * n + d) % n := by rw [h]
  rw [Nat.mul_comm, Nat.mul_comm c, Nat.mul_add_div hn, Nat.mul_add_div hn, Nat.div_eq_of_lt hb,
    Nat.div_eq_of_lt hd] at h1
  rw [Nat.mul_comm, Nat.mul_comm c, Nat.mul_add_mod, Nat.mul_add_mod, Nat.mod_eq_of_lt hb,
    Nat.mod_eq_of_lt hd] at h2
  exact ⟨by omega, h2⟩

theorem kronPair_size (junk : Nat → Nat → K) (a b : Mt K) :
    (kronPair junk a b).rows = a.rows * b.rows ∧ (kronPair junk a b).cols = a.cols * b.cols :=
  foldl_set_size _ _ _ _ _

theorem kronPair_entry (junk : Nat → Nat → K) (a b : Mt K) (i0 i1 j0 j1 : Nat) (h1 : i0 < a.rows)
    (h2 : i1 < b.rows) (h3 : j0 < a.cols) (h4 : j1 < b.cols) :
    (kronPair junk a b).e (i0 * b.rows + i1) (j0 * b.cols + j1) = a.e i0 j0 * b.e i1 j1 := by
  unfold kronPair
  refine foldl_set_get _ (fun t : Nat × Nat × Nat × Nat => t.1 * b.rows + t.2.1)
    (fun t => t.2.2.1 * b.cols + t.2.2.2) (fun t => a.e t.1 t.2.2.1 * b.e t.2.1 t.2.2.2) _ ?_
    (i0, i1, j0, j1) ?_
  · rintro ⟨a1, a2, a3, a4⟩ ha ⟨b1, b2, b3, b4⟩ hb e1 e2
    simp only [List.mem_flatMap, List.mem_range, List.mem_map, Prod.mk.injEq] at ha hb
    obtain ⟨x1, k1, x2, k2, x3, k3, x4, k4, e3, e4, e5, e6⟩ := ha
    obtain ⟨y1, m1, y2, m2, y3, m3, y4, m4, e7, e8, e9, e10⟩ := hb
    subst e3 e4 e5 e6 e7 e8 e9 e10
    obtain ⟨r1, r2⟩ := radix_inj k2 m2 e1
    obtain ⟨r3, r4⟩ := radix_inj k4 m4 e2
    simp only [] at r1 r3
    rw [r1, r2, r3, r4]
  · simp only [List.mem_flatMap, List.mem_range, List.mem_map, Prod.mk.injEq]
    exact ⟨i0, h1, i1, h2, j0, h3, j1, h4, rfl, rfl, rfl, rfl⟩

/-- Two neighbouring selections merged into one of their Kronecker product. -/
def Sel.merge (junk : Nat → Nat → K) (a b : Sel K) : Sel K where
  m := kronPair junk a.m b.m
  i := a.i * b.m.rows + b.i
  j := a.j * b.m.cols + b.j
  hi := by
    rw [(kronPair_size junk a.m b.m).1]
    have h1 := a.hi; have h2 := b.hi
    calc a.i * b.m.rows + b.i < a.i * b.m.rows + b.m.rows := by omega
      _ = (a.i + 1) * b.m.rows := by ring
      _ ≤ _ := Nat.mul_le_mul_right _ h1
  hj := by
    rw [(kronPair_size junk a.m b.m).2]
    have h1 := a.hj; have h2 := b.hj
    calc a.j * b.m.cols + b.j < a.j * b.m.cols + b.m.cols := by omega
      _ = (a.j + 1) * b.m.cols := by ring
      _ ≤ _ := Nat.mul_le_mul_right _ h1

theorem mixed_append (l : List (Nat × Nat)) (r d r' d' : Nat) :
    mixed (l ++ [(r, d), (r', d')]) = mixed (l ++ [(r * r', d * r' + d')]) := by
  induction l with
  | nil => simp [mixed]
  | cons a l ih =>
    obtain ⟨x, y⟩ := a
    simp only [List.cons_append, mixed, ih, List.map_append, List.map_cons, List.map_nil, List.prod_append,
      List.prod_cons, List.prod_nil, mul_one]

theorem kronRev_spec (junk : Nat → Nat → K) (n : Nat) : ∀ (l : List (Sel K)) (a b : Sel K),
    l.length = n → ∃ r, kronRev junk ((l ++ [a, b]).reverse.map Sel.m) = some r ∧
      r.rows = ((l ++ [a, b]).map fun s => s.m.rows).prod ∧
      r.cols = ((l ++ [a, b]).map fun s => s.m.cols).prod ∧
      r.e (rowIx (l ++ [a, b])) (colIx (l ++ [a, b])) =
        ((l ++ [a, b]).map fun s => s.m.e s.i s.j).prod := by
  induction n with
  | zero =>
    intro l a b hl
    rw [List.length_eq_zero_iff] at hl
    subst hl
    refine ⟨kronPair junk a.m b.m, by simp [kronRev], ?_, ?_, ?_⟩
    · simp [(kronPair_size junk a.m b.m).1]
    · simp [(kronPair_size junk a.m b.m).2]
    · simpa [rowIx, colIx, mixed] using kronPair_entry junk a.m b.m a.i b.i a.j b.j a.hi b.hi a.hj b.hj
  | succ n ih =>
    intro l a b hl
    obtain ⟨l', c, rfl⟩ : ∃ l' c, l = l' ++ [c] := by
      have hne : l ≠ [] := by intro h; rw [h] at hl; simp at hl
      exact ⟨l.dropLast, l.getLast hne, (List.dropLast_append_getLast hne).symm⟩
    obtain ⟨r, h1, h2, h3, h4⟩ := ih l' c (Sel.merge junk a b) (by simpa using hl)
    refine ⟨r, ?_, ?_, ?_, ?_⟩
    · rw [← h1]
      simp only [List.reverse_append, List.append_assoc, List.reverse_cons, List.reverse_nil,
        List.nil_append, List.map_cons, List.cons_append]
      rw [kronRev]; rfl
    · rw [h2]
      simp [Sel.merge, (kronPair_size junk a.m b.m).1]
    · rw [h3]
      simp [Sel.merge, (kronPair_size junk a.m b.m).2]
    · have e1 : rowIx (l' ++ [c] ++ [a, b]) = rowIx (l' ++ [c, Sel.merge junk a b]) := by
        have := mixed_append ((l' ++ [c]).map fun s => (s.m.rows, s.i)) a.m.rows a.i b.m.rows b.i
        simpa [rowIx, Sel.merge, (kronPair_size junk a.m b.m).1] using this
      have e2 : colIx (l' ++ [c] ++ [a, b]) = colIx (l' ++ [c, Sel.merge junk a b]) := by
        have := mixed_append ((l' ++ [c]).map fun s => (s.m.cols, s.j)) a.m.cols a.j b.m.cols b.j
        simpa [colIx, Sel.merge, (kronPair_size junk a.m b.m).2] using this
      rw [e1, e2, h4]
      have e3 := kronPair_entry junk a.m b.m a.i b.i a.j b.j a.hi b.hi a.hj b.hj
      simp only [List.map_append, List.map_cons, List.map_nil, List.prod_append, List.prod_cons,
        List.prod_nil, mul_one]
      rw [show (Sel.merge junk a b).m.e (Sel.merge junk a b).i (Sel.merge junk a b).j =
        a.m.e a.i a.j * b.m.e b.i b.j from e3]
      ring

/-- C28: for two or more matrices `kron` has the product sizes, and the entry addressed by any choice of
one row and one column digit per matrix is the product of the selected entries (every entry of the result
arises this way, `mixed_surj`). -/
theorem kron_entry (junk : Nat → Nat → K) (l : List (Sel K)) (hl : 2 ≤ l.length) :
    ∃ r, kron junk (l.map Sel.m) = some r ∧ r.rows = (l.map fun s => s.m.rows).prod ∧
      r.cols = (l.map fun s => s.m.cols).prod ∧
      r.e (rowIx l) (colIx l) = (l.map fun s => s.m.e s.i s.j).prod := by
  obtain ⟨l', a, b, rfl⟩ : ∃ l' a b, l = l' ++ [a, b] := by
    have hne : l ≠ [] := by intro h; rw [h] at hl; simp at hl
    have hne2 : l.dropLast ≠ [] := by
      intro h
      have := congrArg List.length h
      simp at this; omega
    refine ⟨l.dropLast.dropLast, l.dropLast.getLast hne2, l.getLast hne, ?_⟩
    conv_lhs => rw [← List.dropLast_append_getLast hne, ← List.dropLast_append_getLast hne2]
    simp
  have := kronRev_spec junk l'.length l' a b rfl
  unfold kron
  rwa [← List.map_reverse]

theorem mixed_lt (l : List (Nat × Nat)) (h : ∀ p ∈ l, p.2 < p.1) : mixed l < (l.map Prod.fst).prod := by
  induction l with
  | nil => simp [mixed]
  | cons a l ih =>
    obtain ⟨r, d⟩ := a
    have h1 := ih fun p hp => h p (List.mem_cons_of_mem _ hp)
    have h2 : d < r := h (r, d) List.mem_cons_self
    simp only [mixed, List.map_cons, List.prod_cons]
    calc d * (l.map Prod.fst).prod + mixed l < d * (l.map Prod.fst).prod + (l.map Prod.fst).prod := by omega
      _ = (d + 1) * (l.map Prod.fst).prod := by ring
      _ ≤ _ := Nat.mul_le_mul_right _ h2

/-- Every row number below the product of the radices has digits. -/
theorem mixed_surj (rs : List Nat) (i : Nat) (hi : i < rs.prod) :
    ∃ ds : List Nat, ds.length = rs.length ∧ (∀ p ∈ rs.zip ds, p.2 < p.1) ∧ mixed (rs.zip ds) = i := by
  induction rs generalizing i with
  | nil =>
    refine ⟨[], rfl, by simp, ?_⟩
    simp at hi; simp [mixed, hi]
  | cons r rs ih =>
    rw [List.prod_cons] at hi
    have hpos : 0 < rs.prod := by
      rcases Nat.eq_zero_or_pos rs.prod with h | h
      · rw [h] at hi; simp at hi
      · exact h
    obtain ⟨ds, h1, h2, h3⟩ := ih (i % rs.prod) (Nat.mod_lt _ hpos)
    refine ⟨i / rs.prod :: ds, by simp [h1], ?_, ?_⟩
    · intro p hp
      rw [List.zip_cons_cons, List.mem_cons] at hp
      rcases hp with rfl | hp
      · exact Nat.div_lt_of_lt_mul (by rwa [Nat.mul_comm] at hi)
      · exact h2 p hp
    · rw [List.zip_cons_cons, mixed, h3]
      have : (rs.zip ds).map Prod.fst = rs := by
        rw [List.map_fst_zip]; omega
      rw [this]
      exact Nat.div_add_mod' i rs.prod

/-- Fewer than two matrices: the code reads `mats[-1]`. -/
theorem kron_short (junk : Nat → Nat → K) (l : List (Mt K)) (hl : l.length < 2) : kron junk l = none := by
  match l, hl with
  | [], _ => simp [kron, kronRev]
  | [a], _ => simp [kron, kronRev]

example : ∃ r, kron (fun _ _ => 99) [⟨2, 2, fun i j => i + 2 * j⟩, ⟨1, 3, fun _ j => j + 1⟩,
    ⟨2, 1, fun i _ => i + 5⟩] = some r ∧ r.rows = 4 ∧ r.cols = 6 ∧ r.e 3 4 = (1 + 2) * 2 * (6 : Nat) := by
  obtain ⟨r, h1, h2, h3, h4⟩ := kron_entry (K := Nat) (fun _ _ => 99)
    [⟨⟨2, 2, fun i j => i + 2 * j⟩, 1, 1, by simp, by simp⟩, ⟨⟨1, 3, fun _ j => j + 1⟩, 0, 1, by simp, by simp⟩,
      ⟨⟨2, 1, fun i _ => i + 5⟩, 1, 0, by simp, by simp⟩] (by simp)
  exact ⟨r, h1, h2, h3, h4⟩

end Verif.Dg
