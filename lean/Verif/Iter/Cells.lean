import Verif.Iter.Model
import Verif.Grid.Walls

/-!
# Loops that treat one cell at a time
-/

namespace Verif.Iter

open Verif.Sys

/-- A pass that reads and writes its own cell only. -/
structure Local (V : Nat) (f : Mem → Nat → Option Mem) : Prop where
  keep : ∀ u i u', f u i = some u' → ∀ k, k < i * V ∨ (i + 1) * V ≤ k → u' k = u k
  dep : ∀ u w i u', (∀ k < V, u (i * V + k) = w (i * V + k)) → f u i = some u' →
    ∃ w', f w i = some w' ∧ ∀ k < V, w' (i * V + k) = u' (i * V + k)

theorem foldlM_range_succ (f : Mem → Nat → Option Mem) (n : Nat) (u : Mem) :
    (List.range (n + 1)).foldlM f u = ((List.range n).foldlM f u).bind fun w => f w n := by
  rw [List.range_succ, List.foldlM_append]
  simp [List.foldlM]

/-- A loop of such passes treats every cell as if it were alone. -/
theorem cells_spec {V : Nat} {f : Mem → Nat → Option Mem} (hf : Local V f) (n : Nat) (u u' : Mem)
    (h : (List.range n).foldlM f u = some u') :
    (∀ i < n, ∃ w, f u i = some w ∧ ∀ k < V, u' (i * V + k) = w (i * V + k)) ∧ ∀ k, n * V ≤ k → u' k = u k := by
  induction n generalizing u' with
  | zero =>
    have : u = u' := by simpa [List.range_zero] using h
    subst this
    exact ⟨fun i hi => absurd hi (Nat.not_lt_zero i), fun _ _ => rfl⟩
  | succ n ih =>
    rw [foldlM_range_succ] at h
    obtain ⟨w, hw, hfw⟩ := Option.bind_eq_some_iff.1 h
    obtain ⟨h1, h2⟩ := ih w hw
    refine ⟨fun i hi => ?_, fun k hk => ?_⟩
    · rcases Nat.lt_succ_iff_lt_or_eq.1 hi with hi | rfl
      · obtain ⟨v, hv, hvk⟩ := h1 i hi
        refine ⟨v, hv, fun k hk => ?_⟩
        rw [hf.keep w n u' hfw _ (Or.inl ?_), hvk k hk]
        have : (i + 1) * V ≤ n * V := Nat.mul_le_mul_right V hi
        rw [Nat.add_mul, Nat.one_mul] at this
        omega
      · obtain ⟨v, hv, hvk⟩ := hf.dep w u i u' (fun k _ => h2 _ (by omega)) hfw
        exact ⟨v, hv, fun k hk => (hvk k hk).symm⟩
    · have e : (n + 1) * V = n * V + V := by rw [Nat.add_mul, Nat.one_mul]
      rw [hf.keep w n u' hfw k (Or.inr hk), h2 k (by omega)]

/-- The loop succeeds iff every pass would on its own. -/
theorem cells_some {V : Nat} {f : Mem → Nat → Option Mem} (hf : Local V f) (n : Nat) (u : Mem) :
    ((List.range n).foldlM f u).isSome ↔ ∀ i < n, (f u i).isSome := by
  induction n with
  | zero => simp
  | succ n ih =>
    rw [foldlM_range_succ]
    constructor
    · intro h i hi
      obtain ⟨u', hu'⟩ := Option.isSome_iff_exists.1 h
      rw [← foldlM_range_succ] at hu'
      obtain ⟨w, hw, _⟩ := (cells_spec hf _ u u' hu').1 i hi
      rw [hw]; rfl
    · intro h
      obtain ⟨w, hw⟩ := Option.isSome_iff_exists.1 (ih.2 fun i hi => h i (by omega))
      rw [hw]
      obtain ⟨v, hv⟩ := Option.isSome_iff_exists.1 (h n (by omega))
      obtain ⟨w', hw', _⟩ := hf.dep u w n v (fun k _ => ((cells_spec hf n u w hw).2 _ (by omega)).symm) hv
      simp [hw']

theorem view_eq (c : Cfg) (u w : Mem) (i : Nat) (h : ∀ k < c.V, u (i * c.V + k) = w (i * c.V + k)) :
    ∀ k < c.V, view c u i k = view c w i k := h

theorem lset_le (c : Cfg) : c.lset ≤ c.V := by unfold Cfg.V; omega

theorem materialIndex_congr (c : Cfg) (Q Q' : St) (h : ∀ k < c.V, c.V - c.lset ≤ k → Q k = Q' k) :
    materialIndex c Q = materialIndex c Q' := by
  unfold materialIndex
  have hl := lset_le c
  have : ∀ n ≤ c.lset, ∀ r, (List.range n).foldl (fun ret k => if 0 ≤ Q (c.V - c.lset + k) then ret + 1 else ret) r =
      (List.range n).foldl (fun ret k => if 0 ≤ Q' (c.V - c.lset + k) then ret + 1 else ret) r := by
    intro n hn r
    induction n generalizing r with
    | zero => rfl
    | succ n ih =>
      rw [List.range_succ, List.foldl_append, List.foldl_append, ih (by omega)]
      simp only [List.foldl_cons, List.foldl_nil]
      rw [h _ (by omega) (by omega)]
  exact this _ le_rfl 0

/-- The index counts the level sets that are not negative. -/
theorem materialIndex_card (c : Cfg) (Q : St) :
    materialIndex c Q = ((Finset.range c.lset).filter fun k => 0 ≤ Q (c.V - c.lset + k)).card := by
  unfold materialIndex
  generalize c.lset = n, c.V - c.lset = b
  have h : ∀ r, (List.range n).foldl (fun ret k => if 0 ≤ Q (b + k) then ret + 1 else ret) r =
      r + ((Finset.range n).filter fun k => 0 ≤ Q (b + k)).card := by
    intro r
    induction n with
    | zero => simp
    | succ n ih =>
      rw [List.range_succ, List.foldl_append, ih, Finset.range_add_one, Finset.filter_insert]
      simp only [List.foldl_cons, List.foldl_nil]
      split_ifs with hq
      · rw [Finset.card_insert_of_notMem (by simp)]
        rfl
      · rfl
  simpa using h 0

theorem materialIndex_le (c : Cfg) (Q : St) : materialIndex c Q ≤ c.lset := by
  rw [materialIndex_card]
  exact (Finset.card_filter_le _ _).trans (by simp)

end Verif.Iter
