import Verif.Run.Finish

/-! # The end of a pass treats every cell alike

Two grids of which every cell of the one is a copy of a cell of the other. -/

namespace Verif.Run

open Verif.Sys Verif.Iter

noncomputable section

variable {c : Cfg}

/-- Cell `i` of `u` holds what cell `φ i` of `w` holds. -/
def Copies (c : Cfg) (ncell : Nat) (φ : Nat → Nat) (u w : Mem) : Prop :=
  ∀ i < ncell, ∀ k < c.V, u (i * c.V + k) = w (φ i * c.V + k)

theorem getA_copy (hv : c.viscous = true) (u w : Mem) (i j : Nat) (h : ∀ k < c.V, u (i * c.V + k) = w (j * c.V + k)) :
    getA (view c u i) = getA (view c w j) := by
  have := Iter.V_ge c hv
  exact Verif.Rot.getA_congr fun k _ h2 => h k (by omega)

theorem limit_copy (n m : Nat) (φ : Nat → Nat) (hφ : ∀ i < n, φ i < m) (u w : Mem) (h : Copies c n φ u w) :
    Copies c n φ (limitConcentration c n u) (limitConcentration c m w) := by
  cases hm : c.multi
  · rw [limit_concentration_off c n u hm, limit_concentration_off c m w hm]
    exact h
  · intro i hi k hk
    have h5 := mV_pos c
    have hmV : c.mV < c.V := by unfold Cfg.V; rw [if_pos hm]; omega
    have h0 : u (i * c.V) = w (φ i * c.V) := h i hi 0 (by omega)
    rw [limit_val c n u hm i k hk, limit_val c m w hm (φ i) k hk, h0, h i hi k hk]
    simp only [hi, hφ i hi, true_and]

theorem matter_copy (MPs : List (Option Par)) (g : Par → Mem → Nat → Mem) (hL : Local c.V (matterCell c MPs g))
    (hg : ∀ P (u w : Mem) i j, (∀ k < c.V, u (i * c.V + k) = w (j * c.V + k)) → ∀ k < c.V, g P u i (i * c.V + k) = g P w j (j * c.V + k))
    (n m : Nat) (φ : Nat → Nat) (hφ : ∀ i < n, φ i < m) (u w u' w' : Mem) (h : Copies c n φ u w)
    (hu : (List.range n).foldlM (matterCell c MPs g) u = some u') (hw : (List.range m).foldlM (matterCell c MPs g) w = some w') :
    Copies c n φ u' w' := by
  intro i hi k hk
  have e : materialIndex c (view c u i) = materialIndex c (view c w (φ i)) :=
    materialIndex_congr c _ _ fun k hk _ => h i hi k hk
  rcases matter_spec c MPs g hL n u u' hu i hi with ⟨a, b⟩ | ⟨P, a, b⟩ <;>
  rcases matter_spec c MPs g hL m w w' hw (φ i) (hφ i hi) with ⟨a', b'⟩ | ⟨P', a', b'⟩ <;>
  rw [e, a'] at a
  · rw [b k hk, b' k hk]; exact h i hi k hk
  · cases a
  · cases a
  · cases a
    rw [b k hk, b' k hk]
    exact hg _ u w i (φ i) (h i hi) k hk

theorem renorm_copy (hv : c.viscous = true) (P : Par) (u w : Mem) (i j : Nat)
    (h : ∀ k < c.V, u (i * c.V + k) = w (j * c.V + k)) (k : Nat) (hk : k < c.V) :
    renormCell c P u i (i * c.V + k) = renormCell c P w j (j * c.V + k) := by
  have hV := Iter.V_ge c hv
  have h0 : u (i * c.V) = w (j * c.V) := h 0 (by omega)
  rw [renormCell_val, renormCell_val, getA_copy hv u w i j h, h0, h k hk]
  simp only [Nat.add_le_add_iff_left, Nat.add_lt_add_iff_left]

theorem rotate_copy (hv : c.viscous = true) (svd : M3 → V3 × M3) (P : Par) (u w : Mem) (i j : Nat)
    (h : ∀ k < c.V, u (i * c.V + k) = w (j * c.V + k)) (k : Nat) (hk : k < c.V) :
    rotateCell c svd P u i (i * c.V + k) = rotateCell c svd P w j (j * c.V + k) := by
  by_cases h9 : 5 ≤ k ∧ k < 14
  · obtain ⟨a, b, rfl⟩ := slot9 k h9.1 h9.2
    rw [rotateCell_in, rotateCell_in, getA_copy hv u w i j h]
  · rw [rotateCell_out _ _ _ _ _ _ (by omega), rotateCell_out _ _ _ _ _ _ (by omega), h k hk]

theorem reset_copy (hv : c.viscous = true) (P : Par) (u w : Mem) (i j : Nat)
    (h : ∀ k < c.V, u (i * c.V + k) = w (j * c.V + k)) (k : Nat) (hk : k < c.V) :
    resetCell c P u i (i * c.V + k) = resetCell c P w j (j * c.V + k) := by
  have hV := Iter.V_ge c hv
  have h0 : u (i * c.V) = w (j * c.V) := h 0 (by omega)
  have h1 : u (i * c.V + 1) = w (j * c.V + 1) := h 1 (by omega)
  rw [resetCell_val, resetCell_val, getA_copy hv u w i j h, h0, h1, h k hk]

/-- The same end of a pass on a grid of another size. -/
def Tail.on (F : Tail c) (m : Nat) : Tail c := { F with ncell := m }

theorem contorted_copy (hv : c.viscous = true) (sv : M3 → V3) (tol : ℝ) (n m : Nat) (φ : Nat → Nat) (hφ : ∀ i < n, φ i < m)
    (hs : ∀ j < m, ∃ i < n, φ i = j) (u w : Mem) (h : Copies c n φ u w) :
    contorted c sv n u tol = contorted c sv m w tol := by
  unfold contorted
  rw [Bool.eq_iff_iff, List.any_eq_true, List.any_eq_true]
  constructor
  · rintro ⟨i, hi, hx⟩
    refine ⟨φ i, List.mem_range.2 (hφ i (List.mem_range.1 hi)), ?_⟩
    rw [← getA_copy hv u w i (φ i) (h i (List.mem_range.1 hi))]
    exact hx
  · rintro ⟨j, hj, hx⟩
    obtain ⟨i, hi, rfl⟩ := hs j (List.mem_range.1 hj)
    refine ⟨i, List.mem_range.2 hi, ?_⟩
    rw [getA_copy hv u w i (φ i) (h i hi)]
    exact hx

/-- **Copies stay copies**: if every cell of a grid is a copy of a cell of another one, and all of its cells are copied, then this
is so after the end of a pass. -/
theorem finish_copy (F : Tail c) (hv : c.viscous = true) (m : Nat) (φ : Nat → Nat) (hφ : ∀ i < F.ncell, φ i < m)
    (hs : ∀ j < m, ∃ i < F.ncell, φ i = j) (count : Nat) (u w u' w' : Mem) (h : Copies c F.ncell φ u w)
    (hu : finish F count u = some u') (hw : finish (F.on m) count w = some w') : Copies c F.ncell φ u' w' := by
  unfold finish at hu hw
  simp only [Option.bind_eq_bind] at hu hw
  obtain ⟨u1, e1, hu⟩ := Option.bind_eq_some_iff.1 hu
  obtain ⟨u2, e2, e3⟩ := Option.bind_eq_some_iff.1 hu
  obtain ⟨w1, d1, hw⟩ := Option.bind_eq_some_iff.1 hw
  obtain ⟨w2, d2, d3⟩ := Option.bind_eq_some_iff.1 hw
  have l1 : Copies c F.ncell φ u1 w1 := matter_copy F.MPs _ (renorm_local c hv _) (renorm_copy hv) F.ncell m φ hφ _ _ u1 w1
    (limit_copy F.ncell m φ hφ u w h) e1 d1
  have l2 : Copies c F.ncell φ u2 w2 := by
    unfold rotateSome at e2 d2
    split_ifs at e2 with hr
    · rw [if_pos (show count % 10 = 0 ∧ (F.on m).rot = true from hr)] at d2
      exact matter_copy F.MPs _ (rotate_local c hv _ _) (rotate_copy hv F.svd) F.ncell m φ hφ _ _ u2 w2 l1 e2 d2
    · rw [if_neg (show ¬ (count % 10 = 0 ∧ (F.on m).rot = true) from hr)] at d2
      cases e2
      cases d2
      exact l1
  have e := contorted_copy hv F.sv F.tol F.ncell m φ hφ hs u2 w2 l2
  unfold resetSome at e3 d3
  change (if contorted c F.sv m w2 F.tol = true then _ else _) = _ at d3
  rw [← e] at d3
  split_ifs at e3 d3 with hr
  · exact matter_copy F.MPs _ (reset_local c hv _) (reset_copy hv) F.ncell m φ hφ _ _ u' w' l2 e3 d3
  · cases e3
    cases d3
    exact l2

end

end Verif.Run
