import Verif.Run.MaskedPlane
import Verif.Run.Copies
import Verif.Run.Column

/-! # How far a pass carries information

A pass computes a cell from the cells within `N` of it, as long as the distortion is not reset; a reset acts on all cells at once. -/

namespace Verif.Run

open Verif.Sys Verif.Iter Verif.Dg Verif.Fv Verif.Step Verif.Grid Verif.Rot

noncomputable section

variable {c : Sys.Cfg}

/-- Two fields hold the same in a cell. -/
def SameAt (c : Sys.Cfg) (u w : Iter.Mem) (i : Nat) : Prop := ∀ k < c.V, u (i * c.V + k) = w (i * c.V + k)

/-- The end of a pass finds a contorted cell. -/
def Resets (F : Tail c) (count : Nat) (u : Iter.Mem) : Prop := ∃ u1 u2,
  renormDistortion c F.ncell F.MPs (limitConcentration c F.ncell u) = some u1 ∧ rotateSome F count u1 = some u2 ∧
    contorted c F.sv F.ncell u2 F.tol = true

theorem limit_same (n : Nat) (u w : Iter.Mem) (i : Nat) (h : SameAt c u w i) :
    SameAt c (limitConcentration c n u) (limitConcentration c n w) i := by
  cases hm : c.multi
  · rw [limit_concentration_off c n u hm, limit_concentration_off c n w hm]
    exact h
  · intro k hk
    have h5 := mV_pos c
    have hmV : c.mV < c.V := by unfold Cfg.V; rw [if_pos hm]; omega
    have h0 : u (i * c.V) = w (i * c.V) := h 0 (by omega)
    rw [limit_val c n u hm i k hk, limit_val c n w hm i k hk, h0, h k hk]

theorem matter_same (MPs : List (Option Par)) (g : Par → Iter.Mem → Nat → Iter.Mem) (hL : Local c.V (matterCell c MPs g))
    (hg : ∀ P (u w : Iter.Mem) i j, (∀ k < c.V, u (i * c.V + k) = w (j * c.V + k)) → ∀ k < c.V, g P u i (i * c.V + k) = g P w j (j * c.V + k))
    (n : Nat) (u w u' w' : Iter.Mem) (i : Nat) (hi : i < n) (h : SameAt c u w i)
    (hu : (List.range n).foldlM (matterCell c MPs g) u = some u') (hw : (List.range n).foldlM (matterCell c MPs g) w = some w') :
    SameAt c u' w' i := by
  intro k hk
  have e : materialIndex c (view c u i) = materialIndex c (view c w i) := materialIndex_congr c _ _ fun k hk _ => h k hk
  rcases matter_spec c MPs g hL n u u' hu i hi with ⟨a, b⟩ | ⟨P, a, b⟩ <;>
  rcases matter_spec c MPs g hL n w w' hw i hi with ⟨a', b'⟩ | ⟨P', a', b'⟩ <;>
  rw [e, a'] at a
  · rw [b k hk, b' k hk]; exact h k hk
  · cases a
  · cases a
  · cases a
    rw [b k hk, b' k hk]
    exact hg _ u w i i h k hk

/-- **The end of a pass works cell by cell**, if it resets the distortion of both fields or of neither. -/
theorem finish_same (F : Tail c) (hv : c.viscous = true) (count : Nat) (u w u' w' : Iter.Mem) (i : Nat) (hi : i < F.ncell)
    (h : SameAt c u w i) (hr : Resets F count u ↔ Resets F count w)
    (hu : finish F count u = some u') (hw : finish F count w = some w') : SameAt c u' w' i := by
  unfold finish at hu hw
  simp only [Option.bind_eq_bind] at hu hw
  obtain ⟨u1, e1, hu⟩ := Option.bind_eq_some_iff.1 hu
  obtain ⟨u2, e2, e3⟩ := Option.bind_eq_some_iff.1 hu
  obtain ⟨w1, d1, hw⟩ := Option.bind_eq_some_iff.1 hw
  obtain ⟨w2, d2, d3⟩ := Option.bind_eq_some_iff.1 hw
  have l1 : SameAt c u1 w1 i := matter_same F.MPs _ (renorm_local c hv _) (renorm_copy hv) F.ncell _ _ u1 w1 i hi
    (limit_same F.ncell u w i h) e1 d1
  have l2 : SameAt c u2 w2 i := by
    unfold rotateSome at e2 d2
    split_ifs at e2 d2 with hr
    · exact matter_same F.MPs _ (rotate_local c hv _ _) (rotate_copy hv F.svd) F.ncell _ _ u2 w2 i hi l1 e2 d2
    · cases e2
      cases d2
      exact l1
  have ru : Resets F count u ↔ contorted c F.sv F.ncell u2 F.tol = true := by
    refine ⟨?_, fun h => ⟨u1, u2, e1, e2, h⟩⟩
    rintro ⟨a, b, ha, hb, h⟩
    rw [e1] at ha; cases ha
    rw [e2] at hb; cases hb
    exact h
  have rw' : Resets F count w ↔ contorted c F.sv F.ncell w2 F.tol = true := by
    refine ⟨?_, fun h => ⟨w1, w2, d1, d2, h⟩⟩
    rintro ⟨a, b, ha, hb, h⟩
    rw [d1] at ha; cases ha
    rw [d2] at hb; cases hb
    exact h
  rw [ru, rw'] at hr
  unfold resetSome at e3 d3
  by_cases h3 : contorted c F.sv F.ncell u2 F.tol = true
  · rw [if_pos h3] at e3
    rw [if_pos (hr.1 h3)] at d3
    exact matter_same F.MPs _ (reset_local c hv _) (reset_copy hv) F.ncell _ _ u' w' i hi l2 e3 d3
  · rw [if_neg h3] at e3
    rw [if_neg (fun h => h3 (hr.2 h))] at d3
    cases e3
    cases d3
    exact l2

/-- **A reset reaches every cell at once**: two fields that agree in a sheared cell `i` differ there at the end of a pass, however far
away the cell is that is contorted in one of them. -/
theorem reset_far (F : Tail c) (hv : c.viscous = true) (count : Nat) (hc : ¬ (count % 10 = 0 ∧ F.rot = true)) (u w u' w' : Iter.Mem)
    (i : Nat) (hi : i < F.ncell) (h : SameAt c u w i) (P : Par) (hP : F.MPs[materialIndex c (view c u i)]? = some (some P))
    (hρ0 : P.ρ0 ≠ 0) (hρ : 0 < u (i * c.V)) (hd : (getA (view c u i)).det ≠ 0) (hA : ∀ f : ℝ, getA (view c u i) ≠ f • (1 : M3))
    (hru : ¬ Resets F count u) (hrw : Resets F count w) (hu : finish F count u = some u') (hw : finish F count w = some w') :
    ¬ SameAt c u' w' i := by
  have hV := Iter.V_ge c hv
  unfold finish at hu hw
  simp only [Option.bind_eq_bind] at hu hw
  obtain ⟨u1, e1, hu⟩ := Option.bind_eq_some_iff.1 hu
  obtain ⟨u2, e2, e3⟩ := Option.bind_eq_some_iff.1 hu
  obtain ⟨w1, d1, hw⟩ := Option.bind_eq_some_iff.1 hw
  obtain ⟨w2, d2, d3⟩ := Option.bind_eq_some_iff.1 hw
  have l0 := limit_same F.ncell u w i h
  have l1 : SameAt c u1 w1 i := matter_same F.MPs _ (renorm_local c hv _) (renorm_copy hv) F.ncell _ _ u1 w1 i hi l0 e1 d1
  unfold rotateSome at e2 d2
  rw [if_neg hc] at e2 d2
  cases e2
  cases d2
  have hcu : ¬ contorted c F.sv F.ncell u1 F.tol = true := fun h => hru ⟨u1, u1, e1, by unfold rotateSome; rw [if_neg hc], h⟩
  have hcw : contorted c F.sv F.ncell w1 F.tol = true := by
    obtain ⟨a, b, ha, hb, h⟩ := hrw
    rw [d1] at ha; cases ha
    unfold rotateSome at hb
    rw [if_neg hc] at hb; cases hb
    exact h
  unfold resetSome at e3 d3
  rw [if_neg hcu] at e3
  rw [if_pos hcw] at d3
  cases e3
  -- what is left of the cell after `limit_concentration`
  have hl : ∀ k < c.V, k ≠ c.mV ∨ c.multi = false → limitConcentration c F.ncell u (i * c.V + k) = u (i * c.V + k) := fun k hk hk' => by
    cases hm : c.multi
    · rw [limit_concentration_off c _ u hm]
    · rw [limit_val c F.ncell u hm i k hk, if_neg (fun hh => ?_)]
      rcases hk' with h | h
      · exact h hh.2
      · rw [hm] at h; cases h
  have lA : getA (view c (limitConcentration c F.ncell u) i) = getA (view c u i) := Relax.getA_congr _ _ fun k h1 h2 => hl k (by omega) (by omega)
  have l00 : limitConcentration c F.ncell u (i * c.V) = u (i * c.V) := hl 0 (by omega) (by omega)
  have lm : materialIndex c (view c (limitConcentration c F.ncell u) i) = materialIndex c (view c u i) :=
    materialIndex_congr c _ _ fun k hk h1 => hl k hk (by
      cases hm : c.multi
      · exact Or.inr rfl
      · have : c.mV < c.V - c.lset := by unfold Cfg.V; rw [if_pos hm]; omega
        exact Or.inl (by omega))
  -- the renormalised cell
  rcases matter_spec c F.MPs _ (renorm_local c hv _) F.ncell _ u' e1 i hi with ⟨a, -⟩ | ⟨P', a, b⟩
  · rw [lm, hP] at a; cases a
  rw [lm, hP] at a
  cases a
  have hf : cbrt (u (i * c.V) / (P.ρ0 * (getA (view c u i)).det)) ≠ 0 := by
    intro h0
    have := cbrt_cube (u (i * c.V) / (P.ρ0 * (getA (view c u i)).det))
    rw [h0] at this
    have hne := div_ne_zero hρ.ne' (mul_ne_zero hρ0 hd)
    exact hne (by rw [← this]; ring)
  have uA : getA (view c u' i) = cbrt (u (i * c.V) / (P.ρ0 * (getA (view c u i)).det)) • getA (view c u i) := by
    ext x y
    change u' (i * c.V + (5 + (3 * x + y))) = _
    rw [b _ (by omega), renormCell_val, l00, lA, if_pos ⟨hρ, by omega, by omega⟩, hl _ (by omega) (by omega), mul_comm]
    rfl
  have um : materialIndex c (view c u' i) = materialIndex c (view c u i) := by
    refine (materialIndex_congr c _ _ fun k hk h1 => ?_).trans lm
    change u' (i * c.V + k) = limitConcentration c F.ncell u (i * c.V + k)
    rw [b k hk, renormCell_val, if_neg (by omega)]
  have wm : materialIndex c (view c w1 i) = materialIndex c (view c u i) := by
    rw [← um]
    exact materialIndex_congr c _ _ fun k hk _ => (l1 k hk).symm
  rcases matter_spec c F.MPs _ (reset_local c hv _) F.ncell _ w' d3 i hi with ⟨a, -⟩ | ⟨P', a, b'⟩
  · rw [wm, hP] at a; cases a
  have wA : getA (view c w' i) = cbrt (w1 (i * c.V) / P'.ρ0) • (1 : M3) := by
    rw [← reset_getA]
    exact Relax.getA_congr _ _ fun k _ h2 => b' k (by omega)
  intro hs
  have : getA (view c u' i) = getA (view c w' i) := Relax.getA_congr _ _ fun k _ h2 => hs k (by omega)
  rw [uA, wA] at this
  refine hA ((cbrt (u (i * c.V) / (P.ρ0 * (getA (view c u i)).det)))⁻¹ * cbrt (w1 (i * c.V) / P'.ρ0)) ?_
  rw [mul_smul, ← this, smul_smul, inv_mul_cancel₀ hf, one_smul]

/-! ### Several passes -/

section cone

variable {n : Nat} (E : Env c n)

/-- The cells from which `m` passes can carry something to cell `i`. -/
def Cone (b : Nat → BT) : Nat → Nat → Nat → Prop
  | 0, i, j => j = i
  | m + 1, i, j => ∃ l, Seen E b i l ∧ Cone b m l j

theorem seen_lt (hE : E.Ok) (b : Nat → BT) (i j : Nat) (hi : i < E.nx) (h : Seen E b i j) : j < E.nx := by
  obtain ⟨k, hk, rfl⟩ := h
  exact srcOf_lt hE.wide.1 (by omega) (by omega)

theorem src_near {n : Nat} (b0 b1 : BT) (h0 : b0 ≠ .periodic) (h1 : b1 ≠ .periodic) (nx i k : Nat) (hi : i < nx) (hk : k ≤ 2 * n) :
    i ≤ srcOf n b0 b1 nx (i + k) + n ∧ srcOf n b0 b1 nx (i + k) ≤ i + n := by
  unfold srcOf
  by_cases c1 : i + k < n
  · rw [if_pos c1]
    cases b0 <;> simp_all <;> omega
  · rw [if_neg c1]
    by_cases c2 : i + k < n + nx
    · rw [if_pos c2]; omega
    · rw [if_neg c2]
      cases b1 <;> simp_all <;> omega

/-- Unless the ends are joined these are the cells at a distance of at most `m` times `N`. -/
theorem cone_near (hE : E.Ok) (b : Nat → BT) (h0 : b 0 ≠ .periodic) (h1 : b 1 ≠ .periodic) (m i j : Nat) (hi : i < E.nx)
    (h : Cone E b m i j) : j < E.nx ∧ i ≤ j + m * n ∧ j ≤ i + m * n := by
  induction m generalizing i with
  | zero => obtain rfl : j = i := h; omega
  | succ m ih =>
    obtain ⟨l, hs, hl⟩ := h
    have hl' := seen_lt E hE b i l hi hs
    obtain ⟨a1, a2, a3⟩ := ih l hl' hl
    obtain ⟨k, hk, e⟩ := hs
    subst e
    have hd := src_near (b 0) (b 1) h0 h1 E.nx i k hi hk
    rw [Nat.add_mul, Nat.one_mul]
    omega

/-- **Information travels at most `N` cells in a pass**: two runs on a line with the same steps, in which the distortion is reset at
the same time or never, agree in a cell after `K` passes if they started with the same data within `K` times `N` cells of it. -/
theorem line_cone (F : Tail c) (hv : c.viscous = true) (hE : E.Ok) (hn : F.ncell = E.nx)
    (hds : ∀ f, E.destress = some f → OneCell c f) (b : Nat → BT) (h0 : b 0 ≠ .other) (h1 : b 1 ≠ .other) (split : Bool)
    (th th' : Nat → Nat) (hT : ∀ m, 0 < th m) (hT' : ∀ m, 0 < th' m) (dt : Nat → ℝ) (count : Nat) (K : Nat) (u mu w mw : Nat → Iter.Mem)
    (hu : ∀ m < K, MovesLine E b split (th m) (dt m) (u m) (mu m) ∧ finish F (count + m) (mu m) = some (u (m + 1)))
    (hw : ∀ m < K, MovesLine E b split (th' m) (dt m) (w m) (mw m) ∧ finish F (count + m) (mw m) = some (w (m + 1)))
    (hr : ∀ m < K, Resets F (count + m) (mu m) ↔ Resets F (count + m) (mw m))
    (hs : split = false → ∀ m < K, ∀ i < E.nx, SettlesAt E b (dt m) (u m) i)
    (i : Nat) (hi : i < E.nx) (h : ∀ j, Cone E b K i j → SameAt c (u 0) (w 0) j) : SameAt c (u K) (w K) i := by
  have key : ∀ m ≤ K, ∀ i < E.nx, (∀ j, Cone E b m i j → SameAt c (u 0) (w 0) j) → SameAt c (u m) (w m) i := by
    intro m
    induction m with
    | zero => exact fun _ i _ h => h i rfl
    | succ m ih =>
      intro hm i hi h
      obtain ⟨m1, f1⟩ := hu m (by omega)
      obtain ⟨m2, f2⟩ := hw m (by omega)
      refine finish_same F hv _ _ _ _ _ i (hn ▸ hi) (fun v hvV => ?_) (hr m (by omega)) f1 f2
      refine masked_local E hv hE hds b h0 h1 split (th m) (th' m) (hT m) (hT' m) (fun _ => true) (fun _ => true) (dt m) (u m) (mu m)
        (w m) (mw m) i hi (fun e => hs e m (by omega) i hi) rfl rfl (fun j hj => ?_) m1 m2 v hvV
      exact ih (by omega) j (seen_lt E hE b i j hi hj) fun k hk => h k ⟨j, hj, hk⟩
  exact key K le_rfl i hi h

/-- The cells of a plane from which `m` passes can carry something to cell `(x, y)`. -/
def Cone2 (b : Nat → BT) : Nat → Nat → Nat → Nat → Prop
  | 0, x, y, j => j = cell x y E.ny
  | m + 1, x, y, j => ∃ k ≤ 2 * n, ∃ l ≤ 2 * n, Cone2 b m (srcOf n (b 0) (b 1) E.nx (x + k)) (srcOf n (b 2) (b 3) E.ny (y + l)) j

theorem cone2_near (hE : E.Ok) (b : Nat → BT) (hb : ∀ k < 4, b k ≠ .periodic) (m x y j : Nat) (hx : x < E.nx) (hy : y < E.ny)
    (h : Cone2 E b m x y j) : ∃ x' y', j = cell x' y' E.ny ∧ x' < E.nx ∧ y' < E.ny ∧ x ≤ x' + m * n ∧ x' ≤ x + m * n ∧
      y ≤ y' + m * n ∧ y' ≤ y + m * n := by
  have hw := hE.wide
  induction m generalizing x y with
  | zero => exact ⟨x, y, h, hx, hy, by omega⟩
  | succ m ih =>
    obtain ⟨k, hk, l, hl, h⟩ := h
    have a := src_near (b 0) (b 1) (hb 0 (by omega)) (hb 1 (by omega)) E.nx x k hx hk
    have a' := src_near (b 2) (b 3) (hb 2 (by omega)) (hb 3 (by omega)) E.ny y l hy hl
    obtain ⟨x', y', e, p1, p2, p3⟩ := ih _ _ (srcOf_lt hw.1 (by omega) (by omega)) (srcOf_lt hw.2 (by omega) (by omega)) h
    refine ⟨x', y', e, p1, p2, ?_⟩
    rw [Nat.add_mul, Nat.one_mul]
    omega

/-- **The same on planes**, without `NO_CORNERS` or with `N = 1`. -/
theorem plane_cone (F : Tail c) (hv : c.viscous = true) (hE : E.Ok) (hn : F.ncell = E.nx * E.ny)
    (hds : ∀ f, E.destress = some f → OneCell c f) (b : Nat → BT) (hb : ∀ k < 4, b k ≠ .other) (split : Bool)
    (th th' : Nat → Nat) (hT : ∀ m, 0 < th m) (hT' : ∀ m, 0 < th' m) (dt : Nat → ℝ) (count : Nat) (K : Nat) (u mu w mw : Nat → Iter.Mem)
    (hu : ∀ m < K, MovesPlane E b false split (th m) (dt m) (u m) (mu m) ∧ finish F (count + m) (mu m) = some (u (m + 1)))
    (hw : ∀ m < K, MovesPlane E b false split (th' m) (dt m) (w m) (mw m) ∧ finish F (count + m) (mw m) = some (w (m + 1)))
    (hr : ∀ m < K, Resets F (count + m) (mu m) ↔ Resets F (count + m) (mw m))
    (hs : split = false → ∀ m < K, ∀ x < E.nx, ∀ y < E.ny, SettlesAt2 E b (dt m) (u m) x y)
    (x y : Nat) (hx : x < E.nx) (hy : y < E.ny) (h : ∀ j, Cone2 E b K x y j → SameAt c (u 0) (w 0) j) :
    SameAt c (u K) (w K) (cell x y E.ny) := by
  have hwd := hE.wide
  have key : ∀ m ≤ K, ∀ x < E.nx, ∀ y < E.ny, (∀ j, Cone2 E b m x y j → SameAt c (u 0) (w 0) j) → SameAt c (u m) (w m) (cell x y E.ny) := by
    intro m
    induction m with
    | zero => exact fun _ x _ y _ h => h _ rfl
    | succ m ih =>
      intro hm x hx y hy h
      obtain ⟨m1, f1⟩ := hu m (by omega)
      obtain ⟨m2, f2⟩ := hw m (by omega)
      refine finish_same F hv _ _ _ _ _ _ (hn ▸ cell_lt hx hy) (fun v hvV => ?_) (hr m (by omega)) f1 f2
      refine masked2_local E hv hE hds b hb split (th m) (th' m) (hT m) (hT' m) (fun _ => true) (fun _ => true) (dt m) (u m) (mu m)
        (w m) (mw m) x y hx hy (fun e => hs e m (by omega) x hx y hy) rfl rfl ?_ m1 m2 v hvV
      rintro j ⟨k, hk, l, hl, rfl⟩
      exact ih (by omega) _ (srcOf_lt hwd.1 (by omega) (by omega)) _ (srcOf_lt hwd.2 (by omega) (by omega)) fun j hj => h j ⟨k, hk, l, hl, hj⟩
  exact key K le_rfl x hx y hy h

end cone

/-! ### Examples -/

/-- With a large tolerance the distortion is not reset. -/
theorem tol_exists (F : Tail c) (u : Iter.Mem) : ∃ t, ∀ tol ≥ t, contorted c F.sv F.ncell u tol = false := by
  refine ⟨∑ i ∈ Finset.range F.ncell, |(anisotropy (F.sv (getA (view c u i)))).getD 0 - 1|, fun tol h => ?_⟩
  unfold contorted
  rw [List.any_eq_false]
  intro i hi
  have := Finset.single_le_sum (f := fun i => |(anisotropy (F.sv (getA (view c u i)))).getD 0 - 1|) (fun _ _ => abs_nonneg _)
    (Finset.mem_range.2 (List.mem_range.1 hi))
  cases hm : anisotropy (F.sv (getA (view c u i))) with
  | none => simp
  | some m =>
    simp only [hm, Option.getD_some] at this
    have := (le_abs_self _).trans (this.trans h)
    simp only [decide_eq_true_eq, not_lt, gt_iff_lt]
    linarith

/-- Any two fields on a line of eight cells in second order that agree in the first five of them: after a pass, for a tolerance that
makes neither of them be reset, they agree in the first three. -/
example (T : Tab 2) (h : T.Ok) (W : Weno.Setup 2)
    (fl : Nat → (Fin lineCfg.V → ℝ) → (Fin lineCfg.V → ℝ) → (Fin lineCfg.V → ℝ)) (dt : ℝ) (u0 w0 : Iter.Mem)
    (hs : ∀ j < 5, SameAt lineCfg u0 w0 j) :
    ∃ (F : Tail lineCfg) (u1 w1 u2 w2 : Iter.Mem),
      MovesLine (boxEnv T h W fl (fun _ => .nan) fun _ => .nan) (fun _ => .transmissive) true 3 dt u0 u1 ∧ finish F 1 u1 = some u2 ∧
      MovesLine (boxEnv T h W fl (fun _ => .nan) fun _ => .nan) (fun _ => .transmissive) true 2 dt w0 w1 ∧ finish F 1 w1 = some w2 ∧
      ∀ i < 3, SameAt lineCfg u2 w2 i := by
  let E := boxEnv T h W fl (fun _ => .nan) fun _ => .nan
  have hE : E.Ok := ⟨h, ⟨by simp [E, boxEnv], by simp [E, boxEnv]⟩, fun _ => ⟨0, rfl⟩,
    fun A => (Grid.svd_exists A).choose_spec.choose_spec.choose_spec.1⟩
  obtain ⟨u1, m1⟩ := movesLine_exists E (by decide) hE (fun _ => .transmissive) (by decide) (by decide) 3 dt u0
  obtain ⟨w1, m2⟩ := movesLine_exists E (by decide) hE (fun _ => .transmissive) (by decide) (by decide) 2 dt w0
  let G : Tail lineCfg := boxTail.on 8
  have hG : G.Ok := ⟨(lineTail_ok 2).svd, (lineTail_ok 2).sv, (lineTail_ok 2).mats⟩
  have ren : ∀ u, ∃ u', renormDistortion lineCfg 8 G.MPs (limitConcentration lineCfg 8 u) = some u' := fun u => by
    obtain ⟨u', e, -⟩ := finish_spec G rfl hG 1 u
    unfold finish at e
    simp only [Option.bind_eq_bind] at e
    obtain ⟨v, e1, -⟩ := Option.bind_eq_some_iff.1 e
    exact ⟨v, e1⟩
  obtain ⟨a, ha⟩ := ren u1
  obtain ⟨b, hb⟩ := ren w1
  obtain ⟨t, ht⟩ := tol_exists G a
  obtain ⟨t', ht'⟩ := tol_exists G b
  let F : Tail lineCfg := { G with tol := max t t' }
  have hF : F.Ok := ⟨hG.svd, hG.sv, hG.mats⟩
  obtain ⟨u2, f1, -⟩ := finish_spec F rfl hF 1 u1
  obtain ⟨w2, f2, -⟩ := finish_spec F rfl hF 1 w1
  have nr : ∀ u v, renormDistortion lineCfg 8 G.MPs (limitConcentration lineCfg 8 u) = some v →
      contorted lineCfg G.sv 8 v (max t t') = false → ¬ Resets F 1 u := by
    rintro u v e1 e2 ⟨x, y, h1, h2, h3⟩
    change renormDistortion lineCfg 8 G.MPs (limitConcentration lineCfg 8 u) = some x at h1
    rw [e1] at h1
    cases h1
    unfold rotateSome at h2
    rw [if_neg (by simp)] at h2
    cases h2
    change contorted lineCfg G.sv 8 v (max t t') = true at h3
    rw [e2] at h3
    cases h3
  refine ⟨F, u1, w1, u2, w2, m1, f1, m2, f2, fun i hi => ?_⟩
  refine line_cone E F rfl hE rfl (fun f hf => (nomatch hf)) (fun _ => .transmissive) (by decide) (by decide) true (fun _ => 3) (fun _ => 2)
    (fun _ => by omega) (fun _ => by omega) (fun _ => dt) 1 1 (fun m => if m = 0 then u0 else u2) (fun _ => u1) (fun m => if m = 0 then w0 else w2)
    (fun _ => w1) ?_ ?_ ?_ (fun h => nomatch h) i (show i < 8 by omega) fun j hj => ?_
  · intro m hm
    obtain rfl : m = 0 := by omega
    exact ⟨m1, f1⟩
  · intro m hm
    obtain rfl : m = 0 := by omega
    exact ⟨m2, f2⟩
  · intro m hm
    obtain rfl : m = 0 := by omega
    exact iff_of_false (nr _ _ ha (ht _ (le_max_left _ _))) (nr _ _ hb (ht' _ (le_max_right _ _)))
  · obtain ⟨-, -, h3⟩ := cone_near E hE _ (by decide) (by decide) 1 i j (show i < 8 by omega) hj
    exact hs j (by omega)

/-- Cells of density 1 with a shear of `s`. -/
def shearField (s : Nat → ℝ) : Iter.Mem := fun k =>
  if k % 14 = 6 then s (k / 14) else if k % 14 = 0 ∨ k % 14 = 1 ∨ k % 14 = 5 ∨ k % 14 = 9 ∨ k % 14 = 13 then 1 else 0

theorem shear_get (s : Nat → ℝ) (i k : Nat) (hk : k < 14) : shearField s (i * 14 + k) =
    if k = 6 then s i else if k = 0 ∨ k = 1 ∨ k = 5 ∨ k = 9 ∨ k = 13 then 1 else 0 := by
  have e1 : (i * 14 + k) / 14 = i := by omega
  have e2 : (i * 14 + k) % 14 = k := by omega
  unfold shearField
  rw [e1, e2]

theorem shear_A (s : Nat → ℝ) (i : Nat) : getA (view lineCfg (shearField s) i) = !![1, s i, 0; 0, 1, 0; 0, 0, 1] := by
  ext a b
  change shearField s (i * 14 + (5 + (3 * a + b))) = _
  rw [shear_get _ _ _ (by omega)]
  fin_cases a <;> fin_cases b <;> simp

theorem shear_det (s : Nat → ℝ) (i : Nat) : (getA (view lineCfg (shearField s) i)).det = 1 := by
  rw [shear_A, Matrix.det_fin_three]
  simp

theorem shear_resets (s : Nat → ℝ) : Resets (boxTail.on 8) 1 (shearField s) ↔ ∃ i < 8, 3 / 2 < s i * s i := by
  have hG : (boxTail.on 8).Ok := ⟨(lineTail_ok 2).svd, (lineTail_ok 2).sv, (lineTail_ok 2).mats⟩
  obtain ⟨u', e, -⟩ := finish_spec (boxTail.on 8) rfl hG 1 (shearField s)
  unfold finish at e
  simp only [Option.bind_eq_bind] at e
  obtain ⟨v, e1, -⟩ := Option.bind_eq_some_iff.1 e
  have hl : limitConcentration lineCfg 8 (shearField s) = shearField s := limit_concentration_off lineCfg 8 _ rfl
  have hA : ∀ i < 8, getA (view lineCfg v i) = getA (view lineCfg (shearField s) i) := fun i hi => by
    change renormDistortion lineCfg 8 _ (limitConcentration lineCfg 8 (shearField s)) = some v at e1
    rw [hl] at e1
    rcases matter_spec lineCfg _ _ (renorm_local lineCfg rfl _) 8 _ v e1 i hi with ⟨-, b⟩ | ⟨P, a, b⟩
    · exact Relax.getA_congr _ _ fun k _ h2 => b k h2
    · have hP : P.ρ0 = 1 := by
        change [some (samplePar sample)][materialIndex lineCfg _]? = _ at a
        have : materialIndex lineCfg (view lineCfg (shearField s) i) = 0 := rfl
        rw [this] at a
        cases a
        rfl
      refine Relax.getA_congr _ _ fun k _ h2 => ?_
      change v (i * 14 + k) = shearField s (i * 14 + k)
      refine (b k h2).trans ?_
      rw [renormCell_val, shear_det, hP]
      have h0 : shearField s (i * lineCfg.V) = 1 := (shear_get s i 0 (by omega)).trans (by simp)
      rw [h0]
      norm_num [cbrt_one]
      rfl
  have hc := contorted_iff lineCfg (boxTail.on 8).sv 8 v (1 / 2) fun i _ => hG.sv _
  have hR : Resets (boxTail.on 8) 1 (shearField s) ↔ contorted lineCfg (boxTail.on 8).sv 8 v (1 / 2) = true := by
    constructor
    · rintro ⟨x, y, h1, h2, h3⟩
      rw [e1] at h1
      cases h1
      unfold rotateSome at h2
      rw [if_neg (by simp)] at h2
      cases h2
      exact h3
    · exact fun h => ⟨v, v, e1, by unfold rotateSome; rw [if_neg (by simp)], h⟩
  rw [hR, hc]
  refine exists_congr fun i => and_congr_right fun hi => ?_
  rw [hA i hi, shear_det, shear_A]
  simp [Matrix.trace, Matrix.mul_apply, Fin.sum_univ_three, Matrix.transpose_apply]
  constructor <;> intro h <;> linarith

/-- Two fields that differ in the last of eight cells only, where one has a shear of 10: at the end of the pass they differ in the first
cell. -/
example : ∃ u w u' w' : Iter.Mem, (∀ i < 7, SameAt lineCfg u w i) ∧ finish (boxTail.on 8) 1 u = some u' ∧
    finish (boxTail.on 8) 1 w = some w' ∧ ¬ SameAt lineCfg u' w' 0 := by
  have hG : (boxTail.on 8).Ok := ⟨(lineTail_ok 2).svd, (lineTail_ok 2).sv, (lineTail_ok 2).mats⟩
  let s : Nat → ℝ := fun _ => 1
  let t : Nat → ℝ := fun i => if i = 7 then 10 else 1
  obtain ⟨u', hu, -⟩ := finish_spec (boxTail.on 8) rfl hG 1 (shearField s)
  obtain ⟨w', hw, -⟩ := finish_spec (boxTail.on 8) rfl hG 1 (shearField t)
  have same : ∀ i < 7, SameAt lineCfg (shearField s) (shearField t) i := fun i hi v hv => by
    have hv' : v < 14 := hv
    change shearField s (i * 14 + v) = shearField t (i * 14 + v)
    rw [shear_get _ _ _ hv', shear_get _ _ _ hv']
    simp [s, t, show i ≠ 7 by omega]
  refine ⟨_, _, u', w', same, hu, hw, ?_⟩
  refine reset_far (boxTail.on 8) rfl 1 (by simp) (shearField s) (shearField t) u' w' 0 (by decide) (same 0 (by omega)) (samplePar sample) rfl
    ?_ ?_ ?_ ?_ ?_ ?_ hu hw
  · change (1 : ℝ) ≠ 0
    exact one_ne_zero
  · change 0 < shearField s (0 * 14 + 0)
    rw [shear_get _ _ _ (by omega)]
    norm_num
  · rw [shear_det]
    exact one_ne_zero
  · intro f h
    rw [shear_A] at h
    have := congrFun (congrFun h 0) 1
    simp [s] at this
  · rw [shear_resets]
    rintro ⟨i, -, h⟩
    norm_num [s] at h
  · rw [shear_resets]
    exact ⟨7, by omega, by norm_num [t]⟩

end

end Verif.Run
