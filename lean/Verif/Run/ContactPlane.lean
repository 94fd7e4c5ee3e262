import Verif.Run.ContactRun
import Verif.Run.MaterialsPlane
import Verif.March.Columns

/-! # Two materials next to each other on a plane

As `Contact`, for a surface orthogonal to the first axis of a plane. -/

namespace Verif.Run

open Verif.Sys Verif.Iter Verif.Dg Verif.Fv Verif.Step Verif.Grid Verif.Rot

noncomputable section

variable {c : Sys.Cfg}

/-! ### A cell -/

section cell

variable (hv : c.viscous = true) (ht : c.thermal = false) (hm : c.multi = false) (hl : c.lset = 1) (E : Env c 1) (w : V3) (Q : St)
  (hQ : Rests c E.P w Q)

include hv ht hm hl hQ in
theorem level_first2 (hE : E.Ok) (hfl : E.fl = rusanov c E.P) (dt : ℝ) (ub : Nat → Fin c.V → ℝ) (i j : Nat) (x y z : ℝ)
    (hx : ub (cell i (j + 1) (E.ny + 2)) = restCell c (withLevel c Q x))
    (hy : ∀ s, s ≤ 2 → ub (cell (i + 1) (j + s) (E.ny + 2)) = restCell c (withLevel c Q y))
    (hz : ub (cell (i + 2) (j + 1) (E.ny + 2)) = restCell c (withLevel c Q z)) :
    firstPlane E dt ub i j = restCell c (withLevel c Q
      (y + dt / (2 * E.dx) * (waveSpeed (c := c) E.P Q * (x - y) - w 0 * (y - x)) -
        dt / (2 * E.dx) * (waveSpeed (c := c) E.P Q * (y - z) + w 0 * (z - y)))) := by
  rw [← level_first hv ht hm hl E w Q hQ hE hfl dt (fun r => restCell c (withLevel c Q (if r = 0 then x else if r = 1 then y else z))) 0 x y z
    rfl rfl rfl]
  have hode := level_ode hv ht hm hl E w Q hQ hE dt
  have y0 := hy 0 (by omega)
  have y1 := hy 1 (by omega)
  have y2 := hy 2 (by omega)
  have e0 : cell (i + 1) (j + 0) (E.ny + 2) = cell (i + 1) j (E.ny + 2) := rfl
  rw [e0] at y0
  have hb : ∀ q, E.sys.bdot 1 q 0 = 0 := fun q => gpr_bdot_zero c hv E.P E.src E.junk 1 q
  unfold firstPlane firstLine
  simp only [Nat.add_zero, hx, y0, y1, y2, hz, hode]
  refine congrArg (E.ode dt) (funext fun v => ?_)
  have hzero : intoRight E 1 (restCell c (withLevel c Q y)) (restCell c (withLevel c Q y)) v =
      outOfLeft E 1 (restCell c (withLevel c Q y)) (restCell c (withLevel c Q y)) v := by
    unfold intoRight outOfLeft
    rw [sub_self, hb]
    simp
  rw [hzero]
  norm_num
  ring

include hv ht hm hl hQ in
/-- One cell of the grid of a material, if its neighbours hold the material and the level set is the same along the second axis. -/
theorem contact_cell2 (W : Weno.Setup 1) (undef : ℝ) (it : Nat) (tol : ℝ) (hE : E.Ok) (hX : E.Explicit W undef it tol)
    (hfl : E.fl = rusanov c E.P) (b : Nat → BT) (hb0 : ∀ s < 2, ∀ x, Mirrors E (withLevel c Q x) 0 (b s))
    (hb1 : ∀ s < 4, 2 ≤ s → ∀ x, Mirrors E (withLevel c Q x) 1 (b s)) (nc : Bool) (threads : Nat) (hT : 0 < threads)
    (mk : Nat → Bool) (dt : ℝ) (g g' : Iter.Mem) (lev : Nat → ℝ) (hmv : MovesMasked2 E b nc true threads mk dt g g') (i j : Nat) (hi : i < E.nx)
    (hj : j < E.ny) (hk : mk (cell i j E.ny) = true)
    (hg : ∀ r, i ≤ r → r ≤ i + 2 → ∀ s < E.ny, ∀ v < c.V, g (cell (srcOf 1 (b 0) (b 1) E.nx r) s E.ny * c.V + v) =
      withLevel c Q (lev (srcOf 1 (b 0) (b 1) E.nx r)) v)
    (v : Nat) (hvV : v < c.V) : g' (cell i j E.ny * c.V + v) = withLevel c Q (lev i +
      dt / (2 * E.dx) * (waveSpeed (c := c) E.P Q * (lev (srcOf 1 (b 0) (b 1) E.nx i) - lev i) -
        w 0 * (lev i - lev (srcOf 1 (b 0) (b 1) E.nx i))) -
      dt / (2 * E.dx) * (waveSpeed (c := c) E.P Q * (lev i - lev (srcOf 1 (b 0) (b 1) E.nx (i + 2))) +
        w 0 * (lev (srcOf 1 (b 0) (b 1) E.nx (i + 2)) - lev i))) v := by
  have m0 := fun x => hb0 0 (by omega) x
  have m1 := fun x => hb0 1 (by omega) x
  have m2 := fun x => hb1 2 (by omega) (by omega) x
  have m3 := fun x => hb1 3 (by omega) (by omega) x
  have hno : ∀ k < 4, b k ≠ .other := fun k hk => by
    interval_cases k
    exacts [(m0 0).1, (m1 0).1, (m2 0).1, (m3 0).1]
  obtain ⟨ub, hp, e⟩ := split_first2 E W undef it tol hv hE hX b hno nc threads hT mk dt g g' hmv
  have hpad : ∀ r, i ≤ r → r ≤ i + 2 → ∀ s < E.ny + 2,
      ub (cell r s (E.ny + 2)) = restCell c (withLevel c Q (lev (srcOf 1 (b 0) (b 1) E.nx r))) := by
    intro r h1 h2 s hs
    obtain ⟨old, m', hm', hub⟩ := hp
    obtain ⟨hx, hy⟩ := hE.wide
    obtain ⟨m'', e', a, -⟩ := Grid.boundaries_2d ⟨1, E.destress⟩ E.nx E.ny (b 0) (b 1) (b 2) (b 3) (memOf c g old) hx hy
      (hno 0 (by omega)) (hno 1 (by omega)) (hno 2 (by omega)) (hno 3 (by omega))
    rw [hm'] at e'
    cases e'
    funext a'
    have := a r (by simp only; omega) s (by simp only; omega)
    simp only [mul_one] at this
    rw [hub]
    unfold cell
    rw [this]
    refine ghost_rest E _ 1 _ _ (m2 _) (m3 _) _ _ _ (fun j' hj' => ?_) a' a'.2
    refine ghost_rest E _ 0 _ _ (m0 _) (m1 _) _ _ _ (fun j hj => ?_) j' hj'
    exact hg r h1 h2 _ (srcOf_lt (N := 1) hy (by omega) (show s < E.ny + 2 * 1 by omega)) j hj
  have hmid : srcOf 1 (b 0) (b 1) E.nx (i + 1) = i := by
    unfold srcOf
    rw [if_neg (by omega), if_pos (by omega)]
    omega
  have := e i hi j hj hk ⟨v, hvV⟩
  rw [level_first2 hv ht hm hl E w Q hQ hE hfl dt ub i j _ _ _ (hpad i le_rfl (by omega) _ (by omega))
    (fun s hs => by rw [hpad (i + 1) (by omega) (by omega) _ (by omega), hmid]) (hpad (i + 2) (by omega) le_rfl _ (by omega))] at this
  exact this

end cell

/-! ### The grids of the materials -/

/-- A plane with the field `lev` of the only level set, from which `material_indicator` takes the indicators of both materials. -/
def levFronts2 (nx ny : Nat) (dx dy : ℝ) (lev : Nat → ℝ) (junk : Nat → Nat → ℝ) (star : Nat → St → St → Nat → List ℝ → St)
    (order : Nat → List Nat) (layers : Nat) : Fronts where
  φ m i := Fill.indicator 1 (fun _ => lev i) m 2
  slope m := Fill.slopes [nx, ny] [dx, dy] junk fun i => Fill.indicator 1 (fun _ => lev i) m 2
  star := star
  order := order
  layers := layers

/-- The cells of the rows below `k` hold `Q0`, the others `Q1`, and `lev` is the level set along the first axis. -/
def Halves2 (c : Sys.Cfg) (nx ny k : Nat) (Q0 Q1 : St) (lev : Nat → ℝ) (u : Iter.Mem) : Prop :=
  ∀ x < nx, ∀ y < ny, ∀ v < c.V, u (cell x y ny * c.V + v) = withLevel c (if x < k then Q0 else Q1) (lev x) v

theorem cells_cover {nx ny i : Nat} (hi : i < nx * ny) : ∃ x y, x < nx ∧ y < ny ∧ i = cell x y ny := by
  have hy : 0 < ny := Nat.pos_of_ne_zero fun h => by simp [h] at hi
  exact ⟨i / ny, i % ny, Nat.div_lt_of_lt_mul (by rwa [Nat.mul_comm]), Nat.mod_lt _ hy, by
    unfold cell; rw [Nat.mul_comm]; exact (Nat.div_add_mod i ny).symm⟩

section pass

variable (hv : c.viscous = true) (ht : c.thermal = false) (hm : c.multi = false) (hl : c.lset = 1) (E0 E1 : Env c 1)
  (w w' : V3) (Q0 Q1 : St) (hQ0 : Rests c E0.P w Q0) (hQ1 : Rests c E1.P w' Q1) (hp : pressure c E0.P Q0 = pressure c E1.P Q1)
  (nx ny : Nat) (hny : 3 ≤ ny) (dx dy x0 : ℝ) (hdx : 0 < dx) (hdy : 0 < dy) (k : Nat) (hk : 2 ≤ k) (hkx : k + 1 < nx)
  (h1 : ((k : ℝ) - 1 / 2) * dx < x0)
  (h2 : x0 < ((k : ℝ) + 1 / 2) * dx) (hx0 : E0.nx = nx ∧ E0.ny = ny) (hx1 : E1.nx = nx ∧ E1.ny = ny) (hd0 : E0.dx = dx) (hd1 : E1.dx = dx)
  (W : Weno.Setup 1) (undef : ℝ) (it : Nat) (tol : ℝ) (hE0 : E0.Ok) (hE1 : E1.Ok) (hX0 : E0.Explicit W undef it tol)
  (hX1 : E1.Explicit W undef it tol) (hf0 : E0.fl = rusanov c E0.P) (hf1 : E1.fl = rusanov c E1.P) (b : Nat → BT)
  (hnp : ∀ s < 2, b s ≠ .periodic) (hb0 : ∀ s < 2, ∀ x, Mirrors E0 (withLevel c Q0 x) 0 (b s))
  (hb1 : ∀ s < 2, ∀ x, Mirrors E1 (withLevel c Q1 x) 0 (b s)) (hs0 : ∀ s < 4, 2 ≤ s → ∀ x, Mirrors E0 (withLevel c Q0 x) 1 (b s))
  (hs1 : ∀ s < 4, 2 ≤ s → ∀ x, Mirrors E1 (withLevel c Q1 x) 1 (b s)) (threads : Nat) (hT : 0 < threads)
  (Z : StarSet c) (hf : 1 ≤ Z.fuel) (htol : 0 < Z.tol) (hbL : 0 < E0.P.b02) (hbR : 0 < E1.P.b02)
  (hsl : Slides Z.stick w w')

include hv ht hm hl hQ0 hQ1 hp hny hdx hdy hk hkx h1 h2 hf htol hbL hbR hsl in
/-- The grids of the two materials before the step, and where their masks are set. -/
theorem contact_grids2 (layers : Nat) (hlay : 1 ≤ layers) (order : Nat → List Nat) (ho : ∀ m, (order m).Perm (List.range (nx * ny)))
    (junk : Nat → Nat → ℝ) (lev : Nat → ℝ) (dt0 : ℝ) (u : Iter.Mem) (hlev : ∀ j < nx * ny, lev j = u (j * c.V + (c.V - 1)))
    (hu : Halves2 c nx ny k Q0 Q1 (fun j => ((j : ℝ) + 1 / 2) * dx - x0) u) (g0 g1 : Iter.Mem) (mk0 mk1 : Nat → Bool)
    (f0 : Fills2 c (levFronts2 nx ny dx dy lev junk (starOf Z [some E0.P, some E1.P] dt0) order layers) nx ny dx dy 2 0 u g0 mk0)
    (f1 : Fills2 c (levFronts2 nx ny dx dy lev junk (starOf Z [some E0.P, some E1.P] dt0) order layers) nx ny dx dy 2 1 u g1 mk1) :
    (∀ x < nx, ∀ y < ny, x ≤ k + 1 → ∀ v < c.V, g0 (cell x y ny * c.V + v) = withLevel c Q0 (((x : ℝ) + 1 / 2) * dx - x0) v) ∧
    (∀ x < nx, ∀ y < ny, k ≤ x + 2 → ∀ v < c.V, g1 (cell x y ny * c.V + v) = withLevel c Q1 (((x : ℝ) + 1 / 2) * dx - x0) v) ∧
    (∀ x < nx, ∀ y < ny, (mk0 (cell x y ny) = true ↔ x ≤ k) ∧ (mk1 (cell x y ny) = true ↔ k ≤ x + 1)) := by
  obtain ⟨hV, hmV⟩ := contact_V hv ht hm hl
  have hul : ∀ x < nx, ∀ y < ny, u (cell x y ny * c.V + (c.V - 1)) = ((x : ℝ) + 1 / 2) * dx - x0 := fun x hx y hy => by
    rw [hu x hx y hy _ (by omega), level_last]
  have hlev' : ∀ x < nx, ∀ y < ny, lev (cell x y ny) = ((x : ℝ) + 1 / 2) * dx - x0 := fun x hx y hy => by
    rw [hlev _ (cell_lt hx hy), hul x hx y hy]
  have hmat := plane_material hl nx ny dx x0 hdx k h1 h2 u hul
  set star := starOf Z [some E0.P, some E1.P] dt0 with hstar
  set F := levFronts2 nx ny dx dy lev junk star order layers with hFdef
  have isl : IsLevel c (c.V - 1) := ⟨by omega, by omega⟩
  have hview : ∀ x < nx, ∀ y < ny, ∀ v < 14, view c u (cell x y ny) v = if x < k then Q0 v else Q1 v := fun x hx y hy v hv' => by
    unfold view
    rw [hu x hx y hy v (by omega), level_head hv ht hm hl _ _ _ hv']
    split_ifs <;> rfl
  have hview0 : ∀ x < nx, ∀ y < ny, x < k → ∀ v < 14, view c u (cell x y ny) v = Q0 v := fun x hx y hy h v hv' => by
    rw [hview x hx y hy v hv', if_pos h]
  have hview1 : ∀ x < nx, ∀ y < ny, k ≤ x → ∀ v < 14, view c u (cell x y ny) v = Q1 v := fun x hx y hy h v hv' => by
    rw [hview x hx y hy v hv', if_neg (by omega)]
  -- the star states are the states themselves
  have star0 : ∀ R < nx, ∀ y < ny, k ≤ R → star 0 (view c u (cell (k - 1) y ny)) (view c u (cell R y ny)) 1 [1, 0] =
      view c u (cell (k - 1) y ny) := by
    intro R hR y hy hkR
    have := star_rest hv ht Z E0.P E1.P dt0 [1, 0] (by norm_num [Rot.Unit]) hf htol hbL hbR w w' hsl.2
      (slides_rot hsl ⟨1, pad_two _⟩) Q0 Q1 _ _ hQ0 hQ1 hp
      (hview0 (k - 1) (by omega) y hy (by omega)) (hview1 R hR y hy hkR)
    simp only [hstar, starOf, List.getElem?_cons_zero, List.getElem?_cons_succ, Option.join_some, this]
  have star1 : ∀ R < nx, ∀ y < ny, R < k → star 1 (view c u (cell k y ny)) (view c u (cell R y ny)) 0 [-1, 0] =
      view c u (cell k y ny) := by
    intro R hR y hy hkR
    have := star_rest hv ht Z E1.P E0.P dt0 [-1, 0] (by norm_num [Rot.Unit]) hf htol hbR hbL w' w (fun h => (hsl.2 h).symm)
      (slides_rot hsl ⟨-1, pad_two _⟩).symm Q1 Q0 _ _ hQ1 hQ0 hp.symm
      (hview1 k (by omega) y hy le_rfl) (hview0 R hR y hy hkR)
    simp only [hstar, starOf, List.getElem?_cons_zero, List.getElem?_cons_succ, Option.join_some, this]
  have whole : ∀ (q : Iter.Mem) (Q : St) (j : Nat) (x : ℝ), (∀ v < 14, q (j * c.V + v) = Q v) → q (j * c.V + (c.V - 1)) = x →
      ∀ v < c.V, q (j * c.V + v) = withLevel c Q x v := by
    intro q Q j x ha hb v hv'
    by_cases h : v < 14
    · rw [ha v h, level_head hv ht hm hl _ _ _ h]
    · rw [show v = c.V - 1 by omega, hb, level_last]
  have keep0 := fun x hx y hy => (fills2_keeps _ _ _ _ _ _ _ _ _ _ f0 (cell x y ny) (cell_lt hx hy)).1 _ isl
  have keep1 := fun x hx y hy => (fills2_keeps _ _ _ _ _ _ _ _ _ _ f1 (cell x y ny) (cell_lt hx hy)).1 _ isl
  obtain ⟨grid0, e0, v0⟩ := f0
  obtain ⟨grid1, e1, v1⟩ := f1
  have q0 : ∀ x < nx, ∀ y < ny, (x ≤ k + 1 → ∀ v < 14, grid0 (cell x y ny) v = Q0 v) ∧ (mk0 (cell x y ny) = true ↔ x ≤ k) := by
    obtain ⟨grid, mk, hg, h⟩ := Fill.ghost_plane false c nx ny (by omega) hny dx dy x0 hdx hdy 0 2 layers (star 0) junk
      (fun i => Fill.indicator 1 (fun _ => lev i) 0 2) (order 0) (by simpa using ho 0) (view c u) k (by omega) hkx
      (fun p hp q hq => by
        have := hlev' p hp q hq
        unfold cell at this
        simp [Fill.at2, Fill.indicator, this]) h1.le h2
      (fun p hp q hq => by
        have := hmat p q hp hq
        unfold cell at this
        simp only [Fill.at2, Bool.false_eq_true, if_false, this]; split_ifs with h <;> simp [h])
      (fun p hp q hq => by
        have := hmat p q hp hq
        unfold cell at this
        simp only [Fill.at2, Bool.false_eq_true, if_false, this]; split_ifs <;> omega)
    have e0' : some (grid0, mk0) = some (grid, mk) := by rw [← e0, ← hg]; rfl
    obtain ⟨rfl, rfl⟩ := Prod.mk.inj (Option.some.inj e0')
    intro x hx y hy
    obtain ⟨a1, a2⟩ := h x hx y hy
    simp only [Fill.at2, Bool.false_eq_true, if_false] at a1 a2
    refine ⟨fun hxk v hv' => ?_, a2⟩
    have hR : materialIndex c (view c u (cell (if (k : ℝ) * dx ≤ x0 then k + 1 else k) y ny)) = 1 := by
      rw [hmat _ y (by split_ifs <;> omega) hy, if_neg (by split_ifs <;> omega)]
    have hst := star0 (if (k : ℝ) * dx ≤ x0 then k + 1 else k) (by split_ifs <;> omega) y hy (by split_ifs <;> omega)
    have hw0 := hview0 (k - 1) (by omega) y hy (by omega) v hv'
    have hw1 := hview0 x hx y hy
    unfold cell at hR hst hw0 hw1 ⊢
    rw [a1]
    by_cases h' : k ≤ x ∧ x ≤ k + layers
    · rw [if_pos h']
      simp only [show v < c.V - c.lset by omega, if_true]
      rw [hR, hst, hw0]
    · rw [if_neg h']
      exact hw1 (by omega) v hv'
  have q1 : ∀ x < nx, ∀ y < ny, (k ≤ x + 2 → ∀ v < 14, grid1 (cell x y ny) v = Q1 v) ∧ (mk1 (cell x y ny) = true ↔ k ≤ x + 1) := by
    obtain ⟨q, rfl⟩ : ∃ q, k = q + 1 := ⟨k - 1, by omega⟩
    push_cast at h1 h2
    obtain ⟨grid, mk, hg, h⟩ := Fill.ghost_plane_high false c nx ny (by omega) hny dx dy x0 hdx hdy 1 2 layers (star 1) junk
      (fun i => Fill.indicator 1 (fun _ => lev i) 1 2) (order 1) (by simpa using ho 1) (view c u) q (by omega) (by omega)
      (fun p hp q hq => by
        have := hlev' p hp q hq
        unfold cell at this
        simp [Fill.at2, Fill.indicator, this]) (by linarith) (by linarith)
      (fun p hp q hq => by
        have := hmat p q hp hq
        unfold cell at this
        simp only [Fill.at2, Bool.false_eq_true, if_false, this]; split_ifs <;> simp <;> omega)
      (fun p hp q hq => by
        have := hmat p q hp hq
        unfold cell at this
        simp only [Fill.at2, Bool.false_eq_true, if_false, this]; split_ifs <;> omega)
    have e1' : some (grid1, mk1) = some (grid, mk) := by rw [← e1, ← hg]; rfl
    obtain ⟨rfl, rfl⟩ := Prod.mk.inj (Option.some.inj e1')
    intro x hx y hy
    obtain ⟨a1, a2⟩ := h x hx y hy
    simp only [Fill.at2, Bool.false_eq_true, if_false] at a1 a2
    refine ⟨fun hxk v hv' => ?_, by rw [Nat.add_le_add_iff_right]; exact a2⟩
    have hR : materialIndex c (view c u (cell (if x0 < ((q : ℝ) + 1) * dx then q - 1 else q) y ny)) = 0 := by
      rw [hmat _ y (by split_ifs <;> omega) hy, if_pos (by split_ifs <;> omega)]
    have hst := star1 (if x0 < ((q : ℝ) + 1) * dx then q - 1 else q) (by split_ifs <;> omega) y hy (by split_ifs <;> omega)
    have hw0 := hview1 (q + 1) (by omega) y hy le_rfl v hv'
    have hw1 := hview1 x hx y hy
    unfold cell at hR hst hw0 hw1 ⊢
    rw [a1]
    by_cases h' : x ≤ q ∧ q ≤ x + layers
    · rw [if_pos h']
      simp only [show v < c.V - c.lset by omega, if_true]
      rw [hR, hst, hw0]
    · rw [if_neg h']
      exact hw1 (by omega) v hv'
  refine ⟨fun x hx y hy hxk => ?_, fun x hx y hy hxk => ?_, fun x hx y hy => ⟨(q0 x hx y hy).2, (q1 x hx y hy).2⟩⟩
  · refine whole _ _ _ _ (fun v hv' => ?_) (by rw [keep0 x hx y hy, hul x hx y hy])
    rw [v0 _ (cell_lt hx hy) v (by omega)]
    exact (q0 x hx y hy).1 hxk v hv'
  · refine whole _ _ _ _ (fun v hv' => ?_) (by rw [keep1 x hx y hy, hul x hx y hy])
    rw [v1 _ (cell_lt hx hy) v (by omega)]
    exact (q1 x hx y hy).1 hxk v hv'

include hv ht hm hl hQ0 hQ1 hp hny hdx hdy hk hkx h1 h2 hx0 hx1 hd0 hd1 hE0 hE1 hX0 hX1 hf0 hf1 hnp hb0 hb1 hs0 hs1 hT hf htol hbL hbR hsl

theorem contact_pass2 (layers : Nat) (hlay : 1 ≤ layers) (order : Nat → List Nat) (ho : ∀ m, (order m).Perm (List.range (nx * ny)))
    (junk : Nat → Nat → ℝ) (lev : Nat → ℝ) (dt0 dt : ℝ) (u u' : Iter.Mem) (hlev : ∀ j < nx * ny, lev j = u (j * c.V + (c.V - 1)))
    (hu : Halves2 c nx ny k Q0 Q1 (fun j => ((j : ℝ) + 1 / 2) * dx - x0) u) (hdt : 0 ≤ dt)
    (hc0 : dt * waveSpeed (c := c) E0.P Q0 ≤ dx) (hc1 : dt * waveSpeed (c := c) E1.P Q1 ≤ dx) (k' : Nat)
    (h1' : ((k' : ℝ) - 1 / 2) * dx < x0 + w 0 * dt) (h2' : x0 + w 0 * dt < ((k' : ℝ) + 1 / 2) * dx) (nc : Bool)
    (hmv : MovesMulti2 [some E0, some E1] (levFronts2 nx ny dx dy lev junk (starOf Z [some E0.P, some E1.P] dt0) order layers) nx ny dx dy b
      nc true threads dt u u') :
    Halves2 c nx ny k' Q0 Q1 (levNext nx dx x0 (w 0) (waveSpeed (c := c) E0.P Q0) (waveSpeed (c := c) E1.P Q1) dt) u' := by
  obtain ⟨hV, hmV⟩ := contact_V hv ht hm hl
  have side' := two_side dx (x0 + w 0 * dt) hdx k' h1' h2'
  have hw0 := abs_le.1 (rests_speed hQ0)
  have hw1 := abs_le.1 (rests_speed hQ1)
  rw [hsl.1] at hw1
  have hwu : w 0 * dt ≤ dx := by nlinarith
  have hwl : -dx ≤ w 0 * dt := by nlinarith
  have hup : k' ≤ k + 1 := by
    by_contra h
    have : (k : ℝ) + 2 ≤ k' := by exact_mod_cast (show k + 2 ≤ k' by omega)
    nlinarith
  have hdown : k ≤ k' + 1 := by
    by_contra h
    have : (k' : ℝ) + 2 ≤ k := by exact_mod_cast (show k' + 2 ≤ k by omega)
    nlinarith
  obtain ⟨g, g', mk, hfill, -, hmake⟩ := hmv
  obtain ⟨f0, m0⟩ := hfill 0 E0 rfl
  obtain ⟨f1, m1⟩ := hfill 1 E1 rfl
  obtain ⟨grid0, grid1, mask⟩ := contact_grids2 hv ht hm hl E0 E1 w w' Q0 Q1 hQ0 hQ1 hp nx ny hny dx dy x0 hdx hdy k hk hkx h1 h2 Z hf htol
    hbL hbR hsl layers hlay order ho junk lev dt0 u hlev hu (g 0) (g 1) (mk 0) (mk 1) f0 f1
  -- the steps
  have np0 := hnp 0 (by omega)
  have np1 := hnp 1 (by omega)
  have src := fun r hr => src_inner (b 0) (b 1) np0 np1 nx (by omega) r hr
  obtain ⟨hx0, hy0⟩ := hx0
  obtain ⟨hx1, hy1⟩ := hx1
  set nl := levNext nx dx x0 (w 0) (waveSpeed (c := c) E0.P Q0) (waveSpeed (c := c) E1.P Q1) dt with hnl
  have next0 : ∀ i < nx, ∀ j < ny, i ≤ k → ∀ v < c.V, g' 0 (cell i j ny * c.V + v) = withLevel c Q0 (nl i) v := by
    intro i hi j hj hik v hvV
    have key := contact_cell2 hv ht hm hl E0 w Q0 hQ0 W undef it tol hE0 hX0 hf0 b hb0 hs0 nc threads hT (mk 0) dt (g 0) (g' 0)
      (fun j => ((j : ℝ) + 1 / 2) * dx - x0) m0 i j (by omega) (by omega) (by rw [hy0]; exact (mask i hi j hj).1.2 hik) (fun r r1 r2 s hs w hw => by
        rw [hx0, hy0, src r (by omega)]
        rw [hy0] at hs
        split_ifs with e1 e2
        · exact grid0 0 (by omega) s hs (by omega) w hw
        · exact grid0 _ (by omega) s hs (by omega) w hw
        · omega) v hvV
    rw [hx0, hy0, hd0, src i (by omega), src (i + 2) (by omega)] at key
    rw [key]
    congr 1
    rw [hnl]
    unfold levNext
    rw [if_neg (show ¬ i + 2 = 0 by omega), if_pos (show i + 2 ≤ nx by omega), if_neg (show ¬ i + 1 = nx by omega)]
    have e2 : ((i + 2 - 1 : Nat) : ℝ) = (i : ℝ) + 1 := by rw [show i + 2 - 1 = i + 1 by omega]; push_cast; rfl
    rw [e2]
    by_cases hi0 : i = 0
    · subst hi0
      rw [if_pos rfl, if_pos rfl]
      push_cast
      field_simp
      ring
    · have e0 : ((i - 1 : Nat) : ℝ) = (i : ℝ) - 1 := by push_cast [show 1 ≤ i by omega]; rfl
      rw [if_neg hi0, if_pos (show i ≤ nx by omega), if_neg hi0, e0]
      field_simp
      ring
  have next1 : ∀ i < nx, ∀ j < ny, k ≤ i + 1 → ∀ v < c.V, g' 1 (cell i j ny * c.V + v) = withLevel c Q1 (nl i) v := by
    intro i hi j hj hik v hvV
    have key := contact_cell2 hv ht hm hl E1 w' Q1 hQ1 W undef it tol hE1 hX1 hf1 b hb1 hs1 nc threads hT (mk 1) dt (g 1) (g' 1)
      (fun j => ((j : ℝ) + 1 / 2) * dx - x0) m1 i j (by omega) (by omega) (by rw [hy1]; exact (mask i hi j hj).2.2 hik) (fun r r1 r2 s hs w hw => by
        rw [hx1, hy1, src r (by omega)]
        rw [hy1] at hs
        split_ifs with e1 e2
        · omega
        · exact grid1 _ (by omega) s hs (by omega) w hw
        · exact grid1 _ (by omega) s hs (by omega) w hw) v hvV
    rw [hx1, hy1, hd1, hsl.1, src i (by omega), src (i + 2) (by omega)] at key
    rw [key]
    congr 1
    rw [hnl]
    unfold levNext
    have e0 : ((i - 1 : Nat) : ℝ) = (i : ℝ) - 1 := by push_cast [show 1 ≤ i by omega]; rfl
    rw [if_neg (show ¬ i = 0 by omega), if_pos (show i ≤ nx by omega), if_neg (show ¬ i = 0 by omega),
      if_neg (show ¬ i + 2 = 0 by omega), e0]
    by_cases hin : i + 1 = nx
    · rw [if_neg (show ¬ i + 2 ≤ nx by omega), if_pos hin, show nx - 1 = i by omega]
      field_simp
      ring
    · have e2 : ((i + 2 - 1 : Nat) : ℝ) = (i : ℝ) + 1 := by rw [show i + 2 - 1 = i + 1 by omega]; push_cast; rfl
      rw [if_pos (show i + 2 ≤ nx by omega), if_neg hin, e2]
      field_simp
      ring
  -- make_u
  have whole : ∀ (q : Iter.Mem) (Q : St) (j : Nat) (x : ℝ), (∀ v < 14, q (j * c.V + v) = Q v) → q (j * c.V + (c.V - 1)) = x →
      ∀ v < c.V, q (j * c.V + v) = withLevel c Q x v := by
    intro q Q j x ha hb v hv'
    by_cases h : v < 14
    · rw [ha v h, level_head hv ht hm hl _ _ _ h]
    · rw [show v = c.V - 1 by omega, hb, level_last]
  intro i hi j hj
  obtain ⟨hlv, P, hP, -, hcell⟩ := make_u_spec c (nx * ny) _ _ _ u u' hmake _ (cell_lt hi hj)
  have hlast : u' (cell i j ny * c.V + (c.V - 1)) = nl i := by
    rw [hlv (c.V - 1) (by omega) (by omega)]
    simp only [List.length_map, List.length_range, List.length_cons, List.length_nil, Nat.reduceAdd]
    set act := (Finset.range 2).filter fun m => (((List.range 2).map mk).getD m fun _ => false) (cell i j ny) = true with hact
    have hget : ∀ m < 2, ((List.range 2).map mk).getD m (fun _ => false) = mk m := by
      intro m hm; interval_cases m <;> rfl
    have hget' : ∀ m < 2, ((List.range 2).map g').getD m (fun _ => 0) = g' m := by
      intro m hm; interval_cases m <;> rfl
    have hne : act.card ≠ 0 := by
      rw [Finset.card_ne_zero]
      by_cases h : i < k
      · exact ⟨0, by rw [hact, Finset.mem_filter, hget 0 (by omega)]; exact ⟨by simp, (mask i hi j hj).1.2 h.le⟩⟩
      · exact ⟨1, by rw [hact, Finset.mem_filter, hget 1 (by omega)]; exact ⟨by simp, (mask i hi j hj).2.2 (by omega)⟩⟩
    rw [if_neg hne, Finset.sum_congr rfl (g := fun _ => nl i) (fun m hm' => ?_), Finset.sum_const, nsmul_eq_mul,
      mul_div_cancel_left₀ _ (by exact_mod_cast hne)]
    rw [hact, Finset.mem_filter] at hm'
    have hm2 : m < 2 := by simpa using hm'.1
    have hmk := hm'.2
    rw [hget m hm2] at hmk
    rw [hget' m hm2]
    interval_cases m
    · rw [next0 i hi j hj ((mask i hi j hj).1.1 hmk) _ (by omega), level_last]
    · rw [next1 i hi j hj ((mask i hi j hj).2.1 hmk) _ (by omega), level_last]
  have hsign : (nl i < 0 ↔ i < k') := by
    have hc1 : (2 : ℝ) ≤ k := by exact_mod_cast hk
    rw [hnl]
    unfold levNext
    by_cases hi0 : i = 0
    · subst hi0
      rw [if_pos rfl, if_neg (by omega)]
      push_cast
      refine ⟨fun _ => by omega, fun _ => ?_⟩
      nlinarith
    · by_cases hin : i + 1 = nx
      · rw [if_neg hi0, if_pos hin]
        have : (k : ℝ) + 1 ≤ i := by exact_mod_cast (show k + 1 ≤ i by omega)
        refine ⟨fun h => ?_, fun h => by omega⟩
        exfalso
        nlinarith
      · rw [if_neg hi0, if_neg hin, add_zero, sub_zero]
        exact (side' i).1
  have hidx : materialIndex c (view c u' (cell i j ny)) = if i < k' then 0 else 1 := by
    rw [two_index hl]
    unfold view
    rw [hlast]
    by_cases h : i < k'
    · rw [if_pos h, if_neg (not_le.2 (hsign.2 h))]
    · rw [if_neg h, if_pos (not_lt.1 fun h' => h (hsign.1 h'))]
  rw [hidx] at hP hcell
  refine whole _ _ _ _ (fun v hv' => ?_) hlast
  by_cases h : i < k'
  · rw [if_pos h] at hP hcell ⊢
    have hPn : P ≠ none := by
      simp at hP; rw [← hP]; simp
    obtain ⟨q, hq, hqv⟩ := hcell hPn
    have : q = g' 0 := by simpa using hq.symm
    rw [hqv v (by omega), this, next0 i hi j hj (by omega) v (by omega), level_head hv ht hm hl _ _ _ hv']
  · rw [if_neg h] at hP hcell ⊢
    have hPn : P ≠ none := by
      simp at hP; rw [← hP]; simp
    obtain ⟨q, hq, hqv⟩ := hcell hPn
    have : q = g' 1 := by simpa using hq.symm
    rw [hqv v (by omega), this, next1 i hi j hj (by omega) v (by omega), level_head hv ht hm hl _ _ _ hv']

end pass

end

end Verif.Run
