import Verif.Run.MaskedPlane
import Verif.Run.Materials
import Verif.Fill.PlaneHigh

/-! # Passes with several materials on a plane

As `Materials`; without `NO_CORNERS`, except in first order. -/

namespace Verif.Run

open Verif.Sys Verif.Iter Verif.Dg Verif.Fv Verif.Step Verif.Grid Verif.Rot

noncomputable section

variable {c : Sys.Cfg} {n : Nat}

/-- fill.cpp:349-366 on a plane: `g` is the grid of material `m` and `mk` its mask. -/
def Fills2 (c : Sys.Cfg) (F : Fronts) (nx ny : Nat) (dx dy : ℝ) (nmat m : Nat) (u g : Iter.Mem) (mk : Nat → Bool) : Prop :=
  ∃ grid, Fill.ghostCells c [nx, ny] [dx, dy] m nmat F.layers (F.star m) (F.φ m) (F.slope m) (F.order m) (view c u) = some (grid, mk) ∧
    ∀ k < nx * ny, ∀ a < c.V, g (k * c.V + a) = grid k a

/-- iterator.cpp:112-138 for `LSET > 0`, on a plane: `u` is the field after `renormalize_levelsets` (fill.cpp:340), `none` in `Es`
is vacuum. -/
def MovesMulti2 (Es : List (Option (Env c n))) (F : Fronts) (nx ny : Nat) (dx dy : ℝ) (b : Nat → BT) (nc split : Bool) (threads : Nat) (dt : ℝ)
    (u u' : Iter.Mem) : Prop :=
  ∃ (g g' : Nat → Iter.Mem) (mk : Nat → Nat → Bool),
    (∀ m E, Es[m]? = some (some E) → Fills2 c F nx ny dx dy Es.length m u (g m) (mk m) ∧
      MovesMasked2 E b nc split threads (mk m) dt (g m) (g' m)) ∧
    (∀ m, Es[m]? = some none → ∀ i, mk m i = false) ∧
    makeU c (nx * ny) ((List.range Es.length).map g') ((List.range Es.length).map mk) (Es.map (Option.map Env.P)) u = some u'

/-- The grid of a material holds the level sets of the field, and the field itself inside the material. -/
theorem fills2_keeps (F : Fronts) (nx ny : Nat) (dx dy : ℝ) (nmat m : Nat) (u g : Iter.Mem) (mk : Nat → Bool)
    (h : Fills2 c F nx ny dx dy nmat m u g mk) (j : Nat) (hj : j < nx * ny) :
    (∀ v, IsLevel c v → g (j * c.V + v) = u (j * c.V + v)) ∧
    (materialIndex c (view c u j) = m → Fill.Kept [nx, ny] (F.φ m) j → ∀ v < c.V, g (j * c.V + v) = u (j * c.V + v)) := by
  obtain ⟨grid, hg, e⟩ := h
  obtain ⟨h1, h2⟩ := Fill.ghost_keeps c [nx, ny] (Or.inr rfl) [dx, dy] m nmat _ _ _ _ _ _ _ _ hg
  refine ⟨fun v hl => ?_, fun hm hφ v hv => ?_⟩
  · rw [e j hj v hl.2, h1 j v hl.1]
    rfl
  · rw [e j hj v hv, h2 j (by simpa using hj) hm hφ]
    rfl

theorem fills2_mask (F : Fronts) (nx ny : Nat) (dx dy : ℝ) (nmat m : Nat) (u g : Iter.Mem) (mk : Nat → Bool)
    (h : Fills2 c F nx ny dx dy nmat m u g mk) (j : Nat) (hj : j < nx * ny) :
    (Fill.Kept [nx, ny] (F.φ m) j → mk j = true) ∧ ((∀ a, a = j ∨ Fill.Adj [nx, ny] j a → 0 < F.φ m a) → mk j = false) := by
  obtain ⟨grid, hg, -⟩ := h
  have := Fill.ghost_mask c [nx, ny] (Or.inr rfl) [dx, dy] m nmat _ _ _ _ _ _ _ _ hg j (by simpa using hj)
  refine ⟨fun h => this.2 (Or.inl h), fun h => ?_⟩
  rw [← Bool.not_eq_true]
  intro hc
  rcases this.1 hc with ⟨h', -⟩ | ⟨-, a, ha, h', -⟩
  · exact absurd h' (not_le.2 (h j (Or.inl rfl)))
  · exact absurd h' (not_le.2 (h a (Or.inr ha)))

/-- What `make_u` does in a cell in which only material `a` is selected. -/
theorem make_u_one (Es : List (Option (Env c n))) (N : Nat) (g' : Nat → Iter.Mem) (mk : Nat → Nat → Bool) (u u' : Iter.Mem)
    (hmake : makeU c N ((List.range Es.length).map g') ((List.range Es.length).map mk) (Es.map (Option.map Env.P)) u = some u')
    (a : Nat) (E : Env c n) (ha : Es[a]? = some (some E)) (i : Nat) (hi : i < N) (w : Iter.Mem)
    (hstep : ∀ v < c.V, g' a (i * c.V + v) = w (i * c.V + v)) (hka : mk a i = true) (hkm : ∀ m < Es.length, m ≠ a → mk m i = false) :
    (∀ v, IsLevel c v → u' (i * c.V + v) = w (i * c.V + v)) ∧
    (materialIndex c (view c w i) = a → ∀ v < c.V, u' (i * c.V + v) = w (i * c.V + v)) := by
  have halen : a < Es.length := (List.getElem?_eq_some_iff.1 ha).1
  obtain ⟨hlev, P, hP, -, hhead⟩ := make_u_spec c N _ _ _ u u' hmake i hi
  have hact : ((Finset.range ((List.range Es.length).map g').length).filter fun m =>
      (((List.range Es.length).map mk).getD m fun _ => false) i = true) = {a} := by
    ext m
    simp only [List.length_map, List.length_range, Finset.mem_filter, Finset.mem_range, Finset.mem_singleton]
    constructor
    · rintro ⟨hm, hk⟩
      by_contra hne
      rw [List.getD_eq_getElem?_getD, List.getElem?_map, List.getElem?_range hm] at hk
      simp only [Option.map_some, Option.getD_some, hkm m hm hne, Bool.false_eq_true] at hk
    · rintro rfl
      refine ⟨halen, ?_⟩
      rw [List.getD_eq_getElem?_getD, List.getElem?_map, List.getElem?_range halen]
      exact hka
  have hlevel : ∀ v, IsLevel c v → u' (i * c.V + v) = w (i * c.V + v) := by
    intro v hl
    rw [hlev v hl.1 hl.2]
    simp only [hact, Finset.card_singleton, one_ne_zero, if_false, Finset.sum_singleton, Nat.cast_one, div_one]
    rw [List.getD_eq_getElem?_getD, List.getElem?_map, List.getElem?_range halen]
    exact hstep v hl.2
  refine ⟨hlevel, fun hidx v hvV => ?_⟩
  by_cases hl : c.V - c.lset ≤ v
  · exact hlevel v ⟨hl, hvV⟩
  · have hmi : materialIndex c (view c u' i) = a := by
      rw [← hidx]
      exact materialIndex_congr c _ _ fun k hk hk' => hlevel k ⟨hk', hk⟩
    rw [hmi] at hP hhead
    rw [List.getElem?_map, ha] at hP
    simp only [Option.map_some, Option.some.injEq] at hP
    obtain ⟨q, hq, e⟩ := hhead (by rw [← hP]; simp)
    rw [List.getElem?_map, List.getElem?_range halen] at hq
    simp only [Option.map_some, Option.some.injEq] at hq
    rw [e v (by omega), ← hq, hstep v hvV]

/-- **Away from the other materials a pass is a pass with one material**, on planes: in a cell from which only cells of material `a`
can be seen, none of them isolated, next to no cell in which the indicator of another material is not positive. -/
theorem multi2_deep (Es : List (Option (Env c n))) (F : Fronts) (dx dy : ℝ) (b : Nat → BT) (hb : ∀ k < 4, b k ≠ .other)
    (split : Bool) (threads threads' : Nat) (hT : 0 < threads) (hT' : 0 < threads') (dt : ℝ) (u u' w' : Iter.Mem) (a : Nat) (E : Env c n)
    (ha : Es[a]? = some (some E)) (hv : c.viscous = true) (hE : E.Ok) (hds : ∀ f, E.destress = some f → OneCell c f)
    (x y : Nat) (hx : x < E.nx) (hy : y < E.ny) (hs : split = false → SettlesAt2 E b dt u x y)
    (hown : ∀ j < E.nx * E.ny, Seen2 E b x y j → materialIndex c (view c u j) = a ∧ F.φ a j ≤ 0 ∧ ¬ Fill.Isolated [E.nx, E.ny] (F.φ a) j)
    (hoth : ∀ m ≠ a, ∀ E', Es[m]? = some (some E') → ∀ j, j = cell x y E.ny ∨ Fill.Adj [E.nx, E.ny] (cell x y E.ny) j → 0 < F.φ m j)
    (hm : MovesMulti2 Es F E.nx E.ny dx dy b false split threads dt u u') (hw : MovesPlane E b false split threads' dt u w') :
    let i := cell x y E.ny
    (∀ v, IsLevel c v → u' (i * c.V + v) = w' (i * c.V + v)) ∧
    (materialIndex c (view c w' i) = a → ∀ v < c.V, u' (i * c.V + v) = w' (i * c.V + v)) := by
  intro i
  obtain ⟨g, g', mk, hfill, hvac, hmake⟩ := hm
  have hi : i < E.nx * E.ny := cell_lt hx hy
  obtain ⟨hfa, hga⟩ := hfill a E ha
  have hself := seen2_near E hE b x y x y hx hy (by omega) (by omega) (by omega) (by omega)
  have hown' : ∀ j < E.nx * E.ny, Seen2 E b x y j → materialIndex c (view c u j) = a ∧ Fill.Kept [E.nx, E.ny] (F.φ a) j :=
    fun j hj hs => ⟨(hown j hj hs).1, (hown j hj hs).2.1, fun _ => (hown j hj hs).2.2⟩
  have hka : mk a i = true := (fills2_mask F E.nx E.ny dx dy _ a u (g a) (mk a) hfa i hi).1 (hown' i hi hself).2
  refine make_u_one Es _ g' mk u u' hmake a E ha i hi w' ?_ hka ?_
  · intro v hvV
    refine (masked2_local E hv hE hds b hb split threads' threads hT' hT (fun _ => true) (mk a) dt u w' (g a) (g' a) x y hx hy hs rfl hka
      (fun j hj z hz => ?_) hw hga v hvV).symm
    have hj' := seen2_lt E hE b x y j hx hy hj
    exact ((fills2_keeps F E.nx E.ny dx dy _ a u (g a) (mk a) hfa j hj').2 (hown' j hj' hj).1 (hown' j hj' hj).2 z hz).symm
  · intro m hm hne
    cases hc : Es[m]? with
    | none => rw [List.getElem?_eq_none_iff] at hc; omega
    | some o =>
      cases o with
      | none => exact hvac m hc i
      | some E' => exact (fills2_mask F E.nx E.ny dx dy _ m u (g m) (mk m) (hfill m E' hc).1 i hi).2 (hoth m hne E' hc)

/-! ### First order -/

/-- What the step of material `m` needs around a cell `(x, y)` in which it is selected, on its own grid: positive densities, source
terms that give numbers or predictors that come to an end, and no wave that crosses more than parts `a₁` and `a₂` of a cell. -/
def Clear2 (E : Env c 1) (F : Fronts) (dx dy : ℝ) (nmat m : Nat) (b : Nat → BT) (split : Bool) (a₁ a₂ dt : ℝ) (u : Iter.Mem) (x y : Nat) :
    Prop :=
  ∀ g mk, Fills2 c F E.nx E.ny dx dy nmat m u g mk → mk (cell x y E.ny) = true →
    (∀ j < E.nx * E.ny, Seen2 E b x y j → 0 < g (j * c.V)) ∧ RunsAt2 E b split mk dt g x y ∧
      ∀ q, StateAt2 E b split dt g x y q → dt * speed c E.P q 0 ≤ a₁ * E.dx ∧ dt * speed c E.P q 1 ≤ a₂ * E.dy

/-- **In first order no pass with several materials takes a level set out of the range it had**, on planes. -/
theorem multi2_level (Es : List (Option (Env c 1))) (F : Fronts) (nx ny : Nat) (dx dy : ℝ) (b : Nat → BT) (hb' : ∀ k < 4, b k ≠ .other)
    (nc split : Bool) (threads : Nat) (hT : 0 < threads) (dt : ℝ) (hdt : 0 ≤ dt) (u u' : Iter.Mem) (hv : c.viscous = true)
    (hEs : ∀ (m : Nat) (E : Env c 1), Es[m]? = some (some E) → ∃ W undef it tol, E.Ok ∧ E.Explicit W undef it tol ∧ E.fl = rusanov c E.P ∧
      0 < E.dx ∧ 0 < E.dy ∧ E.nx = nx ∧ E.ny = ny ∧ (∀ f, E.destress = some f → ∀ q k, k = 0 ∨ 14 ≤ k → f q k = q k) ∧
      (c.multi = true ∨ ¬ E.P.reaction > -1)) (a₁ a₂ : ℝ) (h12 : a₁ + a₂ ≤ 1 / 2)
    (hclear : ∀ (m : Nat) (E : Env c 1), Es[m]? = some (some E) → ∀ x < nx, ∀ y < ny, Clear2 E F dx dy Es.length m b split a₁ a₂ dt u x y)
    (hm : MovesMulti2 Es F nx ny dx dy b nc split threads dt u u') (v : Nat) (hl : IsLevel c v) (lo hi : ℝ)
    (hb : Between c (nx * ny) v lo hi u) : Between c (nx * ny) v lo hi u' := by
  obtain ⟨g, g', mk, hfill, hvac, hmake⟩ := hm
  intro i hi'
  obtain ⟨hlev, -⟩ := make_u_spec c (nx * ny) _ _ _ u u' hmake i hi'
  rw [hlev v hl.1 hl.2]
  simp only
  set act := (Finset.range ((List.range Es.length).map g').length).filter fun m =>
    (((List.range Es.length).map mk).getD m fun _ => false) i = true with hact
  split_ifs with hc
  · exact hb i hi'
  · have hpos : (0 : ℝ) < act.card := by exact_mod_cast Nat.pos_of_ne_zero hc
    have key : ∀ m ∈ act, lo ≤ ((List.range Es.length).map g').getD m (fun _ => 0) (i * c.V + v) ∧
        ((List.range Es.length).map g').getD m (fun _ => 0) (i * c.V + v) ≤ hi := by
      intro m hm
      simp only [hact, List.length_map, List.length_range, Finset.mem_filter, Finset.mem_range] at hm
      obtain ⟨hlen, hk⟩ := hm
      rw [List.getD_eq_getElem?_getD, List.getElem?_map, List.getElem?_range hlen] at hk ⊢
      simp only [Option.map_some, Option.getD_some] at hk ⊢
      cases hE' : Es[m]? with
      | none => rw [List.getElem?_eq_none_iff] at hE'; omega
      | some o =>
        cases o with
        | none => rw [hvac m hE' i] at hk; exact absurd hk (by simp)
        | some E =>
          obtain ⟨W, undef, it, tol, hE, hX, hfl, hdx, hdy, rfl, rfl, hds, hr⟩ := hEs m E hE'
          have hny : 0 < E.ny := Nat.pos_of_ne_zero fun h => by rw [h, Nat.mul_zero] at hi'; omega
          obtain ⟨x, y, hx, hy, rfl⟩ : ∃ x y, x < E.nx ∧ y < E.ny ∧ i = cell x y E.ny :=
            ⟨i / E.ny, i % E.ny, Nat.div_lt_of_lt_mul (by rwa [Nat.mul_comm]), Nat.mod_lt _ hny, by
              unfold cell; rw [Nat.mul_comm]; exact (Nat.div_add_mod i E.ny).symm⟩
          obtain ⟨hf, hg⟩ := hfill m E hE'
          obtain ⟨s1, s2, s3⟩ := hclear m E hE' x hx y hy (g m) (mk m) hf hk
          refine masked2_level E W undef it tol hv hE hX hfl hds hr b hb' nc split threads hT (mk m) dt hdt hdx hdy (g m) (g' m) x y hx hy hk
            s1 s2 a₁ a₂ h12 s3 hg v hl lo hi fun j hj _ => ?_
          rw [(fills2_keeps F E.nx E.ny dx dy _ m u (g m) (mk m) hf j hj).1 v hl]
          exact hb j hj
    constructor
    · rw [le_div_iff₀ hpos, mul_comm, ← nsmul_eq_mul]
      exact Finset.card_nsmul_le_sum _ _ _ fun m hm => (key m hm).1
    · rw [div_le_iff₀ hpos, mul_comm hi, ← nsmul_eq_mul]
      exact Finset.sum_le_card_nsmul _ _ _ fun m hm => (key m hm).2

/-- **In first order no pass with several materials empties a cell**, on planes: a cell has a positive density afterwards if the
material it then belongs to was selected there, that is, if the cell was inside it or next to a cell that was, and that was not
isolated. -/
theorem multi2_dense (Es : List (Option (Env c 1))) (F : Fronts) (dx dy : ℝ) (b : Nat → BT) (hb' : ∀ k < 4, b k ≠ .other)
    (nc split : Bool) (threads : Nat) (hT : 0 < threads) (dt : ℝ) (hdt : 0 ≤ dt) (u u' : Iter.Mem) (hv : c.viscous = true) (a : Nat)
    (E : Env c 1) (ha : Es[a]? = some (some E)) (W : Weno.Setup 1) (undef : ℝ) (it : Nat) (tol : ℝ) (hE : E.Ok) (hX : E.Explicit W undef it tol)
    (hfl : E.fl = rusanov c E.P) (hdx : 0 < E.dx) (hdy : 0 < E.dy) (hds : ∀ f, E.destress = some f → ∀ q k, k = 0 ∨ 14 ≤ k → f q k = q k)
    (x y : Nat) (hx : x < E.nx) (hy : y < E.ny) (a₁ a₂ : ℝ) (h12 : a₁ + a₂ < 1)
    (hclear : Clear2 E F dx dy Es.length a b split a₁ a₂ dt u x y)
    (hnear : (F.φ a (cell x y E.ny) ≤ 0 ∧ ¬ Fill.Isolated [E.nx, E.ny] (F.φ a) (cell x y E.ny)) ∨
      (0 < F.φ a (cell x y E.ny) ∧ ∃ j, Fill.Adj [E.nx, E.ny] (cell x y E.ny) j ∧ F.φ a j ≤ 0 ∧ ¬ Fill.Isolated [E.nx, E.ny] (F.φ a) j))
    (hm : MovesMulti2 Es F E.nx E.ny dx dy b nc split threads dt u u')
    (hidx : materialIndex c (view c u' (cell x y E.ny)) = a) : 0 < u' (cell x y E.ny * c.V) := by
  obtain ⟨g, g', mk, hfill, hvac, hmake⟩ := hm
  have hV := Iter.V_ge c hv
  have hlV := lset_le c
  have hi := cell_lt hx hy
  have halen : a < Es.length := (List.getElem?_eq_some_iff.1 ha).1
  obtain ⟨hf, hg⟩ := hfill a E ha
  have hk : mk a (cell x y E.ny) = true := by
    obtain ⟨grid, hgc, -⟩ := hf
    refine (Fill.ghost_mask c [E.nx, E.ny] (Or.inr rfl) [dx, dy] a _ _ _ _ _ _ _ _ _ hgc _ (by simpa using hi)).2 ?_
    rcases hnear with ⟨h1, h2⟩ | ⟨h1, j, hj, h2, h3⟩
    · exact Or.inl ⟨h1, fun _ => h2⟩
    · exact Or.inr ⟨h1, j, hj, h2, fun _ => h3⟩
  obtain ⟨s1, s2, s3⟩ := hclear (g a) (mk a) hf hk
  have hd := masked2_dense E W undef it tol hv hE hX hfl hds b hb' nc split threads hT (mk a) dt hdt hdx hdy (g a) (g' a) x y hx hy hk s1 s2
    (a₁ + (1 - a₁ - a₂) / 2) (a₂ + (1 - a₁ - a₂) / 2) (by linarith)
    (fun q hq => ⟨lt_of_le_of_lt (s3 q hq).1 (by nlinarith), lt_of_le_of_lt (s3 q hq).2 (by nlinarith)⟩) hg
  obtain ⟨-, P, hP, -, hhead⟩ := make_u_spec c (E.nx * E.ny) _ _ _ u u' hmake _ hi
  rw [hidx] at hP hhead
  rw [List.getElem?_map, ha] at hP
  simp only [Option.map_some, Option.some.injEq] at hP
  obtain ⟨q, hq, e⟩ := hhead (by rw [← hP]; simp)
  rw [List.getElem?_map, List.getElem?_range halen] at hq
  simp only [Option.map_some, Option.some.injEq] at hq
  have := e 0 (by omega)
  rw [Nat.add_zero] at this
  rw [this, ← hq]
  exact hd

/-! ### Two materials on a plane -/

/-- The split stepper runs on every plane, for every mask. -/
theorem movesMasked2_exists (E : Env c n) (hV : 0 < c.V) (hE : E.Ok) (bt : Nat → BT) (hb : ∀ k < 4, bt k ≠ .other) (nc : Bool) (threads : Nat)
    (mk : Nat → Bool) (dt : ℝ) (u : Iter.Mem) : ∃ u', MovesMasked2 E bt nc true threads mk dt u u' := by
  obtain ⟨m', hm, -⟩ := Grid.boundaries_2d ⟨n, E.destress⟩ E.nx E.ny (bt 0) (bt 1) (bt 2) (bt 3) (memOf c u fun _ _ => 0)
    hE.wide.1 hE.wide.2 (hb 0 (by omega)) (hb 1 (by omega)) (hb 2 (by omega)) (hb 3 (by omega))
  obtain ⟨l, hl⟩ := schedule_exists threads (splitWorker2 E.coef nc (E.ode dt) E.half (E.mid2 dt) E.block
    (kern2 E.sys E.T E.fl (fun _ => dt) E.dx E.dy false) (fun k v => m' (true, k) v) E.nx E.ny
    (Grid.extendMask2 E.nx E.ny mk fun _ => false) threads)
  refine ⟨memOfCells c hV (apply (withOde (E.ode dt) (kern2 E.sys E.T E.fl (fun _ => dt) E.dx E.dy false).app) (l.map Prod.snd)
    (cellsOf c u)), fun k v => m' (true, k) v, fun _ => false, ⟨fun _ _ => 0, m', hm, fun _ _ => rfl⟩, ?_⟩
  simp only [if_true]
  exact ⟨l, hl, fun i _ v => memOfCells_get hV _ i v⟩

/-- The predictor scheme runs on every plane, for every mask. -/
theorem movesMasked2_ader_exists (E : Env c n) (hV : 0 < c.V) (hE : E.Ok) (bt : Nat → BT) (hb : ∀ k < 4, bt k ≠ .other) (nc : Bool)
    (threads : Nat) (mk : Nat → Bool) (dt : ℝ) (u : Iter.Mem) : ∃ u', MovesMasked2 E bt nc false threads mk dt u u' := by
  obtain ⟨m', hm, -⟩ := Grid.boundaries_2d ⟨n, E.destress⟩ E.nx E.ny (bt 0) (bt 1) (bt 2) (bt 3) (memOf c u fun _ _ => 0)
    hE.wide.1 hE.wide.2 (hb 0 (by omega)) (hb 1 (by omega)) (hb 2 (by omega)) (hb 3 (by omega))
  obtain ⟨l, hl⟩ := schedule_exists threads fun w => aderWorker2 E.coef nc (E.pred2 dt) (kern2 E.sys E.T E.fl (E.wt dt) E.dx E.dy true)
    (fun k v => m' (true, k) v) E.nx E.ny (Grid.extendMask2 E.nx E.ny mk fun _ => false) threads (fun _ _ _ _ => 0) w
  refine ⟨memOfCells c hV (apply (kern2 E.sys E.T E.fl (E.wt dt) E.dx E.dy true).app (l.map Prod.snd) (cellsOf c u)),
    fun k v => m' (true, k) v, fun _ => false, ⟨fun _ _ => 0, m', hm, fun _ _ => rfl⟩, ?_⟩
  simp only [Bool.false_eq_true, if_false]
  exact ⟨l, fun _ _ _ _ _ => 0, hl, fun i _ v => memOfCells_get hV _ i v⟩

/-- A plane with material 0 up to `x0` along the first axis and material 1 behind it. -/
def planeFronts (nx ny : Nat) (dx dy x0 : ℝ) (junk : Nat → Nat → ℝ) (star : Nat → St → St → Nat → List ℝ → St) (order : Nat → List Nat)
    (layers : Nat) : Fronts where
  φ m i := if m = 0 then (((i / ny : Nat) : ℝ) + 1 / 2) * dx - x0 else x0 - (((i / ny : Nat) : ℝ) + 1 / 2) * dx
  slope m := Fill.slopes [nx, ny] [dx, dy] junk
    (fun i => if m = 0 then (((i / ny : Nat) : ℝ) + 1 / 2) * dx - x0 else x0 - (((i / ny : Nat) : ℝ) + 1 / 2) * dx)
  star := star
  order := order
  layers := layers

section two

variable (hc : c.lset = 1) (nx ny : Nat) (hny : 3 ≤ ny) (dx dy x0 : ℝ) (hdx : 0 < dx) (hdy : 0 < dy) (junk : Nat → Nat → ℝ)
  (star : Nat → St → St → Nat → List ℝ → St) (order : Nat → List Nat) (ho : ∀ m, (order m).Perm (List.range (nx * ny)))
  (layers k : Nat) (hk : 2 ≤ k) (hkx : k + 1 < nx)
  (h1 : ((k : ℝ) - 1 / 2) * dx < x0) (h2 : x0 < ((k : ℝ) + 1 / 2) * dx) (u : Iter.Mem)
  (hu : ∀ x < nx, ∀ y < ny, u (cell x y ny * c.V + (c.V - 1)) = ((x : ℝ) + 1 / 2) * dx - x0)

include hc hdx h1 h2 hu in
theorem plane_material (x y : Nat) (hx : x < nx) (hy : y < ny) : materialIndex c (view c u (cell x y ny)) = if x < k then 0 else 1 := by
  rw [two_index hc]
  unfold view
  rw [hu x hx y hy]
  obtain ⟨s1, s2⟩ := two_side dx x0 hdx k h1 h2 x
  by_cases h : x < k
  · rw [if_pos h, if_neg (not_le.2 (s1.2 h))]
  · rw [if_neg h, if_pos (s2.2 (not_lt.1 h)).le]

include hc hny hdx hdy ho hk hkx h1 h2 hu

/-- `fill_ghost_cells` fills the grids of both materials: next to the surface there are star states, elsewhere the field. -/
theorem plane_fills (m : Nat) (hm : m < 2) : ∃ g mk, Fills2 c (planeFronts nx ny dx dy x0 junk star order layers) nx ny dx dy 2 m u g mk ∧
    ∀ x < nx, ∀ y < ny, ∀ v < c.V - 1, g (cell x y ny * c.V + v) =
      if m = 0 then if k ≤ x ∧ x ≤ k + layers then
          star 0 (view c u (cell (k - 1) y ny)) (view c u (cell (if (k : ℝ) * dx ≤ x0 then k + 1 else k) y ny)) 1 [1, 0] v
          else u (cell x y ny * c.V + v)
      else if x + 1 ≤ k ∧ k ≤ x + 1 + layers then
          star 1 (view c u (cell k y ny)) (view c u (cell (if x0 < (k : ℝ) * dx then k - 2 else k - 1) y ny)) 0 [-1, 0] v
          else u (cell x y ny * c.V + v) := by
  have hmat := plane_material hc nx ny dx x0 hdx k h1 h2 u hu
  have hl1 := lset_le c
  have hV : 0 < c.V := by omega
  have hget : ∀ (grid : Nat → St), ∀ a, ∀ v < c.V, memOfCells c hV (fun i w => grid i w) (a * c.V + v) = grid a v :=
    fun grid a v hv => memOfCells_get hV _ a ⟨v, hv⟩
  have hdiv : ∀ x y, y < ny → (x * ny + y) / ny = x := fun x y hy => (cell_div ny x y hy).1
  rcases Nat.eq_zero_or_pos m with rfl | hm0
  · obtain ⟨grid, mk, hg, h⟩ := Fill.ghost_plane false c nx ny (by omega) hny dx dy x0 hdx hdy 0 2 layers (star 0) junk
      (fun i => (((i / ny : Nat) : ℝ) + 1 / 2) * dx - x0) (order 0) (by simpa using ho 0) (view c u) k (by omega) hkx
      (fun p hp q hq => by simp only [Fill.at2, Bool.false_eq_true, if_false, hdiv p q hq]) h1.le h2
      (fun p hp q hq => by
        have := hmat p q hp hq
        unfold cell at this
        simp only [Fill.at2, Bool.false_eq_true, if_false, this]; split_ifs <;> simp_all)
      (fun p hp q hq => by
        have := hmat p q hp hq
        unfold cell at this
        simp only [Fill.at2, Bool.false_eq_true, if_false, this]; split_ifs <;> omega)
    refine ⟨memOfCells c hV fun i w => grid i w, mk, ⟨grid, ?_, fun a _ v hv => hget grid a v hv⟩, fun x hx y hy v hv => ?_⟩
    · rw [← hg]; rfl
    · have hR : materialIndex c (view c u (cell (if (k : ℝ) * dx ≤ x0 then k + 1 else k) y ny)) = 1 := by
        rw [hmat _ y (by split_ifs <;> omega) hy, if_neg (by split_ifs <;> omega)]
      have := (h x hx y hy).1
      simp only [Fill.at2, Bool.false_eq_true, if_false] at this
      rw [hget grid _ v (by omega), if_pos rfl]
      unfold cell at hR ⊢
      rw [this]
      by_cases h' : k ≤ x ∧ x ≤ k + layers
      · rw [if_pos h', if_pos h']
        simp only [show v < c.V - c.lset by omega, if_true]
        rw [hR]
      · rw [if_neg h', if_neg h']
        rfl
  · obtain rfl : m = 1 := by omega
    obtain ⟨q, rfl⟩ : ∃ q, k = q + 1 := ⟨k - 1, by omega⟩
    push_cast at h1 h2
    obtain ⟨grid, mk, hg, h⟩ := Fill.ghost_plane_high false c nx ny (by omega) hny dx dy x0 hdx hdy 1 2 layers (star 1) junk
      (fun i => x0 - (((i / ny : Nat) : ℝ) + 1 / 2) * dx) (order 1) (by simpa using ho 1) (view c u) q (by omega) (by omega)
      (fun p hp q hq => by simp only [Fill.at2, Bool.false_eq_true, if_false, hdiv p q hq]) (by linarith) (by linarith)
      (fun p hp q hq => by
        have := hmat p q hp hq
        unfold cell at this
        simp only [Fill.at2, Bool.false_eq_true, if_false, this]; split_ifs <;> simp <;> omega)
      (fun p hp q hq => by
        have := hmat p q hp hq
        unfold cell at this
        simp only [Fill.at2, Bool.false_eq_true, if_false, this]; split_ifs <;> omega)
    refine ⟨memOfCells c hV fun i w => grid i w, mk, ⟨grid, ?_, fun a _ v hv => hget grid a v hv⟩, fun x hx y hy v hv => ?_⟩
    · rw [← hg]; rfl
    · have hR : materialIndex c (view c u (cell (if x0 < ((q : ℝ) + 1) * dx then q - 1 else q) y ny)) = 0 := by
        rw [hmat _ y (by split_ifs <;> omega) hy, if_pos (by split_ifs <;> omega)]
      have := (h x hx y hy).1
      simp only [Fill.at2, Bool.false_eq_true, if_false] at this
      rw [hget grid _ v (by omega), if_neg one_ne_zero]
      unfold cell at hR ⊢
      rw [this]
      simp only [Nat.add_le_add_iff_right, Nat.add_sub_cancel, Nat.reduceSubDiff, Nat.cast_add, Nat.cast_one,
        show q + 1 ≤ x + 1 + layers ↔ q ≤ x + layers by omega]
      by_cases h' : x ≤ q ∧ q ≤ x + layers
      · rw [if_pos h', if_pos h']
        simp only [show v < c.V - c.lset by omega, if_true]
        rw [hR]
      · rw [if_neg h', if_neg h']
        rfl

/-- **Two materials on a plane**: the pass exists with `split_stepper`, and in every cell from which only one of the materials can be
seen it is the pass of that material, whatever the star states are. -/
theorem two_plane (E0 E1 : Env c n) (hv : c.viscous = true) (hE0 : E0.Ok) (hE1 : E1.Ok) (hn0 : E0.nx = nx ∧ E0.ny = ny)
    (hn1 : E1.nx = nx ∧ E1.ny = ny)
    (hds0 : ∀ f, E0.destress = some f → OneCell c f) (hds1 : ∀ f, E1.destress = some f → OneCell c f) (b : Nat → BT)
    (hb : ∀ k < 4, b k ≠ .other) (threads : Nat) (hT : 0 < threads) (dt : ℝ) :
    let F := planeFronts nx ny dx dy x0 junk star order layers
    (∃ u', MovesMulti2 [some E0, some E1] F nx ny dx dy b false true threads dt u u') ∧
    ∀ split u', MovesMulti2 [some E0, some E1] F nx ny dx dy b false split threads dt u u' → ∀ x < nx, ∀ y < ny,
      let i := cell x y ny
      (∀ w', MovesPlane E0 b false split threads dt u w' → (split = false → SettlesAt2 E0 b dt u x y) →
        (∀ j, Seen2 E0 b x y j → j < k * ny) →
        u' (i * c.V + (c.V - 1)) = w' (i * c.V + (c.V - 1)) ∧
        (w' (i * c.V + (c.V - 1)) < 0 → ∀ v < c.V, u' (i * c.V + v) = w' (i * c.V + v))) ∧
      (∀ w', MovesPlane E1 b false split threads dt u w' → (split = false → SettlesAt2 E1 b dt u x y) →
        (∀ j, Seen2 E1 b x y j → k * ny ≤ j) →
        u' (i * c.V + (c.V - 1)) = w' (i * c.V + (c.V - 1)) ∧
        (0 ≤ w' (i * c.V + (c.V - 1)) → ∀ v < c.V, u' (i * c.V + v) = w' (i * c.V + v))) := by
  intro F
  have hmat := plane_material hc nx ny dx x0 hdx k h1 h2 u hu
  have hl1 := lset_le c
  have hV : 0 < c.V := by omega
  have hlev : IsLevel c (c.V - 1) := ⟨by omega, by omega⟩
  have hside := two_side dx x0 hdx k h1 h2
  have hφ0 : ∀ x y, y < ny → F.φ 0 (cell x y ny) = ((x : ℝ) + 1 / 2) * dx - x0 := fun x y hy => by
    simp only [F, planeFronts, if_true, (cell_div ny x y hy).1]
  have hφ1 : ∀ m, m ≠ 0 → ∀ x y, y < ny → F.φ m (cell x y ny) = x0 - ((x : ℝ) + 1 / 2) * dx := fun m hm x y hy => by
    simp only [F, planeFronts, if_neg hm, (cell_div ny x y hy).1]
  have hsurj : ∀ j < nx * ny, ∃ x y, x < nx ∧ y < ny ∧ j = cell x y ny := fun j hj =>
    ⟨j / ny, j % ny, Nat.div_lt_of_lt_mul (by rwa [Nat.mul_comm]), Nat.mod_lt _ (by omega), by
      unfold cell; rw [Nat.mul_comm]; exact (Nat.div_add_mod j ny).symm⟩
  -- a cell has a neighbour in its row
  have hrow : ∀ x y, x < nx → y < ny → ∃ y', y' < ny ∧ Fill.Adj [nx, ny] (cell x y ny) (cell x y' ny) := fun x y hx hy => by
    by_cases h : y + 1 < ny
    · exact ⟨y + 1, h, x, y, x, y + 1, hx, hy, hx, h, rfl, rfl, by omega⟩
    · exact ⟨y - 1, by omega, x, y, x, y - 1, hx, hy, hx, by omega, rfl, rfl, by omega⟩
  have hlt : ∀ x y, y < ny → (cell x y ny < k * ny ↔ x < k) := fun x y hy => by
    unfold cell
    constructor
    · intro h
      by_contra hc
      have := Nat.mul_le_mul_right ny (not_lt.1 hc)
      omega
    · intro h
      have : (x + 1) * ny ≤ k * ny := Nat.mul_le_mul_right ny h
      rw [Nat.add_mul, Nat.one_mul] at this
      omega
  -- neighbours are seen
  have hadj : ∀ (E : Env c n), E.Ok → E.nx = nx → E.ny = ny → ∀ x y, x < nx → y < ny → ∀ j,
      j = cell x y ny ∨ Fill.Adj [nx, ny] (cell x y ny) j → ∃ x' y', x' < nx ∧ y' < ny ∧ j = cell x' y' ny ∧ Seen2 E b x y j := by
    rintro E hE rfl rfl x y hx hy j (rfl | hj)
    · exact ⟨x, y, hx, hy, rfl, seen2_near E hE b x y x y hx hy (by omega) (by omega) (by omega) (by omega)⟩
    · obtain ⟨x1, y1, x2, y2, hx1, hy1, hx2, hy2, e, rfl, h⟩ := hj
      obtain ⟨rfl, rfl⟩ := Fill.index_inj hy hy1 e
      exact ⟨x2, y2, hx2, hy2, rfl, seen2_near E hE b x y x2 y2 hx2 hy2 (by omega) (by omega) (by omega) (by omega)⟩
  constructor
  · have hfill := plane_fills hc nx ny hny dx dy x0 hdx hdy junk star order ho layers k hk hkx h1 h2 u hu
    obtain ⟨g0, mk0, hf0, -⟩ := hfill 0 (by omega)
    obtain ⟨g1, mk1, hf1, -⟩ := hfill 1 (by omega)
    obtain ⟨g0', hg0⟩ := movesMasked2_exists E0 hV hE0 b hb false threads mk0 dt g0
    obtain ⟨g1', hg1⟩ := movesMasked2_exists E1 hV hE1 b hb false threads mk1 dt g1
    obtain ⟨u', hu'⟩ := make_u_defined c (nx * ny) ((List.range 2).map fun m => if m = 0 then g0' else g1')
      ((List.range 2).map fun m => if m = 0 then mk0 else mk1) ([some E0, some E1].map (Option.map Env.P)) u (by simp [hc]) (by simp)
    refine ⟨u', fun m => if m = 0 then g0 else g1, _, _, fun m E hm => ?_, fun m hm => ?_, hu'⟩
    · match m, hm with
      | 0, hm =>
        obtain rfl : E0 = E := by simpa using hm
        exact ⟨hf0, hg0⟩
      | 1, hm =>
        obtain rfl : E1 = E := by simpa using hm
        exact ⟨hf1, hg1⟩
    · match m, hm with
      | 0, hm => simp at hm
      | 1, hm => simp at hm
  · intro split u' hm x hx y hy i
    refine ⟨fun w' hw hs hsee => ?_, fun w' hw hs hsee => ?_⟩
    · have hadj0 := hadj E0 hE0 hn0.1 hn0.2 x y hx hy
      obtain ⟨rfl, rfl⟩ := hn0
      obtain ⟨d1, d2⟩ := multi2_deep [some E0, some E1] F dx dy b hb split threads threads hT hT dt u u' w' 0 E0 rfl hv hE0 hds0 x y hx hy hs
        (fun j hj hj' => by
          obtain ⟨x', y', hx', hy', rfl⟩ := hsurj j hj
          have hk' := (hlt x' y' hy').1 (hsee _ hj')
          refine ⟨by rw [hmat x' y' hx' hy', if_pos hk'], by rw [hφ0 x' y' hy']; exact ((hside x').1.2 hk').le, fun hiso => ?_⟩
          obtain ⟨y2, hy2, ha⟩ := hrow x' y' hx' hy'
          have := hiso.2 _ ha
          rw [hφ0 x' y2 hy2] at this
          exact absurd this (not_lt.2 ((hside x').1.2 hk').le))
        (fun m hm E' hE' j hj => by
          obtain ⟨x', y', hx', hy', rfl, hsn⟩ := hadj0 j hj
          have := (hside x').1.2 ((hlt x' y' hy').1 (hsee _ hsn))
          rw [hφ1 m hm x' y' hy']
          linarith) hm hw
      refine ⟨d1 _ hlev, fun h => d2 ?_⟩
      rw [two_index hc]
      exact if_neg (not_le.2 h)
    · have hadj1 := hadj E1 hE1 hn1.1 hn1.2 x y hx hy
      obtain ⟨rfl, rfl⟩ := hn1
      have hge : ∀ x' y', y' < E1.ny → Seen2 E1 b x y (cell x' y' E1.ny) → k ≤ x' := fun x' y' hy' hj' => by
        have := hsee _ hj'
        rw [← not_lt, hlt x' y' hy'] at this
        omega
      obtain ⟨d1, d2⟩ := multi2_deep [some E0, some E1] F dx dy b hb split threads threads hT hT dt u u' w' 1 E1 rfl hv hE1 hds1 x y hx hy hs
        (fun j hj hj' => by
          obtain ⟨x', y', hx', hy', rfl⟩ := hsurj j hj
          have hk' := hge x' y' hy' hj'
          have hp := (hside x').2.2 hk'
          refine ⟨by rw [hmat x' y' hx' hy', if_neg (by omega)], by rw [hφ1 1 one_ne_zero x' y' hy']; linarith, fun hiso => ?_⟩
          obtain ⟨y2, hy2, ha⟩ := hrow x' y' hx' hy'
          have := hiso.2 _ ha
          rw [hφ1 1 one_ne_zero x' y2 hy2] at this
          linarith)
        (fun m hm E' hE' j hj => by
          obtain ⟨x', y', hx', hy', rfl, hsn⟩ := hadj1 j hj
          match m, hE' with
          | 0, hE' =>
            rw [hφ0 x' y' hy']
            exact (hside x').2.2 (hge x' y' hy' hsn)
          | 1, hE' => exact absurd rfl hm) hm hw
      refine ⟨d1 _ hlev, fun h => d2 ?_⟩
      rw [two_index hc]
      exact if_pos h

end two

end

end Verif.Run
