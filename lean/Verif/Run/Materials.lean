import Verif.Run.Masked
import Verif.Run.Column
import Verif.Fill.Line

/-! # Passes with several materials

`LSET > 0` on a line: ghost cells, one step of every material on its own grid, and the field put together again. -/

namespace Verif.Run

open Verif.Sys Verif.Iter Verif.Dg Verif.Fv Verif.Step Verif.Grid Verif.Rot

noncomputable section

variable {c : Sys.Cfg} {n : Nat}

/-- What `fill_ghost_cells` works with, for every material: the results of `material_indicator` and `finite_difference`, the star
states of riemann.cpp with the previous time step, the order in which `fill_boundary_cells` visits the cells, and the number of
layers. -/
structure Fronts where
  φ : Nat → Nat → ℝ
  slope : Nat → Nat → List ℝ
  star : Nat → St → St → Nat → List ℝ → St
  order : Nat → List Nat
  layers : Nat

/-- fill.cpp:349-366 on a line: `g` is the grid of material `m` and `mk` its mask. -/
def Fills (c : Sys.Cfg) (F : Fronts) (nx : Nat) (dx : ℝ) (nmat m : Nat) (u g : Iter.Mem) (mk : Nat → Bool) : Prop :=
  ∃ grid, Fill.ghostCells c [nx] [dx] m nmat F.layers (F.star m) (F.φ m) (F.slope m) (F.order m) (view c u) = some (grid, mk) ∧
    ∀ k < nx, ∀ a < c.V, g (k * c.V + a) = grid k a

/-- iterator.cpp:112-138 for `LSET > 0`, on a line: `u` is the field after `renormalize_levelsets` (fill.cpp:340), `none` in `Es`
is vacuum. -/
def MovesMulti (Es : List (Option (Env c n))) (F : Fronts) (nx : Nat) (dx : ℝ) (b : Nat → BT) (split : Bool) (threads : Nat) (dt : ℝ)
    (u u' : Iter.Mem) : Prop :=
  ∃ (g g' : Nat → Iter.Mem) (mk : Nat → Nat → Bool),
    (∀ m E, Es[m]? = some (some E) → Fills c F nx dx Es.length m u (g m) (mk m) ∧
      MovesMasked E b split threads (mk m) dt (g m) (g' m)) ∧
    (∀ m, Es[m]? = some none → ∀ i, mk m i = false) ∧
    makeU c nx ((List.range Es.length).map g') ((List.range Es.length).map mk) (Es.map (Option.map Env.P)) u = some u'

/-- The grid of a material holds the level sets of the field, and the field itself inside the material. -/
theorem fills_keeps (F : Fronts) (nx : Nat) (dx : ℝ) (nmat m : Nat) (u g : Iter.Mem) (mk : Nat → Bool)
    (h : Fills c F nx dx nmat m u g mk) (j : Nat) (hj : j < nx) :
    (∀ v, IsLevel c v → g (j * c.V + v) = u (j * c.V + v)) ∧
    (materialIndex c (view c u j) = m → F.φ m j ≤ 0 → ∀ v < c.V, g (j * c.V + v) = u (j * c.V + v)) := by
  obtain ⟨grid, hg, e⟩ := h
  obtain ⟨h1, h2⟩ := Fill.ghost_keeps c [nx] (Or.inl rfl) [dx] m nmat _ _ _ _ _ _ _ _ hg
  refine ⟨fun v hl => ?_, fun hm hφ v hv => ?_⟩
  · rw [e j hj v hl.2, h1 j v hl.1]
    rfl
  · rw [e j hj v hv, h2 j (by simpa using hj) hm ⟨hφ, fun h => by simp at h⟩]
    rfl

theorem fills_mask (F : Fronts) (nx : Nat) (dx : ℝ) (nmat m : Nat) (u g : Iter.Mem) (mk : Nat → Bool)
    (h : Fills c F nx dx nmat m u g mk) (j : Nat) (hj : j < nx) :
    (F.φ m j ≤ 0 → mk j = true) ∧ ((∀ a < nx, j ≤ a + 1 → a ≤ j + 1 → 0 < F.φ m a) → mk j = false) := by
  obtain ⟨grid, hg, -⟩ := h
  have := Fill.ghost_mask c [nx] (Or.inl rfl) [dx] m nmat _ _ _ _ _ _ _ _ hg j (by simpa using hj)
  refine ⟨fun h => this.2 (Or.inl ⟨h, fun h => by simp at h⟩), fun h => ?_⟩
  rw [← Bool.not_eq_true]
  intro hc
  rcases this.1 hc with ⟨h', -⟩ | ⟨-, a, ha, h', -⟩
  · exact absurd h' (not_le.2 (h j hj (by omega) (by omega)))
  · obtain ⟨-, ha, hr⟩ := ha
    exact absurd h' (not_le.2 (h a ha (by omega) (by omega)))

/-- **Away from the other materials a pass is a pass with one material**: in a cell from which only cells of material `a` can be
seen, next to no cell in which the indicator of another material is not positive, the pass does what the step of that material
alone would do to the whole field.  The level sets get the values of that step in any case; the other variables do if the cell
still belongs to material `a` afterwards. -/
theorem multi_deep (Es : List (Option (Env c n))) (F : Fronts) (dx : ℝ) (b : Nat → BT) (h0 : b 0 ≠ .other) (h1 : b 1 ≠ .other)
    (split : Bool) (threads threads' : Nat) (hT : 0 < threads) (hT' : 0 < threads') (dt : ℝ) (u u' w' : Iter.Mem) (a : Nat) (E : Env c n)
    (ha : Es[a]? = some (some E)) (hv : c.viscous = true) (hE : E.Ok) (hds : ∀ f, E.destress = some f → OneCell c f)
    (i : Nat) (hi : i < E.nx) (hs : split = false → SettlesAt E b dt u i)
    (hown : ∀ j < E.nx, Seen E b i j → materialIndex c (view c u j) = a ∧ F.φ a j ≤ 0)
    (hoth : ∀ m ≠ a, ∀ E', Es[m]? = some (some E') → ∀ j < E.nx, i ≤ j + 1 → j ≤ i + 1 → 0 < F.φ m j)
    (hm : MovesMulti Es F E.nx dx b split threads dt u u') (hw : MovesLine E b split threads' dt u w') :
    (∀ v, IsLevel c v → u' (i * c.V + v) = w' (i * c.V + v)) ∧
    (materialIndex c (view c w' i) = a → ∀ v < c.V, u' (i * c.V + v) = w' (i * c.V + v)) := by
  obtain ⟨g, g', mk, hfill, hvac, hmake⟩ := hm
  have hn := hE.tab.pos
  obtain ⟨hfa, hga⟩ := hfill a E ha
  have halen : a < Es.length := (List.getElem?_eq_some_iff.1 ha).1
  have hself := seen_near E hE b i i hi (by omega) (by omega)
  have hka : mk a i = true := (fills_mask F E.nx dx _ a u (g a) (mk a) hfa i hi).1 (hown i hi hself).2
  have hseen : ∀ j, Seen E b i j → j < E.nx := by
    rintro j ⟨k, hk, rfl⟩
    exact srcOf_lt hE.wide.1 (by omega) (by omega)
  -- the step of the material
  have hstep : ∀ v < c.V, g' a (i * c.V + v) = w' (i * c.V + v) := fun v hvV =>
    (masked_local E hv hE hds b h0 h1 split threads' threads hT' hT (fun _ => true) (mk a) dt u w' (g a) (g' a) i hi hs rfl hka
      (fun j hj x hx => ((fills_keeps F E.nx dx _ a u (g a) (mk a) hfa j (hseen j hj)).2 (hown j (hseen j hj) hj).1
        (hown j (hseen j hj) hj).2 x hx).symm) hw hga v hvV).symm
  -- no other material is selected
  have hkm : ∀ m < Es.length, m ≠ a → mk m i = false := by
    intro m hm hne
    cases hc : Es[m]? with
    | none => rw [List.getElem?_eq_none_iff] at hc; omega
    | some o =>
      cases o with
      | none => exact hvac m hc i
      | some E' =>
        refine (fills_mask F E.nx dx _ m u (g m) (mk m) (hfill m E' hc).1 i hi).2 ?_
        intro j hj j1 j2
        exact hoth m hne E' hc j hj j1 j2
  obtain ⟨hlev, P, hP, -, hhead⟩ := make_u_spec c E.nx _ _ _ u u' hmake i hi
  have hact : ((Finset.range ((List.range Es.length).map g').length).filter fun m =>
      (((List.range Es.length).map mk).getD m fun _ => false) i = true) = {a} := by
    ext m
    simp only [List.length_map, List.length_range, Finset.mem_filter, Finset.mem_range, Finset.mem_singleton]
    constructor
    · rintro ⟨hm, hk⟩
      by_contra hne
      rw [List.getD_eq_getElem?_getD, List.getElem?_map, List.getElem?_range hm] at hk
      simp only [Option.map_some, Option.getD_some, hkm m hm hne, Bool.false_eq_true] at hk
    · rintro rfl
      refine ⟨halen, ?_⟩
      rw [List.getD_eq_getElem?_getD, List.getElem?_map, List.getElem?_range halen]
      exact hka
  have hlevel : ∀ v, IsLevel c v → u' (i * c.V + v) = w' (i * c.V + v) := by
    intro v hl
    rw [hlev v hl.1 hl.2]
    simp only [hact, Finset.card_singleton, one_ne_zero, if_false, Finset.sum_singleton, Nat.cast_one, div_one]
    rw [List.getD_eq_getElem?_getD, List.getElem?_map, List.getElem?_range halen]
    exact hstep v hl.2
  refine ⟨hlevel, fun hidx v hvV => ?_⟩
  by_cases hl : c.V - c.lset ≤ v
  · exact hlevel v ⟨hl, hvV⟩
  · have hmi : materialIndex c (view c u' i) = a := by
      rw [← hidx]
      exact materialIndex_congr c _ _ fun k hk hk' => hlevel k ⟨hk', hk⟩
    rw [hmi] at hP hhead
    rw [List.getElem?_map, ha] at hP
    simp only [Option.map_some, Option.some.injEq] at hP
    obtain ⟨q, hq, e⟩ := hhead (by rw [← hP]; simp)
    rw [List.getElem?_map, List.getElem?_range halen] at hq
    simp only [Option.map_some, Option.some.injEq] at hq
    rw [e v (by omega), ← hq, hstep v hvV]

/-! ### First order -/

/-- What the step of material `m` needs around a cell `i` in which it is selected, on its own grid: positive densities, source terms
that give numbers or predictors that come to an end, and no wave that crosses more than a part `κ` of a cell. -/
def Clear (E : Env c 1) (F : Fronts) (dx : ℝ) (nmat m : Nat) (b : Nat → BT) (split : Bool) (κ dt : ℝ) (u : Iter.Mem) (i : Nat) : Prop :=
  ∀ g mk, Fills c F E.nx dx nmat m u g mk → mk i = true →
    (∀ j < E.nx, Seen E b i j → 0 < g (j * c.V)) ∧ RunsAt E b split mk dt g i ∧
      ∀ q, StateAt E b split dt g i q → dt * speed c E.P q 0 ≤ κ * E.dx

/-- **In first order no pass with several materials takes a level set out of the range it had**: every material moves the level
sets on its own grid, and `make_u` takes the mean of those that were selected. -/
theorem multi_level (Es : List (Option (Env c 1))) (F : Fronts) (nx : Nat) (dx : ℝ) (b : Nat → BT) (h0 : b 0 ≠ .other) (h1 : b 1 ≠ .other)
    (split : Bool) (threads : Nat) (hT : 0 < threads) (dt : ℝ) (hdt : 0 ≤ dt) (u u' : Iter.Mem) (hv : c.viscous = true)
    (hEs : ∀ (m : Nat) (E : Env c 1), Es[m]? = some (some E) → ∃ W undef it tol, E.Ok ∧ E.Explicit W undef it tol ∧ E.fl = rusanov c E.P ∧ 0 < E.dx ∧
      E.nx = nx ∧ (∀ f, E.destress = some f → ∀ q k, k = 0 ∨ 14 ≤ k → f q k = q k) ∧ (c.multi = true ∨ ¬ E.P.reaction > -1))
    (hclear : ∀ (m : Nat) (E : Env c 1), Es[m]? = some (some E) → ∀ i < nx, Clear E F dx Es.length m b split (1 / 2) dt u i)
    (hm : MovesMulti Es F nx dx b split threads dt u u') (v : Nat) (hl : IsLevel c v) (lo hi : ℝ) (hb : Between c nx v lo hi u) :
    Between c nx v lo hi u' := by
  obtain ⟨g, g', mk, hfill, hvac, hmake⟩ := hm
  intro i hi'
  obtain ⟨hlev, -⟩ := make_u_spec c nx _ _ _ u u' hmake i hi'
  rw [hlev v hl.1 hl.2]
  simp only
  set act := (Finset.range ((List.range Es.length).map g').length).filter fun m =>
    (((List.range Es.length).map mk).getD m fun _ => false) i = true with hact
  split_ifs with hc
  · exact hb i hi'
  · have hpos : (0 : ℝ) < act.card := by exact_mod_cast Nat.pos_of_ne_zero hc
    have key : ∀ m ∈ act, lo ≤ ((List.range Es.length).map g').getD m (fun _ => 0) (i * c.V + v) ∧
        ((List.range Es.length).map g').getD m (fun _ => 0) (i * c.V + v) ≤ hi := by
      intro m hm
      simp only [hact, List.length_map, List.length_range, Finset.mem_filter, Finset.mem_range] at hm
      obtain ⟨hlen, hk⟩ := hm
      rw [List.getD_eq_getElem?_getD, List.getElem?_map, List.getElem?_range hlen] at hk ⊢
      simp only [Option.map_some, Option.getD_some] at hk ⊢
      cases hE' : Es[m]? with
      | none => rw [List.getElem?_eq_none_iff] at hE'; omega
      | some o =>
        cases o with
        | none => rw [hvac m hE' i] at hk; exact absurd hk (by simp)
        | some E =>
          obtain ⟨W, undef, it, tol, hE, hX, hfl, hdx, rfl, hds, hr⟩ := hEs m E hE'
          obtain ⟨hf, hg⟩ := hfill m E hE'
          obtain ⟨s1, s2, s3⟩ := hclear m E hE' i hi' (g m) (mk m) hf hk
          refine masked_level E W undef it tol hv hE hX hfl hds hr b h0 h1 split threads hT (mk m) dt hdt hdx (g m) (g' m) i hi' hk s1 s2 s3 hg
            v hl lo hi fun j hj _ => ?_
          rw [(fills_keeps F E.nx dx _ m u (g m) (mk m) hf j hj).1 v hl]
          exact hb j hj
    constructor
    · rw [le_div_iff₀ hpos, mul_comm, ← nsmul_eq_mul]
      exact Finset.card_nsmul_le_sum _ _ _ fun m hm => (key m hm).1
    · rw [div_le_iff₀ hpos, mul_comm hi, ← nsmul_eq_mul]
      exact Finset.sum_le_card_nsmul _ _ _ fun m hm => (key m hm).2

/-- **In first order no pass with several materials empties a cell**: a cell has a positive density afterwards if the material it
then belongs to was selected there. -/
theorem multi_dense (Es : List (Option (Env c 1))) (F : Fronts) (dx : ℝ) (b : Nat → BT) (h0 : b 0 ≠ .other) (h1 : b 1 ≠ .other)
    (split : Bool) (threads : Nat) (hT : 0 < threads) (dt : ℝ) (hdt : 0 ≤ dt) (u u' : Iter.Mem) (hv : c.viscous = true) (a : Nat)
    (E : Env c 1) (ha : Es[a]? = some (some E)) (W : Weno.Setup 1) (undef : ℝ) (it : Nat) (tol : ℝ) (hE : E.Ok) (hX : E.Explicit W undef it tol)
    (hfl : E.fl = rusanov c E.P) (hdx : 0 < E.dx) (hds : ∀ f, E.destress = some f → ∀ q k, k = 0 ∨ 14 ≤ k → f q k = q k)
    (i : Nat) (hi : i < E.nx) (κ : ℝ) (hκ : κ < 1) (hclear : Clear E F dx Es.length a b split κ dt u i)
    (hnear : ∃ j < E.nx, i ≤ j + 1 ∧ j ≤ i + 1 ∧ F.φ a j ≤ 0)
    (hm : MovesMulti Es F E.nx dx b split threads dt u u') (hidx : materialIndex c (view c u' i) = a) : 0 < u' (i * c.V) := by
  obtain ⟨g, g', mk, hfill, hvac, hmake⟩ := hm
  have hV := Iter.V_ge c hv
  have hlV := lset_le c
  have halen : a < Es.length := (List.getElem?_eq_some_iff.1 ha).1
  obtain ⟨hf, hg⟩ := hfill a E ha
  have hk : mk a i = true := by
    obtain ⟨j, hj, j1, j2, hφ⟩ := hnear
    by_cases hi0 : F.φ a i ≤ 0
    · exact (fills_mask F E.nx dx _ a u (g a) (mk a) hf i hi).1 hi0
    · obtain ⟨grid, hgc, -⟩ := hf
      refine (Fill.ghost_mask c [E.nx] (Or.inl rfl) [dx] a _ _ _ _ _ _ _ _ _ hgc i (by simpa using hi)).2 (Or.inr ⟨not_le.1 hi0, j, ?_,
        hφ, fun h => by simp at h⟩)
      have hne : i ≠ j := by rintro rfl; exact hi0 hφ
      exact ⟨hi, hj, by omega⟩
  obtain ⟨s1, s2, s3⟩ := hclear (g a) (mk a) hf hk
  have hd := masked_dense E W undef it tol hv hE hX hfl hds b h0 h1 split threads hT (mk a) dt hdt hdx (g a) (g' a) i hi hk s1 s2
    (fun q hq => lt_of_le_of_lt (s3 q hq) (by nlinarith)) hg
  obtain ⟨-, P, hP, -, hhead⟩ := make_u_spec c E.nx _ _ _ u u' hmake i hi
  rw [hidx] at hP hhead
  rw [List.getElem?_map, ha] at hP
  simp only [Option.map_some, Option.some.injEq] at hP
  obtain ⟨q, hq, e⟩ := hhead (by rw [← hP]; simp)
  rw [List.getElem?_map, List.getElem?_range halen] at hq
  simp only [Option.map_some, Option.some.injEq] at hq
  have := e 0 (by omega)
  rw [Nat.add_zero] at this
  rw [this, ← hq]
  exact hd

/-! ### Two materials on a line -/

/-- The split stepper runs on every line, for every mask. -/
theorem movesMasked_exists (E : Env c n) (hV : 0 < c.V) (hE : E.Ok) (bt : Nat → BT) (h0 : bt 0 ≠ .other) (h1 : bt 1 ≠ .other) (threads : Nat)
    (mk : Nat → Bool) (dt : ℝ) (u : Iter.Mem) : ∃ u', MovesMasked E bt true threads mk dt u u' := by
  obtain ⟨m', hm, -⟩ := Grid.boundaries_1d ⟨n, E.destress⟩ E.nx (bt 0) (bt 1) (memOf c u fun _ _ => 0) hE.wide.1 h0 h1
  obtain ⟨l, hl⟩ := schedule_exists threads (splitWorker1 E.coef (E.ode dt) E.half (E.mid1 dt) (fun q => q)
    (kern1 E.sys E.T E.fl (fun _ => dt) E.dx false) (fun k v => m' (true, k) v) E.nx
    (Grid.extendMask1 E.nx mk fun _ => false) threads)
  refine ⟨memOfCells c hV (apply (withOde (E.ode dt) (kern1 E.sys E.T E.fl (fun _ => dt) E.dx false).app) (l.map Prod.snd)
    (cellsOf c u)), fun k v => m' (true, k) v, fun _ => false, ⟨fun _ _ => 0, m', hm, fun _ _ => rfl⟩, ?_⟩
  simp only [if_true]
  exact ⟨l, hl, fun i _ v => memOfCells_get hV _ i v⟩

/-- With one level set. -/
theorem two_index (hc : c.lset = 1) (Q : St) : materialIndex c Q = if 0 ≤ Q (c.V - 1) then 1 else 0 := by
  unfold materialIndex
  rw [hc]
  simp

/-- A line with material 0 up to `x0` and material 1 behind it: the indicators are the distances from `x0`. -/
def twoFronts (nx : Nat) (dx x0 : ℝ) (junk : Nat → ℝ) (star : Nat → St → St → Nat → List ℝ → St) (order : Nat → List Nat) (layers : Nat) :
    Fronts where
  φ m i := if m = 0 then ((i : ℝ) + 1 / 2) * dx - x0 else x0 - ((i : ℝ) + 1 / 2) * dx
  slope m a := [Fill.finiteDifference1 nx junk
    (fun i => if m = 0 then ((i : ℝ) + 1 / 2) * dx - x0 else x0 - ((i : ℝ) + 1 / 2) * dx) dx a]
  star := star
  order := order
  layers := layers

/-- The same with the field `lev` of the only level set, from which `material_indicator` takes the indicators of both materials. -/
def levFronts (nx : Nat) (dx : ℝ) (lev junk : Nat → ℝ) (star : Nat → St → St → Nat → List ℝ → St) (order : Nat → List Nat) (layers : Nat) :
    Fronts where
  φ m i := Fill.indicator 1 (fun _ => lev i) m 2
  slope m a := [Fill.finiteDifference1 nx junk (fun i => Fill.indicator 1 (fun _ => lev i) m 2) dx a]
  star := star
  order := order
  layers := layers

theorem twoFronts_eq (nx : Nat) (dx x0 : ℝ) (junk : Nat → ℝ) (star : Nat → St → St → Nat → List ℝ → St) (order : Nat → List Nat) (layers : Nat) :
    twoFronts nx dx x0 junk star order layers = levFronts nx dx (fun i => ((i : ℝ) + 1 / 2) * dx - x0) junk star order layers := by
  have : ∀ m i : Nat, (if m = 0 then ((i : ℝ) + 1 / 2) * dx - x0 else x0 - ((i : ℝ) + 1 / 2) * dx) =
      Fill.indicator 1 (fun _ => ((i : ℝ) + 1 / 2) * dx - x0) m 2 := by
    intro m i
    by_cases h : m = 0 <;> simp [Fill.indicator, h]
  unfold twoFronts levFronts
  simp only [this]

section two

variable (hc : c.lset = 1) (nx : Nat) (dx x0 : ℝ) (hdx : 0 < dx) (junk : Nat → ℝ) (star : Nat → St → St → Nat → List ℝ → St)
  (order : Nat → List Nat) (ho : ∀ m, (order m).Perm (List.range nx)) (layers k : Nat) (hk : 2 ≤ k) (hkx : k + 1 < nx)
  (h1 : ((k : ℝ) - 1 / 2) * dx < x0) (h2 : x0 < ((k : ℝ) + 1 / 2) * dx) (u : Iter.Mem)
  (hu : ∀ j < nx, u (j * c.V + (c.V - 1)) = ((j : ℝ) + 1 / 2) * dx - x0)

include hdx h1 h2 in
theorem two_side (j : Nat) : (((j : ℝ) + 1 / 2) * dx - x0 < 0 ↔ j < k) ∧ (0 < ((j : ℝ) + 1 / 2) * dx - x0 ↔ k ≤ j) := by
  by_cases h : j < k
  · have : (j : ℝ) + 1 ≤ k := by exact_mod_cast h
    have : ((j : ℝ) + 1 / 2) * dx - x0 < 0 := by nlinarith
    exact ⟨⟨fun _ => h, fun _ => this⟩, ⟨fun h' => by linarith, fun h' => by omega⟩⟩
  · have : (k : ℝ) ≤ j := by exact_mod_cast (not_lt.1 h)
    have : 0 < ((j : ℝ) + 1 / 2) * dx - x0 := by nlinarith
    exact ⟨⟨fun h' => by linarith, fun h' => absurd h' h⟩, ⟨fun _ => not_lt.1 h, fun _ => this⟩⟩

include hc hdx h1 h2 hu in
theorem two_material (j : Nat) (hj : j < nx) : materialIndex c (view c u j) = if j < k then 0 else 1 := by
  rw [two_index hc]
  unfold view
  rw [hu j hj]
  obtain ⟨s1, s2⟩ := two_side dx x0 hdx k h1 h2 j
  by_cases h : j < k
  · rw [if_pos h, if_neg (not_le.2 (s1.2 h))]
  · rw [if_neg h, if_pos (s2.2 (not_lt.1 h)).le]

include hc hdx ho hk hkx h1 h2 hu

/-- `fill_ghost_cells` fills the grids of both materials: next to the surface there are star states, elsewhere the field. -/
theorem lev_fills (lev : Nat → ℝ) (hlev : ∀ j < nx, lev j = ((j : ℝ) + 1 / 2) * dx - x0) (m : Nat) (hm : m < 2) :
    ∃ g mk, Fills c (levFronts nx dx lev junk star order layers) nx dx 2 m u g mk ∧
    ∀ a < nx, ∀ v < c.V - 1, g (a * c.V + v) =
      if m = 0 then if k ≤ a ∧ a ≤ k + layers then
          star 0 (view c u (k - 1)) (view c u (if (k : ℝ) * dx ≤ x0 then k + 1 else k)) 1 [1] v else u (a * c.V + v)
      else if a + 1 ≤ k ∧ k ≤ a + 1 + layers then
          star 1 (view c u k) (view c u (if x0 < (k : ℝ) * dx then k - 2 else k - 1)) 0 [-1] v else u (a * c.V + v) := by
  have hmat := two_material hc nx dx x0 hdx k h1 h2 u hu
  have hl1 := lset_le c
  have hV : 0 < c.V := by omega
  have hget : ∀ (grid : Nat → St), ∀ a, ∀ v < c.V, memOfCells c hV (fun i w => grid i w) (a * c.V + v) = grid a v :=
    fun grid a v hv => memOfCells_get hV _ a ⟨v, hv⟩
  rcases Nat.eq_zero_or_pos m with rfl | hm0
  · obtain ⟨grid, mk, hg, h⟩ := Fill.ghost_line_right c nx (by omega) dx x0 hdx 0 2 layers (star 0) junk
      (fun i => Fill.indicator 1 (fun _ => lev i) 0 2) (order 0) (ho 0) (view c u) k (by omega) hkx
      (fun i hi => by simp [Fill.indicator, hlev i hi]) h1.le h2
      (fun a ha => by rw [hmat a ha]; split_ifs <;> simp_all) (fun a ha => by rw [hmat a ha]; split_ifs <;> omega)
    refine ⟨memOfCells c hV fun i w => grid i w, mk, ⟨grid, ?_, fun a _ v hv => hget grid a v hv⟩, fun a ha v hv => ?_⟩
    · rw [← hg]; rfl
    · have hR : materialIndex c (view c u (if (k : ℝ) * dx ≤ x0 then k + 1 else k)) = 1 := by
        rw [hmat _ (by split_ifs <;> omega), if_neg (by split_ifs <;> omega)]
      rw [hget grid a v (by omega), (h a ha).1, if_pos rfl]
      by_cases h' : k ≤ a ∧ a ≤ k + layers
      · rw [if_pos h', if_pos h']
        simp only [show v < c.V - c.lset by omega, if_true]
        rw [hR]
      · rw [if_neg h', if_neg h']
        rfl
  · obtain rfl : m = 1 := by omega
    obtain ⟨q, rfl⟩ : ∃ q, k = q + 1 := ⟨k - 1, by omega⟩
    push_cast at h1 h2
    obtain ⟨grid, mk, hg, h⟩ := Fill.ghost_line_left c nx (by omega) dx x0 hdx 1 2 layers (star 1) junk
      (fun i => Fill.indicator 1 (fun _ => lev i) 1 2) (order 1) (ho 1) (view c u) q (by omega) (by omega)
      (fun i hi => by simp [Fill.indicator, hlev i hi]) (by linarith) (by linarith)
      (fun a ha => by rw [hmat a ha]; split_ifs <;> simp <;> omega) (fun a ha => by rw [hmat a ha]; split_ifs <;> omega)
    refine ⟨memOfCells c hV fun i w => grid i w, mk, ⟨grid, ?_, fun a _ v hv => hget grid a v hv⟩, fun a ha v hv => ?_⟩
    · rw [← hg]; rfl
    · have hR : materialIndex c (view c u (if x0 < ((q : ℝ) + 1) * dx then q - 1 else q)) = 0 := by
        rw [hmat _ (by split_ifs <;> omega), if_pos (by split_ifs <;> omega)]
      rw [hget grid a v (by omega), (h a ha).1, if_neg one_ne_zero]
      simp only [Nat.add_le_add_iff_right, Nat.add_sub_cancel, Nat.reduceSubDiff, Nat.cast_add, Nat.cast_one,
        show q + 1 ≤ a + 1 + layers ↔ q ≤ a + layers by omega]
      by_cases h' : a ≤ q ∧ q ≤ a + layers
      · rw [if_pos h', if_pos h']
        simp only [show v < c.V - c.lset by omega, if_true]
        rw [hR]
      · rw [if_neg h', if_neg h']
        rfl

theorem two_fills (m : Nat) (hm : m < 2) : ∃ g mk, Fills c (twoFronts nx dx x0 junk star order layers) nx dx 2 m u g mk ∧
    ∀ a < nx, ∀ v < c.V - 1, g (a * c.V + v) =
      if m = 0 then if k ≤ a ∧ a ≤ k + layers then
          star 0 (view c u (k - 1)) (view c u (if (k : ℝ) * dx ≤ x0 then k + 1 else k)) 1 [1] v else u (a * c.V + v)
      else if a + 1 ≤ k ∧ k ≤ a + 1 + layers then
          star 1 (view c u k) (view c u (if x0 < (k : ℝ) * dx then k - 2 else k - 1)) 0 [-1] v else u (a * c.V + v) := by
  rw [twoFronts_eq]
  exact lev_fills hc nx dx x0 hdx junk star order ho layers k hk hkx h1 h2 u hu _ (fun _ _ => rfl) m hm

/-- **Two materials on a line**: the pass exists with `split_stepper`, and in every cell from which only one of the materials can be
seen it is the pass of that material, whatever the star states are. -/
theorem two_line (E0 E1 : Env c n) (hv : c.viscous = true) (hE0 : E0.Ok) (hE1 : E1.Ok) (hn0 : E0.nx = nx) (hn1 : E1.nx = nx)
    (hds0 : ∀ f, E0.destress = some f → OneCell c f) (hds1 : ∀ f, E1.destress = some f → OneCell c f) (b : Nat → BT)
    (hb0 : b 0 ≠ .other) (hb1 : b 1 ≠ .other) (threads : Nat) (hT : 0 < threads) (dt : ℝ) :
    let F := twoFronts nx dx x0 junk star order layers
    (∃ u', MovesMulti [some E0, some E1] F nx dx b true threads dt u u') ∧
    ∀ split u', MovesMulti [some E0, some E1] F nx dx b split threads dt u u' → ∀ i < nx,
      (∀ w', MovesLine E0 b split threads dt u w' → (split = false → SettlesAt E0 b dt u i) → (∀ j, Seen E0 b i j → j < k) →
        u' (i * c.V + (c.V - 1)) = w' (i * c.V + (c.V - 1)) ∧
        (w' (i * c.V + (c.V - 1)) < 0 → ∀ v < c.V, u' (i * c.V + v) = w' (i * c.V + v))) ∧
      (∀ w', MovesLine E1 b split threads dt u w' → (split = false → SettlesAt E1 b dt u i) → (∀ j, Seen E1 b i j → k ≤ j) →
        u' (i * c.V + (c.V - 1)) = w' (i * c.V + (c.V - 1)) ∧
        (0 ≤ w' (i * c.V + (c.V - 1)) → ∀ v < c.V, u' (i * c.V + v) = w' (i * c.V + v))) := by
  intro F
  have hmat := two_material hc nx dx x0 hdx k h1 h2 u hu
  have hl1 := lset_le c
  have hV : 0 < c.V := by omega
  have hlev : IsLevel c (c.V - 1) := ⟨by omega, by omega⟩
  have hside := two_side dx x0 hdx k h1 h2
  constructor
  · obtain ⟨g0, mk0, hf0, -⟩ := two_fills hc nx dx x0 hdx junk star order ho layers k hk hkx h1 h2 u hu 0 (by omega)
    obtain ⟨g1, mk1, hf1, -⟩ := two_fills hc nx dx x0 hdx junk star order ho layers k hk hkx h1 h2 u hu 1 (by omega)
    obtain ⟨g0', hg0⟩ := movesMasked_exists E0 hV hE0 b hb0 hb1 threads mk0 dt g0
    obtain ⟨g1', hg1⟩ := movesMasked_exists E1 hV hE1 b hb0 hb1 threads mk1 dt g1
    let g : Nat → Iter.Mem := fun m => if m = 0 then g0 else g1
    let g' : Nat → Iter.Mem := fun m => if m = 0 then g0' else g1'
    let mk : Nat → Nat → Bool := fun m => if m = 0 then mk0 else mk1
    obtain ⟨u', hu'⟩ := make_u_defined c nx ((List.range 2).map g') ((List.range 2).map mk)
      ([some E0, some E1].map (Option.map Env.P)) u (by simp [hc]) (by simp)
    refine ⟨u', g, g', mk, fun m E hm => ?_, fun m hm => ?_, hu'⟩
    · match m, hm with
      | 0, hm =>
        obtain rfl : E0 = E := by simpa using hm
        exact ⟨hf0, hg0⟩
      | 1, hm =>
        obtain rfl : E1 = E := by simpa using hm
        exact ⟨hf1, hg1⟩
    · match m, hm with
      | 0, hm => simp at hm
      | 1, hm => simp at hm
  · intro split u' hm i hi
    refine ⟨fun w' hw hs hsee => ?_, fun w' hw hs hsee => ?_⟩
    · subst hn0
      obtain ⟨d1, d2⟩ := multi_deep [some E0, some E1] F dx b hb0 hb1 split threads threads hT hT dt u u' w' 0 E0 rfl hv hE0 hds0 i hi hs
        (fun j hj hj' => ⟨by rw [hmat j hj, if_pos (hsee j hj')], ((hside j).1.2 (hsee j hj')).le⟩)
        (fun m hm E' hE' j hj j1 j2 => by
          have : ((j : ℝ) + 1 / 2) * dx - x0 < 0 := (hside j).1.2 (hsee j (seen_near E0 hE0 b i j hj j1 j2))
          simp only [F, twoFronts, if_neg hm]
          linarith) hm hw
      refine ⟨d1 _ hlev, fun h => d2 ?_⟩
      rw [two_index hc]
      exact if_neg (not_le.2 h)
    · subst hn1
      obtain ⟨d1, d2⟩ := multi_deep [some E0, some E1] F dx b hb0 hb1 split threads threads hT hT dt u u' w' 1 E1 rfl hv hE1 hds1 i hi hs
        (fun j hj hj' => ⟨by rw [hmat j hj, if_neg (not_lt.2 (hsee j hj'))], by
          have := (hside j).2.2 (hsee j hj')
          simp only [F, twoFronts, if_neg one_ne_zero]
          linarith⟩)
        (fun m hm E' hE' j hj j1 j2 => by
          match m, hE' with
          | 0, hE' => exact (hside j).2.2 (hsee j (seen_near E1 hE1 b i j hj j1 j2))
          | 1, hE' => exact absurd rfl hm) hm hw
      refine ⟨d1 _ hlev, fun h => d2 ?_⟩
      rw [two_index hc]
      exact if_pos h

end two

end

end Verif.Run
