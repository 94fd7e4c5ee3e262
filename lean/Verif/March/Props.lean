import Verif.March.Safe
import Verif.March.Grids

/-!
# Properties of the signed-distance function (C04–C08)
-/

namespace Verif.March

open Verif

variable {P : Prob}

/-! ### C05: termination, queue safety -/

/-- `distance` terminates without heap exception or out-of-range access, on every field, and no
cell is accepted twice; interface cells are never re-computed. (Any grid, any dimension.) -/
theorem distance_terminates (wf : P.G.WF) (hdx : ∀ d < P.G.ndim, 0 < P.dx d) (g : Garbage)
    (fuel : Nat) (hfuel : P.G.size < fuel) :
    ∃ r, distance P g fuel = .ok r ∧ r.log.Nodup ∧
      (∀ i ∈ r.log, i < P.G.size ∧ ¬ AtInterface P i) ∧
      (r.error = 0 ↔ ∃ i < P.G.size, AtInterface P i) := by
  obtain ⟨st1, e1, s1, l1⟩ := initNarrow_safe (P := P) hdx g
  have e1' : initNarrow P ⟨(initFrozen P).1, (initFrozen P).2, g.ptr,
    Heap.init ((Finset.range P.G.size).filter fun i => (initFrozen P).1 i = .far).card
      g.d g.h g.a g.b, []⟩ = .ok st1 := e1
  have hini : ∀ i < P.G.size, (Ini P i ↔ AtInterface P i) := fun i hi => init_frozen_iff hdx hi
  unfold distance
  simp only [bind, Except.bind, e1']
  by_cases hc : ((Finset.range P.G.size).filter fun i => st1.flag i = .frozen).card = 0
  · rw [if_pos hc]
    rw [frozen_card s1 l1] at hc
    refine ⟨_, rfl, List.nodup_nil, by simp, ?_⟩
    simp only [OfNat.ofNat_ne_zero, false_iff, not_exists, not_and]
    intro i hi; rw [← hini i hi]; exact hc i hi
  · rw [if_neg hc]
    rw [frozen_card s1 l1] at hc
    push Not at hc
    obtain ⟨st2, e2, s2, _⟩ := marchLoop_safe wf hfuel fuel s1 (by omega)
    simp only [e2]
    refine ⟨_, rfl, s2.nodup, ?_, ?_⟩
    · intro i hi
      obtain ⟨h1, h2⟩ := s2.new i hi
      exact ⟨h1, by rw [← hini i h1]; exact h2⟩
    · simp only [true_iff]
      obtain ⟨i, hi, h⟩ := hc
      exact ⟨i, hi, (hini i hi).1 h⟩

/-- The same for the grids the code builds from a 1D or 2D shape. -/
theorem distance_terminates_grid {shape : List Nat} (hs : shape.length = 1 ∨ shape.length = 2)
    (dx phi : Nat → ℝ) (eps : ℝ) (hdx : ∀ d < shape.length, 0 < dx d) (g : Garbage)
    (fuel : Nat) (hfuel : shape.prod < fuel) :
    ∃ r, distance ⟨gridOf shape, dx, phi, eps⟩ g fuel = .ok r ∧ r.log.Nodup ∧
      (∀ i ∈ r.log, i < shape.prod ∧ ¬ AtInterface ⟨gridOf shape, dx, phi, eps⟩ i) ∧
      (r.error = 0 ↔ ∃ i < shape.prod, AtInterface ⟨gridOf shape, dx, phi, eps⟩ i) := by
  have wf : (gridOf shape).WF := by
    rcases hs with hs | hs
    · obtain ⟨n, rfl⟩ := List.length_eq_one_iff.1 hs; exact wf1 n
    · obtain ⟨n, m, rfl⟩ := List.length_eq_two.1 hs; exact wf2 n m
  exact distance_terminates (P := ⟨gridOf shape, dx, phi, eps⟩) wf hdx g fuel hfuel

/-- A field without zeros or sign changes: error code 2 and an all-zero result. -/
theorem distance_no_interface (hdx : ∀ d < P.G.ndim, 0 < P.dx d) (g : Garbage) (fuel : Nat)
    (h : ∀ i < P.G.size, ¬ AtInterface P i) :
    ∃ r, distance P g fuel = .ok r ∧ r.error = 2 ∧ ∀ i < P.G.size, r.dist i = some 0 := by
  have hini : ∀ i < P.G.size, ¬ Ini P i := fun i hi hI => h i hi ((init_frozen_iff hdx hi).1 hI)
  -- nothing is frozen, so `initalizeNarrow` leaves everything as it was
  have gen : ∀ n ≤ P.G.size, (List.range n).foldlM (narrowCell P) (start P g) = .ok (start P g) := by
    intro n
    induction n with
    | zero => intro _; rfl
    | succ n ih =>
      intro hn
      rw [List.range_succ, List.foldlM_append, ih (by omega)]
      simp only [bind, Except.bind, List.foldlM_cons, List.foldlM_nil]
      have : narrowCell P (start P g) n = .ok (start P g) := by
        unfold narrowCell
        split
        · generalize dimDirs P.G = ts
          induction ts with
          | nil => rfl
          | cons t ts iht =>
            rw [List.foldlM_cons]
            have : narrowStep P n (start P g) t = .ok (start P g) := by
              unfold narrowStep
              split
              · rfl
              · rename_i a _
                rw [if_neg]
                rintro ⟨h1, _⟩
                -- a frozen neighbour would be an initial one; addresses beyond the grid stay far
                have hb := borderLoop_spec (P := P) hdx P.G.size le_rfl
                by_cases ha : a < P.G.size
                · exact hini a ha h1
                · have := (hb.2.2 a (by omega)).1
                  have hfa : (initFrozen P).1 a = .far := by
                    have h2 := this
                    rw [if_neg (by omega)] at h2
                    exact h2
                  have h1' : (initFrozen P).1 a = .frozen := h1
                  rw [hfa] at h1'; cases h1'
            rw [this]; exact iht
        · rfl
      rw [this]; rfl
  have e1 : initNarrow P ⟨(initFrozen P).1, (initFrozen P).2, g.ptr,
    Heap.init ((Finset.range P.G.size).filter fun i => (initFrozen P).1 i = .far).card
      g.d g.h g.a g.b, []⟩ = .ok (start P g) := gen P.G.size le_rfl
  have hc : ((Finset.range P.G.size).filter fun i => (start P g).flag i = .frozen).card = 0 :=
    (frozen_card (start_safe hdx g) rfl).2 hini
  unfold distance
  simp only [bind, Except.bind, e1]
  rw [if_pos hc]
  refine ⟨_, rfl, rfl, ?_⟩
  intro i hi
  have := (init_far hdx hi (hini i hi)).2
  simp only [start]
  rw [this]

/-! ### C04, C05, C06: the full run under the sign assumption -/

/-- Everything the main loop establishes, for fields without values in `(0, eps]`. -/
theorem distance_run (ok : OK P) (hconn : P.G.Connected)
    (hint : ∃ i < P.G.size, AtInterface P i) (g : Garbage) (fuel : Nat) (hfuel : P.G.size < fuel) :
    ∃ r D, distance P g fuel = .ok r ∧ r.error = 0 ∧
      (∀ i < P.G.size, r.dist i = some (D i)) ∧
      (∀ i < P.G.size, SignOK (P.phi i) (D i)) ∧
      (∀ i, i ∈ r.log ↔ i < P.G.size ∧ ¬ AtInterface P i) ∧
      (r.log.Pairwise fun i j => |D i| ≤ |D j|) ∧
      (∀ i ∈ r.log, ∃ pre suf, r.log = pre ++ suf ∧ i ∈ suf ∧ (∀ j ∈ suf, |D i| ≤ |D j|) ∧
        Eikonal P.G P.dx (fun j => (j < P.G.size ∧ AtInterface P j) ∨ j ∈ pre) D i |D i|) := by
  have hini : ∀ i < P.G.size, (Ini P i ↔ AtInterface P i) :=
    fun i hi => init_frozen_iff ok.dx' hi
  have hout : ∀ i, Ini P i → i < P.G.size := by
    intro i hI
    by_contra hi
    have hb := (borderLoop_spec (P := P) ok.dx' P.G.size le_rfl).2.2 i (by omega)
    have h2 := hb.1
    rw [if_neg (by omega)] at h2
    have h1 : (initFrozen P).1 i = .frozen := hI
    have h3 : (initFrozen P).1 i = .far := h2
    rw [h3] at h1; cases h1
  obtain ⟨st1, e1, l1, ph1⟩ := initNarrow_spec ok g
  obtain ⟨ph1', hs1⟩ := ph1.self (init_static ok)
  have t1 : Top P st1 0 := by
    refine ⟨hs1, ph1', ?_⟩
    intro i hi hF
    left
    have hI := (ph1.ag.fr i).1 hF
    rw [(ph1.base.ini i hi hI).2]
    exact init_bound ok hi hI
  have lg1 : LogInv P st1 0 := by
    refine ⟨?_, ?_, ?_, ?_, ?_, ?_⟩ <;> rw [l1]
    · intro i; rw [ph1.ag.fr i]; simp
    · simp
    · exact List.nodup_nil
    · exact List.Pairwise.nil
    · simp
    · simp
  obtain ⟨st2, K, e2, t2, lg2, hemp⟩ := marchLoop_spec ok hfuel fuel t1 lg1 (by omega)
  have e1' : initNarrow P ⟨(initFrozen P).1, (initFrozen P).2, g.ptr,
    Heap.init ((Finset.range P.G.size).filter fun i => (initFrozen P).1 i = .far).card
      g.d g.h g.a g.b, []⟩ = .ok st1 := e1
  obtain ⟨s, hsz, hsI⟩ := hint
  have hsI' := (hini s hsz).2 hsI
  have hne : ((Finset.range P.G.size).filter fun i => st1.flag i = .frozen).card ≠ 0 := by
    have : s ∈ (Finset.range P.G.size).filter fun i => st1.flag i = .frozen := by
      simp only [Finset.mem_filter, Finset.mem_range]
      exact ⟨hsz, (ph1.ag.fr s).2 hsI'⟩
    exact Finset.card_ne_zero_of_mem this
  -- every cell is frozen at the end
  obtain ⟨q2, lk2⟩ := t2.ph.link
  have hnn := (empty_iff lk2).1 hemp
  have hall : ∀ j, P.G.Conn s j → st2.flag j = .frozen := by
    intro j hc
    induction hc with
    | refl => exact (t2.ph.base.ini s hsz hsI').1
    | @step j a d dir h1 hd hn ih =>
      have hj := h1.lt ok.wf hsz
      have ha := ok.wf.lt _ _ _ _ hj hd hn
      cases hf : st2.flag a with
      | frozen => rfl
      | mask => exact absurd hf (t2.ph.ag.nm a)
      | narrow => exact absurd hf (hnn a ha)
      | far =>
        exfalso
        have hm := t2.ph.far a ha hf (fun h => h)
        have := mins_ne_none (P := P) (D := st2.dist) (F := Fz st2) hd (ok.wf.symm _ _ _ _ hj hd hn) ih
        have h2 : d = 0 ∨ d = 1 := by have := ok.nd; omega
        rcases h2 with rfl | rfl
        · exact this hm.1
        · exact this hm.2
  have hfz : ∀ i < P.G.size, st2.flag i = .frozen := fun i hi => hall i (hconn s hsz i hi)
  refine ⟨⟨fun i => if st2.flag i = .frozen then some (st2.dist i) else none, 0, st2.log,
    (initFrozen P).1⟩, st2.dist, ?_, rfl, ?_, ?_, ?_, lg2.sorted, ?_⟩
  · unfold distance
    simp only [bind, Except.bind, e1']
    rw [if_neg hne]
    simp only [e2]
  · intro i hi; simp [hfz i hi]
  · intro i hi; exact t2.ph.base.sg i hi (by rw [hfz i hi]; simp)
  · intro i
    constructor
    · intro hi
      obtain ⟨h1, h2⟩ := lg2.new i hi
      exact ⟨h1, by rw [← hini i h1]; exact h2⟩
    · rintro ⟨h1, h2⟩
      rw [← hini i h1] at h2
      exact ((lg2.fr i).1 (hfz i h1)).resolve_left h2
  · intro i hi
    obtain ⟨pre, suf, e, hm, hf, hc⟩ := lg2.eik i hi
    refine ⟨pre, suf, e, hm, hf, ?_⟩
    apply Cell.eikonal ok.nd
    refine (Cell.congr ?_ (fun _ _ => rfl)).1 hc
    intro j
    constructor
    · rintro (h | h)
      · exact .inl ⟨hout j h, (hini j (hout j h)).1 h⟩
      · exact .inr h
    · rintro (⟨h1, h2⟩ | h)
      · exact .inl ((hini j h1).2 h2)
      · exact .inr h

/-- The assumptions of `distance_run` for the grids the code builds. -/
theorem grid_ok {shape : List Nat} (hs : shape.length = 1 ∨ shape.length = 2) {dx phi : Nat → ℝ}
    {eps : ℝ} (hdx : ∀ d, 0 < dx d) (heps : 0 ≤ eps)
    (hphi : ∀ i < shape.prod, phi i ≤ 0 ∨ eps < phi i) :
    OK ⟨gridOf shape, dx, phi, eps⟩ ∧ (gridOf shape).Connected := by
  rcases hs with hs | hs
  · obtain ⟨n, rfl⟩ := List.length_eq_one_iff.1 hs
    exact ⟨⟨by simp [gridOf], hdx, wf1 n, heps, hphi⟩, conn1 n⟩
  · obtain ⟨n, m, rfl⟩ := List.length_eq_two.1 hs
    exact ⟨⟨by simp [gridOf], hdx, wf2 n m, heps, hphi⟩, conn2 n m⟩

/-- C04.  Full claim: every result has the sign of `phi`.  Proved when `phi` takes no value in
`(0, eps]` and has an interface; see `distance_sign_violated` and `distance_no_interface` for the
two excluded cases, where the claim is false of the code. -/
theorem distance_sign_partial {shape : List Nat} (hs : shape.length = 1 ∨ shape.length = 2)
    {dx phi : Nat → ℝ} {eps : ℝ} (hdx : ∀ d, 0 < dx d) (heps : 0 ≤ eps)
    (hphi : ∀ i < shape.prod, phi i ≤ 0 ∨ eps < phi i)
    (hint : ∃ i < shape.prod, AtInterface ⟨gridOf shape, dx, phi, eps⟩ i)
    (g : Garbage) (fuel : Nat) (hfuel : shape.prod < fuel) :
    ∃ r, distance ⟨gridOf shape, dx, phi, eps⟩ g fuel = .ok r ∧
      ∀ i < shape.prod, ∃ v, r.dist i = some v ∧
        (0 < phi i → 0 < v) ∧ (phi i < 0 → v < 0) ∧ (phi i = 0 → v = 0) := by
  obtain ⟨ok, hc⟩ := grid_ok hs hdx heps hphi
  obtain ⟨r, D, e, _, h1, h2, _⟩ := distance_run ok hc hint g fuel hfuel
  exact ⟨r, e, fun i hi => ⟨D i, h1 i hi, h2 i hi⟩⟩

/-- C05.  Full claim: every cell gets a finite distance, each non-interface cell being accepted
exactly once.  (Termination and queue safety hold for every field, `distance_terminates_grid`;
this part needs the sign assumption.) -/
theorem distance_reaches_all_partial {shape : List Nat}
    (hs : shape.length = 1 ∨ shape.length = 2)
    {dx phi : Nat → ℝ} {eps : ℝ} (hdx : ∀ d, 0 < dx d) (heps : 0 ≤ eps)
    (hphi : ∀ i < shape.prod, phi i ≤ 0 ∨ eps < phi i)
    (hint : ∃ i < shape.prod, AtInterface ⟨gridOf shape, dx, phi, eps⟩ i)
    (g : Garbage) (fuel : Nat) (hfuel : shape.prod < fuel) :
    ∃ r, distance ⟨gridOf shape, dx, phi, eps⟩ g fuel = .ok r ∧ r.error = 0 ∧ r.log.Nodup ∧
      (∀ i < shape.prod, r.dist i ≠ none) ∧
      ∀ i, i ∈ r.log ↔ i < shape.prod ∧ ¬ AtInterface ⟨gridOf shape, dx, phi, eps⟩ i := by
  obtain ⟨ok, hc⟩ := grid_ok hs hdx heps hphi
  obtain ⟨r, D, e, h0, h1, _, h3, _⟩ := distance_run ok hc hint g fuel hfuel
  obtain ⟨r', e', hn, _⟩ := distance_terminates ok.wf ok.dx' g fuel hfuel
  rw [e] at e'; cases e'
  exact ⟨r, e, h0, hn, fun i hi => by rw [h1 i hi]; simp, h3⟩

/-- C06.  Acceptance order and the discrete eikonal equation: `r.log` lists the non-interface
cells in order of acceptance.  Full claim: all fields; proved for fields without values in
`(0, eps]`. -/
theorem distance_eikonal_partial {shape : List Nat} (hs : shape.length = 1 ∨ shape.length = 2)
    {dx phi : Nat → ℝ} {eps : ℝ} (hdx : ∀ d, 0 < dx d) (heps : 0 ≤ eps)
    (hphi : ∀ i < shape.prod, phi i ≤ 0 ∨ eps < phi i)
    (hint : ∃ i < shape.prod, AtInterface ⟨gridOf shape, dx, phi, eps⟩ i)
    (g : Garbage) (fuel : Nat) (hfuel : shape.prod < fuel) :
    ∃ r D, distance ⟨gridOf shape, dx, phi, eps⟩ g fuel = .ok r ∧
      (∀ i < shape.prod, r.dist i = some (D i)) ∧
      (∀ i, i ∈ r.log ↔ i < shape.prod ∧ ¬ AtInterface ⟨gridOf shape, dx, phi, eps⟩ i) ∧
      (r.log.Pairwise fun i j => |D i| ≤ |D j|) ∧
      ∀ i ∈ r.log, ∃ pre suf, r.log = pre ++ suf ∧ i ∈ suf ∧ (∀ j ∈ suf, |D i| ≤ |D j|) ∧
        Eikonal (gridOf shape) dx
          (fun j => (j < shape.prod ∧ AtInterface ⟨gridOf shape, dx, phi, eps⟩ j) ∨ j ∈ pre)
          D i |D i| := by
  obtain ⟨ok, hc⟩ := grid_ok hs hdx heps hphi
  obtain ⟨r, D, e, _, h1, _, h3, h4, h5⟩ := distance_run ok hc hint g fuel hfuel
  exact ⟨r, D, e, h1, h3, h4, h5⟩

/-! ### C07: interface cells -/

theorem interp_lt {i a dim : Nat} (hdx : 0 < P.dx dim) (h : Crosses P i a) :
    interpDist P i a dim < P.dx dim := by
  unfold Crosses at h
  have h1 : P.phi i ≠ 0 := by rintro e; rw [e] at h; simp at h
  have h2 : P.phi a ≠ 0 := by rintro e; rw [e] at h; simp at h
  have h3 := abs_pos.2 h1
  have h4 := abs_pos.2 h2
  unfold interpDist
  have : |P.phi i| / (|P.phi i| + |P.phi a|) < 1 := by
    rw [div_lt_one (by positivity)]; linarith
  nlinarith

/-- C07, for every field: cells at a zero keep zero; cells next to a sign change get the least
interpolated distance, with the sign of `phi`, positive and below the spacing of its axis. -/
theorem distance_interface_values (wf : P.G.WF) (hdx : ∀ d < P.G.ndim, 0 < P.dx d) (g : Garbage)
    (fuel : Nat) (hfuel : P.G.size < fuel) (i : Nat) (hi : i < P.G.size) (hI : AtInterface P i) :
    ∃ r v, distance P g fuel = .ok r ∧ r.dist i = some v ∧ (P.phi i = 0 → v = 0) ∧
      (P.phi i ≠ 0 →
        (∃ d < P.G.ndim, ∃ dir a, P.G.nb i d dir = some a ∧ Crosses P i a ∧
          |v| = interpDist P i a d ∧ 0 < |v| ∧ |v| < P.dx d) ∧
        (∀ d < P.G.ndim, ∀ dir a, P.G.nb i d dir = some a → Crosses P i a →
          |v| ≤ interpDist P i a d) ∧
        (0 < P.phi i → 0 < v) ∧ (P.phi i < 0 → v < 0)) := by
  obtain ⟨st1, e1, s1, l1⟩ := initNarrow_safe (P := P) hdx g
  have e1' : initNarrow P ⟨(initFrozen P).1, (initFrozen P).2, g.ptr,
    Heap.init ((Finset.range P.G.size).filter fun i => (initFrozen P).1 i = .far).card
      g.d g.h g.a g.b, []⟩ = .ok st1 := e1
  have hIni : Ini P i := (init_frozen_iff hdx hi).2 hI
  have hc : ¬ ((Finset.range P.G.size).filter fun i => st1.flag i = .frozen).card = 0 := by
    rw [frozen_card s1 l1]; push Not; exact ⟨i, hi, hIni⟩
  obtain ⟨st2, e2, s2, _⟩ := marchLoop_safe wf hfuel fuel s1 (by omega)
  refine ⟨⟨fun i => if st2.flag i = .frozen then some (st2.dist i) else none, 0, st2.log,
    (initFrozen P).1⟩, (initFrozen P).2 i, ?_, ?_, ?_⟩
  · unfold distance
    simp only [bind, Except.bind, e1']
    rw [if_neg hc]
    simp only [e2]
  · simp only
    rw [if_pos ((s2.fr i).2 (.inl hIni)), s2.ini i hi hIni]
  · have h := (initFrozen_spec (P := P) hdx).2 i hi
    refine ⟨fun hz => (h.zero hz).2, fun hz => ?_⟩
    have hcr : ∃ d < P.G.ndim, ∃ w, CrossAt P i d w := by
      rw [crossAt_iff]
      exact hI.resolve_left hz
    obtain ⟨_, m, ⟨⟨d, hd, dir, a, hn, hx, hm⟩, hmin⟩, hv⟩ := h.cross hz hcr
    have hpos := (interp_bounds (P := P) (hdx d hd) hx)
    rw [← hm] at hpos
    have habs : |(initFrozen P).2 i| = m := by
      rw [hv]; split
      · rw [abs_neg, abs_of_pos hpos.1]
      · rw [abs_of_pos hpos.1]
    rw [habs]
    refine ⟨⟨d, hd, dir, a, hn, hx, hm, hpos.1, by rw [hm]; exact interp_lt (hdx d hd) hx⟩, ?_, ?_, ?_⟩
    · intro d' hd' dir' a' hn' hx'
      exact hmin d' hd' _ ⟨dir', a', hn', hx', rfl⟩
    · intro hp; rw [hv, if_neg (not_lt.2 hp.le)]; exact hpos.1
    · intro hp; rw [hv, if_pos hp]; linarith [hpos.1]

/-! ### C04: the excluded values -/

/-- With a value in `(0, eps]` next to a zero, the cell ends on the wrong side of the interface:
on the two-cell grid `phi = [0, x]`, `0 < x ≤ eps`, the result in the second cell is `-dx`. -/
theorem distance_sign_violated {x eps h : ℝ} (hx : 0 < x) (hxe : x ≤ eps) (hh : 0 < h)
    (g : Garbage) (fuel : Nat) (hfuel : 2 < fuel) :
    ∃ r, distance ⟨gridOf [2], fun _ => h, fun i => if i = 0 then 0 else x, eps⟩ g fuel = .ok r ∧
      r.dist 1 = some (-h) := by
  set P : Prob := ⟨gridOf [2], fun _ => h, fun i => if i = 0 then 0 else x, eps⟩ with hP
  have hdx : ∀ d < P.G.ndim, 0 < P.dx d := fun _ _ => hh
  have hsize : P.G.size = 2 := rfl
  have hnd : P.G.ndim = 1 := rfl
  have hdd : dimDirs P.G = [(0, false), (0, true)] := rfl
  have nb0f : P.G.nb 0 0 false = none := by simp [hP, nb1]
  have nb0t : P.G.nb 0 0 true = some 1 := by simp [hP, nb1]
  have nb1f : P.G.nb 1 0 false = some 0 := by simp [hP, nb1]
  have nb1t : P.G.nb 1 0 true = none := by simp [hP, nb1]
  have hp0 : P.phi 0 = 0 := by simp [hP]
  have hp1 : P.phi 1 = x := by simp [hP]
  have i0 : Ini P 0 := (init_frozen_iff hdx (by omega)).2 (.inl hp0)
  have i1 : ¬ Ini P 1 := by
    intro hI
    rcases (init_frozen_iff hdx (by omega)).1 hI with h1 | ⟨d, hd, dir, a, hn, hc⟩
    · rw [hp1] at h1; linarith
    · have hd0 : d = 0 := by omega
      subst hd0
      cases dir
      · rw [nb1f] at hn; cases hn
        unfold Crosses at hc; rw [hp0] at hc; simp at hc
      · rw [nb1t] at hn; cases hn
  have hf1 := init_far hdx (show 1 < P.G.size by omega) i1
  have hd0 : (initFrozen P).2 0 = 0 :=
    ((initFrozen_spec (P := P) hdx).2 0 (by omega)).zero hp0 |>.2
  have s0 := start_safe (P := P) hdx g
  -- initalizeNarrow
  have hupd : ∀ flag : Nat → Flag, NoMask flag → flag 0 = .frozen →
      update P flag (initFrozen P).2 1 = -h := by
    intro flag hm hfl
    unfold update
    rw [hnd]
    simp only [List.range_one, List.foldl_cons, List.foldl_nil, accum]
    have : scan P flag (initFrozen P).2 1 0 = some 0 := by
      simp [scan, dirs, scanStep, getN_mask hm, nb1f, nb1t, hfl, hd0]
    rw [this]
    simp only [solveQuadratic]
    have hi2 : P.idx2 0 = 1 / h / h := rfl
    have hdet : (0 - P.idx2 0 * 2 * 0) ^ 2 - 4 * (0 + P.idx2 0) * (0 + P.idx2 0 * 0 ^ 2 - 1) =
        (2 / h) ^ 2 := by rw [hi2]; field_simp; ring
    rw [hdet, if_pos (by positivity), hp1, if_neg (by simpa [hP] using hxe), Real.sqrt_sq (by positivity), hi2]
    field_simp
    ring
  obtain ⟨h', n, e1, s1⟩ := safe_push s0 (i := 1) (by omega) hf1.1 (-h)
  have hnm1 : NoMask (Function.update (start P g).flag 1 .narrow) := s1.nm
  set st1 : St := ⟨Function.update (start P g).flag 1 .narrow,
    Function.update (start P g).dist 1 (-h), Function.update (start P g).ptr 1 n, h', []⟩ with hst1
  have eN : initNarrow P (start P g) = .ok st1 := by
    unfold initNarrow
    rw [hsize, show List.range 2 = [0, 1] from rfl]
    simp only [List.foldlM_cons, List.foldlM_nil, bind, Except.bind]
    have c0 : narrowCell P (start P g) 0 = .ok (start P g) := by
      unfold narrowCell
      rw [if_neg]
      have : (start P g).flag 0 = .frozen := i0
      rw [this]; simp
    rw [c0]
    simp only
    have c1 : narrowCell P (start P g) 1 = .ok st1 := by
      unfold narrowCell
      rw [if_pos (show (start P g).flag 1 = .far from hf1.1), hdd, List.foldlM_cons]
      have : narrowStep P 1 (start P g) (0, false) = .ok st1 := by
        unfold narrowStep
        rw [getN_mask s0.nm]
        simp only [nb1f]
        rw [if_pos ⟨i0, hf1.1⟩]
        have hu := hupd (Function.update (start P g).flag 1 .narrow) hnm1
          (by rw [Function.update_of_ne (by omega)]; exact i0)
        have hu' : update P (Function.update (start P g).flag 1 .narrow) (start P g).dist 1 = -h := hu
        simp only [bind, Except.bind, hp, hu', e1]
        rfl
      rw [this]
      exact narrowSteps_narrow (by simp [hst1]) _
    rw [c1]
    rfl
  -- first iteration
  obtain ⟨q, lk⟩ := s1.link
  have hnar1 : st1.flag 1 = .narrow := by simp [hst1]
  have hfr0 : st1.flag 0 = .frozen := by
    simp only [hst1]; rw [Function.update_of_ne (by omega)]; exact i0
  have hne1 : Heap.empty st1.heap ≠ true := by
    intro he
    exact (empty_iff (P := P) lk).1 he 1 (by omega) hnar1
  have hpos : 0 < st1.heap.heapLength := by
    simp [Heap.empty] at hne1; omega
  obtain ⟨h2, i, p1, p2, hi, hni, _, _, hlt, q2, lk2⟩ := pop_link (P := P) lk hpos
  replace lk2 : Link P (freeze { st1 with heap := h2 } i) q2 := lk2
  have hi1 : i = 1 := by
    have : i = 0 ∨ i = 1 := by omega
    rcases this with rfl | rfl
    · rw [show st1.flag 0 = .frozen from hfr0] at hni; cases hni
    · rfl
  subst hi1
  have hempty2 : Heap.empty (freeze { st1 with heap := h2 } 1).heap = true := by
    rw [empty_iff lk2]
    intro j hj hn
    have : j = 0 ∨ j = 1 := by omega
    rcases this with rfl | rfl
    · simp only [freeze] at hn
      rw [Function.update_of_ne (by omega), hfr0] at hn; cases hn
    · simp [freeze] at hn
  obtain ⟨f, rfl⟩ : ∃ f, fuel = f + 2 := ⟨fuel - 2, by omega⟩
  have eM : marchStep P (f + 2) st1 = .ok (freeze { st1 with heap := h2 } 1) := by
    unfold marchStep
    have p1' : Heap.pop st1.heap = .ok (h2, ((1 : Int), |st1.dist 1|)) := p1
    simp only [bind, Except.bind, hp, p1', Int.toNat_one]
    have : popEqual |st1.dist 1| (f + 2) (freeze { st1 with heap := h2 } 1) [1] =
        .ok (freeze { st1 with heap := h2 } 1, [1]) := by
      unfold popEqual; rw [if_pos hempty2]
    rw [this]
    simp only [tasks, hdd, List.flatMap_cons, List.flatMap_nil, List.map_cons, List.map_nil,
      List.append_nil, List.foldlM_cons, List.foldlM_nil, bind, Except.bind]
    have r1 : relax P (freeze { st1 with heap := h2 } 1) (1, 0, false) =
        .ok (freeze { st1 with heap := h2 } 1) := by
      unfold relax getN
      simp only [nb1f]
      have : (freeze { st1 with heap := h2 } 1).flag 0 = .frozen := by
        simp only [freeze]; rw [Function.update_of_ne (by omega)]; exact hfr0
      rw [if_pos this]
    have r2 : relax P (freeze { st1 with heap := h2 } 1) (1, 0, true) =
        .ok (freeze { st1 with heap := h2 } 1) := by
      unfold relax getN
      simp only [nb1t]
    rw [r1]
    simp only [r2]
    rfl
  have eL : marchLoop P (f + 2) (f + 2) st1 = .ok (freeze { st1 with heap := h2 } 1) := by
    unfold marchLoop
    rw [if_neg hne1]
    simp only [bind, Except.bind, eM]
    unfold marchLoop
    rw [if_pos hempty2]
  have hcard : ¬ ((Finset.range P.G.size).filter fun i => st1.flag i = .frozen).card = 0 := by
    have : 0 ∈ (Finset.range P.G.size).filter fun i => st1.flag i = .frozen := by
      simp only [Finset.mem_filter, Finset.mem_range]; exact ⟨by omega, hfr0⟩
    exact Finset.card_ne_zero_of_mem this
  have eN' : initNarrow P ⟨(initFrozen P).1, (initFrozen P).2, g.ptr,
    Heap.init ((Finset.range P.G.size).filter fun i => (initFrozen P).1 i = .far).card
      g.d g.h g.a g.b, []⟩ = .ok st1 := eN
  refine ⟨⟨fun i => if (freeze { st1 with heap := h2 } 1).flag i = .frozen then
    some ((freeze { st1 with heap := h2 } 1).dist i) else none, 0,
    (freeze { st1 with heap := h2 } 1).log, (initFrozen P).1⟩, ?_, ?_⟩
  · unfold distance
    simp only [bind, Except.bind, eN']
    rw [if_neg hcard]
    simp only [eL]
  · simp [freeze, hst1]

/-! ### C08: material index -/

open Classical

theorem renormalize_ok {P : Prob} {fuel : Nat} (cols : List ((Nat → ℝ) × Garbage))
    (h : ∀ c ∈ cols, ∃ r, distance { P with phi := c.1 } c.2 fuel = .ok r) :
    ∃ rs, renormalize P fuel cols = .ok rs ∧ List.Forall₂ (fun c d => ∃ r,
      distance { P with phi := c.1 } c.2 fuel = .ok r ∧ r.dist = d) cols rs := by
  induction cols with
  | nil => exact ⟨[], rfl, .nil⟩
  | cons c cs ih =>
    obtain ⟨r, e⟩ := h c (by simp)
    obtain ⟨rs, e', h'⟩ := ih (fun c hc => h c (by simp [hc]))
    refine ⟨r.dist :: rs, ?_, .cons ⟨r, e, rfl⟩ h'⟩
    unfold renormalize
    simp only [bind, Except.bind, e, e']

/-- C08.  Full claim: for all level sets.  Proved when every level set has an interface in the
domain and takes no value in `(0, eps]`; false otherwise (`renormalize_changes_material`). -/
theorem renormalize_keeps_material_partial {shape : List Nat}
    (hs : shape.length = 1 ∨ shape.length = 2) {dx phi : Nat → ℝ} {eps : ℝ}
    (hdx : ∀ d, 0 < dx d) (heps : 0 ≤ eps) (fuel : Nat) (hfuel : shape.prod < fuel)
    (cols : List ((Nat → ℝ) × Garbage))
    (hphi : ∀ c ∈ cols, ∀ i < shape.prod, c.1 i ≤ 0 ∨ eps < c.1 i)
    (hint : ∀ c ∈ cols, ∃ i < shape.prod, AtInterface ⟨gridOf shape, dx, c.1, eps⟩ i) :
    ∃ rs, renormalize ⟨gridOf shape, dx, phi, eps⟩ fuel cols = .ok rs ∧
      ∀ i < shape.prod, materialIndex rs i = materialIndex (cols.map fun c j => some (c.1 j)) i := by
  have hd : ∀ c ∈ cols, ∃ r, distance ⟨gridOf shape, dx, c.1, eps⟩ c.2 fuel = .ok r ∧
      ∀ i < shape.prod, ∃ v, r.dist i = some v ∧
        (0 < c.1 i → 0 < v) ∧ (c.1 i < 0 → v < 0) ∧ (c.1 i = 0 → v = 0) :=
    fun c hc => distance_sign_partial hs hdx heps (hphi c hc) (hint c hc) c.2 fuel hfuel
  obtain ⟨rs, e, hf⟩ := renormalize_ok (P := ⟨gridOf shape, dx, phi, eps⟩) cols
    (fun c hc => by obtain ⟨r, e, _⟩ := hd c hc; exact ⟨r, e⟩)
  refine ⟨rs, e, ?_⟩
  intro i hi
  clear e hphi hint
  unfold materialIndex
  induction hf with
  | nil => rfl
  | @cons c d cs ds h _ ih =>
    obtain ⟨r, er, rfl⟩ := h
    obtain ⟨r', er', hv⟩ := hd c (by simp)
    have : r = r' := by
      have : (Except.ok r : Except MErr Res) = .ok r' := by rw [← er, ← er']
      exact Except.ok.inj this
    subst this
    obtain ⟨v, ev, h1, h2, h3⟩ := hv i hi
    rw [List.map_cons, List.countP_cons, List.countP_cons, ih (fun c hc => hd c (by simp [hc]))]
    congr 1
    have : Nonneg (r.dist i) ↔ Nonneg (some (c.1 i)) := by
      rw [ev]
      simp only [Nonneg]
      constructor
      · intro hv; by_contra hc; have := h2 (not_le.1 hc); linarith
      · intro hc
        rcases hc.eq_or_lt with h | h
        · rw [h3 h.symm]
        · exact (h1 h).le
    exact if_congr (by rw [decide_eq_true_iff, decide_eq_true_iff]; exact this) rfl rfl

/-- If every level set is negative in the whole domain (the other materials have left it), every
cell moves from material 0 to material LSET. -/
theorem renormalize_changes_material {P : Prob} (wf : P.G.WF) (hdx : ∀ d < P.G.ndim, 0 < P.dx d)
    (fuel : Nat) (cols : List ((Nat → ℝ) × Garbage))
    (hneg : ∀ c ∈ cols, ∀ i < P.G.size, c.1 i < 0) :
    ∃ rs, renormalize P fuel cols = .ok rs ∧ ∀ i < P.G.size,
      materialIndex (cols.map fun c j => some (c.1 j)) i = 0 ∧ materialIndex rs i = cols.length := by
  have hd : ∀ c ∈ cols, ∃ r, distance { P with phi := c.1 } c.2 fuel = .ok r ∧ r.error = 2 ∧
      ∀ i < P.G.size, r.dist i = some 0 := by
    intro c hc
    apply distance_no_interface (P := { P with phi := c.1 }) hdx
    rintro i hi (h | ⟨d, hd, dir, a, hn, hx⟩)
    · have := hneg c hc i hi; simp only at h; linarith
    · unfold Crosses at hx
      have h1 := hneg c hc i hi
      have h2 := hneg c hc a (wf.lt _ _ _ _ hi hd hn)
      simp only at hx
      have := mul_pos_of_neg_of_neg h1 h2
      linarith
  obtain ⟨rs, e, hf⟩ := renormalize_ok (P := P) cols
    (fun c hc => by obtain ⟨r, e, _⟩ := hd c hc; exact ⟨r, e⟩)
  refine ⟨rs, e, ?_⟩
  intro i hi
  clear e
  unfold materialIndex
  induction hf with
  | nil => simp
  | @cons c d cs ds h _ ih =>
    obtain ⟨r, er, rfl⟩ := h
    obtain ⟨r', er', _, hv⟩ := hd c (by simp)
    have : r = r' := by
      have : (Except.ok r : Except MErr Res) = .ok r' := by rw [← er, ← er']
      exact Except.ok.inj this
    subst this
    obtain ⟨ih1, ih2⟩ := ih (fun c hc => hneg c (by simp [hc])) (fun c hc => hd c (by simp [hc]))
    have hn := hneg c (by simp) i hi
    constructor
    · rw [List.map_cons, List.countP_cons, ih1]
      rw [if_neg (by rw [decide_eq_true_iff]; exact not_le.2 hn)]
    · rw [List.countP_cons, ih2]
      simp [Nonneg, hv i hi]

/-! ### The hypotheses are met -/

/-- A 2 × 3 field with zeros, both signs and cells away from the interface. -/
example (g : Garbage) : ∃ r, distance ⟨gridOf [2, 3], fun _ => 1 / 2,
    fun i => if i = 0 then -1 else 2, 1 / 10⟩ g 7 = .ok r ∧
      ∀ i < 6, ∃ v, r.dist i = some v ∧
        (0 < (if i = 0 then -1 else 2 : ℝ) → 0 < v) ∧ ((if i = 0 then -1 else 2 : ℝ) < 0 → v < 0) ∧
        ((if i = 0 then -1 else 2 : ℝ) = 0 → v = 0) := by
  refine distance_sign_partial (shape := [2, 3]) (.inr rfl) (by norm_num) (by norm_num) ?_ ?_ g 7
    (by norm_num)
  · intro i _; split <;> norm_num
  · refine ⟨0, by norm_num, .inr ⟨1, by decide, true, 1, ?_, ?_⟩⟩
    · rw [show (⟨gridOf [2, 3], fun _ => 1 / 2, fun i => if i = 0 then -1 else 2, 1 / 10⟩ : Prob).G =
        gridOf [2, 3] from rfl, nb2_1]
      norm_num
    · unfold Crosses; norm_num

/-- A field all of one sign on a 3-cell grid has no interface. -/
example (g : Garbage) : ∃ r, distance ⟨gridOf [3], fun _ => 1, fun _ => -2, 0⟩ g 9 = .ok r ∧
    r.error = 2 ∧ ∀ i < 3, r.dist i = some 0 := by
  refine distance_no_interface (P := ⟨gridOf [3], fun _ => 1, fun _ => -2, 0⟩) (by norm_num) g 9 ?_
  rintro i _ (h | ⟨d, _, dir, a, _, hx⟩)
  · norm_num at h
  · unfold Crosses at hx; norm_num at hx

end Verif.March
