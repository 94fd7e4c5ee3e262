import Verif.Fill.Plane
import Mathlib.Data.Sign.Basic

/-!
# Where neither probe finds the material

The choice of the left state in `fill_boundary_inner` on planes, and a layer of one row on which it reads before the start
of the array.
-/

namespace Verif.Fill

open Verif.Sys Verif.Iter

theorem sgn_eq (x : ℝ) : sgn x = ((SignType.sign x : SignType) : Int) := by
  unfold sgn
  rcases lt_trichotomy x 0 with h | h | h
  · rw [if_neg (by linarith), if_pos h, sign_neg h]; rfl
  · subst h; simp
  · rw [if_pos h, sign_pos h]; rfl

theorem inside_of (n a : Nat) (h : a < n) : inside n ((a : Nat) : Int) = some a := by
  unfold inside
  rw [if_pos (by omega)]
  simp

/-- **The left state where neither probe lies in the material**: cells `A` and `B` are the neighbours against the normal
along the two axes, and the first choice is along the axis of the larger component of the normal.  If only one of them is
of the material it is taken, whichever the axis; if none is, a neighbouring cell of the material on the interface is
taken with the normal along the second axis tried.  The state is written to the outer cell and to the cell `ki` that
contains the surface. -/
theorem boundary_fallback (c : Cfg) (nx ny : Nat) (dX : List ℝ) (mat nmat : Nat) (star : St → St → Nat → List ℝ → St)
    (φ : Nat → ℝ) (Δφ : Nat → List ℝ) (mask : Mask) (u : Nat → St) (i j : Nat) (hi : i < nx) (hj : j < ny) (n0 n1 : ℝ)
    (hk1 : mask (i * ny + j) = 1) (hn : normal (Δφ (i * ny + j)) = some [n0, n1]) (ki kL kR : Nat) (hki : ki < nx * ny)
    (hkL : kL < nx * ny) (hkR : kR < nx * ny)
    (pi : probe [nx, ny] dX [n0, n1] (φ (i * ny + j)) 0 [i, j] = ki)
    (pL : probe [nx, ny] dX [n0, n1] (φ (i * ny + j)) (-1) [i, j] = kL)
    (pR : probe [nx, ny] dX [n0, n1] (φ (i * ny + j)) 1 [i, j] = kR)
    (mi : materialIndex c (u ki) ≠ mat) (mL : materialIndex c (u kL) ≠ mat) (mR : materialIndex c (u kR) < nmat)
    (ia jb : Nat) (hia : ia < nx) (hjb : jb < ny) (eia : (ia : Int) = i - SignType.sign n0)
    (ejb : (jb : Int) = j - SignType.sign n1) :
    let A := ia * ny + j
    let B := i * ny + jb
    let inA := materialIndex c (u A) = mat
    let inB := materialIndex c (u B) = mat
    let along0 : List ℝ := [((SignType.sign n0 : SignType) : ℝ), 0]
    let along1 : List ℝ := [0, ((SignType.sign n1 : SignType) : ℝ)]
    (∃ a, Adj [nx, ny] (i * ny + j) a ∧ mask a = -1) → ∃ src nn,
      (∃ g, boundaryVisit c [nx, ny] dX (nx * ny) mat nmat star φ Δφ mask u (i * ny + j) = some g ∧ ∀ b, g b =
        if b = i * ny + j ∨ b = ki then
          fun q => if q < c.V - c.lset then star (u src) (u kR) (materialIndex c (u kR)) nn q else u b q
        else u b) ∧
      (|n1| < |n0| → inA → src = A ∧ nn = along0) ∧ (|n0| ≤ |n1| → inB → src = B ∧ nn = along1) ∧
      (|n1| < |n0| → ¬ inA → nn = along1) ∧ (|n0| ≤ |n1| → ¬ inB → nn = along0) ∧
      (inA → ¬ inB → src = A) ∧ (inB → ¬ inA → src = B) ∧
      (¬ inA → ¬ inB → Adj [nx, ny] (i * ny + j) src ∧ mask src = -1) := by
  intro A B inA inB along0 along1 hnb
  have hd : (i * ny + j) / ny = i ∧ (i * ny + j) % ny = j := by
    constructor
    · rw [Nat.mul_comm, Nat.mul_add_div (by omega), Nat.div_eq_of_lt hj, Nat.add_zero]
    · rw [Nat.mul_comm, Nat.mul_add_mod, Nat.mod_eq_of_lt hj]
  have lt2 : ∀ p < nx, ∀ q < ny, p * ny + q < nx * ny := fun p hp q hq => by
    calc p * ny + q < p * ny + ny := by omega
      _ = (p + 1) * ny := by ring
      _ ≤ nx * ny := Nat.mul_le_mul_right _ hp
  have hA : A < nx * ny := lt2 ia hia j hj
  have hB : B < nx * ny := lt2 i hi jb hjb
  obtain ⟨b0, hb0, hadj, hm0⟩ : ∃ b : Nat, neighborIndex mask i j nx ny (-1) = (b : Int) ∧ Adj [nx, ny] (i * ny + j) b ∧
      mask b = -1 := by
    rcases neighborIndex_spec mask i j nx ny (-1) hi hj with ⟨b, h1, h2, h3⟩ | ⟨_, hn⟩
    · exact ⟨b, h1, h2, h3⟩
    · exact absurd hnb hn
  have hb0m : b0 < nx * ny := by have := adj_lt hadj.symm; simpa using this
  have eA : ((i : Int) - sgn n0) * ny + j = (A : Int) := by
    rw [sgn_eq, ← eia]; simp only [A]; push_cast; ring
  have eB : (i : Int) * ny + ((j : Int) - sgn n1) = (B : Int) := by
    rw [sgn_eq, ← ejb]; simp only [B]; push_cast; ring
  have s0 : ((sgn n0 : Int) : ℝ) = ((SignType.sign n0 : SignType) : ℝ) := by rw [sgn_eq]; simp
  have s1 : ((sgn n1 : Int) : ℝ) = ((SignType.sign n1 : SignType) : ℝ) := by rw [sgn_eq]; simp
  -- what the code reads
  have key : ∀ src nn, fallback c [nx, ny] (nx * ny) mat u [i, j] [n0, n1] (b0 : Int) = some (u src, nn) →
      ∃ g, boundaryVisit c [nx, ny] dX (nx * ny) mat nmat star φ Δφ mask u (i * ny + j) = some g ∧ ∀ b, g b =
        if b = i * ny + j ∨ b = ki then
          fun q => if q < c.V - c.lset then star (u src) (u kR) (materialIndex c (u kR)) nn q else u b q
        else u b := by
    intro src nn hf
    unfold boundaryVisit
    rw [if_pos hk1, hn]
    simp only [coords, hd, hb0]
    unfold boundaryCell
    rw [pi, pL, pR, inside_of _ _ hki, inside_of _ _ hkL, inside_of _ _ hkR]
    simp only [if_neg mi, if_neg mL, hf, if_pos mR]
    have hm : materialIndex c (Function.update u (i * ny + j) (setHeadOf c (star (u src) (u kR) (materialIndex c (u kR)) nn)
        (u (i * ny + j))) ki) ≠ mat := by
      by_cases h : ki = i * ny + j
      · rw [h, Function.update_self, materialIndex_congr c _ (u (i * ny + j)) fun q _ hq => by
          unfold setHeadOf; rw [if_neg (by omega)], ← h]
        exact mi
      · rwa [Function.update_of_ne h]
    rw [if_pos hm]
    refine ⟨_, rfl, fun b => ?_⟩
    by_cases h1 : b = ki
    · rw [if_pos (Or.inr h1), h1, Function.update_self]
      by_cases h2 : ki = i * ny + j
      · rw [h2, Function.update_self]
        funext q
        unfold setHeadOf
        split_ifs <;> rfl
      · rw [Function.update_of_ne h2]; rfl
    · rw [Function.update_of_ne h1]
      by_cases h2 : b = i * ny + j
      · rw [if_pos (Or.inl h2), h2, Function.update_self]; rfl
      · rw [Function.update_of_ne h2, if_neg (by tauto)]
  have hfb : fallback c [nx, ny] (nx * ny) mat u [i, j] [n0, n1] (b0 : Int) =
      if |n1| < |n0| then
        if inA then some (u A, along0) else if inB then some (u B, along1) else some (u b0, along1)
      else if inB then some (u B, along1) else if inA then some (u A, along0) else some (u b0, along0) := by
    unfold fallback
    simp only [eA, eB, s0, s1]
    by_cases hc : |n1| < |n0|
    · simp only [gt_iff_lt, if_pos hc, inside_of _ _ hA]
      by_cases hia' : materialIndex c (u A) = mat
      · simp only [if_pos hia', inside_of _ _ hA, show inA from hia', if_true, along0]
      · simp only [if_neg hia', inside_of _ _ hB, show ¬ inA from hia', if_false]
        by_cases hib : materialIndex c (u B) = mat
        · simp only [if_pos hib, show inB from hib, if_true, along1]
        · simp only [if_neg hib, show ¬ inB from hib, if_false, inside_of _ _ hb0m, Option.map_some, along1]
    · simp only [gt_iff_lt, if_neg hc, inside_of _ _ hB]
      by_cases hib : materialIndex c (u B) = mat
      · simp only [if_pos hib, inside_of _ _ hB, show inB from hib, if_true, along1]
      · simp only [if_neg hib, inside_of _ _ hA, show ¬ inB from hib, if_false]
        by_cases hia' : materialIndex c (u A) = mat
        · simp only [if_pos hia', show inA from hia', if_true, along0]
        · simp only [if_neg hia', show ¬ inA from hia', if_false, inside_of _ _ hb0m, Option.map_some, along0]
  by_cases hc : |n1| < |n0| <;> by_cases ha : inA <;> by_cases hb : inB
  all_goals simp only [hc, ha, hb, if_true, if_false] at hfb
  all_goals
    refine ⟨_, _, key _ _ hfb, fun h1 h2 => ?_, fun h1 h2 => ?_, fun h1 h2 => ?_, fun h1 h2 => ?_, fun h1 h2 => ?_,
      fun h1 h2 => ?_, fun h1 h2 => ?_⟩ <;> first
      | exact ⟨rfl, rfl⟩
      | rfl
      | exact ⟨hadj, hm0⟩
      | exact absurd ha h2
      | exact absurd hb h2
      | exact absurd h2 ha
      | exact absurd h2 hb
      | exact absurd ha h1
      | exact absurd hb h1
      | exact absurd h1 ha
      | exact absurd h1 hb
      | exact absurd h1 hc
      | exact absurd hc (not_lt.2 h1)

/-- The index of a cell of a `3 × 3` grid whose level sets say that cells 3 and 6 are of the first material. -/
theorem notch_index (c : Cfg) (hc : c = cfgOf true) (a : Nat) :
    materialIndex c (fun k => if k = c.V - 2 then (if a = 3 ∨ a = 6 then -1 else 1) else if k = c.V - 1 then -1 else a) =
      if a = 3 ∨ a = 6 then 0 else 1 := by
  subst hc
  have hV : (cfgOf true).V - (cfgOf true).lset = (cfgOf true).V - 2 := rfl
  have hne : (cfgOf true).V - 1 ≠ (cfgOf true).V - 2 := by simp [cfgOf, Cfg.V]
  have h1 : (cfgOf true).V - 2 + 1 = (cfgOf true).V - 1 := by simp [cfgOf, Cfg.V]
  unfold materialIndex
  simp only [show (cfgOf true).lset = 2 from rfl, List.range_succ, List.range_zero, List.nil_append, List.cons_append,
    List.foldl_cons, List.foldl_nil, Nat.add_zero, h1, if_true]
  by_cases h : a = 3 ∨ a = 6
  · simp only [if_pos h, if_neg hne]; norm_num
  · simp only [if_neg h, if_neg hne]; norm_num

/-- A normal with components 0.6 and 0.8 in the cell above cell 3: the left probe falls in cell 0, which is not of
the material. -/
example : let c := cfgOf true
    let u : Nat → St := fun a k =>
      if k = c.V - 2 then (if a = 3 ∨ a = 6 then -1 else 1) else if k = c.V - 1 then -1 else a
    ∃ src nn, (∃ g, boundaryVisit c [3, 3] [1, 1] (3 * 3) 0 3 (fun QL _ _ _ => QL) (fun _ => 3 / 10) (fun _ => [3 / 5, 4 / 5])
      (fun a => if a = 4 then 1 else if a = 3 then -1 else 0) u (1 * 3 + 1) = some g ∧ ∀ b, g b =
        if b = 1 * 3 + 1 ∨ b = 4 then fun q => if q < c.V - c.lset then u src q else u b q else u b) ∧ src = 3 ∧
      nn = [0, ((SignType.sign (4 / 5 : ℝ) : SignType) : ℝ)] := by
  intro c u
  have hidx : ∀ a, materialIndex c (u a) = if a = 3 ∨ a = 6 then 0 else 1 := fun a => notch_index c rfl a
  have s0 : SignType.sign (3 / 5 : ℝ) = 1 := sign_pos (by norm_num)
  have s1 : SignType.sign (4 / 5 : ℝ) = 1 := sign_pos (by norm_num)
  have hn : normal [3 / 5, 4 / 5] = some [3 / 5, 4 / 5] := by
    unfold normal
    have : Real.sqrt ((List.map (fun x => x * x) [(3 / 5 : ℝ), 4 / 5]).sum) = 1 := by
      rw [Real.sqrt_eq_one]; norm_num
    simp only [this, one_ne_zero, if_false]
    norm_num
  have tr : ∀ (x : ℝ) (k : Nat), (k : ℝ) ≤ x → x < k + 1 → trunc x = k := trunc_eq
  have neg : ∀ x : ℝ, -1 < x → x < 0 → trunc x = 0 := fun x h1 h2 => by
    unfold trunc; rw [if_neg (not_le.2 h2), Int.ceil_eq_iff]; constructor <;> norm_num <;> linarith
  obtain ⟨src, nn, h, _, h2, _⟩ := boundary_fallback c 3 3 [1, 1] 0 3 (fun QL _ _ _ => QL) (fun _ => 3 / 10)
    (fun _ => [3 / 5, 4 / 5]) (fun a => if a = 4 then 1 else if a = 3 then -1 else 0) u 1 1 (by norm_num) (by norm_num) (3 / 5)
    (4 / 5) (by norm_num) hn 4 0 5 (by norm_num) (by norm_num) (by norm_num)
    (by
      simp only [probe, probeCoord, List.zip_cons_cons, List.zip_nil_left, List.map_cons, List.map_nil, flat]
      rw [tr _ 1 (by norm_num) (by norm_num), tr _ 1 (by norm_num) (by norm_num)]; norm_num)
    (by
      simp only [probe, probeCoord, List.zip_cons_cons, List.zip_nil_left, List.map_cons, List.map_nil, flat]
      rw [tr _ 0 (by norm_num) (by norm_num), tr _ 0 (by norm_num) (by norm_num)]; norm_num)
    (by
      simp only [probe, probeCoord, List.zip_cons_cons, List.zip_nil_left, List.map_cons, List.map_nil, flat]
      rw [tr _ 1 (by norm_num) (by norm_num), tr _ 2 (by norm_num) (by norm_num)]; norm_num)
    (by rw [hidx]; norm_num) (by rw [hidx]; norm_num) (by rw [hidx]; norm_num) 0 0 (by norm_num) (by norm_num)
    (by rw [s0]; norm_num) (by rw [s1]; norm_num) ⟨3, (adj2_iff (by norm_num) (by norm_num)).2 (by norm_num), by norm_num⟩
  have := h2 (by rw [abs_of_pos, abs_of_pos] <;> norm_num) (by rw [hidx]; norm_num)
  exact ⟨src, nn, h, this⟩

/-- **A layer of one row next to the low edge of the second axis**: the material fills the second row, `φ` depends on the
row only, the first row is nearer than half a cell to the surface and nearer than the third.  The gradient in the first
row then points away from the edge, the left probe is rounded into the first row, and for the first cell the code reads
the cell before the start of the array. -/
theorem thin_layer_outside (c : Cfg) (nx ny : Nat) (hx : 3 ≤ nx) (hy : 3 ≤ ny) (dx dy : ℝ) (hdx : 0 < dx) (hdy : 0 < dy)
    (mat nmat K : Nat) (star : St → St → Nat → List ℝ → St) (junk : Nat → Nat → ℝ) (φ f : Nat → ℝ) (order : List Nat)
    (ho : order.Perm (List.range (nx * ny))) (u : Nat → St) (hφ : ∀ i < nx, ∀ j < ny, φ (i * ny + j) = f j)
    (f0 : 0 < f 0) (f0' : f 0 < dy / 2) (f1 : f 1 ≤ 0) (f2 : f 0 < f 2) (hmat : materialIndex c (u 0) ≠ mat) :
    ghostCells c [nx, ny] [dx, dy] mat nmat K star φ (slopes [nx, ny] [dx, dy] junk φ) order u = none := by
  have hd : [nx, ny].length = 1 ∨ [nx, ny].length = 2 := Or.inr rfl
  have hp : [nx, ny].prod = nx * ny := by simp
  have hpos : 0 < nx * ny := Nat.mul_pos (by omega) (by omega)
  have φ0 : φ 0 = f 0 := by simpa using hφ 0 (by omega) 0 (by omega)
  have hone : find [nx, ny] φ 0 = 1 := by
    rw [find_one _ hd φ 0 (by rw [hp]; exact hpos), φ0]
    refine ⟨f0, 1, ?_, ?_, fun _ hi => ?_⟩
    · have := (adj2_iff (i := 0) (j := 0) (b := 1) (by omega : 0 < nx) (by omega : 0 < ny)).2 (by
        refine Or.inr (Or.inr (Or.inr ⟨by omega, by omega⟩)))
      simpa using this
    · have := hφ 0 (by omega) 1 (by omega)
      rw [Nat.zero_mul, Nat.zero_add] at this
      rw [this]; exact f1
    · have := hi.2 (1 * ny + 1) (by
        have := (adj2_iff (i := 0) (j := 1) (b := 1 * ny + 1) (by omega : 0 < nx) (by omega : 1 < ny)).2
          (Or.inr (Or.inl ⟨by omega, rfl⟩))
        simpa using this)
      rw [hφ 1 (by omega) 1 (by omega)] at this
      linarith
  have hsl : slopes [nx, ny] [dx, dy] junk φ 0 = [0, (f 2 - f 0) / (2 * dy)] := by
    simp only [slopes, Nat.zero_div, Nat.zero_mod]
    have e0 : finiteDifference2 nx ny junk φ dx dy 0 0 0 = 0 := by
      unfold finiteDifference2 lineDiff
      simp only [if_true]
      rw [Function.update_of_ne (by omega), Function.update_self, if_pos (by omega), hφ _ (by omega) 0 (by omega),
        hφ _ (by omega) 0 (by omega)]
      simp
    have e1 : finiteDifference2 nx ny junk φ dx dy 1 0 0 = (f 2 - f 0) / (2 * dy) := by
      unfold finiteDifference2 lineDiff
      rw [if_neg (by decide)]
      simp only
      rw [Function.update_of_ne (by omega), Function.update_self, if_pos (by omega), hφ 0 (by omega) _ (by omega),
        hφ 0 (by omega) _ (by omega)]
    rw [e0, e1]
  have hs : 0 < (f 2 - f 0) / (2 * dy) := div_pos (by linarith) (by linarith)
  have hn : normal (slopes [nx, ny] [dx, dy] junk φ 0) = some [0, 1] := by
    rw [hsl]
    unfold normal
    have : Real.sqrt ((List.map (fun x => x * x) [(0 : ℝ), (f 2 - f 0) / (2 * dy)]).sum) = (f 2 - f 0) / (2 * dy) := by
      simp only [List.map_cons, List.map_nil, List.sum_cons, List.sum_nil, mul_zero, zero_add, add_zero]
      exact Real.sqrt_mul_self hs.le
    simp only
    rw [this, if_neg hs.ne']
    simp only [List.map_cons, List.map_nil, zero_div, div_self hs.ne']
  have px : ∀ off : ℝ, probeCoord dx 0 (f 0) off 0 = ((0 : Nat) : Int) := fun off => by
    unfold probeCoord
    refine trunc_eq _ 0 ?_ ?_
    · rw [le_div_iff₀ hdx]; push_cast; linarith
    · rw [div_lt_iff₀ hdx]; push_cast; linarith
  have py0 : probeCoord dy 1 (f 0) 0 0 = ((0 : Nat) : Int) := by
    unfold probeCoord
    refine trunc_eq _ 0 ?_ ?_
    · rw [le_div_iff₀ hdy]; push_cast; linarith
    · rw [div_lt_iff₀ hdy]; push_cast; linarith
  have py1 : probeCoord dy 1 (f 0) 1 0 = ((1 : Nat) : Int) := by
    unfold probeCoord
    refine trunc_eq _ 1 ?_ ?_
    · rw [le_div_iff₀ hdy]; push_cast; linarith
    · rw [div_lt_iff₀ hdy]; push_cast; linarith
  have pyL : probeCoord dy 1 (f 0) (-1) 0 = ((0 : Nat) : Int) := by
    unfold probeCoord trunc
    have h1 : (((((0 : Nat) : ℝ) + 0.5) * dy - f 0 * 1 + -1 * dy * 1) / dy) < 0 := by
      rw [div_lt_iff₀ hdy]; push_cast; linarith
    have h2 : -1 < (((((0 : Nat) : ℝ) + 0.5) * dy - f 0 * 1 + -1 * dy * 1) / dy) := by
      rw [lt_div_iff₀ hdy]; push_cast; linarith
    rw [if_neg (not_le.2 h1), Int.ceil_eq_iff]
    constructor <;> push_cast <;> linarith
  have hnone : ∀ g : Nat → St, materialIndex c (g 0) ≠ mat →
      boundaryVisit c [nx, ny] [dx, dy] (nx * ny) mat nmat star φ (slopes [nx, ny] [dx, dy] junk φ) (find [nx, ny] φ) g 0 =
        none := by
    intro g hg
    unfold boundaryVisit
    rw [if_pos hone, hn]
    simp only [coords, Nat.zero_div, Nat.zero_mod, φ0]
    have q : ∀ off b, probeCoord dy 1 (f 0) off 0 = ((b : Nat) : Int) →
        probe [nx, ny] [dx, dy] [0, 1] (f 0) off [0, 0] = (b : Int) := by
      intro off b h
      simp only [probe, List.zip_cons_cons, List.zip_nil_left, List.map_cons, List.map_nil, flat, px, h]
      simp
    unfold boundaryCell
    rw [q 0 0 py0, q 1 1 py1, q (-1) 0 pyL, inside_of _ 0 hpos, inside_of _ 1 (by nlinarith)]
    simp only [if_neg hg]
    have hf : fallback c [nx, ny] (nx * ny) mat g [0, 0] [0, 1] (neighborIndex (find [nx, ny] φ) 0 0 nx ny (-1)) = none := by
      unfold fallback
      have hc : ¬ |(0 : ℝ)| > |1| := by norm_num
      simp only [if_neg hc]
      have : inside (nx * ny) (((0 : Nat) : Int) * (ny : Int) + (((0 : Nat) : Int) - sgn 1)) = none := by
        unfold inside sgn
        rw [if_neg]
        norm_num
      rw [this]
    rw [hf]
  -- every earlier visit keeps the level sets
  have hB : fillBoundary c [nx, ny] [dx, dy] (nx * ny) mat nmat star φ (slopes [nx, ny] [dx, dy] junk φ) (find [nx, ny] φ) order
      u = none := by
    by_contra hc
    obtain ⟨g, hg⟩ := Option.ne_none_iff_exists'.1 hc
    obtain ⟨l, l', rfl⟩ := List.append_of_mem (ho.mem_iff.2 (List.mem_range.2 hpos))
    unfold fillBoundary at hg
    rw [List.foldlM_append] at hg
    obtain ⟨t, ht, hg⟩ := Option.bind_eq_some_iff.1 hg
    have hidx : materialIndex c (t 0) = materialIndex c (u 0) :=
      (boundary_safe c [nx, ny] [dx, dy] (nx * ny) mat nmat star φ _ (find [nx, ny] φ) l u t ht).index 0
    rw [List.foldlM_cons, hnone t (by rw [hidx]; exact hmat)] at hg
    cases hg
  unfold ghostCells
  simp only [hp, hB]

/-- A layer of thickness one cell between surfaces at distances 0.4 and 0.6 from the centres of the rows beside it. -/
example : let c := cfgOf true
    let f : Nat → ℝ := fun j => if j = 0 then 2 / 5 else if j = 1 then -(2 / 5) else 3 / 5
    let u : Nat → St := fun a k => if k = c.V - 2 then f (a % 3) else if k = c.V - 1 then -1 else a
    ghostCells c [3, 3] [1, 1] 0 3 19 (fun QL _ _ _ => QL) (fun a => f (a % 3))
      (slopes [3, 3] [1, 1] (fun _ _ => 0) fun a => f (a % 3)) (List.range 9) u = none := by
  intro c f u
  refine thin_layer_outside c 3 3 le_rfl le_rfl 1 1 one_pos one_pos 0 3 19 _ _ _ f _ (by norm_num) u (fun i hi j hj => ?_)
    (by norm_num [f]) (by norm_num [f]) (by norm_num [f]) (by norm_num [f]) ?_
  · congr 1
    omega
  · have h1 : u 0 (c.V - c.lset + 0) = 2 / 5 := by simp [u, f, c, cfgOf]
    unfold materialIndex
    simp only [show c.lset = 2 from rfl, List.range_succ, List.range_zero, List.nil_append, List.cons_append,
      List.foldl_cons, List.foldl_nil]
    simp only [show (2 : Nat) = c.lset from rfl, h1]
    rw [if_pos (show (0 : ℝ) ≤ 2 / 5 by norm_num)]
    split_ifs <;> omega

end Verif.Fill
