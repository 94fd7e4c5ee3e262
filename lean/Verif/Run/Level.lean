import Verif.Run.DenseStep

/-! # What the flow carries

In first order (`N = 1`) with the interface function of Rusanov level sets obey a maximum principle; mass fractions do not. -/

namespace Verif.Run

open Verif.Sys Verif.Iter Verif.Dg Verif.Fv Verif.Step Verif.Grid Verif.Rot

noncomputable section

variable {c : Sys.Cfg}

/-! ### The update in first order, for every component -/

section one

variable {T : Tab 1} {ι : Type} (h : T.Ok)

include h

theorem one_dervals : T.dervals 0 0 = 0 := by simpa using dervals_const h 0

theorem one_node : T.nodes 0 = 1 / 2 := by
  have := h.exact Polynomial.X (by simp [Polynomial.degree_X])
  simpa [one_w h] using this

theorem one_bint (S : Dg.Sys ι) (d : Nat) (ql qr : ι → ℝ) (v : ι) :
    bint S T d ql qr v = S.bdot d (ql + (1 / 2 : ℝ) • (qr - ql)) (qr - ql) v := by
  rw [bint_get]
  simp [one_w h, one_node h]

/-- The new value of a cell of a line. -/
theorem one_cell1 (S : Dg.Sys ι) (fl : Nat → (ι → ℝ) → (ι → ℝ) → (ι → ℝ)) (wt : Nat → ℝ) (dx : ℝ) (sources : Bool)
    (rec : Nat → Fin 1 → ι → ℝ) (nx : Nat) (mask : Nat → Bool) (u : Nat → ι → ℝ) (i : Nat) (hi : i < nx) (v : ι)
    (hB : ∀ d q, S.bdot d q 0 v = 0) (hs : ∀ q, S.source q v = 0) :
    apply (kern1 S T fl wt dx sources).app (fv1 (kern1 S T fl wt dx sources) rec nx 1 mask) u i v = u i v +
      (if mask i && mask (i + 1) then wt 0 / (2 * dx) *
        (fl 0 (rec i 0) (rec (i + 1) 0) v - bint S T 0 (rec i 0) (rec (i + 1) 0) v) else 0) -
      (if mask (i + 1) && mask (i + 2) then wt 0 / (2 * dx) *
        (fl 0 (rec (i + 1) 0) (rec (i + 2) 0) v + bint S T 0 (rec (i + 1) 0) (rec (i + 2) 0) v) else 0) := by
  rw [apply_get, fv1_at _ rec nx 1 mask i hi]
  change List.foldl (fun (u d : ι → ℝ) => u + d) _ _ v = _
  rw [foldl_add_get, List.map_append, List.sum_append, sum_flatMap_range, sum_flatMap_range]
  have hc : ∀ qh : Fin 1 → ι → ℝ, (((kern1 S T fl wt dx sources).cen 0 qh).map (· v)).sum = 0 := fun qh => by
    have : (fun w => T.dervals 0 0 * qh 0 w) = (0 : ι → ℝ) := by funext w; simp [one_dervals h]
    simp only [kern1, List.map_map, sum_finRange, Finset.univ_unique, Fin.default_eq_zero, Finset.sum_singleton, Function.comp, this]
    cases sources <;> simp [hB, hs]
  have h1 : ((if mask (i + 1) = true then (kern1 S T fl wt dx sources).cen 0 (rec (ind2 (i + 1) 0 1))
      else []).map (· v)).sum = 0 := by
    split_ifs
    · exact hc _
    · rfl
  rw [Finset.sum_range_one, Finset.sum_range_one, h1]
  simp only [List.map_append, List.sum_append, if_single_sum, (kern1_face S T fl wt dx sources 0 _ _ v).1,
    (kern1_face S T fl wt dx sources 0 _ _ v).2, one_trace h, ind2, mul_one, Nat.add_zero]
  cases mask (i + 1) <;> cases mask i <;> cases mask (i + 2) <;>
    simp only [Bool.and_false, Bool.and_true, Bool.and_self, Bool.false_eq_true, if_true, if_false] <;> ring

/-- The new value of a cell of a plane. -/
theorem one_cell2 (S : Dg.Sys ι) (fl : Nat → (ι → ℝ) → (ι → ℝ) → (ι → ℝ)) (wt : Nat → ℝ) (dx dy : ℝ) (sources : Bool)
    (rec : Nat → Nat → ι → ℝ) (nx ny : Nat) (mask : Nat → Bool) (u : Nat → ι → ℝ) (x y : Nat) (hx : x < nx) (hy : y < ny) (v : ι)
    (hB : ∀ d q, S.bdot d q 0 v = 0) (hs : ∀ q, S.source q v = 0) :
    let R := fun p q => rec (cell (x + p) (y + q) (ny + 2)) 0
    let M := fun p q => mask (cell (x + p) (y + q) (ny + 2))
    apply (kern2 S T fl wt dx dy sources).app (fv2 (kern2 S T fl wt dx dy sources) rec nx ny 1 mask) u (cell x y ny) v =
      u (cell x y ny) v +
      ((if M 0 1 && M 1 1 then wt 0 / (2 * dx) * (fl 0 (R 0 1) (R 1 1) v - bint S T 0 (R 0 1) (R 1 1) v) else 0) -
      (if M 1 1 && M 2 1 then wt 0 / (2 * dx) * (fl 0 (R 1 1) (R 2 1) v + bint S T 0 (R 1 1) (R 2 1) v) else 0)) +
      ((if M 1 0 && M 1 1 then wt 0 / (2 * dy) * (fl 1 (R 1 0) (R 1 1) v - bint S T 1 (R 1 0) (R 1 1) v) else 0) -
      (if M 1 1 && M 1 2 then wt 0 / (2 * dy) * (fl 1 (R 1 1) (R 1 2) v + bint S T 1 (R 1 1) (R 1 2) v) else 0)) := by
  intro R M
  rw [apply_get, fv2_at _ rec nx ny 1 mask x y hx hy]
  change List.foldl (fun (u d : ι → ℝ) => u + d) _ _ v = _
  rw [foldl_add_get, List.map_append, List.sum_append, sum_flatMap_range, sum_flatMap_range]
  have hc : ∀ qh : Nat → ι → ℝ, (((kern2 S T fl wt dx dy sources).cen 0 qh).map (· v)).sum = 0 := fun qh => by
    have e : ∀ d, (fun w => Basis.derivs2d T.dervals (fun _ => 0) (fun r => qh r w) d 0) = (0 : ι → ℝ) := fun d => by
      funext w
      unfold Basis.derivs2d
      split_ifs <;> simp [one_dervals h]
    have e0 : ∀ d, (fun w => Basis.derivs2d T.dervals (fun _ => 0) (fun r => qh r w) d (0 * 1 + 0)) = (0 : ι → ℝ) := e
    simp only [kern2, List.finRange_succ, List.finRange_zero, List.map_nil, List.flatMap_cons, List.flatMap_nil, List.map_cons,
      List.append_nil, List.sum_cons, List.sum_nil, Fin.val_zero, e0]
    cases sources <;> simp [hB, hs]
  have h1 : ((if mask (cell (x + 1) (y + 1) (ny + 2)) = true then (kern2 S T fl wt dx dy sources).cen 0
      (rec (ind3 (x + 1) (y + 1) 0 (ny + 2) 1)) else []).map (· v)).sum = 0 := by
    split_ifs
    · exact hc _
    · rfl
  have hi : ∀ i j, ind3 i j 0 (ny + 2) 1 = cell i j (ny + 2) := fun i j => by unfold ind3 cell; omega
  rw [Finset.sum_range_one, Finset.sum_range_one, h1]
  simp only [List.map_append, List.sum_append, if_single_sum,
    (kern2_face S T fl wt dx dy sources 0 (Or.inl rfl) 0 _ _ v).1, (kern2_face S T fl wt dx dy sources 0 (Or.inl rfl) 0 _ _ v).2,
    (kern2_face S T fl wt dx dy sources 1 (Or.inr rfl) 0 _ _ v).1, (kern2_face S T fl wt dx dy sources 1 (Or.inr rfl) 0 _ _ v).2,
    one_trace2 h, hi, Finset.univ_unique, Fin.default_eq_zero, Finset.sum_singleton, one_w h, mul_one, if_true,
    show ¬ (1 : Nat) = 0 from by decide, if_false, R, M, Nat.add_zero]
  cases mask (cell (x + 1) (y + 1) (ny + 2)) <;> cases mask (cell x (y + 1) (ny + 2)) <;> cases mask (cell (x + 1) y (ny + 2)) <;>
    cases mask (cell (x + 2) (y + 1) (ny + 2)) <;> cases mask (cell (x + 1) (y + 2) (ny + 2)) <;>
    simp only [Bool.and_false, Bool.and_true, Bool.and_self, Bool.false_eq_true, if_true, if_false] <;> ring

/-- In first order the predictor keeps a component without source terms. -/
theorem one_keeps1 (S : Dg.Sys ι) (v : ι) (hs : ∀ q, S.source q v = 0) (hB : ∀ d q, S.bdot d q 0 v = 0) (dt dx tol : ℝ) (it : Nat)
    (step : (Fin 1 → ι → ℝ) → (Nat → ι → ℝ) → (Nat → ι → ℝ)) (hstep : ∀ w, IsStep1 T S (initialCondition1 T (rows1 w)) dt dx (step w))
    (nw : (Fin 1 → ι → ℝ) → (Nat → ι → ℝ)) (w : Fin 1 → ι → ℝ) (a : Nat → Fin 1 → ι → ℝ)
    (ha : Step.pred1 false it tol step nw w = some a) : a 0 0 v = w 0 v := by
  unfold Step.pred1 at ha
  simp only [Bool.false_eq_true, if_false, Option.map_eq_some_iff] at ha
  obtain ⟨q, hq, rfl⟩ := ha
  obtain ⟨q', -, e⟩ := predictor1_accepts S _ dt dx tol (step w) (hstep w) _ _ q it hq
  have := e 0 0 v
  have r := initialCondition1_row T (rows1 w) 0 0 v
  have hd : dqdx1 T q' dx 0 0 = 0 := by funext w; simp [dqdx1, one_dervals h]
  simp only [rhs1, hs, hd, hB, r] at this
  simp only [Finset.univ_unique, Fin.default_eq_zero, Finset.sum_singleton, one_mat h, one_w h, one_der h, one_psi h, rows1] at this
  simpa using this

theorem one_keeps2 (S : Dg.Sys ι) (v : ι) (hs : ∀ q, S.source q v = 0) (hB : ∀ d q, S.bdot d q 0 v = 0) (dt dx dy tol : ℝ) (it : Nat)
    (step : (Fin 1 → Fin 1 → ι → ℝ) → (Nat → ι → ℝ) → (Nat → ι → ℝ))
    (hstep : ∀ w, IsStep2 T S (initialCondition2 T (rows2 w)) dt dx dy (step w))
    (nw : (Fin 1 → Fin 1 → ι → ℝ) → (Nat → ι → ℝ)) (w : Fin 1 → Fin 1 → ι → ℝ) (a : Nat → Nat → ι → ℝ)
    (ha : Step.pred2 false it tol step nw w = some a) : a 0 0 v = w 0 0 v := by
  unfold Step.pred2 at ha
  simp only [Bool.false_eq_true, if_false, Option.map_eq_some_iff] at ha
  obtain ⟨q, hq, rfl⟩ := ha
  obtain ⟨k, -, -, hc⟩ := iterate_written (step w) _ _ _ it _ q hq
  rcases hc with ⟨hn, -⟩ | ⟨-, rfl⟩
  · simp at hn
  rw [Function.iterate_succ_apply']
  generalize (step w)^[k] _ = q'
  obtain ⟨U, hU, hr, hcl, hent⟩ := u2_entry T (fun _ _ => 0)
  have := (solves2_iff hr hcl hent _ _).1 (hstep w _ U hU q' (fun r v => rhs2 S T q' (initialCondition2 T (rows2 w)) dt dx dy 0 0 0 v)
    (fun t i j => by fin_cases t; fin_cases i; fin_cases j; rfl)) 0 0 0 v
  have r := initialCondition2_row T (rows2 w) 0 0 0 v
  have hd : ∀ d s, dq2 T q' d s 0 0 0 = 0 := fun d s => by
    funext w
    unfold dq2 Basis.derivs2d
    split_ifs <;> simp [one_dervals h]
  simp only [rhs2, hs, hd, hB, r] at this
  simp only [Finset.univ_unique, Fin.default_eq_zero, Finset.sum_singleton, one_mat h, one_w h, one_der h, one_psi h, rows2] at this
  simpa [List.finRange_succ, one_der h] using this

end one

/-! ### Level sets -/

/-- Component `i` of a cell is one of the level sets: they come last. -/
def IsLevel (c : Sys.Cfg) (i : Nat) : Prop := c.V - c.lset ≤ i ∧ i < c.V

theorem level_ge (hv : c.viscous = true) {i : Nat} (hi : IsLevel c i) : c.mV ≤ i ∧ (c.multi = true → c.mV < i) ∧ 14 ≤ c.mV ∧
    (c.thermal = true → c.mV = 17) := by
  have h14 := Relax.mV_ge' c hv
  obtain ⟨h1, h2⟩ := hi
  refine ⟨?_, fun hm => ?_, h14, fun ht => Relax.mV_thermal' c hv ht⟩
  · unfold Cfg.V at h1; omega
  · unfold Cfg.V at h1; rw [hm] at h1; simp at h1; omega

theorem addAt_skip (k : Nat) (x : ℝ) (r : St) (i : Nat) (h : i ≠ k) : addAt k x r i = r i := if_neg h

theorem addSeg_skip (k : Nat) (x : V3) (r : St) (i : Nat) (h : k + 3 ≤ i) : addSeg k x r i = r i := by
  unfold addSeg
  rw [addAt_skip _ _ _ _ (by omega), addAt_skip _ _ _ _ (by omega), addAt_skip _ _ _ _ (by omega)]

/-- Nothing of a level set is in the fluxes. -/
theorem flux_level (hv : c.viscous = true) (P : Sys.Par) (Q : St) (d : Fin 3) (r : St) {i : Nat} (hi : IsLevel c i) :
    flux c P Q d r i = r i := by
  obtain ⟨h1, h2, h3, h4⟩ := level_ge hv hi
  have hd := d.2
  unfold flux
  simp only [hv, if_true]
  have e0 : fluxBase c P Q d r i = r i := by
    unfold fluxBase
    rw [addAt_skip _ _ _ _ (by omega), addSeg_skip _ _ _ _ (by omega), addAt_skip _ _ _ _ (by omega), addAt_skip _ _ _ _ (by omega)]
  generalize fluxBase c P Q d r = r0 at e0
  have e1 : fluxViscous P Q d r0 i = r0 i := by
    unfold fluxViscous
    simp only
    rw [addAt_skip _ _ _ _ (by omega), addAt_skip _ _ _ _ (by omega), addAt_skip _ _ _ _ (by omega), addSeg_skip _ _ _ _ (by omega),
      addAt_skip _ _ _ _ (by omega)]
  generalize fluxViscous P Q d r0 = r1 at e1
  have e2 : (if c.thermal = true then fluxThermal c P Q d r1 else r1) i = r1 i := by
    split_ifs with ht
    · have := h4 ht
      unfold fluxThermal
      rw [addAt_skip _ _ _ _ (by omega), addSeg_skip _ _ _ _ (by omega), addAt_skip _ _ _ _ (by omega)]
    · rfl
  generalize (if c.thermal = true then fluxThermal c P Q d r1 else r1) = r2 at e2
  rw [← e0, ← e1, ← e2]
  split_ifs with hm
  · exact if_neg (by have := h2 hm; omega)
  · rfl

theorem ofVec_at (q : Fin c.V → ℝ) (v : Fin c.V) (k : Nat) (h : v.1 = k) : ofVec c q k = q v := by
  subst h
  unfold ofVec
  rw [dif_pos v.2]

/-- A face lets a level set move with a velocity below the signal speed, and smears it with the signal speed. -/
theorem face_level {T : Tab 1} (h : T.Ok) (hv : c.viscous = true) (P : Sys.Par) (src : St → St) (junk : St) (d : Nat)
    (ql qr : Fin c.V → ℝ) (v v0 m : Fin c.V) (hl : IsLevel c v) (h0 : v0.1 = 0) (hm : m.1 = 2 + (dir d).1) (pl : 0 < ql v0)
    (pr : 0 < qr v0) :
    ∃ w, |w| ≤ max (speed c P ql d) (speed c P qr d) ∧ bint (gpr c P src junk) T d ql qr v = w * (qr v - ql v) ∧
      rusanov c P d ql qr v = max (speed c P ql d) (speed c P qr d) * (ql v - qr v) := by
  have e : ∀ q : Fin c.V → ℝ, 0 < q v0 → |q m| ≤ speed c P q d * q v0 := fun q hq => by
    have := speed_ge (c := c) P (ofVec c q) (dir d)
    rw [ofVec_at q v0 0 h0, ofVec_at q m _ hm, abs_div, abs_of_pos hq, div_le_iff₀ hq] at this
    exact this
  refine ⟨(ql m + 1 / 2 * (qr m - ql m)) / (ql v0 + 1 / 2 * (qr v0 - ql v0)), ?_, ?_, ?_⟩
  · have a1 := abs_le.1 (e ql pl)
    have a2 := abs_le.1 (e qr pr)
    have b1 := mul_le_mul_of_nonneg_right (le_max_left (speed c P ql d) (speed c P qr d)) pl.le
    have b2 := mul_le_mul_of_nonneg_right (le_max_right (speed c P ql d) (speed c P qr d)) pr.le
    have hp : 0 < ql v0 + 1 / 2 * (qr v0 - ql v0) := by linarith
    rw [abs_div, abs_of_pos hp, div_le_iff₀ hp, abs_le]
    constructor <;> nlinarith
  · rw [one_bint h]
    change bdot c _ _ (dir d) junk v = _
    unfold bdot
    rw [if_pos hv, if_pos (show c.V - c.lset ≤ v.1 ∧ v.1 < c.V from hl), ofVec_at _ v _ rfl]
    unfold vel getRv
    rw [ofVec_at _ v0 0 h0, ofVec_at _ m _ hm]
    simp only [Pi.add_apply, Pi.smul_apply, Pi.sub_apply, smul_eq_mul]
  · unfold rusanov dRus
    rw [flux_level hv _ _ _ _ hl, flux_level hv _ _ _ _ hl, ofVec_at _ v _ rfl, ofVec_at _ v _ rfl]

/-- A value moved towards others by shares adding up to at most one stays between the bounds. -/
theorem blend {lo hi x : ℝ} (hx : lo ≤ x ∧ x ≤ hi) (s : Finset Nat) (a y : Nat → ℝ) (ha : ∀ k ∈ s, 0 ≤ a k)
    (hs : ∑ k ∈ s, a k ≤ 1) (hy : ∀ k ∈ s, lo ≤ y k ∧ y k ≤ hi) :
    lo ≤ x + ∑ k ∈ s, a k * (y k - x) ∧ x + ∑ k ∈ s, a k * (y k - x) ≤ hi := by
  have e : x + ∑ k ∈ s, a k * (y k - x) = (1 - ∑ k ∈ s, a k) * x + ∑ k ∈ s, a k * y k := by
    simp only [mul_sub, Finset.sum_sub_distrib, ← Finset.sum_mul]; ring
  have l1 : ∑ k ∈ s, a k * lo ≤ ∑ k ∈ s, a k * y k := Finset.sum_le_sum fun k hk => mul_le_mul_of_nonneg_left (hy k hk).1 (ha k hk)
  have l2 : ∑ k ∈ s, a k * y k ≤ ∑ k ∈ s, a k * hi := Finset.sum_le_sum fun k hk => mul_le_mul_of_nonneg_left (hy k hk).2 (ha k hk)
  rw [← Finset.sum_mul] at l1 l2
  rw [e]
  have m1 := mul_le_mul_of_nonneg_left hx.1 (sub_nonneg.2 hs)
  have m2 := mul_le_mul_of_nonneg_left hx.2 (sub_nonneg.2 hs)
  constructor <;> linarith

/-- What the two faces of a cell of a line do to a level set. -/
theorem face_share (κ s w x y : ℝ) : κ * (s * (y - x) - w * (x - y)) = κ * (s + w) * (y - x) ∧
    κ * (s * (x - y) + w * (y - x)) = -(κ * (s - w) * (y - x)) := ⟨by ring, by ring⟩

section kernel

variable {T : Tab 1} (h : T.Ok) (hv : c.viscous = true) (P : Sys.Par) (src : St → St) (junk : St) (wt : Nat → ℝ)

include h hv

/-- **A level set stays between its bounds on a line**, for any mask, if no wave crosses half a cell during the step. -/
theorem line_bounds (dt : ℝ) (hwt : wt 0 = dt) (hdt : 0 ≤ dt) (dx : ℝ) (hdx : 0 < dx) (sources : Bool)
    (rec : Nat → Fin 1 → Fin c.V → ℝ) (nx : Nat) (mask : Nat → Bool) (u : Nat → Fin c.V → ℝ) (i : Nat) (hi : i < nx)
    (v v0 : Fin c.V) (hl : IsLevel c v) (h0 : v0.1 = 0) (hs : ∀ Q, src Q v = 0)
    (hpos : ∀ g, i ≤ g → g ≤ i + 2 → 0 < rec g 0 v0) (hcfl : ∀ g, i ≤ g → g ≤ i + 2 → dt * speed c P (rec g 0) 0 ≤ 1 / 2 * dx)
    (lo hi' : ℝ) (hb : ∀ g, i ≤ g → g ≤ i + 2 → lo ≤ rec g 0 v ∧ rec g 0 v ≤ hi') (hu : u i v = rec (i + 1) 0 v) :
    let K := kern1 (gpr c P src junk) T (rusanov c P) wt dx sources
    lo ≤ apply K.app (fv1 K rec nx 1 mask) u i v ∧ apply K.app (fv1 K rec nx 1 mask) u i v ≤ hi' := by
  intro K
  have hV := Iter.V_ge c hv
  let m : Fin c.V := ⟨2, by omega⟩
  have hB : ∀ d q, (gpr c P src junk).bdot d q 0 v = 0 := fun d q => by rw [gpr_bdot_zero c hv]; rfl
  rw [show K = kern1 (gpr c P src junk) T (rusanov c P) wt dx sources from rfl,
    one_cell1 h (gpr c P src junk) (rusanov c P) wt dx sources rec nx mask u i hi v hB (fun q => hs _), hwt, hu]
  obtain ⟨w1, a1, b1, c1⟩ := face_level h hv P src junk 0 (rec i 0) (rec (i + 1) 0) v v0 m hl h0 rfl (hpos i (by omega) (by omega))
    (hpos (i + 1) (by omega) (by omega))
  obtain ⟨w2, a2, b2, c2⟩ := face_level h hv P src junk 0 (rec (i + 1) 0) (rec (i + 2) 0) v v0 m hl h0 rfl
    (hpos (i + 1) (by omega) (by omega)) (hpos (i + 2) (by omega) (by omega))
  rw [b1, c1, b2, c2]
  have hmax : ∀ g g', i ≤ g → g ≤ i + 2 → i ≤ g' → g' ≤ i + 2 → dt * max (speed c P (rec g 0) 0) (speed c P (rec g' 0) 0) ≤ 1 / 2 * dx :=
    fun g g' a1 a2 a3 a4 => by
      rcases le_total (speed c P (rec g 0) 0) (speed c P (rec g' 0) 0) with hle | hle
      · rw [max_eq_right hle]; exact hcfl g' a3 a4
      · rw [max_eq_left hle]; exact hcfl g a1 a2
  have m1 := hmax i (i + 1) (by omega) (by omega) (by omega) (by omega)
  have m2 := hmax (i + 1) (i + 2) (by omega) (by omega) (by omega) (by omega)
  generalize max (speed c P (rec i 0) 0) (speed c P (rec (i + 1) 0) 0) = s1 at *
  generalize max (speed c P (rec (i + 1) 0) 0) (speed c P (rec (i + 2) 0) 0) = s2 at *
  rw [(face_share _ _ _ _ _).1, (face_share _ _ _ _ _).2]
  have a1 := abs_le.1 a1
  have a2 := abs_le.1 a2
  have k0 : 0 ≤ dt / (2 * dx) := by positivity
  have share : ∀ t s, -s ≤ t → t ≤ s → dt * s ≤ 1 / 2 * dx → 0 ≤ dt / (2 * dx) * (s + t) ∧ dt / (2 * dx) * (s + t) ≤ 1 / 2 := by
    intro t s h1 h2 h3
    refine ⟨mul_nonneg k0 (by linarith), ?_⟩
    rw [div_mul_eq_mul_div, div_le_iff₀ (by positivity)]
    nlinarith
  have p1 := share w1 s1 a1.1 a1.2 m1
  have p2 := share (-w2) s2 (by linarith) (by linarith) m2
  rw [← sub_eq_add_neg] at p2
  have key := blend (hb (i + 1) (by omega) (by omega)) (Finset.range 2)
    (fun k => if k = 0 then (if mask i && mask (i + 1) then dt / (2 * dx) * (s1 + w1) else 0) else
      (if mask (i + 1) && mask (i + 2) then dt / (2 * dx) * (s2 - w2) else 0))
    (fun k => if k = 0 then rec i 0 v else rec (i + 2) 0 v)
    (fun k hk => by split_ifs <;> first | exact p1.1 | exact p2.1 | exact le_rfl)
    (by
      simp only [Finset.sum_range_succ, Finset.sum_range_zero, if_true, Nat.one_ne_zero, if_false]
      split_ifs <;> linarith [p1.1, p1.2, p2.1, p2.2])
    (fun k hk => by
      split_ifs
      · exact hb i (by omega) (by omega)
      · exact hb (i + 2) (by omega) (by omega))
  simp only [Finset.sum_range_succ, Finset.sum_range_zero, if_true, Nat.one_ne_zero, if_false] at key
  convert key using 2 <;> split_ifs <;> ring

/-- **The same on a plane**, where the shares `a` and `b` of the axes add up to one half. -/
theorem plane_bounds (dt : ℝ) (hwt : wt 0 = dt) (hdt : 0 ≤ dt) (dx dy : ℝ) (hdx : 0 < dx) (hdy : 0 < dy) (sources : Bool)
    (rec : Nat → Nat → Fin c.V → ℝ) (nx ny : Nat) (mask : Nat → Bool) (u : Nat → Fin c.V → ℝ) (x y : Nat) (hx : x < nx) (hy : y < ny)
    (v v0 : Fin c.V) (hl : IsLevel c v) (h0 : v0.1 = 0) (hs : ∀ Q, src Q v = 0)
    (hpos : ∀ p q, p ≤ 2 → q ≤ 2 → p = 1 ∨ q = 1 → 0 < rec (cell (x + p) (y + q) (ny + 2)) 0 v0) (a b : ℝ) (hab : a + b ≤ 1 / 2)
    (hcfl : ∀ p q, p ≤ 2 → q ≤ 2 → p = 1 ∨ q = 1 → dt * speed c P (rec (cell (x + p) (y + q) (ny + 2)) 0) 0 ≤ a * dx ∧
      dt * speed c P (rec (cell (x + p) (y + q) (ny + 2)) 0) 1 ≤ b * dy)
    (lo hi : ℝ) (hb : ∀ p q, p ≤ 2 → q ≤ 2 → p = 1 ∨ q = 1 → lo ≤ rec (cell (x + p) (y + q) (ny + 2)) 0 v ∧
      rec (cell (x + p) (y + q) (ny + 2)) 0 v ≤ hi) (hu : u (cell x y ny) v = rec (cell (x + 1) (y + 1) (ny + 2)) 0 v) :
    let K := kern2 (gpr c P src junk) T (rusanov c P) wt dx dy sources
    lo ≤ apply K.app (fv2 K rec nx ny 1 mask) u (cell x y ny) v ∧ apply K.app (fv2 K rec nx ny 1 mask) u (cell x y ny) v ≤ hi := by
  intro K
  have hV := Iter.V_ge c hv
  let mx : Fin c.V := ⟨2, by omega⟩
  let my : Fin c.V := ⟨3, by omega⟩
  have hB : ∀ d q, (gpr c P src junk).bdot d q 0 v = 0 := fun d q => by rw [gpr_bdot_zero c hv]; rfl
  rw [show K = kern2 (gpr c P src junk) T (rusanov c P) wt dx dy sources from rfl,
    one_cell2 h (gpr c P src junk) (rusanov c P) wt dx dy sources rec nx ny mask u x y hx hy v hB (fun q => hs _), hwt, hu]
  have share : ∀ (d : Nat) (m : Fin c.V) (e f : ℝ), m.1 = 2 + (dir d).1 → 0 < e → (∀ p q, p ≤ 2 → q ≤ 2 → p = 1 ∨ q = 1 →
      dt * speed c P (rec (cell (x + p) (y + q) (ny + 2)) 0) d ≤ f * e) → ∀ p q p' q', p ≤ 2 → q ≤ 2 → (p = 1 ∨ q = 1) → p' ≤ 2 →
      q' ≤ 2 → (p' = 1 ∨ q' = 1) → ∀ M : Bool,
      (∃ t, 0 ≤ t ∧ t ≤ f ∧ (if M then dt / (2 * e) * (rusanov c P d (rec (cell (x + p) (y + q) (ny + 2)) 0)
          (rec (cell (x + p') (y + q') (ny + 2)) 0) v - bint (gpr c P src junk) T d (rec (cell (x + p) (y + q) (ny + 2)) 0)
          (rec (cell (x + p') (y + q') (ny + 2)) 0) v) else 0) =
        t * (rec (cell (x + p) (y + q) (ny + 2)) 0 v - rec (cell (x + p') (y + q') (ny + 2)) 0 v)) ∧
      (∃ t, 0 ≤ t ∧ t ≤ f ∧ (if M then dt / (2 * e) * (rusanov c P d (rec (cell (x + p) (y + q) (ny + 2)) 0)
          (rec (cell (x + p') (y + q') (ny + 2)) 0) v + bint (gpr c P src junk) T d (rec (cell (x + p) (y + q) (ny + 2)) 0)
          (rec (cell (x + p') (y + q') (ny + 2)) 0) v) else 0) =
        -(t * (rec (cell (x + p') (y + q') (ny + 2)) 0 v - rec (cell (x + p) (y + q) (ny + 2)) 0 v))) := by
    intro d m e f hm he hc p q p' q' p1 q1 pq p1' q1' pq' M
    obtain ⟨w, a1, b1, c1⟩ := face_level h hv P src junk d (rec (cell (x + p) (y + q) (ny + 2)) 0)
      (rec (cell (x + p') (y + q') (ny + 2)) 0) v v0 m hl h0 hm (hpos p q p1 q1 pq) (hpos p' q' p1' q1' pq')
    rw [b1, c1]
    have m1 := hc p q p1 q1 pq
    have m2 := hc p' q' p1' q1' pq'
    have mm : dt * max (speed c P (rec (cell (x + p) (y + q) (ny + 2)) 0) d) (speed c P (rec (cell (x + p') (y + q') (ny + 2)) 0) d) ≤
        f * e := by
      rcases le_total (speed c P (rec (cell (x + p) (y + q) (ny + 2)) 0) d)
        (speed c P (rec (cell (x + p') (y + q') (ny + 2)) 0) d) with hle | hle
      · rw [max_eq_right hle]; exact m2
      · rw [max_eq_left hle]; exact m1
    generalize max (speed c P (rec (cell (x + p) (y + q) (ny + 2)) 0) d) (speed c P (rec (cell (x + p') (y + q') (ny + 2)) 0) d) = s at *
    rw [(face_share _ _ _ _ _).1, (face_share _ _ _ _ _).2]
    have a1 := abs_le.1 a1
    have k0 : 0 ≤ dt / (2 * e) := by positivity
    have s0 : 0 ≤ s := by linarith
    have f0 : 0 ≤ f := by
      have := (mul_nonneg hdt s0).trans mm
      by_contra hf
      nlinarith
    have sh : ∀ t, -s ≤ t → t ≤ s → 0 ≤ dt / (2 * e) * (s + t) ∧ dt / (2 * e) * (s + t) ≤ f := by
      intro t h1 h2
      refine ⟨mul_nonneg k0 (by linarith), ?_⟩
      rw [div_mul_eq_mul_div, div_le_iff₀ (by positivity)]
      nlinarith
    cases M
    · exact ⟨⟨0, le_rfl, f0, by simp⟩, ⟨0, le_rfl, f0, by simp⟩⟩
    · refine ⟨⟨_, (sh w a1.1 a1.2).1, (sh w a1.1 a1.2).2, rfl⟩, ⟨_, (sh (-w) (by linarith) (by linarith)).1,
        (sh (-w) (by linarith) (by linarith)).2, by rw [if_pos rfl, ← sub_eq_add_neg]⟩⟩
  have hc0 := fun p q p1 q1 pq => (hcfl p q p1 q1 pq).1
  have hc1 := fun p q p1 q1 pq => (hcfl p q p1 q1 pq).2
  simp only
  obtain ⟨t0, g0, g0', e0⟩ := (share 0 mx dx a rfl hdx hc0 0 1 1 1 (by omega) (by omega) (by omega) (by omega) (by omega) (by omega)
    (mask (cell (x + 0) (y + 1) (ny + 2)) && mask (cell (x + 1) (y + 1) (ny + 2)))).1
  obtain ⟨t1, g1, g1', e1⟩ := (share 0 mx dx a rfl hdx hc0 1 1 2 1 (by omega) (by omega) (by omega) (by omega) (by omega) (by omega)
    (mask (cell (x + 1) (y + 1) (ny + 2)) && mask (cell (x + 2) (y + 1) (ny + 2)))).2
  obtain ⟨t2, g2, g2', e2⟩ := (share 1 my dy b rfl hdy hc1 1 0 1 1 (by omega) (by omega) (by omega) (by omega) (by omega) (by omega)
    (mask (cell (x + 1) (y + 0) (ny + 2)) && mask (cell (x + 1) (y + 1) (ny + 2)))).1
  obtain ⟨t3, g3, g3', e3⟩ := (share 1 my dy b rfl hdy hc1 1 1 1 2 (by omega) (by omega) (by omega) (by omega) (by omega) (by omega)
    (mask (cell (x + 1) (y + 1) (ny + 2)) && mask (cell (x + 1) (y + 2) (ny + 2)))).2
  rw [e0, e1, e2, e3]
  have key := blend (hb 1 1 (by omega) (by omega) (by omega)) (Finset.range 4)
    (fun k => if k = 0 then t0 else if k = 1 then t1 else if k = 2 then t2 else t3)
    (fun k => if k = 0 then rec (cell (x + 0) (y + 1) (ny + 2)) 0 v else if k = 1 then rec (cell (x + 2) (y + 1) (ny + 2)) 0 v else
      if k = 2 then rec (cell (x + 1) (y + 0) (ny + 2)) 0 v else rec (cell (x + 1) (y + 2) (ny + 2)) 0 v)
    (fun k hk => by split_ifs <;> assumption)
    (by
      simp [Finset.sum_range_succ]
      linarith)
    (fun k hk => by
      split_ifs
      · exact hb 0 1 (by omega) (by omega) (by omega)
      · exact hb 2 1 (by omega) (by omega) (by omega)
      · exact hb 1 0 (by omega) (by omega) (by omega)
      · exact hb 1 2 (by omega) (by omega) (by omega))
  simp only [Finset.sum_range_succ, Finset.sum_range_zero, if_true, Nat.one_ne_zero, if_false, show ¬ (2 : Nat) = 0 from by decide,
    show ¬ (2 : Nat) = 1 from by decide, show ¬ (3 : Nat) = 0 from by decide, show ¬ (3 : Nat) = 1 from by decide,
    show ¬ (3 : Nat) = 2 from by decide] at key
  constructor <;> linarith [key.1, key.2]

end kernel

/-! ### One step -/

section quiet

variable {n : Nat} (E : Env c n)

/-- A component without source terms. -/
structure Quiet (dt : ℝ) (v : Fin c.V) : Prop where
  src : ∀ Q, E.src Q v = 0
  ode : ∀ q, E.Number dt q → E.ode dt q v = q v

/-- Density and energy are quiet, momentum too without body forces. -/
theorem quiet_head (hv : c.viscous = true) (hE : E.Ok) (dt : ℝ) (v : Fin c.V) (h5 : v.1 < 5) (hf : force E.P v = 0) : Quiet E dt v :=
  ⟨fun Q => by
    obtain ⟨rate, hr⟩ := hE.src Q
    have h14 := Relax.mV_ge' c hv
    rw [hr, Relax.source_val c E.P rate _ hv, ← hf]
    unfold force
    split_ifs <;> first | rfl | omega,
   fun q hq => by rw [ode_force E hv hE dt q hq v h5, hf]; ring⟩

/-- Mass fractions are quiet without reactions, and what comes after them is. -/
theorem quiet_tail (hv : c.viscous = true) (hE : E.Ok) (dt : ℝ) (v : Fin c.V) (h1 : c.mV ≤ v.1)
    (hne : E.P.reaction > -1 → v.1 ≠ c.mV) : Quiet E dt v := by
  have h14 := Relax.mV_ge' c hv
  have hth : ¬ (c.thermal = true ∧ 14 ≤ v.1 ∧ v.1 < 17) := fun ⟨ht, _, h⟩ => by have := Relax.mV_thermal' c hv ht; omega
  refine ⟨fun Q => ?_, fun q hq => ?_⟩
  · obtain ⟨rate, hr⟩ := hE.src Q
    rw [hr, Relax.source_val c E.P rate _ hv, dif_neg (by omega), dif_neg (by omega), dif_neg hth, if_neg]
    exact fun ⟨a, b⟩ => hne a b
  · obtain ⟨Q, hQ⟩ := Option.isSome_iff_exists.1 hq
    unfold Env.ode
    rw [hQ]
    simp only [Relax.odeCell, Option.bind_eq_some_iff] at hQ
    obtain ⟨R, hR, hQ⟩ := hQ
    obtain ⟨k1, -, -⟩ := Relax.odeAnalytic_spec c E.P E.svd _ _ R hv (hE.svd _) hR
    have hQR : Q v = R v := by
      unfold Relax.odeNumerical at hQ
      simp only at hQ
      split_ifs at hQ with a1 a2 a3
      · rw [Option.map_eq_some_iff] at hQ
        obtain ⟨y, -, rfl⟩ := hQ
        unfold setAt
        rw [if_neg (hne a1)]
      · rw [Option.some.inj hQ]
      · rw [Option.some.inj hQ]
    simp only
    rw [hQR, k1 v (by omega) hth, ofVec_at q v _ rfl]

theorem quiet_mass (hv : c.viscous = true) (hE : E.Ok) (dt : ℝ) (v : Fin c.V) (h0 : v.1 = 0) : Quiet E dt v :=
  quiet_head E hv hE dt v (by omega) (by simp [force, h0])

/-- Level sets are quiet, except that in a build without `MULTI` a material with a reaction would feed it into the first of them,
which is then where the mass fraction would be. -/
theorem quiet_level (hv : c.viscous = true) (hE : E.Ok) (hr : c.multi = true ∨ ¬ E.P.reaction > -1) (dt : ℝ) (v : Fin c.V)
    (hl : IsLevel c v) : Quiet E dt v := by
  obtain ⟨h1, h2, -, -⟩ := level_ge hv hl
  refine quiet_tail E hv hE dt v h1 fun hR => ?_
  rcases hr with hm | hm
  · have := h2 hm; omega
  · exact absurd hR hm

end quiet

variable (E : Env c 1)

/-- Ghost cells hold the level sets of the cells they are copied from. -/
theorem ghost_quiet (N : Nat) (ds : Option (Grid.Cell ℝ → Grid.Cell ℝ)) (hds : ∀ f, ds = some f → ∀ q k, k = 0 ∨ 14 ≤ k → f q k = q k) (d : Nat)
    (hd : d < 3) (b0 b1 : BT) (nx k : Nat) (q : Grid.Cell ℝ) (v : Nat) (hv : v = 0 ∨ 14 ≤ v) :
    ghostOf ⟨N, ds⟩ d b0 b1 nx k q v = q v := by
  have hd' : ∀ q, Grid.Cfg.ds ⟨N, ds⟩ q v = q v := fun q => by
    unfold Grid.Cfg.ds
    cases hs : ds with
    | none => rfl
    | some f => exact hds f hs q v hv
  have hn : ∀ (q : Grid.Cell ℝ) j, v ≠ j → negAt q j v = q v := fun q j hj => by
    simp [negAt, hj]
  have hw : ∀ b, wall ⟨N, ds⟩ d b q q v = q v := fun b => by
    cases b
    · rfl
    · rfl
    · simp only [wall, slip]; rw [hd', hn _ _ (by omega)]
    · simp only [wall, stick, negMom]; rw [hd', hn _ _ (by omega), hn _ _ (by omega), hn _ _ (by omega)]
    · simp only [wall, moving, negMom]
      rw [hd', Function.update_of_ne (by omega), Function.update_of_ne (by omega), hn _ _ (by omega), hn _ _ (by omega), hn _ _ (by omega)]
    · simp only [wall, symmetric]
      rw [hn _ _ (by omega), hn _ _ (by omega), hn _ _ (by omega), hn _ _ (by omega), hn _ _ (by omega), hn _ _ (by omega),
        hn _ _ (by omega)]
    · rfl
  unfold ghostOf
  split_ifs
  · exact hw b0
  · rfl
  · exact hw b1

/-- `destress` keeps the density and everything after the distortion. -/
theorem destress_quiet (svd : M3 → M3 × V3 × M3) (q : St) (k : Nat) (hk : k = 0 ∨ 14 ≤ k) : Grid.destress svd q k = q k := by
  unfold Grid.destress
  exact setA_other _ _ _ (by omega)

/-- Component `v` of every padded cell is that of a cell of the grid. -/
theorem pads1_quiet {n : Nat} (E : Env c n) (hE : E.Ok) (hds : ∀ f, E.destress = some f → ∀ q k, k = 0 ∨ 14 ≤ k → f q k = q k) (b : Nat → BT)
    (h0 : b 0 ≠ .other) (h1 : b 1 ≠ .other) (u : Iter.Mem) (ub : Nat → Fin c.V → ℝ) (hp : Pads1 E b u ub)
    (v : Fin c.V) (hv : v.1 = 0 ∨ 14 ≤ v.1) (r : Nat) (hr : r < E.nx + 2 * n) : ∃ i < E.nx, ub r v = u (i * c.V + v) := by
  obtain ⟨old, m', hm, hub⟩ := hp
  obtain ⟨m'', e, a, -⟩ := Grid.boundaries_1d ⟨n, E.destress⟩ E.nx (b 0) (b 1) (memOf c u old) hE.wide.1 h0 h1
  rw [hm] at e
  cases e
  refine ⟨srcOf n (b 0) (b 1) E.nx r, srcOf_lt hE.wide.1 (by have := hE.wide.1; have := hE.tab.pos; omega) hr, ?_⟩
  rw [hub, a r hr, ghost_quiet _ E.destress hds 0 (by omega) _ _ _ _ _ _ hv]
  rfl

theorem pads2_quiet (hE : E.Ok) (hds : ∀ f, E.destress = some f → ∀ q k, k = 0 ∨ 14 ≤ k → f q k = q k) (b : Nat → BT)
    (hb : ∀ k < 4, b k ≠ .other) (u : Iter.Mem) (ub : Nat → Fin c.V → ℝ) (hp : Pads2 E b u ub)
    (v : Fin c.V) (hv : v.1 = 0 ∨ 14 ≤ v.1) (r s : Nat) (hr : r < E.nx + 2) (hs : s < E.ny + 2) :
    ∃ i < E.nx * E.ny, ub (cell r s (E.ny + 2)) v = u (i * c.V + v) := by
  obtain ⟨old, m', hm, hub⟩ := hp
  obtain ⟨hx, hy⟩ := hE.wide
  obtain ⟨m'', e, a, -⟩ := Grid.boundaries_2d ⟨1, E.destress⟩ E.nx E.ny (b 0) (b 1) (b 2) (b 3) (memOf c u old) hx hy
    (hb 0 (by omega)) (hb 1 (by omega)) (hb 2 (by omega)) (hb 3 (by omega))
  rw [hm] at e
  cases e
  have := a r (by simpa using hr) s (by simpa using hs)
  refine ⟨srcOf 1 (b 0) (b 1) E.nx r * E.ny + srcOf 1 (b 2) (b 3) E.ny s, Grid.flat_lt (srcOf_lt hx (by omega) (show r < E.nx + 2 * 1 by omega))
    (srcOf_lt hy (by omega) (show s < E.ny + 2 * 1 by omega)), ?_⟩
  rw [hub]
  unfold cell
  simp only [mul_one] at this
  rw [this, ghost_quiet _ E.destress hds _ (by omega) _ _ _ _ _ _ hv, ghost_quiet _ E.destress hds _ (by omega) _ _ _ _ _ _ hv]
  rfl

/-- **A step of first order on a line in quiet components**: the update of `fv.cpp` from states that have the values of the padded
array there. -/
theorem line_first (W : Weno.Setup 1) (undef : ℝ) (it : Nat) (tol : ℝ) (hv : c.viscous = true) (hE : E.Ok)
    (hX : E.Explicit W undef it tol) (b : Nat → BT) (h0 : b 0 ≠ .other) (h1 : b 1 ≠ .other) (split : Bool) (threads : Nat)
    (hT : 0 < threads) (dt : ℝ) (u u' : Iter.Mem) (hrun : LineRuns E b split dt u)
    (hm : MovesLine E b split threads dt u u') :
    ∃ (ub w : Nat → Fin c.V → ℝ) (rec : Nat → Fin 1 → Fin c.V → ℝ) (mask : Nat → Bool) (wt : Nat → ℝ) (sources : Bool),
      Pads1 E b u ub ∧ wt 0 = dt ∧ (∀ g < E.nx + 2, LineState E b split dt u (rec g 0) ∧ ∀ v, Quiet E dt v → rec g 0 v = ub g v) ∧
      (∀ i < E.nx, ∀ v : Fin c.V, Quiet E dt v → w i v = u (i * c.V + v) ∧ rec (i + 1) 0 v = u (i * c.V + v)) ∧ (∀ g < E.nx + 2, mask g = true) ∧
      ∀ i < E.nx, ∀ v : Fin c.V, Quiet E dt v → u' (i * c.V + v) =
        apply (kern1 E.sys E.T E.fl wt E.dx sources).app (fv1 (kern1 E.sys E.T E.fl wt E.dx sources) rec E.nx 1 mask) w i v := by
  have hx0 : 0 < E.nx := hE.wide.1
  have hb : ∀ d q, E.sys.bdot d q 0 = 0 := fun d q => gpr_bdot_zero c hv E.P E.src E.junk d q
  obtain ⟨ub, maskb, hp, hm⟩ := hm
  have hM := mask1_true E.nx hx0 maskb
  have hgrid := pads1_grid E hE b h0 h1 u ub hp
  have hr := hrun ub hp
  cases split
  · obtain ⟨l, gar, hl, e⟩ := hm
    simp only [Bool.false_eq_true, if_false] at hr
    obtain ⟨step, nw, i1, p1⟩ := hX.pred1 dt
    have hset : ∀ j < E.nx + 2, (E.pred1 dt (weno1G E.coef ub ((E.nx + 2 : Nat) : Int) 0 j)).isSome := fun j hj => by
      rw [hX.coef, one_weno1]; exact hr j hj
    have hst : ∀ g < E.nx + 2, LineState E b false dt u (orGarbage (Grid.extendMask1 E.nx (fun _ => true) maskb (g / 1))
          (E.pred1 dt (weno1G E.coef ub ((E.nx + 2 : Nat) : Int) 0 (g / 1))) (gar 0 (g / 1)) (g % 1) 0) ∧
        ∀ v, Quiet E dt v → orGarbage (Grid.extendMask1 E.nx (fun _ => true) maskb (g / 1))
          (E.pred1 dt (weno1G E.coef ub ((E.nx + 2 : Nat) : Int) 0 (g / 1))) (gar 0 (g / 1)) (g % 1) 0 v = ub g v := fun g hg => by
      obtain ⟨a, ha⟩ := Option.isSome_iff_exists.1 (hr g hg)
      have hget : orGarbage (Grid.extendMask1 E.nx (fun _ => true) maskb (g / 1))
          (E.pred1 dt (weno1G E.coef ub ((E.nx + 2 : Nat) : Int) 0 (g / 1))) (gar 0 (g / 1)) (g % 1) = a 0 := by
        rw [Nat.div_one, Nat.mod_one, hM g hg, hX.coef, one_weno1, ha]
        rfl
      simp only [hget]
      refine ⟨⟨ub, g, hp, hg, a, ha, rfl⟩, fun v q => ?_⟩
      rw [p1] at ha
      exact one_keeps1 hE.tab E.sys v (fun q' => q.src _) (fun d q => by rw [hb]; rfl) dt E.dx tol it step i1 nw _ a ha
    refine ⟨ub, cellsOf c u, fun g => orGarbage (Grid.extendMask1 E.nx (fun _ => true) maskb (g / 1))
          (E.pred1 dt (weno1G E.coef ub ((E.nx + 2 : Nat) : Int) 0 (g / 1))) (gar 0 (g / 1)) (g % 1),
      Grid.extendMask1 E.nx (fun _ => true) maskb, E.wt dt, true, hp, by simp [Env.wt, one_w hE.tab], hst,
      fun i hi v q => ⟨rfl, by have := (hst (i + 1) (by omega)).2 v q; rw [hgrid i hi] at this; exact this⟩, hM, ?_⟩
    · intro i hi v q
      rw [e i hi v, ader_para1 _ (E.pred1 dt) _ ub E.nx _ threads hT (gar 0) gar (fun j hj _ => hset j hj) l hl]
      rfl
  · obtain ⟨l, hl, e⟩ := hm
    simp only [if_true] at hr
    obtain ⟨hr, hr2⟩ := hr
    have hget : ∀ g, (if (E.half && Grid.extendMask1 E.nx (fun _ => true) maskb g) = true
        then E.mid1 dt (weno1G E.coef (fun r => E.ode dt (ub r)) ((E.nx + 2 : Nat) : Int) 0 g)
        else weno1G E.coef (fun r => E.ode dt (ub r)) ((E.nx + 2 : Nat) : Int) 0 g) = fun _ => E.ode dt (ub g) := by
      intro g
      rw [hX.coef, one_weno1, hX.mid1, mid1_const hE.tab _ (hb 0 _), ite_self]
    have ho : ∀ i < E.nx, ∀ v : Fin c.V, Quiet E dt v → E.ode dt (ub (i + 1)) v = u (i * c.V + v) := fun i hi v q => by
      rw [q.ode _ (hr _ (by omega)), hgrid i hi]; rfl
    refine ⟨ub, fun i => E.ode dt (cellsOf c u i), fun g _ => E.ode dt (ub g), Grid.extendMask1 E.nx (fun _ => true) maskb, fun _ => dt, false, hp, rfl, fun g hg =>
      ⟨⟨ub, g, hp, hg, rfl⟩, fun v q => q.ode _ (hr g hg)⟩,
      fun i hi v q => ⟨by simp only; rw [← hgrid i hi]; exact ho i hi v q, ho i hi v q⟩, hM, ?_⟩
    intro i hi v q
    rw [e i hi v, split_para1 _ (E.ode dt) E.half (E.mid1 dt) (fun q => q) _ ub E.nx _ threads hT l hl]
    unfold split1
    rw [split_get _ _ _ _ _ _ hi]
    have hh := q.ode _ (hr2 maskb i hi)
    unfold before1 at hh
    refine hh.trans ?_
    simp only [hget]

/-- **A step of first order on a plane in quiet components.** -/
theorem plane_first (W : Weno.Setup 1) (undef : ℝ) (it : Nat) (tol : ℝ) (hv : c.viscous = true) (hE : E.Ok)
    (hX : E.Explicit W undef it tol) (b : Nat → BT) (hb' : ∀ k < 4, b k ≠ .other) (nc split : Bool) (threads : Nat)
    (hT : 0 < threads) (dt : ℝ) (u u' : Iter.Mem) (hrun : PlaneRuns E b split dt u)
    (hm : MovesPlane E b nc split threads dt u u') :
    ∃ (ub w : Nat → Fin c.V → ℝ) (rec : Nat → Nat → Fin c.V → ℝ) (mask : Nat → Bool) (wt : Nat → ℝ) (sources : Bool),
      Pads2 E b u ub ∧ wt 0 = dt ∧
      (∀ g s, g < E.nx + 2 → s < E.ny + 2 → (0 < g ∧ g < E.nx + 1 ∨ 0 < s ∧ s < E.ny + 1) →
        mask (cell g s (E.ny + 2)) = true ∧ PlaneState E b split dt u (rec (cell g s (E.ny + 2)) 0) ∧
        ∀ v, Quiet E dt v → rec (cell g s (E.ny + 2)) 0 v = ub (cell g s (E.ny + 2)) v) ∧
      (∀ x y, x < E.nx → y < E.ny → ∀ v : Fin c.V, Quiet E dt v → w (cell x y E.ny) v = u (cell x y E.ny * c.V + v) ∧
        rec (cell (x + 1) (y + 1) (E.ny + 2)) 0 v = u (cell x y E.ny * c.V + v)) ∧
      ∀ x y, x < E.nx → y < E.ny → ∀ v : Fin c.V, Quiet E dt v → u' (cell x y E.ny * c.V + v) =
        apply (kern2 E.sys E.T E.fl wt E.dx E.dy sources).app
          (fv2 (kern2 E.sys E.T E.fl wt E.dx E.dy sources) rec E.nx E.ny 1 mask) w (cell x y E.ny) v := by
  rw [corners_first] at hm
  have hx0 : 0 < E.nx := hE.wide.1
  have hy0 : 0 < E.ny := hE.wide.2
  have hb : ∀ d q, E.sys.bdot d q 0 = 0 := fun d q => gpr_bdot_zero c hv E.P E.src E.junk d q
  obtain ⟨ub, maskb, hp, hm⟩ := hm
  have hM := mask2_true E.nx E.ny hx0 hy0 maskb
  have hgrid := pads2_grid E hE b hb' u ub hp
  have hr := hrun ub hp
  have hcd := fun g s (hs : s < E.ny + 2) => cell_div (E.ny + 2) g s hs
  cases split
  · obtain ⟨l, gar, hl, e⟩ := hm
    simp only [Bool.false_eq_true, if_false] at hr
    obtain ⟨step, nw, i1, p1⟩ := hX.pred2 dt
    have hset : ∀ j k, j < E.nx + 2 → k < E.ny + 2 → (E.pred2 dt (weno2G E.coef false ub (E.nx + 2) (E.ny + 2) j k)).isSome :=
      fun j k hj hk => by rw [hX.coef, one_weno2]; exact hr j hj k hk
    have hst : ∀ g s, g < E.nx + 2 → s < E.ny + 2 → (0 < g ∧ g < E.nx + 1 ∨ 0 < s ∧ s < E.ny + 1) →
        Grid.extendMask2 E.nx E.ny (fun _ => true) maskb (cell g s (E.ny + 2)) = true ∧ PlaneState E b false dt u (orGarbage (Grid.extendMask2 E.nx E.ny (fun _ => true) maskb (cell g s (E.ny + 2) / 1))
          (E.pred2 dt (weno2G E.coef false ub (E.nx + 2) (E.ny + 2) (cell g s (E.ny + 2) / 1 / (E.ny + 2))
            (cell g s (E.ny + 2) / 1 % (E.ny + 2)))) (gar 0 (cell g s (E.ny + 2) / 1)) (cell g s (E.ny + 2) % 1) 0) ∧
        ∀ v, Quiet E dt v → orGarbage (Grid.extendMask2 E.nx E.ny (fun _ => true) maskb (cell g s (E.ny + 2) / 1))
          (E.pred2 dt (weno2G E.coef false ub (E.nx + 2) (E.ny + 2) (cell g s (E.ny + 2) / 1 / (E.ny + 2))
            (cell g s (E.ny + 2) / 1 % (E.ny + 2)))) (gar 0 (cell g s (E.ny + 2) / 1)) (cell g s (E.ny + 2) % 1) 0 v = ub (cell g s (E.ny + 2)) v := fun g s hg hs hc => by
      have hmk := hM g s ⟨hg, hs, hc⟩
      refine ⟨hmk, ?_⟩
      obtain ⟨a, ha⟩ := Option.isSome_iff_exists.1 (hr g hg s hs)
      have hget : orGarbage (Grid.extendMask2 E.nx E.ny (fun _ => true) maskb (cell g s (E.ny + 2) / 1))
          (E.pred2 dt (weno2G E.coef false ub (E.nx + 2) (E.ny + 2) (cell g s (E.ny + 2) / 1 / (E.ny + 2))
            (cell g s (E.ny + 2) / 1 % (E.ny + 2)))) (gar 0 (cell g s (E.ny + 2) / 1)) (cell g s (E.ny + 2) % 1) = a 0 := by
        rw [Nat.div_one, Nat.mod_one, (hcd _ _ hs).1, (hcd _ _ hs).2, hmk, hX.coef, one_weno2]
        unfold cell at ha
        rw [ha]
        rfl
      simp only [hget]
      refine ⟨⟨ub, g, s, hp, hg, hs, a, ha, rfl⟩, fun v q => ?_⟩
      rw [p1] at ha
      exact one_keeps2 hE.tab E.sys v (fun q' => q.src _) (fun d q => by rw [hb]; rfl) dt E.dx E.dy tol it step i1 nw _ a ha
    refine ⟨ub, cellsOf c u, fun g => orGarbage (Grid.extendMask2 E.nx E.ny (fun _ => true) maskb (g / 1))
          (E.pred2 dt (weno2G E.coef false ub (E.nx + 2) (E.ny + 2) (g / 1 / (E.ny + 2)) (g / 1 % (E.ny + 2)))) (gar 0 (g / 1)) (g % 1),
      Grid.extendMask2 E.nx E.ny (fun _ => true) maskb, E.wt dt, true, hp, by simp [Env.wt, one_w hE.tab], hst, fun x y hx hy v q =>
        ⟨rfl, by have := (hst (x + 1) (y + 1) (by omega) (by omega) (by omega)).2.2 v q; rw [hgrid x y hx hy] at this; exact this⟩, ?_⟩
    · intro x y hx hy v q
      rw [e _ (cell_lt hx hy) v,
        ader_para2_partial Nat.one_pos _ (E.pred2 dt) _ ub E.nx E.ny _ threads hT (gar 0) gar (fun j k hj hk _ => hset j k hj hk) l hl]
      rfl
  · obtain ⟨l, hl, e⟩ := hm
    simp only [if_true] at hr
    obtain ⟨hr, hr2⟩ := hr
    have ho : ∀ x y, x < E.nx → y < E.ny → ∀ v : Fin c.V, Quiet E dt v →
        E.ode dt (ub (cell (x + 1) (y + 1) (E.ny + 2))) v = u (cell x y E.ny * c.V + v) := fun x y hx hy v q => by
      rw [q.ode _ (hr _ (by omega) _ (by omega)), hgrid x y hx hy]; rfl
    have hget : ∀ g s, s < E.ny + 2 → E.block (if (E.half && Grid.extendMask2 E.nx E.ny (fun _ => true) maskb (cell g s (E.ny + 2))) = true
        then E.mid2 dt (weno2G E.coef false (fun r => E.ode dt (ub r)) (E.nx + 2) (E.ny + 2)
          (cell g s (E.ny + 2) / (E.ny + 2)) (cell g s (E.ny + 2) % (E.ny + 2)))
        else weno2G E.coef false (fun r => E.ode dt (ub r)) (E.nx + 2) (E.ny + 2)
          (cell g s (E.ny + 2) / (E.ny + 2)) (cell g s (E.ny + 2) % (E.ny + 2))) 0 = E.ode dt (ub (cell g s (E.ny + 2))) := fun g s hs => by
      rw [hX.coef, one_weno2, hX.mid2, mid2_const hE.tab _ (fun d => hb d _), ite_self, hX.block, (hcd _ _ hs).1, (hcd _ _ hs).2]
      exact rows2_get (fun _ _ : Fin 1 => E.ode dt (ub _)) 0 0
    refine ⟨ub, fun i => E.ode dt (cellsOf c u i), fun g => E.block (if (E.half && Grid.extendMask2 E.nx E.ny (fun _ => true) maskb g) = true
        then E.mid2 dt (weno2G E.coef false (fun r => E.ode dt (ub r)) (E.nx + 2) (E.ny + 2) (g / (E.ny + 2)) (g % (E.ny + 2)))
        else weno2G E.coef false (fun r => E.ode dt (ub r)) (E.nx + 2) (E.ny + 2) (g / (E.ny + 2)) (g % (E.ny + 2))),
      Grid.extendMask2 E.nx E.ny (fun _ => true) maskb, fun _ => dt, false, hp, rfl, fun g s hg hs hc => ?_,
      fun x y hx hy v q => ?_, ?_⟩
    · simp only [hget g s hs]
      exact ⟨hM g s ⟨hg, hs, hc⟩, ⟨ub, g, s, hp, hg, hs, rfl⟩, fun v q => q.ode _ (hr g hg s hs)⟩
    · simp only [hget (x + 1) (y + 1) (by omega)]
      exact ⟨by rw [← hgrid x y hx hy]; exact ho x y hx hy v q, ho x y hx hy v q⟩
    · intro x y hx hy v q
      rw [e _ (cell_lt hx hy) v, split_para2_partial Nat.one_pos _ (E.ode dt) E.half (E.mid2 dt) E.block _ ub E.nx E.ny _ threads hT l hl]
      unfold split2
      rw [split_get _ _ _ _ _ _ (cell_lt hx hy)]
      have hh := q.ode _ (hr2 maskb _ (cell_lt hx hy))
      unfold before2 at hh
      exact hh

/-- Component `v` of every cell of the grid is between `lo` and `hi`. -/
def Between (c : Sys.Cfg) (ncell v : Nat) (lo hi : ℝ) (u : Iter.Mem) : Prop :=
  ∀ i < ncell, lo ≤ u (i * c.V + v) ∧ u (i * c.V + v) ≤ hi

/-- **In first order no step on a line takes a level set out of the range it had**, for any number and schedule of threads, with
`ader_stepper` and with `split_stepper`, between any ends. -/
theorem line_level (W : Weno.Setup 1) (undef : ℝ) (it : Nat) (tol : ℝ) (hv : c.viscous = true) (hE : E.Ok)
    (hX : E.Explicit W undef it tol) (hfl : E.fl = rusanov c E.P)
    (hds : ∀ f, E.destress = some f → ∀ q k, k = 0 ∨ 14 ≤ k → f q k = q k) (hr : c.multi = true ∨ ¬ E.P.reaction > -1)
    (b : Nat → BT) (h0 : b 0 ≠ .other) (h1 : b 1 ≠ .other) (split : Bool) (threads : Nat) (hT : 0 < threads) (dt : ℝ) (hdt : 0 ≤ dt)
    (hdx : 0 < E.dx) (u u' : Iter.Mem) (hu : Dense c E.nx u) (hrun : LineRuns E b split dt u)
    (hcfl : ∀ q, LineState E b split dt u q → dt * speed c E.P q 0 ≤ 1 / 2 * E.dx) (hm : MovesLine E b split threads dt u u')
    (v : Nat) (hl : IsLevel c v) (lo hi : ℝ) (hb : Between c E.nx v lo hi u) : Between c E.nx v lo hi u' := by
  have hV := Iter.V_ge c hv
  let w : Fin c.V := ⟨v, hl.2⟩
  let v0 : Fin c.V := ⟨0, by omega⟩
  have qw := quiet_level E hv hE hr dt w hl
  have h14 : 14 ≤ w.1 := (level_ge hv hl).2.2.1.trans (level_ge hv hl).1
  have q0 := quiet_mass E hv hE dt v0 rfl
  obtain ⟨ub, w', rec, mask, wt, sources, hp, hwt, hst, hgrid, -, e⟩ := line_first E W undef it tol hv hE hX b h0 h1 split threads hT dt u u' hrun hm
  have hub := fun x hx => pads1_quiet E hE hds b h0 h1 u ub hp x hx
  intro i hi'
  have := e i hi' w qw
  change u' (i * c.V + v) = _ at this
  rw [this, hfl]
  refine line_bounds hE.tab hv E.P E.src E.junk wt dt hwt hdt E.dx hdx sources rec E.nx mask w' i hi' w v0 hl rfl qw.src
    (fun g g1 g2 => ?_) (fun g g1 g2 => hcfl _ (hst g (by omega)).1) lo hi (fun g g1 g2 => ?_) ?_
  · rw [(hst g (by omega)).2 v0 q0]
    obtain ⟨j, hj, e⟩ := hub v0 (Or.inl rfl) g (by omega)
    rw [e]
    exact hu j hj
  · rw [(hst g (by omega)).2 w qw]
    obtain ⟨j, hj, e⟩ := hub w (Or.inr h14) g (by omega)
    rw [e]
    exact hb j hj
  · rw [(hgrid i hi' w qw).1, (hgrid i hi' w qw).2]

/-- **The same on a plane.** -/
theorem plane_level (W : Weno.Setup 1) (undef : ℝ) (it : Nat) (tol : ℝ) (hv : c.viscous = true) (hE : E.Ok)
    (hX : E.Explicit W undef it tol) (hfl : E.fl = rusanov c E.P)
    (hds : ∀ f, E.destress = some f → ∀ q k, k = 0 ∨ 14 ≤ k → f q k = q k) (hr : c.multi = true ∨ ¬ E.P.reaction > -1)
    (b : Nat → BT) (hb' : ∀ k < 4, b k ≠ .other) (nc split : Bool) (threads : Nat) (hT : 0 < threads) (dt : ℝ) (hdt : 0 ≤ dt)
    (hdx : 0 < E.dx) (hdy : 0 < E.dy) (u u' : Iter.Mem) (hu : Dense c (E.nx * E.ny) u) (hrun : PlaneRuns E b split dt u) (a₁ a₂ : ℝ)
    (h12 : a₁ + a₂ ≤ 1 / 2)
    (hcfl : ∀ q, PlaneState E b split dt u q → dt * speed c E.P q 0 ≤ a₁ * E.dx ∧ dt * speed c E.P q 1 ≤ a₂ * E.dy)
    (hm : MovesPlane E b nc split threads dt u u') (v : Nat) (hl : IsLevel c v) (lo hi : ℝ)
    (hb : Between c (E.nx * E.ny) v lo hi u) : Between c (E.nx * E.ny) v lo hi u' := by
  have hV := Iter.V_ge c hv
  have hy0 : 0 < E.ny := hE.wide.2
  let w : Fin c.V := ⟨v, hl.2⟩
  let v0 : Fin c.V := ⟨0, by omega⟩
  have qw := quiet_level E hv hE hr dt w hl
  have h14 : 14 ≤ w.1 := (level_ge hv hl).2.2.1.trans (level_ge hv hl).1
  have q0 := quiet_mass E hv hE dt v0 rfl
  obtain ⟨ub, w', rec, mask, wt, sources, hp, hwt, hst, hgrid, e⟩ :=
    plane_first E W undef it tol hv hE hX b hb' nc split threads hT dt u u' hrun hm
  have hub := fun x hx => pads2_quiet E hE hds b hb' u ub hp x hx
  intro i hi'
  obtain ⟨x, y, hx, hy, rfl⟩ : ∃ x y, x < E.nx ∧ y < E.ny ∧ i = cell x y E.ny :=
    ⟨i / E.ny, i % E.ny, (Nat.div_lt_iff_lt_mul hy0).2 hi', Nat.mod_lt _ hy0, by unfold cell; rw [Nat.div_add_mod']⟩
  have := e x y hx hy w qw
  change u' (cell x y E.ny * c.V + v) = _ at this
  rw [this, hfl]
  refine plane_bounds hE.tab hv E.P E.src E.junk wt dt hwt hdt E.dx E.dy hdx hdy sources rec E.nx E.ny mask w' x y hx hy w v0
    hl rfl qw.src (fun p q p1 q1 pq => ?_) a₁ a₂ h12
    (fun p q p1 q1 pq => hcfl _ (hst (x + p) (y + q) (by omega) (by omega) (by omega)).2.1) lo hi (fun p q p1 q1 pq => ?_) ?_
  · rw [(hst (x + p) (y + q) (by omega) (by omega) (by omega)).2.2 v0 q0]
    obtain ⟨j, hj, e⟩ := hub v0 (Or.inl rfl) (x + p) (y + q) (by omega) (by omega)
    rw [e]
    exact hu j hj
  · rw [(hst (x + p) (y + q) (by omega) (by omega) (by omega)).2.2 w qw]
    obtain ⟨j, hj, e⟩ := hub w (Or.inr h14) (x + p) (y + q) (by omega) (by omega)
    rw [e]
    exact hb j hj
  · rw [(hgrid x y hx hy w qw).1, (hgrid x y hx hy w qw).2]

/-! ### Whole runs -/

/-- The end of a pass keeps level sets, in builds with `MULTI` too. -/
theorem finish_between (F : Tail c) (hv : c.viscous = true) (hF : F.Ok) (count : Nat) (u u' : Iter.Mem)
    (h : finish F count u = some u') (v : Nat) (hl : IsLevel c v) (lo hi : ℝ) (hu : Between c F.ncell v lo hi u) :
    Between c F.ncell v lo hi u' := by
  obtain ⟨h1, h2, h3, h4⟩ := level_ge hv hl
  obtain ⟨w, hw, a1, -⟩ := finish_spec F hv hF count u
  rw [h] at hw
  cases hw
  intro i hi'
  rw [a1 i hi' v hl.2 (by omega) fun hm => by have := h2 hm; omega]
  exact hu i hi'

/-- **Runs on a line of first order keep every level set within the range it had at the start**: after any number of passes, and in
every snapshot. -/
theorem run_line_level {W' : Type} (F : Tail c) (W : Weno.Setup 1) (undef : ℝ) (it : Nat) (tol : ℝ) (hv : c.viscous = true)
    (hE : E.Ok) (hF : F.Ok) (hX : E.Explicit W undef it tol) (hfl : E.fl = rusanov c E.P)
    (hds : ∀ f, E.destress = some f → ∀ q k, k = 0 ∨ 14 ≤ k → f q k = q k) (hr : c.multi = true ∨ ¬ E.P.reaction > -1)
    (bt : Nat → BT) (h0 : bt 0 ≠ .other) (h1 : bt 1 ≠ .other) (split : Bool)
    (threads : Nat) (hT : 0 < threads) (hdx : 0 < E.dx) (hn : F.ncell = E.nx) (b : Body Iter.Mem W') (tf : ℝ) (u0 : Iter.Mem) (w0 : W')
    (hu0 : Dense c E.nx u0) (hb : FollowsLine E F bt split threads b tf u0 w0)
    (hok : ∀ m s, Reach b tf u0 w0 m s → s.t < tf → 0 ≤ (b.step s.u s.w s.t s.count).2.2 ∧
      LineRuns E bt split (b.step s.u s.w s.t s.count).2.2 s.u ∧
      ∀ q, LineState E bt split (b.step s.u s.w s.t s.count).2.2 s.u q →
        (b.step s.u s.w s.t s.count).2.2 * speed c E.P q 0 ≤ 1 / 2 * E.dx)
    (v : Nat) (hl : IsLevel c v) (lo hi : ℝ) (hv0 : Between c E.nx v lo hi u0) {m : Nat} {s : Vars Iter.Mem W'}
    (hs : Reach b tf u0 w0 m s) :
    Between c E.nx v lo hi s.u ∧ ∀ k x, s.ret k = some x → Between c E.nx v lo hi x := by
  have main : ∀ {m s}, Reach b tf u0 w0 m s → Dense c E.nx s.u ∧ Between c E.nx v lo hi s.u := by
    intro m s hs
    induction hs with
    | start => exact ⟨hu0, hv0⟩
    | @step m s s' hs hp ih =>
      obtain ⟨ht, -, eu, -⟩ := pass_next b tf hp
      obtain ⟨u1, g1, g2⟩ := hb m s hs ht
      obtain ⟨k1, k2, k3⟩ := hok m s hs ht
      rw [eu, ← hn]
      refine ⟨finish_dense F hv hF _ u1 _ g2 ?_, finish_between F hv hF _ u1 _ g2 v hl lo hi ?_⟩ <;> rw [hn]
      · exact line_dense E W undef it tol hv hE hX hfl (fun f hf q => hds f hf q 0 (Or.inl rfl)) bt h0 h1 split threads hT _ k1 hdx s.u u1
          ih.1 k2 (fun q hq => lt_of_le_of_lt (k3 q hq) (by linarith)) g1
      · exact line_level E W undef it tol hv hE hX hfl hds hr bt h0 h1 split threads hT _ k1 hdx s.u u1 ih.1 k2 k3 g1 v hl lo hi ih.2
  refine ⟨(main hs).2, fun k x hx => ?_⟩
  obtain ⟨m', s', -, -, hr, rfl⟩ := snapshot_reached b tf u0 w0 hs k x hx
  exact (main hr).2

/-- **Runs on a plane of first order keep every level set within the range it had at the start.** -/
theorem run_plane_level {W' : Type} (F : Tail c) (W : Weno.Setup 1) (undef : ℝ) (it : Nat) (tol : ℝ) (hv : c.viscous = true)
    (hE : E.Ok) (hF : F.Ok) (hX : E.Explicit W undef it tol) (hfl : E.fl = rusanov c E.P)
    (hds : ∀ f, E.destress = some f → ∀ q k, k = 0 ∨ 14 ≤ k → f q k = q k) (hr : c.multi = true ∨ ¬ E.P.reaction > -1)
    (bt : Nat → BT) (hbt : ∀ k < 4, bt k ≠ .other) (nc split : Bool)
    (threads : Nat) (hT : 0 < threads) (hdx : 0 < E.dx) (hdy : 0 < E.dy) (hn : F.ncell = E.nx * E.ny) (b : Body Iter.Mem W') (tf : ℝ)
    (u0 : Iter.Mem) (w0 : W') (hu0 : Dense c (E.nx * E.ny) u0) (hb : FollowsPlane E F bt nc split threads b tf u0 w0)
    (hok : ∀ m s, Reach b tf u0 w0 m s → s.t < tf → 0 ≤ (b.step s.u s.w s.t s.count).2.2 ∧
      PlaneRuns E bt split (b.step s.u s.w s.t s.count).2.2 s.u ∧
      ∃ a₁ a₂ : ℝ, a₁ + a₂ ≤ 1 / 2 ∧ ∀ q, PlaneState E bt split (b.step s.u s.w s.t s.count).2.2 s.u q →
        (b.step s.u s.w s.t s.count).2.2 * speed c E.P q 0 ≤ a₁ * E.dx ∧
        (b.step s.u s.w s.t s.count).2.2 * speed c E.P q 1 ≤ a₂ * E.dy)
    (v : Nat) (hl : IsLevel c v) (lo hi : ℝ) (hv0 : Between c (E.nx * E.ny) v lo hi u0) {m : Nat} {s : Vars Iter.Mem W'}
    (hs : Reach b tf u0 w0 m s) :
    Between c (E.nx * E.ny) v lo hi s.u ∧ ∀ k x, s.ret k = some x → Between c (E.nx * E.ny) v lo hi x := by
  have main : ∀ {m s}, Reach b tf u0 w0 m s → Dense c (E.nx * E.ny) s.u ∧ Between c (E.nx * E.ny) v lo hi s.u := by
    intro m s hs
    induction hs with
    | start => exact ⟨hu0, hv0⟩
    | @step m s s' hs hp ih =>
      obtain ⟨ht, -, eu, -⟩ := pass_next b tf hp
      obtain ⟨u1, g1, g2⟩ := hb m s hs ht
      obtain ⟨k1, k2, a₁, a₂, k3, k4⟩ := hok m s hs ht
      rw [eu, ← hn]
      refine ⟨finish_dense F hv hF _ u1 _ g2 ?_, finish_between F hv hF _ u1 _ g2 v hl lo hi ?_⟩ <;> rw [hn]
      · exact plane_dense E W undef it tol hv hE hX hfl (fun f hf q => hds f hf q 0 (Or.inl rfl)) bt hbt nc split threads hT _ k1 hdx hdy s.u
          u1 ih.1 k2 (a₁ + 1 / 4) (a₂ + 1 / 4) (by linarith) (fun q hq =>
            ⟨lt_of_le_of_lt (k4 q hq).1 (by nlinarith), lt_of_le_of_lt (k4 q hq).2 (by nlinarith)⟩) g1
      · exact plane_level E W undef it tol hv hE hX hfl hds hr bt hbt nc split threads hT _ k1 hdx hdy s.u u1 ih.1 k2 a₁ a₂ k3 k4 g1 v hl
          lo hi ih.2
  refine ⟨(main hs).2, fun k x hx => ?_⟩
  obtain ⟨m', s', -, -, hr, rfl⟩ := snapshot_reached b tf u0 w0 hs k x hx
  exact (main hr).2

/-! ### An example -/

/-- One viscous fluid with a mass fraction and a level set. -/
def mixCfg : Sys.Cfg := ⟨true, false, true, 1, fun _ _ _ _ => (0, 0)⟩

def mixSys : Dg.Sys (Fin mixCfg.V) := gpr mixCfg (samplePar sample) (Relax.source mixCfg (samplePar sample) 0) fun _ => 7

/-- A line of four cells in first order, with the predictor of the code. -/
def mixEnv (T : Tab 1) (h : T.Ok) (W : Weno.Setup 1)
    (fl : Nat → (Fin mixCfg.V → ℝ) → (Fin mixCfg.V → ℝ) → (Fin mixCfg.V → ℝ)) : Env mixCfg 1 where
  P := samplePar sample
  T := T
  nx := 4
  ny := 1
  dx := 1 / 10
  dy := 1
  fl := fl
  src := Relax.source mixCfg (samplePar sample) 0
  junk := fun _ => 7
  destress := none
  coef := realCoef W.T 0
  pred1 := fun dt => Step.pred1 false 4 0 (fun w => (isStep1_exists h mixSys (initialCondition1 T (rows1 w)) dt (1 / 10)).choose)
      fun w => standardInitialGuess1 1 (rows1 w)
  pred2 := fun dt => Step.pred2 false 4 0
      (fun w => (isStep2_exists h mixSys (initialCondition2 T (rows2 w)) dt (1 / 10) 1).choose)
      fun w => standardInitialGuess2 1 (rows2 w)
  half := true
  mid1 := fun dt => Step.mid1 mixSys T dt (1 / 10)
  mid2 := fun dt => Step.mid2 mixSys T dt (1 / 10) 1
  block := rows2
  svd := fun A => ((Grid.svd_exists A).choose, (Grid.svd_exists A).choose_spec.choose_spec.choose,
    (Grid.svd_exists A).choose_spec.choose)
  steps := 4
  fuel := 7
  bad := fun q => q

/-- Gas of density 1 and velocity 1, with half of its mass burnt in the second cell and a level set that is the number of the
cell. -/
def mixQ (x : Nat) : Fin mixCfg.V → ℝ := fun v => if v.1 = 0 then 1 else if v.1 = 14 then (if x = 1 then 1 / 2 else 0) else
  if v.1 = 15 then x else base v

def mixField : Iter.Mem := fun k => mixQ (k / 16) ⟨k % 16, Nat.mod_lt _ (by omega)⟩

theorem mixField_get (j : Nat) (v : Fin mixCfg.V) : mixField (j * 16 + v) = mixQ j v := by
  have hv : v.1 < 16 := v.2
  have e1 : (j * 16 + v) / 16 = j := by omega
  have e2 : (j * 16 + v) % 16 = v := by omega
  simp only [mixField, e1, e2]

section mix

variable (T : Tab 1) (h : T.Ok) (W : Weno.Setup 1) (fl : Nat → (Fin mixCfg.V → ℝ) → (Fin mixCfg.V → ℝ) → (Fin mixCfg.V → ℝ))

theorem mix_ok : (mixEnv T h W fl).Ok := ⟨h, ⟨by simp [mixEnv], by simp [mixEnv]⟩, fun _ => ⟨0, rfl⟩,
    fun A => (Grid.svd_exists A).choose_spec.choose_spec.choose_spec.1⟩

theorem mix_explicit : (mixEnv T h W fl).Explicit W 0 4 0 :=
  ⟨rfl, fun dt => ⟨_, _, fun _ => (isStep1_exists h mixSys _ dt (1 / 10)).choose_spec, rfl⟩,
     fun dt => ⟨_, _, fun _ => (isStep2_exists h mixSys _ dt (1 / 10) 1).choose_spec, rfl⟩, fun _ => rfl, fun _ => rfl, rfl⟩

theorem mix_pad (ub : Nat → Fin mixCfg.V → ℝ) (hp : Pads1 (mixEnv T h W fl) (fun _ => .transmissive) mixField ub) (r : Nat)
    (hr : r < 4 + 2) : ∃ j < 4, ub r = mixQ j := by
  obtain ⟨old, m', hm, hub⟩ := hp
  obtain ⟨m'', e, a, -⟩ := Grid.boundaries_1d ⟨1, none⟩ 4 .transmissive .transmissive (memOf mixCfg mixField old) (by decide)
    (by decide) (by decide)
  change boundaries1D ⟨1, none⟩ 4 .transmissive .transmissive _ = _ at hm
  rw [hm] at e
  cases e
  refine ⟨_, srcOf_lt (N := 1) (nx := 4) (b0 := .transmissive) (b1 := .transmissive) (by omega) (by omega) (show r < 4 + 2 * 1 by omega), ?_⟩
  funext v
  rw [hub, a r hr, ghost_open _ _ _ _ (Or.inl rfl) (Or.inl rfl)]
  exact mixField_get _ v

theorem mix_ease (j : Nat) : Newton.AtEase mixCfg (samplePar sample) (ofVec mixCfg (mixQ j)) := by
  refine ⟨?_, by simp [mixCfg], rfl, by norm_num [samplePar]⟩
  have g : ∀ k, 5 ≤ k → k < 14 → ofVec mixCfg (mixQ j) k = base k := fun k h1 h2 => by
    rw [ofVec_at (mixQ j) ⟨k, show k < 16 by omega⟩ k rfl]
    simp only [mixQ]
    rw [if_neg (by omega), if_neg (by omega), if_neg (by omega)]
  have : getA (ofVec mixCfg (mixQ j)) = 1 := by
    ext i j
    simp only [getA, Matrix.of_apply]
    rw [g _ (by omega) (by omega)]
    fin_cases i <;> fin_cases j <;> simp [base]
  rw [this]
  ext i j
  fin_cases i <;> fin_cases j <;> simp [AdevG] <;> norm_num

theorem mix_pred (dt : ℝ) (j : Nat) : ∃ a, (mixEnv T h W fl).pred1 dt (fun _ => mixQ j) = some a ∧ a 0 0 = mixQ j := by
  obtain ⟨a, ha, hc⟩ := pred1_constant h mixSys (mixQ j)
    (funext fun v => Newton.source_atEase mixCfg (samplePar sample) 0 _ rfl (mix_ease j) v)
    (gpr_bdot_zero mixCfg rfl _ _ _ 0 _) dt (1 / 10) 0 le_rfl false 4 (by norm_num)
    (fun w => (isStep1_exists h mixSys (initialCondition1 T (rows1 w)) dt (1 / 10)).choose)
    (fun _ => (isStep1_exists h mixSys _ dt (1 / 10)).choose_spec)
    (fun w => standardInitialGuess1 1 (rows1 w)) (fun _ _ => rfl)
  exact ⟨a, ha, hc 0 (by omega) 0⟩

theorem mix_runs (dt : ℝ) : LineRuns (mixEnv T h W fl) (fun _ => .transmissive) false dt mixField := by
  intro ub hp
  simp only [Bool.false_eq_true, if_false]
  intro r hr
  obtain ⟨j, -, e⟩ := mix_pad T h W fl ub hp r hr
  obtain ⟨a, ha, -⟩ := mix_pred T h W fl dt j
  rw [e, ha]
  rfl

end mix

/-- A level set from 0 to 3 in a gas that flows to the right: the hypotheses hold for every small time step, the step exists for
any number of threads, and the level set is still between 0 and 3 after it. -/
example (T : Tab 1) (h : T.Ok) (W : Weno.Setup 1) :
    let E := mixEnv T h W (rusanov mixCfg (samplePar sample))
    ∃ τ > 0, ∀ dt, 0 ≤ dt → dt ≤ τ → ∀ threads > 0,
      (∃ u', MovesLine E (fun _ => .transmissive) false threads dt mixField u') ∧
      ∀ u', MovesLine E (fun _ => .transmissive) false threads dt mixField u' → Between mixCfg 4 15 0 3 u' := by
  intro E
  have hE : E.Ok := mix_ok T h W _
  have s0 : ∀ j, 0 ≤ speed mixCfg E.P (mixQ j) 0 := fun j => (abs_nonneg _).trans (speed_ge E.P _ _)
  have hS : 0 ≤ ∑ j ∈ Finset.range 4, speed mixCfg E.P (mixQ j) 0 := Finset.sum_nonneg fun j _ => s0 j
  refine ⟨1 / 20 / (1 + ∑ j ∈ Finset.range 4, speed mixCfg E.P (mixQ j) 0), by positivity, fun dt d0 d1 threads hT =>
    ⟨movesLine_ader_exists E (by decide) hE _ (by decide) (by decide) threads dt _, fun u' hm => ?_⟩⟩
  refine line_level E W 0 4 0 rfl hE (mix_explicit T h W _) rfl (fun f hf => (nomatch hf)) (Or.inl rfl) _ (by decide) (by decide) false
    threads hT dt d0 (show (0 : ℝ) < 1 / 10 by norm_num) mixField u' ?_ (mix_runs T h W _ dt) ?_ hm 15 ⟨by decide, by decide⟩ 0 3 ?_
  · intro i hi
    have := mixField_get i ⟨0, by decide⟩
    rw [show i * mixCfg.V = i * 16 + 0 from rfl, this]
    simp [mixQ]
  · rintro q ⟨ub, r, hp, hr, a, ha, rfl⟩
    obtain ⟨j, hj, e⟩ := mix_pad T h W _ ub hp r hr
    obtain ⟨a', ha', hc⟩ := mix_pred T h W _ dt j
    rw [e, ha'] at ha
    cases ha
    rw [hc]
    change dt * _ ≤ 1 / 2 * (1 / 10)
    have := Finset.single_le_sum (f := fun j => speed mixCfg E.P (mixQ j) 0) (fun j _ => s0 j) (Finset.mem_range.2 hj)
    rw [le_div_iff₀ (by positivity)] at d1
    nlinarith
  · intro i hi
    have hi : i < 4 := hi
    have := mixField_get i ⟨15, by decide⟩
    rw [show i * mixCfg.V + 15 = i * 16 + 15 from rfl, this]
    simp only [mixQ]
    norm_num
    exact_mod_cast (by omega : i ≤ 3)

end

end Verif.Run
