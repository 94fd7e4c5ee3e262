import Verif.Run.Still
import Verif.Run.Conserve
import Verif.Relax.Rate
import Verif.Newton.Predict

/-! # A body at rest stays at rest for the whole run

One material, `LSET = 0`, any boundaries that mirror the state onto itself, any number of passes. -/

namespace Verif.Run

open Verif.Sys Verif.Iter Verif.Dg Verif.Fv Verif.Step Verif.Grid

noncomputable section

variable {c : Sys.Cfg} {n : Nat}

/-! ### Stretches of an unstrained state -/

/-- Without strain all singular values are the same. -/
theorem equal_stretches (A U W : M3) (s : V3) (hs : IsSVD A U W s) (hd : A.det ≠ 0) (hA : AdevG A = 0) (i : Fin 3) :
    s i * s i = (s 0 * s 0 + s 1 * s 1 + s 2 * s 2) / 3 := by
  have hu : IsUnit A.det := isUnit_iff_ne_zero.2 hd
  have hdev : dev (A.transpose * A) = 0 := by
    rw [AdevG_eq] at hA
    calc dev (A.transpose * A) = A⁻¹ * (A * dev (A.transpose * A)) := by
          rw [← Matrix.mul_assoc, Matrix.nonsing_inv_mul A hu, Matrix.one_mul]
      _ = 0 := by rw [hA, Matrix.mul_zero]
  have hW := hs.2.1
  rw [Relax.svd_gram hs, Relax.conj_dev W hW] at hdev
  have h0 : Matrix.diagonal (fun i => s i * s i - (s 0 * s 0 + s 1 * s 1 + s 2 * s 2) / 3) = (0 : M3) := by
    have : W.transpose * Relax.conj W (fun i => s i * s i - (s 0 * s 0 + s 1 * s 1 + s 2 * s 2) / 3) * W = 0 := by
      rw [hdev]; simp
    unfold Relax.conj at this
    rw [← Matrix.mul_assoc, ← Matrix.mul_assoc, hW, Matrix.one_mul, Matrix.mul_assoc, hW, Matrix.mul_one] at this
    exact this
  have := congrFun (congrFun h0 i) i
  rw [Matrix.diagonal_apply_eq] at this
  simp only [Matrix.zero_apply] at this
  linarith

theorem stretches_one (A U W : M3) (s : V3) (hs : IsSVD A U W s) (hd : A.det ≠ 0) (hA : AdevG A = 0) :
    s 1 = s 0 ∧ s 2 = s 0 ∧ 0 < s 0 := by
  have h0 := equal_stretches A U W s hs hd hA 0
  have h1 := equal_stretches A U W s hs hd hA 1
  have h2 := equal_stretches A U W s hs hd hA 2
  have hn := hs.2.2.1
  have e1 : s 1 = s 0 := (mul_self_inj (hn 1) (hn 0)).1 (by linarith)
  have e2 : s 2 = s 0 := (mul_self_inj (hn 2) (hn 0)).1 (by linarith)
  refine ⟨e1, e2, lt_of_le_of_ne (hn 0) fun h => hd ?_⟩
  have := Iter.svd_det A U W s hs
  rw [← h, zero_mul, zero_mul, abs_eq_zero] at this
  exact this

theorem cbrt_cube_eq (x : ℝ) : cbrt (x * x * x) = x := by
  have h := cbrt_cube (x * x * x)
  have h0 : (cbrt (x * x * x) - x) * (cbrt (x * x * x) * cbrt (x * x * x) + cbrt (x * x * x) * x + x * x) = 0 := by
    linear_combination h
  rcases mul_eq_zero.1 h0 with h1 | h1
  · linarith
  · have hx : x = 0 := by nlinarith [sq_nonneg (cbrt (x * x * x) + x), sq_nonneg x, sq_nonneg (cbrt (x * x * x))]
    subst hx
    have : cbrt (0 * 0 * 0) * cbrt (0 * 0 * 0) = 0 := by linarith
    exact mul_self_eq_zero.1 this

/-- The two invariants the code computes from the singular values. -/
theorem calm_invariants (A U W : M3) (s : V3) (hs : IsSVD A U W s) (hd : A.det ≠ 0) (hA : AdevG A = 0) :
    (Relax.invariants s).2 = 0 ∧ anisotropy s = some 1 := by
  obtain ⟨e1, e2, h0⟩ := stretches_one A U W s hs hd hA
  constructor
  · simp only [Relax.invariants, e1, e2]; ring
  · unfold anisotropy
    simp only [e1, e2, cbrt_cube_eq]
    rw [if_neg (by positivity)]
    congr 1
    field_simp
    norm_num

/-! ### The source terms -/

theorem odeCell_rest (P : Par) (svd : M3 → M3 × V3 × M3) (steps fuel : Nat) (dt : ℝ) (Q : St) (hv : c.viscous = true)
    (hs : IsSVD (getA Q) (svd (getA Q)).1 (svd (getA Q)).2.2 (svd (getA Q)).2.1) (hd : (getA Q).det ≠ 0)
    (hQ : Newton.AtEase c P Q) : Relax.odeCell c P svd steps fuel dt Q = some Q := by
  have hb : Relax.bodyForces P dt Q = Q := by
    funext k
    by_cases hk : 2 ≤ k ∧ k < 5
    · have := Relax.body_val P dt Q ⟨k - 2, by omega⟩
      rw [hQ.force] at this
      simpa [show 2 + (k - 2) = k by omega] using this
    · exact Relax.body_other P dt Q k hk
  have hr : Relax.relaxDistortion P svd dt Q = some Q := by
    unfold Relax.relaxDistortion Relax.relaxA
    have := (calm_invariants _ _ _ _ hs hd hQ.strain).1
    simp only [this]
    rw [if_neg (by norm_num)]
    simp [Relax.setA_self]
  have ht : (if c.thermal then Relax.relaxThermal P dt Q else Q) = Q := by
    split_ifs with h
    · funext k
      by_cases hk : 14 ≤ k ∧ k < 17
      · obtain ⟨i, rfl⟩ : ∃ i : Fin 3, k = 14 + i := ⟨⟨k - 14, by omega⟩, by simp only; omega⟩
        have hi := congrFun (hQ.heat h) i
        have : Q (14 + i) = 0 := hi
        rw [this]
        unfold Relax.relaxThermal
        fin_cases i <;> simp [setSeg, setAt, hQ.heat h]
      · exact Relax.thermal_other _ _ _ _ hk
    · rfl
  have hn : Relax.odeNumerical c P steps fuel dt Q = some Q := by
    unfold Relax.odeNumerical
    rw [if_neg hQ.inert]
  simp only [Relax.odeCell, Relax.odeAnalytic, hb, hv, if_true, hr, Option.bind_eq_bind, Option.bind_some, ht,
    Option.pure_def, hn]

variable (E : Env c n) (Q : St)

/-- The cell of the state. -/
def restCell (c : Sys.Cfg) (Q : St) : Fin c.V → ℝ := fun v => Q v

theorem ofVec_cellQ (k : Nat) (hk : k < c.V) : ofVec c (restCell c Q) k = Q k := by
  unfold ofVec restCell; rw [dif_pos hk]

theorem ofVec_getA (hv : c.viscous = true) : getA (ofVec c (restCell c Q)) = getA Q := by
  have hV := Iter.V_ge c hv
  exact Relax.getA_congr _ _ fun k _ h2 => ofVec_cellQ Q k (by omega)

theorem ode_rest (hv : c.viscous = true) (hE : E.Ok) (hd : (getA Q).det ≠ 0) (hQ : Newton.AtEase c E.P Q) (dt : ℝ) :
    E.ode dt (restCell c Q) = restCell c Q := by
  unfold Env.ode
  rw [odeCell_rest E.P E.svd E.steps E.fuel (dt / 2) (ofVec c (restCell c Q)) hv (hE.svd _) (by rwa [ofVec_getA Q hv])
    (show Newton.AtEase c E.P (ofVec c (restCell c Q)) from Newton.ofVec_atEase c E.P Q hv hQ)]
  funext v
  exact ofVec_cellQ Q v v.2

/-! ### The end of a pass -/

/-- All cells hold `Q`. -/
def Uniform (c : Sys.Cfg) (ncell : Nat) (Q : St) (u : Iter.Mem) : Prop := ∀ i < ncell, ∀ k < c.V, u (i * c.V + k) = Q k

theorem matAt_single' (F : Tail c) (P : Par) (hM : F.MPs = [some P]) (hl : c.lset = 0) (u : Iter.Mem) (i : Nat) :
    matAt F u i = some (some P) := by
  unfold matAt materialIndex
  rw [hM, hl]
  rfl

theorem finish_rest (F : Tail c) (P : Par) (hv : c.viscous = true) (hF : F.Ok) (hM : F.MPs = [some P]) (hl : c.lset = 0)
    (hrot : F.rot = false) (htol : 0 ≤ F.tol) (hd : 0 < (getA Q).det) (hs : AdevG (getA Q) = 0) (hρ0 : 0 < P.ρ0)
    (hρ : Q 0 = P.ρ0 * (getA Q).det) (hm : c.multi = true → 0 ≤ Q c.mV ∧ Q c.mV ≤ Q 0) (count : Nat) (u u' : Iter.Mem)
    (hu : Uniform c F.ncell Q u) (h : finish F count u = some u') : Uniform c F.ncell Q u' := by
  have hV := Iter.V_ge c hv
  have hA : ∀ w, Uniform c F.ncell Q w → ∀ i < F.ncell, getA (view c w i) = getA Q := fun w hw i hi =>
    Relax.getA_congr _ _ fun k _ h2 => hw i hi k (by omega)
  have hQ0 : 0 < Q 0 := by rw [hρ]; positivity
  -- concentrations
  have l1 : Uniform c F.ncell Q (limitConcentration c F.ncell u) := by
    intro i hi k hk
    by_cases hkm : c.multi = true ∧ k = c.mV
    · obtain ⟨h1, rfl⟩ := hkm
      have e0 := hu i hi 0 (by omega)
      rw [Nat.add_zero] at e0
      obtain ⟨-, -, a, -⟩ := limit_concentration_spec c F.ncell u h1 i hi
      rw [a (by rw [hu i hi _ hk]; exact (hm h1).1) (by rw [hu i hi _ hk, e0]; exact (hm h1).2), hu i hi _ hk]
    · rw [limit_keep F.ncell u i hi k hk fun h1 h2 => hkm ⟨h1, h2⟩, hu i hi k hk]
  simp only [finish, Option.bind_eq_bind, Option.bind_eq_some_iff] at h
  obtain ⟨u1, h1, u2, h2, h3⟩ := h
  -- renormalisation
  have l2 : Uniform c F.ncell Q u1 := by
    intro i hi k hk
    have e0 := l1 i hi 0 (by omega)
    rw [Nat.add_zero] at e0
    rcases matter_spec c F.MPs (renormCell c) (renorm_local c hv F.MPs) F.ncell _ u1 h1 i hi with ⟨-, hw⟩ | ⟨P', hP', hw⟩
    · rw [hw k hk, l1 i hi k hk]
    · have : P' = P := by
        have hq := matAt_single' F P hM hl (limitConcentration c F.ncell u) i
        unfold matAt at hq
        rw [hP'] at hq
        exact Option.some.inj (Option.some.inj hq)
      subst this
      rw [hw k hk, renormCell_val, e0, hA _ l1 i hi, ← hρ, div_self hQ0.ne', cbrt_one, mul_one, ite_self, l1 i hi k hk]
  -- no rotation
  have l3 : u2 = u1 := by
    unfold rotateSome at h2
    rw [if_neg (by rw [hrot]; simp)] at h2
    exact (Option.some.inj h2).symm
  subst l3
  -- not contorted
  have l4 : contorted c F.sv F.ncell u2 F.tol = false := by
    unfold contorted
    rw [List.any_eq_false]
    intro i hi
    obtain ⟨U, W, hsv⟩ := hF.sv (getA (view c u2 i))
    have ha := hA u2 l2 i (List.mem_range.1 hi)
    rw [ha] at hsv ⊢
    rw [(calm_invariants _ _ _ _ hsv hd.ne' hs).2]
    simp [htol]
  unfold resetSome at h3
  rw [l4] at h3
  simp only [Bool.false_eq_true, if_false] at h3
  rw [← Option.some.inj h3]
  exact l2

/-! ### The boundaries -/

/-- The wall maps the state onto itself. -/
def Mirrors (d : Nat) (b : BT) : Prop := b ≠ .other ∧ ∀ q : Grid.Cell ℝ, (∀ k < c.V, q k = Q k) →
  ∀ k < c.V, wall ⟨n, E.destress⟩ d b q q k = Q k

/-- `ub` after `boundaries`, iterator.cpp:122. -/
def Pads1 (b : Nat → BT) (u : Iter.Mem) (ub : Nat → Fin c.V → ℝ) : Prop := ∃ old m',
  Grid.boundaries1D ⟨n, E.destress⟩ E.nx (b 0) (b 1) (memOf c u old) = some m' ∧ ∀ k v, ub k v = m' (true, k) v

def Pads2 (b : Nat → BT) (u : Iter.Mem) (ub : Nat → Fin c.V → ℝ) : Prop := ∃ old m',
  Grid.boundaries2D ⟨n, E.destress⟩ E.nx E.ny (b 0) (b 1) (b 2) (b 3) (memOf c u old) = some m' ∧
    ∀ k v, ub k v = m' (true, k) v

theorem ghost_rest (d : Nat) (b0 b1 : BT) (h0 : Mirrors E Q d b0) (h1 : Mirrors E Q d b1) (nx k : Nat) (q : Grid.Cell ℝ)
    (hq : ∀ k < c.V, q k = Q k) (v : Nat) (hv : v < c.V) : ghostOf ⟨n, E.destress⟩ d b0 b1 nx k q v = Q v := by
  unfold ghostOf
  split_ifs
  · exact h0.2 q hq v hv
  · exact hq v hv
  · exact h1.2 q hq v hv

theorem pads1_rest (hE : E.Ok) (b : Nat → BT) (h0 : Mirrors E Q 0 (b 0)) (h1 : Mirrors E Q 0 (b 1)) (u : Iter.Mem)
    (hu : Uniform c E.nx Q u) (ub : Nat → Fin c.V → ℝ) (hp : Pads1 E b u ub) (k : Nat) (hk : k < E.nx + 2 * n) :
    ub k = restCell c Q := by
  obtain ⟨old, m', hm, hub⟩ := hp
  obtain ⟨m'', e, a, -⟩ := Grid.boundaries_1d ⟨n, E.destress⟩ E.nx (b 0) (b 1) (memOf c u old) hE.wide.1 h0.1 h1.1
  rw [hm] at e
  cases e
  have hn := hE.tab.pos
  have hw := hE.wide.1
  funext v
  rw [hub, a k hk]
  exact ghost_rest E Q 0 _ _ h0 h1 _ _ _ (fun j hj => hu _ (srcOf_lt hw (by omega) hk) j hj) v v.2

theorem pads2_rest (hE : E.Ok) (b : Nat → BT) (h0 : Mirrors E Q 0 (b 0)) (h1 : Mirrors E Q 0 (b 1))
    (h2 : Mirrors E Q 1 (b 2)) (h3 : Mirrors E Q 1 (b 3)) (u : Iter.Mem)
    (hu : Uniform c (E.nx * E.ny) Q u) (ub : Nat → Fin c.V → ℝ) (hp : Pads2 E b u ub) (k : Nat)
    (hk : k < (E.nx + 2 * n) * (E.ny + 2 * n)) : ub k = restCell c Q := by
  obtain ⟨old, m', hm, hub⟩ := hp
  obtain ⟨hx, hy⟩ := hE.wide
  obtain ⟨m'', e, a, -⟩ := Grid.boundaries_2d ⟨n, E.destress⟩ E.nx E.ny (b 0) (b 1) (b 2) (b 3) (memOf c u old) hx hy h0.1 h1.1
    h2.1 h3.1
  rw [hm] at e
  cases e
  have hn := hE.tab.pos
  have hpos : 0 < E.ny + 2 * n := by omega
  have hi : k / (E.ny + 2 * n) < E.nx + 2 * n := (Nat.div_lt_iff_lt_mul hpos).2 hk
  have hj : k % (E.ny + 2 * n) < E.ny + 2 * n := Nat.mod_lt _ hpos
  have key := a _ hi _ hj
  simp only [show k / (E.ny + 2 * n) * (E.ny + 2 * n) + k % (E.ny + 2 * n) = k by
    rw [Nat.mul_comm]; exact Nat.div_add_mod _ _] at key
  funext v
  rw [hub, key]
  refine ghost_rest E Q 1 _ _ h2 h3 _ _ _ (fun j hj' => ?_) v v.2
  refine ghost_rest E Q 0 _ _ h0 h1 _ _ _ (fun j hj' => hu _ ?_ j hj') j hj'
  exact Grid.flat_lt (srcOf_lt hx (by omega) hi) (srcOf_lt hy (by omega) hj)

/-- Transmissive and periodic ends mirror every state. -/
theorem mirrors_open (d : Nat) (b : BT) (h : b = .transmissive ∨ b = .periodic) : Mirrors E Q d b := by
  rcases h with rfl | rfl <;> exact ⟨by decide, fun q hq k hk => hq k hk⟩

/-- Slip and stick walls mirror states at rest, symmetry planes those whose distortion is diagonal. -/
theorem mirrors_wall (hds : E.destress = none) (d : Nat) (hd : d < 2) (hrest : ∀ k, 2 ≤ k → k < 5 → Q k = 0)
    (b : BT) (hb : b = .slip ∨ b = .stick ∨ (b = .symmetric ∧ ∀ i j : Fin 3, i ≠ j → getA Q i j = 0)) :
    Mirrors E Q d b := by
  rcases hb with rfl | rfl | ⟨rfl, hdiag⟩
  · refine ⟨by decide, fun q hq k hk => ?_⟩
    simp only [wall, slip, Cfg.ds, hds, negAt]
    by_cases h : k = 2 + d
    · subst h
      rw [Function.update_self, hq _ hk, hrest _ (by omega) (by omega)]; ring
    · rw [Function.update_of_ne h, hq _ hk]
  · refine ⟨by decide, fun q hq k hk => ?_⟩
    simp only [wall, stick, Cfg.ds, hds, negMom, negAt, Function.update_apply]
    have h2 : k = 2 → q k = 0 := fun h => by rw [hq k hk, h, hrest _ (by omega) (by omega)]
    have h3 : k = 3 → q k = 0 := fun h => by rw [hq k hk, h, hrest _ (by omega) (by omega)]
    have h4 : k = 4 → q k = 0 := fun h => by rw [hq k hk, h, hrest _ (by omega) (by omega)]
    rw [← hq k hk]
    by_cases a2 : k = 2
    · subst a2; simp [h2 rfl]
    by_cases a3 : k = 3
    · subst a3; simp [h3 rfl]
    by_cases a4 : k = 4
    · subst a4; simp [h4 rfl]
    rw [if_neg a4, if_neg a3, if_neg a2]
  · refine ⟨by decide, fun q hq k hk => ?_⟩
    have z : ∀ i j : Fin 3, i ≠ j → k = 5 + (3 * i + j) → q k = 0 := fun i j hij h => by
      rw [hq k hk, h]; exact hdiag i j hij
    have h2 : 2 ≤ k → k < 5 → q k = 0 := fun h h' => by rw [hq k hk, hrest _ h h']
    have z01 := z 0 1 (by decide)
    have z02 := z 0 2 (by decide)
    have z10 := z 1 0 (by decide)
    have z12 := z 1 2 (by decide)
    have z20 := z 2 0 (by decide)
    have z21 := z 2 1 (by decide)
    simp only [Fin.isValue, Fin.val_zero, Fin.val_one, Fin.val_two] at z01 z02 z10 z12 z20 z21
    simp only [wall, symmetric, negAt, Function.update_apply]
    rw [← hq k hk]
    interval_cases d
    · by_cases a2 : k = 2
      · subst a2; simp [h2 le_rfl (by omega)]
      by_cases a5 : k = 5
      · subst a5; simp
      by_cases a6 : k = 6
      · subst a6; simp [z01 rfl]
      by_cases a7 : k = 7
      · subst a7; simp [z02 rfl]
      by_cases a8 : k = 8
      · subst a8; simp [z10 rfl]
      by_cases a11 : k = 11
      · subst a11; simp [z20 rfl]
      simp [a2, a5, a6, a7, a8, a11]
    · by_cases a3 : k = 3
      · subst a3; simp [h2 (by omega) (by omega)]
      by_cases a9 : k = 9
      · subst a9; simp
      by_cases a8 : k = 8
      · subst a8; simp [z10 rfl]
      by_cases a10 : k = 10
      · subst a10; simp [z12 rfl]
      by_cases a6 : k = 6
      · subst a6; simp [z01 rfl]
      by_cases a12 : k = 12
      · subst a12; simp [z21 rfl]
      simp [a3, a9, a8, a10, a6, a12]

/-! ### The steppers -/

/-- The parts of the steppers keep constant blocks; see `code_steady`. -/
structure Env.Steady (W : Weno.Setup n) (undef : ℝ) (q : Fin c.V → ℝ) : Prop where
  coef : E.coef = realCoef W.T undef
  pred1 : ∀ dt, ∃ r, E.pred1 dt (fun _ => q) = some r ∧ ∀ t < n, ∀ k, r t k = q
  pred2 : ∀ dt, ∃ r, E.pred2 dt (fun _ _ => q) = some r ∧ ∀ t < n, ∀ k < n * n, r t k = q
  mid1 : ∀ dt, E.mid1 dt (fun _ => q) = fun _ => q
  mid2 : ∀ dt, E.mid2 dt (fun _ _ => q) = fun _ _ => q
  block : ∀ s < n * n, E.block (fun _ _ => q) s = q

/-- One call of the steppers with boundary types `b` and `NO_CORNERS` as given, iterator.cpp:121-132: unsplit or split, on a
line or on a plane, for some schedule of the threads. -/
def Moves (b : Nat → BT) (nc : Bool) (threads ncell : Nat) (dt : ℝ) (u u' : Iter.Mem) : Prop :=
  (ncell = E.nx ∧ ∃ (ub : Nat → Fin c.V → ℝ) (maskb : Nat → Bool), Pads1 E b u ub ∧
    let mask := Grid.extendMask1 E.nx (fun _ => true) maskb
    ((∃ (l : List (Nat × Nat × (Fin c.V → ℝ))) (gar : Nat → Nat → Nat → Fin n → Fin c.V → ℝ),
      let K := kern1 E.sys E.T E.fl (E.wt dt) E.dx true
      IsSchedule threads (fun w => aderWorker1 E.coef (E.pred1 dt) K ub E.nx mask threads (gar w) w) l ∧
      ∀ i < E.nx, ∀ v : Fin c.V, u' (i * c.V + v) = apply K.app (l.map Prod.snd) (cellsOf c u) i v) ∨
     ∃ l : List (Nat × Nat × Option (Fin c.V → ℝ)),
      let K := kern1 E.sys E.T E.fl (fun _ => dt) E.dx false
      IsSchedule threads (splitWorker1 E.coef (E.ode dt) E.half (E.mid1 dt) (fun q => q) K ub E.nx mask threads) l ∧
      ∀ i < E.nx, ∀ v : Fin c.V, u' (i * c.V + v) =
        apply (withOde (E.ode dt) K.app) (l.map Prod.snd) (cellsOf c u) i v)) ∨
  (ncell = E.nx * E.ny ∧ ∃ (ub : Nat → Fin c.V → ℝ) (maskb : Nat → Bool), Pads2 E b u ub ∧
    let mask := Grid.extendMask2 E.nx E.ny (fun _ => true) maskb
    ((∃ (l : List (Nat × Nat × (Fin c.V → ℝ))) (gar : Nat → Nat → Nat → Nat → Fin c.V → ℝ),
      let K := kern2 E.sys E.T E.fl (E.wt dt) E.dx E.dy true
      IsSchedule threads (fun w => aderWorker2 E.coef nc (E.pred2 dt) K ub E.nx E.ny mask threads (gar w) w) l ∧
      ∀ i < E.nx * E.ny, ∀ v : Fin c.V, u' (i * c.V + v) = apply K.app (l.map Prod.snd) (cellsOf c u) i v) ∨
     ∃ l : List (Nat × Nat × Option (Fin c.V → ℝ)),
      let K := kern2 E.sys E.T E.fl (fun _ => dt) E.dx E.dy false
      IsSchedule threads (splitWorker2 E.coef nc (E.ode dt) E.half (E.mid2 dt) E.block K ub E.nx E.ny mask threads) l ∧
      ∀ i < E.nx * E.ny, ∀ v : Fin c.V, u' (i * c.V + v) =
        apply (withOde (E.ode dt) K.app) (l.map Prod.snd) (cellsOf c u) i v))

theorem source_rest (hv : c.viscous = true) (hE : E.Ok) (hQ : Newton.AtEase c E.P Q) : E.sys.source (restCell c Q) = 0 := by
  funext v
  change E.src (ofVec c (restCell c Q)) v = 0
  obtain ⟨rate, hr⟩ := hE.src (ofVec c (restCell c Q))
  rw [hr]
  exact Newton.source_atEase c E.P rate _ hv (Newton.ofVec_atEase c E.P Q hv hQ) v

/-- One call of the steppers leaves a uniform body at rest alone. -/
theorem moves_rest (W : Weno.Setup n) (undef : ℝ) (hv : c.viscous = true) (hE : E.Ok) (hS : E.Steady W undef (restCell c Q))
    (hQ : Newton.AtEase c E.P Q) (hd : (getA Q).det ≠ 0) (b : Nat → BT) (h01 : ∀ k < 2, Mirrors E Q 0 (b k))
    (h23 : ∀ k, 2 ≤ k → k < 4 → Mirrors E Q 1 (b k)) (nc : Bool) (threads : Nat) (hT : 0 < threads)
    (hch : Chunks n nc E.nx E.ny threads) (ncell : Nat) (dt : ℝ) (u u' : Iter.Mem) (hu : Uniform c ncell Q u)
    (h : Moves E b nc threads ncell dt u u') : Uniform c ncell Q u' := by
  have hs := source_rest E Q hv hE hQ
  have hb : ∀ d, E.sys.bdot d (restCell c Q) 0 = 0 := fun d => gpr_bdot_zero c hv E.P E.src E.junk d _
  have ho := ode_rest E Q hv hE hd hQ dt
  have hn := hE.tab.pos
  have hx0 : 0 < E.nx := by have := hE.wide.1; omega
  have hy0 : 0 < E.ny := by have := hE.wide.2; omega
  have hcell : ∀ i < ncell, cellsOf c u i = restCell c Q := fun i hi => funext fun v => hu i hi v v.2
  have fin : (∀ i < ncell, ∀ v : Fin c.V, u' (i * c.V + v) = restCell c Q v) → Uniform c ncell Q u' := fun h i hi k hk =>
    h i hi ⟨k, hk⟩
  rcases h with ⟨rfl, ub, maskb, hp, h | h⟩ | ⟨rfl, ub, maskb, hp, h | h⟩
  · obtain ⟨l, gar, hl, e⟩ := h
    have hub := pads1_rest E Q hE b (h01 0 (by omega)) (h01 1 (by omega)) u hu ub hp
    obtain ⟨r, hr1, hr2⟩ := hS.pred1 dt
    rw [hS.coef] at hl
    refine fin fun i hi v => ?_
    rw [e i hi v, ader_still1 hE.tab W undef E.sys E.fl (E.wt dt) (restCell c Q) E.dx threads hT hs (hb 0) (E.pred1 dt) r hr1 hr2
      E.nx ub hub _ (mask1_true E.nx hx0 maskb) gar l hl (cellsOf c u) i hi, hcell i hi]
  · obtain ⟨l, hl, e⟩ := h
    have hub := pads1_rest E Q hE b (h01 0 (by omega)) (h01 1 (by omega)) u hu ub hp
    rw [hS.coef] at hl
    refine fin fun i hi v => ?_
    rw [e i hi v, split_still1 hE.tab W undef E.sys E.fl (fun _ => dt) (restCell c Q) E.dx threads hT (hb 0) (E.ode dt) ho E.half
      (E.mid1 dt) (hS.mid1 dt) E.nx ub hub _ (mask1_true E.nx hx0 maskb) l hl (cellsOf c u) i hi (hcell i hi)]
  · obtain ⟨l, gar, hl, e⟩ := h
    have hub := pads2_rest E Q hE b (h01 0 (by omega)) (h01 1 (by omega)) (h23 2 (by omega) (by omega))
      (h23 3 (by omega) (by omega)) u hu ub hp
    obtain ⟨r, hr1, hr2⟩ := hS.pred2 dt
    rw [hS.coef] at hl
    refine fin fun i hi v => ?_
    rw [e i hi v, ader_still2 hE.tab W undef E.sys E.fl (E.wt dt) (restCell c Q) E.dx E.dy threads hT hs hb nc (E.pred2 dt) r hr1 hr2
      E.nx E.ny hch ub hub _ (mask2_true E.nx E.ny hx0 hy0 maskb) gar l hl (cellsOf c u) i hi, hcell i hi]
  · obtain ⟨l, hl, e⟩ := h
    have hub := pads2_rest E Q hE b (h01 0 (by omega)) (h01 1 (by omega)) (h23 2 (by omega) (by omega))
      (h23 3 (by omega) (by omega)) u hu ub hp
    rw [hS.coef] at hl
    refine fin fun i hi v => ?_
    rw [e i hi v, split_still2 hE.tab W undef E.sys E.fl (fun _ => dt) (restCell c Q) E.dx E.dy threads hT hb nc (E.ode dt) ho E.half
      (E.mid2 dt) (hS.mid2 dt) E.block hS.block E.nx E.ny hch ub hub _ (mask2_true E.nx E.ny hx0 hy0 maskb) l hl (cellsOf c u)
      i hi (hcell i hi)]

/-! ### Whole runs -/

/-- Every pass of the run uses one of the steppers and ends as `iterator.cpp:140-151` does. -/
def Follows {W' : Type} (F : Tail c) (bt : Nat → BT) (nc : Bool) (threads : Nat) (b : Body Iter.Mem W') (tf : ℝ)
    (u0 : Iter.Mem) (w0 : W') : Prop :=
  ∀ m s, Reach b tf u0 w0 m s → s.t < tf →
    ∃ u1, Moves E bt nc threads F.ncell (b.step s.u s.w s.t s.count).2.2 s.u u1 ∧
      finish F (s.count + 1) u1 = some (b.step s.u s.w s.t s.count).1

/-- **A body at rest stays at rest**: after any number of passes and in every snapshot all cells hold the initial state. -/
theorem run_rest {W' : Type} (F : Tail c) (W : Weno.Setup n) (undef : ℝ) (hv : c.viscous = true) (hE : E.Ok) (hF : F.Ok)
    (hM : F.MPs = [some E.P]) (hl : c.lset = 0) (hrot : F.rot = false) (htol : 0 ≤ F.tol)
    (hS : E.Steady W undef (restCell c Q)) (hQ : Newton.AtEase c E.P Q) (hd : 0 < (getA Q).det) (hρ0 : 0 < E.P.ρ0)
    (hρ : Q 0 = E.P.ρ0 * (getA Q).det) (hm : c.multi = true → 0 ≤ Q c.mV ∧ Q c.mV ≤ Q 0)
    (bt : Nat → BT) (h01 : ∀ k < 2, Mirrors E Q 0 (bt k)) (h23 : ∀ k, 2 ≤ k → k < 4 → Mirrors E Q 1 (bt k)) (nc : Bool)
    (threads : Nat) (hT : 0 < threads) (hch : Chunks n nc E.nx E.ny threads) (b : Body Iter.Mem W') (tf : ℝ)
    (u0 : Iter.Mem) (w0 : W') (hu0 : Uniform c F.ncell Q u0) (hb : Follows E F bt nc threads b tf u0 w0) {m : Nat}
    {s : Vars Iter.Mem W'} (hs : Reach b tf u0 w0 m s) :
    Uniform c F.ncell Q s.u ∧ ∀ k x, s.ret k = some x → Uniform c F.ncell Q x := by
  have main : ∀ m s, Reach b tf u0 w0 m s → Uniform c F.ncell Q s.u := by
    intro m s hs
    induction hs with
    | start => exact hu0
    | @step m s s' hs hp ih =>
      obtain ⟨ht, -, eu, -⟩ := pass_next b tf hp
      obtain ⟨u1, h1, h2⟩ := hb m s hs ht
      rw [← eu] at h2
      exact finish_rest Q F E.P hv hF hM hl hrot htol hd hQ.strain hρ0 hρ hm _ u1 _
        (moves_rest E Q W undef hv hE hS hQ hd.ne' bt h01 h23 nc threads hT hch F.ncell _ s.u u1 ih h1) h2
  refine ⟨main m s hs, fun k x hx => ?_⟩
  obtain ⟨m', s', -, -, hr, rfl⟩ := snapshot_reached b tf u0 w0 hs k x hx
  exact main m' s' hr

/-! ### The parts of the code -/

/-- The predictors, half steps and blocks of the code; `nm`, `z`, `solve`, `jac` and `bad` as for the Newton solver. -/
structure Env.Code {σ : Type} (stiff : Bool) (it : Nat) (tol : ℝ) (z : Newton.Ext → Bool) (fuel : Nat)
    (nm1 : Newton.Vec (n * n * c.V) → Newton.Ext) (nm2 : Newton.Vec (n * (n * n) * c.V) → Newton.Ext)
    (solve1 : σ → Newton.Vec (n * n * c.V) → Newton.Vec (n * n * c.V) → Newton.Ext → σ × Newton.Vec (n * n * c.V))
    (solve2 : σ → Newton.Vec (n * (n * n) * c.V) → Newton.Vec (n * (n * n) * c.V) → Newton.Ext →
      σ × Newton.Vec (n * (n * n) * c.V)) (jac : σ)
    (bad1 : Newton.Vec (n * n * c.V) → Newton.Vec (n * n * c.V))
    (bad2 : Newton.Vec (n * (n * n) * c.V) → Newton.Vec (n * (n * n) * c.V)) : Prop where
  norm1 : Newton.IsMaxNorm nm1
  norm2 : Newton.IsMaxNorm nm2
  htol : 0 ≤ tol
  its : 0 < it
  pred1 : ∀ dt, ∃ step : (Fin n → Fin c.V → ℝ) → (Nat → Fin c.V → ℝ) → (Nat → Fin c.V → ℝ),
    (∀ w, IsStep1 E.T E.sys (initialCondition1 E.T (rows1 w)) dt E.dx (step w)) ∧
    E.pred1 dt = Step.pred1 stiff it tol step (Newton.newton1 E.sys E.T dt E.dx nm1 tol z fuel solve1 jac bad1)
  pred2 : ∀ dt, ∃ step : (Fin n → Fin n → Fin c.V → ℝ) → (Nat → Fin c.V → ℝ) → (Nat → Fin c.V → ℝ),
    (∀ w, IsStep2 E.T E.sys (initialCondition2 E.T (rows2 w)) dt E.dx E.dy (step w)) ∧
    E.pred2 dt = Step.pred2 stiff it tol step (Newton.newton2 E.sys E.T dt E.dx E.dy nm2 tol z fuel solve2 jac bad2)
  mid1 : ∀ dt, E.mid1 dt = Step.mid1 E.sys E.T dt E.dx
  mid2 : ∀ dt, E.mid2 dt = Step.mid2 E.sys E.T dt E.dx E.dy
  block : E.block = rows2

/-- The parts of the code are steady. -/
theorem code_steady {σ : Type} {stiff : Bool} {it : Nat} {tol : ℝ} {z : Newton.Ext → Bool} {fuel : Nat}
    {nm1 : Newton.Vec (n * n * c.V) → Newton.Ext} {nm2 : Newton.Vec (n * (n * n) * c.V) → Newton.Ext}
    {solve1 : σ → Newton.Vec (n * n * c.V) → Newton.Vec (n * n * c.V) → Newton.Ext → σ × Newton.Vec (n * n * c.V)}
    {solve2 : σ → Newton.Vec (n * (n * n) * c.V) → Newton.Vec (n * (n * n) * c.V) → Newton.Ext →
      σ × Newton.Vec (n * (n * n) * c.V)} {jac : σ}
    {bad1 : Newton.Vec (n * n * c.V) → Newton.Vec (n * n * c.V)}
    {bad2 : Newton.Vec (n * (n * n) * c.V) → Newton.Vec (n * (n * n) * c.V)}
    (h : E.Code stiff it tol z fuel nm1 nm2 solve1 solve2 jac bad1 bad2) (W : Weno.Setup n) (undef : ℝ)
    (hW : E.coef = realCoef W.T undef) (hv : c.viscous = true) (hE : E.Ok) (hQ : Newton.AtEase c E.P Q) :
    E.Steady W undef (restCell c Q) := by
  have hs := source_rest E Q hv hE hQ
  have hb : ∀ d, E.sys.bdot d (restCell c Q) 0 = 0 := fun d => gpr_bdot_zero c hv E.P E.src E.junk d _
  have hn := hE.tab.pos
  refine ⟨hW, fun dt => ?_, fun dt => ?_, fun dt => ?_, fun dt => ?_, fun s hs => ?_⟩
  · obtain ⟨step, h1, h2⟩ := h.pred1 dt
    rw [h2]
    exact pred1_constant hE.tab E.sys (restCell c Q) hs (hb 0) dt E.dx tol h.htol stiff it h.its step h1 _
      (Newton.newton1_root E.sys E.T dt E.dx nm1 h.norm1 tol z fuel solve1 jac bad1)
  · obtain ⟨step, h1, h2⟩ := h.pred2 dt
    rw [h2]
    exact pred2_constant hE.tab E.sys (restCell c Q) hs hb dt E.dx E.dy tol h.htol stiff it h.its step h1 _
      (Newton.newton2_root E.sys E.T dt E.dx E.dy nm2 h.norm2 tol z fuel solve2 jac bad2)
  · rw [h.mid1]
    exact mid1_const hE.tab _ (hb 0) dt E.dx
  · rw [h.mid2]
    exact mid2_const hE.tab _ hb dt E.dx E.dy
  · rw [h.block]
    have h1 : s / n < n := (Nat.div_lt_iff_lt_mul hn).mpr hs
    have h2 : s % n < n := Nat.mod_lt _ hn
    funext v; simp [rows2, h1, h2]

/-! ### A box -/

/-- The equations of the sample fluid. -/
def boxSys : Dg.Sys (Fin lineCfg.V) := gpr lineCfg (samplePar sample) (Relax.source lineCfg (samplePar sample) 0) fun _ => 7

/-- A box of 8 by 6 cells, with the predictors and half steps of the code. -/
def boxEnv (T : Tab 2) (h : T.Ok) (W : Weno.Setup 2)
    (fl : Nat → (Fin lineCfg.V → ℝ) → (Fin lineCfg.V → ℝ) → (Fin lineCfg.V → ℝ))
    (nm1 : Newton.Vec (2 * 2 * lineCfg.V) → Newton.Ext) (nm2 : Newton.Vec (2 * (2 * 2) * lineCfg.V) → Newton.Ext) :
    Env lineCfg 2 :=
  { lineEnv T W fl with
    nx := 8
    ny := 6
    pred1 := fun dt => Step.pred1 false 4 0 (fun w => (isStep1_exists h boxSys (initialCondition1 T (rows1 w)) dt (1 / 10)).choose)
      (Newton.newton1 boxSys T dt (1 / 10) nm1 0 (fun _ => true) 7 (fun _ _ v _ => ((), v)) () id)
    pred2 := fun dt => Step.pred2 false 4 0
      (fun w => (isStep2_exists h boxSys (initialCondition2 T (rows2 w)) dt (1 / 10) 1).choose)
      (Newton.newton2 boxSys T dt (1 / 10) 1 nm2 0 (fun _ => true) 7 (fun _ _ v _ => ((), v)) () id)
    mid1 := fun dt => Step.mid1 boxSys T dt (1 / 10)
    mid2 := fun dt => Step.mid2 boxSys T dt (1 / 10) 1
    block := rows2 }

def boxTail : Tail lineCfg := { lineTail 2 with ncell := 48, rot := false }

/-- The sample fluid at rest, compressed to eight times its reference density. -/
def boxState : St := fun k => if k = 0 then 8 else if k = 1 then 5 else if k = 5 ∨ k = 9 ∨ k = 13 then 2 else 0

theorem boxState_A : getA boxState = (2 : ℝ) • (1 : M3) := by
  ext i j
  fin_cases i <;> fin_cases j <;> simp [getA, boxState]

theorem boxState_ease : Newton.AtEase lineCfg (samplePar sample) boxState := by
  refine ⟨?_, by simp [lineCfg], rfl, by norm_num [samplePar]⟩
  rw [boxState_A]
  ext i j
  fin_cases i <;> fin_cases j <;> simp [AdevG] <;> norm_num

/-- The fluid between slip walls, stepped by the split scheme with the shipped `NO_CORNERS` and four threads: such runs
exist, and every field and snapshot is the initial one. -/
example (T : Tab 2) (h : T.Ok) (W : Weno.Setup 2)
    (fl : Nat → (Fin lineCfg.V → ℝ) → (Fin lineCfg.V → ℝ) → (Fin lineCfg.V → ℝ)) :
    ∃ b : Body Iter.Mem Unit, ∀ m s, Reach b 1 (fun k => boxState (k % lineCfg.V)) () m s →
      Uniform lineCfg 48 boxState s.u ∧ ∀ k x, s.ret k = some x → Uniform lineCfg 48 boxState x := by
  have hVpos : 0 < lineCfg.V := by have := Iter.V_ge lineCfg rfl; omega
  obtain ⟨nm1, hn1, -⟩ := Newton.isMaxNorm_exists (n := 2 * 2 * lineCfg.V) (by positivity) fun _ => .nan
  obtain ⟨nm2, hn2, -⟩ := Newton.isMaxNorm_exists (n := 2 * (2 * 2) * lineCfg.V) (by positivity) fun _ => .nan
  let E := boxEnv T h W fl nm1 nm2
  have hE : E.Ok := ⟨h, ⟨by simp [E, boxEnv], by simp [E, boxEnv]⟩, fun _ => ⟨0, rfl⟩,
    fun A => (Grid.svd_exists A).choose_spec.choose_spec.choose_spec.1⟩
  have hF : boxTail.Ok := ⟨(lineTail_ok 2).svd, (lineTail_ok 2).sv, (lineTail_ok 2).mats⟩
  have hQ : Newton.AtEase lineCfg E.P boxState := boxState_ease
  have hC : E.Code false 4 0 (fun _ => true) 7 nm1 nm2 (fun _ _ v _ => ((), v)) (fun _ _ v _ => ((), v)) () id id :=
    ⟨hn1, hn2, le_rfl, by norm_num, fun dt => ⟨_, fun w => (isStep1_exists h boxSys _ dt (1 / 10)).choose_spec, rfl⟩,
     fun dt => ⟨_, fun w => (isStep2_exists h boxSys _ dt (1 / 10) 1).choose_spec, rfl⟩, fun _ => rfl, fun _ => rfl, rfl⟩
  have hS := code_steady E boxState hC W 0 rfl rfl hE hQ
  have hdet : (getA boxState).det = 8 := by rw [boxState_A, Matrix.det_smul]; norm_num
  have hM : ∀ d < 2, Mirrors E boxState d .slip := fun d hd => mirrors_wall E boxState rfl d hd
    (fun k h1 h2 => by unfold boxState; rw [if_neg (by omega), if_neg (by omega), if_neg (by omega)]) .slip (Or.inl rfl)
  have hch : Chunks 2 true E.nx E.ny 4 := by
    intro w hw hlt _
    change start 8 4 w < start 8 4 (w + 1) at hlt
    change 2 * 2 ≤ start 8 4 (w + 1) - start 8 4 w + 2 + Weno.central 2 ∧ 2 ≤ 6 + 2
    unfold start at *
    omega
  have ex : ∀ (u : Iter.Mem) (count : Nat), ∃ u1 u', Moves E (fun _ => .slip) true 4 48 (1 / 10) u u1 ∧
      finish boxTail (count + 1) u1 = some u' := by
    intro u count
    obtain ⟨m', hm, -⟩ := Grid.boundaries_2d ⟨2, none⟩ 8 6 .slip .slip .slip .slip (memOf lineCfg u fun _ _ => 0)
      (by norm_num) (by norm_num) (by decide) (by decide) (by decide) (by decide)
    let ub : Nat → Fin lineCfg.V → ℝ := fun k v => m' (true, k) v
    let K := kern2 E.sys E.T E.fl (fun _ => 1 / 10) E.dx E.dy false
    let mask := Grid.extendMask2 E.nx E.ny (fun _ => true) fun _ => false
    obtain ⟨l, hl⟩ := schedule_exists 4 (splitWorker2 E.coef true (E.ode (1 / 10)) E.half (E.mid2 (1 / 10)) E.block K ub E.nx
      E.ny mask 4)
    let w := apply (withOde (E.ode (1 / 10)) K.app) (l.map Prod.snd) (cellsOf lineCfg u)
    let u1 : Iter.Mem := fun k => w (k / lineCfg.V) ⟨k % lineCfg.V, Nat.mod_lt _ hVpos⟩
    obtain ⟨u', h', -⟩ := finish_spec boxTail rfl hF (count + 1) u1
    refine ⟨u1, u', Or.inr ⟨rfl, ub, fun _ => false, ⟨fun _ _ => 0, m', hm, fun _ _ => rfl⟩, Or.inr ⟨l, hl, fun i _ v => ?_⟩⟩, h'⟩
    change w _ _ = w i v
    have e1 : (i * lineCfg.V + v) / lineCfg.V = i := by
      rw [Nat.mul_comm, Nat.mul_add_div hVpos, Nat.div_eq_of_lt v.2, Nat.add_zero]
    have e2 : (i * lineCfg.V + v) % lineCfg.V = v := by
      rw [Nat.mul_comm, Nat.mul_add_mod, Nat.mod_eq_of_lt v.2]
    simp only [e1, e2]
  let b : Body Iter.Mem Unit := ⟨fun u _ _ count => ((ex u count).choose_spec.choose, (), 1 / 10), fun _ => false⟩
  refine ⟨b, fun m s hs => ?_⟩
  refine run_rest E boxState boxTail W 0 rfl hE hF rfl rfl rfl (by norm_num [boxTail, lineTail]) hS hQ (by rw [hdet]; norm_num)
    (by norm_num [E, boxEnv, lineEnv, samplePar, sample]) ?_ (by simp [lineCfg]) (fun _ => .slip)
    (fun k _ => hM 0 (by norm_num)) (fun k _ _ => hM 1 (by norm_num)) true 4 (by norm_num) hch b 1 _ () ?_ ?_ hs
  · rw [hdet]
    change (8 : ℝ) = 1 * 8
    norm_num
  · intro i _ k hk
    change boxState ((i * lineCfg.V + k) % lineCfg.V) = boxState k
    rw [Nat.mul_comm, Nat.mul_add_mod, Nat.mod_eq_of_lt hk]
  · exact fun m s _ _ => ⟨_, (ex s.u s.count).choose_spec.choose_spec.1, (ex s.u s.count).choose_spec.choose_spec.2⟩

end

end Verif.Run
