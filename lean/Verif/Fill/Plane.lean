import Verif.Fill.Line

/-!
# Interfaces on a plane

What the layers of ghost cells hold, the states computed along a surface that is perpendicular to an axis, and the
choice of the left state where neither probe finds the material.
-/

namespace Verif.Fill

open Verif.Sys Verif.Iter

variable {α : Type}

/-! ### Contents of the layers -/

theorem sweep_follow (nX : List Nat) (iso : Bool) (src : Nat → Option Int) (N0 : Int) (hN : 1 ≤ N0) (s : Layers α)
    (p : Nat) (t : Layers α) (h : Sweep nX iso src N0 s p t) (a b : Nat) (ha : a < p) (hh : Hit nX iso N0 s.mask a)
    (hsrc : src a = some (b : Int)) (hb : 1 ≤ s.mask b) : t.grid a = s.grid b := by
  classical
  induction h with
  | nil => omega
  | @cons p t t' hs hv ih =>
    obtain ⟨m1, _⟩ := sweep_mask nX iso src N0 hN s p t hs
    obtain ⟨g1, _⟩ := sweep_grid nX iso src N0 hN s p t hs
    have hnb : ¬ Hit nX iso N0 s.mask b := by
      rintro ⟨h | ⟨_, h⟩, _⟩ <;> omega
    have hsame : ∀ b, t.mask b = N0 ↔ s.mask b = N0 := by
      intro b
      rw [m1]
      split_ifs with hc
      · constructor
        · intro h; omega
        · intro h
          rcases hc.2.1 with h' | ⟨_, h'⟩ <;> omega
      · rfl
    by_cases hap : a = p
    · subst hap
      have hself : t.mask a = s.mask a := by rw [m1, if_neg (by omega)]
      rcases hv with ⟨hn, -⟩ | ⟨he, b', hb', hm, h1, h2, -⟩
      · exfalso
        apply hn
        rw [hself]
        simp only [hsame]
        exact hh
      · obtain ⟨k, hk, hs', hg⟩ := copyCell_some h2
        have hkb : k = b := by
          rw [hsrc] at hs'
          injection hs' with h
          omega
        subst hkb
        have hka : k ≠ a := by
          rintro rfl
          exact hnb hh
        have hmk : t.mask k = s.mask k := by rw [m1, if_neg fun hc => hnb hc.2]
        rw [hg, Function.update_self, h1, Function.update_of_ne hka, hmk, if_neg (by omega)]
        exact g1 k fun hc => hnb hc.2
    · have := ih (by omega)
      rcases hv with ⟨-, rfl⟩ | ⟨he, b', hb', hm, h1, h2, -⟩
      · exact this
      · obtain ⟨k, hk, hs', hg⟩ := copyCell_some h2
        rw [hg, Function.update_of_ne hap]
        exact this

theorem pass_follow (nX : List Nat) (hd : nX.length = 1 ∨ nX.length = 2) (src : Nat → Option Int) (N0 : Int)
    (hN : 1 ≤ N0) (s s' : Layers α) (h : passOf nX src N0 s = some s') (a b : Nat) (ha : a < nX.prod)
    (h0 : s.mask a = 0) (hh : ∃ b, Adj nX a b ∧ s.mask b = N0) (hsrc : src a = some (b : Int)) (hb : 1 ≤ s.mask b) :
    s'.grid a = s.grid b := by
  rcases hd with hd | hd
  · obtain ⟨n, rfl⟩ := List.length_eq_one_iff.1 hd
    exact sweep_follow _ _ _ _ hN _ _ _ (sweep1 n src N0 s s' h) a b (by simpa using ha) ⟨Or.inl h0, hh⟩ hsrc hb
  · obtain ⟨nx, ny, rfl⟩ := List.length_eq_two.1 hd
    unfold passOf pass2 at h
    simp only at h
    obtain ⟨t, ht, rfl⟩ := Option.map_eq_some_iff.1 h
    exact sweep_follow _ _ _ _ hN _ _ _ (sweep2 nx ny src N0 _ t ht) a b (by simpa using ha) ⟨Or.inl h0, hh⟩ hsrc hb

/-- **Ghost cells copy the cell that lies one cell back along the normal**, if that cell belongs to an earlier
layer. -/
theorem layers_follow (nX : List Nat) (hd : nX.length = 1 ∨ nX.length = 2) (src : Nat → Option Int) (K : Nat) (m : Mask)
    (hm : ∀ a < nX.prod, m a ≤ 1) (grid : Nat → α) (s : Layers α) (h : fillNeighbors nX src K m grid = some s)
    (k j a b : Nat) (hk : k < K) (hka : LayerDist nX m (k + 1) a) (hj : j ≤ k) (hjb : Walk nX m j b)
    (hsrc : src a = some (b : Int)) : s.grid a = s.grid b := by
  have ha := walk_lt hka.1
  have hb := walk_lt hjb
  have ha0 := walk_pos hka.1 (by omega)
  induction K generalizing s with
  | zero => omega
  | succ K ih =>
    unfold fillNeighbors at h
    rw [List.range_succ] at h
    obtain ⟨t, ht, hp⟩ := foldlM_snoc _ _ _ _ _ h
    obtain ⟨e1, e2, e3, e4⟩ := layers_spec nX hd src K m hm grid t ht
    obtain ⟨p1, p2, p3⟩ := pass_spec nX hd src ((K : Int) + 1) (by omega) t s hp
    have hbm : 1 ≤ t.mask b := by
      by_cases h0 : m b = 0
      · rcases e4 b hb h0 with h | ⟨i, h1, h2, h3⟩
        · exact absurd hjb ((e3 b hb h0).1 h j (by omega))
        · omega
      · rw [e1 b hb h0]
        rcases Nat.eq_zero_or_pos j with rfl | hpos
        · rw [walk_zero hjb]
        · exact absurd (walk_pos hjb hpos) h0
    have hnb : ¬ Hit nX true ((K : Int) + 1) t.mask b := by
      rintro ⟨h | ⟨_, h⟩, _⟩ <;> omega
    by_cases hkK : k < K
    · have ham : t.mask a = ((k + 1 : Nat) : Int) + 1 := (e2 a ha ha0 (k + 1) (by omega) hkK).2 hka
      have hna : ¬ Hit nX true ((K : Int) + 1) t.mask a := by
        rintro ⟨h | ⟨_, h⟩, _⟩ <;> omega
      rw [p2 a hna, p2 b hnb]
      exact ih t ht hkK
    · obtain rfl : k = K := by omega
      have ham : t.mask a = 0 := (e3 a ha ha0).2 fun i hi => hka.2 i (by omega)
      have hadj : ∃ b, Adj nX a b ∧ t.mask b = (k : Int) + 1 := by
        have hw := hka
        obtain ⟨hw, hmin⟩ := hka
        cases hw with
        | @step _ _ c hw hab _ =>
          refine ⟨c, hab.symm, ?_⟩
          have hc := walk_lt hw
          by_cases h0 : m c = 0
          · rcases Nat.eq_zero_or_pos k with rfl | hpos
            · have := walk_zero hw; omega
            · exact (e2 c hc h0 k hpos le_rfl).2 ⟨hw, fun i hi hwi => hmin (i + 1) (by omega) (.step hwi hab ha0)⟩
          · rcases Nat.eq_zero_or_pos k with rfl | hpos
            · rw [e1 c hc h0, walk_zero hw]; rfl
            · exact absurd (walk_pos hw hpos) h0
      rw [pass_follow nX hd src _ (by omega) t s hp a b ha ham hadj hsrc hbm, p2 b hnb]

/-! ### Many interface cells that do not see each other -/

/-- If every outer interface cell is computed from cells that no visit of another one changes, the order of the visits does
not matter. -/
theorem boundary_many (c : Cfg) (nX : List Nat) (dX : List ℝ) (ncell mat nmat : Nat) (star : St → St → Nat → List ℝ → St)
    (φ : Nat → ℝ) (Δφ : Nat → List ℝ) (mask : Mask) (order : List Nat) (u : Nat → St) (Q : Nat → St) (hd : order.Nodup)
    (hv : ∀ k ∈ order, mask k = 1 → ∀ g : Nat → St, (∀ b, mask b ≠ 1 → g b = u b) → g k = u k →
      boundaryVisit c nX dX ncell mat nmat star φ Δφ mask g k = some (Function.update g k (setHeadOf c (Q k) (u k)))) :
    fillBoundary c nX dX ncell mat nmat star φ Δφ mask order u =
      some (fun b => if b ∈ order ∧ mask b = 1 then setHeadOf c (Q b) (u b) else u b) := by
  have key : ∀ (l l' : List Nat), l' ++ l = order → l.foldlM (boundaryVisit c nX dX ncell mat nmat star φ Δφ mask)
      (fun b => if b ∈ l' ∧ mask b = 1 then setHeadOf c (Q b) (u b) else u b) =
        some (fun b => if b ∈ order ∧ mask b = 1 then setHeadOf c (Q b) (u b) else u b) := by
    intro l
    induction l with
    | nil =>
      rintro l' rfl
      rw [List.append_nil]
      rfl
    | cons k l ih =>
      rintro l' rfl
      have hkl : k ∉ l' := fun h => by
        have := (List.nodup_append.1 hd).2.2 k h k (by simp)
        exact this rfl
      have := ih (l' ++ [k]) (by simp)
      rw [List.foldlM_cons]
      by_cases hk : mask k = 1
      · rw [hv k (by simp) hk _ (fun b hb => by simp only [hb, and_false, if_false]) (by simp only [hkl, false_and, if_false])]
        rw [← this]
        change List.foldlM _ _ _ = _
        congr 1
        funext b
        by_cases hbk : b = k
        · subst hbk
          rw [Function.update_self, if_pos ⟨by simp, hk⟩]
        · rw [Function.update_of_ne hbk]
          simp only [List.mem_append, List.mem_singleton, hbk, or_false]
      · have hskip : ∀ g, boundaryVisit c nX dX ncell mat nmat star φ Δφ mask g k = some g := fun g => by
          unfold boundaryVisit; rw [if_neg hk]
        rw [hskip, ← this]
        change List.foldlM _ _ _ = _
        congr 1
        funext b
        by_cases hbk : b = k
        · subst hbk
          simp only [hk, and_false, if_false]
        · simp only [List.mem_append, List.mem_singleton, hbk, or_false]
  have := key order [] rfl
  simp only [List.not_mem_nil, false_and, if_false] at this
  exact this

/-- Each ghost cell gets the state of the interface cell that its sources lead to. -/
theorem ghost_many (c : Cfg) (nX : List Nat) (hd : nX.length = 1 ∨ nX.length = 2) (dX : List ℝ) (mat nmat K : Nat)
    (star : St → St → Nat → List ℝ → St) (φ : Nat → ℝ) (Δφ : Nat → List ℝ) (order : List Nat) (u : Nat → St) (Q : Nat → St)
    (ho : order.Perm (List.range nX.prod))
    (hv : ∀ k < nX.prod, find nX φ k = 1 → ∀ g : Nat → St, (∀ b, find nX φ b ≠ 1 → g b = u b) → g k = u k →
      boundaryVisit c nX dX nX.prod mat nmat star φ Δφ (find nX φ) g k =
        some (Function.update g k (setHeadOf c (Q k) (u k))))
    (hs : ∀ grid : Nat → St, ∃ s, fillNeighbors nX (fun k => source nX dX (Δφ k) (coords nX k)) K (find nX φ) grid = some s)
    (hiso : ∀ a < nX.prod, find nX φ a ≠ -2) (foot : Nat → Nat) (h0 : ∀ a < nX.prod, find nX φ a = 1 → foot a = a)
    (hf : ∀ k a, k < K → LayerDist nX (find nX φ) (k + 1) a → ∃ j b, j ≤ k ∧ LayerDist nX (find nX φ) j b ∧
      source nX dX (Δφ a) (coords nX a) = some ((b : Nat) : Int) ∧ foot a = foot b) :
    ∃ g mk, ghostCells c nX dX mat nmat K star φ Δφ order u = some (g, mk) ∧
      (∀ k a, k ≤ K → LayerDist nX (find nX φ) k a → g a = setHeadOf c (Q (foot a)) (u a)) ∧
      (∀ a < nX.prod, (∀ k ≤ K, ¬ Walk nX (find nX φ) k a) → g a = u a) ∧
      ∀ a < nX.prod, (mk a = true ↔ φ a ≤ 0 ∨ find nX φ a = 1) := by
  have hm := fun b hb => find_le nX hd φ b hb
  have hB := boundary_many c nX dX nX.prod mat nmat star φ Δφ (find nX φ) order u Q (ho.nodup_iff.2 List.nodup_range)
    (fun k hk => hv k (List.mem_range.1 (ho.mem_iff.1 hk)))
  obtain ⟨s, hS⟩ := hs fun b => if b ∈ order ∧ find nX φ b = 1 then setHeadOf c (Q b) (u b) else u b
  have hrun : ghostCells c nX dX mat nmat K star φ Δφ order u =
      some (fun k a => if a < c.V - c.lset then s.grid k a else u k a,
        fun k => decide ((φ k ≤ 0 ∧ s.mask k ≠ -2) ∨ s.mask k = 1)) := by
    unfold ghostCells
    simp only [hB]
    have : fillNeighbors nX (fun k => source nX dX (Δφ k) (coords nX k)) K (find nX φ)
      (fun a => (fun b => if b ∈ order ∧ find nX φ b = 1 then setHeadOf c (Q b) (u b) else u b) a) = some s := hS
    rw [this]
    rfl
  have hgrid : ∀ k a, k ≤ K → LayerDist nX (find nX φ) k a → ∃ x, s.grid a = setHeadOf c (Q (foot a)) x := by
    intro k
    induction k using Nat.strong_induction_on with
    | _ k ih =>
      intro a hk ha
      rcases Nat.eq_zero_or_pos k with rfl | hpos
      · have h1 := walk_zero ha.1
        have hlt := walk_lt ha.1
        rw [(layers_keep nX hd _ K _ _ s hS a hlt (by omega) (by omega)).1, h0 a hlt h1]
        exact ⟨u a, if_pos ⟨ho.mem_iff.2 (List.mem_range.2 hlt), h1⟩⟩
      · obtain ⟨k, rfl⟩ := Nat.exists_eq_succ_of_ne_zero (by omega : k ≠ 0)
        obtain ⟨j, b, hj, hb, hsrc, hfb⟩ := hf k a (by omega) ha
        rw [layers_follow nX hd _ K _ hm _ s hS k j a b (by omega) ha hj hb.1 hsrc, hfb]
        exact ih j (by omega) b (by omega) hb
  refine ⟨_, _, hrun, fun k a hk ha => ?_, fun a ha hw => ?_, fun a ha => ?_⟩
  · obtain ⟨x, hx⟩ := hgrid k a hk ha
    funext i
    simp only [hx, setHeadOf]
    split_ifs <;> rfl
  · have h1 : find nX φ a ≠ 1 := fun h => hw 0 (by omega) (.start ha h)
    have := layers_untouched nX hd _ K _ hm _ s hS a ha (hiso a ha) fun j _ hj h => hw j hj h
    funext i
    simp only [this, h1, and_false, if_false, ite_self]
  · rw [ghost_mask c nX hd _ _ _ _ _ _ _ _ _ _ _ hrun a ha, ← find_one nX hd φ a ha]
    refine or_congr ⟨fun h => h.1, fun h => ?_⟩ Iff.rfl
    by_contra hc
    exact hiso a ha ((find_neg_two nX hd φ a ha).2 ⟨h, hc⟩)

/-! ### A surface perpendicular to an axis -/

/-- The sizes of a grid with `m` cells along axis `e` and `w` cells along the other one. -/
def sizes (e : Bool) (m w : Nat) : List Nat := if e then [w, m] else [m, w]

/-- The cell at `p` along axis `e` and `q` along the other one. -/
def at2 (e : Bool) (m w p q : Nat) : Nat := if e then q * m + p else p * w + q

theorem sizes_len (e : Bool) (m w : Nat) : (sizes e m w).length = 1 ∨ (sizes e m w).length = 2 := by
  cases e <;> exact Or.inr rfl

theorem sizes_prod (e : Bool) (m w : Nat) : (sizes e m w).prod = m * w := by
  cases e
  · simp [sizes]
  · simp [sizes, Nat.mul_comm]

theorem at2_lt (e : Bool) {m w p q : Nat} (hp : p < m) (hq : q < w) : at2 e m w p q < (sizes e m w).prod := by
  rw [sizes_prod]
  cases e
  · simp only [at2, Bool.false_eq_true, if_false]
    calc p * w + q < p * w + w := by omega
      _ = (p + 1) * w := by ring
      _ ≤ m * w := Nat.mul_le_mul_right _ hp
  · simp only [at2, if_true]
    calc q * m + p < q * m + m := by omega
      _ = m * (q + 1) := by ring
      _ ≤ m * w := Nat.mul_le_mul_left _ hq

theorem at2_surj (e : Bool) {m w a : Nat} (ha : a < (sizes e m w).prod) : ∃ p < m, ∃ q < w, a = at2 e m w p q := by
  rw [sizes_prod] at ha
  cases e
  · have hw : 0 < w := Nat.pos_of_ne_zero fun h => by simp [h] at ha
    exact ⟨a / w, Nat.div_lt_of_lt_mul (by rwa [Nat.mul_comm]), a % w, Nat.mod_lt _ hw, by
      simp only [at2, Bool.false_eq_true, if_false]
      rw [Nat.mul_comm]; exact (Nat.div_add_mod a w).symm⟩
  · have hm : 0 < m := Nat.pos_of_ne_zero fun h => by simp [h] at ha
    exact ⟨a % m, Nat.mod_lt _ hm, a / m, Nat.div_lt_of_lt_mul ha, by
      simp only [at2, if_true]
      rw [Nat.mul_comm]; exact (Nat.div_add_mod a m).symm⟩

theorem at2_inj (e : Bool) {m w p q p' q' : Nat} (hp : p < m) (hq : q < w) (hp' : p' < m) (hq' : q' < w)
    (h : at2 e m w p q = at2 e m w p' q') : p = p' ∧ q = q' := by
  cases e
  · simp only [at2, Bool.false_eq_true, if_false] at h
    exact index_inj hq hq' h
  · simp only [at2, if_true] at h
    exact (index_inj hp hp' h).symm

theorem adj_at2 (e : Bool) {m w p q b : Nat} (hp : p < m) (hq : q < w) : Adj (sizes e m w) (at2 e m w p q) b ↔
    (0 < p ∧ b = at2 e m w (p - 1) q) ∨ (p + 1 < m ∧ b = at2 e m w (p + 1) q) ∨ (0 < q ∧ b = at2 e m w p (q - 1)) ∨
      (q + 1 < w ∧ b = at2 e m w p (q + 1)) := by
  cases e
  · simp only [at2, sizes, Bool.false_eq_true, if_false]
    exact adj2_iff hp hq
  · simp only [at2, sizes, if_true]
    rw [adj2_iff hq hp]
    tauto

theorem coords_at2 (e : Bool) {m w p q : Nat} (hp : p < m) (hq : q < w) :
    coords (sizes e m w) (at2 e m w p q) = if e then [q, p] else [p, q] := by
  have : ∀ n x y : Nat, y < n → (x * n + y) / n = x ∧ (x * n + y) % n = y := fun n x y h => by
    constructor
    · rw [Nat.mul_comm, Nat.mul_add_div (by omega), Nat.div_eq_of_lt h, Nat.add_zero]
    · rw [Nat.mul_comm, Nat.mul_add_mod, Nat.mod_eq_of_lt h]
  cases e
  · simp only [coords, sizes, at2, Bool.false_eq_true, if_false, this w p q hq]
  · simp only [coords, sizes, at2, if_true, this m q p hp]

/-- The gradient of `φ` in a cell, by `finite_difference`. -/
noncomputable def slopes (nX : List Nat) (dX : List ℝ) (junk : Nat → Nat → ℝ) (φ : Nat → ℝ) (a : Nat) : List ℝ :=
  match nX, dX with
  | [nx, ny], [dx, dy] => [finiteDifference2 nx ny junk φ dx dy 0 (a / ny) (a % ny),
      finiteDifference2 nx ny junk φ dx dy 1 (a / ny) (a % ny)]
  | _, _ => []

/-- **A plane filled up to `x0` along an axis**: as on a line, in each row separately. -/
theorem ghost_plane (e : Bool) (c : Cfg) (m w : Nat) (hm : 3 ≤ m) (hw : 3 ≤ w) (dp dq x0 : ℝ) (hdp : 0 < dp) (hdq : 0 < dq)
    (mat nmat K : Nat) (star : St → St → Nat → List ℝ → St) (junk : Nat → Nat → ℝ) (φ : Nat → ℝ) (order : List Nat)
    (ho : order.Perm (List.range (m * w))) (u : Nat → St) (k : Nat) (hk : 1 ≤ k) (hkm : k + 1 < m)
    (hφ : ∀ p < m, ∀ q < w, φ (at2 e m w p q) = ((p : ℝ) + 1 / 2) * dp - x0)
    (h1 : ((k : ℝ) - 1 / 2) * dp ≤ x0) (h2 : x0 < ((k : ℝ) + 1 / 2) * dp)
    (hmat : ∀ p < m, ∀ q < w, materialIndex c (u (at2 e m w p q)) = mat ↔ p < k)
    (hn : ∀ p < m, ∀ q < w, materialIndex c (u (at2 e m w p q)) < nmat) :
    let dX := if e then [dq, dp] else [dp, dq]
    let kR := if (k : ℝ) * dp ≤ x0 then k + 1 else k
    ∃ g mk, ghostCells c (sizes e m w) dX mat nmat K star φ (slopes (sizes e m w) dX junk φ) order u = some (g, mk) ∧
      ∀ p < m, ∀ q < w, let a := at2 e m w p q
        let QL := u (at2 e m w (k - 1) q)
        let QR := u (at2 e m w kR q)
        (g a = if k ≤ p ∧ p ≤ k + K then
            fun i => if i < c.V - c.lset then star QL QR (materialIndex c QR) (if e then [0, 1] else [1, 0]) i else u a i
          else u a) ∧ (mk a = true ↔ p ≤ k) := by
  intro dX kR
  have hd := sizes_len e m w
  have hpr := sizes_prod e m w
  have nrm : normal (if e then [0, 1] else [1, 0]) = some (if e then [0, 1] else [1, 0]) := by
    cases e <;> (unfold normal; norm_num)
  have hΔ : ∀ p < m, ∀ q < w, slopes (sizes e m w) dX junk φ (at2 e m w p q) = if e then [0, 1] else [1, 0] := by
    intro p hp q hq
    have hdm : ∀ n x y : Nat, y < n → (x * n + y) / n = x ∧ (x * n + y) % n = y := fun n x y h => by
      constructor
      · rw [Nat.mul_comm, Nat.mul_add_div (by omega), Nat.div_eq_of_lt h, Nat.add_zero]
      · rw [Nat.mul_comm, Nat.mul_add_mod, Nat.mod_eq_of_lt h]
    cases e
    · simp only [at2, sizes, Bool.false_eq_true, if_false, slopes, dX, hdm w p q hq] at hφ ⊢
      obtain ⟨g1, g2⟩ := gradient2 m w hm hw junk φ dp dq (-x0) 1 0 hdp hdq
        (fun i hi j hj => by rw [hφ i hi j hj]; ring) p q hp hq
      rw [g1, g2]
    · simp only [at2, sizes, if_true, slopes, dX, hdm m q p hp] at hφ ⊢
      obtain ⟨g1, g2⟩ := gradient2 w m hw hm junk φ dq dp (-x0) 0 1 hdq hdp
        (fun i hi j hj => by rw [hφ j hj i hi]; ring) q p hq hp
      rw [g1, g2]
  have hpos : ∀ p < m, ∀ q < w, 0 < φ (at2 e m w p q) ↔ k ≤ p := by
    intro p hp q hq
    rw [hφ p hp q hq]
    constructor
    · intro h
      by_contra hc
      have : (p : ℝ) + 1 ≤ k := by exact_mod_cast (by omega : p + 1 ≤ k)
      nlinarith
    · intro h
      have : (k : ℝ) ≤ p := by exact_mod_cast h
      nlinarith
  have kept : ∀ p < m, ∀ q < w, Kept (sizes e m w) φ (at2 e m w p q) ↔ p < k := by
    intro p hp q hq
    unfold Kept
    rw [← not_lt, hpos p hp q hq]
    refine ⟨fun h => by omega, fun h => ⟨by omega, fun _ hi => ?_⟩⟩
    rcases Nat.eq_zero_or_pos q with rfl | hq0
    · have := hi.2 _ ((adj_at2 e hp hq).2 (Or.inr (Or.inr (Or.inr ⟨by omega, rfl⟩))))
      rw [hpos p hp _ (by omega)] at this
      omega
    · have := hi.2 _ ((adj_at2 e hp hq).2 (Or.inr (Or.inr (Or.inl ⟨hq0, rfl⟩))))
      rw [hpos p hp _ (by omega)] at this
      omega
  have hone : ∀ p < m, ∀ q < w, find (sizes e m w) φ (at2 e m w p q) = 1 ↔ p = k := by
    intro p hp q hq
    rw [find_one _ hd φ _ (at2_lt e hp hq), hpos p hp q hq]
    constructor
    · rintro ⟨h, b, hb, hk'⟩
      rw [adj_at2 e hp hq] at hb
      rcases hb with ⟨hc, rfl⟩ | ⟨hc, rfl⟩ | ⟨hc, rfl⟩ | ⟨hc, rfl⟩
      all_goals
        have := (kept _ (by omega) _ (by omega)).1 hk'
        omega
    · rintro rfl
      exact ⟨le_refl _, _, (adj_at2 e hp hq).2 (Or.inl ⟨hk, rfl⟩), (kept _ (by omega) _ hq).2 (by omega)⟩
  have hzero : ∀ p < m, ∀ q < w, k < p → find (sizes e m w) φ (at2 e m w p q) = 0 := by
    intro p hp q hq hkp
    refine (find_spec _ hd φ _ (at2_lt e hp hq)).2.2.2.2 ((hpos p hp q hq).2 hkp.le) ?_
    rintro ⟨b, hb, hk'⟩
    rw [adj_at2 e hp hq] at hb
    rcases hb with ⟨hc, rfl⟩ | ⟨hc, rfl⟩ | ⟨hc, rfl⟩ | ⟨hc, rfl⟩
    all_goals
      have := (kept _ (by omega) _ (by omega)).1 hk'
      omega
  have hsrc : ∀ p < m, ∀ q < w, source (sizes e m w) dX (slopes (sizes e m w) dX junk φ (at2 e m w p q))
      (coords (sizes e m w) (at2 e m w p q)) = some ((at2 e m w (p - 1) q : Nat) : Int) := by
    intro p hp q hq
    unfold source
    rw [hΔ p hp q hq, nrm, coords_at2 e hp hq]
    have s1 : sourceCoord dp 1 p = ((p - 1 : Nat) : Int) := by
      rcases Nat.eq_zero_or_pos p with rfl | hp0
      · unfold sourceCoord trunc
        rw [if_neg, Int.ceil_eq_iff]
        · have : ((((0 : Nat) : ℝ) + 0.5) * dp - dp * 1) / dp = -(1 / 2) := by field_simp; norm_num
          rw [this]; norm_num
        · have : ((((0 : Nat) : ℝ) + 0.5) * dp - dp * 1) / dp = -(1 / 2) := by field_simp; norm_num
          rw [this]; norm_num
      · rw [sourceCoord_val dp 1 p hdp (by norm_num) (Or.inl hp0), if_pos (by norm_num)]
        omega
    have s2 : sourceCoord dq 0 q = (q : Int) := by
      rw [sourceCoord_val dq 0 q hdq (by norm_num) (Or.inr (by norm_num)), if_neg (by norm_num), if_pos (by norm_num)]
    cases e
    · simp only [dX, Bool.false_eq_true, if_false, Option.map_some, List.zip_cons_cons, List.zip_nil_left, List.map_cons,
        List.map_nil, sizes, flat, Option.some.injEq, s1, s2, at2]
      push_cast
      ring
    · simp only [dX, if_true, Option.map_some, List.zip_cons_cons, List.zip_nil_left, List.map_cons,
        List.map_nil, sizes, flat, Option.some.injEq, s1, s2, at2]
      push_cast
      ring
  have hprobe : ∀ q < w, ∀ (off : ℝ) (b : Nat), (b : ℝ) * dp ≤ x0 + off * dp → x0 + off * dp < (b + 1) * dp →
      probe (sizes e m w) dX (if e then [0, 1] else [1, 0]) (φ (at2 e m w k q)) off
        (coords (sizes e m w) (at2 e m w k q)) = at2 e m w b q := by
    intro q hq off b hb1 hb2
    rw [coords_at2 e (by omega) hq, hφ k (by omega) q hq]
    have s1 : probeCoord dp 1 (((k : ℝ) + 1 / 2) * dp - x0) off k = (b : Int) := by
      unfold probeCoord
      refine trunc_eq _ b ?_ ?_
      · rw [le_div_iff₀ hdp]; linarith
      · rw [div_lt_iff₀ hdp]; linarith
    have s2 : probeCoord dq 0 (((k : ℝ) + 1 / 2) * dp - x0) off q = (q : Int) := by
      unfold probeCoord
      refine trunc_eq _ q ?_ ?_
      · rw [le_div_iff₀ hdq]; linarith
      · rw [div_lt_iff₀ hdq]; linarith
    unfold probe
    cases e
    · simp only [dX, Bool.false_eq_true, if_false, List.zip_cons_cons, List.zip_nil_left, List.map_cons,
        List.map_nil, sizes, flat, s1, s2, at2]
      push_cast
      ring
    · simp only [dX, if_true, List.zip_cons_cons, List.zip_nil_left, List.map_cons,
        List.map_nil, sizes, flat, s1, s2, at2]
      push_cast
      ring
  have hcast : ((k - 1 : Nat) : ℝ) = (k : ℝ) - 1 := by push_cast [hk]; rfl
  have hR : kR < m := by simp only [kR]; split_ifs <;> omega
  -- the states and the feet in terms of cells
  let Q : Nat → St := fun a => star (u (at2 e m w (k - 1) (if e then a / m else a % w)))
    (u (at2 e m w kR (if e then a / m else a % w))) (materialIndex c (u (at2 e m w kR (if e then a / m else a % w))))
    (if e then [0, 1] else [1, 0])
  let foot : Nat → Nat := fun a => at2 e m w k (if e then a / m else a % w)
  have hrow : ∀ p < m, ∀ q < w, (if e then at2 e m w p q / m else at2 e m w p q % w) = q := by
    intro p hp q hq
    cases e
    · simp only [at2, Bool.false_eq_true, if_false]
      rw [Nat.mul_comm, Nat.mul_add_mod, Nat.mod_eq_of_lt hq]
    · simp only [at2, if_true]
      rw [Nat.mul_comm, Nat.mul_add_div (by omega), Nat.div_eq_of_lt hp, Nat.add_zero]
  have hwalk : ∀ q < w, ∀ j, k + j < m → Walk (sizes e m w) (find (sizes e m w) φ) j (at2 e m w (k + j) q) := by
    intro q hq j
    induction j with
    | zero => exact fun h => .start (at2_lt e h hq) ((hone k (by omega) q hq).2 rfl)
    | succ j ih =>
      exact fun h => .step (ih (by omega)) ((adj_at2 e (by omega) hq).2 (Or.inr (Or.inl ⟨by omega, rfl⟩)))
        (hzero _ h q hq (by omega))
  have hwalk' : ∀ j a, Walk (sizes e m w) (find (sizes e m w) φ) j a → ∃ p < m, ∃ q < w, a = at2 e m w p q ∧ k ≤ p ∧
      p ≤ k + j := by
    intro j a h
    induction h with
    | start ha h1 =>
      obtain ⟨p, hp, q, hq, rfl⟩ := at2_surj e ha
      have := (hone p hp q hq).1 h1
      exact ⟨p, hp, q, hq, rfl, by omega, by omega⟩
    | @step j a b hw hab h0 ih =>
      obtain ⟨p, hp, q, hq, rfl, hk1, hk2⟩ := ih
      have hout := walk_outside _ hd φ (.step hw hab h0)
      rw [adj_at2 e hp hq] at hab
      rcases hab with ⟨hc, rfl⟩ | ⟨hc, rfl⟩ | ⟨hc, rfl⟩ | ⟨hc, rfl⟩
      · have := (hpos _ (by omega) _ hq).1 hout
        exact ⟨_, by omega, _, hq, rfl, by omega, by omega⟩
      · exact ⟨_, by omega, _, hq, rfl, by omega, by omega⟩
      · exact ⟨_, hp, _, by omega, rfl, by omega, by omega⟩
      · exact ⟨_, hp, _, by omega, rfl, by omega, by omega⟩
  have hdist : ∀ q < w, ∀ j, k + j < m → LayerDist (sizes e m w) (find (sizes e m w) φ) j (at2 e m w (k + j) q) := by
    intro q hq j hj
    refine ⟨hwalk q hq j hj, fun i hi h => ?_⟩
    obtain ⟨p, hp, q', hq', he, h1, h2⟩ := hwalk' i _ h
    have := at2_inj e hj hq hp hq' he
    omega
  have hdist' : ∀ j a, LayerDist (sizes e m w) (find (sizes e m w) φ) j a → k + j < m ∧ ∃ q < w, a = at2 e m w (k + j) q := by
    intro j a h
    obtain ⟨p, hp, q, hq, rfl, h1, h2⟩ := hwalk' j a h.1
    have := hwalk q hq (p - k) (by omega)
    rw [show k + (p - k) = p by omega] at this
    have hle : ¬ p - k < j := fun hc => h.2 _ hc this
    obtain rfl : p = k + j := by omega
    exact ⟨hp, q, hq, rfl⟩
  obtain ⟨g, mk, hg, p1, p2, p3⟩ := ghost_many c (sizes e m w) hd dX mat nmat K star φ (slopes (sizes e m w) dX junk φ) order u Q
    (by rw [hpr]; exact ho) (fun a ha hone' g hg hga => by
      obtain ⟨p, hp, q, hq, rfl⟩ := at2_surj e ha
      obtain rfl := (hone p hp q hq).1 hone'
      have hL : g (at2 e m w (p - 1) q) = u (at2 e m w (p - 1) q) := hg _ fun h => by
        have := (hone _ (by omega) q hq).1 h
        omega
      have hRg : g (at2 e m w kR q) = u (at2 e m w kR q) := by
        by_cases hc : kR = p
        · rw [hc, hga]
        · exact hg _ fun h => hc ((hone _ hR q hq).1 h)
      have := visit_one c (sizes e m w) dX (sizes e m w).prod mat nmat star φ (slopes (sizes e m w) dX junk φ)
        (find (sizes e m w) φ) g (at2 e m w p q) (at2 e m w (p - 1) q) (at2 e m w kR q) (if e then [0, 1] else [1, 0]) hone'
        (by rw [hΔ p hp q hq, nrm]) ha (at2_lt e (by omega) hq) (at2_lt e hR hq)
        (by rw [hL, hmat _ (by omega) q hq]; omega) (by rw [hga, Ne, hmat _ hp q hq]; omega) (by rw [hRg]; exact hn _ hR q hq)
        (by
          simp only [kR]
          by_cases hc : (p : ℝ) * dp ≤ x0
          · rw [if_pos hc]
            refine Or.inl ⟨hprobe q hq 0 p (by linarith) (by nlinarith), hprobe q hq (-1) (p - 1) ?_ ?_,
              hprobe q hq 1 (p + 1) ?_ ?_⟩
            · rw [hcast]; nlinarith
            · rw [hcast]; nlinarith
            · push_cast; nlinarith
            · push_cast; nlinarith
          · rw [if_neg hc]
            push Not at hc
            refine Or.inr ⟨hprobe q hq 0 (p - 1) ?_ ?_, hprobe q hq 1 p ?_ ?_⟩
            · rw [hcast]; nlinarith
            · rw [hcast]; nlinarith
            · nlinarith
            · nlinarith)
      rw [this, hL, hRg, hga]
      simp only [Q, hrow p hp q hq])
    (fun grid => layers_defined _ _ K _ grid fun a ha => by
      obtain ⟨p, hp, q, hq, rfl⟩ := at2_surj e ha
      exact ⟨_, at2_lt e (by omega) hq, hsrc p hp q hq⟩)
    (fun a ha h => by
      obtain ⟨p, hp, q, hq, rfl⟩ := at2_surj e ha
      have := (find_neg_two _ hd φ _ ha).1 h
      refine this.2 ((kept p hp q hq).2 ?_)
      have hle := this.1
      rw [← not_lt, hpos p hp q hq] at hle
      omega)
    foot
    (fun a ha h => by
      obtain ⟨p, hp, q, hq, rfl⟩ := at2_surj e ha
      obtain rfl := (hone p hp q hq).1 h
      simp only [foot, hrow p hp q hq])
    (fun j a hj h => by
      obtain ⟨hlt, q, hq, rfl⟩ := hdist' _ _ h
      refine ⟨j, at2 e m w (k + j) q, le_refl _, hdist q hq j (by omega), ?_, ?_⟩
      · rw [hsrc _ hlt q hq]
        rfl
      · simp only [foot, hrow _ hlt q hq, hrow (k + j) (by omega) q hq])
  refine ⟨g, mk, hg, fun p hp q hq => ?_⟩
  simp only
  constructor
  · by_cases hc : k ≤ p ∧ p ≤ k + K
    · have hdd := hdist q hq (p - k) (by omega)
      rw [show k + (p - k) = p by omega] at hdd
      rw [if_pos hc, p1 (p - k) _ (by omega) hdd]
      simp only [Q, foot, hrow p hp q hq, hrow k (by omega) q hq]
      rfl
    · rw [if_neg hc, p2 _ (at2_lt e hp hq)]
      intro j hj h
      obtain ⟨p', hp', q', hq', he, h1, h2⟩ := hwalk' j _ h
      have := at2_inj e hp hq hp' hq' he
      omega
  · rw [p3 _ (at2_lt e hp hq), ← not_lt, hpos p hp q hq, hone p hp q hq]
    omega

/-- Nine cells, the surface a quarter of a cell above the bottom of the second row. -/
example : let c := cfgOf true
    let φ : Nat → ℝ := fun a => (((a % 3 : Nat) : ℝ) + 1 / 2) * 1 - 5 / 4
    let u : Nat → St := fun a k => if k = c.V - 2 then φ a else if k = c.V - 1 then -1 else a
    ∃ g mk, ghostCells c [3, 3] [2, 1] 0 3 1 (fun QL QR _ n => fun k => QL k + QR k + n.getD 0 0) φ
      (slopes [3, 3] [2, 1] (fun _ _ => 0) φ) (List.range 9) u = some (g, mk) ∧ g 5 0 = 8 ∧ g 3 = u 3 ∧
      mk 4 = true ∧ mk 5 = false := by
  intro c φ u
  have hidx : ∀ a, materialIndex c (u a) = if φ a < 0 then 0 else 1 := fun a => level_index (φ a) _
  have hneg : ∀ a : Nat, φ a < 0 ↔ a % 3 < 1 := by
    intro a
    simp only [φ]
    constructor
    · intro h
      by_contra hc
      have : (1 : ℝ) ≤ ((a % 3 : Nat) : ℝ) := by exact_mod_cast (by omega : 1 ≤ a % 3)
      linarith
    · intro h
      have : a % 3 = 0 := by omega
      rw [this]; norm_num
  have hat : ∀ p < 3, ∀ q < 3, at2 true 3 3 p q % 3 = p := fun p hp q _ => by
    simp only [at2, if_true]; omega
  obtain ⟨g, mk, hg, h⟩ := ghost_plane true c 3 3 le_rfl le_rfl 1 2 (5 / 4) one_pos two_pos 0 3 1
    (fun QL QR _ n => fun k => QL k + QR k + n.getD 0 0) (fun _ _ => 0) φ (List.range 9) (by norm_num) u 1 le_rfl (by norm_num)
    (fun p hp q hq => by simp only [φ, hat p hp q hq]) (by norm_num) (by norm_num)
    (fun p hp q hq => by
      have e := hneg (at2 true 3 3 p q)
      rw [hat p hp q hq] at e
      rw [hidx, ← e]
      split_ifs <;> simp_all)
    (fun p hp q hq => by rw [hidx]; split_ifs <;> norm_num)
  have hc : ((1 : Nat) : ℝ) * 1 ≤ 5 / 4 := by norm_num
  simp only [hc, if_true] at h
  refine ⟨g, mk, hg, ?_, ?_, ?_, ?_⟩
  · have := (h 2 (by norm_num) 1 (by norm_num)).1
    simp only [at2, if_true] at this
    norm_num at this
    rw [this]
    norm_num [u, c, cfgOf, Cfg.V]
  · have := (h 0 (by norm_num) 1 (by norm_num)).1
    rw [if_neg (by omega)] at this
    simpa [at2] using this
  · have := (h 1 (by norm_num) 1 (by norm_num)).2.2 (by norm_num)
    simpa [at2] using this
  · have := (h 2 (by norm_num) 1 (by norm_num)).2
    rw [← Bool.not_eq_true]
    simp only [at2, if_true] at this
    norm_num at this
    simpa using this

end Verif.Fill
