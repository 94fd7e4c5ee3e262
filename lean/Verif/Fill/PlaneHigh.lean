import Verif.Fill.Plane

/-! # Interfaces on a plane, seen from the other side -/

namespace Verif.Fill

open Verif.Sys Verif.Iter

/-- Where no cell is isolated, the passes on a plane read the sources of cells outside of the material only. -/
theorem layers_defined2 {α : Type} (nX : List Nat) (hl : nX.length = 2) (src : Nat → Option Int) (K : Nat) (φ : Nat → ℝ) (grid : Nat → α)
    (hiso : ∀ a < nX.prod, find nX φ a ≠ -2) (hs : ∀ a < nX.prod, 0 < φ a → ∃ k < nX.prod, src a = some ((k : Nat) : Int)) :
    ∃ s, fillNeighbors nX src K (find nX φ) grid = some s := by
  have hd : nX.length = 1 ∨ nX.length = 2 := Or.inr hl
  obtain ⟨nx, ny, rfl⟩ := List.length_eq_two.1 hl
  have hp : [nx, ny].prod = nx * ny := by simp
  rw [hp] at hiso hs
  let I : Layers α → Prop := fun s => ∀ a < nx * ny, s.mask a ≠ -2 ∧ (1 ≤ s.mask a → 0 < φ a) ∧ (s.mask a = 0 → find [nx, ny] φ a = 0)
  have kept : ∀ a < nx * ny, φ a ≤ 0 → Kept [nx, ny] φ a := fun a ha h => by
    by_contra hc
    exact hiso a ha ((find_neg_two _ hd φ a (by rw [hp]; exact ha)).2 ⟨h, hc⟩)
  have key : ∀ a < nx * ny, ∀ b, find [nx, ny] φ a = 0 → Adj [nx, ny] a b → 0 < φ b → 0 < φ a := by
    intro a ha b h0 hab hpos
    by_contra hc
    have := (find_spec [nx, ny] hd φ a (by rw [hp]; exact ha)).2.1 (kept a ha (not_lt.1 hc))
      ⟨b, hab, mul_nonpos_of_nonpos_of_nonneg (not_lt.1 hc) hpos.le⟩
    omega
  obtain ⟨s, h, -⟩ := foldlM_inv I (fun s (k : Nat) => passOf [nx, ny] src ((k : Int) + 1) s) (List.range K) (fun k _ s hI => by
    obtain ⟨t, ht, hI', hn⟩ := foldlM_inv (fun s => I s ∧ s.isolates = [])
      (fun s i => (List.range ny).foldlM (fun s j => visit2 nx ny src ((k : Int) + 1) s i j) s) (List.range nx)
      (fun i hi s hI => foldlM_inv _ _ (List.range ny) (fun j hj s hI => by
        obtain ⟨hI, hn⟩ := hI
        have hi' : i < nx := List.mem_range.1 hi
        have hj' : j < ny := List.mem_range.1 hj
        have hlt : i * ny + j < nx * ny := by
          calc i * ny + j < i * ny + ny := by omega
            _ = (i + 1) * ny := by ring
            _ ≤ nx * ny := Nat.mul_le_mul_right _ hi'
        obtain ⟨m2, m1, m0⟩ := hI _ hlt
        unfold visit2
        simp only
        by_cases h0 : s.mask (i * ny + j) = 0
        · rw [if_pos (Or.inl h0)]
          rcases neighborIndex_spec s.mask i j nx ny ((k : Int) + 1) hi' hj' with ⟨b, hb, hadj, hm⟩ | ⟨hb, _⟩
          · have hbl : b < nx * ny := by
              obtain ⟨i', j', k', l', -, -, hk', hl', -, rfl, -⟩ := hadj
              calc k' * ny + l' < k' * ny + ny := by omega
                _ = (k' + 1) * ny := by ring
                _ ≤ nx * ny := Nat.mul_le_mul_right _ hk'
            have hpos := key _ hlt b (m0 h0) hadj ((hI b hbl).2.1 (by omega))
            obtain ⟨g, hg⟩ := copyCell_isSome (Function.update s.mask (i * ny + j) ((k : Int) + 1 + 1)) s.grid (i * ny + j)
              (neighborIndex s.mask i j nx ny ((k : Int) + 1)).toNat (hs _ hlt hpos)
            rw [if_pos (by omega), if_neg m2, hg]
            refine ⟨_, rfl, fun a ha => ?_, hn⟩
            by_cases hai : a = i * ny + j
            · subst hai
              simp only [Function.update_self]
              exact ⟨by omega, fun _ => hpos, fun h => by omega⟩
            · simp only [Function.update_of_ne hai]
              exact hI a ha
          · rw [if_neg (by omega)]
            exact ⟨_, rfl, hI, hn⟩
        · rw [if_neg (by omega)]
          exact ⟨_, rfl, hI, hn⟩) s hI) { s with isolates := [] } ⟨hI, rfl⟩
    refine ⟨t, ?_, hI'⟩
    unfold passOf pass2
    simp only [ht, Option.map_some, hn, List.foldl_nil]
    rw [← hn]) ⟨find [nx, ny] φ, grid, []⟩ (fun a ha => ⟨hiso a ha, fun h => by
        have := find_le [nx, ny] hd φ a (by rw [hp]; exact ha)
        have h' : 1 ≤ find [nx, ny] φ a := h
        exact ((find_one [nx, ny] hd φ a (by rw [hp]; exact ha)).1 (by omega)).1, fun h => h⟩)
  exact ⟨s, h⟩

/-- **A plane filled from `x0` on along an axis**: as on a line, in each row separately. -/
theorem ghost_plane_high (e : Bool) (c : Cfg) (m w : Nat) (hm : 3 ≤ m) (hw : 3 ≤ w) (dp dq x0 : ℝ) (hdp : 0 < dp) (hdq : 0 < dq)
    (mat nmat K : Nat) (star : St → St → Nat → List ℝ → St) (junk : Nat → Nat → ℝ) (φ : Nat → ℝ) (order : List Nat)
    (ho : order.Perm (List.range (m * w))) (u : Nat → St) (k : Nat) (hk : 1 ≤ k) (hkm : k + 1 < m)
    (hφ : ∀ p < m, ∀ q < w, φ (at2 e m w p q) = x0 - ((p : ℝ) + 1 / 2) * dp)
    (h1 : ((k : ℝ) + 1 / 2) * dp < x0) (h2 : x0 ≤ ((k : ℝ) + 3 / 2) * dp)
    (hmat : ∀ p < m, ∀ q < w, materialIndex c (u (at2 e m w p q)) = mat ↔ k < p)
    (hn : ∀ p < m, ∀ q < w, materialIndex c (u (at2 e m w p q)) < nmat) :
    let dX := if e then [dq, dp] else [dp, dq]
    let kR := if x0 < ((k : ℝ) + 1) * dp then k - 1 else k
    ∃ g mk, ghostCells c (sizes e m w) dX mat nmat K star φ (slopes (sizes e m w) dX junk φ) order u = some (g, mk) ∧
      ∀ p < m, ∀ q < w, let a := at2 e m w p q
        let QL := u (at2 e m w (k + 1) q)
        let QR := u (at2 e m w kR q)
        (g a = if p ≤ k ∧ k ≤ p + K then
            fun i => if i < c.V - c.lset then star QL QR (materialIndex c QR) (if e then [0, -1] else [-1, 0]) i else u a i
          else u a) ∧ (mk a = true ↔ k ≤ p) := by
  intro dX kR
  have hd := sizes_len e m w
  have hpr := sizes_prod e m w
  have nrm : normal (if e then [0, -1] else [-1, 0]) = some (if e then [0, -1] else [-1, 0]) := by
    cases e <;> (unfold normal; norm_num)
  have hΔ : ∀ p < m, ∀ q < w, slopes (sizes e m w) dX junk φ (at2 e m w p q) = if e then [0, -1] else [-1, 0] := by
    intro p hp q hq
    have hdm : ∀ n x y : Nat, y < n → (x * n + y) / n = x ∧ (x * n + y) % n = y := fun n x y h => by
      constructor
      · rw [Nat.mul_comm, Nat.mul_add_div (by omega), Nat.div_eq_of_lt h, Nat.add_zero]
      · rw [Nat.mul_comm, Nat.mul_add_mod, Nat.mod_eq_of_lt h]
    cases e
    · simp only [at2, sizes, Bool.false_eq_true, if_false, slopes, dX, hdm w p q hq] at hφ ⊢
      obtain ⟨g1, g2⟩ := gradient2 m w hm hw junk φ dp dq x0 (-1) 0 hdp hdq
        (fun i hi j hj => by rw [hφ i hi j hj]; ring) p q hp hq
      rw [g1, g2]
    · simp only [at2, sizes, if_true, slopes, dX, hdm m q p hp] at hφ ⊢
      obtain ⟨g1, g2⟩ := gradient2 w m hw hm junk φ dq dp x0 0 (-1) hdq hdp
        (fun i hi j hj => by rw [hφ j hj i hi]; ring) q p hq hp
      rw [g1, g2]
  have hpos : ∀ p < m, ∀ q < w, 0 < φ (at2 e m w p q) ↔ p ≤ k := by
    intro p hp q hq
    rw [hφ p hp q hq]
    constructor
    · intro h
      by_contra hc
      have : (k : ℝ) + 1 ≤ p := by exact_mod_cast (by omega : k + 1 ≤ p)
      nlinarith
    · intro h
      have : (p : ℝ) ≤ k := by exact_mod_cast h
      nlinarith
  have kept : ∀ p < m, ∀ q < w, Kept (sizes e m w) φ (at2 e m w p q) ↔ k < p := by
    intro p hp q hq
    unfold Kept
    rw [← not_lt, hpos p hp q hq]
    refine ⟨fun h => by omega, fun h => ⟨by omega, fun _ hi => ?_⟩⟩
    rcases Nat.eq_zero_or_pos q with rfl | hq0
    · have := hi.2 _ ((adj_at2 e hp hq).2 (Or.inr (Or.inr (Or.inr ⟨by omega, rfl⟩))))
      rw [hpos p hp _ (by omega)] at this
      omega
    · have := hi.2 _ ((adj_at2 e hp hq).2 (Or.inr (Or.inr (Or.inl ⟨hq0, rfl⟩))))
      rw [hpos p hp _ (by omega)] at this
      omega
  have hone : ∀ p < m, ∀ q < w, find (sizes e m w) φ (at2 e m w p q) = 1 ↔ p = k := by
    intro p hp q hq
    rw [find_one _ hd φ _ (at2_lt e hp hq), hpos p hp q hq]
    constructor
    · rintro ⟨h, b, hb, hk'⟩
      rw [adj_at2 e hp hq] at hb
      rcases hb with ⟨hc, rfl⟩ | ⟨hc, rfl⟩ | ⟨hc, rfl⟩ | ⟨hc, rfl⟩
      all_goals
        have := (kept _ (by omega) _ (by omega)).1 hk'
        omega
    · rintro rfl
      exact ⟨le_refl _, _, (adj_at2 e hp hq).2 (Or.inr (Or.inl ⟨hkm, rfl⟩)), (kept _ (by omega) _ hq).2 (by omega)⟩
  have hzero : ∀ p < m, ∀ q < w, p < k → find (sizes e m w) φ (at2 e m w p q) = 0 := by
    intro p hp q hq hkp
    refine (find_spec _ hd φ _ (at2_lt e hp hq)).2.2.2.2 ((hpos p hp q hq).2 hkp.le) ?_
    rintro ⟨b, hb, hk'⟩
    rw [adj_at2 e hp hq] at hb
    rcases hb with ⟨hc, rfl⟩ | ⟨hc, rfl⟩ | ⟨hc, rfl⟩ | ⟨hc, rfl⟩
    all_goals
      have := (kept _ (by omega) _ (by omega)).1 hk'
      omega
  have hsrc : ∀ p < m, ∀ q < w, source (sizes e m w) dX (slopes (sizes e m w) dX junk φ (at2 e m w p q))
      (coords (sizes e m w) (at2 e m w p q)) = some ((at2 e m w (p + 1) q : Nat) : Int) := by
    intro p hp q hq
    unfold source
    rw [hΔ p hp q hq, nrm, coords_at2 e hp hq]
    have s1 : sourceCoord dp (-1) p = ((p + 1 : Nat) : Int) := by
      rw [sourceCoord_val dp (-1) p hdp (by norm_num) (Or.inr (by norm_num)), if_neg (by norm_num), if_neg (by norm_num)]
      push_cast
      ring
    have s2 : sourceCoord dq 0 q = (q : Int) := by
      rw [sourceCoord_val dq 0 q hdq (by norm_num) (Or.inr (by norm_num)), if_neg (by norm_num), if_pos (by norm_num)]
    cases e
    · simp only [dX, Bool.false_eq_true, if_false, Option.map_some, List.zip_cons_cons, List.zip_nil_left, List.map_cons,
        List.map_nil, sizes, flat, Option.some.injEq, s1, s2, at2]
      push_cast
      ring
    · simp only [dX, if_true, Option.map_some, List.zip_cons_cons, List.zip_nil_left, List.map_cons,
        List.map_nil, sizes, flat, Option.some.injEq, s1, s2, at2]
      push_cast
      ring
  have hprobe : ∀ q < w, ∀ (off : ℝ) (b : Nat), (b : ℝ) * dp ≤ x0 - off * dp → x0 - off * dp < (b + 1) * dp →
      probe (sizes e m w) dX (if e then [0, -1] else [-1, 0]) (φ (at2 e m w k q)) off
        (coords (sizes e m w) (at2 e m w k q)) = at2 e m w b q := by
    intro q hq off b hb1 hb2
    rw [coords_at2 e (by omega) hq, hφ k (by omega) q hq]
    have s1 : probeCoord dp (-1) (x0 - ((k : ℝ) + 1 / 2) * dp) off k = (b : Int) := by
      unfold probeCoord
      refine trunc_eq _ b ?_ ?_
      · rw [le_div_iff₀ hdp]; linarith
      · rw [div_lt_iff₀ hdp]; linarith
    have s2 : probeCoord dq 0 (x0 - ((k : ℝ) + 1 / 2) * dp) off q = (q : Int) := by
      unfold probeCoord
      refine trunc_eq _ q ?_ ?_
      · rw [le_div_iff₀ hdq]; linarith
      · rw [div_lt_iff₀ hdq]; linarith
    unfold probe
    cases e
    · simp only [dX, Bool.false_eq_true, if_false, List.zip_cons_cons, List.zip_nil_left, List.map_cons,
        List.map_nil, sizes, flat, s1, s2, at2]
      push_cast
      ring
    · simp only [dX, if_true, List.zip_cons_cons, List.zip_nil_left, List.map_cons,
        List.map_nil, sizes, flat, s1, s2, at2]
      push_cast
      ring
  have hcast : ((k - 1 : Nat) : ℝ) = (k : ℝ) - 1 := by push_cast [hk]; rfl
  have hR : kR < m := by simp only [kR]; split_ifs <;> omega
  -- the states and the feet in terms of cells
  let Q : Nat → St := fun a => star (u (at2 e m w (k + 1) (if e then a / m else a % w)))
    (u (at2 e m w kR (if e then a / m else a % w))) (materialIndex c (u (at2 e m w kR (if e then a / m else a % w))))
    (if e then [0, -1] else [-1, 0])
  let foot : Nat → Nat := fun a => at2 e m w k (if e then a / m else a % w)
  have hrow : ∀ p < m, ∀ q < w, (if e then at2 e m w p q / m else at2 e m w p q % w) = q := by
    intro p hp q hq
    cases e
    · simp only [at2, Bool.false_eq_true, if_false]
      rw [Nat.mul_comm, Nat.mul_add_mod, Nat.mod_eq_of_lt hq]
    · simp only [at2, if_true]
      rw [Nat.mul_comm, Nat.mul_add_div (by omega), Nat.div_eq_of_lt hp, Nat.add_zero]
  have hwalk : ∀ q < w, ∀ j ≤ k, Walk (sizes e m w) (find (sizes e m w) φ) j (at2 e m w (k - j) q) := by
    intro q hq j
    induction j with
    | zero => exact fun h => .start (at2_lt e (by omega) hq) ((hone k (by omega) q hq).2 rfl)
    | succ j ih =>
      exact fun h => .step (ih (by omega)) ((adj_at2 e (by omega) hq).2 (Or.inl ⟨by omega, rfl⟩))
        (hzero _ (by omega) q hq (by omega))
  have hwalk' : ∀ j a, Walk (sizes e m w) (find (sizes e m w) φ) j a → ∃ p < m, ∃ q < w, a = at2 e m w p q ∧ p ≤ k ∧
      k ≤ p + j := by
    intro j a h
    induction h with
    | start ha h1 =>
      obtain ⟨p, hp, q, hq, rfl⟩ := at2_surj e ha
      have := (hone p hp q hq).1 h1
      exact ⟨p, hp, q, hq, rfl, by omega, by omega⟩
    | @step j a b hw hab h0 ih =>
      obtain ⟨p, hp, q, hq, rfl, hk1, hk2⟩ := ih
      have hout := walk_outside _ hd φ (.step hw hab h0)
      rw [adj_at2 e hp hq] at hab
      rcases hab with ⟨hc, rfl⟩ | ⟨hc, rfl⟩ | ⟨hc, rfl⟩ | ⟨hc, rfl⟩
      · exact ⟨_, by omega, _, hq, rfl, by omega, by omega⟩
      · have := (hpos _ (by omega) _ hq).1 hout
        exact ⟨_, by omega, _, hq, rfl, by omega, by omega⟩
      · exact ⟨_, hp, _, by omega, rfl, by omega, by omega⟩
      · exact ⟨_, hp, _, by omega, rfl, by omega, by omega⟩
  have hdist : ∀ q < w, ∀ j ≤ k, LayerDist (sizes e m w) (find (sizes e m w) φ) j (at2 e m w (k - j) q) := by
    intro q hq j hj
    refine ⟨hwalk q hq j hj, fun i hi h => ?_⟩
    obtain ⟨p, hp, q', hq', he, h1, h2⟩ := hwalk' i _ h
    have := at2_inj e (by omega) hq hp hq' he
    omega
  have hdist' : ∀ j a, LayerDist (sizes e m w) (find (sizes e m w) φ) j a → j ≤ k ∧ ∃ q < w, a = at2 e m w (k - j) q := by
    intro j a h
    obtain ⟨p, hp, q, hq, rfl, h1, h2⟩ := hwalk' j a h.1
    have := hwalk q hq (k - p) (by omega)
    rw [show k - (k - p) = p by omega] at this
    have hle : ¬ k - p < j := fun hc => h.2 _ hc this
    obtain rfl : p = k - j := by omega
    exact ⟨by omega, q, hq, rfl⟩
  have hiso : ∀ a < (sizes e m w).prod, find (sizes e m w) φ a ≠ -2 := by
    intro a ha h
    obtain ⟨p, hp, q, hq, rfl⟩ := at2_surj e ha
    have := (find_neg_two _ hd φ _ ha).1 h
    refine this.2 ((kept p hp q hq).2 ?_)
    have hle := this.1
    rw [← not_lt, hpos p hp q hq] at hle
    omega
  obtain ⟨g, mk, hg, p1, p2, p3⟩ := ghost_many c (sizes e m w) hd dX mat nmat K star φ (slopes (sizes e m w) dX junk φ) order u Q
    (by rw [hpr]; exact ho) (fun a ha hone' g hg hga => by
      obtain ⟨p, hp, q, hq, rfl⟩ := at2_surj e ha
      obtain rfl := (hone p hp q hq).1 hone'
      have hL : g (at2 e m w (p + 1) q) = u (at2 e m w (p + 1) q) := hg _ fun h => by
        have := (hone _ (by omega) q hq).1 h
        omega
      have hRg : g (at2 e m w kR q) = u (at2 e m w kR q) := by
        by_cases hc : kR = p
        · rw [hc, hga]
        · exact hg _ fun h => hc ((hone _ hR q hq).1 h)
      have := visit_one c (sizes e m w) dX (sizes e m w).prod mat nmat star φ (slopes (sizes e m w) dX junk φ)
        (find (sizes e m w) φ) g (at2 e m w p q) (at2 e m w (p + 1) q) (at2 e m w kR q) (if e then [0, -1] else [-1, 0]) hone'
        (by rw [hΔ p hp q hq, nrm]) ha (at2_lt e (by omega) hq) (at2_lt e hR hq)
        (by rw [hL, hmat _ (by omega) q hq]; omega) (by rw [hga, Ne, hmat _ hp q hq]; omega) (by rw [hRg]; exact hn _ hR q hq)
        (by
          simp only [kR]
          by_cases hc : x0 < ((p : ℝ) + 1) * dp
          · rw [if_pos hc]
            refine Or.inl ⟨hprobe q hq 0 p (by nlinarith) (by linarith), hprobe q hq (-1) (p + 1) ?_ ?_,
              hprobe q hq 1 (p - 1) ?_ ?_⟩
            · push_cast; nlinarith
            · push_cast; nlinarith
            · rw [hcast]; nlinarith
            · rw [hcast]; nlinarith
          · rw [if_neg hc]
            push Not at hc
            refine Or.inr ⟨hprobe q hq 0 (p + 1) ?_ ?_, hprobe q hq 1 p ?_ ?_⟩
            · push_cast; nlinarith
            · push_cast; nlinarith
            · nlinarith
            · nlinarith)
      rw [this, hL, hRg, hga]
      simp only [Q, hrow p hp q hq])
    (fun grid => layers_defined2 (sizes e m w) (by cases e <;> rfl) _ K φ grid hiso fun a ha h => by
      obtain ⟨p, hp, q, hq, rfl⟩ := at2_surj e ha
      have := (hpos p hp q hq).1 h
      exact ⟨_, at2_lt e (by omega) hq, hsrc p hp q hq⟩)
    hiso
    foot
    (fun a ha h => by
      obtain ⟨p, hp, q, hq, rfl⟩ := at2_surj e ha
      obtain rfl := (hone p hp q hq).1 h
      simp only [foot, hrow p hp q hq])
    (fun j a hj h => by
      obtain ⟨hlt, q, hq, rfl⟩ := hdist' _ _ h
      refine ⟨j, at2 e m w (k - j) q, le_refl _, hdist q hq j (by omega), ?_, ?_⟩
      · rw [hsrc _ (by omega) q hq, show k - (j + 1) + 1 = k - j by omega]
      · simp only [foot, hrow (k - (j + 1)) (by omega) q hq, hrow (k - j) (by omega) q hq])
  refine ⟨g, mk, hg, fun p hp q hq => ?_⟩
  simp only
  constructor
  · by_cases hc : p ≤ k ∧ k ≤ p + K
    · have hdd := hdist q hq (k - p) (by omega)
      rw [show k - (k - p) = p by omega] at hdd
      rw [if_pos hc, p1 (k - p) _ (by omega) hdd]
      simp only [Q, foot, hrow p hp q hq, hrow k (by omega) q hq]
      rfl
    · rw [if_neg hc, p2 _ (at2_lt e hp hq)]
      intro j hj h
      obtain ⟨p', hp', q', hq', he, h1, h2⟩ := hwalk' j _ h
      have := at2_inj e hp hq hp' hq' he
      omega
  · rw [p3 _ (at2_lt e hp hq), ← not_lt, hpos p hp q hq, hone p hp q hq]
    omega

end Verif.Fill
