import Verif.March.Loop

/-! The whole run of `distance`. -/

namespace Verif.March

open Verif

variable {P : Prob}

/-- The frozen set of a state. -/
def Fz (st : St) (i : Nat) : Prop := st.flag i = .frozen

/-- Invariant between iterations of the main loop; `K` bounds the accepted values from above and
the candidate values from below. -/
structure Top (P : Prob) (st : St) (K : ℝ) : Prop where
  stat : Static P (Fz st) st.dist K
  ph : Phase P (Fz st) st.dist K (fun _ => False) st
  bound : ∀ i < P.G.size, Fz st i → |st.dist i| ≤ max (P.dx 0) (P.dx 1) ∨ |st.dist i| ≤ K

/-- History of accepted cells. -/
structure LogInv (P : Prob) (st : St) (K : ℝ) : Prop where
  fr : ∀ i, st.flag i = .frozen ↔ Ini P i ∨ i ∈ st.log
  new : ∀ i ∈ st.log, i < P.G.size ∧ ¬ Ini P i
  nodup : st.log.Nodup
  sorted : st.log.Pairwise fun i j => |st.dist i| ≤ |st.dist j|
  le : ∀ i ∈ st.log, |st.dist i| ≤ K
  eik : ∀ i ∈ st.log, ∃ pre suf, st.log = pre ++ suf ∧ i ∈ suf ∧
    (∀ j ∈ suf, |st.dist i| ≤ |st.dist j|) ∧ Cell P (fun j => Ini P j ∨ j ∈ pre) st.dist i |st.dist i|

theorem Cell.congr {F F' : Nat → Prop} {D D' : Nat → ℝ} {i : Nat} {U : ℝ}
    (hF : ∀ a, F a ↔ F' a) (hD : ∀ a, F a → D a = D' a) : Cell P F D i U ↔ Cell P F' D' i U := by
  have e : F = F' := funext fun a => propext (hF a)
  subst e
  unfold Cell
  rw [mins_congr hD, mins_congr hD]

/-- Restating a phase in terms of the state's own frozen set. -/
theorem Phase.self {F : Nat → Prop} {D : Nat → ℝ} {K : ℝ} {s : Nat → Prop} {st : St}
    (h : Phase P F D K s st) (hs : Static P F D K) :
    Phase P (Fz st) st.dist K s st ∧ Static P (Fz st) st.dist K := by
  have e : Fz st = F := funext fun a => propext (h.ag.fr a)
  rw [e]
  have hD : ∀ a, F a → D a = st.dist a := fun a ha => (h.ag.fd a ha).symm
  have hm : ∀ i d, mins P F D i d = mins P F st.dist i d := mins_congr hD
  refine ⟨⟨h.base, h.link, ⟨h.ag.nm, h.ag.fr, fun _ _ => rfl⟩, ?_, ?_, h.low⟩, hs.nonneg, ?_, ?_⟩
  · intro i hi hn hns
    have := h.nar i hi hn hns
    unfold Cell at this ⊢; rwa [hm, hm] at this
  · intro i hi hn hns
    have := h.far i hi hn hns
    rwa [hm, hm] at this
  · intro i hi hnF m m' h1 h2
    rw [← hm] at h1 h2
    exact hs.sep i hi hnF m m' h1 h2
  · intro i hi hnF U hc
    unfold Cell at hc
    rw [← hm, ← hm] at hc
    exact hs.good i hi hnF U hc

/-! ### Initialisation -/

theorem init_static (ok : OK P) : Static P (Ini P) (initFrozen P).2 0 := by
  refine ⟨le_rfl, ?_, ?_⟩
  · intro i hi _ m m' h1 h2
    obtain ⟨_, a, hd, ha, hF, rfl⟩ := mins_nonneg h1
    obtain ⟨_, a', hd', ha', hF', rfl⟩ := mins_nonneg h2
    have b1 := init_bound ok (ok.wf.lt _ _ _ _ hi hd ha) hF
    have b2 := init_bound ok (ok.wf.lt _ _ _ _ hi hd' ha') hF'
    rw [abs_le]
    constructor
    · linarith [abs_nonneg ((initFrozen P).2 a)]
    · linarith [abs_nonneg ((initFrozen P).2 a')]
  · intro i _ _ U hc
    exact (hc.pos ok).le

/-- State handed to `initalizeNarrow`. -/
noncomputable def start (P : Prob) (g : Garbage) : St :=
  ⟨(initFrozen P).1, (initFrozen P).2, g.ptr,
    Heap.init ((Finset.range P.G.size).filter fun i => (initFrozen P).1 i = .far).card
      g.d g.h g.a g.b, []⟩

theorem start_phase (ok : OK P) (g : Garbage) :
    Phase P (Ini P) (initFrozen P).2 0 (fun _ => True) (start P g) := by
  obtain ⟨hnm, hspec⟩ := initFrozen_spec (P := P) ok.dx'
  have hnn : ∀ i < P.G.size, (initFrozen P).1 i ≠ .narrow := by
    intro i hi hn
    have := init_far ok.dx' hi (by rw [hn]; simp)
    rw [hn] at this; cases this.1
  refine ⟨⟨hnm, fun i hi h => ⟨h, rfl⟩, ?_⟩, ?_, ⟨hnm, fun i => Iff.rfl, fun _ _ => rfl⟩, ?_, ?_, ?_⟩
  · intro i hi hne
    by_cases h : Ini P i
    · exact init_sign ok hi h
    · exact absurd (init_far ok.dx' hi h).1 hne
  · refine ⟨_, Heap.Rep.init _ _ _ _ _, ?_, ?_, ?_⟩
    · intro i hi hn; exact absurd hn (hnn i hi)
    · intro h x hx; cases hx
    · exact Nat.zero_add _
  · intro i _ _ h; exact absurd trivial h
  · intro i _ _ h; exact absurd trivial h
  · intro i hi hn; exact absurd hn (hnn i hi)

theorem narrowSteps_narrow {i : Nat} {st : St} (h : st.flag i ≠ .far) (ts : List (Nat × Bool)) :
    ts.foldlM (narrowStep P i) st = .ok st := by
  induction ts with
  | nil => rfl
  | cons t ts ih =>
    rw [List.foldlM_cons]
    have : narrowStep P i st t = .ok st := by
      unfold narrowStep
      split
      · rfl
      · rw [if_neg (by simp [h])]
    rw [this]; exact ih

/-- The scan of one far cell in `initalizeNarrow`. -/
theorem narrowSteps_spec (ok : OK P) {F : Nat → Prop} {D : Nat → ℝ} {K : ℝ} (hs : Static P F D K)
    {stale : Nat → Prop} {st : St} (h : Phase P F D K stale st) {i : Nat} (hi : i < P.G.size)
    (hf : st.flag i = .far) (ts : List (Nat × Bool)) (hts : ∀ t ∈ ts, t.1 < P.G.ndim) :
    (ts.foldlM (narrowStep P i) st = .ok st ∧
      ∀ t ∈ ts, ∀ a, P.G.nb i t.1 t.2 = some a → ¬ F a) ∨
    ∃ st', ts.foldlM (narrowStep P i) st = .ok st' ∧ st'.log = st.log ∧
      (∀ j ≠ i, st'.flag j = st.flag j) ∧
      Phase P F D K (fun j => stale j ∧ j ≠ i) st' := by
  induction ts with
  | nil => left; exact ⟨rfl, by simp⟩
  | cons t ts ih =>
    rw [List.foldlM_cons]
    have ih := ih (fun t ht => hts t (by simp [ht]))
    have hgn : getN P.G st.flag i t.1 t.2 .mask = P.G.nb i t.1 t.2 := getN_mask h.ag.nm _ _ _ _
    have hfr := h.ag.fr
    cases hn : P.G.nb i t.1 t.2 with
    | none =>
      have : narrowStep P i st t = .ok st := by unfold narrowStep; rw [hgn, hn]
      rw [this]
      rcases ih with ⟨e, hno⟩ | h'
      · left
        refine ⟨e, ?_⟩
        intro t' ht' a ha
        rcases List.mem_cons.1 ht' with rfl | ht'
        · rw [hn] at ha; cases ha
        · exact hno t' ht' a ha
      · right; exact h'
    | some a =>
      by_cases hFa : F a
      · right
        have hex : mins P F D i 0 ≠ none ∨ mins P F D i 1 ≠ none := by
          have hd := hts t (by simp)
          have := mins_ne_none (P := P) (D := D) hd hn hFa
          have h2 : t.1 = 0 ∨ t.1 = 1 := by have := ok.nd; omega
          rcases h2 with e | e <;> rw [e] at this
          · exact .inl this
          · exact .inr this
        have hnf : st.flag i ≠ .frozen := by rw [hf]; simp
        have hnini : ¬ Ini P i := fun hI => hnf (h.base.ini i hi hI).1
        -- the update only reads frozen neighbours
        have ag1 := agrees_narrow h.ag hnf
        have : ∃ U, update P (Function.update st.flag i .narrow) st.dist i = sg P i * U ∧
            Cell P F D i U := by
          apply update_spec ag1 ok.nd ok.dx _ hex (hs.sep i hi (fun hF => hnf ((hfr i).2 hF)))
          intro d hd dir a ha hFa
          rw [← h.ag.fd a hFa]
          exact coherent ok h.base hi hnf d hd dir a ha ((hfr a).2 hFa)
        obtain ⟨U, e, hc⟩ := this
        obtain ⟨s1, s2⟩ := sign_of_sg ok hi (not_ini ok hi hnini).1 (hc.pos ok)
        rw [← e] at s1 s2
        obtain ⟨h', n, e', ph⟩ := phase_push hs h hi hf hc s2 s1
        have : narrowStep P i st t = .ok ⟨Function.update st.flag i .narrow,
            Function.update st.dist i (update P (Function.update st.flag i .narrow) st.dist i),
            Function.update st.ptr i n, h', st.log⟩ := by
          unfold narrowStep
          rw [hgn, hn]
          simp only
          rw [if_pos ⟨(hfr a).2 hFa, hf⟩]
          simp only [bind, Except.bind, hp, e']
        rw [this]
        refine ⟨_, narrowSteps_narrow ?_ ts, rfl, ?_, ph⟩
        · simp
        · intro j hj; simp only [Function.update_of_ne hj]
      · have : narrowStep P i st t = .ok st := by
          unfold narrowStep; rw [hgn, hn]; simp only
          rw [if_neg]
          rintro ⟨h1, _⟩
          exact hFa ((hfr a).1 h1)
        rw [this]
        rcases ih with ⟨e, hno⟩ | h'
        · left
          refine ⟨e, ?_⟩
          intro t' ht' a' ha'
          rcases List.mem_cons.1 ht' with rfl | ht'
          · rw [hn] at ha'; cases ha'; exact hFa
          · exact hno t' ht' a' ha'
        · right; exact h'

theorem mem_dimDirs {G : Grid} {t : Nat × Bool} : t ∈ dimDirs G ↔ t.1 < G.ndim := by
  obtain ⟨d, dir⟩ := t
  simp only [dimDirs, dirs, List.mem_flatMap, List.mem_range, List.map_cons, List.map_nil,
    List.mem_cons, List.not_mem_nil, or_false, Prod.mk.injEq]
  constructor
  · rintro ⟨a, ha, ⟨rfl, _⟩ | ⟨rfl, _⟩⟩ <;> exact ha
  · intro h; exact ⟨d, h, by cases dir <;> simp⟩

theorem mins_none {F : Nat → Prop} {D : Nat → ℝ} {i d : Nat}
    (h : ∀ dir a, d < P.G.ndim → P.G.nb i d dir = some a → ¬ F a) : mins P F D i d = none := by
  cases e : mins P F D i d with
  | none => rfl
  | some m =>
    obtain ⟨dir, a, hd, ha, hF, _⟩ := mins_nonneg e
    exact absurd hF (h dir a hd ha)

theorem initNarrow_spec (ok : OK P) (g : Garbage) :
    ∃ st, initNarrow P (start P g) = .ok st ∧ st.log = [] ∧
      Phase P (Ini P) (initFrozen P).2 0 (fun _ => False) st := by
  have gen : ∀ n ≤ P.G.size, ∃ st, (List.range n).foldlM (narrowCell P) (start P g) = .ok st ∧
      st.log = [] ∧ (∀ j < P.G.size, n ≤ j → st.flag j ≠ .narrow) ∧
      Phase P (Ini P) (initFrozen P).2 0 (fun j => n ≤ j) st := by
    intro n
    induction n with
    | zero =>
      intro _
      refine ⟨start P g, rfl, rfl, fun i hi _ hn => ?_, (start_phase ok g).mono fun j _ _ _ => Nat.zero_le j⟩
      have := init_far ok.dx' hi (by unfold start at hn; simp only at hn; rw [hn]; simp)
      unfold start at hn; simp only at hn
      rw [hn] at this; cases this.1
    | succ n ih =>
      intro hn
      obtain ⟨st, e, hl, hnn, ph⟩ := ih (by omega)
      rw [List.range_succ, List.foldlM_append]
      simp only [bind, Except.bind, e, List.foldlM_cons, List.foldlM_nil]
      unfold narrowCell
      by_cases hf : st.flag n = .far
      · rw [if_pos hf]
        rcases narrowSteps_spec ok (init_static ok) ph (by omega) hf (dimDirs P.G)
          (fun t ht => mem_dimDirs.1 ht) with ⟨e', hno⟩ | ⟨st', e', hl', hfl, ph'⟩
        · rw [e']
          refine ⟨st, rfl, hl, fun j hj hnj => hnn j hj (by omega), ⟨ph.base, ph.link, ph.ag, ?_, ?_, ph.low⟩⟩
          · intro i hi hni hs
            have : i ≠ n := by rintro rfl; rw [hf] at hni; cases hni
            exact ph.nar i hi hni (by omega)
          · intro i hi hni hs
            by_cases e : i = n
            · subst e
              constructor <;>
              · apply mins_none
                intro dir a hd ha
                exact hno (_, dir) (mem_dimDirs.2 hd) a ha
            · exact ph.far i hi hni (by omega)
        · rw [e']
          exact ⟨st', rfl, by rw [hl', hl], fun j hj hnj => by
            rw [hfl j (by omega)]; exact hnn j hj (by omega), ph'.mono fun j _ hj _ => by omega⟩
      · rw [if_neg hf]
        refine ⟨st, rfl, hl, fun j hj hnj => hnn j hj (by omega), ⟨ph.base, ph.link, ph.ag, ?_, ?_, ph.low⟩⟩
        · intro i hi hni hs
          by_cases e : i = n
          · subst e; exact absurd hni (hnn i hi le_rfl)
          · exact ph.nar i hi hni (by omega)
        · intro i hi hni hs
          have : i ≠ n := by rintro rfl; exact hf hni
          exact ph.far i hi hni (by omega)
  obtain ⟨st, e, hl, _, ph⟩ := gen P.G.size le_rfl
  exact ⟨st, e, hl, ph.mono fun j hj h _ => by omega⟩

end Verif.March
