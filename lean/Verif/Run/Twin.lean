import Verif.Iter.Loop

/-! # Two runs side by side

Two runs of the main loop whose fields are related, whose passes take equally long and keep the relation. -/

namespace Verif.Run

open Verif.Iter

noncomputable section

variable {U W U' W' : Type} (b : Body U W) (b' : Body U' W') (tf : ℝ) (R : U → U' → Prop)

/-- The states of the two loops. -/
structure Twin (s : Vars U W) (s' : Vars U' W') : Prop where
  u : R s.u s'.u
  t : s.t = s'.t
  count : s.count = s'.count
  push : s.push = s'.push
  ret : ∀ k, Option.Rel R (s.ret k) (s'.ret k)

/-- A pass of the one run and a pass of the other. -/
def Keeps (u0 : U) (w0 : W) (u0' : U') (w0' : W') : Prop := ∀ m s s', Reach b tf u0 w0 m s → Reach b' tf u0' w0' m s' →
  Twin R s s' → s.t < tf → R (b.step s.u s.w s.t s.count).1 (b'.step s'.u s'.w s'.t s'.count).1 ∧
    (b.step s.u s.w s.t s.count).2.2 = (b'.step s'.u s'.w s'.t s'.count).2.2

variable {R}

theorem store_twin {ret : Nat → Option U} {ret' : Nat → Option U'} (h : ∀ k, Option.Rel R (ret k) (ret' k)) (k : Nat) {x : U}
    {x' : U'} (hx : R x x') (j : Nat) :
    Option.Rel R (Function.update ret k (some x) j) (Function.update ret' k (some x') j) := by
  by_cases e : j = k
  · subst e; simp only [Function.update_self]; exact Option.Rel.some hx
  · simp only [Function.update_of_ne e]; exact h j

theorem twin_store {ret : Nat → Option U} {ret' : Nat → Option U'} (h : ∀ k, Option.Rel R (ret k) (ret' k)) (k : Nat) {x : U}
    {x' : U'} (hx : R x x') {r : Nat → Option U} (e : store ret k x = some r) :
    ∃ r', store ret' k x' = some r' ∧ ∀ j, Option.Rel R (r j) (r' j) := by
  unfold store at e ⊢
  split_ifs at e ⊢
  cases e
  exact ⟨_, rfl, store_twin h k hx⟩

theorem store_none {ret : Nat → Option U} {k : Nat} {x : U} : store ret k x = none ↔ 100 ≤ k := by
  unfold store
  split_ifs <;> simp <;> omega

variable {b b' tf}

/-- One pass of both loops. -/
theorem pass_twin {s : Vars U W} {s' : Vars U' W'} (hn : ∀ x x', R x x' → b.isNaN x = b'.isNaN x') (h : Twin R s s')
    (hk : s.t < tf → R (b.step s.u s.w s.t s.count).1 (b'.step s'.u s'.w s'.t s'.count).1 ∧
      (b.step s.u s.w s.t s.count).2.2 = (b'.step s'.u s'.w s'.t s'.count).2.2) :
    (∀ v, pass b tf s = .next v → ∃ v', pass b' tf s' = .next v' ∧ Twin R v v') ∧
    ∀ ret v, pass b tf s = .done ret v → ∃ ret' v', pass b' tf s' = .done ret' v' ∧ Twin R v v' ∧
      ∀ k, Option.Rel R (ret k) (ret' k) := by
  unfold pass
  simp only
  revert hk
  generalize b.step s.u s.w s.t s.count = r
  generalize b'.step s'.u s'.w s'.t s'.count = r'
  intro hk
  by_cases ht : s.t < tf
  · obtain ⟨k1, k2⟩ := hk ht
    have ht' : s'.t < tf := h.t ▸ ht
    have key : ∀ p, snapshot tf (s.t + r.2.2) r.1 s.push s.ret = some p →
        ∃ p', snapshot tf (s'.t + r'.2.2) r'.1 s'.push s'.ret = some p' ∧ p.2 = p'.2 ∧ ∀ k, Option.Rel R (p.1 k) (p'.1 k) := by
      intro p hp
      unfold snapshot at hp ⊢
      rw [← k2, ← h.t, ← h.push]
      split_ifs at hp ⊢
      · split at hp
        · cases hp
        · rename_i q hq
          cases hp
          obtain ⟨q', e, hq'⟩ := twin_store h.ret s.push k1 hq
          rw [e]
          exact ⟨_, rfl, rfl, hq'⟩
      · cases hp
        exact ⟨_, rfl, rfl, h.ret⟩
    simp only [ht, ht', if_true]
    cases hp : snapshot tf (s.t + r.2.2) r.1 s.push s.ret with
    | none => exact ⟨fun v e => (nomatch e), fun r v e => (nomatch e)⟩
    | some p =>
      obtain ⟨p', e', e2, hp'⟩ := key p hp
      simp only [e', ← hn _ _ k1]
      have tw : Twin R (⟨r.1, r.2.1, s.t + r.2.2, s.count + 1, p.2, p.1⟩ : Vars U W)
          (⟨r'.1, r'.2.1, s'.t + r'.2.2, s'.count + 1, p'.2, p'.1⟩ : Vars U' W') :=
        ⟨k1, by simp only [h.t, k2], by simp only [h.count], e2, hp'⟩
      split_ifs
      · refine ⟨fun v e => absurd e bail_ne, fun q v e => ?_⟩
        unfold bail at e ⊢
        simp only at e ⊢
        split at e
        · cases e
        · rename_i r1 hr1
          obtain ⟨r1', f1, g1⟩ := twin_store tw.ret p.2 h.u hr1
          split at e
          · cases e
          · rename_i r2 hr2
            obtain ⟨r2', f2, g2⟩ := twin_store g1 (p.2 + 1) k1 hr2
            cases e
            simp only at f1
            rw [← e2, f1]
            simp only [f2]
            exact ⟨_, _, rfl, ⟨tw.u, tw.t, tw.count, rfl, tw.ret⟩, g2⟩
      · exact ⟨fun v e => by cases e; exact ⟨_, rfl, tw⟩, fun r v e => (nomatch e)⟩
  · have ht' : ¬ s'.t < tf := h.t ▸ ht
    simp only [ht, ht', if_false]
    refine ⟨fun v e => ?_, fun r v e => ?_⟩
    · split at e <;> cases e
    · split at e
      · cases e
      · rename_i r1 hr1
        obtain ⟨r1', f1, g1⟩ := twin_store h.ret 99 h.u hr1
        cases e
        rw [f1]
        exact ⟨_, _, rfl, h, g1⟩

/-- **Side by side**: whatever the one run reaches, the other reaches something related to it at the same time. -/
theorem runs_twin (hn : ∀ x x', R x x' → b.isNaN x = b'.isNaN x') (u0 : U) (w0 : W) (u0' : U') (w0' : W') (h0 : R u0 u0')
    (hk : Keeps b b' tf R u0 w0 u0' w0') {m : Nat} {s : Vars U W} (hs : Reach b tf u0 w0 m s) :
    ∃ s', Reach b' tf u0' w0' m s' ∧ Twin R s s' ∧
      ∀ ret v, pass b tf s = .done ret v → ∃ ret' v', pass b' tf s' = .done ret' v' ∧ Twin R v v' ∧
        ∀ k, Option.Rel R (ret k) (ret' k) := by
  have main : ∃ s', Reach b' tf u0' w0' m s' ∧ Twin R s s' := by
    induction hs with
    | start => exact ⟨_, .start, h0, rfl, rfl, rfl, fun _ => Option.Rel.none⟩
    | @step m s v hs hp ih =>
      obtain ⟨s', hr, ht⟩ := ih
      obtain ⟨v', hp', hv⟩ := (pass_twin hn ht fun h => hk m s s' hs hr ht h).1 v hp
      exact ⟨v', .step hr hp', hv⟩
  obtain ⟨s', hr, ht⟩ := main
  exact ⟨s', hr, ht, (pass_twin hn ht fun h => hk m s s' hs hr ht h).2⟩

end

end Verif.Run
