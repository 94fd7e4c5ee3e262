import Verif.Iter.Time

/-!
# The main loop of `iterator`

iterator.cpp:85-170 over an arbitrary type `U` of fields and an arbitrary type `W` for everything else a pass reads
and writes (grids, masks).  The parameters are the body of a pass and the NaN test.
-/

namespace Verif.Iter

/-- The variables of the loop; `ret` is the vector of snapshots, whose slots start empty. -/
structure Vars (U W : Type) where
  u : U
  w : W
  t : ℝ
  count : Nat
  push : Nat
  ret : Nat → Option U

/-- How a pass ends: the loop goes on, the function returns, or it writes past the 100 slots of `ret`. -/
inductive Pass (U W : Type)
  | next (s : Vars U W)
  | done (ret : Nat → Option U) (final : Vars U W)
  | overrun

/-- What iterator.cpp:112-151 does: the new field, the rest, and `dt`. -/
structure Body (U W : Type) where
  step : U → W → (t : ℝ) → (count : Nat) → U × W × ℝ
  isNaN : U → Bool

noncomputable section

/-- `ret[k] = x`; `std::vector::operator[]` does not check its index. -/
def store {U : Type} (ret : Nat → Option U) (k : Nat) (x : U) : Option (Nat → Option U) :=
  if k < 100 then some (Function.update ret k (some x)) else none

/-- iterator.cpp:153-156. -/
def snapshot {U : Type} (tf t : ℝ) (u : U) (push : Nat) (ret : Nat → Option U) : Option ((Nat → Option U) × Nat) :=
  if t ≥ ((push + 1 : Nat) : ℝ) / 100 * tf then
    match store ret push u with
    | none => none
    | some ret => some (ret, push + 1)
  else some (ret, push)

/-- iterator.cpp:161-165. -/
def bail {U W : Type} (prev : U) (s : Vars U W) : Pass U W :=
  match store s.ret s.push prev with
  | none => .overrun
  | some ret =>
    match store ret (s.push + 1) s.u with
    | none => .overrun
    | some ret => .done ret s

/-- The test and one pass of the loop, iterator.cpp:110-169. -/
def pass {U W : Type} (b : Body U W) (tf : ℝ) (s : Vars U W) : Pass U W :=
  if s.t < tf then
    let r := b.step s.u s.w s.t s.count
    match snapshot tf (s.t + r.2.2) r.1 s.push s.ret with
    | none => .overrun
    | some p =>
      let s' : Vars U W := ⟨r.1, r.2.1, s.t + r.2.2, s.count + 1, p.2, p.1⟩
      if b.isNaN r.1 then bail s.u s' else .next s'
  else
    match store s.ret 99 s.u with
    | none => .overrun
    | some ret => .done ret s

/-- The states in which the loop test is evaluated. -/
inductive Reach {U W : Type} (b : Body U W) (tf : ℝ) (u0 : U) (w0 : W) : Nat → Vars U W → Prop
  | start : Reach b tf u0 w0 0 ⟨u0, w0, 0, 0, 0, fun _ => none⟩
  | step {n s s'} : Reach b tf u0 w0 n s → pass b tf s = .next s' → Reach b tf u0 w0 (n + 1) s'

end

section
variable {U W : Type} (b : Body U W) (tf : ℝ) (u0 : U) (w0 : W)

/-- Every pass keeps to the final time, as `timestep_spec` shows. -/
def Timely : Prop := ∀ u w t count, t < tf → 0 < (b.step u w t count).2.2 ∧ t + (b.step u w t count).2.2 ≤ tf

theorem bail_ne {s s' : Vars U W} {x : U} : bail x s ≠ .next s' := by
  unfold bail
  split
  · simp
  · split <;> simp

theorem snapshot_cases {t : ℝ} {u : U} {push : Nat} {ret : Nat → Option U} {p : (Nat → Option U) × Nat}
    (h : snapshot tf t u push ret = some p) :
    (((push + 1 : Nat) : ℝ) / 100 * tf ≤ t ∧ push < 100 ∧ p = (Function.update ret push (some u), push + 1)) ∨
    (t < ((push + 1 : Nat) : ℝ) / 100 * tf ∧ p = (ret, push)) := by
  unfold snapshot at h
  split_ifs at h with hc
  · unfold store at h
    split_ifs at h with h1
    · simp only [Option.some.injEq] at h
      exact Or.inl ⟨hc, h1, h.symm⟩
  · simp only [Option.some.injEq] at h
    exact Or.inr ⟨not_le.1 hc, h.symm⟩

/-- A pass after which the loop goes on. -/
theorem pass_next {s s' : Vars U W} (h : pass b tf s = .next s') :
    s.t < tf ∧ b.isNaN s'.u = false ∧ s'.u = (b.step s.u s.w s.t s.count).1 ∧
    s'.w = (b.step s.u s.w s.t s.count).2.1 ∧ s'.t = s.t + (b.step s.u s.w s.t s.count).2.2 ∧
    s'.count = s.count + 1 ∧
    ((((s.push + 1 : Nat) : ℝ) / 100 * tf ≤ s'.t ∧ s.push < 100 ∧ s'.push = s.push + 1 ∧
        s'.ret = Function.update s.ret s.push (some s'.u)) ∨
      (s'.t < ((s.push + 1 : Nat) : ℝ) / 100 * tf ∧ s'.push = s.push ∧ s'.ret = s.ret)) := by
  unfold pass at h
  split_ifs at h with ht
  · simp only at h
    split at h
    · cases h
    · rename_i p hp
      split_ifs at h with hn
      · exact absurd h bail_ne
      · cases h
        refine ⟨ht, by simpa using hn, rfl, rfl, rfl, rfl, ?_⟩
        rcases snapshot_cases tf hp with ⟨h1, h2, rfl⟩ | ⟨h1, rfl⟩
        · exact Or.inl ⟨h1, h2, rfl, rfl⟩
        · exact Or.inr ⟨h1, rfl, rfl⟩
  · split at h <;> cases h

theorem reach_time (h : Timely b tf) (htf : 0 < tf) {n : Nat} {s : Vars U W} (hs : Reach b tf u0 w0 n s) :
    0 ≤ s.t ∧ s.t ≤ tf ∧ s.count = n ∧ s.push ≤ 100 ∧ ((s.push : ℝ) / 100 * tf ≤ s.t) ∧ s.push ≤ n := by
  induction hs with
  | start => exact ⟨le_rfl, htf.le, rfl, by norm_num, by norm_num, le_rfl⟩
  | @step n s s' hs hp ih =>
    obtain ⟨h0, h1, h2, h3, h4, h5⟩ := ih
    obtain ⟨ht, _, _, _, et, ec, hc⟩ := pass_next b tf hp
    obtain ⟨hd, hle⟩ := h s.u s.w s.t s.count ht
    refine ⟨by linarith, by linarith, by omega, ?_, ?_, ?_⟩
    · rcases hc with ⟨_, hlt, e, _⟩ | ⟨_, e, _⟩ <;> omega
    · rcases hc with ⟨hle, _, e, _⟩ | ⟨_, e, _⟩
      · rw [e]; exact hle
      · rw [e]; linarith
    · rcases hc with ⟨_, _, e, _⟩ | ⟨_, e, _⟩ <;> omega

/-- The next snapshot slot exists as long as the time has not passed the end. -/
theorem slot_free {t : ℝ} {push : Nat} (htf : 0 < tf) (h : t ≤ tf) (hp : ((push + 1 : Nat) : ℝ) / 100 * tf ≤ t) :
    push < 100 := by
  have h1 : ((push + 1 : Nat) : ℝ) / 100 * tf ≤ 1 * tf := by linarith
  have h2 : ((push + 1 : Nat) : ℝ) / 100 ≤ 1 := le_of_mul_le_mul_right h1 htf
  have h3 : ((push + 1 : Nat) : ℝ) ≤ (100 : Nat) := by
    rw [div_le_one (by norm_num)] at h2
    exact_mod_cast h2
  have : push + 1 ≤ 100 := by exact_mod_cast h3
  omega

/-- **Runs end at the final time**: a run that returns without meeting NaN has `t = tf`, and the last slot then holds
the field of that time. -/
theorem run_ends (h : Timely b tf) (htf : 0 < tf) {n : Nat} {s f : Vars U W} {ret : Nat → Option U}
    (hs : Reach b tf u0 w0 n s) (hd : pass b tf s = .done ret f) (hn : b.isNaN f.u = false) :
    f = s ∧ f.t = tf ∧ ret 99 = some f.u ∧ ∀ k < 99, ret k = f.ret k := by
  obtain ⟨_, hle, _⟩ := reach_time b tf u0 w0 h htf hs
  unfold pass at hd
  split_ifs at hd with ht
  · simp only at hd
    split at hd
    · cases hd
    · rename_i p hp
      split_ifs at hd with hnan
      · exfalso
        unfold bail at hd
        split at hd
        · cases hd
        · split at hd
          · cases hd
          · cases hd
            rw [hnan] at hn
            cases hn
  · unfold store at hd
    rw [if_pos (by norm_num)] at hd
    cases hd
    refine ⟨rfl, le_antisymm hle (not_lt.1 ht), by simp, fun k hk => ?_⟩
    rw [Function.update_of_ne (by omega)]

/-- **No write past the slots without NaN.** -/
theorem no_overrun_partial (h : Timely b tf) (htf : 0 < tf) {n : Nat} {s : Vars U W} (hs : Reach b tf u0 w0 n s)
    (hn : b.isNaN (b.step s.u s.w s.t s.count).1 = false) : pass b tf s ≠ .overrun := by
  obtain ⟨_, hle, _⟩ := reach_time b tf u0 w0 h htf hs
  unfold pass
  split_ifs with ht
  · obtain ⟨hd, hle'⟩ := h s.u s.w s.t s.count ht
    simp only
    split
    · rename_i hp
      exfalso
      unfold snapshot at hp
      split_ifs at hp with hc
      · have := slot_free tf htf hle' hc
        simp [store, this] at hp
    · simp [hn]
  · unfold store
    simp

/-- **Exactly when NaN overruns the slots**: a pass that meets NaN writes past the end iff it leaves 99 or more
snapshots taken. -/
theorem overrun_iff (h : Timely b tf) (htf : 0 < tf) {n : Nat} {s : Vars U W} (hs : Reach b tf u0 w0 n s)
    (ht : s.t < tf) (hn : b.isNaN (b.step s.u s.w s.t s.count).1 = true) :
    pass b tf s = .overrun ↔ 99 ≤ s.push ∨
      (s.push = 98 ∧ 99 / 100 * tf ≤ s.t + (b.step s.u s.w s.t s.count).2.2) := by
  obtain ⟨_, hle, _, hp100, hpt, _⟩ := reach_time b tf u0 w0 h htf hs
  obtain ⟨hd, hle'⟩ := h s.u s.w s.t s.count ht
  have hlt100 : s.push < 100 := by
    by_contra hc
    have : s.push = 100 := by omega
    rw [this] at hpt
    push_cast at hpt
    linarith
  unfold pass snapshot
  rw [if_pos ht]
  simp only
  by_cases hc : s.t + (b.step s.u s.w s.t s.count).2.2 ≥ ((s.push + 1 : Nat) : ℝ) / 100 * tf
  · have hfree := slot_free tf htf hle' hc
    rw [if_pos hc]
    simp only [store, if_pos hfree, hn, if_true, bail]
    by_cases h1 : s.push + 1 < 100
    · rw [if_pos h1]
      by_cases h2 : s.push + 1 + 1 < 100
      · simp only [if_pos h2]
        constructor
        · intro hx; cases hx
        · intro hx; omega
      · simp only [if_neg h2]
        refine iff_of_true trivial (Or.inr ⟨by omega, ?_⟩)
        have e : s.push + 1 = 99 := by omega
        rw [e] at hc
        push_cast at hc
        exact hc
    · rw [if_neg h1]
      exact iff_of_true rfl (Or.inl (by omega))
  · rw [if_neg hc]
    simp only [store, if_pos hlt100, hn, if_true, bail]
    by_cases h2 : s.push + 1 < 100
    · simp only [if_pos h2]
      constructor
      · intro hx; cases hx
      · rintro (hx | ⟨hx, hy⟩)
        · omega
        · exfalso
          rw [hx] at hc
          push_cast at hc
          norm_num at hc
          linarith
    · simp only [if_neg h2]
      exact iff_of_true trivial (Or.inl (by omega))

/-- Every body that takes its `dt` from `timestep` is timely, whatever the grids and masks it passes. -/
theorem timestep_timely (CFL : ℝ) (hC : 0 < CFL) (c : Sys.Cfg) (mae : Sys.Par → Sys.St → Nat → Option ℝ)
    (dX : List ℝ) (MPs : List (Option Sys.Par)) (nmat ncell : Nat) (grids : U → W → ℝ → Nat → List Mem)
    (masks : U → W → ℝ → Nat → List (Nat → Bool))
    (hb : ∀ u w t n, t < tf → timestep c mae (grids u w t n) (masks u w t n) dX CFL t tf n MPs nmat ncell =
      .fin (b.step u w t n).2.2) : Timely b tf := by
  intro u w t n ht
  obtain ⟨dt, h1, h2, h3, _⟩ :=
    timestep_spec c mae (grids u w t n) (masks u w t n) dX MPs CFL t tf n nmat ncell hC ht
  rw [hb u w t n ht] at h1
  cases h1
  exact ⟨h2, h3⟩

theorem reach_det {n : Nat} {s s' : Vars U W} (h : Reach b tf u0 w0 n s) (h' : Reach b tf u0 w0 n s') : s = s' := by
  induction h generalizing s' with
  | start => cases h'; rfl
  | step _ hp ih =>
    cases h' with
    | step h2 hp2 =>
      rw [ih h2, hp2] at hp
      cases hp
      rfl

theorem push_step {s s' : Vars U W} (h : pass b tf s = .next s') : s.push ≤ s'.push := by
  obtain ⟨_, _, _, _, _, _, hc⟩ := pass_next b tf h
  rcases hc with ⟨_, _, e, _⟩ | ⟨_, e, _⟩ <;> omega

theorem push_mono {n m : Nat} {s s' : Vars U W} (h : Reach b tf u0 w0 n s) (h' : Reach b tf u0 w0 m s')
    (hnm : n ≤ m) : s.push ≤ s'.push := by
  induction h' generalizing s n with
  | start =>
    obtain rfl : n = 0 := by omega
    rw [reach_det b tf u0 w0 h .start]
  | @step m q q' hq hp ih =>
    rcases Nat.lt_or_ge m n with hlt | hge
    · obtain rfl : n = m + 1 := by omega
      rw [reach_det b tf u0 w0 h (.step hq hp)]
    · exact (ih h hge).trans (push_step b tf hp)

/-- **Snapshots in order, once each**: slot `k` holds the field after the first of the passes started with `k`
snapshots taken whose time reached `(k+1)/100` of `tf`; slots not reached are empty.  A later pass never rewrites a
slot. -/
theorem snapshots {n : Nat} {s : Vars U W} (hs : Reach b tf u0 w0 n s) :
    (∀ k, s.push ≤ k → s.ret k = none) ∧
    ∀ k < s.push, ∃ m < n, ∃ p q, Reach b tf u0 w0 m p ∧ pass b tf p = .next q ∧ p.push = k ∧ q.push = k + 1 ∧
      s.ret k = some q.u ∧ p.t < tf ∧ ((k + 1 : Nat) : ℝ) / 100 * tf ≤ q.t ∧
      ∀ j p' q', j < m → Reach b tf u0 w0 j p' → pass b tf p' = .next q' → p'.push = k →
        q'.t < ((k + 1 : Nat) : ℝ) / 100 * tf := by
  induction hs with
  | start => exact ⟨fun _ _ => rfl, fun k hk => absurd hk (Nat.not_lt_zero k)⟩
  | @step n s s' hs hp ih =>
    obtain ⟨h1, h2⟩ := ih
    obtain ⟨ht, _, _, _, _, _, hc⟩ := pass_next b tf hp
    rcases hc with ⟨hle, hlt, e, er⟩ | ⟨hlt, e, er⟩
    · refine ⟨fun k hk => ?_, fun k hk => ?_⟩
      · rw [er, Function.update_of_ne (by omega), h1 k (by omega)]
      · by_cases hk' : k < s.push
        · obtain ⟨m, hm, p, q, a1, a2, a3, a4, a5, a6⟩ := h2 k hk'
          exact ⟨m, by omega, p, q, a1, a2, a3, a4, by rw [er, Function.update_of_ne (by omega), a5], a6⟩
        · obtain rfl : k = s.push := by omega
          refine ⟨n, by omega, s, s', hs, hp, rfl, e, by rw [er, Function.update_self], ht, hle, ?_⟩
          intro j p' q' hj hr hpass hpk
          have hm := push_mono b tf u0 w0 (.step hr hpass) hs (by omega)
          obtain ⟨_, _, _, _, _, _, hc'⟩ := pass_next b tf hpass
          rcases hc' with ⟨_, _, e', _⟩ | ⟨hlt', _, _⟩
          · omega
          · rw [hpk] at hlt'
            exact hlt'
    · refine ⟨fun k hk => by rw [er]; exact h1 k (by omega), fun k hk => ?_⟩
      obtain ⟨m, hm, p, q, a1, a2, a3, a4, a5, a6⟩ := h2 k (by omega)
      exact ⟨m, by omega, p, q, a1, a2, a3, a4, by rw [er]; exact a5, a6⟩

/-- **A run with steps bounded below ends**: if no step is shorter than `δ` unless it lands on `tf`, no run makes
more than `tf / δ + 1` passes. -/
theorem run_length {δ : ℝ} (h : Timely b tf) (htf : 0 < tf) (hδ : 0 < δ)
    (hb : ∀ u w t n, t < tf → δ ≤ (b.step u w t n).2.2 ∨ t + (b.step u w t n).2.2 = tf) {n : Nat} {s : Vars U W}
    (hs : Reach b tf u0 w0 n s) : (n : ℝ) ≤ tf / δ + 1 := by
  have key : (s.t < tf → (n : ℝ) * δ ≤ s.t) ∧ ((n : ℝ) * δ ≤ tf + δ) := by
    induction hs with
    | start => simp; linarith
    | @step n s s' hs hp ih =>
      obtain ⟨ht, _, _, _, et, _, _⟩ := pass_next b tf hp
      have hi := ih.1 ht
      obtain ⟨hd, hle⟩ := h s.u s.w s.t s.count ht
      push_cast
      constructor
      · intro hlt
        rcases hb s.u s.w s.t s.count ht with h1 | h1
        · linarith
        · linarith
      · linarith
  rw [← sub_le_iff_le_add, le_div_iff₀ hδ]
  linarith [key.2]

/-- The body used below: a hundred equal steps, the field counting them, and NaN standing for `bad`. -/
noncomputable def ticks (tf : ℝ) (bad : Nat) : Body Nat Unit where
  step _ w t n := (n + 1, w, min (tf / 100) (tf - t))
  isNaN u := u == bad

theorem ticks_timely {bad : Nat} (htf : 0 < tf) : Timely (ticks tf bad) tf := by
  intro u w t n ht
  refine ⟨lt_min (by positivity) (by linarith), ?_⟩
  have := min_le_right (tf / 100) (tf - t)
  show t + min (tf / 100) (tf - t) ≤ tf
  linarith

theorem ticks_reach {bad : Nat} (htf : 0 < tf) (n : Nat) (hn : n < bad) (h100 : n ≤ 100) :
    ∃ s, Reach (ticks tf bad) tf 0 () n s ∧ s.t = (n : ℝ) / 100 * tf ∧ s.push = n ∧ s.count = n ∧
      s.u = n := by
  induction n with
  | zero => exact ⟨_, .start, by simp⟩
  | succ n ih =>
    obtain ⟨s, hs, ht, hp, hc, hu⟩ := ih (by omega) (by omega)
    have hn1 : ((n : ℝ) + 1) / 100 ≤ 1 := by
      rw [div_le_one (by norm_num)]
      exact_mod_cast h100
    have hlt : s.t < tf := by
      rw [ht]
      have : (n : ℝ) / 100 < 1 := by linarith
      nlinarith
    have hmin : min (tf / 100) (tf - s.t) = tf / 100 := by
      apply min_eq_left
      rw [ht]
      nlinarith
    have hb : ¬ (n + 1 = bad) := by omega
    have hge : s.t + tf / 100 ≥ ((n + 1 : Nat) : ℝ) / 100 * tf := by
      rw [ht]
      push_cast
      linarith
    refine ⟨⟨n + 1, (), s.t + tf / 100, n + 1, n + 1, Function.update s.ret n (some (n + 1))⟩, .step hs ?_,
      ?_, rfl, rfl, rfl⟩
    · unfold pass
      rw [if_pos hlt]
      simp only [ticks, hmin, hp, hc, snapshot, if_pos hge, store, if_pos (show n < 100 by omega)]
      simp [hb]
    · show s.t + tf / 100 = _
      rw [ht]
      push_cast
      ring

/-- **The slots overrun**: a run of a hundred equal steps whose last field holds NaN writes past `ret`. -/
theorem overrun_witness (htf : 0 < tf) :
    ∃ s, Reach (ticks tf 100) tf 0 () 99 s ∧ pass (ticks tf 100) tf s = .overrun := by
  obtain ⟨s, hs, ht, hp, hc, hu⟩ := ticks_reach tf (bad := 100) htf 99 (by omega) (by omega)
  refine ⟨s, hs, (overrun_iff _ tf 0 () (ticks_timely tf htf) htf hs ?_ ?_).2 (Or.inl (by omega))⟩
  · rw [ht]
    push_cast
    linarith
  · simp [ticks, hc]

/-- A hundred equal steps without NaN fill the hundred slots and end at the final time. -/
example (htf : 0 < tf) : ∃ s ret f, Reach (ticks tf 1000) tf 0 () 100 s ∧ pass (ticks tf 1000) tf s = .done ret f ∧
    f.t = tf ∧ ret 99 = some 100 := by
  obtain ⟨s, hs, ht, hp, hc, hu⟩ := ticks_reach tf (bad := 1000) htf 100 (by omega) (by omega)
  have e : s.t = tf := by rw [ht]; push_cast; ring
  have hd : pass (ticks tf 1000) tf s = .done (Function.update s.ret 99 (some s.u)) s := by
    unfold pass
    rw [if_neg (by linarith)]
    rfl
  have hn : (ticks tf 1000).isNaN s.u = false := by rw [hu]; rfl
  obtain ⟨_, h1, h2, _⟩ := run_ends _ tf 0 () (ticks_timely tf htf) htf hs hd hn
  exact ⟨s, _, s, hs, hd, h1, by rw [h2, hu]⟩

end

end Verif.Iter
