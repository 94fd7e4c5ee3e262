import Verif.Heap.Refine
import Mathlib.Data.List.Perm.Basic
import Mathlib.Data.List.Sort
import Mathlib.Algebra.Order.Ring.Nat

/-! # Property theorems about the heap (C01, C02, C03) -/

namespace Verif.Heap

variable {α : Type} [LinearOrder α]

/-- One call on a represented state behaves as the abstract queue allows. -/
theorem call_sim {s : State α} {q : Queue α} (r : Rep s q) (op : Op α) (hl : Legal q op) :
    ∃ s' res q', call s op = some (s', res) ∧ Queue.Step q op res q' ∧ Rep s' q' := by
  have hcard := r.card_eq
  have hcap := r.hcap
  cases op with
  | push a v =>
    by_cases hfull : q.card = q.cap
    · refine ⟨s, .threw, q, ?_, .pushFull q a v hfull, r⟩
      simp [call, step, push_full (s := s) a v (by omega), bind, Except.bind]
    · have hroom : q.next < q.cap := by
        rcases hl with h | h
        · exact h
        · exact absurd h hfull
      obtain ⟨s', e, r'⟩ := push_rep r hroom a v
      have h1 := r.hlen
      have h2 := r.hlist
      refine ⟨s', .ok (.handle q.next), _, ?_, .push q a v (by omega), r'⟩
      simp [call, step, e, bind, Except.bind]
  | pop =>
    by_cases hz : s.heapLength = 0
    · refine ⟨s, .threw, q, ?_, .popEmpty q (by omega), r⟩
      simp [call, step, pop, hz, bind, Except.bind]
    · obtain ⟨s', e, r'⟩ := pop_rep r (by omega)
      refine ⟨s', _, _, ?_, .pop q (s.heap 0) _ _ (r.live_some 0 (by omega)) ?_, r'⟩
      · simp [call, step, e, bind, Except.bind]
      · intro h' a' v' e'
        obtain ⟨⟨i, hi, rfl⟩, hp⟩ := r.live_eq e'
        rw [(Prod.mk.inj hp).2]
        exact r.min i hi
  | set h v =>
    cases hlv : q.live h with
    | none => exact absurd hlv hl
    | some p =>
      obtain ⟨a, w⟩ := p
      obtain ⟨s', e, r'⟩ := set_rep r v hlv
      refine ⟨s', .ok .done, _, ?_, .set q h a w v hlv, r'⟩
      simp [call, step, e, bind, Except.bind]
  | peek =>
    by_cases hz : s.heapLength = 0
    · refine ⟨s, .threw, q, ?_, .peekEmpty q (by omega), r⟩
      simp [call, step, peek, hz, bind, Except.bind]
    · refine ⟨s, .ok (.top (s.distance (s.heap 0))), q, ?_, .peek q (s.heap 0) _ _ (r.live_some 0 (by omega)) ?_, r⟩
      · simp [call, step, peek_rep r (by omega), bind, Except.bind]
      · intro h' a' v' e'
        obtain ⟨⟨i, hi, rfl⟩, hp⟩ := r.live_eq e'
        rw [(Prod.mk.inj hp).2]
        exact r.min i hi

/-- **C01, C02.** Every sequence of legal calls on a fresh heap, of any capacity and whatever the
uninitialised arrays contain, is a run of the abstract queue: `pop` and `peek` report a least live
entry, `set` changes exactly the entry its handle names, nothing is read or written out of bounds,
and exceptions occur exactly on full/empty. -/
theorem heap_refines_queue (cap : Nat) (d : Nat → α) (h : Nat → Nat) (a : Nat → Int)
    (b : Nat → Nat) (ops : List (Op α)) :
    Follows (init cap d h a b) (Queue.empty cap) ops := by
  have gen : ∀ (ops : List (Op α)) (s : State α) (q : Queue α), Rep s q → Follows s q ops := by
    intro ops
    induction ops with
    | nil => intro s q _; trivial
    | cons op ops ih =>
      intro s q r hl
      obtain ⟨s', res, q', e1, e2, r'⟩ := call_sim r op hl
      exact ⟨s', res, q', e1, e2, ih s' q' r'⟩
  exact gen ops _ _ (Rep.init cap d h a b)

/-- The legality premise is met along a run that pushes, raises and lowers a value, and pops:
the abstract queue after the two pushes accepts `set` on both handles. -/
example : Legal (⟨2, 2, fun h => if h < 2 then some (5, 3) else none⟩ : Queue Nat) (.set 1 0) ∧
    Legal (⟨2, 1, fun h => if h < 1 then some (5, 3) else none⟩ : Queue Nat) (.push 7 9) := by
  constructor
  · simp [Legal]
  · left; decide

/-- All `push`es of a list, keeping the state. -/
def pushAll (s : State α) : List (Int × α) → Except Err (State α)
  | [] => .ok s
  | (a, v) :: l => do let r ← push s a v; pushAll r.1 l

/-- `k` consecutive `pop`s, keeping the outputs. -/
def popN (s : State α) : Nat → Except Err (List (Int × α))
  | 0 => .ok []
  | k + 1 => do let r ← pop s; let l ← popN r.1 k; .ok (r.2 :: l)

/-- The live entries of a queue in handle order. -/
def Queue.entries (q : Queue α) : List (Int × α) := (List.range q.next).filterMap q.live

theorem filterMap_update_none_perm {β : Type} (f : Nat → Option β) (l : List Nat) (k : Nat) (b : β)
    (hk : k ∈ l) (hn : l.Nodup) (hf : f k = some b) :
    (l.filterMap f).Perm (b :: l.filterMap (Function.update f k none)) := by
  induction l with
  | nil => cases hk
  | cons x l ih =>
    rw [List.nodup_cons] at hn
    by_cases hx : x = k
    · subst hx
      have : l.filterMap (Function.update f x none) = l.filterMap f := by
        apply List.filterMap_congr
        intro y hy
        rw [Function.update_of_ne]
        rintro rfl; exact hn.1 hy
      simp [hf, this]
    · have hk' : k ∈ l := by
        rcases List.mem_cons.1 hk with h | h
        · exact absurd h.symm hx
        · exact h
      have ih' := ih hk' hn.2
      rw [List.filterMap_cons, List.filterMap_cons, Function.update_of_ne hx]
      cases f x with
      | none => exact ih'
      | some y => exact (List.Perm.cons y ih').trans (List.Perm.swap b y _)

theorem popN_sorted : ∀ (k : Nat) (s : State α) (q : Queue α), Rep s q → s.heapLength = k →
    ∃ l, popN s k = .ok l ∧ l.Perm q.entries ∧ l.Pairwise (fun x y => x.2 ≤ y.2) := by
  intro k
  induction k with
  | zero =>
    intro s q r hk
    refine ⟨[], rfl, ?_, List.Pairwise.nil⟩
    have : q.entries = [] := by
      unfold Queue.entries
      rw [List.filterMap_eq_nil_iff]
      intro x _
      exact r.live_none x (by rintro ⟨i, hi, _⟩; omega)
    rw [this]
  | succ k ih =>
    intro s q r hk
    obtain ⟨s', e, r'⟩ := pop_rep r (by omega)
    have hs' : s'.heapLength = k := by
      have h1 := r.card_eq
      unfold pop at e
      rw [if_neg (by omega)] at e
      simp only [bind, Except.bind] at e
      repeat' split at e
      all_goals (try cases e)
      simp; omega
    obtain ⟨l, el, hp, hs⟩ := ih s' _ r' hs'
    refine ⟨(s.address (s.heap 0), s.distance (s.heap 0)) :: l, ?_, ?_, ?_⟩
    · simp [popN, e, el, bind, Except.bind]
    · have hperm := filterMap_update_none_perm q.live (List.range q.next) (s.heap 0)
        (s.address (s.heap 0), s.distance (s.heap 0))
        (by have := r.ent 0 (by omega); rw [r.hnext] at this; simpa using this)
        List.nodup_range (r.live_some 0 (by omega))
      exact (List.Perm.cons _ hp).trans hperm.symm
    · refine List.Pairwise.cons ?_ hs
      intro x hx
      have hx' := hp.mem_iff.1 hx
      unfold Queue.entries at hx'
      rw [List.mem_filterMap] at hx'
      obtain ⟨h, _, hh⟩ := hx'
      by_cases hh0 : h = s.heap 0
      · subst hh0; simp at hh
      · simp only [Function.update_of_ne hh0] at hh
        obtain ⟨⟨i, hi, rfl⟩, hxx⟩ := r.live_eq hh
        rw [hxx]
        exact r.min i hi

theorem push_len {s : State α} {a : Int} {v : α} {r : State α × Nat} (e : push s a v = .ok r) :
    r.1.heapLength = s.heapLength + 1 ∧ r.1.maxLength = s.maxLength := by
  unfold push at e
  simp only [bind, Except.bind] at e
  repeat' split at e
  all_goals (try cases e)
  exact ⟨rfl, rfl⟩

theorem pushAll_rep : ∀ (l : List (Int × α)) (s : State α) (q : Queue α), Rep s q →
    q.next + l.length ≤ q.cap → s.heapLength = q.next →
    (∀ k, q.next ≤ k → q.live k = none) →
    ∃ s' q', pushAll s l = .ok s' ∧ Rep s' q' ∧ q'.entries = q.entries ++ l ∧
      s'.heapLength = q.next + l.length := by
  intro l
  induction l with
  | nil => intro s q r _ h _; exact ⟨s, q, rfl, r, by simp, by simpa using h⟩
  | cons x l ih =>
    intro s q r hroom hlen hnone
    obtain ⟨a, v⟩ := x
    simp only [List.length_cons] at hroom
    obtain ⟨s1, e1, r1⟩ := push_rep r (by omega) a v
    have hs1 : s1.heapLength = q.next + 1 := by
      have := (push_len e1).1
      simp only at this
      omega
    obtain ⟨s', q', e', r', h1, h2⟩ := ih s1 _ r1 (by simp; omega) (by simp [hs1])
      (by
        intro k hk
        simp only at hk ⊢
        rw [Function.update_of_ne (by omega)]
        exact hnone k (by omega))
    refine ⟨s', q', ?_, r', ?_, by simp at h2 ⊢; omega⟩
    · simp [pushAll, e1, e', bind, Except.bind]
    · rw [h1]
      have : ∀ (n : Nat) (f : Nat → Option (Int × α)) (p : Int × α),
          (List.range (n + 1)).filterMap (Function.update f n (some p)) =
            (List.range n).filterMap f ++ [p] := by
        intro n f p
        rw [List.range_succ, List.filterMap_append]
        congr 1
        · apply List.filterMap_congr
          intro y hy
          rw [Function.update_of_ne]
          have := List.mem_range.1 hy; omega
        · simp
      unfold Queue.entries
      rw [this]
      simp

/-- **C01 (observable form).** Pushing any list of entries that fits and popping as many times
returns exactly those entries, in non-decreasing order of value. -/
theorem heap_sorts (cap : Nat) (d : Nat → α) (h : Nat → Nat) (a : Nat → Int) (b : Nat → Nat)
    (l : List (Int × α)) (hl : l.length ≤ cap) :
    ∃ s out, pushAll (init cap d h a b) l = .ok s ∧ popN s l.length = .ok out ∧
      out.Perm l ∧ out.Pairwise (fun x y => x.2 ≤ y.2) := by
  obtain ⟨s, q, e, r, h1, h2⟩ := pushAll_rep l _ _ (Rep.init cap d h a b)
    (by simpa [Queue.empty] using hl) rfl (fun _ _ => rfl)
  obtain ⟨out, e2, hp, hs⟩ := popN_sorted l.length s q r (by simpa [Queue.empty] using h2)
  refine ⟨s, out, e, e2, ?_, hs⟩
  rw [h1] at hp
  simpa [Queue.entries, Queue.empty] using hp

example : ([(4, 9), (5, 1), (6, 9)] : List (Int × Nat)).length ≤ 3 := by decide

/-- **C02 (observable form).** Lowering a live entry below every other live value makes the next
`pop` return that entry with the address it was pushed with; raising it strictly above another live
value makes the next `pop` return something else than the raised value. -/
theorem heap_set_then_pop {s : State α} {q : Queue α} (r : Rep s q) {h : Nat} {a : Int} {w v : α}
    (hlive : q.live h = some (a, w))
    (hmin : ∀ h' a' v', h' ≠ h → q.live h' = some (a', v') → v < v') :
    ∃ s' s'', set s h v = .ok s' ∧ pop s' = .ok (s'', (a, v)) := by
  obtain ⟨s', e, r'⟩ := set_rep r v hlive
  have hl' : s'.heapLength ≠ 0 := by
    intro hz
    have := r'.live_none h (by rintro ⟨i, hi, _⟩; omega)
    simp at this
  obtain ⟨s'', e2, r''⟩ := pop_rep r' (by omega)
  refine ⟨s', s'', e, ?_⟩
  have h0 := r'.live_some 0 (by omega)
  have hh : s'.heap 0 = h := by
    by_contra hne
    simp only [Function.update_of_ne hne] at h0
    have hlt := hmin _ _ _ hne h0
    obtain ⟨⟨i, hi, ei⟩, hp⟩ := r'.live_eq (show (Function.update q.live h (some (a, v))) h =
      some (a, v) by simp)
    have hm := r'.min i hi
    rw [ei, ← (Prod.mk.inj hp).2] at hm
    exact absurd hlt (not_lt.2 hm)
  rw [hh] at h0 e2
  simp at h0
  rw [e2, ← h0.1, ← h0.2]

/-- The premises hold for a queue with two live entries, whatever heap represents it. -/
example : ∃ (s : State Nat) (q : Queue Nat), Rep s q ∧ q.live 1 = some (20, 8) ∧
    (∀ h' a' v', h' ≠ 1 → q.live h' = some (a', v') → 3 < v') := by
  obtain ⟨s1, _, r1⟩ := push_rep (Rep.init 2 (fun _ => 0) (fun _ => 0) (fun _ => 0) (fun _ => 0))
    (by decide) 10 (5 : Nat)
  obtain ⟨s2, _, r2⟩ := push_rep r1 (by decide) 20 8
  refine ⟨s2, _, r2, by simp [Queue.empty], ?_⟩
  intro h' a' v' hne e
  simp only [Queue.empty, Function.update_of_ne hne] at e
  by_cases h0 : h' = 0
  · subst h0; simp at e; omega
  · rw [Function.update_of_ne h0] at e; cases e

/-- **C03, the part that holds.** On a represented state a `push` that does not exceed the total
number of pushes the arrays were sized for never leaves them, nor do `pop`, `peek` and `set` on live
handles. Missing from the full claim: a `push` after `cap` earlier pushes, see `heap_push_overrun`. -/
theorem heap_in_bounds_partial {s : State α} {q : Queue α} (r : Rep s q) (op : Op α)
    (hl : Legal q op) : call s op ≠ none := by
  obtain ⟨s', res, q', e, _, _⟩ := call_sim r op hl
  rw [e]; simp

/-- **C03 fails.** The full test looks at the number of *live* entries, but the entry is stored at
the index of *all* pushes so far: as soon as `cap` pushes were made and at least one entry was
popped, the next `push` writes out of bounds instead of throwing. -/
theorem heap_push_overrun {s : State α} {q : Queue α} (r : Rep s q) (hn : q.next = q.cap)
    (hc : q.card < q.cap) (a : Int) (v : α) : call s (.push a v) = none := by
  have h1 := r.hcap
  have h2 := r.hnext
  have h3 := r.card_eq
  have e : push s a v = .error .oob := by
    unfold push
    rw [if_neg (by omega)]
    simp [bind, Except.bind, wr, h2, h1, hn, show s.heapLength < q.cap by omega]
  simp [call, step, e, bind, Except.bind]

/-- The overrun is reached from a fresh heap of every positive capacity by `cap` pushes, one pop and
one more push. -/
theorem heap_push_overrun_reachable (cap : Nat) (hcap : 0 < cap) (d : Nat → α) (h : Nat → Nat)
    (a : Nat → Int) (b : Nat → Nat) (l : List (Int × α)) (hl : l.length = cap) (a' : Int) (v' : α) :
    ∃ s s' o, pushAll (init cap d h a b) l = .ok s ∧ pop s = .ok (s', o) ∧
      call s' (.push a' v') = none := by
  obtain ⟨s, q, e, r, h1, h2⟩ := pushAll_rep l _ _ (Rep.init cap d h a b)
    (by simp [Queue.empty, hl]) rfl (fun _ _ => rfl)
  have hlen : s.heapLength = cap := by simpa [Queue.empty, hl] using h2
  obtain ⟨s', e2, r'⟩ := pop_rep r (by omega)
  have hmax : s.maxLength = cap := by
    have : ∀ (l : List (Int × α)) (s0 s1 : State α), pushAll s0 l = .ok s1 →
        s1.maxLength = s0.maxLength := by
      intro l
      induction l with
      | nil => intro s0 s1 e; cases e; rfl
      | cons x l ih =>
        intro s0 s1 e
        obtain ⟨a, v⟩ := x
        simp only [pushAll, bind, Except.bind] at e
        split at e
        · cases e
        · rename_i w hw
          rw [ih _ _ e]
          unfold push at hw
          simp only [bind, Except.bind] at hw
          repeat' split at hw
          all_goals (try cases hw)
          rfl
    rw [this _ _ _ e]; rfl
  refine ⟨s, s', _, e, e2, ?_⟩
  have hcap' := r.hcap
  have hlist := r.hlist
  have hle := r.hlen
  have hnx := r.hnext
  apply heap_push_overrun r'
  · simp; omega
  · have hs' : s'.heapLength = cap - 1 := by
      unfold pop at e2
      rw [if_neg (by omega)] at e2
      simp only [bind, Except.bind] at e2
      repeat' split at e2
      all_goals (try cases e2)
      simp; omega
    rw [r'.card_eq, hs']
    simp; omega

example : ([(4, 9), (5, 1)] : List (Int × Nat)).length = 2 := rfl

end Verif.Heap
