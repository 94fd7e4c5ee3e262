import Verif.Heap.Model
import Mathlib.Data.Finset.Card
import Mathlib.Data.Finset.Filter
import Mathlib.Data.Finset.Range

/-!
# Specification of the heap: a finite map from handles to (address, value)

Nothing here mentions positions, sifting or back-pointers.
-/

namespace Verif.Heap

/-- Abstract queue: `next` pushes so far (handles are `0..next-1`), `live` the entries not yet
popped. -/
structure Queue (α : Type) where
  cap : Nat
  next : Nat
  live : Nat → Option (Int × α)

variable {α : Type} [LinearOrder α]

/-- The queue right after construction. -/
def Queue.empty (cap : Nat) : Queue α := ⟨cap, 0, fun _ => none⟩

/-- Number of live entries. -/
def Queue.card (q : Queue α) : Nat :=
  ((Finset.range q.next).filter fun h => (q.live h).isSome).card

/-- Result of a call as the client sees it. -/
inductive Res (α : Type)
  | ok (o : Out α)
  | threw

/-- What each call may do. -/
inductive Queue.Step : Queue α → Op α → Res α → Queue α → Prop
  /-- `push` stores a fresh entry and returns its handle. -/
  | push (q : Queue α) (a : Int) (v : α) : q.card < q.cap →
      Step q (.push a v) (.ok (.handle q.next))
        { q with next := q.next + 1, live := Function.update q.live q.next (some (a, v)) }
  /-- `push` on a full queue throws. -/
  | pushFull (q : Queue α) (a : Int) (v : α) : q.card = q.cap → Step q (.push a v) .threw q
  /-- `pop` removes an entry of least value and reports it. -/
  | pop (q : Queue α) (h : Nat) (a : Int) (v : α) : q.live h = some (a, v) →
      (∀ h' a' v', q.live h' = some (a', v') → v ≤ v') →
      Step q .pop (.ok (.popped a v)) { q with live := Function.update q.live h none }
  /-- `pop` on an empty queue throws. -/
  | popEmpty (q : Queue α) : q.card = 0 → Step q .pop .threw q
  /-- `set` changes the value of one live entry. -/
  | set (q : Queue α) (h : Nat) (a : Int) (w v : α) : q.live h = some (a, w) →
      Step q (.set h v) (.ok .done) { q with live := Function.update q.live h (some (a, v)) }
  /-- `peek` reports the least value. -/
  | peek (q : Queue α) (h : Nat) (a : Int) (v : α) : q.live h = some (a, v) →
      (∀ h' a' v', q.live h' = some (a', v') → v ≤ v') → Step q .peek (.ok (.top v)) q
  | peekEmpty (q : Queue α) : q.card = 0 → Step q .peek .threw q

/-- The client's obligations: `set` only on live handles; `push` only while the number of pushes
made so far is below the capacity (or the queue is full, in which case `push` throws). -/
def Legal (q : Queue α) : Op α → Prop
  | .push _ _ => q.next < q.cap ∨ q.card = q.cap
  | .set h _ => q.live h ≠ none
  | _ => True

/-- A call on the model; `none` is undefined behaviour.  An exception leaves the object as it was
(heap.cpp throws before the first write). -/
def call (s : State α) (op : Op α) : Option (State α × Res α) :=
  match step s op with
  | .ok (s', o) => some (s', .ok o)
  | .error .thrown => some (s, .threw)
  | .error .oob => none

/-- The heap in state `s` can be explained by the queue `q` along a whole call sequence. -/
def Follows (s : State α) (q : Queue α) : List (Op α) → Prop
  | [] => True
  | op :: ops => Legal q op →
      ∃ s' r q', call s op = some (s', r) ∧ Queue.Step q op r q' ∧ Follows s' q' ops

end Verif.Heap
