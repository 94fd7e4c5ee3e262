import Mathlib.Order.Defs.LinearOrder
import Mathlib.Logic.Function.Basic

/-!
# Model of `skfmm/heap.cpp`

The binary min-heap used by the fast marching code.  Arrays are total functions paired with the
allocated length `n`; every access goes through `rd`/`wr`, which yield `Err.oob` outside `0..n-1`.
C++ exceptions are `Err.thrown`.  Array contents before the first write are arbitrary.
`selfTest_` is modelled as `false` (`distance` in `src/multi/pfmm.cpp:14` passes `TEST = 0`).
`distance_` values range over a linear order (no NaN).
-/

namespace Verif.Heap

/-- The two ways a heap call can fail. -/
inductive Err
  /-- `std::runtime_error` -/
  | thrown
  /-- read or write outside the allocated arrays (undefined behaviour) -/
  | oob
deriving DecidableEq, Repr

/-- Checked array read. -/
def rd {β : Type} (n : Nat) (f : Nat → β) (i : Nat) : Except Err β :=
  if i < n then .ok (f i) else .error .oob

/-- Checked array write. -/
def wr {β : Type} (n : Nat) (f : Nat → β) (i : Nat) (v : β) : Except Err (Nat → β) :=
  if i < n then .ok (Function.update f i v) else .error .oob

/-- Members of `class heap` (heap.h:237-265). -/
structure State (α : Type) where
  maxLength : Nat
  heapLength : Nat
  listLength : Nat
  distance : Nat → α
  heap : Nat → Nat
  address : Nat → Int
  back : Nat → Nat

variable {α : Type} [LinearOrder α]

/-- Constructor, heap.cpp:34-44.  `d h a b` are the uninitialised array contents. -/
def init (maxLength : Nat) (d : Nat → α) (h : Nat → Nat) (a : Nat → Int) (b : Nat → Nat) :
    State α :=
  ⟨maxLength, 0, 0, d, h, a, b⟩

/-- The `while` loop of `_siftDown`, heap.cpp:98-110. -/
def siftDownLoop (n : Nat) (d : Nat → α) (newItem startPos : Nat) (pos : Nat)
    (heap back : Nat → Nat) : Except Err ((Nat → Nat) × (Nat → Nat) × Nat) :=
  if _h : startPos < pos then do
    let parentPos := (pos - 1) / 2
    let parent ← rd n heap parentPos
    let dn ← rd n d newItem
    let dp ← rd n d parent
    if dn < dp then do
      let heap' ← wr n heap pos parent
      let back' ← wr n back parent pos
      siftDownLoop n d newItem startPos ((pos - 1) / 2) heap' back'
    else .ok (heap, back, pos)
  else .ok (heap, back, pos)
termination_by pos
decreasing_by omega

/-- `_siftDown`, heap.cpp:92-113. -/
def siftDown (n : Nat) (d : Nat → α) (heap back : Nat → Nat) (startPos pos : Nat) :
    Except Err ((Nat → Nat) × (Nat → Nat)) := do
  let newItem ← rd n heap pos
  let r ← siftDownLoop n d newItem startPos pos heap back
  let heap' ← wr n r.1 r.2.2 newItem
  let back' ← wr n r.2.1 newItem r.2.2
  .ok (heap', back')

/-- Choice of the child in `_siftUp`, heap.cpp:125-130. -/
def pickChild (n : Nat) (d : Nat → α) (heap : Nat → Nat) (endPos childPos : Nat) :
    Except Err Nat :=
  if childPos + 1 < endPos then do
    let c ← rd n heap childPos
    let r ← rd n heap (childPos + 1)
    let dc ← rd n d c
    let dr ← rd n d r
    .ok (if dc < dr then childPos else childPos + 1)
  else .ok childPos

theorem pickChild_cases {n : Nat} {d : Nat → α} {heap : Nat → Nat} {e c r : Nat}
    (h : pickChild n d heap e c = .ok r) : r = c ∨ (r = c + 1 ∧ c + 1 < e) := by
  unfold pickChild at h
  split at h
  · simp only [rd, bind, Except.bind] at h
    repeat' split at h
    all_goals (try cases h)
    all_goals simp_all
  · cases h; simp

/-- The `while` loop of `_siftUp`, heap.cpp:122-135. -/
def siftUpLoop (n : Nat) (d : Nat → α) (endPos : Nat) (pos : Nat) (heap back : Nat → Nat) :
    Except Err ((Nat → Nat) × (Nat → Nat) × Nat) :=
  if _h : 2 * pos + 1 < endPos then
    match _hc : pickChild n d heap endPos (2 * pos + 1) with
    | .error e => .error e
    | .ok childPos => do
      let item ← rd n heap childPos
      let heap' ← wr n heap pos item
      let back' ← wr n back item pos
      siftUpLoop n d endPos childPos heap' back'
  else .ok (heap, back, pos)
termination_by endPos - pos
decreasing_by
  rcases pickChild_cases _hc with h1 | ⟨h1, h2⟩ <;> omega

/-- `_siftUp`, heap.cpp:115-138 (`endPos` is the member `heapLength_`). -/
def siftUp (n : Nat) (d : Nat → α) (endPos : Nat) (heap back : Nat → Nat) (pos : Nat) :
    Except Err ((Nat → Nat) × (Nat → Nat)) := do
  let newItem ← rd n heap pos
  let r ← siftUpLoop n d endPos pos heap back
  let heap' ← wr n r.1 r.2.2 newItem
  siftDown n d heap' r.2.1 pos r.2.2

/-- `push`, heap.cpp:54-67; returns the handle. -/
def push (s : State α) (addr : Int) (value : α) : Except Err (State α × Nat) :=
  if s.heapLength = s.maxLength then .error .thrown
  else do
    let n := s.maxLength
    let heap ← wr n s.heap s.heapLength s.listLength
    let address ← wr n s.address s.listLength addr
    let distance ← wr n s.distance s.listLength value
    let back ← wr n s.back s.listLength s.heapLength
    let r ← siftDown n distance heap back 0 s.heapLength
    .ok (⟨n, s.heapLength + 1, s.listLength + 1, distance, r.1, address, r.2⟩, s.listLength)

/-- `peek`, heap.cpp:69-75. -/
def peek (s : State α) : Except Err α :=
  if s.heapLength = 0 then .error .thrown
  else do
    let loc ← rd s.maxLength s.heap 0
    rd s.maxLength s.distance loc

/-- `pop`, heap.cpp:77-90; returns address and value. -/
def pop (s : State α) : Except Err (State α × (Int × α)) :=
  if s.heapLength = 0 then .error .thrown
  else do
    let n := s.maxLength
    let loc ← rd n s.heap 0
    let value ← rd n s.distance loc
    let addr ← rd n s.address loc
    let last ← rd n s.heap (s.heapLength - 1)
    let heap ← wr n s.heap 0 last
    let back ← wr n s.back last 0
    let r ← siftUp n s.distance (s.heapLength - 1) heap back 0
    .ok (⟨n, s.heapLength - 1, s.listLength, s.distance, r.1, s.address, r.2⟩, (addr, value))

/-- The optional `_siftUp` inside `set`, heap.cpp:146-149. -/
def raise (n : Nat) (d : Nat → α) (endPos : Nat) (heap back : Nat → Nat) (pos : Nat)
    (oldDistance newDistance : α) : Except Err ((Nat → Nat) × (Nat → Nat)) :=
  if oldDistance < newDistance then siftUp n d endPos heap back pos else .ok (heap, back)

/-- `set`, heap.cpp:141-157. -/
def set (s : State α) (index : Nat) (newDistance : α) : Except Err (State α) := do
  let n := s.maxLength
  let oldDistance ← rd n s.distance index
  let pos ← rd n s.back index
  let distance ← wr n s.distance index newDistance
  let r ← raise n distance s.heapLength s.heap s.back pos oldDistance newDistance
  let item ← rd n r.1 pos
  let di ← rd n distance item
  if di ≠ newDistance then
    .ok { s with distance := distance, heap := r.1, back := r.2 }
  else do
    let r' ← siftDown n distance r.1 r.2 0 pos
    .ok { s with distance := distance, heap := r'.1, back := r'.2 }

/-- `empty`, heap.cpp:159-163. -/
def empty (s : State α) : Bool := s.heapLength = 0

/-- The calls a client can make. -/
inductive Op (α : Type)
  | push (addr : Int) (value : α)
  | pop
  | set (handle : Nat) (value : α)
  | peek

/-- What a call returns. -/
inductive Out (α : Type)
  | handle (h : Nat)
  | popped (addr : Int) (value : α)
  | done
  | top (value : α)

/-- One client call. -/
def step (s : State α) : Op α → Except Err (State α × Out α)
  | .push a v => do let r ← push s a v; .ok (r.1, .handle r.2)
  | .pop => do let r ← pop s; .ok (r.1, .popped r.2.1 r.2.2)
  | .set h v => do let r ← set s h v; .ok (r, .done)
  | .peek => do let v ← peek s; .ok (s, .top v)

end Verif.Heap
