import Verif.Base

/-!
Model of `common/util/src/CircularIndexBufferSingleProducerSingleConsumerConfigurable.cpp` (below
`CircularIndex.cpp`) as used by its clients: the producer asks for an index, writes the slot with
that index and commits; the consumer asks for an index, reads the slot and commits.

Each index is an atomic variable with one writer. Its whole modification order is kept, and a load
by the other thread may return any value that is not older than one this thread already loaded:
this is what C++ allows for an acquire load, so an out-of-date index can be seen. A thread always
sees its own last store.
-/

namespace Hdtn.CircularIndex

/-- The increment with wrap-around, CircularIndex.cpp:37-40, :51-54, :67-70, :89-92. -/
def wrapInc (size i : Nat) : Nat := if size ≤ (i + 1) % 2 ^ 32 then 0 else (i + 1) % 2 ^ 32

/-- The test in `GetIndexForWrite`, CircularIndex.cpp:48-61; `none` is `CIRCULAR_INDEX_BUFFER_FULL`. -/
def indexForWrite (size fin start : Nat) : Option Nat :=
  let endPlus1 := wrapInc size fin
  if start = endPlus1 then none else some fin

/-- The test in `GetIndexForRead`, CircularIndex.cpp:74-83; `none` is `CIRCULAR_INDEX_BUFFER_EMPTY`. -/
def indexForRead (start fin : Nat) : Option Nat :=
  if fin = start then none else some start

/-- `NumInBuffer`, CircularIndex.cpp:96-103. -/
def numInBuffer (size start fin : Nat) : Nat :=
  let fin' := if fin < start then (fin + size) % 2 ^ 32 else fin
  (fin' + 2 ^ 32 - start) % 2 ^ 32

/-- `IsFull`, CircularIndex.cpp:35-42. -/
def isFull (size start fin : Nat) : Bool := start = wrapInc size fin

/-- `IsEmpty`, CircularIndex.cpp:44-46. -/
def isEmpty (start fin : Nat) : Bool := fin = start

/-- Where the producer is. -/
inductive Prod (α : Type) where
  /-- outside -/
  | idle
  /-- in `GetIndexForWrite`, after loading its own index, CircularIndex.cpp:50 -/
  | loaded (fin : Nat)
  /-- has been given an index and is writing the slot -/
  | writing (idx : Nat)
  /-- has written `v` and not yet committed -/
  | written (idx : Nat) (v : α)

/-- Where the consumer is. -/
inductive Cons (α : Type) where
  /-- outside -/
  | idle
  /-- in `GetIndexForRead`, after loading its own index, CircularIndex.cpp:76 -/
  | loaded (start : Nat)
  /-- has been given an index and is reading the slot -/
  | reading (idx : Nat)
  /-- has read `v` and not yet committed -/
  | read (idx : Nat) (v : Option α)

/-- The shared state: the two indices with their modification orders (oldest value first), the
client's slots, what each thread has seen of the other's index, and as a record of what happened,
the values committed by the producer and by the consumer. -/
structure State (α : Type) where
  starts : List Nat
  ends : List Nat
  slots : Nat → Option α
  seenStart : Nat
  seenEnd : Nat
  prod : Prod α
  cons : Cons α
  produced : List α
  consumed : List (Option α)

/-- The constructor and `Init`, CircularIndex.cpp:19-32. -/
def init (α : Type) : State α :=
  { starts := [0], ends := [0], slots := fun _ => none, seenStart := 0, seenEnd := 0,
    prod := .idle, cons := .idle, produced := [], consumed := [] }

/-- One atomic step of either thread. -/
inductive Step {α : Type} (size : Nat) : State α → State α → Prop
  /-- CircularIndex.cpp:50: the producer loads its own index. -/
  | loadEnd (s : State α) (fin : Nat) (hp : s.prod = .idle) (h : s.ends.getLast? = some fin) :
      Step size s { s with prod := .loaded fin }
  /-- CircularIndex.cpp:55-58: the producer loads the consumer's index and finds the ring full. -/
  | full (s : State α) (fin j start : Nat) (hp : s.prod = .loaded fin) (hj : s.seenStart ≤ j)
      (hs : s.starts[j]? = some start) (h : indexForWrite size fin start = none) :
      Step size s { s with prod := .idle, seenStart := j }
  /-- CircularIndex.cpp:55-60: the producer is given an index. -/
  | giveWrite (s : State α) (fin j start idx : Nat) (hp : s.prod = .loaded fin)
      (hj : s.seenStart ≤ j) (hs : s.starts[j]? = some start)
      (h : indexForWrite size fin start = some idx) :
      Step size s { s with prod := .writing idx, seenStart := j }
  /-- The client stores a value in the slot. -/
  | write (s : State α) (idx : Nat) (v : α) (hp : s.prod = .writing idx) :
      Step size s { s with prod := .written idx v,
                           slots := fun i => if i = idx then some v else s.slots i }
  /-- `CommitWrite`, CircularIndex.cpp:63-72. Only this thread stores to the index, so its load and
  its store are one step. -/
  | commitWrite (s : State α) (idx : Nat) (v : α) (fin : Nat) (hp : s.prod = .written idx v)
      (h : s.ends.getLast? = some fin) :
      Step size s { s with prod := .idle, ends := s.ends ++ [wrapInc size fin],
                           produced := s.produced ++ [v] }
  /-- CircularIndex.cpp:76: the consumer loads its own index. -/
  | loadStart (s : State α) (start : Nat) (hc : s.cons = .idle) (h : s.starts.getLast? = some start) :
      Step size s { s with cons := .loaded start }
  /-- CircularIndex.cpp:77-80: the consumer loads the producer's index and finds the ring empty. -/
  | empty (s : State α) (start j fin : Nat) (hc : s.cons = .loaded start) (hj : s.seenEnd ≤ j)
      (hs : s.ends[j]? = some fin) (h : indexForRead start fin = none) :
      Step size s { s with cons := .idle, seenEnd := j }
  /-- CircularIndex.cpp:77-82: the consumer is given an index. -/
  | giveRead (s : State α) (start j fin idx : Nat) (hc : s.cons = .loaded start)
      (hj : s.seenEnd ≤ j) (hs : s.ends[j]? = some fin) (h : indexForRead start fin = some idx) :
      Step size s { s with cons := .reading idx, seenEnd := j }
  /-- The client reads the slot. -/
  | read (s : State α) (idx : Nat) (hc : s.cons = .reading idx) :
      Step size s { s with cons := .read idx (s.slots idx) }
  /-- `CommitRead`, CircularIndex.cpp:85-94. -/
  | commitRead (s : State α) (idx : Nat) (v : Option α) (start : Nat) (hc : s.cons = .read idx v)
      (h : s.starts.getLast? = some start) :
      Step size s { s with cons := .idle, starts := s.starts ++ [wrapInc size start],
                           consumed := s.consumed ++ [v] }

/-- The states reached by some interleaving. -/
inductive Reachable {α : Type} (size : Nat) : State α → Prop
  | init : Reachable size (init α)
  | step (s s' : State α) (h : Reachable size s) (hs : Step size s s') : Reachable size s'

end Hdtn.CircularIndex
