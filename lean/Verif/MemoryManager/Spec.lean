import Verif.MemoryManager.Model

/-!
Specification for C22 and C23: an allocator is the list of identifiers in use.
-/

namespace Hdtn.MemoryManager

/-- The free identifiers below the capacity, in increasing order. -/
def freeIds (max : Nat) (used : List Nat) : List Nat :=
  (List.range max).filter fun id => decide (id ∉ used)

/-- What a user asks of the allocator. -/
inductive Op where
  | allocFirst
  | allocId (id : Nat)
  | freeId (id : Nat)
  | isFree (id : Nat)
  | allocSegments (n : Nat)
  | freeSegments (ids : List Nat)
  | count

/-- What it answers. -/
inductive Answer where
  | id (r : Option Nat)
  | flag (b : Bool)
  | segments (ids : List Nat) (b : Bool)
  | number (n : Nat)
deriving DecidableEq, Repr

/-- Freeing one identifier after the other: those in use are freed, and the result tells whether
each of them was in use when its turn came. -/
def specFree (used : List Nat) : List Nat → List Nat × Bool
  | [] => (used, true)
  | id :: ids =>
    ((specFree (used.erase id) ids).1, decide (id ∈ used) && (specFree (used.erase id) ids).2)

/-- The specification: the identifiers in use after the operation, and the answer. -/
def Op.spec (max : Nat) (used : List Nat) : Op → List Nat × Answer
  | .allocFirst =>
    match freeIds max used with
    | [] => (used, .id none)
    | id :: _ => (id :: used, .id (some id))
  | .allocId id =>
    if id < max ∧ id ∉ used then (id :: used, .flag true) else (used, .flag false)
  | .freeId id => if id ∈ used then (used.erase id, .flag true) else (used, .flag false)
  | .isFree id => (used, .flag (decide (id < max ∧ id ∉ used)))
  | .allocSegments n =>
    if n ≤ (freeIds max used).length then
      (((freeIds max used).take n).reverse ++ used, .segments ((freeIds max used).take n) true)
    else (used, .segments [] false)
  | .freeSegments ids => ((specFree used ids).1, .flag (specFree used ids).2)
  | .count => (used, .number used.length)

/-- The operation on the tree; `none` is undefined behaviour. -/
def Op.run (t : Tree) : Op → Option (Tree × Answer)
  | .allocFirst => (MemoryManager.allocFirst t).map fun r => (r.1, .id r.2)
  | .allocId id => (MemoryManager.allocId t id).map fun r => (r.1, .flag r.2)
  | .freeId id => (MemoryManager.freeId t id).map fun r => (r.1, .flag r.2)
  | .isFree id => (MemoryManager.isFree t id).map fun b => (t, .flag b)
  | .allocSegments n => (MemoryManager.allocSegments t n).map fun r => (r.1, .segments r.2.1 r.2.2)
  | .freeSegments ids => (MemoryManager.freeSegments t ids).map fun r => (r.1, .flag r.2)
  | .count => some (t, .number t.num)

/-- A history by the specification: the answers. -/
def specRun (max : Nat) (used : List Nat) : List Op → List Nat × List Answer
  | [] => (used, [])
  | op :: ops =>
    ((specRun max (op.spec max used).1 ops).1, (op.spec max used).2 :: (specRun max (op.spec max used).1 ops).2)

/-- A history on the tree. -/
def treeRun (t : Tree) : List Op → Option (Tree × List Answer)
  | [] => some (t, [])
  | op :: ops =>
    match op.run t with
    | none => none
    | some (t', a) =>
      match treeRun t' ops with
      | none => none
      | some (t'', as) => some (t'', a :: as)

end Hdtn.MemoryManager
