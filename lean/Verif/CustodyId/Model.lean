import Verif.FragmentSet.Props
import Verif.HashMap16.Model

/-!
Model of `common/bpcodec/src/codec/CustodyIdAllocator.cpp`: custody identifiers are handed out to
bundle sources in blocks of 256.

The `std::map` from sources to their next identifier is a function.
-/

namespace Hdtn.CustodyId

open Hdtn.FragmentSet Hdtn.HashMap16

/-- The members, CustodyIdAllocator.h:51-54. -/
structure State where
  next : Nat
  bySource : Eid → Option Nat
  ids : List Frag
  blocks : List Frag

/-- The constructor, CustodyIdAllocator.cpp:20. -/
def State.new : State := ⟨2 ^ 64 - 1, fun _ => none, [], []⟩

/-- `InitializeAddUsedCustodyIdRange`, CustodyIdAllocator.cpp:28-33; `InitializeAddUsedCustodyId`
(:23-27) is the case `b = e`. -/
def restore (s : State) (b e : Nat) : State :=
  { s with
    blocks := (insertFragment s.blocks ⟨b >>> 8, e >>> 8⟩).1
    ids := (insertFragment s.ids ⟨b, e⟩).1 }

/-- The block of identifiers with this multiplier, CustodyIdAllocator.cpp:38-39, :57-58, :87-88. -/
def blockOf (m : Nat) : Frag := ⟨(m <<< 8) % U64, ((m <<< 8) % U64 + 255) % U64⟩

/-- The end of `FreeCustodyId`, CustodyIdAllocator.cpp:40-48, and the loop body of
`FreeCustodyIdRange`, :59-66: give up a block none of whose identifiers is marked; the number of
blocks given up. -/
def freeBlock (s : State) (m : Nat) : State × Nat :=
  if doesNotContainEntirely s.ids (blockOf m) && containsEntirely s.blocks ⟨m, m⟩ then
    ({ s with blocks := (removeFragment s.blocks ⟨m, m⟩).1 }, 1)
  else (s, 0)

/-- `FreeCustodyId`, CustodyIdAllocator.cpp:35-49. -/
def free (s : State) (id : Nat) : State × Nat :=
  freeBlock { s with ids := (removeFragment s.ids ⟨id, id⟩).1 } (id >>> 8)

/-- The loop of `FreeCustodyIdRange`, CustodyIdAllocator.cpp:56-67, over `n` multipliers. -/
def freeBlocks : Nat → State → Nat → State × Nat
  | 0, s, _ => (s, 0)
  | n + 1, s, m =>
    ((freeBlocks n (freeBlock s m).1 (m + 1)).1,
      (freeBlock s m).2 + (freeBlocks n (freeBlock s m).1 (m + 1)).2)

/-- `FreeCustodyIdRange`, CustodyIdAllocator.cpp:51-70. -/
def freeRange (s : State) (b e : Nat) : State × Nat :=
  freeBlocks ((e >>> 8) + 1 - (b >>> 8)) { s with ids := (removeFragment s.ids ⟨b, e⟩).1 } (b >>> 8)

/-- The multiplier chosen by `ReserveNextCustodyIdBlock`, CustodyIdAllocator.cpp:75-82. -/
def chooseBlock : List Frag → Nat
  | [] => 0
  | f :: _ => if f.b ≠ 0 then 0 else (f.e + 1) % U64

/-- `ReserveNextCustodyIdBlock`, CustodyIdAllocator.cpp:74-91. -/
def reserve (s : State) : State :=
  let m := chooseBlock s.blocks
  { s with
    blocks := (insertFragment s.blocks ⟨m, m⟩).1
    ids := (insertFragment s.ids (blockOf m)).1
    next := (m <<< 8) % U64 }

/-- Set the next identifier of one source. -/
def setSource (s : State) (src : Eid) (id : Nat) : State :=
  { s with bySource := fun x => if x = src then some id else s.bySource x }

/-- `GetNextCustodyIdForNextHopCtebToSend`, CustodyIdAllocator.cpp:99-120. -/
def alloc (s : State) (src : Eid) : State × Nat :=
  let s := if s.next = 2 ^ 64 - 1 then reserve s else s
  match s.bySource src with
  | none => (reserve (setSource s src ((s.next + 1) % U64)), s.next)
  | some id =>
    if (id + 1) % U64 &&& 255 = 0 then (reserve (setSource s src s.next), id)
    else (setSource s src ((id + 1) % U64), id)

/-- The storage service at start-up: the allocator is constructed, then the bundles on disk are
restored into the catalog under their old identifiers; no call tells the allocator about them.
ZmqStorageInterface.cpp:1193, :1218, BundleStorageManagerBase.cpp:506-655. -/
def serviceStart (_restored : List Nat) : State := State.new

end Hdtn.CustodyId
