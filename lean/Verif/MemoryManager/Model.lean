import Verif.Base

/-!
Model of `module/storage/src/MemoryManagerTreeArray.cpp`: the allocator of disk segments, a tree of
64-bit words six rows deep in which a 1 bit means "free".

Rows are numbered from the leaves: row `h` here is `m_bitMasks[5 - h]`. An access outside a row is
undefined behaviour and yields `none`, and so does the search for the lowest bit of a zero word.
`segment_id_t` is 32 or 64 bits wide and `M_MAX_SEGMENTS` is at most 2^32 - 4, so that no identifier
computed wraps (they are shown to be at most the maximum) or equals `SEGMENT_ID_FULL`; identifiers are
unbounded here. The mutex of the `_ThreadSafe` functions makes each of them one step. The
preprocessor variants of the bit operations are the same operation.
-/

namespace Hdtn.MemoryManager

/-- The rows: word `i` of row `h`, the length of the row, the capacity and the counter;
MemoryManagerTreeArray.h:142-145. -/
structure Tree where
  words : Nat → Nat → Nat
  len : Nat → Nat
  max : Nat
  num : Nat

/-- `m_bitMasks[5 - h][i]`. -/
def Tree.word (t : Tree) (h i : Nat) : Option Nat := if i < t.len h then some (t.words h i) else none

/-- Assign `m_bitMasks[5 - h][i]`. -/
def Tree.setWord (t : Tree) (h i w : Nat) : Tree :=
  { t with words := fun h' i' => if h' = h ∧ i' = i then w else t.words h' i' }

/-- The constructor and `AllocateRows`, MemoryManagerTreeArray.cpp:37-46, :161-170. -/
def Tree.new (maxSegments : Nat) : Tree :=
  { words := fun _ _ => 2 ^ 64 - 1
    len := fun h => (maxSegments >>> (6 * (h + 1))) + 1
    max := maxSegments
    num := 0 }

/-- `find_lsb`: undefined for 0. -/
def findLsb (w : Nat) : Option Nat := (List.range 64).find? fun i => w.testBit i

/-- `longRef &= ~mask64`. -/
def clearBit (w b : Nat) : Nat := w &&& (2 ^ 64 - 1 - 1 <<< b)

/-- `longRef |= mask64`. -/
def setBit (w b : Nat) : Nat := w ||| 1 <<< b

/-- `GetAndSetFirstFreeSegmentId`, MemoryManagerTreeArray.cpp:73-95, at row `h`: the tree, the
segment identifier and whether the word is now full. -/
def getAndSet : Nat → Tree → Nat → Option (Tree × Nat × Bool)
  | 0, t, seg =>
    match t.word 0 seg with
    | none => none
    | some w =>
      match findLsb w with
      | none => none
      | some b =>
        let id := (seg <<< 6) ||| b
        let w' := if id < t.max then clearBit w b else w
        some (t.setWord 0 seg w', id, w' = 0)
  | h + 1, t, seg =>
    match t.word (h + 1) seg with
    | none => none
    | some w =>
      match findLsb w with
      | none => none
      | some b =>
        match getAndSet h t ((seg <<< 6) ||| b) with
        | none => none
        | some (t1, id, full) =>
          let w' := if full && id < t.max then clearBit w b else w
          some (t1.setWord (h + 1) seg w', id, w' = 0)

/-- `GetAndSetFirstFreeSegmentId_NotThreadSafe`, MemoryManagerTreeArray.cpp:97-104; an inner `none`
is `SEGMENT_ID_FULL`. -/
def allocFirst (t : Tree) : Option (Tree × Option Nat) :=
  match t.word 5 0 with
  | none => none
  | some w =>
    if w = 0 then some (t, none)
    else
      match getAndSet 5 t 0 with
      | none => none
      | some (t', id, _) =>
        if id ≥ t.max then some (t', none) else some ({ t' with num := t'.num + 1 }, some id)

/-- `IsSegmentFree`, MemoryManagerTreeArray.cpp:106-118. -/
def isFree (t : Tree) (id : Nat) : Option Bool :=
  if id ≥ t.max then some false
  else (t.word 0 (id >>> 6)).map fun w => w &&& (1 <<< (id &&& 63)) != 0

/-- The upward loop of `FreeSegmentId_NotThreadSafe`, MemoryManagerTreeArray.cpp:140-151: `n` rows
to go, from row `h`. -/
def freeUp : Nat → Nat → Tree → Nat → Option Tree
  | 0, _, t, _ => some t
  | n + 1, h, t, idx =>
    match t.word h (idx >>> 6) with
    | none => none
    | some w => freeUp n (h + 1) (t.setWord h (idx >>> 6) (setBit w (idx &&& 63))) (idx >>> 6)

/-- `FreeSegmentId_NotThreadSafe`, MemoryManagerTreeArray.cpp:120-154. -/
def freeId (t : Tree) (id : Nat) : Option (Tree × Bool) :=
  if id ≥ t.max then some (t, false)
  else
    match t.word 0 (id >>> 6) with
    | none => none
    | some w =>
      let t1 := t.setWord 0 (id >>> 6) (setBit w (id &&& 63))
      if w &&& (1 <<< (id &&& 63)) = 0 then
        (freeUp 5 1 t1 (id >>> 6)).map fun t2 => ({ t2 with num := t2.num - 1 }, true)
      else some (t1, false)

/-- The upward loop of `AllocateSegmentId_NotThreadSafe`, MemoryManagerTreeArray.cpp:210-226. -/
def allocUp : Nat → Nat → Tree → Nat → Bool → Option Tree
  | 0, _, t, _, _ => some t
  | n + 1, h, t, idx, childIsFull =>
    if childIsFull then
      match t.word h (idx >>> 6) with
      | none => none
      | some w =>
        let w' := clearBit w (idx &&& 63)
        allocUp n (h + 1) (t.setWord h (idx >>> 6) w') (idx >>> 6) (w' = 0)
    else some t

/-- `AllocateSegmentId_NotThreadSafe`, MemoryManagerTreeArray.cpp:184-229. -/
def allocId (t : Tree) (id : Nat) : Option (Tree × Bool) :=
  if id ≥ t.max then some (t, false)
  else
    match t.word 0 (id >>> 6) with
    | none => none
    | some w =>
      let w' := clearBit w (id &&& 63)
      let t1 := t.setWord 0 (id >>> 6) w'
      if w &&& (1 <<< (id &&& 63)) ≠ 0 then
        (allocUp 5 1 t1 (id >>> 6) (w' = 0)).map fun t2 => ({ t2 with num := t2.num + 1 }, true)
      else some (t1, false)

/-- The rollback loop, MemoryManagerTreeArray.cpp:240-242. -/
def freeEach (t : Tree) : List Nat → Option Tree
  | [] => some t
  | id :: ids =>
    match freeId t id with
    | none => none
    | some (t', _) => freeEach t' ids

/-- `AllocateSegments_ThreadSafe`, MemoryManagerTreeArray.cpp:231-248, after the segments `got`
(in order) and with `n` to go: the vector and the result; the vector is empty on failure. -/
def allocLoop : Nat → Tree → List Nat → Option (Tree × List Nat × Bool)
  | 0, t, got => some (t, got, true)
  | n + 1, t, got =>
    match allocFirst t with
    | none => none
    | some (t', some id) => allocLoop n t' (got ++ [id])
    | some (t', none) => (freeEach t' got).map fun t2 => (t2, [], false)

/-- `AllocateSegments_ThreadSafe`, MemoryManagerTreeArray.cpp:231-248, for a vector of size `n`. -/
def allocSegments (t : Tree) (n : Nat) : Option (Tree × List Nat × Bool) := allocLoop n t []

/-- `FreeSegments_ThreadSafe`, MemoryManagerTreeArray.cpp:250-260. -/
def freeSegments (t : Tree) : List Nat → Option (Tree × Bool)
  | [] => some (t, true)
  | id :: ids =>
    match freeId t id with
    | none => none
    | some (t', ok) =>
      match freeSegments t' ids with
      | none => none
      | some (t'', ok') => some (t'', ok && ok')

end Hdtn.MemoryManager
