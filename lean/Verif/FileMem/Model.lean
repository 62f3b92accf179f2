import Verif.Base

/-!
Model of `MemoryInFiles`, /repo/common/util/src/MemoryInFiles.cpp ("File.cpp" below): blocks of memory that are kept in files, with which LTP keeps the
data of its sessions on disk.

All calls and completions come from one thread. A request is described by one or more operations on files; those on one file are done in order, those on
different files in any order. The memory that a caller writes from is taken to stay as it is until the operation is done; sizes of files and counts of operations,
blocks and files are not bounded.
-/

namespace Hdtn.FileMem

/-- `MemoryBlockFragmentInfo`, File.cpp:352-367: a part of a file. -/
structure Frag where
  file : Nat
  base : Nat
  len : Nat
deriving DecidableEq, Repr

/-- `MemoryBlockInfo`, File.cpp:370-417. `refs` is `m_queuedOperationsReferenceCount`. -/
structure Block where
  frags : List Frag
  size : Nat
  refs : Nat
  marked : Bool
deriving DecidableEq, Repr

/-- `io_operation_t`, File.cpp:219-262, in the queue of a file. `data` is what is written, and absent in a read operation. `handle` stands for the shared
pointer to the completion handler; `slot` and `pos` tell where the memory of the operation is: in which of the requests that have this handler, and at which
position. -/
structure Op where
  file : Nat
  block : Nat
  offset : Nat
  len : Nat
  data : Option Bytes
  handle : Nat
  slot : Nat
  pos : Nat
deriving DecidableEq, Repr

/-- A file on the disk: what was written, and its size. -/
structure File where
  size : Nat
  data : Nat → Option UInt8

/-- `bs` is written at `off`. -/
def File.write (f : File) (off : Nat) (bs : Bytes) : File :=
  { size := if bs = [] then f.size else max f.size (off + bs.length)
    data := fun o => if off ≤ o ∧ o < off + bs.length then bs[o - off]? else f.data o }

/-- The byte at `o`; a byte that was never written is zero, and beyond the end there is none. -/
def File.get (f : File) (o : Nat) : Option UInt8 := if o < f.size then some ((f.data o).getD 0) else none

/-- How the creation of a file ends: it is there already; it cannot be opened; or it is fine. -/
inductive Disk
  | exists
  | closed
  | fine
deriving DecidableEq, Repr

/-- The calls. A write request has a block, an offset, and the bytes; a read request a block, an offset, and a length. `disk` tells how the creation of a
file would end, if one is needed. -/
inductive Api
  | alloc (size : Nat) (disk : Disk)
  | resize (block size : Nat) (disk : Disk)
  | delete (block : Nat)
  | write (reqs : List (Nat × Nat × Bytes))
  | read (reqs : List (Nat × Nat × Nat))
deriving DecidableEq, Repr

/-- What they return. Requests with handlers are counted, to tell them apart. -/
inductive Res
  | size (n : Nat)
  | done (ok : Bool)
  | request (handle : Nat) (ok : Bool)
deriving DecidableEq, Repr

/-- The state. `ops` are the operations in the queues of all files, in the order in which they came; the queue of a file is the part that is about it.
`valid` is `m_valid` of the files. The members from `buffer` on are not in the program: what was read, by handler, request and position; the handlers
that were called, with what; all calls and results, the last one first; and whether a block was used that was not there. -/
structure Mem where
  blocks : Nat → Option Block
  current : Option Nat
  nextOffset : Nat
  nextBlock : Nat
  nextFile : Nat
  nextHandle : Nat
  valid : Nat → Bool
  disk : Nat → File
  ops : List Op
  posted : List Nat
  buffer : Nat → Nat → Nat → Option UInt8
  calls : List (Nat × Bool)
  trace : List (Api × Res)
  fault : Bool

/-- `Impl`, File.cpp:697-726. -/
def Mem.start : Mem :=
  ⟨fun _ => none, none, 0, 1, 0, 0, fun _ => false, fun _ => ⟨0, fun _ => none⟩, [], [], fun _ _ _ => none, [], [], false⟩

/-- `CeilToNearestBlockMultiple`, File.cpp:48-54. -/
def ceil (n : Nat) : Nat := (n / 4096 + if n % 4096 ≠ 0 then 1 else 0) * 4096 % U64

/-- `SetupNextFileIfNeeded`, File.cpp:744-762. -/
def Mem.setup (m : Mem) (disk : Disk) : Bool × Mem :=
  match m.current with
  | some _ => (true, m)
  | none =>
    match disk with
    | .exists => (false, { m with nextOffset := 0, nextFile := m.nextFile + 1 })
    | .closed =>
      (true, { m with nextOffset := 0, nextFile := m.nextFile + 1, current := some m.nextFile, valid := fun f => if f = m.nextFile then false else m.valid f })
    | .fine =>
      (true, { m with nextOffset := 0, nextFile := m.nextFile + 1, current := some m.nextFile, valid := fun f => if f = m.nextFile then true else m.valid f })

/-- `MemoryBlockInfo::Resize`, File.cpp:682-695; the increase, and the block. -/
def Block.grow (b : Block) (file base newSize : Nat) : Nat × Block :=
  if newSize ≤ b.size then (0, b)
  else (newSize - b.size, { b with size := newSize, frags := b.frags ++ [⟨file, base, newSize - b.size⟩] })

/-- `Impl::Resize` for a block that is there, File.cpp:793-801. -/
def Mem.resizeBlock (m : Mem) (id size : Nat) (disk : Disk) (b : Block) : Nat × Mem :=
  match m.setup disk with
  | (false, m) => (0, m)
  | (true, m) =>
    match m.current with
    | none => (0, m)
    | some c =>
      let r := b.grow c m.nextOffset (ceil size)
      (ceil size, { m with
        blocks := fun i => if i = id then some r.2 else m.blocks i
        nextOffset := m.nextOffset + r.1 })

/-- `AllocateNewWriteMemoryBlock`, File.cpp:764-784. -/
def Mem.alloc (m : Mem) (size : Nat) (disk : Disk) : Nat × Mem :=
  let id := m.nextBlock
  let b : Block := ⟨[], 0, 0, false⟩
  let r := ({ m with nextBlock := id + 1, blocks := fun i => if i = id then some b else m.blocks i } : Mem).resizeBlock id size disk b
  (if r.1 = 0 then 0 else id, r.2)

/-- `Resize`, File.cpp:785-792. -/
def Mem.resize (m : Mem) (id size : Nat) (disk : Disk) : Nat × Mem :=
  match m.blocks id with
  | none => (0, m)
  | some b => m.resizeBlock id size disk b

/-- `GetSizeOfMemoryBlock`, File.cpp:802-809. -/
def Mem.sizeOf (m : Mem) (id : Nat) : Nat :=
  match m.blocks id with
  | none => 0
  | some b => b.size

/-- The block is erased from the map. -/
def Mem.erase (m : Mem) (id : Nat) : Mem := { m with blocks := fun i => if i = id then none else m.blocks i }

/-- `DeleteMemoryBlock`, File.cpp:818-834; `AsyncDeleteMemoryBlock` is the same later. -/
def Mem.delete (m : Mem) (id : Nat) : Bool × Mem :=
  match m.blocks id with
  | none => (false, m)
  | some b =>
    if b.refs ≠ 0 then
      if b.marked then (false, m)
      else (true, { m with blocks := fun i => if i = id then some { b with marked := true } else m.blocks i })
    else (true, m.erase id)

/-- The operations of a request for the bytes from `off` to `stop`, File.cpp:861-903: for each fragment that overlaps, its file, offset, length, and the
position in the memory of the caller. Two ranges overlap if one ends where the other begins. -/
def pieces (off stop : Nat) : Nat → Nat → List Frag → List (Nat × Nat × Nat × Nat)
  | _, _, [] => []
  | start, pos, f :: fs =>
    let ends := start + f.len
    if off ≤ ends ∧ start ≤ stop then
      let b := max start off
      let len := (min ends stop + U64 - b) % U64
      (f.file, f.base + (b - start), len, pos) :: pieces off stop ends (pos + len) fs
    else pieces off stop ends pos fs

/-- `FileInfo::WriteMemoryAsync` and `ReadMemoryAsync`, File.cpp:586-593 and 611-618, for all operations of a request, until one fails. -/
def Mem.enqueue (m : Mem) (id : Nat) (data : Option Bytes) (handle slot : Nat) : List (Nat × Nat × Nat × Nat) → Bool × Mem
  | [] => (true, m)
  | (file, offset, len, pos) :: ps =>
    if m.valid file then
      let m : Mem := { m with
        ops := m.ops ++ [⟨file, id, offset, len, data.map fun d => (d.drop pos).take len, handle, slot, pos⟩]
        blocks := fun i => if i = id then (m.blocks i).map fun b => { b with refs := b.refs + 1 } else m.blocks i }
      m.enqueue id data handle slot ps
    else (false, m)

/-- `DoWriteOrRead` and its callers, File.cpp:846-936. -/
def Mem.request (m : Mem) (id off len : Nat) (data : Option Bytes) (handle slot : Nat) : Bool × Mem :=
  match m.blocks id with
  | none => (false, m)
  | some b =>
    if b.marked then (false, m)
    else if (off + len) % U64 > b.size then (false, m)
    else m.enqueue id data handle slot (pieces off ((off + len) % U64) 0 0 b.frags)

/-- Several requests with one handler, File.cpp:921-928 and 937-944. -/
def Mem.requests (m : Mem) (handle : Nat) : Nat → List (Nat × Nat × Nat × Option Bytes) → Bool × Mem
  | _, [] => (true, m)
  | slot, (id, off, len, data) :: rs =>
    match m.request id off len data handle slot with
    | (false, m) => (false, m)
    | (true, m) => m.requests handle (slot + 1) rs

/-- A write request, `deferred_write_t`, as one kind with read requests. -/
def ofWrite (r : Nat × Nat × Bytes) : Nat × Nat × Nat × Option Bytes := (r.1, r.2.1, r.2.2.length, some r.2.2)

/-- A read request, `deferred_read_t`. -/
def ofRead (r : Nat × Nat × Nat) : Nat × Nat × Nat × Option Bytes := (r.1, r.2.1, r.2.2, none)

/-- A call. -/
def Mem.call (m : Mem) (a : Api) : Mem :=
  match a with
  | .alloc size disk => let r := m.alloc size disk; { r.2 with trace := (a, .size r.1) :: m.trace }
  | .resize id size disk => let r := m.resize id size disk; { r.2 with trace := (a, .size r.1) :: m.trace }
  | .delete id => let r := m.delete id; { r.2 with trace := (a, .done r.1) :: m.trace }
  | .write reqs =>
    let r := m.requests m.nextHandle 0 (reqs.map ofWrite)
    { r.2 with nextHandle := m.nextHandle + 1, trace := (a, .request m.nextHandle r.1) :: m.trace }
  | .read reqs =>
    let r := m.requests m.nextHandle 0 (reqs.map ofRead)
    { r.2 with nextHandle := m.nextHandle + 1, trace := (a, .request m.nextHandle r.1) :: m.trace }

/-- What an operation does to the disk. -/
def Op.apply (disk : Nat → File) (op : Op) : Nat → File :=
  match op.data with
  | none => disk
  | some bs => fun f => if f = op.file then (disk f).write op.offset bs else disk f

/-- What an operation reads. -/
def Op.fetch (op : Op) (disk : Nat → File) (buffer : Nat → Nat → Nat → Option UInt8) : Nat → Nat → Nat → Option UInt8 :=
  match op.data with
  | some _ => buffer
  | none => fun h k i =>
    if h = op.handle ∧ k = op.slot ∧ op.pos ≤ i ∧ i < op.pos + op.len then
      match (disk op.file).get (op.offset + (i - op.pos)) with
      | some b => some b
      | none => buffer h k i
    else buffer h k i

/-- `FinishCompletionHandler`, File.cpp:635-645. -/
def Mem.finish (m : Mem) (op : Op) : Mem :=
  match m.blocks op.block with
  | none => { m with fault := true }
  | some b =>
    { m with
      blocks := fun i => if i = op.block then some { b with refs := b.refs - 1 } else m.blocks i
      posted := if b.marked ∧ b.refs - 1 = 0 then m.posted ++ [op.block] else m.posted
      ops := m.ops.eraseP fun o => o.file = op.file }

/-- `HandleDiskWriteCompleted` and `HandleDiskReadCompleted`, File.cpp:594-634: the first operation of the file has ended, with an error or without. The
end of the file is an error, too. Of an operation with another error nothing is done (in the program a part may be). If this is the last operation with
its handler, the handler is called, which may make the calls `inner`. -/
def Mem.complete (m : Mem) (file : Nat) (error : Bool) (inner : List Api) : Mem :=
  match m.ops.find? fun o => o.file = file with
  | none => m
  | some op =>
    let last := decide (m.ops.countP (fun o => o.handle = op.handle) = 1)
    let short := op.data.isNone && decide (op.len ≠ 0) && decide ((m.disk file).size < op.offset + op.len)
    let m1 : Mem := if error then m else { m with disk := op.apply m.disk, buffer := op.fetch m.disk m.buffer }
    let m2 : Mem :=
      if last && (op.data.isNone || !error) then inner.foldl Mem.call { m1 with calls := m1.calls ++ [(op.handle, !error && !short)] }
      else m1
    m2.finish op

/-- `ForceDeleteMemoryBlock`, File.cpp:810-817, which was posted. -/
def Mem.force (m : Mem) : Mem :=
  match m.posted with
  | [] => m
  | id :: rest => { m.erase id with posted := rest }

/-- What happens: a call; an operation ends; a deletion that was posted; the timer for a new file, File.cpp:654-660. -/
inductive Ev
  | call (a : Api)
  | complete (file : Nat) (error : Bool) (inner : List Api)
  | force
  | timer
deriving DecidableEq, Repr

/-- One event. -/
def Mem.step (m : Mem) : Ev → Mem
  | .call a => m.call a
  | .complete file error inner => m.complete file error inner
  | .force => m.force
  | .timer => { m with current := none }

/-- A history. -/
def Mem.run (m : Mem) (es : List Ev) : Mem := es.foldl Mem.step m

end Hdtn.FileMem
