import Verif.Catalog.Props
import Verif.MemoryManager.Props

/-!
Model of `module/storage/src/BundleStorageManagerBase.cpp` and of the disk threads of
`module/storage/src/BundleStorageManagerMT.cpp`: bundles cut into segments on several disks.

The allocator is the model of `Verif.MemoryManager`, the catalog the one of `Verif.Catalog`. The
main thread runs one call after the other; a call that waits for a disk is cut into steps, and
between any two of them the disk threads may work. The circular buffer of a disk is a queue of at
most 29 jobs (`CIRCULAR_INDEX_BUFFER_SIZE` is 30 and one place stays empty, `Verif.CircularIndex`);
a step that would wait for room, or for a read to complete, is not possible until there is room or
the read is complete. A file is a list of blocks of `SEGMENT_SIZE` bytes; disk errors and blocks
written in part are not modelled. `none` is undefined behaviour or an impossible step.
-/

namespace Hdtn.Storage

open Hdtn.Catalog Hdtn.HashMap16

/-- The configuration: the number of disks, `STORAGE_SEGMENT_SIZE_MULTIPLE_OF_4KB`,
`sizeof(segment_id_t)` and `M_MAX_SEGMENTS`; BundleStorageConfig.h:32-69,
BundleStorageManagerBase.cpp:76-80. `parse` stands for loading the primary block of the bundle that
starts a segment, BundleStorageManagerBase.cpp:582-606: the codecs are modelled elsewhere. -/
structure Cfg where
  disks : Nat
  mult : Nat
  idBytes : Nat
  maxSegments : Nat
  parse : Bytes → Option Primary

/-- `SEGMENT_SIZE`, BundleStorageConfig.h:67. -/
def Cfg.segSize (cfg : Cfg) : Nat := 4096 * cfg.mult

/-- `SEGMENT_RESERVED_SPACE`, BundleStorageConfig.h:68. -/
def Cfg.reserved (cfg : Cfg) : Nat := 8 + 8 + cfg.idBytes + 8

/-- `BUNDLE_STORAGE_PER_SEGMENT_SIZE`, BundleStorageConfig.h:69. -/
def Cfg.perSeg (cfg : Cfg) : Nat := cfg.segSize - cfg.reserved

/-- `SEGMENT_ID_LAST`, BundleStorageConfig.h:37-50. -/
def Cfg.last (cfg : Cfg) : Nat := 256 ^ cfg.idBytes - 1

/-- Number of segments for a bundle, BundleStorageManagerBase.cpp:164, :608. -/
def Cfg.segsFor (cfg : Cfg) (size : Nat) : Nat :=
  size / cfg.perSeg + (if size % cfg.perSeg = 0 then 0 else 1)

/-- The bytes of a number, lowest first (`native_to_little`). -/
def le : Nat → Nat → Bytes
  | 0, _ => []
  | n + 1, v => UInt8.ofNat v :: le n (v / 256)

/-- The number from its bytes, lowest first (`little_to_native`). -/
def fromLe : Bytes → Nat
  | [] => 0
  | b :: bs => b.toNat + 256 * fromLe bs

/-- `StorageSegmentHeader`, BundleStorageManagerBase.cpp:34-41. -/
structure Header where
  size : Nat
  custody : Nat
  payload : Nat
  next : Nat
deriving DecidableEq, Repr

/-- The header as written, BundleStorageManagerBase.cpp:34-52, :221-222. -/
def Header.bytes (cfg : Cfg) (h : Header) : Bytes :=
  le 8 h.size ++ le 8 h.custody ++ le 8 h.payload ++ le cfg.idBytes h.next

/-- The header as read, BundleStorageManagerBase.cpp:53-58, :349-350. -/
def Header.read (cfg : Cfg) (b : Bytes) : Header :=
  { size := fromLe (b.take 8)
    custody := fromLe ((b.drop 8).take 8)
    payload := fromLe ((b.drop 16).take 8)
    next := fromLe ((b.drop 24).take cfg.idBytes) }

/-- One piece of work for a disk thread: a block to write, or a segment to read into a slot of the
session's read cache. -/
inductive Job where
  | write (seg : Nat) (block : Bytes)
  | read (seg : Nat) (slot : Nat)
deriving DecidableEq, Repr

/-- `fwrite` of one block: past the end of the file the gap is filled with zeros,
BundleStorageManagerMT.cpp:118-135. -/
def writeAt (cfg : Cfg) (file : List Bytes) (i : Nat) (block : Bytes) : List Bytes :=
  if i < file.length then file.set i block
  else file ++ List.replicate (i - file.length) (List.replicate cfg.segSize 0) ++ [block]

/-- The part of `BundleStorageManagerSession_ReadFromDisk` besides the cache; `ptr` is the bundle
`catalogEntryPtr` points to, `none` once that is NULL or dangling. -/
structure Session where
  ptr : Option Nat
  next : Nat
  nextCache : Nat
  readIdx : Nat
  writeIdx : Nat
deriving DecidableEq, Repr

/-- What the main thread is in the middle of: `PushAllSegments` with the number of segments pushed,
or `ReadAllSegments` / `ReadFirstSegment` with the number of segments to read, the number read, the
buffer and the number of bytes read. -/
inductive Main where
  | idle
  | pushing (e : Entry) (p : Primary) (id : Nat) (data : Bytes) (i : Nat)
  | reading (first : Bool) (id : Nat) (e : Entry) (count i : Nat) (buf : Bytes) (got : Nat)

/-- The storage manager, with one read session, as `ZmqStorageInterface` uses it
(ZmqStorageInterface.cpp:174). `taken` is not in the code: the bundles the user has taken and not
yet given back or removed. -/
structure State where
  tree : MemoryManager.Tree
  cat : Catalog
  queues : Nat → List Job
  files : Nat → List Bytes
  cache : Nat → Bytes
  ready : Nat → Bool
  sess : Session
  main : Main
  taken : List Nat

/-- An empty store, BundleStorageManagerBase.cpp:76-125; the read cache is not initialised. -/
def init (cfg : Cfg) : State :=
  { tree := MemoryManager.Tree.new cfg.maxSegments
    cat := Catalog.empty
    queues := fun _ => []
    files := fun _ => []
    cache := fun _ => []
    ready := fun _ => false
    sess := ⟨none, 0, 0, 0, 0⟩
    main := .idle
    taken := [] }

/-- What the calls return; `stored` and `duplicate` are both reported as success to the caller of
`PushAllSegments`: the result of the catalog is dropped, BundleStorageManagerBase.cpp:226-228. -/
inductive Out where
  | refused (id : Nat)
  | stored (id : Nat) (data : Bytes)
  | duplicate (id : Nat)
  | nothing
  | took (id size : Nat)
  | gaveBack (id : Nat) (ok : Bool)
  | read (id : Nat) (data : Bytes) (ok : Bool)
  | first (id : Nat) (data : Bytes) (ok : Bool)
  | removed (id : Nat) (ok : Bool)
  | restored (bundles bytes segments : Nat)
  | notRestored
deriving DecidableEq, Repr

/-- A job is put in the queue of the disk of its segment if there is room,
BundleStorageManagerBase.cpp:193-206, `CommitWriteAndNotifyDiskOfWorkToDo_ThreadSafe`. -/
def State.enqueue (cfg : Cfg) (s : State) (seg : Nat) (j : Job) : Option State :=
  if (s.queues (seg % cfg.disks)).length < 29 then
    some { s with queues := fun d => if d = seg % cfg.disks then s.queues d ++ [j] else s.queues d }
  else none

/-- One turn of a disk thread, BundleStorageManagerMT.cpp:83-163. A read past the end of the file
fails and leaves the slot as it was, but is reported as complete. -/
def tick (cfg : Cfg) (s : State) (d : Nat) : Option State :=
  match s.queues d with
  | [] => none
  | .write seg block :: rest =>
    if seg = cfg.last then none
    else some { s with
      queues := fun d' => if d' = d then rest else s.queues d'
      files := fun d' => if d' = d then writeAt cfg (s.files d) (seg / cfg.disks) block else s.files d' }
  | .read seg slot :: rest =>
    if seg = cfg.last then none
    else some { s with
      queues := fun d' => if d' = d then rest else s.queues d'
      cache := fun k => if k = slot then
          (match (s.files d)[seg / cfg.disks]? with
           | some b => b
           | none => s.cache k)
        else s.cache k
      ready := fun k => if k = slot then true else s.ready k }

/-- `Push`, BundleStorageManagerBase.cpp:160-175, and the test of its result by the callers,
ZmqStorageInterface.cpp:438-442, :867-880. -/
def store (cfg : Cfg) (s : State) (p : Primary) (data : Bytes) (payloadSize : Nat)
    (mask : Option Eid) (id : Nat) : Option (State × List Out) :=
  match MemoryManager.allocSegments s.tree (cfg.segsFor data.length) with
  | none => none
  | some (t, segs, ok) =>
    if ok && decide (cfg.segsFor data.length ≠ 0) then
      some ({ s with tree := t, main := .pushing (Entry.init p data.length payloadSize segs mask) p id data 0 }, [])
    else some ({ s with tree := t }, [.refused id])

/-- The header `PushSegment` writes, BundleStorageManagerBase.cpp:186-190, :219-220. -/
def pushHeader (cfg : Cfg) (e : Entry) (id i : Nat) : Header :=
  { size := if i = 0 then e.bundleSize else U64 - 1
    custody := id
    payload := if i = 0 then e.payloadSize else U64 - 1
    next := match e.segments[i + 1]? with
      | some n => n
      | none => cfg.last }

/-- Bytes of the bundle in segment `i`, BundleStorageManagerBase.cpp:240-247. -/
def chunkSize (cfg : Cfg) (total n i : Nat) : Nat :=
  if i + 1 = n ∧ total % cfg.perSeg ≠ 0 then total % cfg.perSeg else cfg.perSeg

/-- One turn of the loop of `PushAllSegments`, BundleStorageManagerBase.cpp:232-254, with
`PushSegment`, :177-231. What is in the rest of the block is what happens to be in the circular
buffer: `junk`. -/
def push (cfg : Cfg) (s : State) (junk : Bytes) : Option (State × List Out) :=
  match s.main with
  | .pushing e p id data i =>
    match e.segments[i]? with
    | none => none
    | some seg =>
      let size := chunkSize cfg data.length e.segments.length i
      let block := (pushHeader cfg e id i).bytes cfg ++ (data.drop (i * cfg.perSeg)).take size ++ junk
      if data.length < i * cfg.perSeg + size ∨ block.length ≠ cfg.segSize then none
      else
        match s.enqueue cfg seg (.write seg block) with
        | none => none
        | some s1 =>
          if i + 1 = e.segments.length then
            match s1.cat.store e p id .fifo with
            | none => none
            | some (c, true) => some ({ s1 with cat := c, main := .idle }, [.stored id data])
            | some (c, false) => some ({ s1 with cat := c, main := .idle }, [.duplicate id])
          else some ({ s1 with main := .pushing e p id data (i + 1) }, [])
  | _ => none

/-- `PopTop`, BundleStorageManagerBase.cpp:255-293. -/
def take (s : State) (sel : Selection) : Option (State × List Out) :=
  match s.cat.pop (s.cat.select sel) with
  | .undefined => none
  | .nothing => some ({ s with sess := { s.sess with ptr := none } }, [.nothing])
  | .taken id none c =>
    some ({ s with cat := c, taken := id :: s.taken, sess := { s.sess with ptr := none } }, [.nothing])
  | .taken id (some e) c =>
    some ({ s with cat := c, taken := id :: s.taken, sess := ⟨some id, 0, 0, 0, 0⟩ }, [.took id e.bundleSize])

/-- `ReturnCustodyIdToAwaitingSend`, BundleStorageManagerBase.cpp:300-305; `ReturnTop`, :296-298,
does the same for the bundle of the session. -/
def giveBack (s : State) (id : Nat) : Option (State × List Out) :=
  match s.cat.entry id with
  | none => some (s, [.gaveBack id false])
  | some e =>
    match s.cat.giveBack e id with
    | none => none
    | some (c, ok) => some ({ s with cat := c, taken := s.taken.erase id }, [.gaveBack id ok])

/-- The start of `ReadAllSegments`, BundleStorageManagerBase.cpp:414-419. -/
def readAll (s : State) : Option (State × List Out) :=
  match s.sess.ptr with
  | none => none
  | some id =>
    match s.cat.entry id with
    | none => none
    | some e =>
      if e.segments.length = 0 then
        some (s, [.read id (List.replicate e.bundleSize 0) (decide (e.bundleSize = 0))])
      else
        some ({ s with main := .reading false id e e.segments.length 0 (List.replicate e.bundleSize 0) 0 }, [])

/-- The start of `ReadFirstSegment`, BundleStorageManagerBase.cpp:393-411, on the entry of a
bundle. -/
def readFirst (cfg : Cfg) (s : State) (id : Nat) : Option (State × List Out) :=
  match s.cat.entry id with
  | none => some (s, [.first id [] false])
  | some e =>
    if e.segments.length = 0 then
      some ({ s with sess := ⟨some id, 0, 0, 0, 0⟩ }, [.first id [] false])
    else
      some ({ s with
        sess := ⟨some id, 0, 0, 0, 0⟩
        main := .reading true id e 1 0 (List.replicate (min e.bundleSize cfg.perSeg) 0) 0 }, [])

/-- The condition of the read-ahead loop, BundleStorageManagerBase.cpp:313-314. -/
def ahead (ss : Session) (e : Entry) : Bool :=
  decide (ss.nextCache - ss.next < 50) && decide (ss.nextCache < e.segments.length)

/-- One turn of the read-ahead loop of `TopSegment`, BundleStorageManagerBase.cpp:313-340. -/
def cacheNext (cfg : Cfg) (s : State) : Option (State × List Out) :=
  match s.main with
  | .reading _ _ e _ _ _ _ =>
    if ahead s.sess e then
      match e.segments[s.sess.nextCache]? with
      | none => none
      | some seg =>
        match s.enqueue cfg seg (.read seg s.sess.writeIdx) with
        | none => none
        | some s1 =>
          some ({ s1 with
            ready := fun k => if k = s.sess.writeIdx then false else s.ready k
            sess := { s.sess with nextCache := s.sess.nextCache + 1
                                  writeIdx := (s.sess.writeIdx + 1) % 50 } }, [])
    else none
  | _ => none

/-- Copy into the buffer of the caller. -/
def overlay (buf : Bytes) (off : Nat) (bs : Bytes) : Bytes :=
  buf.take off ++ bs ++ buf.drop (off + bs.length)

/-- The rest of `TopSegment`, BundleStorageManagerBase.cpp:342-391, once the read is complete, and
of the loops that call it, :407-408, :420-423. The errors noticed are only logged. Copying past the
end of the buffer is undefined. -/
def consume (cfg : Cfg) (s : State) : Option (State × List Out) :=
  match s.main with
  | .reading first id e count i buf got =>
    if ahead s.sess e || !s.ready s.sess.readIdx || decide (s.sess.next ≥ e.segments.length) then none
    else
      let block := s.cache s.sess.readIdx
      let h := Header.read cfg block
      let size := if h.next = cfg.last ∧ e.bundleSize % cfg.perSeg ≠ 0 then e.bundleSize % cfg.perSeg
        else cfg.perSeg
      let bytes := (block.drop cfg.reserved).take size
      if buf.length < i * cfg.perSeg + size then none
      else
        let buf' := overlay buf (i * cfg.perSeg) bytes
        let s1 := { s with sess := { s.sess with next := s.sess.next + 1
                                                 readIdx := (s.sess.readIdx + 1) % 50 } }
        if i + 1 = count then
          let ok := decide (got + size = buf.length)
          some ({ s1 with main := .idle }, [if first then .first id buf' ok else .read id buf' ok])
        else some ({ s1 with main := .reading first id e count (i + 1) buf' (got + size) }, [])
  | _ => none

/-- `RemoveBundleFromDisk`, BundleStorageManagerBase.cpp:426-443 (`awaiting`), or
`RemoveReadBundleFromDisk`, :444-495: the head of the bundle is overwritten by a block that starts
with `UINT64_MAX`, the rest being what happens to be in the circular buffer. -/
def remove (cfg : Cfg) (s : State) (id : Nat) (awaiting : Bool) (junk : Bytes) :
    Option (State × List Out) :=
  match s.cat.entry id with
  | none => some (s, [.removed id false])
  | some e =>
    match (if awaiting then (s.cat.removeAwaiting e id).map (·.1) else some s.cat), e.segments[0]? with
    | some c1, some seg =>
      let block := le 8 (U64 - 1) ++ junk
      if block.length ≠ cfg.segSize then none
      else
        match s.enqueue cfg seg (.write seg block) with
        | none => none
        | some s1 =>
          match MemoryManager.freeSegments s.tree e.segments, c1.remove id false with
          | some (t, ok1), some (c2, ok2, _) =>
            some ({ s1 with
              tree := t
              cat := c2
              taken := s.taken.erase id
              sess := { s.sess with ptr := if s.sess.ptr = some id then none else s.sess.ptr } },
              [.removed id (ok2 && ok1)])
          | _, _ => none
    | _, _ => none

/-- The block of a segment, BundleStorageManagerBase.cpp:550-573. -/
def readBlock (cfg : Cfg) (files : Nat → List Bytes) (seg : Nat) : Option Bytes :=
  (files (seg % cfg.disks))[seg / cfg.disks]?

/-- The segments of one bundle in `RestoreFromDisk`, BundleStorageManagerBase.cpp:549-573 and
:614-651, from segment `seg` with `k` to go: the allocator, and the chain unless the bundle is
found to be inconsistent (`return false`). -/
def chain (cfg : Cfg) (files : Nat → List Bytes) (custody : Nat) :
    Nat → MemoryManager.Tree → Nat → List Nat → Option (MemoryManager.Tree × Option (List Nat))
  | 0, t, _, _ => some (t, none)
  | k + 1, t, seg, got =>
    match readBlock cfg files seg with
    | none => some (t, none)
    | some b =>
      let h := Header.read cfg b
      if h.custody ≠ custody then some (t, none)
      else
        match MemoryManager.isFree t seg with
        | none => none
        | some false => some (t, none)
        | some true =>
          match MemoryManager.allocId t seg with
          | none => none
          | some (t', false) => some (t', none)
          | some (t', true) =>
            if k = 0 then
              if h.next ≠ cfg.last then some (t', none) else some (t', some (got ++ [seg]))
            else if h.next = cfg.last then some (t', none)
            else chain cfg files custody k t' h.next (got ++ [seg])

/-- How `RestoreFromDisk` ends. -/
inductive Restore where
  | undefined
  | hangs
  | failed (t : MemoryManager.Tree) (c : Catalog)
  | done (t : MemoryManager.Tree) (c : Catalog) (bundles bytes segments : Nat)

/-- The main loop of `RestoreFromDisk`, BundleStorageManagerBase.cpp:535-653, from segment `id`, with
`f` segments to go below the capacity. The loop ends only at a free segment that is not in its file;
from the capacity on no segment is free, so the counter runs on, wraps, finds the same again and the
function never returns. -/
def scan (cfg : Cfg) (files : Nat → List Bytes) :
    Nat → Nat → MemoryManager.Tree → Catalog → Nat → Nat → Nat → Restore
  | 0, _, _, _, _, _, _ => .hangs
  | f + 1, id, t, c, bundles, bytes, segments =>
    match MemoryManager.isFree t id with
    | none => .undefined
    | some false => scan cfg files f (id + 1) t c bundles bytes segments
    | some true =>
      match readBlock cfg files id with
      | none => .done t c bundles bytes segments
      | some b =>
        let h := Header.read cfg b
        if h.size = U64 - 1 then scan cfg files f (id + 1) t c bundles bytes segments
        else
          match cfg.parse (b.drop cfg.reserved) with
          | none => .failed t c
          | some p =>
            match chain cfg files h.custody (cfg.segsFor h.size) t id [] with
            | none => .undefined
            | some (t', none) => .failed t' c
            | some (t', some segs) =>
              match c.store (Entry.init p h.size h.payload segs none) p h.custody .fifo with
              | none => .undefined
              | some (c', _) =>
                scan cfg files f (id + 1) t' c' (bundles + 1) (bytes + h.size)
                  (segments + cfg.segsFor h.size)

/-- `RestoreFromDisk`, BundleStorageManagerBase.cpp:510-660. -/
def restore (cfg : Cfg) (files : Nat → List Bytes) : Restore :=
  scan cfg files cfg.maxSegments 0 (MemoryManager.Tree.new cfg.maxSegments) Catalog.empty 0 0 0

/-- A process starting on the files of an earlier one with `m_tryToRestoreFromDisk`,
BundleStorageManagerBase.cpp:104-106. If the files could be restored they are opened as they are,
otherwise they are emptied, BundleStorageManagerMT.cpp:94-99, while the allocator and the catalog
keep what had been restored before the failure. -/
def reboot (cfg : Cfg) (files : Nat → List Bytes) : Option (State × List Out) :=
  match restore cfg files with
  | .undefined => none
  | .hangs => none
  | .failed t c => some ({ init cfg with tree := t, cat := c }, [.notRestored])
  | .done t c n b k => some ({ init cfg with tree := t, cat := c, files := files }, [.restored n b k])

/-- What can happen. -/
inductive Act where
  | tick (d : Nat)
  | store (p : Primary) (data : Bytes) (payloadSize : Nat) (mask : Option Eid) (id : Nat)
  | push (junk : Bytes)
  | take (sel : Selection)
  | giveBack (id : Nat)
  | readAll
  | readFirst (id : Nat)
  | cacheNext
  | consume
  | remove (id : Nat) (awaiting : Bool) (junk : Bytes)
  | restart
  | crash

/-- No call is going on. -/
def State.isIdle (s : State) : Bool :=
  match s.main with
  | .idle => true
  | _ => false

/-- No disk has work to do. -/
def State.drained (cfg : Cfg) (s : State) : Bool :=
  (List.range cfg.disks).all fun d => (s.queues d).isEmpty

/-- One step. Calls begin when none is going on. A restart in good order is one after the disk
threads have emptied their queues (BundleStorageManagerMT.cpp:54-69, :106-122); a crash may come at
any time and loses what is in the queues. -/
def step (cfg : Cfg) (s : State) : Act → Option (State × List Out)
  | .tick d => (tick cfg s d).map fun s' => (s', [])
  | .store p data payloadSize mask id => if s.isIdle then store cfg s p data payloadSize mask id else none
  | .push junk => push cfg s junk
  | .take sel => if s.isIdle then take s sel else none
  | .giveBack id => if s.isIdle then giveBack s id else none
  | .readAll => if s.isIdle then readAll s else none
  | .readFirst id => if s.isIdle then readFirst cfg s id else none
  | .cacheNext => cacheNext cfg s
  | .consume => consume cfg s
  | .remove id awaiting junk => if s.isIdle then remove cfg s id awaiting junk else none
  | .restart => if s.isIdle && s.drained cfg then reboot cfg s.files else none
  | .crash => reboot cfg s.files

end Hdtn.Storage
