import Verif.HashMap16.Props

/-!
Model of `module/storage/src/BundleStorageCatalog.cpp` and `module/storage/src/CatalogEntry.cpp`.

`std::map` is a list of pairs in key order (`Verif.Common.OrdMap`), the three lookup tables are the
model of the fixed-size hash map (`Verif.HashMap16`), and the queues of custody identifiers are
plain lists, which `Verif.ForwardListQueue` shows the linked queue to be. The counters are
unbounded.
-/

namespace Hdtn.Catalog

open Hdtn.HashMap16

/-- What the catalog asks of a bundle's primary block (`PrimaryBlock.h`): the priority, the
expiration and the sequence number are `GetPriority()`, `GetExpirationSeconds()` and
`GetSequenceForSecondsScale()`. -/
structure Primary where
  custody : Bool
  fragment : Bool
  creation : Nat
  sequence : Nat
  src : Eid
  fragmentOffset : Nat
  dest : Eid
  priority : Nat
  expiration : Nat
  sequenceScale : Nat
deriving DecidableEq, Repr

/-- `GetCbheBundleUuidFragmentFromPrimary`, Bpv6CbhePrimaryBlock.cpp:306-314. -/
def Primary.uuid (p : Primary) (payloadSize : Nat) : Uuid :=
  ⟨p.creation, p.sequence, p.src, p.fragmentOffset, payloadSize⟩

/-- `GetCbheBundleUuidNoFragmentFromPrimary`, Bpv6CbhePrimaryBlock.cpp:315-321. -/
def Primary.uuidNoFrag (p : Primary) : UuidNoFrag := ⟨p.creation, p.sequence, p.src⟩

/-- `ptrUuidKeyInMap`: NULL or a pointer to a key inside one of the two tables. A node of a
forward list keeps its address and its key until it is erased, so the key itself stands for it. -/
inductive KeyPtr where
  | null
  | frag (u : Uuid)
  | noFrag (u : UuidNoFrag)
deriving DecidableEq, Repr

/-- `catalog_entry_t`, CatalogEntry.h:27-34. -/
structure Entry where
  bundleSize : Nat
  payloadSize : Nat
  segments : List Nat
  dest : Eid
  enc : Nat
  sequence : Nat
  keyPtr : KeyPtr
deriving DecidableEq, Repr

/-- Default constructor, CatalogEntry.cpp:18-23. -/
def Entry.default : Entry := ⟨0, 0, [], ⟨0, 0⟩, 0, 0, .null⟩

/-- `GetPriorityIndex`, CatalogEntry.cpp:84-86. -/
def Entry.priority (e : Entry) : Nat := e.enc &&& 3

/-- `GetAbsExpiration`, CatalogEntry.cpp:87-89. -/
def Entry.expiration (e : Entry) : Nat := e.enc >>> 4

/-- `HasCustodyAndFragmentation`, CatalogEntry.cpp:90-92. -/
def Entry.custodyFrag (e : Entry) : Bool := e.enc &&& 4 != 0

/-- `HasCustodyAndNonFragmentation`, CatalogEntry.cpp:93-95. -/
def Entry.custodyNoFrag (e : Entry) : Bool := e.enc &&& 8 != 0

/-- `HasCustody`, CatalogEntry.cpp:96-98. -/
def Entry.custody (e : Entry) : Bool := e.enc &&& 12 != 0

/-- The packed word written by `Init`, CatalogEntry.cpp:108-116. -/
def encode (p : Primary) : Nat :=
  let enc := p.priority ||| (p.expiration <<< 4) % U64
  if p.custody then
    if p.fragment then enc ||| 4 else enc ||| 8
  else enc

/-- `Init`, CatalogEntry.cpp:99-120, with the segment identifiers already filled in and no key
pointer yet; `mask` is the optional replacement of the destination. -/
def Entry.init (p : Primary) (bundleSize payloadSize : Nat) (segments : List Nat)
    (mask : Option Eid) : Entry :=
  { bundleSize := bundleSize
    payloadSize := payloadSize
    segments := segments
    dest := match mask with
      | none => p.dest
      | some d => d
    enc := encode p
    sequence := p.sequenceScale
    keyPtr := .null }

/-- `expirations_to_custids_map_t`, BundleStorageCatalog.h:41. -/
abbrev Expirations := List (Nat × List Nat)

/-- `priorities_to_expirations_array_t`, BundleStorageCatalog.h:42: indices below 3 only. -/
abbrev Priorities := Nat → Expirations

/-- `BundleStorageCatalog`, BundleStorageCatalog.h:105-116, without the custody-expiry bimap, which
no function uses. -/
structure Catalog where
  dests : List (Eid × Priorities)
  uuids : Table Uuid Nat
  uuidsNoFrag : Table UuidNoFrag Nat
  entries : Table Nat Entry
  numBundles : Nat
  numBytes : Nat
  totalWrites : Nat
  totalBytesWritten : Nat
  totalErases : Nat
  totalBytesErased : Nat

/-- The constructor, BundleStorageCatalog.cpp:20-26. -/
def Catalog.empty : Catalog :=
  ⟨[], Table.empty, Table.empty, Table.empty, 0, 0, 0, 0, 0, 0⟩

/-- `GetEntryFromCustodyId`, BundleStorageCatalog.cpp:322-324. -/
def Catalog.entry (c : Catalog) (id : Nat) : Option Entry := c.entries.get natLt hashU64 id

/-- `GetCustodyIdFromUuid`, BundleStorageCatalog.cpp:325-327. -/
def Catalog.idOfUuid (c : Catalog) (u : Uuid) : Option Nat := c.uuids.get Uuid.lt Uuid.hash u

/-- `GetCustodyIdFromUuid`, BundleStorageCatalog.cpp:328-330. -/
def Catalog.idOfUuidNoFrag (c : Catalog) (u : UuidNoFrag) : Option Nat :=
  c.uuidsNoFrag.get UuidNoFrag.lt UuidNoFrag.hash u

/-- `DUPLICATE_EXPIRY_ORDER`, BundleStorageCatalog.h:52-56. -/
inductive Order where
  | fifo
  | filo
  | sequence
deriving DecidableEq, Repr

/-- The insertion loop of `Insert_OrderBySequence`, BundleStorageCatalog.cpp:55-75. -/
def sequenceLoop (seqOf : Nat → Option Nat) (id mySeq : Nat) : List Nat → Option (List Nat)
  | [] => some [id]
  | x :: rest =>
    match seqOf x with
    | none => none
    | some s =>
      if mySeq < s then some (id :: x :: rest)
      else if s < mySeq then (sequenceLoop seqOf id mySeq rest).map (x :: ·)
      else none

/-- `Insert_OrderBySequence`, BundleStorageCatalog.cpp:32-77; `none` is a false result. -/
def insertBySequence (seqOf : Nat → Option Nat) (id mySeq : Nat) (q : List Nat) : Option (List Nat) :=
  match q.getLast? with
  | none => some [id]
  | some last =>
    match seqOf last with
    | none => none
    | some lastSeq =>
      if lastSeq < mySeq then some (q ++ [id]) else sequenceLoop seqOf id mySeq q

/-- The priority array of a destination, created empty if absent (`operator[]`),
BundleStorageCatalog.cpp:126. -/
def Catalog.prioritiesOf (c : Catalog) (d : Eid) : Priorities :=
  match OrdMap.lookup c.dests d with
  | some a => a
  | none => fun _ => []

/-- Assign one expiration map of one destination. -/
def Catalog.setExpirations (c : Catalog) (d : Eid) (p : Nat) (m : Expirations) : Catalog :=
  let a := c.prioritiesOf d
  { c with dests := OrdMap.upsert Eid.lt d (fun i => if i = p then m else a i) c.dests }

/-- `AddEntryToAwaitingSend`, BundleStorageCatalog.cpp:125-143, with `Insert_OrderByFifo` (:79-81)
and `Insert_OrderByFilo` (:83-85). Indexing the array of three priorities out of range is undefined
(`none`). When the insertion by sequence is refused the queue, if just created, stays empty in the
map. -/
def Catalog.addAwaiting (c : Catalog) (e : Entry) (id : Nat) (order : Order) :
    Option (Catalog × Bool) :=
  if e.priority < 3 then
    let m := c.prioritiesOf e.dest e.priority
    let q := match OrdMap.lookup m e.expiration with
      | some q => q
      | none => []
    let r : List Nat × Bool := match order with
      | .fifo => (q ++ [id], true)
      | .filo => (id :: q, true)
      | .sequence =>
        match insertBySequence (fun i => (c.entry i).map (·.sequence)) id e.sequence q with
        | none => (q, false)
        | some q' => (q', true)
    some (c.setExpirations e.dest e.priority (OrdMap.upsert natLt e.expiration r.1 m), r.2)
  else none

/-- `CatalogIncomingBundleForStore`, first part: BundleStorageCatalog.cpp:92-108. -/
def Catalog.registerUuid (c : Catalog) (e : Entry) (p : Primary) (id : Nat) :
    Option (Catalog × Entry) :=
  if p.custody then
    if p.fragment then
      match c.uuids.insert Uuid.lt Uuid.hash (p.uuid e.payloadSize) id with
      | none => none
      | some t => some ({ c with uuids := t }, { e with keyPtr := .frag (p.uuid e.payloadSize) })
    else
      match c.uuidsNoFrag.insert UuidNoFrag.lt UuidNoFrag.hash p.uuidNoFrag id with
      | none => none
      | some t => some ({ c with uuidsNoFrag := t }, { e with keyPtr := .noFrag p.uuidNoFrag })
  else some (c, e)

/-- `CatalogIncomingBundleForStore`, BundleStorageCatalog.cpp:91-124. -/
def Catalog.store (c : Catalog) (e : Entry) (p : Primary) (id : Nat) (order : Order) :
    Option (Catalog × Bool) :=
  match c.registerUuid e p id with
  | none => some (c, false)
  | some (c1, e1) =>
    match c1.addAwaiting e1 id order with
    | none => none
    | some (c2, false) => some (c2, false)
    | some (c2, true) =>
      match c2.entries.insert natLt hashU64 id e1 with
      | none => some (c2, false)
      | some t =>
        some ({ c2 with entries := t
                        numBundles := c2.numBundles + 1
                        numBytes := c2.numBytes + e1.bundleSize
                        totalWrites := c2.totalWrites + 1
                        totalBytesWritten := c2.totalBytesWritten + e1.bundleSize }, true)

/-- `ReturnEntryToAwaitingSend`, BundleStorageCatalog.cpp:144-147. -/
def Catalog.giveBack (c : Catalog) (e : Entry) (id : Nat) : Option (Catalog × Bool) :=
  c.addAwaiting e id .filo

/-- `RemoveEntryFromAwaitingSend`, BundleStorageCatalog.cpp:148-164, with the queue's
`remove_by_key`. -/
def Catalog.removeAwaiting (c : Catalog) (e : Entry) (id : Nat) : Option (Catalog × Bool) :=
  match OrdMap.lookup c.dests e.dest with
  | none => some (c, false)
  | some a =>
    if e.priority < 3 then
      match OrdMap.lookup (a e.priority) e.expiration with
      | none => some (c, false)
      | some q =>
        let q' := q.erase id
        some (c.setExpirations e.dest e.priority
          (if q' = [] then OrdMap.erase e.expiration (a e.priority)
           else OrdMap.upsert natLt e.expiration q' (a e.priority)), decide (id ∈ q))
    else none

/-- The destinations considered when endpoint identifiers are given,
BundleStorageCatalog.cpp:167-179. -/
def Catalog.byEid (c : Catalog) (avail : List Eid) : List Eid :=
  avail.filter fun d => (OrdMap.lookup c.dests d).isSome

/-- The destinations of one node: from `lower_bound` of service 0 while the node is the same,
BundleStorageCatalog.cpp:188-196. -/
def Catalog.ofNode (c : Catalog) (node : Nat) : List Eid :=
  (((c.dests.map (·.1)).dropWhile fun d => d.lt ⟨node, 0⟩).takeWhile fun d => d.node = node)

/-- The destinations considered when nodes are given, BundleStorageCatalog.cpp:182-199. -/
def Catalog.byNode (c : Catalog) (nodes : List Nat) : List Eid := nodes.flatMap c.ofNode

/-- The destinations considered for endpoints with or without a wildcard service,
BundleStorageCatalog.cpp:202-228. -/
def Catalog.byWildcard (c : Catalog) (avail : List (Eid × Bool)) : List Eid :=
  avail.flatMap fun p =>
    if p.2 then c.ofNode p.1.node
    else if (OrdMap.lookup c.dests p.1).isSome then [p.1] else []

/-- One step of the search for the earliest expiration, BundleStorageCatalog.cpp:240-253: the best
so far is the lowest expiration and where it was found. -/
def Catalog.better (c : Catalog) (p : Nat) (best : Nat × Option (Eid × List Nat)) (d : Eid) :
    Nat × Option (Eid × List Nat) :=
  match (c.prioritiesOf d p).head? with
  | none => best
  | some (x, q) => if best.1 > x then (x, some (d, q)) else best

/-- The outcome of taking a bundle. -/
inductive Pop where
  | undefined
  | nothing
  | taken (id : Nat) (e : Option Entry) (c : Catalog)

/-- `PopEntryFromAwaitingSend`, BundleStorageCatalog.cpp:229-266, for the priorities listed. -/
def Catalog.popLoop (c : Catalog) (dests : List Eid) : List Nat → Pop
  | [] => .nothing
  | p :: ps =>
    match dests.foldl (c.better p) (U64 - 1, none) with
    | (_, none) => c.popLoop dests ps
    | (x, some (d, q)) =>
      match q with
      | [] => .undefined
      | id :: rest =>
        let m := c.prioritiesOf d p
        .taken id (c.entry id)
          (c.setExpirations d p (if rest = [] then OrdMap.erase x m else OrdMap.upsert natLt x rest m))

/-- `PopEntryFromAwaitingSend`, BundleStorageCatalog.cpp:229-266: priorities from high to low. -/
def Catalog.pop (c : Catalog) (dests : List Eid) : Pop := c.popLoop dests [2, 1, 0]

/-- The last part of `Remove`, BundleStorageCatalog.cpp:293-318: forget the bundle identifier. The
pair is the error flag and the number of removals. -/
def Catalog.forgetUuid (c : Catalog) (e : Entry) (id : Nat) (error : Bool) (n : Nat) :
    Catalog × Bool × Nat :=
  let r1 : Catalog × Bool × Nat :=
    if e.custodyFrag then
      match e.keyPtr with
      | .frag u =>
        match c.uuids.remove Uuid.lt Uuid.hash u with
        | none => (c, true, n)
        | some (cid, t) => ({ c with uuids := t }, error || cid != id, n + 1)
      | _ => (c, true, n)
    else (c, error, n)
  if e.custodyNoFrag then
    match e.keyPtr with
    | .noFrag u =>
      match r1.1.uuidsNoFrag.remove UuidNoFrag.lt UuidNoFrag.hash u with
      | none => (r1.1, true, r1.2.2)
      | some (cid, t) => ({ r1.1 with uuidsNoFrag := t }, r1.2.1 || cid != id, r1.2.2 + 1)
    | _ => (r1.1, true, r1.2.2)
  else r1

/-- `Remove`, BundleStorageCatalog.cpp:271-321: the success flag and the number of removals. A
bundle that is not in the table leaves the default entry, which has no custody bits. -/
def Catalog.remove (c : Catalog) (id : Nat) (alsoAwaiting : Bool) :
    Option (Catalog × Bool × Nat) :=
  match c.entries.remove natLt hashU64 id with
  | none =>
    let r := c.forgetUuid Entry.default id true 0
    some (r.1, !r.2.1, r.2.2)
  | some (e, t) =>
    let c1 := { c with entries := t
                       numBundles := c.numBundles - 1
                       numBytes := c.numBytes - e.bundleSize
                       totalErases := c.totalErases + 1
                       totalBytesErased := c.totalBytesErased + e.bundleSize }
    if alsoAwaiting then
      match c1.removeAwaiting e id with
      | none => none
      | some (c2, ok) =>
        let r := c2.forgetUuid e id (!ok) (if ok then 2 else 1)
        some (r.1, !r.2.1, r.2.2)
    else
      let r := c1.forgetUuid e id false 1
      some (r.1, !r.2.1, r.2.2)

/-- `GetExpiredBundleIds`, the innermost loop, BundleStorageCatalog.cpp:343-349: the result so far
and whether the function has returned. -/
def pushIds (max : Nat) (st : List Nat × Bool) (ids : List Nat) : List Nat × Bool :=
  ids.foldl (fun st id =>
    if st.2 then st
    else (st.1 ++ [id], decide (max ≠ 0) && decide ((st.1 ++ [id]).length ≥ max))) st

/-- `GetExpiredBundleIds`, BundleStorageCatalog.cpp:332-359. -/
def Catalog.expiredIds (c : Catalog) (expiry max : Nat) : List Nat :=
  ([0, 1, 2].foldl (fun st p =>
    c.dests.foldl (fun st d =>
      ((d.2 p).takeWhile fun x => x.1 ≤ expiry).foldl (fun st x => pushIds max st x.2) st) st)
    ([], false)).1

end Hdtn.Catalog
