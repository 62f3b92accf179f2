import Verif.HashMap16.Model

/-!
Model of a whole HDTN node: the modules ingress, storage and egress, and the message queues between them.

 - receive.cpp = /repo/module/ingress/src/receive.cpp
 - EgressAsync.cpp = /repo/module/egress/src/EgressAsync.cpp
 - ZmqStorageInterface.cpp = /repo/module/storage/src/ZmqStorageInterface.cpp
 - OutductManager.cpp = /repo/common/outduct_manager/src/OutductManager.cpp

A state holds what the three modules hold and what is in the queues; an action is one step of one thread: a message taken from
a queue, a bundle that comes in, a callback of an outduct, a message of the router. Every interleaving of the threads is a
sequence of actions.

Simplifications:
 - There are no opportunistic links, no bundles for the router and no echo or ping; bundles are not fragmented and
   administrative records are not modelled (see Ingress7, CustodyManager, Bpv6Fragment). A bundle is its identity, its size,
   the node it goes to, its priority and whether custody is requested.
 - Messages that carry no bundle are never lost. Messages that carry one are lost exactly as a whole (header and bundle), when
   the queue is full, where the code asks for that (`zmq::send_flags::dontwait`): this is chosen by the action. The messages
   with which egress gives bundles back to storage are not lost.
 - The unique ids of ingress and the counters of bytes are natural numbers: they do not wrap around. The difference from which
   storage computes the room that is left does.
 - The maps from ids to sizes hold the bundle instead of its size: this is for the statements only.
 - The disk is a list of bundles with custody ids. Which bundle is read next, whether there is room, and which new custody id
   is given out is chosen by the action, in the way that the models Catalog, MemoryManager and CustodyId allow it.
 - A bundle is read from the disk whenever it is to be sent (see Storage).
 - A custody signal for a bundle comes after the acknowledgement of egress that it was sent, and the timer of a bundle runs out
   whenever it wants to.
-/

namespace Hdtn.Node

/-- A bundle, as the modules see it: `key` tells bundles apart. -/
structure Bundle where
  key : Nat
  size : Nat
  node : Nat
  priority : Nat
  custody : Bool
deriving DecidableEq, Repr

/-- The configuration: the number of outducts and, for each, `maxNumberOfBundlesInPipeline` and `maxSumOfBundleBytesInPipeline`
(which the capability messages repeat, OutductManager.cpp:267-275), `maxBundleSizeBytes` and `enforceBundlePriority`. -/
structure Config where
  outducts : Nat
  maxBundles : Nat → Nat
  maxBytes : Nat → Nat
  maxBundleSize : Nat
  enforcePriority : Bool

/-- Which outduct the bundles for a node go to: `m_finalDestNodeIdToOutductMap` of egress, OutductManager.cpp:280-287, and the
copies that ingress and storage have, receive.cpp:685-717, ZmqStorageInterface.cpp:1479-1491. -/
abbrev Routes := Nat → Option Nat

/-- Bundles by id: `umap_64_to_64_t`, `custodyid_to_size_map_t`, `map_id_to_ackdata_t`. -/
abbrev Map := List (Nat × Bundle)

/-- `unordered_map::emplace`. -/
def Map.emplace (m : Map) (id : Nat) (b : Bundle) : Map :=
  if m.any (·.1 == id) then m else m ++ [(id, b)]

/-- `unordered_map::find`. -/
def Map.lookup (m : Map) (id : Nat) : Option Bundle :=
  (m.find? (·.1 == id)).map (·.2)

/-- `unordered_map::erase`. -/
def Map.remove (m : Map) (id : Nat) : Map :=
  m.eraseP (·.1 == id)

/-! ## Messages -/

/-- `ToEgressHdr` with the bundle, message.hpp:99-113: `id` is `custodyId`, `cut` is `isCutThroughFromStorage`. -/
structure ToEgress where
  bundle : Bundle
  id : Nat
  outduct : Nat
  cut : Bool
deriving DecidableEq, Repr

/-- `ToStorageHdr` with the bundle, message.hpp:131-140: `outduct` is `none` for `UINT64_MAX`. -/
structure ToStorage where
  bundle : Bundle
  id : Nat
  outduct : Option Nat
  dontStore : Bool
deriving DecidableEq, Repr

/-- `EGRESS_ACK_ERROR_TYPE`. -/
inductive AckError
  | noErrors
  | linkDown
  | noOutduct
deriving DecidableEq, Repr

/-- `EgressAckHdr`, message.hpp:115-129, an answer to the message `hdr`: it repeats `id`, `outduct` and `cut`;
`deleteNow` says that `hdr.bundle` does not have custody. The bundle itself is in it if it goes back to storage only. -/
structure EgressAck where
  hdr : ToEgress
  error : AckError
deriving DecidableEq, Repr

/-- What egress sends to ingress. -/
inductive EgressToIngress
  | ack (a : EgressAck)
  | capabilities (r : Routes)

/-- What egress sends to storage: acknowledgements, bundles that came from ingress and could not be sent
(`HDTN_MSGTYPE_EGRESS_FAILED_BUNDLE_TO_STORAGE`) with an outduct, capabilities. -/
inductive EgressToStorage
  | ack (a : EgressAck)
  | failed (outduct : Nat) (b : Bundle)
  | capabilities (r : Routes)

/-- `StorageAckHdr`, message.hpp:142-150. -/
structure StorageAck where
  id : Nat
  outduct : Option Nat
  error : Bool
  bundle : Bundle
deriving DecidableEq, Repr

/-! ## Ingress -/

/-- `BundlePipelineAckingSet`, receive.cpp:100-134. -/
structure AckSet where
  egress : Map
  storage : Map
  egressBytes : Nat
  storageBytes : Nat
  up : Bool

/-- A set as its constructor makes it. -/
def AckSet.empty : AckSet := ⟨[], [], 0, 0, false⟩

/-- `CompareAndPop_ThreadSafe` of the egress map, receive.cpp:243-258. -/
def AckSet.popEgress (s : AckSet) (id : Nat) : AckSet :=
  match s.egress.lookup id with
  | none => s
  | some b => { s with egress := s.egress.remove id, egressBytes := s.egressBytes - b.size }

/-- `CompareAndPop_ThreadSafe` of the storage map, receive.cpp:243-258. -/
def AckSet.popStorage (s : AckSet) (id : Nat) : AckSet :=
  match s.storage.lookup id with
  | none => s
  | some b => { s with storage := s.storage.remove id, storageBytes := s.storageBytes - b.size }

/-- There is room for another bundle in half of a pipeline, receive.cpp:286-287 and 295-296. -/
def hasRoom (m : Map) (bytes maxBundles maxBytes size : Nat) : Bool :=
  m.length < maxBundles / 2 && bytes + size ≤ maxBytes / 2

/-- Which half of a pipeline. -/
inductive Path
  | egress
  | storage
deriving DecidableEq, Repr

/-- `WaitForPipelineAvailabilityAndReserve` after the wait is over, receive.cpp:262-304. -/
def AckSet.reserve (s : AckSet) (maxBundles maxBytes : Nat) (checkEgress checkStorage : Bool) (id : Nat) (b : Bundle) :
    Option (Path × AckSet) :=
  if checkEgress && hasRoom s.egress s.egressBytes maxBundles maxBytes b.size then
    some (.egress, { s with egress := s.egress.emplace id b, egressBytes := s.egressBytes + b.size })
  else if checkStorage && hasRoom s.storage s.storageBytes maxBundles maxBytes b.size then
    some (.storage, { s with storage := s.storage.emplace id b, storageBytes := s.storageBytes + b.size })
  else none

/-- Where a thread of ingress is about to send its bundle. -/
inductive Place
  | egress (i : Nat)
  | cut (i : Nat)
  | store
deriving DecidableEq, Repr

/-- A thread of ingress that holds a bundle and has a reservation for it. -/
structure Thread where
  bundle : Bundle
  id : Nat
  place : Place
deriving DecidableEq, Repr

/-- The ingress, receive.cpp:52-200. -/
structure Ingress where
  ready : Bool
  routes : Routes
  nextId : Nat
  sets : Nat → AckSet
  single : AckSet
  threads : List Thread

/-- Another set for outduct `i`. -/
def Ingress.setSet (g : Ingress) (i : Nat) (s : AckSet) : Ingress :=
  { g with sets := fun j => if j = i then s else g.sets j }

/-- The pipeline to the disk, receive.cpp:1577-1584: `STORAGE_MAX_BUNDLES_IN_PIPELINE * 2` = 10 and twice the maximal size,
receive.cpp:722-723. `none` when storage does not respond. -/
def Ingress.toDisk (C : Config) (g : Ingress) (id : Nat) (b : Bundle) : Option Ingress :=
  (g.single.reserve 10 (C.maxBundleSize * 2) false true id b).map fun (_, s) =>
    { g with single := s, threads := g.threads ++ [⟨b, id, .store⟩] }

/-- A result: the step is done; it cannot be done in this state; the program accesses a vector outside its bounds. -/
inductive Res (α : Type)
  | ok (a : α)
  | disabled
  | fault

/-- `ProcessPaddedData` from the choice of the outduct to the reservation, receive.cpp:1462-1584; the second value is a bundle
that is lost. -/
def Ingress.arrive (C : Config) (g : Ingress) (b : Bundle) : Res (Ingress × List Bundle) :=
  let id := g.nextId
  let g := { g with nextId := id + 1 }
  let disk := match g.toDisk C id b with
    | some g => Res.ok (g, [])
    | none => .ok (g, [b])
  match g.routes b.node with
  | none => disk
  | some i =>
    if i < C.outducts then
      if (g.sets i).up && !b.custody then
        match (g.sets i).reserve (C.maxBundles i) (C.maxBytes i) (!C.enforcePriority) true id b with
        | some (.egress, s) => .ok ({ g.setSet i s with threads := g.threads ++ [⟨b, id, .egress i⟩] }, [])
        | some (.storage, s) => .ok ({ g.setSet i s with threads := g.threads ++ [⟨b, id, .cut i⟩] }, [])
        | none => disk
      else disk
    else .fault

/-- An acknowledgement of egress, receive.cpp:773-793. -/
def Ingress.egressAck (C : Config) (g : Ingress) (a : EgressAck) : Res Ingress :=
  let i := a.hdr.outduct
  if i < C.outducts then
    let s := if a.error = .linkDown then { g.sets i with up := false } else g.sets i
    .ok (g.setSet i (s.popEgress a.hdr.id))
  else .fault

/-- An acknowledgement of storage, receive.cpp:834-853. -/
def Ingress.storageAck (C : Config) (g : Ingress) (a : StorageAck) : Res Ingress :=
  match a.outduct with
  | none => .ok { g with single := g.single.popStorage a.id }
  | some i =>
    if i < C.outducts then
      let s := if a.error then { g.sets i with up := false } else g.sets i
      .ok (g.setSet i (s.popStorage a.id))
    else .fault

/-- `RouterEventHandler`: a link goes up or down, receive.cpp:1061-1086. -/
def Ingress.link (C : Config) (g : Ingress) (i : Nat) (up : Bool) : Ingress :=
  if i < C.outducts then g.setSet i { g.sets i with up := up } else g

/-! ## Storage -/

/-- A bundle on the disk waits to be sent, was given to egress, or was sent and waits for a custody signal. -/
inductive Status
  | awaiting
  | given
  | sent
deriving DecidableEq, Repr

/-- A bundle on the disk. -/
structure Entry where
  cid : Nat
  bundle : Bundle
  status : Status
deriving DecidableEq, Repr

/-- `OutductInfo_t`, ZmqStorageInterface.cpp:76-105. -/
structure Info where
  up : Bool
  tryCut : Bool
  opened : Map
  cut : Map
  queue : List ToStorage
  bytes : Nat

/-- What the constructor makes, ZmqStorageInterface.cpp:77-85. -/
def Info.empty : Info := ⟨false, false, [], [], [], 0⟩

/-- The storage. `early` are the link changes that came before the capabilities of egress,
`mapOuductArrayIndexToPendingLinkChangeEvent`. -/
structure Storage where
  ready : Bool
  routes : Routes
  early : List (Nat × Bool)
  infos : Nat → Info
  disk : List Entry

/-- What storage sends, and what is gone: bundles that are lost, and reservations of ingress (outduct, id, bundle) for which the
acknowledgement is gone. -/
structure Effect where
  toEgress : List ToEgress := []
  toIngress : List StorageAck := []
  lost : List Bundle := []
  stuck : List (Nat × Nat × Bundle) := []

/-- Other information about outduct `i`. -/
def Storage.setInfo (st : Storage) (i : Nat) (o : Info) : Storage :=
  { st with infos := fun j => if j = i then o else st.infos j }

/-- `Write`, ZmqStorageInterface.cpp:746-826: with a new custody id, or without success. -/
def Storage.write (st : Storage) (w : Option Nat) (b : Bundle) : Res (Storage × List Bundle) :=
  match w with
  | none => .ok (st, [b])
  | some cid =>
    if st.disk.any (·.cid == cid) then .disabled
    else .ok ({ st with disk := st.disk ++ [⟨cid, b, .awaiting⟩] }, [])

/-- The bundles of a cut-through queue are written one after the other, with an acknowledgement for each,
ZmqStorageInterface.cpp:1032-1042. -/
def Storage.dump (st : Storage) (i : Nat) : List (Option Nat) → List ToStorage → Res (Storage × Effect)
  | [], [] => .ok (st, {})
  | w :: ws, q :: qs =>
    match st.write w q.bundle with
    | .ok (st, lost) =>
      match st.dump i ws qs with
      | .ok (st, e) => .ok (st, { e with toIngress := ⟨q.id, q.outduct, true, q.bundle⟩ :: e.toIngress, lost := lost ++ e.lost })
      | .disabled => .disabled
      | .fault => .fault
    | .disabled => .disabled
    | .fault => .fault
  | _, _ => .disabled

/-- `SetLinkDown`, ZmqStorageInterface.cpp:1026-1047. `ws` are the custody ids for the bundles of the queue. -/
def Storage.setLinkDown (st : Storage) (i : Nat) (ws : List (Option Nat)) : Res (Storage × Effect) :=
  let o := st.infos i
  if o.up then (st.setInfo i { o with up := false, queue := [] }).dump i ws o.queue
  else if ws = [] then .ok (st, {}) else .disabled

/-- A bundle from ingress, ZmqStorageInterface.cpp:1575-1621. Before the capabilities came there are no outducts. -/
def Storage.fromIngress (C : Config) (st : Storage) (m : ToStorage) (w : Option Nat) : Res (Storage × Effect) :=
  let store := match st.write w m.bundle with
    | .ok (st, lost) => Res.ok (st, { toIngress := [⟨m.id, m.outduct, false, m.bundle⟩], lost := lost })
    | .disabled => .disabled
    | .fault => .fault
  match m.outduct with
  | none => store
  | some i =>
    if m.dontStore && decide (i < if st.ready then C.outducts else 0) && (st.infos i).up then
      .ok (st.setInfo i { st.infos i with queue := (st.infos i).queue ++ [m] }, {})
    else store

/-- The bundle gets another status; `ReturnCustodyIdToAwaitingSend` and others. -/
def setStatus (disk : List Entry) (cid : Nat) (s : Status) : List Entry :=
  disk.map fun e => if e.cid = cid then { e with status := s } else e

/-- `RemoveReadBundleFromDisk`. -/
def erase (disk : List Entry) (cid : Nat) : List Entry :=
  disk.filter (·.cid != cid)

/-- The answer to a bundle that was cut through, ZmqStorageInterface.cpp:1293-1337. -/
def Storage.cutAck (st : Storage) (a : EgressAck) (w : Option Nat) (ws : List (Option Nat)) : Res (Storage × Effect) :=
  let i := a.hdr.outduct
  match (st.infos i).cut.lookup a.hdr.id with
  | none => .ok (st, {})
  | some b =>
    let done (st : Storage) : Storage :=
      st.setInfo i { st.infos i with cut := (st.infos i).cut.remove a.hdr.id, bytes := (st.infos i).bytes - b.size }
    if a.error = .noErrors then
      .ok (done st, { toIngress := [⟨a.hdr.id, some i, false, b⟩] })
    else
      match st.write w a.hdr.bundle with
      | .ok (st, lost) =>
        match (if a.error = .linkDown then st.setLinkDown i ws else .ok (st, {})) with
        | .ok (st, e) => .ok (done st, { e with toIngress := e.toIngress ++ [⟨a.hdr.id, some i, true, b⟩], lost := lost ++ e.lost })
        | .disabled => .disabled
        | .fault => .fault
      | .disabled => .disabled
      | .fault => .fault

/-- The answer to a bundle that was read from the disk, ZmqStorageInterface.cpp:1338-1408. -/
def Storage.diskAck (st : Storage) (a : EgressAck) (ws : List (Option Nat)) : Res (Storage × Effect) :=
  let i := a.hdr.outduct
  match (st.infos i).opened.lookup a.hdr.id with
  | none => .ok (st, {})
  | some b =>
    let done (st : Storage) : Storage :=
      st.setInfo i { st.infos i with opened := (st.infos i).opened.remove a.hdr.id, bytes := (st.infos i).bytes - b.size }
    if a.error = .noErrors then
      .ok (done { st with disk := if a.hdr.bundle.custody then setStatus st.disk a.hdr.id .sent else erase st.disk a.hdr.id }, {})
    else
      match (if a.error = .linkDown then st.setLinkDown i ws else .ok (st, {})) with
      | .ok (st, e) => .ok (done { st with disk := setStatus st.disk a.hdr.id .awaiting }, e)
      | .disabled => .disabled
      | .fault => .fault

/-- The link changes that came early take effect, ZmqStorageInterface.cpp:1495-1513. -/
def applyEarly (C : Config) (early : List (Nat × Bool)) (infos : Nat → Info) : Nat → Info :=
  early.foldl (fun infos p => if p.1 < C.outducts then
    fun j => if j = p.1 then { infos p.1 with up := p.2 } else infos j else infos) infos

/-- A message from egress, ZmqStorageInterface.cpp:1270-1520. `w` is the custody id for the bundle in the message. -/
def Storage.fromEgress (C : Config) (st : Storage) (m : EgressToStorage) (w : Option Nat) (ws : List (Option Nat)) :
    Res (Storage × Effect) :=
  match m with
  | .ack a =>
    if st.ready then
      if a.hdr.outduct < C.outducts then
        if a.hdr.cut then st.cutAck a w ws else st.diskAck a ws
      else .fault
    else .ok (st, {})
  | .failed i b =>
    match st.write w b with
    | .ok (st, lost) =>
      if st.ready then
        if i < C.outducts then
          match st.setLinkDown i ws with
          | .ok (st, e) => .ok (st, { e with lost := lost ++ e.lost })
          | .disabled => .disabled
          | .fault => .fault
        else .fault
      else .ok (st, { lost := lost })
    | .disabled => .disabled
    | .fault => .fault
  | .capabilities r =>
    .ok ({ st with routes := r, ready := true, early := [], infos := applyEarly C st.early st.infos }, {})

/-- A message of the router, ZmqStorageInterface.cpp:1633-1669. Before the capabilities came, a message that a link is down is
remembered as `true`, as one that it is up. -/
def Storage.link (C : Config) (st : Storage) (i : Nat) (up : Bool) (ws : List (Option Nat)) : Res (Storage × Effect) :=
  if st.ready then
    if i < C.outducts then
      if up then .ok (st.setInfo i { st.infos i with up := true }, {}) else st.setLinkDown i ws
    else .ok (st, {})
  else .ok ({ st with early := st.early.filter (·.1 != i) ++ [(i, true)] }, {})

/-- `SendFromCutThroughQueue`, ZmqStorageInterface.cpp:1894-1935; `ok` when the message could be sent. The queue is not
empty. -/
def Storage.sendCut (st : Storage) (i : Nat) (ok : Bool) : Storage × Effect :=
  let o := st.infos i
  match o.queue with
  | [] => (st, {})
  | q :: rest =>
    if !ok then (st.setInfo i { o with queue := rest }, { lost := [q.bundle], stuck := [(i, q.id, q.bundle)] })
    else if (o.cut.lookup q.id).isSome then
      (st.setInfo i { o with queue := rest }, { toEgress := [⟨q.bundle, q.id, i, true⟩], stuck := [(i, q.id, q.bundle)] })
    else
      (st.setInfo i { o with queue := rest, cut := o.cut.emplace q.id q.bundle, bytes := o.bytes + q.bundle.size },
        { toEgress := [⟨q.bundle, q.id, i, true⟩] })

/-- `SendFromStorage` with `ReleaseOne_NoBlock`, ZmqStorageInterface.cpp:1873-1892 and 922-977; `top` is the bundle that the
catalog gives. -/
def Storage.sendDisk (st : Storage) (i : Nat) (top : Option Entry) (room : Nat) (ok : Bool) : Storage × Effect :=
  match top with
  | none => (st, {})
  | some e =>
    if e.bundle.size > room ∨ !ok then (st, {})
    else
      let st := { st with disk := setStatus st.disk e.cid .given }
      let o := st.infos i
      (if (o.opened.lookup e.cid).isSome then st
        else st.setInfo i { o with opened := o.opened.emplace e.cid e.bundle, bytes := o.bytes + e.bundle.size },
        { toEgress := [⟨e.bundle, e.cid, i, false⟩] })

/-- `DefaultSend`, ZmqStorageInterface.cpp:1860-1871. -/
def Storage.defaultSend (st : Storage) (i : Nat) (top : Option Entry) (room : Nat) (ok : Bool) : Storage × Effect :=
  let o := st.infos i
  let small := match o.queue with
    | [] => false
    | q :: _ => decide (q.bundle.size ≤ room)
  let (st, e) := if o.tryCut && small then st.sendCut i ok else st.sendDisk i top room ok
  (st.setInfo i { st.infos i with tryCut := !o.tryCut }, e)

/-- The bundle at the front of the cut-through queue is written to the disk and acknowledged,
ZmqStorageInterface.cpp:1824-1833. -/
def Storage.storeFront (st : Storage) (i : Nat) (w : Option Nat) : Res (Storage × Effect) :=
  match (st.infos i).queue with
  | [] => .disabled
  | q :: rest =>
    match st.write w q.bundle with
    | .ok (st, lost) =>
      .ok (st.setInfo i { st.infos i with queue := rest },
        { toIngress := [⟨q.id, q.outduct, false, q.bundle⟩], lost := lost })
    | .disabled => .disabled
    | .fault => .fault

/-- Both effects, one after the other. -/
def Effect.and (a b : Effect) : Effect :=
  ⟨a.toEgress ++ b.toEgress, a.toIngress ++ b.toIngress, a.lost ++ b.lost, a.stuck ++ b.stuck⟩

/-- `PrioritySend`, ZmqStorageInterface.cpp:1774-1835. -/
def Storage.prioritySend (st : Storage) (i : Nat) (top : Option Entry) (room : Nat) (ok : Bool) (w : Option Nat) :
    Res (Storage × Effect) :=
  let o := st.infos i
  match o.queue with
  | [] => .ok (st.sendDisk i top room ok)
  | q :: _ =>
    let small := decide (q.bundle.size ≤ room)
    match top with
    | none => if small then .ok (st.sendCut i ok) else .ok (st, {})
    | some e =>
      let fromQueue := if q.bundle.priority = e.bundle.priority then small && o.tryCut
        else decide (q.bundle.priority > e.bundle.priority)
      let st := if q.bundle.priority = e.bundle.priority ∧ small then st.setInfo i { o with tryCut := !o.tryCut } else st
      if fromQueue then if small then .ok (st.sendCut i ok) else .ok (st, {})
      else
        let (st, e₁) := st.sendDisk i top room ok
        match st.storeFront i w with
        | .ok (st, e₂) => .ok (st, e₁.and e₂)
        | .disabled => .disabled
        | .fault => .fault

/-- What the catalog may give for outduct `i`: a bundle that waits and goes there; nothing only if there is none. -/
def Storage.isTop (st : Storage) (i : Nat) (top : Option Entry) : Bool :=
  match top with
  | some e => st.disk.contains e && e.status == .awaiting && st.routes e.bundle.node == some i
  | none => st.disk.all fun e => !(e.status == .awaiting && st.routes e.bundle.node == some i)

/-- The room in bytes that is left for outduct `i`, `maxBundleSizeToRead`, ZmqStorageInterface.cpp:1747. -/
def Storage.room (C : Config) (st : Storage) (i : Nat) : Nat :=
  (C.maxBytes i / 2 + 2 ^ 64 - (st.infos i).bytes) % 2 ^ 64

/-- `DoSendBundles` for one of the links that are up, ZmqStorageInterface.cpp:1739-1756. -/
def Storage.release (C : Config) (st : Storage) (i : Nat) (top : Option Entry) (ok : Bool) (w : Option Nat) :
    Res (Storage × Effect) :=
  let o := st.infos i
  if i < C.outducts ∧ st.ready ∧ o.up ∧ st.isTop i top then
    if o.opened.length + o.cut.length < C.maxBundles i / 2 then
      if C.enforcePriority then st.prioritySend i top (st.room C i) ok w
      else .ok (st.defaultSend i top (st.room C i) ok)
    else .ok (st, {})
  else .disabled

/-! ## The node -/

/-- A bundle that was given to an outduct: its header, whether it came from storage, and the outduct. -/
structure Flight where
  hdr : ToEgress
  fromStorage : Bool
  outduct : Nat
deriving DecidableEq, Repr

/-- The node: the three modules, the queues between them (`ie` from ingress to egress, and so on), what is in the outducts, and
what became of the bundles so far. -/
structure State where
  ingress : Ingress
  storage : Storage
  routes : Routes
  flights : List Flight
  ie : List ToEgress
  is : List ToStorage
  se : List ToEgress
  ei : List EgressToIngress
  es : List EgressToStorage
  si : List StorageAck
  accepted : List Bundle
  delivered : List Bundle
  lost : List Bundle
  expired : List Bundle
  released : List Bundle
  stuck : List (Nat × Nat × Bundle)

/-- What happens. -/
inductive Act
  /-- A bundle comes in. -/
  | arrive (b : Bundle)
  /-- The thread with this number sends its bundle on; `ok` when the message could be sent. -/
  | push (k : Nat) (ok : Bool)
  /-- Egress takes a bundle from ingress; `moved` when the outduct takes it. -/
  | egressFromIngress (moved : Bool)
  /-- Egress takes a bundle from storage. -/
  | egressFromStorage (moved : Bool)
  /-- An outduct calls back that bundle `k` was sent. -/
  | sent (k : Nat)
  /-- An outduct calls back that bundle `k` was not sent. -/
  | unsent (k : Nat)
  /-- Ingress takes a message from egress. -/
  | ingressFromEgress
  /-- Ingress takes a message from storage. -/
  | ingressFromStorage
  /-- Storage takes a bundle from ingress. -/
  | storageFromIngress (w : Option Nat)
  /-- Storage takes a message from egress. -/
  | storageFromEgress (w : Option Nat) (ws : List (Option Nat))
  /-- The router tells ingress about a link. -/
  | linkIngress (i : Nat) (up : Bool)
  /-- The router tells storage about a link. -/
  | linkStorage (i : Nat) (up : Bool) (ws : List (Option Nat))
  /-- The router tells egress about a route. -/
  | reroute (node : Nat) (outduct : Option Nat)
  /-- Storage looks whether it can send on a link. -/
  | release (i : Nat) (top : Option Entry) (ok : Bool) (w : Option Nat)
  /-- Storage deletes a bundle that has expired. -/
  | expire (cid : Nat)
  /-- No custody signal came for a bundle in time. -/
  | timeout (cid : Nat)
  /-- A custody signal came for a bundle. -/
  | custodySignal (cid : Nat)

/-- The state with what storage did. -/
def State.after (s : State) (st : Storage) (e : Effect) : State :=
  { s with storage := st, se := s.se ++ e.toEgress, si := s.si ++ e.toIngress, lost := s.lost ++ e.lost
           stuck := s.stuck ++ e.stuck }

/-- `OnFailedBundleZmqSendCallback`, EgressAsync.cpp:809-880. The outduct in the header of a bundle that came from ingress
is what `new EgressAckHdr()` leaves there: 0. -/
def State.onFailed (s : State) (h : ToEgress) (fromStorage : Bool) (err : AckError) : State :=
  if fromStorage then { s with es := s.es ++ [.ack ⟨h, err⟩] }
  else { s with ei := s.ei ++ [.ack ⟨h, err⟩], es := s.es ++ [.failed 0 h.bundle] }

/-- `OnSuccessfulBundleSendCallback`, EgressAsync.cpp:881-915. -/
def State.onSuccess (s : State) (h : ToEgress) (fromStorage : Bool) : State :=
  if fromStorage then { s with es := s.es ++ [.ack ⟨h, .noErrors⟩], delivered := s.delivered ++ [h.bundle] }
  else { s with ei := s.ei ++ [.ack ⟨h, .noErrors⟩], delivered := s.delivered ++ [h.bundle] }

/-- Egress gives a bundle to the outduct, EgressAsync.cpp:515-600. -/
def State.forward (s : State) (h : ToEgress) (fromStorage moved : Bool) : State :=
  match s.routes h.bundle.node with
  | none => s.onFailed h fromStorage .noOutduct
  | some o =>
    if moved then { s with flights := s.flights ++ [⟨h, fromStorage, o⟩] }
    else s.onFailed h fromStorage .linkDown

/-- One step of the thread of ingress that has a reservation, receive.cpp:1528-1567 and 1585-1618. -/
def State.push (C : Config) (s : State) (t : Thread) (threads : List Thread) (ok : Bool) : State :=
  let g := { s.ingress with threads := threads }
  match t.place with
  | .egress i =>
    if ok then { s with ingress := g, ie := s.ie ++ [⟨t.bundle, t.id, i, false⟩] }
    else
      let g := g.setSet i ((g.sets i).popEgress t.id)
      match g.toDisk C t.id t.bundle with
      | some g => { s with ingress := g }
      | none => { s with ingress := g, lost := s.lost ++ [t.bundle] }
  | .cut i =>
    if ok then { s with ingress := g, is := s.is ++ [⟨t.bundle, t.id, some i, true⟩] }
    else { s with ingress := g.setSet i ((g.sets i).popStorage t.id), lost := s.lost ++ [t.bundle] }
  | .store =>
    if ok then { s with ingress := g, is := s.is ++ [⟨t.bundle, t.id, none, false⟩] }
    else { s with ingress := { g with single := g.single.popStorage t.id }, lost := s.lost ++ [t.bundle] }

/-- The state after what storage did, if that could be done. -/
def Res.after (s : State) : Res (Storage × Effect) → Res State
  | .ok (st, e) => .ok (s.after st e)
  | .disabled => .disabled
  | .fault => .fault

/-- The node does one step. -/
def step (C : Config) (s : State) : Act → Res State
  | .arrive b =>
    if s.ingress.ready ∧ b.size ≤ C.maxBundleSize then
      match s.ingress.arrive C b with
      | .ok (g, lost) => .ok { s with ingress := g, accepted := s.accepted ++ [b], lost := s.lost ++ lost }
      | .disabled => .disabled
      | .fault => .fault
    else .disabled
  | .push k ok =>
    match s.ingress.threads[k]? with
    | none => .disabled
    | some t => .ok (s.push C t (s.ingress.threads.eraseIdx k) ok)
  | .egressFromIngress moved =>
    match s.ie with
    | [] => .disabled
    | h :: rest => .ok ({ s with ie := rest }.forward h false moved)
  | .egressFromStorage moved =>
    match s.se with
    | [] => .disabled
    | h :: rest => .ok ({ s with se := rest }.forward h true moved)
  | .sent k =>
    match s.flights[k]? with
    | none => .disabled
    | some f => .ok ({ s with flights := s.flights.eraseIdx k }.onSuccess f.hdr f.fromStorage)
  | .unsent k =>
    match s.flights[k]? with
    | none => .disabled
    | some f => .ok ({ s with flights := s.flights.eraseIdx k }.onFailed f.hdr f.fromStorage .linkDown)
  | .ingressFromEgress =>
    match s.ei with
    | [] => .disabled
    | .ack a :: rest =>
      match s.ingress.egressAck C a with
      | .ok g => .ok { s with ingress := g, ei := rest }
      | .disabled => .disabled
      | .fault => .fault
    | .capabilities r :: rest => .ok { s with ingress := { s.ingress with routes := r, ready := true }, ei := rest }
  | .ingressFromStorage =>
    match s.si with
    | [] => .disabled
    | a :: rest =>
      match s.ingress.storageAck C a with
      | .ok g => .ok { s with ingress := g, si := rest }
      | .disabled => .disabled
      | .fault => .fault
  | .storageFromIngress w =>
    match s.is with
    | [] => .disabled
    | m :: rest => (s.storage.fromIngress C m w).after { s with is := rest }
  | .storageFromEgress w ws =>
    match s.es with
    | [] => .disabled
    | m :: rest => (s.storage.fromEgress C m w ws).after { s with es := rest }
  | .linkIngress i up => .ok { s with ingress := s.ingress.link C i up }
  | .linkStorage i up ws => (s.storage.link C i up ws).after s
  | .reroute node o =>
    if o.all fun i => decide (i < C.outducts) then
      let r : Routes := fun n => if n = node then o else s.routes n
      .ok { s with routes := r, ei := s.ei ++ [.capabilities r], es := s.es ++ [.capabilities r] }
    else .disabled
  | .release i top ok w => (s.storage.release C i top ok w).after s
  | .expire cid =>
    match s.storage.disk.find? (fun e => e.cid == cid && e.status == .awaiting) with
    | none => .disabled
    | some e => .ok { s with storage := { s.storage with disk := erase s.storage.disk cid }, expired := s.expired ++ [e.bundle] }
  | .timeout cid =>
    match s.storage.disk.find? (fun e => e.cid == cid && e.status == .sent) with
    | none => .disabled
    | some _ => .ok { s with storage := { s.storage with disk := setStatus s.storage.disk cid .awaiting } }
  | .custodySignal cid =>
    match s.storage.disk.find? (fun e => e.cid == cid && e.status != .given) with
    | none => .disabled
    | some e =>
      if e.bundle.custody then
        .ok { s with storage := { s.storage with disk := erase s.storage.disk cid }, released := s.released ++ [e.bundle] }
      else .disabled

/-- The node when egress has started and sent its capabilities to storage and ingress, EgressAsync.cpp:438. -/
def start (r : Routes) : State :=
  { ingress := ⟨false, fun _ => none, 0, fun _ => .empty, .empty, []⟩
    storage := ⟨false, fun _ => none, [], fun _ => .empty, []⟩
    routes := r
    flights := []
    ie := [], is := [], se := [], ei := [.capabilities r], es := [.capabilities r], si := []
    accepted := [], delivered := [], lost := [], expired := [], released := [], stuck := [] }

/-- What a sequence of actions leads to. -/
def run (C : Config) (s : State) : List Act → Res State
  | [] => .ok s
  | a :: as =>
    match step C s a with
    | .ok s => run C s as
    | .disabled => .disabled
    | .fault => .fault

end Hdtn.Node
