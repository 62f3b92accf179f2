import Verif.BundleView6.Model
import Verif.Common.OrdMap
import Verif.Uri.Model

/-!
Model of `CustodyTransferManager`, `common/bpcodec/src/codec/CustodyTransferManager.cpp`: custody signals,
aggregate custody signals (ACS) and deletion reports of a BPv6 node; and of the part of
`module/storage/src/ZmqStorageInterface.cpp` that releases bundles when such a signal arrives.

The clock is an input: every call is given the seconds that `GetSecondsSinceEpochRfc5050` returns and
the time that `GenerateDtnTimeNow` returns.
-/

namespace Hdtn.CustodyManager

open Hdtn.HashMap16 Hdtn.FragmentSet Hdtn.Bpv6Primary Hdtn.Bpv6Canonical Hdtn.BundleView6
open Hdtn.AdminRecord6 (DtnTime CustodySignal StatusReport Content Record custodyStatus
  custodySucceeded custodyReason)

/-- `INDEX_TO_IS_SUCCESS`, CustodyTransferManager.cpp:21-29. -/
def isSuccess : Fin 7 → Bool
  | 0 => true
  | _ => false

/-- `INDEX_TO_REASON_CODE`, CustodyTransferManager.cpp:30-38, with the values of bpv6.h:420-428. -/
def reasonCode : Fin 7 → UInt8
  | 0 => 0
  | 1 => 3
  | 2 => 4
  | 3 => 5
  | 4 => 6
  | 5 => 7
  | 6 => 8

/-- The status byte of `acs_array_t::acs_array_t`, CustodyTransferManager.cpp:171-186, and of line 77. -/
def statusByte (i : Fin 7) : UInt8 := custodyStatus (isSuccess i) (reasonCode i)

/-- `acs_array_t`, CustodyTransferManager.h:42-44: the custody identifiers pending for each index. The
status byte of an entry never changes (`Reset` and the moves keep it,
Bpv6AdministrativeRecords.cpp:751-753 and 780-783), so it is `statusByte` of the index. -/
abbrev AcsArray := Fin 7 → List Frag

/-- The members of `CustodyTransferManager`, CustodyTransferManager.h:77-84. -/
structure Mgr where
  aware : Bool
  me : Eid
  acs : List (Eid × AcsArray)
  lastCreation : Nat
  sequence : Nat
  largest : Nat

/-- The constructor, CustodyTransferManager.cpp:188-198. -/
def init (aware : Bool) (me : Eid) : Mgr := ⟨aware, me, [], 0, 0, 0⟩

/-- `SetCreationAndSequence`, CustodyTransferManager.cpp:40-46; `m_lastCreation` is not assigned. -/
def stamp (m : Mgr) (now : Nat) : (Nat × Nat) × Mgr :=
  let s := if now ≠ m.lastCreation then 0 else m.sequence
  ((now, s), { m with sequence := (s + 1) % 2 ^ 64 })

/-- The priority bits of the flags and SINGLETON, NOFRAGMENT, ADMINRECORD,
CustodyTransferManager.cpp:53-54. -/
def adminFlags (from' : Nat) : Nat := (from' &&& (3 <<< 7)) ||| (16 ||| 4 ||| 2)

/-- The primary block of a generated bundle: `SetZero` and the assignments of
CustodyTransferManager.cpp:53-58, 130-135 and 472-480. -/
def adminPrimary (flags : Nat) (me dest : Eid) (stamp : Nat × Nat) : Primary :=
  ⟨flags, 0, dest, me, ⟨0, 0⟩, ⟨0, 0⟩, stamp.1, stamp.2, 1000, 0, 0⟩

/-- A generated bundle before `Render`: a new primary block and one payload block. -/
def adminView (p : Primary) (r : Record) : View :=
  ⟨p, [], true, [newBlock 1 0 [] (.admin r)]⟩

/-- `CBHE_BPV6_MINIMUM_SAFE_PRIMARY_HEADER_ENCODE_SIZE`, bpv6.h:42. -/
def primaryRoom : Nat := 1 + 1 + 1 + 14 * 10 + 32

/-- `Bpv6AdministrativeRecordContentCustodySignal::CBHE_MAX_SERIALIZATION_SIZE`, bpv6.h:508-517. -/
def signalRoom : Nat := 2 + 10 + 10 + 10 + 5 + 10 + 10 + 1 + 45

/-- `Bpv6AdministrativeRecordContentBundleStatusReport::CBHE_MAX_SERIALIZATION_SIZE`, bpv6.h:444-461. -/
def reportRoom : Nat := 3 + 10 + 10 + (10 + 5) * 5 + 10 + 10 + 1 + 45

/-- The record of a custody signal, CustodyTransferManager.cpp:62-87. -/
def signalRecord (p : Primary) (payloadSize : Nat) (i : Fin 7) (time : DtnTime) : Record :=
  ⟨2, p.isFragment, some (.custody
    ⟨statusByte i, p.isFragment, if p.isFragment then p.fragmentOffset else 0,
      if p.isFragment then payloadSize else 0, time, p.creationSeconds, p.creationSequence,
      Uri.getIpnUriString p.source.node p.source.service⟩)⟩

/-- `GenerateCustodySignalBundle`, CustodyTransferManager.cpp:48-96. -/
def generateSignal (m : Mgr) (p : Primary) (payloadSize : Nat) (i : Fin 7) (now : Nat) (time : DtnTime) :
    Rendered × Mgr :=
  let s := stamp m now
  let v := adminView (adminPrimary (adminFlags p.flags) m.me p.custodian s.1)
    (signalRecord p payloadSize i time)
  (v.renderMax (primaryRoom + signalRoom), s.2)

/-- The record of an ACS, CustodyTransferManager.cpp:139-153. -/
def acsRecord (i : Fin 7) (fills : List Frag) : Record := ⟨4, false, some (.aggregate (statusByte i) fills)⟩

/-- `GenerateAcsBundle` for a set of identifiers, CustodyTransferManager.cpp:122-159; `none` when it
returns false because there is nothing to send. -/
def generateAcs (m : Mgr) (custodian : Eid) (i : Fin 7) (fills : List Frag) (now : Nat) :
    Option (Rendered × Mgr) :=
  if fills = [] then none
  else
    let s := stamp m now
    let v := adminView (adminPrimary (adminFlags 0) m.me custodian s.1) (acsRecord i fills)
    some (v.renderMax (primaryRoom + 2000), s.2)

/-- The pending identifiers for a custodian and an index (`GetAcsConstRef`,
CustodyTransferManager.cpp:451-453, without the insertion of an empty entry). -/
def Mgr.pending (m : Mgr) (custodian : Eid) (i : Fin 7) : List Frag :=
  match OrdMap.lookup m.acs custodian with
  | none => []
  | some a => a i

/-- Assignment to an entry of the array of a custodian, made by `operator[]` if need be. -/
def Mgr.setPending (m : Mgr) (custodian : Eid) (i : Fin 7) (fills : List Frag) : Mgr :=
  let a : AcsArray := fun j => if j = i then fills else m.pending custodian j
  { m with acs := OrdMap.upsert Eid.lt custodian a m.acs }

/-- `GenerateAcsBundle` for a custodian and an index, CustodyTransferManager.cpp:160-169. Without
`copyAcsOnly` the set is moved out, and so left empty, before `Render`. -/
def generateOne (m : Mgr) (custodian : Eid) (i : Fin 7) (copyOnly : Bool) (now : Nat) :
    Option (Rendered × Mgr) :=
  match generateAcs m custodian i (m.pending custodian i) now with
  | none => none
  | some (r, m) => some (r, if copyOnly then m else m.setPending custodian i [])

/-- The loops of `GenerateAllAcsBundlesAndClear`, CustodyTransferManager.cpp:101-116, over the entries
in order: result, bundles with their custodian and index, and the manager. `clock k` is the time read
for bundle number `k`. After a failure the rest is left alone; so it is after an overflow, where nothing
is known about what follows. -/
def generateEach (clock : Nat → Nat) : List (Eid × Fin 7) → Nat → Mgr →
    Bool × List (Eid × Fin 7 × Rendered) × Mgr
  | [], _, m => (true, [], m)
  | (c, i) :: rest, k, m =>
    match generateOne m c i false (clock k) with
    | none => generateEach clock rest k m
    | some (.done out v, m') =>
      let r := generateEach clock rest (k + 1) m'
      (r.1, (c, i, .done out v) :: r.2.1, r.2.2)
    | some (x, m') => (false, [(c, i, x)], m')

/-- `GenerateAllAcsBundlesAndClear`, CustodyTransferManager.cpp:97-118. -/
def generateAll (m : Mgr) (clock : Nat → Nat) : Bool × List (Eid × Fin 7 × Rendered) × Mgr :=
  generateEach clock (m.acs.flatMap fun e => (List.finRange 7).map fun i => (e.1, i)) 0
    { m with largest := 0 }

/-- `CustodyTransferContext`, CustodyTransferManager.h:51-56; `cteb` is the received custody identifier
if `validCtebPresent`. -/
structure Info where
  primary : Primary
  payloadSize : Nat
  cteb : Option Nat

/-- The custody transfer enhancement block (CTEB) of a bundle as both `GetCustodyInfo` and
`UpdateBundleCustodyFields` look it up, CustodyTransferManager.cpp:231-248 and 270-287: `none` if they
return false, else the identifier and whether its custodian is that of the primary block. -/
def findCteb (v : View) : Option (Option (Nat × Bool)) :=
  match v.byType 10 with
  | [] => some none
  | [b] =>
    match b.body with
    | .ext (.cteb custodyId eid) =>
      match Uri.parseUri false eid with
      | some (n, some s) => some (some (custodyId, decide (v.primary.custodian = ⟨n, s⟩)))
      | _ => none
    | _ => none
  | _ => none

/-- `GetCustodyInfo`, CustodyTransferManager.cpp:219-259. -/
def getInfo (m : Mgr) (v : View) : Option Info :=
  match v.payloadSize with
  | none => none
  | some n =>
    if m.aware then
      match findCteb v with
      | none => none
      | some none => some ⟨v.primary, n, none⟩
      | some (some (custodyId, valid)) => some ⟨v.primary, n, if valid then some custodyId else none⟩
    else some ⟨v.primary, n, none⟩

/-- A change to the blocks of a type. -/
def View.onType (v : View) (t : UInt8) (f : BlockView → BlockView) : View :=
  { v with blocks := v.blocks.map fun b => if b.block.typeCode = t then f b else b }

/-- The new custodian in the primary block, CustodyTransferManager.cpp:307-308 and 336-337. -/
def View.setCustodian (v : View) (e : Eid) : View :=
  { v with primary := { v.primary with custodian := e }, primaryDirty := true }

/-- `UpdateBundleCustodyFields`, CustodyTransferManager.cpp:261-340. -/
def updateFields (m : Mgr) (v : View) (accept : Bool) (custodyId : Nat) : Option View :=
  if m.aware then
    match findCteb v with
    | none => none
    | some c =>
      let v := match c with
        | some (_, false) => View.onType v 10 fun b => { b with deleted := true }
        | _ => v
      if accept = false then some v
      else
        let v := View.setCustodian v m.me
        let text := Uri.getIpnUriString m.me.node m.me.service
        match c with
        | some _ => some (View.onType v 10 fun b =>
            { b with deleted := false, body := .ext (.cteb custodyId text), dirty := true })
        | none => some (v.append (newBlock 10 0 [] (.ext (.cteb custodyId text))))
  else if accept = false then some v
  else some (View.setCustodian v m.me)

/-- `AddCustodyIdToFill` for a custodian and an index with the running maximum,
CustodyTransferManager.cpp:374-375 and 406-407. -/
def aggregate (m : Mgr) (custodian : Eid) (i : Fin 7) (custodyId : Nat) : Mgr :=
  let fills := (insertFragment (m.pending custodian i) ⟨custodyId, custodyId⟩).1
  let m := m.setPending custodian i fills
  { m with largest := max fills.length m.largest }

/-- `GenerateCustodySignal`, CustodyTransferManager.cpp:342-449: the rendered custody signal, if one was
generated (otherwise the view is left empty), and the manager. -/
def generateCustodySignal (m : Mgr) (info : Info) (accept : Bool) (i : Fin 7) (now : Nat)
    (time : DtnTime) : Option Rendered × Mgr :=
  let single (i : Fin 7) :=
    let r := generateSignal m info.primary info.payloadSize i now time
    (some r.1, r.2)
  if m.aware then
    if accept then
      match info.cteb with
      | some id => (none, aggregate m info.primary.custodian 0 id)
      | none => single 0
    else
      match info.cteb with
      | some id => (none, aggregate m info.primary.custodian i id)
      | none => single i
  else if accept then single 0
  else single i

/-- `ProcessCustodyOfBundle`, CustodyTransferManager.cpp:203-217; `none` if it returns false before a
custody signal is considered. -/
def process (m : Mgr) (v : View) (accept : Bool) (custodyId : Nat) (i : Fin 7) (now : Nat)
    (time : DtnTime) : Option (View × Option Rendered × Mgr) :=
  match getInfo m v with
  | none => none
  | some info =>
    match updateFields m v accept custodyId with
    | none => none
    | some v' => some (v', generateCustodySignal m info accept i now time)

/-- The record of a deletion report, CustodyTransferManager.cpp:485-513. -/
def deletionRecord (p : Primary) (payloadSize : Nat) (time : DtnTime) : Record :=
  ⟨1, p.isFragment, some (.status
    { flags := 16, reason := 1, isFragment := p.isFragment
      fragmentOffset := if p.isFragment then p.fragmentOffset else 0
      fragmentLength := if p.isFragment then payloadSize else 0
      received := ⟨0, 0⟩, custody := ⟨0, 0⟩, forwarded := ⟨0, 0⟩, delivered := ⟨0, 0⟩, deleted := time
      creationSeconds := p.creationSeconds, creationSequence := p.creationSequence
      eid := Uri.getIpnUriString p.source.node p.source.service })⟩

/-- `GenerateBundleDeletionStatusReport`, CustodyTransferManager.cpp:455-523. -/
def deletionReport (m : Mgr) (p : Primary) (payloadSize : Nat) (now : Nat) (time : DtnTime) :
    Rendered × Mgr :=
  let s := stamp m now
  let v := adminView (adminPrimary (adminFlags p.flags) m.me p.reportTo s.1)
    (deletionRecord p payloadSize time)
  (v.renderMax (primaryRoom + reportRoom + 100), s.2)

/-! ### Arrival of a signal -/

/-- What `ProcessAdminRecord` does with the stored bundles. -/
inductive Release
  /-- Nothing is released (the function returns false). -/
  | nothing
  /-- The identifiers in these ranges are freed, and the bundles stored under them removed. -/
  | ids (fills : List Frag)
  /-- The bundle with this source, creation time and sequence number, and this offset and length if it
  is a fragment, is looked up, its identifier freed, and it is removed. -/
  | bundle (source : Eid) (seconds sequence : Nat) (fragment : Option (Nat × Nat))
  /-- A range ends with 2^64-1 and the loop over it never ends. -/
  | endless
deriving DecidableEq, Repr

/-- `IsAdminForThisNode`, ZmqStorageInterface.cpp:737-744, and the fragment flag, :779-785. -/
def isAdminFor (p : Primary) (me : Eid) : Bool :=
  (p.flags &&& (16 ||| 2)) == (16 ||| 2) && decide (p.dest = me) && !p.isFragment

/-- Whether the status allows to release: success, or a failure for redundant reception,
ZmqStorageInterface.cpp:501-513 and 546-557. -/
def releases (status : UInt8) : Bool := custodySucceeded status || custodyReason status == 3

/-- `ProcessAdminRecord`, ZmqStorageInterface.cpp:475-611, up to the lookup of the identifiers in the
catalogue. -/
def processAdmin (v : View) : Release :=
  match v.byType 1 with
  | [b] =>
    match b.body with
    | .admin ⟨_, _, some (.aggregate status fills)⟩ =>
      if !releases status then .nothing
      else if fills.any (fun f => f.e == 2 ^ 64 - 1) then .endless
      else .ids fills
    | .admin ⟨_, _, some (.custody c)⟩ =>
      if !releases c.status then .nothing
      else
        match Uri.parseUri false c.eid with
        | some (n, some s) =>
          .bundle ⟨n, s⟩ c.creationSeconds c.creationSequence
            (if c.isFragment then some (c.fragmentOffset, c.fragmentLength) else none)
        | _ => .nothing
    | _ => .nothing
  | _ => .nothing

end Hdtn.CustodyManager
