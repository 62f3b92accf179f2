import Verif.Bpv6Canonical.Model
import Verif.Sdnv.Read
import Verif.FragmentSet.Props

/-!
Model of the BPv6 administrative records, `common/bpcodec/src/codec/Bpv6AdministrativeRecords.cpp`, with
the times of `common/util/src/TimestampUtil.cpp`. The writers store into the memory that
`GetSerializationSize` has announced; how much room is left is passed along as in the code.
-/

namespace Hdtn.AdminRecord6

open Hdtn.Sdnv Hdtn.FragmentSet

/-- A number together with the width of the C++ type that holds it. -/
inductive Num
  | u64 (v : Nat)
  | u32 (v : Nat)
deriving DecidableEq, Repr

/-- `SdnvEncodeU64` or `SdnvEncodeU32` with a buffer size. -/
def Num.write : Num → Nat → Bytes
  | .u64 v, bufferSize => encodeU64Classic v bufferSize
  | .u32 v, bufferSize => encodeU32Classic v bufferSize

/-- `SdnvGetNumBytesRequiredToEncode`. -/
def Num.size : Num → Option Nat
  | .u64 v => numBytesRequired v
  | .u32 v => numBytesRequired v

/-- The pattern "encode; advance by the bytes written; reduce the room left" for several numbers. -/
def writeNums : List Num → Nat → Bytes
  | [], _ => []
  | x :: xs, bufferSize =>
    let a := x.write bufferSize
    a ++ writeNums xs (bufferSize - a.length)

/-- The sum of the sizes. -/
def numsSize : List Num → Option Nat
  | [] => some 0
  | x :: xs => do return (← x.size) + (← numsSize xs)

/-- `TimestampUtil::dtn_time_t`. -/
structure DtnTime where
  seconds : Nat
  nanoseconds : Nat
deriving DecidableEq, Repr

/-- The numbers written by `dtn_time_t::SerializeBpv6`, TimestampUtil.cpp:175-187. -/
def DtnTime.nums (t : DtnTime) : List Num := [.u64 t.seconds, .u32 t.nanoseconds]

/-- The members of `Bpv6AdministrativeRecordContentBundleStatusReport`, bpv6.h. -/
structure StatusReport where
  flags : UInt8
  reason : UInt8
  isFragment : Bool
  fragmentOffset : Nat
  fragmentLength : Nat
  received : DtnTime
  custody : DtnTime
  forwarded : DtnTime
  delivered : DtnTime
  deleted : DtnTime
  creationSeconds : Nat
  creationSequence : Nat
  eid : Bytes
deriving DecidableEq, Repr

/-- The members of `Bpv6AdministrativeRecordContentCustodySignal`, bpv6.h. -/
structure CustodySignal where
  status : UInt8
  isFragment : Bool
  fragmentOffset : Nat
  fragmentLength : Nat
  time : DtnTime
  creationSeconds : Nat
  creationSequence : Nat
  eid : Bytes
deriving DecidableEq, Repr

/-- The three contents; the aggregate custody signal holds a status byte and a fragment set. -/
inductive Content
  | status (r : StatusReport)
  | custody (c : CustodySignal)
  | aggregate (status : UInt8) (fills : List Frag)
deriving DecidableEq, Repr

/-- The members of `Bpv6AdministrativeRecord` beyond those of a block, bpv6.h; `content = none` is a
null pointer. -/
structure Record where
  typeCode : UInt8
  isFragment : Bool
  content : Option Content
deriving DecidableEq, Repr

/-- `SetCustodyTransferStatusAndReason`, Bpv6AdministrativeRecords.cpp:727-729 and 838-840. -/
def custodyStatus (succeeded : Bool) (reason : UInt8) : UInt8 :=
  reason ||| ((if succeeded then (1 : UInt8) else 0) <<< 7)

/-- `DidCustodyTransferSucceed`, Bpv6AdministrativeRecords.cpp:730-735 and 841-843. -/
def custodySucceeded (status : UInt8) : Bool := status &&& 0x80 != 0

/-- `GetReasonCode`, Bpv6AdministrativeRecords.cpp:736-738 and 844-846. -/
def custodyReason (status : UInt8) : UInt8 := status &&& 0x7f

/-! ### Writing -/

/-- A time of a status report if its flag is set, Bpv6AdministrativeRecords.cpp:305-329. -/
def timeIf (flags flag : UInt8) (t : DtnTime) : List Num := if flag &&& flags != 0 then t.nums else []

/-- The numbers of a status report between the reason code and the endpoint, in the order of
Bpv6AdministrativeRecords.cpp:296-333. -/
def StatusReport.nums (r : StatusReport) : List Num :=
  (if r.isFragment then [.u64 r.fragmentOffset, .u64 r.fragmentLength] else []) ++
    timeIf r.flags 1 r.received ++ timeIf r.flags 2 r.custody ++ timeIf r.flags 4 r.forwarded ++
    timeIf r.flags 8 r.delivered ++ timeIf r.flags 16 r.deleted ++
    [.u64 r.creationSeconds, .u64 r.creationSequence]

/-- The numbers of a custody signal between the status and the endpoint, in the order of
Bpv6AdministrativeRecords.cpp:608-625. -/
def CustodySignal.nums (c : CustodySignal) : List Num :=
  (if c.isFragment then [.u64 c.fragmentOffset, .u64 c.fragmentLength] else []) ++ c.time.nums ++
    [.u64 c.creationSeconds, .u64 c.creationSequence]

/-- The length and the text of the endpoint, Bpv6AdministrativeRecords.cpp:335-354 and 627-646; `none`
for a return value of 0. The length is cast to 32 bits. -/
def writeEid (s : Bytes) (bufferSize : Nat) : Option Bytes :=
  let n := s.length % 2 ^ 32
  if n ≤ 127 then
    if bufferSize = 0 then none
    else if bufferSize - 1 < n then none
    else some (UInt8.ofNat n :: s.take n)
  else
    let a := encodeU32Classic n bufferSize
    if bufferSize - a.length < n then none else some (a ++ s.take n)

/-- The numbers written for the fills, Bpv6AdministrativeRecords.cpp:857-873: distance from the end of
the previous fill (modulo 2^64) and length. -/
def fillNums : Nat → List Frag → List Num
  | _, [] => []
  | rightEdgePrevious, f :: fs =>
    .u64 ((f.b + 2 ^ 64 - rightEdgePrevious) % 2 ^ 64) ::
      .u64 (((f.e + 1) % 2 ^ 64 + 2 ^ 64 - f.b) % 2 ^ 64) :: fillNums f.e fs

/-- The `SerializeBpv6` of the contents, Bpv6AdministrativeRecords.cpp:259-355, 579-647, 785-815. -/
def Content.write (c : Content) (bufferSize : Nat) : Option Bytes :=
  match c with
  | .status r =>
    if bufferSize < 2 then none
    else do
      let a := writeNums r.nums (bufferSize - 2)
      let e ← writeEid r.eid (bufferSize - 2 - a.length)
      return r.flags :: r.reason :: (a ++ e)
  | .custody c =>
    if bufferSize < 1 then none
    else do
      let a := writeNums c.nums (bufferSize - 1)
      let e ← writeEid c.eid (bufferSize - 1 - a.length)
      return c.status :: (a ++ e)
  | .aggregate st fills =>
    if bufferSize < 1 then none else some (st :: writeNums (fillNums 0 fills) (bufferSize - 1))

/-- The `GetSerializationSize` of the contents, Bpv6AdministrativeRecords.cpp:356-382, 648-660, 816-818
and 874-883. -/
def Content.size : Content → Option Nat
  | .status r => do
    return 2 + (← numsSize r.nums) + (← numBytesRequired r.eid.length) + r.eid.length
  | .custody c => do
    return 1 + (← numsSize c.nums) + (← numBytesRequired c.eid.length) + c.eid.length
  | .aggregate _ fills => do return 1 + (← numsSize (fillNums 0 fills))

/-- `GetCanonicalBlockTypeSpecificDataSerializationSize`, Bpv6AdministrativeRecords.cpp:87-90. -/
def Record.size (r : Record) : Option Nat :=
  match r.content with
  | none => some 1
  | some c => do return 1 + (← c.size)

/-- The first byte of the record, Bpv6AdministrativeRecords.cpp:75. -/
def Record.firstByte (r : Record) : UInt8 := (r.typeCode <<< 4) ||| (if r.isFragment then 1 else 0)

/-- The data that `Bpv6AdministrativeRecord::SerializeBpv6` stores, Bpv6AdministrativeRecords.cpp:60-85.
`none` when a content returns 0 or stores fewer bytes than announced (the code does not look; the rest
of the data would be whatever the output memory held). -/
def Record.data (r : Record) : Option Bytes := do
  let n ← r.size
  match r.content with
  | none => return [r.firstByte]
  | some c => do
    let d ← c.write (n - 1)
    if 1 + d.length ≠ n then none else return r.firstByte :: d

/-- `Bpv6AdministrativeRecord::SerializeBpv6` with block flags `flags`: a payload block (type 1) with
that data. -/
def Record.serialize (flags : Nat) (r : Record) : Option (Bytes × Bpv6Canonical.Block) := do
  let d ← r.data
  let b : Bpv6Canonical.Block := ⟨1, flags, d⟩
  return (Bpv6Canonical.serialize b, b)

/-! ### Reading -/

/-- The pattern "decode a 32-bit SDNV; fail if `sdnvSize` is 0; advance", e.g. TimestampUtil.cpp:202-206. -/
def readSdnv32 (buf : Bytes) : Option (Nat × Bytes) :=
  let r := decodeU32Classic buf
  if r.2 = 0 then none else some (r.1, buf.drop r.2)

/-- `dtn_time_t::DeserializeBpv6`, TimestampUtil.cpp:191-211. -/
def readTime (buf : Bytes) : Option (DtnTime × Bytes) := do
  let (s, buf) ← readSdnv buf
  let (ns, buf) ← readSdnv32 buf
  return (⟨s, ns⟩, buf)

/-- A time of a status report if its flag is set, Bpv6AdministrativeRecords.cpp:412-446; otherwise the
member keeps the zero of the fresh object. -/
def readTimeIf (flags flag : UInt8) (buf : Bytes) : Option (DtnTime × Bytes) :=
  if flag &&& flags != 0 then readTime buf else some (⟨0, 0⟩, buf)

/-- Two SDNVs if the record is about a fragment, Bpv6AdministrativeRecords.cpp:396-410 and 673-687. -/
def readFragmentIf (isFragment : Bool) (buf : Bytes) : Option ((Nat × Nat) × Bytes) :=
  if isFragment then do
    let (o, buf) ← readSdnv buf
    let (l, buf) ← readSdnv buf
    return ((o, l), buf)
  else some ((0, 0), buf)

/-- The length and the text of the endpoint, Bpv6AdministrativeRecords.cpp:455-473 and 702-719. -/
def readEid (buf : Bytes) : Option (Bytes × Bytes) :=
  match readSdnv32 buf with
  | none => none
  | some (n, buf) =>
    if n > 65535 ∨ n < 5 then none
    else if buf.length < n then none
    else some (buf.take n, buf.drop n)

/-- `Bpv6AdministrativeRecordContentBundleStatusReport::DeserializeBpv6` on a fresh object,
Bpv6AdministrativeRecords.cpp:384-475. -/
def readStatus (isFragment : Bool) (buf : Bytes) : Option (StatusReport × Bytes) :=
  match buf with
  | flags :: reason :: buf => do
    let ((o, l), buf) ← readFragmentIf isFragment buf
    let (t1, buf) ← readTimeIf flags 1 buf
    let (t2, buf) ← readTimeIf flags 2 buf
    let (t3, buf) ← readTimeIf flags 4 buf
    let (t4, buf) ← readTimeIf flags 8 buf
    let (t5, buf) ← readTimeIf flags 16 buf
    let (s, buf) ← readSdnv buf
    let (q, buf) ← readSdnv buf
    let (eid, buf) ← readEid buf
    return (⟨flags, reason, isFragment, o, l, t1, t2, t3, t4, t5, s, q, eid⟩, buf)
  | _ => none

/-- `Bpv6AdministrativeRecordContentCustodySignal::DeserializeBpv6` on a fresh object,
Bpv6AdministrativeRecords.cpp:662-722. -/
def readCustody (isFragment : Bool) (buf : Bytes) : Option (CustodySignal × Bytes) :=
  match buf with
  | status :: buf => do
    let ((o, l), buf) ← readFragmentIf isFragment buf
    let (t, buf) ← readTime buf
    let (s, buf) ← readSdnv buf
    let (q, buf) ← readSdnv buf
    let (eid, buf) ← readEid buf
    return (⟨status, isFragment, o, l, t, s, q, eid⟩, buf)
  | [] => none

/-- `DeserializeFills`, Bpv6AdministrativeRecords.cpp:884-915: it succeeds only at the end of the
buffer. The recursion is on a bound that the length of the buffer always meets. -/
def readFills : Nat → Nat → List Frag → Bytes → Option (List Frag)
  | 0, _, _, _ => none
  | fuel + 1, rightEdgePrevious, fills, buf =>
    match readSdnv buf with
    | none => none
    | some (startDelta, buf) =>
      if buf.length = 0 then none
      else
        let leftEdge := (startDelta + rightEdgePrevious) % 2 ^ 64
        match readSdnv buf with
        | none => none
        | some (fillLength, buf) =>
          let rightEdge := (leftEdge + fillLength + 2 ^ 64 - 1) % 2 ^ 64
          let fills := (insertFragment fills ⟨leftEdge, rightEdge⟩).1
          if buf.length = 0 then some fills else readFills fuel rightEdge fills buf

/-- `Bpv6AdministrativeRecordContentAggregateCustodySignal::DeserializeBpv6`,
Bpv6AdministrativeRecords.cpp:820-836; on success nothing is left. -/
def readAggregate (buf : Bytes) : Option (UInt8 × List Frag) :=
  match buf with
  | [] => none
  | status :: buf =>
    match readFills (buf.length + 1) 0 [] buf with
    | none => none
    | some fills => some (status, fills)

/-- The choice of the content by type code, Bpv6AdministrativeRecords.cpp:115-136, which must take all
bytes (:139-140). -/
def readContent (typeCode : UInt8) (isFragment : Bool) (buf : Bytes) : Option Content :=
  if typeCode = 1 then
    match readStatus isFragment buf with
    | some (r, []) => some (.status r)
    | _ => none
  else if typeCode = 2 then
    match readCustody isFragment buf with
    | some (c, []) => some (.custody c)
    | _ => none
  else if typeCode = 4 then
    match readAggregate buf with
    | some (s, f) => some (.aggregate s f)
    | none => none
  else none

/-- `Bpv6AdministrativeRecord::Virtual_DeserializeExtensionBlockDataBpv6`,
Bpv6AdministrativeRecords.cpp:94-141. -/
def read (data : Bytes) : Option Record :=
  match data with
  | [] => none
  | b :: buf =>
    match readContent (b >>> 4) (b &&& 1 != 0) buf with
    | none => none
    | some c => some ⟨b >>> 4, b &&& 1 != 0, some c⟩

end Hdtn.AdminRecord6
