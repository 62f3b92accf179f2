import Verif.Bpv7Canonical.Write

/-!
Model of the BPv7 administrative records, `common/bpcodec/src/codec/Bpv7AdministrativeRecords.cpp` (called
Rec.cpp below): bundle status reports and encapsulated bundles (BIBE PDUs). A writer returns the bytes it
stores, `none` when it returns 0 before it is done; a reader takes the buffer as a list and returns the rest.
-/

namespace Hdtn.AdminRecord7

open Hdtn.HashMap16 Hdtn.Cbor Hdtn.Cbhe Hdtn.Bpv7Canonical

/-- `status_info_content_t`, bpv7.h: a status and the time of its assertion. -/
structure Status where
  asserted : Bool
  time : Nat
deriving DecidableEq, Repr

/-- `Bpv7AdministrativeRecordContentBundleStatusReport`, bpv7.h; `info` is an array of four. -/
structure Report where
  info : List Status
  reason : Nat
  source : Eid
  ms : Nat
  seq : Nat
  isFragment : Bool
  offset : Nat
  length : Nat
  timeFlag : Bool
deriving DecidableEq, Repr

/-- `Bpv7AdministrativeRecordContentBibePduMessage`, bpv7.h. The pointer to the bundle is not NULL. -/
structure Pdu where
  transmissionId : Nat
  retransmission : Nat
  bundle : Bytes
deriving DecidableEq, Repr

/-- What `m_adminRecordContentPtr` points to. -/
inductive Content
  | report (r : Report)
  | pdu (p : Pdu)
deriving DecidableEq, Repr

/-- `Bpv7AdministrativeRecord` apart from the members of the block. -/
structure Record where
  code : Nat
  content : Option Content
deriving DecidableEq, Repr

/-! ### Writing -/

/-- Some bounded writers one after the other: each gets the space its predecessors left. -/
def writeAll : List (Nat → Bytes) → Nat → Bytes
  | [], _ => []
  | w :: ws, n => w n ++ writeAll ws (n - (w n).length)

/-- One round of the loop over the statuses, Rec.cpp:260-299. -/
def writeStatus (timeFlag : Bool) (s : Status) (n : Nat) : Option Bytes :=
  if n < 2 then none
  else
    let stamped := timeFlag && s.asserted
    some ((if stamped then 0x82 else 0x81) :: (if s.asserted then 0xf5 else 0xf4) ::
      (if stamped then encodeU64Classic s.time (n - 2) else []))

/-- The loop, Rec.cpp:260-299. -/
def writeStatuses (timeFlag : Bool) : List Status → Nat → Option Bytes
  | [], _ => some []
  | s :: ss, n => do
    let a ← writeStatus timeFlag s n
    let b ← writeStatuses timeFlag ss (n - a.length)
    return a ++ b

/-- The items behind the statuses, Rec.cpp:304-337. -/
def Report.items (r : Report) : List (Nat → Bytes) :=
  [encodeU64Classic r.reason, serialize7Bounded r.source, twoSerializeBounded r.ms r.seq] ++
    if r.isFragment then [encodeU64Classic r.offset, encodeU64Classic r.length] else []

/-- `SerializeBpv7` of the report, Rec.cpp:210-340. -/
def Report.write (r : Report) (n : Nat) : Option Bytes :=
  if n < 2 then none
  else do
    let a ← writeStatuses r.timeFlag r.info (n - 2)
    return (if r.isFragment then 0x86 else 0x84) :: 0x84 :: (a ++ writeAll r.items (n - 2 - a.length))

/-- The times in `GetSerializationSize`, Rec.cpp:343-350. -/
def timesSize : List Status → Option Nat
  | [] => some 0
  | s :: ss => do
    let rest ← timesSize ss
    if s.asserted then return (← encodingSize s.time) + rest else return rest

/-- The numbers about a fragment in `GetSerializationSize`, Rec.cpp:354-357. -/
def fragmentSize (r : Report) : Option Nat := do
  return (← encodingSize r.offset) + (← encodingSize r.length)

/-- `GetSerializationSize` of the report, Rec.cpp:341-359. -/
def Report.size (r : Report) : Option Nat := do
  let times ← (if r.timeFlag then timesSize r.info else some 0 : Option Nat)
  let reason ← encodingSize r.reason
  let source ← size7 r.source
  let stamp ← twoSerializationSize r.ms r.seq
  let frag ← (if r.isFragment then fragmentSize r else some 0 : Option Nat)
  return 10 + times + reason + source + stamp + frag

/-- The length of the byte string, turned into its head, Rec.cpp:706-710. When nothing fits, the byte that the
code changes all the same is not counted here. -/
def stringHeadBounded (v n : Nat) : Bytes :=
  match encodeU64Classic v n with
  | [] => []
  | b :: r => (b ||| 0x40) :: r

/-- `SerializeBpv7` of the encapsulated bundle, Rec.cpp:653-725. The bundle is copied without regard to the space
left. -/
def Pdu.write (p : Pdu) (n : Nat) : Option Bytes :=
  if n = 0 then none
  else some (0x83 :: (writeAll [encodeU64Classic p.transmissionId, encodeU64Classic p.retransmission,
    stringHeadBounded p.bundle.length] (n - 1) ++ p.bundle))

/-- `GetSerializationSize` of the encapsulated bundle, Rec.cpp:726-733. -/
def Pdu.size (p : Pdu) : Option Nat := do
  return 1 + (← encodingSize p.transmissionId) + (← encodingSize p.retransmission) + (← encodingSize p.bundle.length) +
    p.bundle.length

/-- The virtual `SerializeBpv7` of the content. -/
def Content.write (n : Nat) : Content → Option Bytes
  | .report r => r.write n
  | .pdu p => p.write n

/-- The virtual `GetSerializationSize` of the content. -/
def Content.size : Content → Option Nat
  | .report r => r.size
  | .pdu p => p.size

/-- The data of the block, Rec.cpp:63-108. -/
def Record.write (r : Record) (n : Nat) : Option Bytes :=
  if n = 0 then none
  else
    let code := encodeU64Classic r.code (n - 1)
    match r.content with
    | none => some (0x82 :: code)
    | some c => (c.write (n - 1 - code.length)).map fun body => 0x82 :: (code ++ body)

/-- `GetCanonicalBlockTypeSpecificDataSerializationSize`, Rec.cpp:115-119. -/
def Record.size (r : Record) : Option Nat := do
  let content ← match r.content with
    | none => some 0
    | some c => c.size
  return 1 + (← encodingSize r.code) + content

/-- `Bpv7AdministrativeRecord::SerializeBpv7`, Rec.cpp:59-113, of a block with the given members. The block type is
that of the payload. -/
def Record.serialize (r : Record) (number flags : Nat) (crcType : UInt8) (mem : Bytes) : Option (Bytes × Canonical) := do
  let n ← r.size
  let d ← r.write n
  serializeWith 1 number flags crcType n d mem

/-! ### Reading -/

/-- The break at the end of an array of indefinite length, Rec.cpp:511-520, :598-606, :832-841, :190-200. -/
def readBreak (indefinite : Bool) (buf : Bytes) : Option Bytes :=
  if indefinite then
    match buf with
    | [] => none
    | b :: r => if b ≠ 0xff then none else some r
  else some buf

/-- Whether times are reported, decided by the first status asserted, Rec.cpp:465-483. -/
def detect (known : Option Bool) (n : UInt8) (buf : Bytes) : Option Bool :=
  match known with
  | some f => some f
  | none =>
    match buf with
    | next :: _ :: _ => if n = 31 then some (next != 0xff) else some (n == 2)
    | _ => none

/-- One round of the loop over the statuses, Rec.cpp:434-520. `known` is `m_reportStatusTimeFlagWasSet` once it was
detected. The time of a status that is not asserted keeps its initial value. -/
def readStatus (known : Option Bool) (buf : Bytes) : Option ((Status × Option Bool) × Bytes) :=
  match buf with
  | h :: b :: r =>
    let n := h &&& 0x1f
    if h >>> 5 ≠ 4 then none
    else if n ≠ 1 ∧ n ≠ 2 ∧ n ≠ 31 then none
    else if b = 0xf4 then do
      let r ← readBreak (n = 31) r
      return ((⟨false, 0⟩, known), r)
    else if b = 0xf5 then do
      let flag ← detect known n r
      if (flag = false ∧ n = 2) ∨ (flag = true ∧ n = 1) then none
      else if flag then do
        let (t, r) ← readUint r
        let r ← readBreak (n = 31) r
        return ((⟨true, t⟩, some flag), r)
      else do
        let r ← readBreak (n = 31) r
        return ((⟨true, 0⟩, some flag), r)
    else none
  | _ => none

/-- The loop, Rec.cpp:420-521. -/
def readStatuses : Nat → Option Bool → Bytes → Option ((List Status × Option Bool) × Bytes)
  | 0, known, buf => some (([], known), buf)
  | k + 1, known, buf => do
    let ((s, known), buf) ← readStatus known buf
    let ((ss, known), buf) ← readStatuses k known buf
    return ((s :: ss, known), buf)

/-- Whether the report is about a fragment, Rec.cpp:554-567. -/
def detectFragment (n : UInt8) (buf : Bytes) : Option Bool :=
  if n = 4 then some false
  else if n = 6 then some true
  else
    match buf with
    | [] => none
    | b :: _ => some (b != 0xff)

/-- The last two numbers, Rec.cpp:569-591. -/
def readFragment (isFragment : Bool) (buf : Bytes) : Option ((Nat × Nat) × Bytes) :=
  if isFragment then do
    let (o, buf) ← readUint buf
    let (l, buf) ← readUint buf
    return ((o, l), buf)
  else some ((0, 0), buf)

/-- `DeserializeBpv7` of the report, Rec.cpp:360-609, into a new object. -/
def readReport (buf : Bytes) : Option (Report × Bytes) :=
  match buf with
  | h :: i :: buf =>
    let n := h &&& 0x1f
    if h >>> 5 ≠ 4 then none
    else if n ≠ 4 ∧ n ≠ 6 ∧ n ≠ 31 then none
    else if i ≠ 0x84 ∧ i ≠ 0x9f then none
    else do
      let ((info, known), buf) ← readStatuses 4 none buf
      let timeFlag ← known
      let (reason, buf) ← readUint buf
      let (source, buf) ← read7 buf
      let ((ms, seq), buf) ← readTwo buf
      let isFragment ← detectFragment n buf
      let ((offset, length), buf) ← readFragment isFragment buf
      let buf ← readBreak (n = 31) buf
      return (⟨info, reason, source, ms, seq, isFragment, offset, length, timeFlag⟩, buf)
  | _ => none

/-- `DeserializeBpv7` of the encapsulated bundle, Rec.cpp:734-844. The byte string and the optional byte 0xd8 in
front of it (Rec.cpp:796-824) are read as in a canonical block. -/
def readPdu (buf : Bytes) : Option (Pdu × Bytes) :=
  match buf with
  | [] => none
  | h :: buf =>
    if h ≠ 0x83 ∧ h ≠ 0x9f then none
    else do
      let (transmissionId, buf) ← readUint buf
      let (retransmission, buf) ← readUint buf
      let (bundle, buf) ← readData buf
      let buf ← readBreak (h = 0x9f) buf
      return (⟨transmissionId, retransmission, bundle⟩, buf)

/-- The content by its type code, Rec.cpp:154-181; `none` for a code that is not supported. -/
def readContent (code : Nat) (buf : Bytes) : Option (Option (Content × Bytes)) :=
  if code = 1 then some ((readReport buf).map fun (r, buf) => (.report r, buf))
  else if code = 3 then some ((readPdu buf).map fun (p, buf) => (.pdu p, buf))
  else none

/-- `Virtual_DeserializeExtensionBlockDataBpv7`, Rec.cpp:123-203: the data of the block must be used up, unless the
code is not supported. -/
def Record.read (data : Bytes) : Option Record :=
  match data with
  | [] => none
  | h :: buf =>
    if h ≠ 0x82 ∧ h ≠ 0x9f then none
    else do
      let (code, buf) ← readUint buf
      match readContent code buf with
      | none => return ⟨code, none⟩
      | some content => do
        let (content, buf) ← content
        let buf ← readBreak (h = 0x9f) buf
        if buf.length = 0 then return ⟨code, some content⟩ else none

/-! ### Comparing -/

/-- The loop of `IsEqual`, Rec.cpp:628-641: the second comparison repeats the first. -/
def sameStatuses : List Status → List Status → Bool
  | [], [] => true
  | s :: ss, t :: ts => s.asserted == t.asserted && sameStatuses ss ts
  | _, _ => false

/-- `IsEqual` of the report, Rec.cpp:610-647. -/
def Report.isEqual (a b : Report) : Bool :=
  b.reason == a.reason && b.source == a.source && (b.ms == a.ms && b.seq == a.seq) && b.isFragment == a.isFragment &&
    b.timeFlag == a.timeFlag && (!a.isFragment || (b.offset == a.offset && b.length == a.length)) &&
    sameStatuses a.info b.info

/-- `IsEqual` of the encapsulated bundle, Rec.cpp:845-866. -/
def Pdu.isEqual (a b : Pdu) : Bool :=
  b.transmissionId == a.transmissionId && b.retransmission == a.retransmission &&
    b.bundle.length == a.bundle.length && a.bundle == b.bundle

/-- The virtual `IsEqual` of the content. -/
def Content.isEqual : Content → Content → Bool
  | .report a, .report b => a.isEqual b
  | .pdu a, .pdu b => a.isEqual b
  | _, _ => false

/-- `operator==` of the record apart from the members of the block, Rec.cpp:34-49. -/
def Record.isEqual (a b : Record) : Bool :=
  a.code == b.code &&
    match a.content, b.content with
    | some c, some d => c.isEqual d
    | none, none => true
    | _, _ => false

end Hdtn.AdminRecord7
