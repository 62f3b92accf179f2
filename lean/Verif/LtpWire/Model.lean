import Verif.LtpReport.Model
import Verif.Sdnv.Model

/-!
Model of the LTP segment parser and of the segment generators, `common/ltp/src/Ltp.cpp`. Members of
the parser that belong to the segment being read are held in the state that uses them; what earlier
segments left in them is not represented. Numbers are decoded with the portable SDNV decoders.
Allocation is not modelled: `reserve` and `resize` are called with lengths and counts from the wire
(Ltp.cpp:557, 645, 843, 983, 1134, 1296), without a limit. Callbacks are taken to be set.
-/

namespace Hdtn.LtpWire

open Hdtn.Sdnv Hdtn.LtpReport

/-- `Ltp::session_id_t`, Ltp.h:135. -/
structure SessionId where
  engine : Nat
  number : Nat
deriving DecidableEq, Repr

/-- `Ltp::ltp_extension_t`, Ltp.h. -/
structure Ext where
  tag : UInt8
  value : Bytes
deriving DecidableEq, Repr

/-- `Ltp::data_segment_metadata_t`, Ltp.h; the two serial numbers are there or not together. -/
structure Meta where
  client : Nat
  offset : Nat
  length : Nat
  checkpoint : Option (Nat × Nat)
deriving DecidableEq, Repr

/-- The serial numbers and bounds of `Ltp::report_segment_t`, Ltp.h:153-181. -/
structure ReportNums where
  reportSerial : Nat
  checkpointSerial : Nat
  upper : Nat
  lower : Nat
deriving DecidableEq, Repr

/-- What a callback is given, apart from session and extensions. The bytes of a data segment are
`none` when the pointer handed over refers to a buffer of an earlier call. -/
inductive Content
  | data (flags : Nat) (m : Meta) (bytes : Option Bytes)
  | report (r : ReportNums) (claims : List Claim)
  | reportAck (serial : Nat)
  | cancel (reason : UInt8) (fromSender : Bool)
  | cancelAck (toSender : Bool)
deriving DecidableEq, Repr

/-- One call of a callback. -/
structure Event where
  id : SessionId
  header : List Ext
  content : Content
  trailer : List Ext
deriving DecidableEq, Repr

/-- Control byte, session and extension counts of the segment being read, and the header extensions
read so far. -/
structure Head where
  flags : Nat
  id : SessionId
  numHeader : Nat
  numTrailer : Nat
  exts : List Ext
deriving DecidableEq, Repr

/-- The states of the parser (Ltp.h:39-90) with the members that are in use; `tmp` is
`m_sdnvTempVec`. `lent` says that the data pointer refers to the buffer of the caller. -/
inductive Phase
  | control
  | session (flags : Nat) (vals : List Nat) (tmp : Bytes)
  | counts (flags : Nat) (id : SessionId)
  | headerTag (h : Head)
  | headerLen (h : Head) (tag : UInt8) (tmp : Bytes)
  | headerValue (h : Head) (tag : UInt8) (len : Nat) (got : Bytes)
  | dataNums (h : Head) (vals : List Nat) (tmp : Bytes)
  | dataBytes (h : Head) (m : Meta) (got : Bytes)
  | reportNums (h : Head) (vals : List Nat) (tmp : Bytes)
  | claimOffset (h : Head) (r : ReportNums) (count : Nat) (claims : List Claim) (tmp : Bytes)
  | claimLength (h : Head) (r : ReportNums) (count : Nat) (claims : List Claim) (offset : Nat) (tmp : Bytes)
  | ackNum (h : Head) (tmp : Bytes)
  | cancelByte (h : Head)
  | trailerTag (h : Head) (lent : Bool) (c : Content) (exts : List Ext)
  | trailerLen (h : Head) (lent : Bool) (c : Content) (exts : List Ext) (tag : UInt8) (tmp : Bytes)
  | trailerValue (h : Head) (lent : Bool) (c : Content) (exts : List Ext) (tag : UInt8) (len : Nat) (got : Bytes)
deriving DecidableEq, Repr

/-- What one byte leads to: an error, another state, a callback (and the initial state), or the end of
the header extensions. -/
inductive Res
  | fail
  | next (p : Phase)
  | emit (e : Event)
  | content (h : Head)
deriving DecidableEq, Repr

/-- The byte-wise reading of an SDNV, e.g. Ltp.cpp:461-480. -/
def sdnvStep (tmp : Bytes) (b : UInt8) (more : Bytes → Phase) (done : Nat → Res) : Res :=
  let tmp := tmp ++ [b]
  if tmp.length > 10 then .fail
  else if b.toNat < 128 then
    let r := decodeU64Classic tmp
    if r.2 ≠ tmp.length then .fail else done r.1
  else .next (more tmp)

/-- The end of the contents: the trailer if there is one, otherwise the callback (e.g. Ltp.cpp:892-902). -/
def finish (h : Head) (lent : Bool) (c : Content) : Res :=
  if h.numTrailer ≠ 0 then .next (.trailerTag h lent c []) else .emit ⟨h.id, h.exts, c, []⟩

/-- A header extension is complete, Ltp.cpp:544-554 and :566-576. -/
def headerExtDone (h : Head) (x : Ext) : Res :=
  let h := { h with exts := h.exts ++ [x] }
  if h.exts.length = h.numHeader then .content h else .next (.headerTag h)

/-- A trailer extension is complete, Ltp.cpp:975-980, :992-997 and the callbacks of
`NextStateAfterTrailerExtensions`, :1045-1088. -/
def trailerExtDone (h : Head) (lent : Bool) (c : Content) (exts : List Ext) (x : Ext) : Res :=
  let exts := exts ++ [x]
  if exts.length = h.numTrailer then .emit ⟨h.id, h.exts, c, exts⟩ else .next (.trailerTag h lent c exts)

/-- The data segment types that are checkpoints, Ltp.cpp:637 and :1107-1112. -/
def isCheckpoint (flags : Nat) : Bool := 1 ≤ flags && flags ≤ 3

/-- A number of a data segment was read, Ltp.cpp:582-690. -/
def dataNext (h : Head) : List Nat → Nat → Res
  | [], v => .next (.dataNums h [v] [])
  | [c], v => .next (.dataNums h [c, v] [])
  | [c, o], v =>
    if v = 0 then .fail
    else if isCheckpoint h.flags then .next (.dataNums h [c, o, v] [])
    else .next (.dataBytes h ⟨c, o, v, none⟩ [])
  | [c, o, l], v => .next (.dataNums h [c, o, l, v] [])
  | [c, o, l, k], v => .next (.dataBytes h ⟨c, o, l, some (k, v)⟩ [])
  | _, _ => .fail

/-- A number of a report segment in front of the claims was read, Ltp.cpp:747-847. -/
def reportNext (h : Head) : List Nat → Nat → Res
  | [a, b, c, d], v => if v = 0 then .fail else .next (.claimOffset h ⟨a, b, c, d⟩ v [] [])
  | vals, v => .next (.reportNums h (vals ++ [v]) [])

/-- The length of a claim was read, Ltp.cpp:882-903. -/
def claimNext (h : Head) (r : ReportNums) (count : Nat) (claims : List Claim) (offset v : Nat) : Res :=
  if v = 0 then .fail
  else
    let claims := claims ++ [⟨offset, v⟩]
    if claims.length < count then .next (.claimOffset h r count claims [])
    else finish h false (.report r claims)

/-- Flags of a cancel acknowledgement, `(flags & 0xd) == 0xd`, Ltp.cpp:1006. -/
def isCancelAck (flags : Nat) : Bool := flags &&& 0xd = 0xd

/-- One byte in the loop of `HandleReceivedChars`, Ltp.cpp:387-1001, without what is done there with
the bytes behind it. `content` stands for the call of `NextStateAfterHeaderExtensions`. -/
def step : Phase → UInt8 → Res
  | .control, b => if b.toNat / 16 ≠ 0 then .fail else .next (.session (b.toNat % 16) [] [])
  | .session flags vals tmp, b =>
    sdnvStep tmp b (.session flags vals) fun v =>
      match vals with
      | [] => .next (.session flags [v] [])
      | e :: _ => .next (.counts flags ⟨e, v⟩)
  | .counts flags id, b =>
    let h : Head := ⟨flags, id, b.toNat / 16, b.toNat % 16, []⟩
    if h.numHeader ≠ 0 then .next (.headerTag h) else .content h
  | .headerTag h, b => .next (.headerLen h b [])
  | .headerLen h tag tmp, b =>
    sdnvStep tmp b (.headerLen h tag) fun v =>
      if v = 0 then headerExtDone h ⟨tag, []⟩ else .next (.headerValue h tag v [])
  | .headerValue h tag len got, b =>
    if (got ++ [b]).length = len then headerExtDone h ⟨tag, got ++ [b]⟩
    else .next (.headerValue h tag len (got ++ [b]))
  | .dataNums h vals tmp, b => sdnvStep tmp b (.dataNums h vals) (dataNext h vals)
  | .dataBytes h m got, b =>
    if (got ++ [b]).length = m.length then finish h false (.data h.flags m (some (got ++ [b])))
    else .next (.dataBytes h m (got ++ [b]))
  | .reportNums h vals tmp, b => sdnvStep tmp b (.reportNums h vals) (reportNext h vals)
  | .claimOffset h r count claims tmp, b =>
    sdnvStep tmp b (.claimOffset h r count claims) fun v => .next (.claimLength h r count claims v [])
  | .claimLength h r count claims offset tmp, b =>
    sdnvStep tmp b (.claimLength h r count claims offset) (claimNext h r count claims offset)
  | .ackNum h tmp, b => sdnvStep tmp b (.ackNum h) fun v => finish h false (.reportAck v)
  | .cancelByte h, b => finish h false (.cancel b (h.flags = 12))
  | .trailerTag h lent c exts, b => .next (.trailerLen h lent c exts b [])
  | .trailerLen h lent c exts tag tmp, b =>
    sdnvStep tmp b (.trailerLen h lent c exts tag) fun v =>
      if v = 0 then trailerExtDone h lent c exts ⟨tag, []⟩ else .next (.trailerValue h lent c exts tag v [])
  | .trailerValue h lent c exts tag len got, b =>
    if (got ++ [b]).length = len then trailerExtDone h lent c exts ⟨tag, got ++ [b]⟩
    else .next (.trailerValue h lent c exts tag len (got ++ [b]))

/-! ### Shortcuts -/

/-- `SdnvDecodeArrayU64` on the bytes that are left: `none` for an error, otherwise the values and the
bytes behind them. -/
def batch (n : Nat) (rest : Bytes) : Option (List Nat × Bytes) :=
  let r := decodeArrayU64Classic n rest
  if r.error then none else some (r.values, rest.drop r.numBytes)

/-- `TryShortcutReadDataSegmentSdnvs` after the decoding, Ltp.cpp:1121-1146. -/
def dataAfter (h : Head) : List Nat → Res
  | [c, o, l] =>
    if l = 0 then .fail
    else if isCheckpoint h.flags then .next (.dataNums h [c, o, l] [])
    else .next (.dataBytes h ⟨c, o, l, none⟩ [])
  | [c, o, l, k] => if l = 0 then .fail else .next (.dataNums h [c, o, l, k] [])
  | [c, o, l, k, r] => if l = 0 then .fail else .next (.dataBytes h ⟨c, o, l, some (k, r)⟩ [])
  | vals => .next (.dataNums h vals [])

/-- `TryShortcutReadDataSegmentSdnvs`, Ltp.cpp:1097-1146. -/
def dataShortcut (h : Head) (rest : Bytes) : Res × Bytes :=
  match batch (if isCheckpoint h.flags then 5 else 3) rest with
  | none => (.fail, rest)
  | some (vals, rest) => (dataAfter h vals, rest)

/-- The claims that the decoded numbers fill, and the offset left over (Ltp.cpp:1304-1307). -/
def pairUp : List Nat → List Claim × Option Nat
  | [] => ([], none)
  | [o] => ([], some o)
  | o :: l :: vs => (⟨o, l⟩ :: (pairUp vs).1, (pairUp vs).2)

/-- The claims in `TryShortcutReadReportSegmentSdnvs`, Ltp.cpp:1295-1332. The number of values asked
for is twice the count as `unsigned int`. -/
def claimsShortcut (h : Head) (r : ReportNums) (count : Nat) (rest : Bytes) : Res × Bytes :=
  let n := 2 * count % 2 ^ 32
  match batch n rest with
  | none => (.fail, rest)
  | some (vals, rest) =>
    let (claims, offset) := pairUp vals
    if claims.any (fun c => c.length = 0) then (.fail, rest)
    else if n = vals.length then (finish h false (.report r claims), rest)
    else
      match offset with
      | none => (.next (.claimOffset h r count claims []), rest)
      | some o => (.next (.claimLength h r count claims o []), rest)

/-- `TryShortcutReadReportSegmentSdnvs`, Ltp.cpp:1262-1332. -/
def reportShortcut (h : Head) (rest : Bytes) : Res × Bytes :=
  match batch 5 rest with
  | none => (.fail, rest)
  | some (vals, rest) =>
    match vals with
    | [a, b, c, d, count] =>
      if count = 0 then (.fail, rest) else claimsShortcut h ⟨a, b, c, d⟩ count rest
    | _ => (.next (.reportNums h vals []), rest)

/-- `NextStateAfterHeaderExtensions`, Ltp.cpp:1005-1043, with the bytes behind the header. -/
def startContent (h : Head) (rest : Bytes) : Res × Bytes :=
  if isCancelAck h.flags then (finish h false (.cancelAck (h.flags = 13)), rest)
  else if h.flags = 5 ∨ h.flags = 6 ∨ h.flags = 10 ∨ h.flags = 11 then (.fail, rest)
  else if h.flags ≤ 7 then dataShortcut h rest
  else if h.flags = 8 then reportShortcut h rest
  else if h.flags = 9 then (.next (.ackNum h []), rest)
  else (.next (.cancelByte h), rest)

/-- The control byte, Ltp.cpp:393-420: engine id and session number are decoded if they are there. -/
def controlByte (b : UInt8) (rest : Bytes) : Res × Bytes :=
  if b.toNat / 16 ≠ 0 then (.fail, rest)
  else
    match batch 2 rest with
    | none => (.fail, rest)
    | some (vals, rest) =>
      match vals with
      | [e, n] => (.next (.counts (b.toNat % 16) ⟨e, n⟩), rest)
      | _ => (.next (.session (b.toNat % 16) vals []), rest)

/-- Client service data, Ltp.cpp:691-743: the data is used where it is if all of it is there, otherwise
copied, as far as it is there but for the last byte. -/
def dataByte (h : Head) (m : Meta) (got : Bytes) (b : UInt8) (rest : Bytes) : Res × Bytes :=
  if got.length = 0 ∧ m.length ≤ rest.length + 1 then
    (finish h true (.data h.flags m (some ((b :: rest).take m.length))), rest.drop (m.length - 1))
  else
    let got := got ++ [b]
    if got.length = m.length then (finish h false (.data h.flags m (some got)), rest)
    else
      let k := min rest.length (m.length - got.length - 1)
      (.next (.dataBytes h m (got ++ rest.take k)), rest.drop k)

/-- One round of the loop of `HandleReceivedChars`, Ltp.cpp:387-1001: what the byte leads to, and the
bytes left. -/
def round (p : Phase) (b : UInt8) (rest : Bytes) : Res × Bytes :=
  match p with
  | .control => controlByte b rest
  | .dataBytes h m got => dataByte h m got b rest
  | p =>
    match step p b with
    | .content h => startContent h rest
    | r => (r, rest)

/-- The loop of `HandleReceivedChars`, Ltp.cpp:385-1003: the callbacks, and the state unless it returns
false. The recursion is on a bound that the number of bytes always meets. -/
def loop : Nat → Phase → Bytes → List Event × Option Phase
  | 0, p, _ => ([], some p)
  | _, p, [] => ([], some p)
  | fuel + 1, p, b :: rest =>
    match round p b rest with
    | (.fail, _) => ([], none)
    | (.next p, rest) => loop fuel p rest
    | (.emit e, rest) =>
      let (es, q) := loop fuel .control rest
      (e :: es, q)
    | (.content _, _) => ([], none)

/-- The data of the segment is no longer there. -/
def Content.lost : Content → Content
  | .data flags m _ => .data flags m none
  | c => c

/-- The state in which a call of `HandleReceivedChars` begins: a data pointer into the buffer of the
call before (Ltp.cpp:694) is no longer valid. -/
def Phase.enter : Phase → Phase
  | .trailerTag h true c exts => .trailerTag h false c.lost exts
  | .trailerLen h true c exts tag tmp => .trailerLen h false c.lost exts tag tmp
  | .trailerValue h true c exts tag len got => .trailerValue h false c.lost exts tag len got
  | p => p

/-- `HandleReceivedChars`, Ltp.cpp:385-1003. -/
def feed (p : Phase) (buf : Bytes) : List Event × Option Phase := loop buf.length p.enter buf

/-- Several calls of `HandleReceivedChars`, up to the first that returns false. -/
def feedAll : Phase → List Bytes → List Event × Option Phase
  | p, [] => ([], some p)
  | p, buf :: bufs =>
    match feed p buf with
    | (es, none) => (es, none)
    | (es, some q) =>
      let (es', q') := feedAll q bufs
      (es ++ es', q')

/-! ### Generators -/

/-- `ltp_extension_t::Serialize`, Ltp.cpp:235-246. -/
def Ext.serialize (x : Ext) : Bytes := x.tag :: encodeU64ClassicBufSize10 x.value.length ++ x.value

/-- `ltp_extensions_t::Serialize`, Ltp.cpp:271-277. -/
def serializeExts (xs : List Ext) : Bytes := (xs.map Ext.serialize).flatten

/-- Control byte, session and extension counts, e.g. Ltp.cpp:1510-1513; the counts are `uint8_t`. -/
def serializeHeader (flags : Nat) (id : SessionId) (numHeader numTrailer : Nat) : Bytes :=
  UInt8.ofNat flags :: encodeU64ClassicBufSize10 id.engine ++ encodeU64ClassicBufSize10 id.number ++
    [UInt8.ofNat ((numHeader % 256) <<< 4 ||| numTrailer % 256)]

/-- `data_segment_metadata_t::Serialize`, Ltp.cpp:314-324. -/
def Meta.serialize (m : Meta) : Bytes :=
  encodeU64ClassicBufSize10 m.client ++ encodeU64ClassicBufSize10 m.offset ++
    encodeU64ClassicBufSize10 m.length ++
    (match m.checkpoint with
     | some (c, r) => encodeU64ClassicBufSize10 c ++ encodeU64ClassicBufSize10 r
     | none => [])

/-- `GenerateLtpHeaderPlusDataSegmentMetadata`, Ltp.cpp:1496-1519; the data follows it in the packet. -/
def generateDataHeader (flags : Nat) (id : SessionId) (m : Meta) (header : List Ext) (numTrailer : Nat) :
    Bytes :=
  serializeHeader flags id header.length numTrailer ++ serializeExts header ++ m.serialize

/-- `reception_claim_t::Serialize`, Ltp.cpp:124-129. -/
def serializeClaim (c : Claim) : Bytes :=
  encodeU64ClassicBufSize10 c.offset ++ encodeU64ClassicBufSize10 c.length

/-- `report_segment_t::Serialize`, Ltp.cpp:186-199. -/
def serializeReport (r : ReportNums) (claims : List Claim) : Bytes :=
  encodeU64ClassicBufSize10 r.reportSerial ++ encodeU64ClassicBufSize10 r.checkpointSerial ++
    encodeU64ClassicBufSize10 r.upper ++ encodeU64ClassicBufSize10 r.lower ++
    encodeU64ClassicBufSize10 claims.length ++ (claims.map serializeClaim).flatten

/-- `GenerateReportSegmentLtpPacket`, Ltp.cpp:1521-1552. -/
def generateReport (id : SessionId) (r : ReportNums) (claims : List Claim) (header trailer : List Ext) : Bytes :=
  serializeHeader 8 id header.length trailer.length ++ serializeExts header ++ serializeReport r claims ++
    serializeExts trailer

/-- `GenerateReportAcknowledgementSegmentLtpPacket`, Ltp.cpp:1554-1584. -/
def generateReportAck (id : SessionId) (serial : Nat) (header trailer : List Ext) : Bytes :=
  serializeHeader 9 id header.length trailer.length ++ serializeExts header ++
    encodeU64ClassicBufSize10 serial ++ serializeExts trailer

/-- `GenerateCancelSegmentLtpPacket`, Ltp.cpp:1586-1616. -/
def generateCancel (id : SessionId) (reason : UInt8) (fromSender : Bool) (header trailer : List Ext) : Bytes :=
  serializeHeader (if fromSender then 12 else 14) id header.length trailer.length ++ serializeExts header ++
    [reason] ++ serializeExts trailer

/-- `GenerateCancelAcknowledgementSegmentLtpPacket`, Ltp.cpp:1618-1647. -/
def generateCancelAck (id : SessionId) (toSender : Bool) (header trailer : List Ext) : Bytes :=
  serializeHeader (if toSender then 13 else 15) id header.length trailer.length ++ serializeExts header ++
    serializeExts trailer

end Hdtn.LtpWire
