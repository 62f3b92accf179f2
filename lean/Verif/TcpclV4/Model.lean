import Verif.Common.BigEndian

/-!
The TCP convergence layer, version 4 (common/tcpcl/src/TcpclV4.cpp, common/tcpcl/include/TcpclV4.h): the
parser that is fed with whatever `recv` returns, and the functions that write the messages.

Not modelled: the logging, and callbacks that are not set (all of them are). Lists of bytes up to the limit
for data segments can be allocated. The parser keeps the members of one state in the constructor of that
state; the one member that survives a message, `m_transferExtensions`, is a field of its own.
-/

namespace Hdtn.TcpclV4

/-- `tcpclv4_extension_t`, TcpclV4.h:157-180. -/
structure Ext where
  flags : UInt8
  type : Nat
  value : Bytes
deriving DecidableEq, Repr

/-- The callbacks, TcpclV4.h:215-224. -/
inductive Event
  | contact (tls : Bool)
  | init (keepAlive segmentMru transferMru : Nat) (node : Bytes) (exts : List Ext)
  | data (contents : Bytes) (isStart isEnd : Bool) (id : Nat) (exts : List Ext)
  | ack (isStart isEnd : Bool) (id total : Nat)
  | reject (reason header : UInt8)
  | refusal (reason : UInt8) (id : Nat)
  | keepAlive
  | term (reason : UInt8) (isAck : Bool)
deriving DecidableEq, Repr

/-- The message that extension items belong to, with its fields before them. The code has the same reading
of items twice, TcpclV4.cpp:586-658 and :815-891. -/
inductive Owner
  | xfer (isStart isEnd : Bool) (id : Nat)
  | init (keepAlive segmentMru transferMru : Nat) (node : Bytes)
deriving DecidableEq, Repr

/-- The states of the parser (TcpclV4.h:35-112) with the members that are in use; `tmp` are the bytes of a
number read so far. -/
inductive Phase
  | sync1
  | sync2
  | sync3
  | sync4
  | version
  | flags
  | msg
  | segFlags
  | segId (isStart isEnd : Bool) (tmp : Bytes)
  | segExtLen (isStart isEnd : Bool) (id : Nat) (tmp : Bytes)
  | segLen (isStart isEnd : Bool) (id : Nat) (tmp : Bytes)
  | seg (isStart isEnd : Bool) (id : Nat) (len : Nat) (got : Bytes)
  | itemFlags (o : Owner) (total count : Nat) (items : List Ext)
  | itemType (o : Owner) (total count : Nat) (items : List Ext) (fl : UInt8) (tmp : Bytes)
  | itemLen (o : Owner) (total count : Nat) (items : List Ext) (fl : UInt8) (type : Nat) (tmp : Bytes)
  | item (o : Owner) (total count : Nat) (items : List Ext) (fl : UInt8) (type : Nat) (len : Nat) (got : Bytes)
  | ackFlags
  | ackId (isStart isEnd : Bool) (tmp : Bytes)
  | ackLen (isStart isEnd : Bool) (id : Nat) (tmp : Bytes)
  | rejectReason
  | rejectHeader (reason : UInt8)
  | refuseReason
  | refuseId (reason : UInt8) (tmp : Bytes)
  | termFlags
  | termReason (isAck : Bool)
  | initKeep (tmp : Bytes)
  | initSeg (keep : Nat) (tmp : Bytes)
  | initXfer (keep segMru : Nat) (tmp : Bytes)
  | initNodeLen (keep segMru xferMru : Nat) (tmp : Bytes)
  | initNode (keep segMru xferMru : Nat) (len : Nat) (got : Bytes)
  | initExtLen (keep segMru xferMru : Nat) (node : Bytes) (tmp : Bytes)
deriving DecidableEq, Repr

/-- The receiver: its state, and `m_transferExtensions.extensionsVec` whenever no items of a segment are
being read (then they are in the state). -/
structure Rx where
  phase : Phase
  left : List Ext
deriving DecidableEq, Repr

/-- The byte-wise reading of a number of `n` bytes in network order, e.g. TcpclV4.cpp:520-531. -/
def field (n : Nat) (tmp : Bytes) (b : UInt8) (more : Bytes → Rx) (done : Nat → Rx × List Event) : Rx × List Event :=
  let tmp := tmp ++ [b]
  if tmp.length = n then done (beValue tmp) else (more tmp, [])

/-- A byte that is not the expected one of the magic, TcpclV4.cpp:380-382, :388-393, :399-404, :410-415. -/
def resync (b : UInt8) : Phase := if b = 0x64 then .sync2 else .sync1

/-- The flags of segments and acknowledgements, TcpclV4.cpp:464-465 and :663-664. -/
def startFlag (b : UInt8) : Bool := b &&& 2 != 0

/-- See `startFlag`. -/
def endFlag (b : UInt8) : Bool := b &&& 1 != 0

/-- The byte with the message type, TcpclV4.cpp:426-460. -/
def typeByte (b : UInt8) : Phase × List Event :=
  match b.toNat with
  | 1 => (.segFlags, [])
  | 2 => (.ackFlags, [])
  | 3 => (.refuseReason, [])
  | 4 => (.msg, [.keepAlive])
  | 5 => (.termFlags, [])
  | 6 => (.rejectReason, [])
  | 7 => (.initKeep [], [])
  | _ => (.msg, [])

/-- The contents of a segment are to be read, TcpclV4.cpp:554-565 and :499-509. -/
def startContents (lim : Nat) (s e : Bool) (id len : Nat) (left : List Ext) : Rx :=
  if lim < len ∨ len = 0 then ⟨.sync1, left⟩ else ⟨.seg s e id len [], left⟩

/-- The length of the items of a segment is known, TcpclV4.cpp:536-546 and :478-485. -/
def startItems (s e : Bool) (id total : Nat) : Rx :=
  if total ≠ 0 then ⟨.itemFlags (.xfer s e id) total 0 [], []⟩ else ⟨.segLen s e id [], []⟩

/-- An item is complete, TcpclV4.cpp:626-634, :640-648 and :855-865, :871-881. -/
def afterItem (o : Owner) (total count : Nat) (items : List Ext) (left : List Ext) : Rx × List Event :=
  if count = total then
    match o with
    | .xfer s e id => (⟨.segLen s e id [], items⟩, [])
    | .init k m x node => (⟨.msg, left⟩, [.init k m x node items])
  else (⟨.itemFlags o total count items, left⟩, [])

/-- The items are longer than announced, TcpclV4.cpp:616-620 and :846-850; the item that has just been begun
stays in the member. -/
def overrun (o : Owner) (items : List Ext) (left : List Ext) : Rx :=
  match o with
  | .xfer _ _ _ => ⟨.sync1, items⟩
  | .init _ _ _ _ => ⟨.sync1, left⟩

/-- The length of an item is known, TcpclV4.cpp:608-635 and :837-866; the count is a `uint32_t`. -/
def startItem (o : Owner) (total count : Nat) (items : List Ext) (fl : UInt8) (type len : Nat) (left : List Ext) :
    Rx × List Event :=
  let count := (count + (5 + len)) % 2 ^ 32
  if total < count then (overrun o (items ++ [⟨fl, type, []⟩]) left, [])
  else if len ≠ 0 then (⟨.item o total count items fl type len [], left⟩, [])
  else afterItem o total count (items ++ [⟨fl, type, []⟩]) left

/-- One turn of the loop of `HandleReceivedChars` as far as it concerns the byte it begins with,
TcpclV4.cpp:362-894. -/
def step (lim : Nat) (r : Rx) (b : UInt8) : Rx × List Event :=
  let left := r.left
  let go := fun (p : Phase) => ((⟨p, left⟩, []) : Rx × List Event)
  let num := fun n tmp (p : Bytes → Phase) done => field n tmp b (fun t => ⟨p t, left⟩) done
  match r.phase with
  -- :371-375
  | .sync1 => go (if b = 0x64 then .sync2 else .sync1)
  -- :376-383
  | .sync2 => go (if b = 0x74 then .sync3 else resync b)
  -- :384-394
  | .sync3 => go (if b = 0x6e then .sync4 else resync b)
  -- :395-405
  | .sync4 => go (if b = 0x21 then .version else resync b)
  -- :406-416
  | .version => go (if b = 4 then .flags else resync b)
  -- :417-424
  | .flags => (⟨.msg, left⟩, [.contact (b &&& 1 != 0)])
  -- :426-460
  | .msg => (⟨(typeByte b).1, left⟩, (typeByte b).2)
  -- :462-465 and :515-518
  | .segFlags => go (.segId (startFlag b) (endFlag b) [])
  -- :520-532
  | .segId s e tmp => num 8 tmp (.segId s e) fun id => go (if s then .segExtLen s e id [] else .segLen s e id [])
  -- :533-548
  | .segExtLen s e id tmp => num 4 tmp (.segExtLen s e id) fun n => (startItems s e id n, [])
  -- :549-566
  | .segLen s e id tmp => num 8 tmp (.segLen s e id) fun n => (startContents lim s e id n left, [])
  -- :567-575
  | .seg s e id len got =>
    let got := got ++ [b]
    if got.length = len then (⟨.msg, []⟩, [.data got s e id left]) else go (.seg s e id len got)
  -- :586-596 and :815-825
  | .itemFlags o total count items => go (.itemType o total count items b [])
  -- :597-605 and :826-834
  | .itemType o total count items fl tmp =>
    num 2 tmp (.itemType o total count items fl) fun t => go (.itemLen o total count items fl t [])
  -- :606-636 and :835-867
  | .itemLen o total count items fl t tmp =>
    num 2 tmp (.itemLen o total count items fl t) fun n => startItem o total count items fl t n left
  -- :637-648 and :868-881
  | .item o total count items fl t len got =>
    let got := got ++ [b]
    if got.length = len then afterItem o total count (items ++ [⟨fl, t, got⟩]) left
    else go (.item o total count items fl t len got)
  -- :661-664 and :686-689
  | .ackFlags => go (.ackId (startFlag b) (endFlag b) [])
  -- :691-698
  | .ackId s e tmp => num 8 tmp (.ackId s e) fun id => go (.ackLen s e id [])
  -- :699-708
  | .ackLen s e id tmp => num 8 tmp (.ackLen s e id) fun n => (⟨.msg, left⟩, [.ack s e id n])
  -- :712-715
  | .rejectReason => go (.rejectHeader b)
  -- :716-722
  | .rejectHeader reason => (⟨.msg, left⟩, [.reject reason b])
  -- :725-729
  | .refuseReason => go (.refuseId b [])
  -- :730-739
  | .refuseId reason tmp => num 8 tmp (.refuseId reason) fun id => (⟨.msg, left⟩, [.refusal reason id])
  -- :742-746
  | .termFlags => go (.termReason (b &&& 1 != 0))
  -- :747-754
  | .termReason isAck => (⟨.msg, left⟩, [.term b isAck])
  -- :757-764
  | .initKeep tmp => num 2 tmp .initKeep fun k => go (.initSeg k [])
  -- :765-772
  | .initSeg k tmp => num 8 tmp (.initSeg k) fun m => go (.initXfer k m [])
  -- :773-780
  | .initXfer k m tmp => num 8 tmp (.initXfer k m) fun x => go (.initNodeLen k m x [])
  -- :781-789
  | .initNodeLen k m x tmp => num 2 tmp (.initNodeLen k m x) fun n => go (.initNode k m x n [])
  -- :790-796
  | .initNode k m x len got =>
    let got := got ++ [b]
    if got.length = len then go (.initExtLen k m x got []) else go (.initNode k m x len got)
  -- :797-814
  | .initExtLen k m x node tmp => num 4 tmp (.initExtLen k m x node) fun n =>
      if n ≠ 0 then go (.itemFlags (.init k m x node) n 0 []) else (⟨.msg, left⟩, [.init k m x node []])

/-- The length of a segment when there are eight bytes for it, TcpclV4.cpp:494-514. -/
def lenShortcut (lim : Nat) (s e : Bool) (id : Nat) (left : List Ext) (rest : Bytes) : (Rx × List Event) × Bytes :=
  if 8 ≤ rest.length then ((startContents lim s e id (beValue (rest.take 8)) left, []), rest.drop 8)
  else ((⟨.segLen s e id [], left⟩, []), rest)

/-- The numbers behind the flags of a segment, TcpclV4.cpp:467-518. -/
def segShortcut (lim : Nat) (b : UInt8) (left : List Ext) (rest : Bytes) : (Rx × List Event) × Bytes :=
  let s := startFlag b
  let e := endFlag b
  if 8 ≤ rest.length then
    let id := beValue (rest.take 8)
    let rest := rest.drop 8
    if s then
      if 4 ≤ rest.length then
        let n := beValue (rest.take 4)
        let rest := rest.drop 4
        if n ≠ 0 then ((⟨.itemFlags (.xfer s e id) n 0 [], []⟩, []), rest) else lenShortcut lim s e id [] rest
      else ((⟨.segExtLen s e id [], left⟩, []), rest)
    else lenShortcut lim s e id left rest
  else ((⟨.segId s e [], left⟩, []), rest)

/-- The numbers behind the flags of an acknowledgement, TcpclV4.cpp:666-689. -/
def ackShortcut (b : UInt8) (left : List Ext) (rest : Bytes) : (Rx × List Event) × Bytes :=
  let s := startFlag b
  let e := endFlag b
  if 8 ≤ rest.length then
    let id := beValue (rest.take 8)
    let rest := rest.drop 8
    if 8 ≤ rest.length then ((⟨.msg, left⟩, [.ack s e id (beValue (rest.take 8))]), rest.drop 8)
    else ((⟨.ackLen s e id [], left⟩, []), rest)
  else ((⟨.ackId s e [], left⟩, []), rest)

/-- The number of bytes that are copied at once behind a byte of contents, TcpclV4.cpp:577-578, :650-651 and
:883-884: the last one is left to the next turn. -/
def bulk (len have' avail : Nat) : Nat := if have' < len then min avail (len - have' - 1) else avail

/-- One turn of the loop: the byte, and the bytes behind it that are taken with it. -/
def round (lim : Nat) (r : Rx) (b : UInt8) (rest : Bytes) : (Rx × List Event) × Bytes :=
  match r.phase with
  | .segFlags => segShortcut lim b r.left rest
  | .ackFlags => ackShortcut b r.left rest
  -- :576-584
  | .seg s e id len got =>
    if (got ++ [b]).length = len then (step lim r b, rest)
    else
      let n := bulk len (got ++ [b]).length rest.length
      ((⟨.seg s e id len (got ++ [b] ++ rest.take n), r.left⟩, []), rest.drop n)
  -- :649-657 and :882-890
  | .item o total count items fl t len got =>
    if (got ++ [b]).length = len then (step lim r b, rest)
    else
      let n := bulk len (got ++ [b]).length rest.length
      ((⟨.item o total count items fl t len (got ++ [b] ++ rest.take n), r.left⟩, []), rest.drop n)
  | _ => (step lim r b, rest)

/-- The loop of `HandleReceivedChars`, TcpclV4.cpp:362-894; every turn takes at least one byte, so that the
length of the buffer bounds the number of turns. -/
def loop (lim : Nat) : Nat → Rx → Bytes → List Event × Rx
  | _, r, [] => ([], r)
  | 0, r, _ :: _ => ([], r)
  | n + 1, r, b :: rest =>
    let t := round lim r b rest
    let s := loop lim n t.1.1 t.2
    (t.1.2 ++ s.1, s.2)

/-- `HandleReceivedChars`, TcpclV4.cpp:362-894. -/
def feed (lim : Nat) (r : Rx) (buf : Bytes) : List Event × Rx := loop lim buf.length r buf

/-- A sequence of calls. -/
def feedAll (lim : Nat) : Rx → List Bytes → List Event × Rx
  | r, [] => ([], r)
  | r, buf :: bufs =>
    let t := feed lim r buf
    let s := feedAll lim t.2 bufs
    (t.1 ++ s.1, s.2)

/-- A new receiver, TcpclV4.cpp:281-299. -/
def start : Rx := ⟨.sync1, []⟩

/-- `InitRx`, TcpclV4.cpp:353-356: what is called for a new connection. -/
def initRx (r : Rx) : Rx := ⟨.sync1, r.left⟩

/-! ### The messages

The vectors are sized before they are written. Where the sizes of node or items do not fit their fields
(`uint16_t`, `uint32_t`) the code writes truncated lengths, for items beyond the vector; the model writes
truncated lengths. -/

/-- `tcpclv4_extension_t::Serialize`, TcpclV4.cpp:172-183. -/
def serializeExt (x : Ext) : Bytes := x.flags :: (toBe 2 x.type ++ (toBe 2 x.value.length ++ x.value))

/-- `tcpclv4_extensions_t::Serialize`, TcpclV4.cpp:230-236. -/
def serializeExts (xs : List Ext) : Bytes := xs.flatMap serializeExt

/-- `GetTotalDataRequiredForSerialization`, TcpclV4.cpp:237-243. -/
def extsSize (xs : List Ext) : Nat := xs.length * 5 + (xs.map fun x => x.value.length).sum

/-- `GenerateContactHeader`, TcpclV4.cpp:896-904. -/
def genContact (tls : Bool) : Bytes := [0x64, 0x74, 0x6e, 0x21, 4, if tls then 1 else 0]

/-- `GenerateSessionInitMessage`, TcpclV4.cpp:906-931. -/
def genInit (keepAlive segmentMru transferMru : Nat) (node : Bytes) (exts : List Ext) : Bytes :=
  7 :: (toBe 2 keepAlive ++ (toBe 8 segmentMru ++ (toBe 8 transferMru ++ (toBe 2 node.length ++
    (node.take (node.length % 2 ^ 16) ++ (toBe 4 (extsSize exts) ++ serializeExts exts))))))

/-- `GenerateStartDataSegmentHeaderOnly`, TcpclV4.cpp:1070-1096. -/
def genStartHeader (isEnd : Bool) (id size : Nat) (exts : List Ext) : Bytes :=
  1 :: (2 ||| if isEnd then 1 else 0) :: (toBe 8 id ++ (toBe 4 (extsSize exts) ++ (serializeExts exts ++ toBe 8 size)))

/-- `GenerateStartDataSegment`, TcpclV4.cpp:1041-1069. -/
def genStart (isEnd : Bool) (id : Nat) (contents : Bytes) (exts : List Ext) : Bytes :=
  1 :: (2 ||| if isEnd then 1 else 0) ::
    (toBe 8 id ++ (toBe 4 (extsSize exts) ++ (serializeExts exts ++ (toBe 8 contents.length ++ contents))))

/-- `GenerateNonFragmentedDataSegmentHeaderOnly`, TcpclV4.cpp:959-980. -/
def genWholeHeader (id size : Nat) : Bytes := 1 :: 3 :: (toBe 8 id ++ ([0, 0, 0, 0] ++ toBe 8 size))

/-- `GenerateNonFragmentedDataSegment`, TcpclV4.cpp:934-958. -/
def genWhole (id : Nat) (contents : Bytes) : Bytes :=
  1 :: 3 :: (toBe 8 id ++ ([0, 0, 0, 0] ++ (toBe 8 contents.length ++ contents)))

/-- `GenerateNonFragmentedDataSegmentHeaderOnly` with extensions, TcpclV4.cpp:1012-1038. -/
def genWholeExtHeader (id size : Nat) (exts : List Ext) : Bytes :=
  1 :: 3 :: (toBe 8 id ++ (toBe 4 (extsSize exts) ++ (serializeExts exts ++ toBe 8 size)))

/-- `GenerateNonFragmentedDataSegment` with extensions, TcpclV4.cpp:983-1011. -/
def genWholeExt (id : Nat) (contents : Bytes) (exts : List Ext) : Bytes :=
  1 :: 3 :: (toBe 8 id ++ (toBe 4 (extsSize exts) ++ (serializeExts exts ++ (toBe 8 contents.length ++ contents))))

/-- `SerializeTransferLengthExtension`, TcpclV4.cpp:184-206. -/
def transferLength (total : Nat) : Bytes := [1, 0, 1, 0, 8] ++ toBe 8 total

/-- `GenerateFragmentedStartDataSegmentWithLengthExtensionHeaderOnly`, TcpclV4.cpp:1133-1164. -/
def genFirstHeader (id size total : Nat) : Bytes :=
  1 :: 2 :: (toBe 8 id ++ (toBe 4 13 ++ (transferLength total ++ toBe 8 size)))

/-- `GenerateFragmentedStartDataSegmentWithLengthExtension`, TcpclV4.cpp:1099-1132. -/
def genFirst (id : Nat) (contents : Bytes) (total : Nat) : Bytes :=
  1 :: 2 :: (toBe 8 id ++ (toBe 4 13 ++ (transferLength total ++ (toBe 8 contents.length ++ contents))))

/-- `GenerateNonStartDataSegmentHeaderOnly`, TcpclV4.cpp:1190-1208. -/
def genNextHeader (isEnd : Bool) (id size : Nat) : Bytes :=
  1 :: (if isEnd then 1 else 0) :: (toBe 8 id ++ toBe 8 size)

/-- `GenerateNonStartDataSegment`, TcpclV4.cpp:1167-1189. -/
def genNext (isEnd : Bool) (id : Nat) (contents : Bytes) : Bytes :=
  1 :: (if isEnd then 1 else 0) :: (toBe 8 id ++ (toBe 8 contents.length ++ contents))

/-- `GenerateAckSegment`, TcpclV4.cpp:1210-1228. -/
def genAck (isStart isEnd : Bool) (id total : Nat) : Bytes :=
  2 :: ((if isStart then 2 else 0) ||| if isEnd then 1 else 0) :: (toBe 8 id ++ toBe 8 total)

/-- `GenerateBundleRefusal`, TcpclV4.cpp:1230-1236. -/
def genRefusal (reason : UInt8) (id : Nat) : Bytes := 3 :: reason :: toBe 8 id

/-- `GenerateMessageRejection`, TcpclV4.cpp:1238-1244. -/
def genReject (reason header : UInt8) : Bytes := [6, reason, header]

/-- `GenerateKeepAliveMessage`, TcpclV4.cpp:1247-1250. -/
def genKeepAlive : Bytes := [4]

/-- `GenerateSessionTerminationMessage`, TcpclV4.cpp:1252-1259. -/
def genTerm (reason : UInt8) (isAck : Bool) : Bytes := [5, if isAck then 1 else 0, reason]

end Hdtn.TcpclV4
