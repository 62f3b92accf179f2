import Verif.Sdnv.Read

/-!
The TCP convergence layer, version 3 (common/tcpcl/src/Tcpcl.cpp, common/tcpcl/include/Tcpcl.h): the
parser that is fed with whatever `recv` returns, and the functions that write the messages.

Not modelled: the logging, callbacks that are not set (all of them are), and the value that the parser
hands out as the reason of a shutdown that has no reason (a member left from earlier).
-/

namespace Hdtn.TcpclV3

open Hdtn.Sdnv

/-- `max` is M_MAX_RX_BUNDLE_SIZE_BYTES (Tcpcl.cpp:24, Tcpcl.h:143). `room` is the largest number of
bytes that `std::vector::reserve` and `std::string::reserve` grant; beyond it they throw
(`std::length_error` or `std::bad_alloc`), and nothing in `HandleReceivedChars` catches. -/
structure Cfg where
  max : Nat
  room : Nat

/-- The callbacks, Tcpcl.h:104-110. A shutdown has a reason and a delay if the flags say so. -/
inductive Event
  | contact (flags : UInt8) (keepAlive : Nat) (eid : Bytes)
  | data (contents : Bytes) (isStart isEnd : Bool)
  | ack (total : Nat)
  | refusal (code : Nat)
  | length (next : Nat)
  | keepAlive
  | shutdown (reason : Option UInt8) (delay : Option Nat)
deriving DecidableEq, Repr

/-- The states of the parser (Tcpcl.h:36-65) with the members that are in use; `tmp` is
`m_sdnvTempVec`. `thrown` is not a state of the code: an exception has left the function. -/
inductive Phase
  | sync1
  | sync2
  | sync3
  | sync4
  | version
  | flags
  | keep1 (flags : UInt8)
  | keep2 (flags : UInt8) (hi : UInt8)
  | eidLen (flags : UInt8) (keep : Nat) (tmp : Bytes)
  | eid (flags : UInt8) (keep : Nat) (len : Nat) (got : Bytes)
  | msg
  | dataLen (isStart isEnd : Bool) (tmp : Bytes)
  | data (isStart isEnd : Bool) (len : Nat) (got : Bytes)
  | ack (tmp : Bytes)
  | length (tmp : Bytes)
  | reason (hasDelay : Bool)
  | delay (reason : Option UInt8) (tmp : Bytes)
  | thrown
deriving DecidableEq, Repr

/-- The byte-wise reading of an SDNV, e.g. Tcpcl.cpp:310-335: more than ten bytes and an undecodable
number send the parser back to looking for a contact header. -/
def sdnvStep (tmp : Bytes) (b : UInt8) (more : Bytes → Phase) (done : Nat → Phase × List Event) :
    Phase × List Event :=
  let tmp := tmp ++ [b]
  if tmp.length > 10 then (.sync1, [])
  else if b.toNat < 128 then
    let r := decodeU64Classic tmp
    if r.2 = 0 then (.sync1, [])
    else if r.2 ≠ tmp.length then (.sync1, [])
    else done r.1
  else (more tmp, [])

/-- A byte that is not the expected one of the magic, Tcpcl.cpp:91-93, :99-104, :110-115, :121-126. -/
def resync (b : UInt8) : Phase := if b = 0x64 then .sync2 else .sync1

/-- The flags of a data segment, Tcpcl.cpp:185-186. -/
def startFlag (b : UInt8) : Bool := (b &&& 0x0f) &&& 2 != 0

/-- See `startFlag`. -/
def endFlag (b : UInt8) : Bool := (b &&& 0x0f) &&& 1 != 0

/-- The contents of a data segment are to be read, Tcpcl.cpp:283-287 and :202-204. -/
def startContents (cfg : Cfg) (isStart isEnd : Bool) (len : Nat) : Phase :=
  if cfg.room < len then .thrown else .data isStart isEnd len []

/-- The byte with the message type, Tcpcl.cpp:178-254, but for the shortcut of data segments. -/
def typeByte (b : UInt8) : Phase × List Event :=
  match (b >>> 4).toNat with
  | 1 => (.dataLen (startFlag b) (endFlag b) [], [])
  | 2 => (.ack [], [])
  | 3 => (.msg, [.refusal (b &&& 0x0f).toNat])
  | 4 => (.msg, [.keepAlive])
  | 5 =>
    if startFlag b then (.reason (endFlag b), [])
    else if endFlag b then (.delay none [], [])
    else (.sync1, [.shutdown none none])
  | 6 => (.length [], [])
  | _ => (.msg, [])

/-- One turn of the loop of `HandleReceivedChars` as far as it concerns the byte it begins with,
Tcpcl.cpp:73-417. -/
def step (cfg : Cfg) : Phase → UInt8 → Phase × List Event
  -- :82-86
  | .sync1, b => (if b = 0x64 then .sync2 else .sync1, [])
  -- :87-94
  | .sync2, b => (if b = 0x74 then .sync3 else resync b, [])
  -- :95-105
  | .sync3, b => (if b = 0x6e then .sync4 else resync b, [])
  -- :106-116
  | .sync4, b => (if b = 0x21 then .version else resync b, [])
  -- :117-127
  | .version, b => (if b = 3 then .flags else resync b, [])
  -- :128-131
  | .flags, b => (.keep1 b, [])
  -- :132-136
  | .keep1 f, b => (.keep2 f b, [])
  -- :137-142
  | .keep2 f hi, b => (.eidLen f (hi.toNat * 256 + b.toNat) [], [])
  -- :143-166
  | .eidLen f k tmp, b => sdnvStep tmp b (.eidLen f k) fun len =>
      (if cfg.room < len then .thrown else .eid f k len [], [])
  -- :167-176
  | .eid f k len got, b =>
    let got := got ++ [b]
    if got.length = len then (.msg, [.contact f k got]) else (.eid f k len got, [])
  -- :178-254
  | .msg, b => typeByte b
  -- :256-288
  | .dataLen s e tmp, b => sdnvStep tmp b (.dataLen s e) fun len =>
      if cfg.max < len then (.sync1, []) else (startContents cfg s e len, [])
  -- :289-296
  | .data s e len got, b =>
    let got := got ++ [b]
    if got.length = len then (.msg, [.data got s e]) else (.data s e len got, [])
  -- :308-338
  | .ack tmp, b => sdnvStep tmp b .ack fun n => (.msg, [.ack n])
  -- :340-370
  | .length tmp, b => sdnvStep tmp b .length fun n => (.msg, [.length n])
  -- :371-384
  | .reason hasDelay, b => if hasDelay then (.delay (some b) [], []) else (.sync1, [.shutdown (some b) none])
  -- :385-415
  | .delay r tmp, b => sdnvStep tmp b (.delay r) fun n => (.sync1, [.shutdown r (some n)])
  | .thrown, _ => (.thrown, [])

/-- The number of bytes that are copied at once behind a byte of contents, Tcpcl.cpp:298-299: with the
length reached too early the difference wraps around to more than any buffer holds. -/
def bulk (len have' avail : Nat) : Nat := if have' < len then min avail (len - have' - 1) else avail

/-- One turn of the loop: the byte, and the bytes behind it that are taken with it. -/
def round (cfg : Cfg) (p : Phase) (b : UInt8) (rest : Bytes) : (Phase × List Event) × Bytes :=
  match p with
  | .msg =>
    -- the shortcut, Tcpcl.cpp:190-206
    if (b >>> 4).toNat = 1 ∧ 16 ≤ rest.length then
      match readSdnv rest with
      | none => ((.sync1, []), rest)
      | some (len, rest') => ((startContents cfg (startFlag b) (endFlag b) len, []), rest')
    else (typeByte b, rest)
  | .data s e len got =>
    -- the copying of many bytes, Tcpcl.cpp:297-305
    if (got ++ [b]).length = len then (step cfg p b, rest)
    else
      let n := bulk len (got ++ [b]).length rest.length
      ((.data s e len (got ++ [b] ++ rest.take n), []), rest.drop n)
  | p => (step cfg p b, rest)

/-- The loop of `HandleReceivedChars`, Tcpcl.cpp:73-417; every turn takes at least one byte, so that
the length of the buffer bounds the number of turns. -/
def loop (cfg : Cfg) : Nat → Phase → Bytes → List Event × Phase
  | _, p, [] => ([], p)
  | 0, p, _ :: _ => ([], p)
  | n + 1, p, b :: rest =>
    let r := round cfg p b rest
    let s := loop cfg n r.1.1 r.2
    (r.1.2 ++ s.1, s.2)

/-- `HandleReceivedChars`, Tcpcl.cpp:73-417. -/
def feed (cfg : Cfg) (p : Phase) (buf : Bytes) : List Event × Phase := loop cfg buf.length p buf

/-- A sequence of calls. -/
def feedAll (cfg : Cfg) : Phase → List Bytes → List Event × Phase
  | p, [] => ([], p)
  | p, buf :: bufs =>
    let r := feed cfg p buf
    let s := feedAll cfg r.2 bufs
    (r.1 ++ s.1, s.2)

/-- `InitRx`, Tcpcl.cpp:59-67. -/
def start : Phase := .sync1

/-! ### The messages -/

/-- The first byte of a message: type and flags, e.g. Tcpcl.cpp:437-443. -/
def header (type flags : UInt8) : UInt8 := (type <<< 4) ||| flags

/-- The two flags of data segments and shutdowns. -/
def twoFlags (a b : Bool) : UInt8 := (if a then 2 else 0) ||| (if b then 1 else 0)

/-- `GenerateContactHeader`, Tcpcl.cpp:420-434; the interval is a `uint16_t`. -/
def genContact (flags : UInt8) (keepAlive : Nat) (eid : Bytes) : Bytes :=
  [0x64, 0x74, 0x6e, 0x21, 3, flags, UInt8.ofNat (keepAlive % 2 ^ 16 / 256), UInt8.ofNat (keepAlive % 256)] ++
    (encodeU64ClassicBufSize10 eid.length ++ eid)

/-- `GenerateDataSegmentHeaderOnly`, Tcpcl.cpp:451-463. -/
def genDataHeader (isStart isEnd : Bool) (size : Nat) : Bytes :=
  header 1 (twoFlags isStart isEnd) :: encodeU64ClassicBufSize10 size

/-- `GenerateDataSegment`, Tcpcl.cpp:436-449. -/
def genData (isStart isEnd : Bool) (contents : Bytes) : Bytes :=
  header 1 (twoFlags isStart isEnd) :: (encodeU64ClassicBufSize10 contents.length ++ contents)

/-- `GenerateAckSegment`, Tcpcl.cpp:465-471. -/
def genAck (total : Nat) : Bytes := header 2 0 :: encodeU64ClassicBufSize10 total

/-- `GenerateBundleRefusal`, Tcpcl.cpp:473-478. -/
def genRefusal (code : UInt8) : Bytes := [header 3 code]

/-- `GenerateBundleLength`, Tcpcl.cpp:480-486. -/
def genLength (next : Nat) : Bytes := header 6 0 :: encodeU64ClassicBufSize10 next

/-- `GenerateKeepAliveMessage`, Tcpcl.cpp:488-491. -/
def genKeepAlive : Bytes := [header 4 0]

/-- `GenerateShutdownMessage`, Tcpcl.cpp:493-522. -/
def genShutdown (reason : Option UInt8) (delay : Option Nat) : Bytes :=
  header 5 (twoFlags reason.isSome delay.isSome) ::
    (reason.toList ++ (delay.map encodeU64ClassicBufSize10).getD [])

end Hdtn.TcpclV3
