import Verif.Base

/-!
Model of CCSDS encapsulation packets, and of how they are read from a local stream.

 - CcsdsEncap.h, CcsdsEncapEncode.h, CcsdsEncapDecode.h and EncapAsyncDuplexLocalStream.h are in /repo/common/util/include.

Simplifications: what the stream brings is a sequence of bytes in chunks; errors of the operating system are a reconnection.
-/

namespace Hdtn.Encap

/-- `ENCAP_PACKET_TYPE`, CcsdsEncap.h:35-39. -/
inductive Kind
  | idle
  | ltp
  | bp
deriving DecidableEq, Repr

/-- The first byte without the length of the length. -/
def Kind.byte : Kind → UInt8
  | .idle => 0xe0
  | .ltp => 0xe4
  | .bp => 0xf0

/-- `GetCcsdsEncapHeader`, CcsdsEncapEncode.h:35-91. -/
def encode (kind : Kind) (size : Nat) : Option Bytes :=
  if size > 0xffffffff - 8 then none
  else if size = 0 then
    if kind = .idle then some [kind.byte] else none
  else if kind = .idle then none
  else if size ≤ 0xff - 2 then some [kind.byte ||| 1, UInt8.ofNat (size + 2)]
  else if size ≤ 0xffff - 4 then some [kind.byte ||| 2, 0, UInt8.ofNat ((size + 4) / 256), UInt8.ofNat (size + 4)]
  else some [kind.byte ||| 3, 0, 0, 0, UInt8.ofNat ((size + 8) / 16777216), UInt8.ofNat ((size + 8) / 65536), UInt8.ofNat ((size + 8) / 256),
    UInt8.ofNat (size + 8)]

/-- `DecodeCcsdsEncapHeaderSizeFromFirstByte`, CcsdsEncapDecode.h:35-44. -/
def decodeFirst (kind : Kind) (b : UInt8) : Nat :=
  if b = Kind.idle.byte then 1
  else if b = kind.byte ||| (b &&& 3) ∧ b &&& 3 ≠ 0 then 2 ^ (b &&& 3).toNat
  else 0

/-- Subtraction with 32 bits. -/
def sub32 (a b : Nat) : Nat := (a + U32 - b) % U32

/-- `DecodeCcsdsEncapPayloadSizeFromSecondToRemainingBytes`, CcsdsEncapDecode.h:58-103: the user defined field and the size of the payload. The bytes
are those behind the first. -/
def decodeRest (headerSize : Nat) (rest : Bytes) : Option (Nat × Nat) :=
  if headerSize = 1 then some (0, 0)
  else if headerSize = 2 then
    match rest with
    | [n] => some (0, sub32 n.toNat 2)
    | _ => none
  else if headerSize = 4 then
    match rest with
    | [u, a, b] => if u &&& 0x0f ≠ 0 then none else some ((u >>> 4).toNat, sub32 (a.toNat * 256 + b.toNat) 4)
    | _ => none
  else if headerSize = 8 then
    match rest with
    | [u, x, y, a, b, c, d] =>
      if u &&& 0x0f ≠ 0 then none
      else if x ≠ 0 then none
      else if y ≠ 0 then none
      else some ((u >>> 4).toNat, sub32 (((a.toNat * 256 + b.toNat) * 256 + c.toNat) * 256 + d.toNat) 8)
    | _ => none
  else none

/-- What is sent for a payload, BpOverEncapLocalStreamOutduct.cpp:308 and LtpEncapLocalStreamEngine.cpp:329: its size is cut to 32 bits. -/
def frame (kind : Kind) (payload : Bytes) : Option Bytes :=
  (encode kind (payload.length % U32)).map (· ++ payload)

/-- What is being read: the first byte, the rest of a header, or a payload. -/
inductive Read
  | first
  | header (first : UInt8) (size : Nat) (got : Bytes)
  | payload (header : Bytes) (size : Nat) (got : Bytes)
deriving DecidableEq, Repr

/-- A packet as it is handed to the callback: the buffer, the size of the payload, and the size of the header. -/
structure Packet where
  buffer : Bytes
  payloadSize : Nat
  headerSize : Nat
deriving DecidableEq, Repr

/-- `EncapAsyncDuplexLocalStream`: its configuration (`auto`: the callback starts the next read itself), `m_readStarted`, the read that is pending,
bytes that came while none was, and the packets that were handed over. -/
structure Rx where
  kind : Kind
  keepHeader : Bool
  auto : Bool
  started : Bool
  pending : Option Read
  unread : Bytes
  out : List Packet
deriving DecidableEq, Repr

/-- `StartReadFirstEncapHeaderByte_NotThreadSafe`, EncapAsyncDuplexLocalStream.h:382-391. -/
def Rx.startRead (s : Rx) : Rx :=
  if s.started then s else { s with started := true, pending := some .first }

/-- `HandleEncapPayloadReadCompleted`, EncapAsyncDuplexLocalStream.h:472-496. -/
def Rx.complete (s : Rx) (header : Bytes) (data : Bytes) : Rx :=
  let s : Rx := { s with
    started := false
    pending := none
    out := s.out ++ [⟨(if s.keepHeader then header else []) ++ data, data.length, header.length⟩] }
  if s.auto then s.startRead else s

/-- The handlers for completed reads, EncapAsyncDuplexLocalStream.h:396-470. A read of no byte is complete at once. -/
def Rx.byte (s : Rx) (b : UInt8) : Rx :=
  match s.pending with
  | none => { s with unread := s.unread ++ [b] }
  | some .first =>
    let size := decodeFirst s.kind b
    if size = 0 then { s with pending := none }
    else if size = 1 then Rx.startRead { s with pending := none }
    else { s with pending := some (.header b size []) }
  | some (.header first size got) =>
    if got.length + 1 < size - 1 then { s with pending := some (.header first size (got ++ [b])) }
    else match decodeRest size (got ++ [b]) with
      | none => { s with pending := none }
      | some (_, n) => if n = 0 then s.complete (first :: (got ++ [b])) [] else { s with pending := some (.payload (first :: (got ++ [b])) n []) }
  | some (.payload header size got) =>
    if got.length + 1 < size then { s with pending := some (.payload header size (got ++ [b])) }
    else s.complete header (got ++ [b])

/-- Bytes come. -/
def Rx.bytes (s : Rx) (l : Bytes) : Rx := l.foldl Rx.byte s

/-- Things that happen: bytes come; the callback's owner starts a read; the stream is lost and connected again (`HandleShutdown` and
`OnConnectionCompleted_NotThreadSafe`, EncapAsyncDuplexLocalStream.h:498-537 and 374-380). -/
inductive Op
  | bytes (l : Bytes)
  | restart
  | reconnect

def Rx.step (s : Rx) : Op → Rx
  | .bytes l => s.bytes l
  | .restart => Rx.bytes (Rx.startRead { s with unread := [] }) s.unread
  | .reconnect => Rx.startRead { s with started := false, pending := none, unread := [] }

def Rx.run (s : Rx) (ops : List Op) : Rx := ops.foldl Rx.step s

/-- A stream that was just connected. -/
def Rx.connected (kind : Kind) (keepHeader auto : Bool) : Rx := Rx.startRead ⟨kind, keepHeader, auto, false, none, [], []⟩

end Hdtn.Encap
