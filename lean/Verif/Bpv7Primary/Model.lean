import Verif.Cbhe.Model
import Verif.Bpv7Crc.Model

/-!
Model of the BPv7 primary block codec, `common/bpcodec/src/codec/Bpv7CbhePrimaryBlock.cpp`.
The creation timestamp is the two-element array of TimestampUtil.cpp:392-403.
-/

namespace Hdtn.Bpv7Primary

open Hdtn.HashMap16 Hdtn.Cbor Hdtn.Cbhe Hdtn.Bpv7Crc

/-- The members of `Bpv7CbhePrimaryBlock`, include/codec/bpv7.h. The numbers are `uint64_t` members,
the CRC type is a `uint8_t` enumeration. -/
structure Primary where
  flags : Nat
  dest : Eid
  source : Eid
  reportTo : Eid
  creationMs : Nat
  creationSeq : Nat
  lifetime : Nat
  fragOffset : Nat
  totalAdu : Nat
  crcType : UInt8
  crc16 : Nat
  crc32 : Nat
deriving DecidableEq, Repr

/-- `isFragment`, Bpv7CbhePrimaryBlock.cpp:118 and :338. -/
def isFragment (flags : Nat) : Bool := flags &&& 1 != 0

/-- The number of array elements, Bpv7CbhePrimaryBlock.cpp:119 and :339. -/
def arraySize (flags : Nat) (crcType : UInt8) : Nat :=
  8 + (if crcType ≠ 0 then 1 else 0) + (if isFragment flags then 2 else 0)

/-- The two fragment fields, Bpv7CbhePrimaryBlock.cpp:193-201. -/
def fragFields (p : Primary) : Bytes :=
  if isFragment p.flags then encodeU64 p.fragOffset ++ encodeU64 p.totalAdu else []

/-- What `SerializeBpv7` has stored before the CRC, Bpv7CbhePrimaryBlock.cpp:108-209. -/
def serializeBody (p : Primary) : Bytes :=
  UInt8.ofNat (4 <<< 5 ||| arraySize p.flags p.crcType) :: 7 ::
    (encodeU64 p.flags ++ p.crcType :: (serialize7 p.dest ++ (serialize7 p.source ++
      (serialize7 p.reportTo ++ (twoSerialize p.creationMs p.creationSeq ++
        (encodeU64 p.lifetime ++ fragFields p))))))

/-- `Bpv7CbhePrimaryBlock::SerializeBpv7`, Bpv7CbhePrimaryBlock.cpp:108-247: the bytes and the object
afterwards (the CRC members are updated); `none` when it returns 0. -/
def serialize (p : Primary) : Option (Bytes × Primary) :=
  match appendCrc p.crcType (serializeBody p) with
  | none => none
  | some (bs, c16, c32) => some (bs, { p with crc16 := c16, crc32 := c32 })

/-- The sizes of the fragment fields, Bpv7CbhePrimaryBlock.cpp:256-260. -/
def fragSize (p : Primary) : Option Nat :=
  if isFragment p.flags then do return (← encodingSize p.fragOffset) + (← encodingSize p.totalAdu)
  else some 0

/-- `Bpv7CbhePrimaryBlock::GetSerializationSize`, Bpv7CbhePrimaryBlock.cpp:249-264. `none`: one of
the size functions is undefined. -/
def serializationSize (p : Primary) : Option Nat := do
  let flags ← encodingSize p.flags
  let dest ← size7 p.dest
  let source ← size7 p.source
  let reportTo ← size7 p.reportTo
  let creation ← twoSerializationSize p.creationMs p.creationSeq
  let lifetime ← encodingSize p.lifetime
  let frag ← fragSize p
  let crc ← crcSize p.crcType
  return 3 + flags + dest + source + reportTo + creation + lifetime + frag + crc

/-- The fragment fields on decoding, Bpv7CbhePrimaryBlock.cpp:406-426. When the block is no fragment the
members keep the value they had. -/
def readFrag (old : Primary) (flags : Nat) (buf : Bytes) : Option ((Nat × Nat) × Bytes) :=
  if isFragment flags then do
    let (offset, buf) ← readUint buf
    let (total, buf) ← readUint buf
    return ((offset, total), buf)
  else some ((old.fragOffset, old.totalAdu), buf)

/-- The part of `DeserializeBpv7` behind the CRC type, Bpv7CbhePrimaryBlock.cpp:344-493. `whole` is the
buffer from the start of the block. -/
def readFields (old : Primary) (whole : Bytes) (flags : Nat) (crcType : UInt8) (buf : Bytes) :
    Option (Primary × Bytes) := do
  let (dest, buf) ← read7 buf
  let (source, buf) ← read7 buf
  let (reportTo, buf) ← read7 buf
  let ((ms, seq), buf) ← readTwo buf
  let (lifetime, buf) ← readUint buf
  let ((offset, total), buf) ← readFrag old flags buf
  let ((c16, c32), buf) ← checkCrc crcType false (whole.take (whole.length - buf.length)) buf
  return (⟨flags, dest, source, reportTo, ms, seq, lifetime, offset, total, crcType, c16, c32⟩, buf)

/-- `DeserializeBpv7` from the flags on, Bpv7CbhePrimaryBlock.cpp:302-342. The flags are read by
`CborDecodeU64BufSize9` without regard to the buffer size: at least 15 bytes are left. -/
def readFlags (old : Primary) (whole : Bytes) (initial : UInt8) (buf : Bytes) : Option (Primary × Bytes) :=
  match readUint buf with
  | none => none
  | some (_, []) => none
  | some (flags, crcType :: buf) =>
    if (initial &&& 0x1f).toNat ≠ arraySize flags crcType then none
    else readFields old whole flags crcType buf

/-- `Bpv7CbhePrimaryBlock::DeserializeBpv7`, Bpv7CbhePrimaryBlock.cpp:267-493, on an object holding
`old`; the object afterwards and what is left of the buffer. On failure the code leaves the object
partly overwritten, which is not modelled. -/
def read (old : Primary) (buf : Bytes) : Option (Primary × Bytes) :=
  if buf.length < 17 then none
  else
    match buf with
    | initial :: version :: rest =>
      if initial >>> 5 ≠ 4 ∨ (initial &&& 0x1f).toNat < 8 ∨ 11 < (initial &&& 0x1f).toNat then none
      else if version ≠ 7 then none
      else readFlags old buf initial rest
    | _ => none

end Hdtn.Bpv7Primary
