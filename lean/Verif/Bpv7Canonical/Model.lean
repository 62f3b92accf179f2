import Verif.Cbhe.Model
import Verif.Bpv7Crc.Model

/-!
Model of the BPv7 canonical block codec, `common/bpcodec/src/codec/Bpv7CanonicalBlock.cpp`, and of the
extension blocks with a codec of their own, `Bpv7ExtensionBlocks.cpp`. A block holds its data; the C++
object holds a pointer and a length.
-/

namespace Hdtn.Bpv7Canonical

open Hdtn.HashMap16 Hdtn.Cbor Hdtn.Cbhe Hdtn.Bpv7Crc

/-- The members of `Bpv7CanonicalBlock`, include/codec/bpv7.h. Type code and CRC type are `uint8_t`
enumerations, `number` and `flags` are `uint64_t`. -/
structure Canonical where
  typeCode : UInt8
  number : Nat
  flags : Nat
  crcType : UInt8
  data : Bytes
  crc16 : Nat
  crc32 : Nat
deriving DecidableEq, Repr

/-- The number of array elements, Bpv7CanonicalBlock.cpp:111 and :402. -/
def arraySize (crcType : UInt8) : Nat := 5 + (if crcType ≠ 0 then 1 else 0)

/-- The head of the data, an unsigned integer turned into a byte string head,
Bpv7CanonicalBlock.cpp:164-166. -/
def byteStringHead (n : Nat) : Bytes :=
  match encodeU64 n with
  | [] => []
  | b :: r => (b ||| 0x40) :: r

/-- What `SerializeBpv7` has stored before the CRC, Bpv7CanonicalBlock.cpp:103-178. -/
def serializeBody (c : Canonical) : Bytes :=
  UInt8.ofNat (4 <<< 5 ||| arraySize c.crcType) :: (encodeU64 c.typeCode.toNat ++ (encodeU64 c.number ++
    (encodeU64 c.flags ++ c.crcType :: (byteStringHead c.data.length ++ c.data))))

/-- `Bpv7CanonicalBlock::SerializeBpv7` with a data pointer, Bpv7CanonicalBlock.cpp:103-219: the bytes
and the object afterwards; `none` when it returns 0. -/
def serialize (c : Canonical) : Option (Bytes × Canonical) :=
  match appendCrc c.crcType (serializeBody c) with
  | none => none
  | some (bs, c16, c32) => some (bs, { c with crc16 := c16, crc32 := c32 })

/-- The same with the data pointer NULL: the space for the data keeps what the output memory held
(here `c.data`), the CRC field is zeroed and not computed, Bpv7CanonicalBlock.cpp:169-209. -/
def serializeNull (c : Canonical) : Option (Bytes × Canonical) :=
  if c.crcType = 0 then some (serializeBody c, { c with crc16 := 0, crc32 := 0 })
  else if c.crcType = 1 then some (serializeBody c ++ field16 0, c)
  else if c.crcType = 2 then some (serializeBody c ++ field32 0, c)
  else none

/-- `Bpv7CanonicalBlock::RecomputeCrcAfterDataModification`, Bpv7CanonicalBlock.cpp:258-275, on the
serialised bytes `bs`. -/
def recompute (c : Canonical) (bs : Bytes) : Bytes × Canonical :=
  if c.crcType = 1 then
    let z := bs.take (bs.length - 3) ++ field16 0
    (bs.take (bs.length - 3) ++ field16 (Bpv7Crc.crc16 z), { c with crc16 := Bpv7Crc.crc16 z, crc32 := 0 })
  else if c.crcType = 2 then
    let z := bs.take (bs.length - 5) ++ field32 0
    (bs.take (bs.length - 5) ++ field32 (Bpv7Crc.crc32 z), { c with crc16 := 0, crc32 := Bpv7Crc.crc32 z })
  else (bs, c)

/-- `Bpv7CanonicalBlock::GetSerializationSize`, Bpv7CanonicalBlock.cpp:221-234, with the size of the
data as the virtual call returns it. -/
def serializationSize (c : Canonical) : Option Nat := do
  let typeCode ← encodingSize c.typeCode.toNat
  let number ← encodingSize c.number
  let flags ← encodingSize c.flags
  let head ← encodingSize c.data.length
  let crc ← crcSize c.crcType
  return 2 + typeCode + number + flags + head + c.data.length + crc

/-- Reading the byte string, Bpv7CanonicalBlock.cpp:440-462. -/
def readByteString (buf : Bytes) : Option (Bytes × Bytes) :=
  match buf with
  | [] => none
  | h :: r =>
    if h >>> 5 ≠ 2 then none
    else
      match readUint ((h &&& 0x1f) :: r) with
      | none => none
      | some (n, r) => if r.length < n then none else some (r.take n, r.drop n)

/-- The same behind an optional byte 0xd8, Bpv7CanonicalBlock.cpp:430-462. -/
def readData (buf : Bytes) : Option (Bytes × Bytes) :=
  match buf with
  | [] => none
  | h :: r => if h = 0xd8 then readByteString r else readByteString (h :: r)

/-- `DeserializeBpv7` from the CRC type on, Bpv7CanonicalBlock.cpp:394-545. `whole` is the buffer from
the start of the block. -/
def readTail (skip : Bool) (whole : Bytes) (initial : UInt8) (typeCode : UInt8) (number flags : Nat)
    (buf : Bytes) : Option (Canonical × Bytes) :=
  match buf with
  | crcType :: h :: r =>
    if (initial &&& 0x1f).toNat ≠ arraySize crcType then none
    else do
      let (data, buf) ← readData (h :: r)
      let ((c16, c32), buf) ← checkCrc crcType skip (whole.take (whole.length - buf.length)) buf
      return (⟨typeCode, number, flags, crcType, data, c16, c32⟩, buf)
  | _ => none

/-- `DeserializeBpv7` from the type code on, Bpv7CanonicalBlock.cpp:310-381. The type code must be
encoded in one or two bytes, so that it fits the enumeration. -/
def readFields (skip : Bool) (whole : Bytes) (initial : UInt8) (buf : Bytes) :
    Option (Canonical × Bytes) :=
  match readUint buf with
  | none => none
  | some (typeCode, r) =>
    if 2 < buf.length - r.length then none
    else do
      let (number, buf) ← readUint r
      let (flags, buf) ← readUint buf
      readTail skip whole initial (UInt8.ofNat typeCode) number flags buf

/-- `Bpv7CanonicalBlock::DeserializeBpv7`, Bpv7CanonicalBlock.cpp:278-545. Which object the block is
read into (recycled, administrative record, extension block class) does not affect these members and
is not modelled. -/
def read (skip : Bool) (buf : Bytes) : Option (Canonical × Bytes) :=
  if buf.length < 6 then none
  else
    match buf with
    | [] => none
    | initial :: rest =>
      if initial >>> 5 ≠ 4 ∨ (initial &&& 0x1f).toNat < 5 ∨ 6 < (initial &&& 0x1f).toNat then none
      else readFields skip buf initial rest

/-! ### Extension blocks -/

/-- The content of the extension blocks with a codec in Bpv7ExtensionBlocks.cpp. -/
inductive Ext
  | previousNode (e : Eid)
  | bundleAge (ms : Nat)
  | hopCount (limit count : Nat)
  | priority (p : Nat)
deriving DecidableEq, Repr

/-- `BPV7_BLOCK_TYPE_CODE` of the four classes, bpv7.h:71-85. -/
def Ext.typeCode : Ext → UInt8
  | .previousNode _ => 6
  | .bundleAge _ => 7
  | .hopCount _ _ => 10
  | .priority _ => 13

/-- `GetCanonicalBlockTypeSpecificDataSerializationSize` of the four classes,
Bpv7ExtensionBlocks.cpp:82-84, :156-158, :261-263, :349-351. -/
def Ext.size : Ext → Option Nat
  | .previousNode e => size7 e
  | .bundleAge ms => encodingSize ms
  | .hopCount l c => twoSerializationSize l c
  | .priority p => encodingSize p

/-- The data written into a space of `n` bytes, Bpv7ExtensionBlocks.cpp:75, :149, :254, :343. -/
def Ext.write (n : Nat) : Ext → Bytes
  | .previousNode e => serialize7Bounded e n
  | .bundleAge ms => encodeU64Classic ms n
  | .hopCount l c => twoSerializeBounded l c n
  | .priority p => encodeU64Classic p n

/-- `Virtual_DeserializeExtensionBlockDataBpv7` of the four classes, Bpv7ExtensionBlocks.cpp:86-89,
:160-167, :279-282, :353-363: the class is selected by the type code (Bpv7CanonicalBlock.cpp:339-362),
and the data must be used up. -/
def Ext.read (typeCode : UInt8) (data : Bytes) : Option Ext :=
  if typeCode = 6 then
    match read7 data with
    | some (e, []) => some (.previousNode e)
    | _ => none
  else if typeCode = 7 then
    match readUint data with
    | some (ms, []) => some (.bundleAge ms)
    | _ => none
  else if typeCode = 10 then
    match readTwo data with
    | some ((l, c), []) => some (.hopCount l c)
    | _ => none
  else if typeCode = 13 then
    match readUint data with
    | some (p, []) => some (.priority p)
    | _ => none
  else none

/-- `SerializeBpv7` of the four classes, Bpv7ExtensionBlocks.cpp:57-81, :126-155, :211-260, :329-347:
the block with space for the data (whose content is first that of the output memory, `mem`), then the
data, then the CRC. `none`: the size is undefined, or the base class returned 0. -/
def Ext.serialize (x : Ext) (number flags : Nat) (crcType : UInt8) (mem : Bytes) :
    Option (Bytes × Canonical) := do
  let n ← x.size
  let space := mem.take n
  if space.length ≠ n then none else do
  let c : Canonical := ⟨x.typeCode, number, flags, crcType, space, 0, 0⟩
  let (bs, c) ← serializeNull c
  let d := x.write n
  let off := (serializeBody c).length - n
  let bs := bs.take off ++ (d ++ bs.drop (off + d.length))
  return recompute { c with data := d ++ space.drop d.length } bs

/-- `Bpv7HopCountCanonicalBlock::TryReserializeExtensionBlockDataWithoutResizeBpv7`,
Bpv7ExtensionBlocks.cpp:265-277, on a block whose serialised bytes are `bs`, followed by the call of
`RecomputeCrcAfterDataModification` its comment asks for. `dataOff` is the position of the data. -/
def hopInPlace (c : Canonical) (limit count : Nat) (bs : Bytes) (dataOff : Nat) :
    Option (Bytes × Canonical) :=
  let d := twoSerialize limit count
  if c.data.length = d.length then
    some (recompute { c with data := d, typeCode := 10 } (bs.take dataOff ++ (d ++ bs.drop (dataOff + d.length))))
  else none

end Hdtn.Bpv7Canonical
