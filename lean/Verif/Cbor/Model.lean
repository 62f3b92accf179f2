import Verif.Common.BigEndian

/-!
Model of `common/util/src/CborUint.cpp`.

Simplifications as for SDNVs: an encoder returns the bytes it stores (the C++ return value is their
number), a decoder takes the whole buffer as a list and returns (value, `*numBytes`), `numBytes = 0`
meaning failure. The accelerated encoders, which store more bytes than they announce, act on the
output memory instead. Unaligned SSE loads and streaming stores are plain little-endian memory
accesses.
-/

namespace Hdtn.Cbor

/-- `CborEncodeU64Classic`, CborUint.cpp:89-151. -/
def encodeU64Classic (v bufferSize : Nat) : Bytes :=
  if v < 24 then
    if bufferSize < 1 then [] else [UInt8.ofNat v]
  else if v ≤ 0xff then
    if bufferSize < 2 then [] else [24, UInt8.ofNat v]
  else if v ≤ 0xffff then
    if bufferSize < 3 then [] else 25 :: toBe 2 v
  else if v ≤ 0xffffffff then
    if bufferSize < 5 then [] else 26 :: toBe 4 v
  else
    if bufferSize < 9 then [] else 27 :: toBe 8 v

/-- `CborEncodeU64ClassicBufSize9`, CborUint.cpp:154-201: the caller provides nine bytes. -/
def encodeU64 (v : Nat) : Bytes :=
  if v < 24 then [UInt8.ofNat v]
  else if v ≤ 0xff then [24, UInt8.ofNat v]
  else if v ≤ 0xffff then 25 :: toBe 2 v
  else if v ≤ 0xffffffff then 26 :: toBe 4 v
  else 27 :: toBe 8 v

/-- `CborGetEncodingSizeU64Classic`, CborUint.cpp:204-223. -/
def encodingSizeClassic (v : Nat) : Nat :=
  if v < 24 then 1 else if v ≤ 0xff then 2 else if v ≤ 0xffff then 3
  else if v ≤ 0xffffffff then 5 else 9

/-- `CborDecodeU64Classic`, CborUint.cpp:227-284. -/
def decodeU64Classic (buf : Bytes) : Nat × Nat :=
  match buf with
  | [] => (0, 0)
  | type :: rest =>
    if type < 24 then (type.toNat, 1)
    else if type = 24 then if 2 ≤ buf.length then (beValue (rest.take 1), 2) else (0, 0)
    else if type = 25 then if 3 ≤ buf.length then (beValue (rest.take 2), 3) else (0, 0)
    else if type = 26 then if 5 ≤ buf.length then (beValue (rest.take 4), 5) else (0, 0)
    else if type = 27 then if 9 ≤ buf.length then (beValue (rest.take 8), 9) else (0, 0)
    else (0, 0)

/-- Table `msbToRequiredEncodingSize[64]`, CborUint.cpp:336-345. -/
def msbToRequiredEncodingSize : List Nat :=
  [1,1,1,1,2,2,2,2, 3,3,3,3,3,3,3,3, 5,5,5,5,5,5,5,5, 5,5,5,5,5,5,5,5,
   9,9,9,9,9,9,9,9, 9,9,9,9,9,9,9,9, 9,9,9,9,9,9,9,9, 9,9,9,9,9,9,9,9]

/-- `(v >= 24) * find_msb(v)`, CborUint.cpp:395, 491, 624. (`find_msb(0)` is undefined in C++ for
`v = 0`; the code multiplies the result by 0 and the model takes that product as 0.) -/
def msbOrZero (v : Nat) : Nat := if v ≥ 24 then Nat.log2 v else 0

/-- `CborGetNumBytesRequiredToEncode` (also known as `CborGetEncodingSizeU64`),
CborUint.cpp:619-627; `none` would be an out-of-bounds table access. -/
def encodingSize (v : Nat) : Option Nat := msbToRequiredEncodingSize[msbOrZero v]?

/-- Overwrite `mem` at `off` with `bs`. -/
def writeAt (mem : Bytes) (off : Nat) (bs : Bytes) : Bytes :=
  mem.take off ++ bs ++ mem.drop (off + bs.length)

/-- Table `encodingSizeToType[10]`, CborUint.cpp:349-360. -/
def encodingSizeToType : List Nat := [0, 0, 24, 25, 0, 26, 0, 0, 0, 27]

/-- Table `encodingSizeToShifts[10]`, CborUint.cpp:361-372. -/
def encodingSizeToShifts : List Nat := [0, 0, 56, 48, 0, 32, 0, 0, 0, 0]

/-- `ES2`, `ES3`, `ES5`, `ES9`, CborUint.cpp:374-377. -/
def es (type shift : Nat) : Nat := (type <<< 8) ||| (shift <<< 16)

/-- Table `msbToRequiredEncodingSizePlusTypePlusShifts[64]`, CborUint.cpp:378-387. -/
def msbToAll : List Nat :=
  List.replicate 4 1 ++ List.replicate 4 (2 ||| es 24 56) ++ List.replicate 8 (3 ||| es 25 48) ++
  List.replicate 16 (5 ||| es 26 32) ++ List.replicate 32 (9 ||| es 27 0)

/-- A four-byte store of a word whose upper three bytes are zero (`_mm_stream_si32` of
`firstByte`), then an eight-byte big-endian store at offset 1. CborUint.cpp:446-448, 503-507. -/
def storeHead (mem : Bytes) (firstByte v shift : Nat) : Bytes :=
  let mem := writeAt mem 0 [UInt8.ofNat firstByte, 0, 0, 0]
  writeAt mem 1 (toBe 8 ((v <<< shift) % U64))

/-- `CborEncodeU64FastBufSize9`, CborUint.cpp:487-510: output memory afterwards and announced
size. -/
def encodeU64FastBufSize9 (mem : Bytes) (v : Nat) : Option (Bytes × Nat) := do
  let all ← msbToAll[msbOrZero v]?
  let size := all % 256
  let type := (all >>> 8) % 256
  let shift := (all >>> 16) % 256
  let firstByte := type ||| (if size = 1 then v % 256 else 0)
  return (storeHead mem firstByte v shift, size)

/-- `CborEncodeU64Fast`, CborUint.cpp:390-484, on an output buffer `mem` of the given size. -/
def encodeU64Fast (mem : Bytes) (v : Nat) : Option (Bytes × Nat) := do
  let size ← msbToRequiredEncodingSize[msbOrZero v]?
  if mem.length ≥ 9 then
    let firstByte := (← encodingSizeToType[size]?) ||| (if size = 1 then v % 256 else 0)
    return (storeHead mem firstByte v (← encodingSizeToShifts[size]?), size)
  else if mem.length < size then return (mem, 0)
  else
    let mem := writeAt mem 0 [UInt8.ofNat (← encodingSizeToType[size]?)]
    if size = 1 then return (writeAt mem 0 [UInt8.ofNat v], size)
    else if size = 2 then return (writeAt mem 1 [UInt8.ofNat v], size)
    else if size = 3 then return (writeAt mem 1 [UInt8.ofNat (v >>> 8), UInt8.ofNat v], size)
    else if size = 5 then return (writeAt mem 1 (toBe 4 v), size)
    else return (writeAt mem 1 (toBe 8 v), size)

/-- `CborEncodeU64` in the accelerated build, CborUint.cpp:41-52. -/
def encodeU64Accel (mem : Bytes) (v : Nat) : Option (Bytes × Nat) :=
  if mem.length ≥ 9 then encodeU64FastBufSize9 mem v else encodeU64Fast mem v

/-- `CborDecodeU64Fast`, CborUint.cpp:514-566. Differs from the classic routine in how the bytes are
put together. -/
def decodeU64Fast (buf : Bytes) : Nat × Nat :=
  match buf with
  | [] => (0, 0)
  | type :: rest =>
    if type < 24 then (type.toNat, 1)
    else if type = 24 then if 2 ≤ buf.length then (beValue (rest.take 1), 2) else (0, 0)
    else if type = 25 then
      match rest with
      | b1 :: b2 :: _ => ((b1.toNat <<< 8) ||| b2.toNat, 3)
      | _ => (0, 0)
    else if type = 26 then if 5 ≤ buf.length then (beValue (rest.take 4), 5) else (0, 0)
    else if type = 27 then if 9 ≤ buf.length then (beValue (rest.take 8), 9) else (0, 0)
    else (0, 0)

/-- Table `RIGHT_SHIFTS`, CborUint.cpp:572-575. -/
def rightShifts : List Nat := List.replicate 24 56 ++ [56, 48, 32, 0]

/-- Table `NUM_BYTES`, CborUint.cpp:576-579. -/
def numBytesTable : List Nat := List.replicate 24 1 ++ [2, 3, 5, 9]

/-- `CborDecodeU64FastBufSize9`, CborUint.cpp:570-613: the buffer has at least nine bytes; `none`
would be an access outside it or outside a table. -/
def decodeU64FastBufSize9 (buf : Bytes) : Option (Nat × Nat) := do
  let type ← buf[0]?
  if type > 27 then return (0, 0)
  else do
    let numBytes ← numBytesTable[type.toNat]?
    let shift ← rightShifts[type.toNat]?
    let word := (buf.drop (if type ≥ 24 then 1 else 0)).take 8
    if word.length < 8 then none else return (beValue word >>> shift, numBytes)

/-- `CborDecodeU64` in the accelerated build, CborUint.cpp:64-75. -/
def decodeU64Accel (buf : Bytes) : Option (Nat × Nat) :=
  if buf.length ≥ 9 then decodeU64FastBufSize9 buf else some (decodeU64Fast buf)

/-- The pattern "decode an unsigned integer; fail if `numBytes` is 0; advance the pointer and shrink
the buffer size", used by every CBOR parser of the code base: value and rest of the buffer. -/
def readUint (buf : Bytes) : Option (Nat × Bytes) :=
  let r := decodeU64Classic buf
  if r.2 = 0 then none else some (r.1, buf.drop r.2)

/-- `CborTwoUint64ArraySerialize` without buffer size, CborUint.cpp:629-635. -/
def twoSerialize (e1 e2 : Nat) : Bytes := 0x82 :: (encodeU64 e1 ++ encodeU64 e2)

/-- `CborTwoUint64ArraySerialize` with buffer size, CborUint.cpp:636-654. -/
def twoSerializeBounded (e1 e2 bufferSize : Nat) : Bytes :=
  if bufferSize = 0 then []
  else
    let s1 := encodeU64Classic e1 (bufferSize - 1)
    let s2 := encodeU64Classic e2 (bufferSize - 1 - s1.length)
    0x82 :: (s1 ++ s2)

/-- `CborTwoUint64ArraySerializationSize`, CborUint.cpp:655-660. -/
def twoSerializationSize (e1 e2 : Nat) : Option Nat := do
  return 1 + (← encodingSize e1) + (← encodingSize e2)

/-- `CborTwoUint64ArrayDeserialize`, CborUint.cpp:661-706: the two elements and the number of bytes
taken (at most 20, so the cast to `uint8_t` loses nothing). -/
def twoDeserialize (buf : Bytes) : Option (Nat × Nat × Nat) :=
  match buf with
  | [] => none
  | initial :: rest =>
    if initial ≠ 0x82 ∧ initial ≠ 0x9f then none
    else do
      let (e1, rest) ← readUint rest
      let (e2, rest) ← readUint rest
      if initial = 0x9f then
        match rest with
        | [] => none
        | stop :: rest =>
          if stop ≠ 0xff then none
          else some (e1, e2, buf.length - rest.length)
      else some (e1, e2, buf.length - rest.length)

/-- `*arrayHeaderStartPtr |= (4U << 5)` on the first byte of an encoded integer. -/
def markArray : Bytes → Bytes
  | [] => []
  | b :: bs => (b ||| 0x80) :: bs

/-- `CborArbitrarySizeUint64ArraySerialize` without buffer size, CborUint.cpp:709-720. -/
def arraySerialize (elements : List Nat) : Bytes :=
  markArray (encodeU64 elements.length) ++ (elements.map encodeU64).flatten

/-- The element loop of the bounded version, CborUint.cpp:730-734. -/
def encodeAllBounded : List Nat → Nat → Bytes
  | [], _ => []
  | v :: vs, bufferSize =>
    let s := encodeU64Classic v bufferSize
    s ++ encodeAllBounded vs (bufferSize - s.length)

/-- `CborArbitrarySizeUint64ArraySerialize` with buffer size, CborUint.cpp:721-736. The header byte
is modified even when nothing was stored: with an empty buffer that is an access outside it
(`none`). When the buffer has room but the header does not fit, the byte it modifies is not counted
in the result. -/
def arraySerializeBounded (elements : List Nat) (bufferSize : Nat) : Option Bytes :=
  if bufferSize = 0 then none
  else
    let s := encodeU64Classic elements.length bufferSize
    some (markArray s ++ encodeAllBounded elements (bufferSize - s.length))

/-- `CborArbitrarySizeUint64ArraySerializationSize`, CborUint.cpp:737-743. -/
def arraySerializationSize (elements : List Nat) : Option Nat := do
  let sizes ← elements.mapM encodingSize
  return (← encodingSize elements.length) + sizes.sum

/-- The element loops of the deserialiser, CborUint.cpp:764-771, 797-804. -/
def readMany : Nat → Bytes → Option (List Nat × Bytes)
  | 0, buf => some ([], buf)
  | n + 1, buf => do
    let (v, rest) ← readUint buf
    let (vs, rest) ← readMany n rest
    return (v :: vs, rest)

/-- `CborArbitrarySizeUint64ArrayDeserialize`, CborUint.cpp:744-809. The temporary change of the
header byte in the input buffer is undone before returning and is not modelled. -/
def arrayDeserialize (buf : Bytes) (maxElements : Nat) : Option (List Nat × Nat) :=
  match buf with
  | [] => none
  | initial :: rest =>
    if initial = 0x9f then do
      let (vs, rest) ← readMany maxElements rest
      match rest with
      | [] => none
      | stop :: rest =>
        if stop ≠ 0xff then none
        else some (vs, buf.length - rest.length)
    else if initial >>> 5 ≠ 4 then none
    else do
      let (n, rest) ← readUint ((initial &&& 0x1f) :: rest)
      if n > maxElements then none
      else do
        let (vs, rest) ← readMany n rest
        return (vs, buf.length - rest.length)

end Hdtn.Cbor
