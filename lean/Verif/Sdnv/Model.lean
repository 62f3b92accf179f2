import Verif.Base

/-!
Model of `common/util/src/Sdnv.cpp`, portable ("classic") routines.

Simplifications: an encoder returns the bytes it stores at the output pointer (its C++ return value
is their number; storing nothing and returning 0 is the empty list). A decoder takes the whole
buffer as a list (its length is `bufferSize`) and returns the pair (return value, `*numBytes`).
Words are naturals; wrap-around is written out.
-/

namespace Hdtn.Sdnv

/-- `(uint8_t)(v & 0x7f)`: last byte of an SDNV. Sdnv.cpp:134 and every `outputEncoded[last]`. -/
def lowByte (v : Nat) : UInt8 := UInt8.ofNat (v &&& 0x7f)

/-- `(uint8_t)(((v >> k) & 0x7f) | 0x80)`: non-last byte of an SDNV. Sdnv.cpp:141 ff. -/
def contByte (v k : Nat) : UInt8 := UInt8.ofNat (((v >>> k) &&& 0x7f) ||| 0x80)

/-- `SdnvEncodeU32Classic`, Sdnv.cpp:128-174. -/
def encodeU32Classic (v bufferSize : Nat) : Bytes :=
  if v ≤ 2 ^ 7 - 1 then
    if bufferSize < 1 then [] else [lowByte v]
  else if v ≤ 2 ^ 14 - 1 then
    if bufferSize < 2 then [] else [contByte v 7, lowByte v]
  else if v ≤ 2 ^ 21 - 1 then
    if bufferSize < 3 then [] else [contByte v 14, contByte v 7, lowByte v]
  else if v ≤ 2 ^ 28 - 1 then
    if bufferSize < 4 then [] else [contByte v 21, contByte v 14, contByte v 7, lowByte v]
  else
    if bufferSize < 5 then []
    else [contByte v 28, contByte v 21, contByte v 14, contByte v 7, lowByte v]

/-- `SdnvEncodeU64Classic`, Sdnv.cpp:210-327. -/
def encodeU64Classic (v bufferSize : Nat) : Bytes :=
  if v ≤ 2 ^ 7 - 1 then
    if bufferSize < 1 then [] else [lowByte v]
  else if v ≤ 2 ^ 14 - 1 then
    if bufferSize < 2 then [] else [contByte v 7, lowByte v]
  else if v ≤ 2 ^ 21 - 1 then
    if bufferSize < 3 then [] else [contByte v 14, contByte v 7, lowByte v]
  else if v ≤ 2 ^ 28 - 1 then
    if bufferSize < 4 then [] else [contByte v 21, contByte v 14, contByte v 7, lowByte v]
  else if v ≤ 2 ^ 35 - 1 then
    if bufferSize < 5 then []
    else [contByte v 28, contByte v 21, contByte v 14, contByte v 7, lowByte v]
  else if v ≤ 2 ^ 42 - 1 then
    if bufferSize < 6 then []
    else [contByte v 35, contByte v 28, contByte v 21, contByte v 14, contByte v 7, lowByte v]
  else if v ≤ 2 ^ 49 - 1 then
    if bufferSize < 7 then []
    else [contByte v 42, contByte v 35, contByte v 28, contByte v 21, contByte v 14, contByte v 7,
      lowByte v]
  else if v ≤ 2 ^ 56 - 1 then
    if bufferSize < 8 then []
    else [contByte v 49, contByte v 42, contByte v 35, contByte v 28, contByte v 21, contByte v 14,
      contByte v 7, lowByte v]
  else if v ≤ 2 ^ 63 - 1 then
    if bufferSize < 9 then []
    else [contByte v 56, contByte v 49, contByte v 42, contByte v 35, contByte v 28, contByte v 21,
      contByte v 14, contByte v 7, lowByte v]
  else
    if bufferSize < 10 then []
    else [contByte v 63, contByte v 56, contByte v 49, contByte v 42, contByte v 35, contByte v 28,
      contByte v 21, contByte v 14, contByte v 7, lowByte v]

/-- `SdnvEncodeU64ClassicBufSize10`, Sdnv.cpp:329-415: the same without buffer checks; the caller
provides at least ten bytes. -/
def encodeU64ClassicBufSize10 (v : Nat) : Bytes :=
  if v ≤ 2 ^ 7 - 1 then [lowByte v]
  else if v ≤ 2 ^ 14 - 1 then [contByte v 7, lowByte v]
  else if v ≤ 2 ^ 21 - 1 then [contByte v 14, contByte v 7, lowByte v]
  else if v ≤ 2 ^ 28 - 1 then [contByte v 21, contByte v 14, contByte v 7, lowByte v]
  else if v ≤ 2 ^ 35 - 1 then [contByte v 28, contByte v 21, contByte v 14, contByte v 7, lowByte v]
  else if v ≤ 2 ^ 42 - 1 then
    [contByte v 35, contByte v 28, contByte v 21, contByte v 14, contByte v 7, lowByte v]
  else if v ≤ 2 ^ 49 - 1 then
    [contByte v 42, contByte v 35, contByte v 28, contByte v 21, contByte v 14, contByte v 7,
      lowByte v]
  else if v ≤ 2 ^ 56 - 1 then
    [contByte v 49, contByte v 42, contByte v 35, contByte v 28, contByte v 21, contByte v 14,
      contByte v 7, lowByte v]
  else if v ≤ 2 ^ 63 - 1 then
    [contByte v 56, contByte v 49, contByte v 42, contByte v 35, contByte v 28, contByte v 21,
      contByte v 14, contByte v 7, lowByte v]
  else
    [contByte v 63, contByte v 56, contByte v 49, contByte v 42, contByte v 35, contByte v 28,
      contByte v 21, contByte v 14, contByte v 7, lowByte v]

/-- `DECODE_FAILURE_INVALID_SDNV_RETURN_VALUE` with `*numBytes = 0`. Sdnv.h:33. -/
def invalid : Nat × Nat := (0, 0)

/-- `DECODE_FAILURE_NOT_ENOUGH_ENCODED_BYTES_RETURN_VALUE` with `*numBytes = 0`. Sdnv.h:34. -/
def notEnough : Nat × Nat := (1, 0)

/-- The decode loop shared (textually duplicated in C++) by `SdnvDecodeU32Classic`,
Sdnv.cpp:419-452, and `SdnvDecodeU64Classic`, Sdnv.cpp:457-491. `maxBytes` is 5 or 10, `maxFirst`
0x8f or 0x81, `word` 2^32 or 2^64. `byteCount` and `result` are the loop variables, the list is what
is left of the buffer at the read pointer. The loop condition `byteCount <= min(maxBytes,
bufferSize)` is the test for an exhausted list or `byteCount > maxBytes`. -/
def decodeLoop (maxBytes maxFirst word : Nat) (first : UInt8) : Bytes → Nat → Nat → Nat × Nat
  | [], byteCount, _ => if byteCount = maxBytes + 1 then invalid else notEnough
  | b :: rest, byteCount, result =>
    if byteCount > maxBytes then
      if byteCount = maxBytes + 1 then invalid else notEnough
    else
      let result := ((result <<< 7) % word + (b &&& 0x7f).toNat) % word
      if b &&& 0x80 = 0 then
        if byteCount = maxBytes ∧ first > UInt8.ofNat maxFirst then invalid
        else (result, byteCount)
      else decodeLoop maxBytes maxFirst word first rest (byteCount + 1) result

/-- `SdnvDecodeU32Classic`, Sdnv.cpp:419-452. -/
def decodeU32Classic (buf : Bytes) : Nat × Nat :=
  match buf with
  | [] => notEnough
  | b :: _ => decodeLoop 5 0x8f U32 b buf 1 0

/-- `SdnvDecodeU64Classic`, Sdnv.cpp:457-491. -/
def decodeU64Classic (buf : Bytes) : Nat × Nat :=
  match buf with
  | [] => notEnough
  | b :: _ => decodeLoop 10 0x81 U64 b buf 1 0

/-- Result of an array decode: values stored, bytes taken, `decodeErrorDetected`. The C++ return
value is the number of values (0 on error, the values already stored are then meaningless). -/
structure ArrayResult where
  values : List Nat
  numBytes : Nat
  error : Bool
deriving DecidableEq, Repr

/-- Loop of `SdnvDecodeArrayU64Classic`, Sdnv.cpp:1137-1165: `remaining` values to go, values
stored and bytes taken so far, rest of the buffer. The single-value decoder `dec` is a parameter:
`SdnvDecodeU64` dispatches on the build. -/
def decodeArrayLoop (dec : Bytes → Nat × Nat) :
    Nat → List Nat → Nat → Bytes → ArrayResult
  | 0, acc, taken, _ => ⟨acc, taken, false⟩
  | remaining + 1, acc, taken, buf =>
    let (v, n) := dec buf
    if n = 0 then
      if v = 0 then ⟨[], 0, true⟩ else ⟨acc, taken, false⟩
    else decodeArrayLoop dec remaining (acc ++ [v]) (taken + n) (buf.drop n)

/-- `SdnvDecodeArrayU64Classic`, Sdnv.cpp:1137-1165. -/
def decodeArrayU64Classic (remaining : Nat) (buf : Bytes) : ArrayResult :=
  decodeArrayLoop decodeU64Classic remaining [] 0 buf

/-- Table `mask0x80Indices[70]`, Sdnv.cpp:493-504: ten rows of seven equal entries. -/
def mask0x80Indices : List Nat :=
  [0,0,0,0,0,0,0, 1,1,1,1,1,1,1, 2,2,2,2,2,2,2, 3,3,3,3,3,3,3, 4,4,4,4,4,4,4,
   5,5,5,5,5,5,5, 6,6,6,6,6,6,6, 7,7,7,7,7,7,7, 8,8,8,8,8,8,8, 9,9,9,9,9,9,9]

/-- `find_msb(v | (v == 0))`, index of the highest set bit, 0 for 0. Sdnv.cpp:1183. -/
def msbIndex (v : Nat) : Nat := Nat.log2 (v ||| (if v = 0 then 1 else 0))

/-- `SdnvGetNumBytesRequiredToEncode`, Sdnv.cpp:1176-1186; `none` would be an out-of-bounds table
access. -/
def numBytesRequired (v : Nat) : Option Nat := (mask0x80Indices[msbIndex v]?).map (· + 1)

end Hdtn.Sdnv
