import Verif.Sdnv.Model

/-!
Model of the hardware-accelerated routines of `common/util/src/Sdnv.cpp` (`USE_SDNV_FAST`,
`SDNV_SUPPORT_AVX2_FUNCTIONS`). The BMI2/SSE/AVX instructions are modelled bit by bit from their
published pseudo-code; registers are little-endian byte lists (first byte = lowest address).
-/

namespace Hdtn.Sdnv.Fast

/-- `_pext_u64` on the low `n` bits: gather the source bits selected by the mask. -/
def pext : Nat → Nat → Nat → Nat
  | 0, _, _ => 0
  | n + 1, s, m =>
    if m % 2 = 1 then s % 2 + 2 * pext n (s / 2) (m / 2) else pext n (s / 2) (m / 2)

/-- `_pdep_u64` on the low `n` bits: scatter the low source bits to the mask positions. -/
def pdep : Nat → Nat → Nat → Nat
  | 0, _, _ => 0
  | n + 1, s, m =>
    if m % 2 = 1 then s % 2 + 2 * pdep n (s / 2) (m / 2) else 2 * pdep n s (m / 2)

/-- `_bzhi_u64`. -/
def bzhi (a index : Nat) : Nat := if index % 256 < 64 then a % 2 ^ (index % 256) else a

/-- `_bextr_u64 (a, start, len)`, start and len taken modulo 256. -/
def bextr (a start len : Nat) : Nat := (a >>> (start % 256)) % 2 ^ (len % 256)

/-- `_mm_popcnt_u64` on the low `n` bits. -/
def popcnt : Nat → Nat → Nat
  | 0, _ => 0
  | n + 1, x => x % 2 + popcnt n (x / 2)

/-- Number held in a little-endian byte list. -/
def le : List Nat → Nat
  | [] => 0
  | b :: bs => b + 256 * le bs

/-- Little-endian bytes of `x`, `n` of them. -/
def toLe : Nat → Nat → List Nat
  | 0, _ => []
  | n + 1, x => x % 256 :: toLe n (x / 256)

/-- `endian_reverse` / `big_to_native` on a `uint64_t` (little-endian host). -/
def endianReverse (x : Nat) : Nat := le (toLe 8 x).reverse

/-- Load of the bytes at a pointer into a register lane. -/
def load (bs : Bytes) : Nat := le (bs.map UInt8.toNat)

/-- Store of a `uint64_t` (little-endian host): `_mm_stream_si64`. -/
def store8 (x : Nat) : Bytes := (toLe 8 x).map UInt8.ofNat

/-- Overwrite `mem` at `off` with `bs`. -/
def writeAt (mem : Bytes) (off : Nat) (bs : Bytes) : Bytes :=
  mem.take off ++ bs ++ mem.drop (off + bs.length)

/-- Table `masksPdepPext1`, Sdnv.cpp:519-531. -/
def masksPdepPext1 : List Nat :=
  [0x7f00000000000000, 0x7f7f000000000000, 0x7f7f7f0000000000, 0x7f7f7f7f00000000,
   0x7f7f7f7f7f000000, 0x7f7f7f7f7f7f0000, 0x7f7f7f7f7f7f7f00, 0x7f7f7f7f7f7f7f7f,
   0x7f7f7f7f7f7f7f7f, 0x7f7f7f7f7f7f7f7f, 0, 0, 0, 0, 0, 0, 0]

/-- Table `masksPdepPext2`, Sdnv.cpp:533-545. -/
def masksPdepPext2 : List Nat :=
  [0, 0, 0, 0, 0, 0, 0, 0, 0x7f00000000000000, 0x7f7f000000000000, 0, 0, 0, 0, 0, 0, 0]

/-- Table `decodedShifts`, Sdnv.cpp:547-559. -/
def decodedShifts : List Nat := [0, 0, 0, 0, 0, 0, 0, 0, 7, 14, 0, 0, 0, 0, 0, 0, 0]

/-- Table `masks0x80`, Sdnv.cpp:561-572. -/
def masks0x80 : List Nat :=
  [0, 0x8000000000000000, 0x8080000000000000, 0x8080800000000000, 0x8080808000000000,
   0x8080808080000000, 0x8080808080800000, 0x8080808080808000, 0x8080808080808000,
   0x8080808080808000]

/-- Table `masks0x80_2`, Sdnv.cpp:573-584. -/
def masks0x80_2 : List Nat := [0, 0, 0, 0, 0, 0, 0, 0, 0x8000000000000000, 0x8080000000000000]

/-- Table `memoryOffsets`, Sdnv.cpp:587-598. -/
def memoryOffsets : List Nat := [0, 0, 0, 0, 0, 0, 0, 0, 1, 2]

/-- `SdnvEncodeU32FastBufSize8`, Sdnv.cpp:681-697. Returns the eight bytes at the output pointer
afterwards and the announced length; `none` would be an out-of-bounds table access. -/
def encodeU32FastBufSize8 (v : Nat) : Option (Bytes × Nat) := do
  let i ← mask0x80Indices[msbIndex v]?
  let encoded64 := pdep 64 v (← masksPdepPext1[i]?) ||| (← masks0x80[i]?)
  return (store8 (endianReverse encoded64), i + 1)

/-- `SdnvEncodeU64FastBufSize10`, Sdnv.cpp:700-743, on the ten-byte output buffer `mem`: two
eight-byte stores, the second at an offset of 0, 1 or 2. -/
def encodeU64FastBufSize10 (mem : Bytes) (v : Nat) : Option (Bytes × Nat) := do
  let i ← mask0x80Indices[msbIndex v]?
  let encoded64 := pdep 64 v (← masksPdepPext1[i]?) ||| (← masks0x80[i]?)
  let encoded64Big := pdep 64 (v >>> 56) (← masksPdepPext2[i]?) ||| (← masks0x80_2[i]?)
  let mem := writeAt mem 0 (store8 (endianReverse encoded64Big))
  let mem := writeAt mem (← memoryOffsets[i]?) (store8 (endianReverse encoded64))
  return (mem, i + 1)

/-- `_mm_movemask_epi8` / `_mm256_movemask_epi8`: bit `i` is the top bit of byte `i`. -/
def movemask : Bytes → Nat
  | [] => 0
  | b :: bs => b.toNat / 128 + 2 * movemask bs

/-- `~x` on a 32-bit `int`. -/
def not32 (x : Nat) : Nat := 2 ^ 32 - 1 - x

/-- `find_lsb` on the low `n` bits: index of the lowest set bit; undefined (`none`) for 0. -/
def findLsb : Nat → Nat → Option Nat
  | 0, _ => none
  | n + 1, x => if x % 2 = 1 then some 0 else (findLsb n (x / 2)).map (· + 1)

/-- `(uint16_t)((maskIndex << 8) | firstByte) <= limit`, Sdnv.cpp:774, 855, 907, 1001. -/
def validCode (maskIndex : Nat) (first : Nat) (limit : Nat) : Bool :=
  ((maskIndex <<< 8) ||| first) % 2 ^ 16 ≤ limit

/-- `SdnvDecodeU32FastBufSize8`, Sdnv.cpp:748-779, on the bytes at the read pointer (at least
eight). `none` is undefined behaviour of `find_lsb`. -/
def decodeU32FastBufSize8 (data : Bytes) : Option (Nat × Nat) := do
  let reg := data.take 8 ++ List.replicate 8 0
  let maskIndex ← findLsb 32 (not32 (movemask reg))
  let u64ByteSwapped := endianReverse (load (data.take 8))
  let numBytesToDecode := maskIndex + 1
  let mask1 := endianReverse (bzhi 0x7f7f7f7f7f7f7f7f (numBytesToDecode <<< 3))
  let decoded := pext 64 u64ByteSwapped mask1
  let first ← data[0]?
  let valid := (validCode maskIndex first.toNat 0x048f).toNat
  return (decoded % 2 ^ 32 * valid, numBytesToDecode * valid)

/-- `SdnvDecodeU64FastBufSize16`, Sdnv.cpp:786-867, on the bytes at the read pointer (at least
sixteen). -/
def decodeU64FastBufSize16 (data : Bytes) : Option (Nat × Nat) := do
  let reg := data.take 16
  let maskIndex ← findLsb 32 (not32 (movemask reg))
  let u64ByteSwapped := endianReverse (load (reg.take 8))
  let numBytesToDecode := maskIndex + 1
  let index1 := numBytesToDecode <<< 3
  let mask1 := endianReverse (bzhi 0x7f7f7f7f7f7f7f7f index1)
  let decoded := pext 64 u64ByteSwapped mask1
  let mask2 := endianReverse (bextr 0x7f7f (2 ^ 32 + 80 - index1) 16)
  let shift := popcnt 64 mask2
  let decoded := (decoded <<< shift) % 2 ^ 64
  let u64HighByteSwapped := endianReverse (load ((reg.drop 8).take 8))
  let decoded2 := pext 64 u64HighByteSwapped mask2 % 2 ^ 16
  let decoded := decoded ||| decoded2
  let first ← data[0]?
  let valid := (validCode maskIndex first.toNat 0x0981).toNat
  return (decoded * valid, numBytesToDecode * valid)

/-- Byte shift of a register towards lower addresses, zeros entering: `SHUFFLE_SHR_128I` with
`_mm_shuffle_epi8` (Sdnv.cpp:606-632, 929-930) and the `_mm256_alignr_epi8` switch
(Sdnv.cpp:1018-1053). The shuffle table rows are not transcribed. -/
def shiftReg (reg : Bytes) (n : Nat) : Bytes := reg.drop n ++ List.replicate n 0

/-- Outcome of decoding one register full: a malformed SDNV (`*numBytes = 0`, return 0), or values
and the number of bytes used. -/
inductive MultiResult
  | error
  | done (values : List Nat) (numBytes : Nat)
deriving DecidableEq, Repr

/-- Loop of `SdnvDecodeMultipleU64Fast`, Sdnv.cpp:896-962 (`width` 16), and of
`SdnvDecodeMultiple256BitU64Fast`, Sdnv.cpp:990-1058 (`width` 32): values still wanted, register,
bytes remaining in it, values stored. `none` is undefined behaviour. -/
def decodeMultipleLoop (width : Nat) :
    Nat → Bytes → Nat → List Nat → Option MultiResult
  | 0, _, bytesRemaining, acc => some (.done acc (width - bytesRemaining))
  | wanted + 1, reg, bytesRemaining, acc =>
    if bytesRemaining = 0 then some (.done acc (width - bytesRemaining))
    else do
      let maskIndex ← findLsb 32 (not32 (movemask reg))
      let sdnvSizeBytes := maskIndex + 1
      if sdnvSizeBytes > bytesRemaining then
        return .done acc (width - bytesRemaining)
      let encoded64 := load (reg.take 8)
      if ¬ validCode maskIndex (encoded64 % 256) 0x0981 then
        return .error
      let decoded := pext 64 (endianReverse encoded64) (← masksPdepPext1[maskIndex]?)
      let decoded := (decoded <<< (← decodedShifts[maskIndex]?)) % 2 ^ 64
      let decoded2 := pext 64 (endianReverse (load ((reg.drop 8).take 8)))
        (← masksPdepPext2[maskIndex]?)
      decodeMultipleLoop width wanted (shiftReg reg sdnvSizeBytes) (bytesRemaining - sdnvSizeBytes)
        (acc ++ [decoded ||| decoded2])

/-- `SdnvDecodeMultipleU64Fast` / `SdnvDecodeMultiple256BitU64Fast`: load `width` bytes. -/
def decodeMultiple (width wanted : Nat) (data : Bytes) : Option MultiResult :=
  decodeMultipleLoop width wanted (data.take width) width []

/-- How a register-wide stage of the array decoder ends: it returns to the caller, or hands
(remaining, values stored, bytes taken, rest of the buffer) to the next stage. -/
inductive StageResult
  | ret (r : ArrayResult)
  | next (remaining : Nat) (acc : List Nat) (taken : Nat) (buf : Bytes)

/-- First (`width` 32) and second (`width` 16) `while` loop of `SdnvDecodeArrayU64Fast`,
Sdnv.cpp:1070-1088 and 1090-1108. -/
def stage (width : Nat) (remaining : Nat) (acc : List Nat) (taken : Nat) (buf : Bytes) :
    Option StageResult :=
  if _h : width ≤ buf.length ∧ remaining ≠ 0 then
    match decodeMultiple width remaining buf with
    | none => none
    | some .error => some (.ret ⟨[], 0, true⟩)
    | some (.done vs n) =>
      if n = 0 then some (.ret ⟨[], 0, true⟩)
      else if _h2 : vs.length = 0 then some (.ret ⟨acc, taken, false⟩)
      else stage width (remaining - vs.length) (acc ++ vs) (taken + n) (buf.drop n)
  else some (.next remaining acc taken buf)
termination_by remaining
decreasing_by omega

/-- `SdnvDecodeArrayU64Fast`, Sdnv.cpp:1065-1131. -/
def decodeArrayU64Fast (remaining : Nat) (buf : Bytes) : Option ArrayResult := do
  match ← stage 32 remaining [] 0 buf with
  | .ret r => return r
  | .next remaining acc taken buf =>
    match ← stage 16 remaining acc taken buf with
    | .ret r => return r
    | .next remaining acc taken buf =>
      return decodeArrayLoop decodeU64Classic remaining acc taken buf

/-- `SdnvEncodeU64` in an accelerated build, Sdnv.cpp:76-88: the fast routine when the buffer has at
least ten bytes. `mem` is the content of the output buffer, its length is `bufferSize`. -/
def encodeU64Dispatch (mem : Bytes) (v : Nat) : Option Bytes :=
  if mem.length ≥ 10 then
    (encodeU64FastBufSize10 mem v).map fun r => r.1.take r.2
  else some (encodeU64Classic v mem.length)

/-- `SdnvDecodeU64` in an accelerated build, Sdnv.cpp:113-123. -/
def decodeU64Dispatch (buf : Bytes) : Option (Nat × Nat) :=
  if buf.length ≥ 16 then decodeU64FastBufSize16 buf else some (decodeU64Classic buf)

/-- `SdnvEncodeU32` in an accelerated build, Sdnv.cpp:51-63. -/
def encodeU32Dispatch (bufferSize v : Nat) : Option Bytes :=
  if bufferSize ≥ 8 then
    (encodeU32FastBufSize8 v).map fun r => r.1.take r.2
  else some (encodeU32Classic v bufferSize)

/-- `SdnvDecodeU32` in an accelerated build, Sdnv.cpp:99-109. -/
def decodeU32Dispatch (buf : Bytes) : Option (Nat × Nat) :=
  if buf.length ≥ 8 then decodeU32FastBufSize8 buf else some (decodeU32Classic buf)

end Hdtn.Sdnv.Fast
