import Verif.Common.BigEndian

/-!
Model of `common/bpcodec/src/codec/Bpv7Crc.cpp`.

`boost::crc_optimal<w, poly, init, xorOut, true, true>` and the processor's CRC32C instructions are
outside the code base: they are modelled by the usual bit-at-a-time register, least significant bit
first, with the reflected polynomial.
-/

namespace Hdtn.Bpv7Crc

/-- Divide out one bit. `poly` is the reflected polynomial. -/
def bit (poly r : Nat) : Nat := if r % 2 = 1 then (r / 2) ^^^ poly else r / 2

/-- Divide out `n` bits. -/
def bits (poly : Nat) : Nat → Nat → Nat
  | 0, r => r
  | n + 1, r => bits poly n (bit poly r)

/-- One byte: `process_byte` of boost::crc, `_mm_crc32_u8`. -/
def byte (poly r : Nat) (b : UInt8) : Nat := bits poly 8 (r ^^^ b.toNat)

/-- `process_bytes` of boost::crc. -/
def process (poly : Nat) (r : Nat) (data : Bytes) : Nat := data.foldl (byte poly) r

/-- The polynomial 0x1021 of CRC-16/X-25, reflected: Bpv7Crc.cpp:70. -/
def poly16 : Nat := 0x8408

/-- The polynomial 0x1EDC6F41 of CRC-32C, reflected: Bpv7Crc.cpp:64. -/
def poly32 : Nat := 0x82F63B78

/-- `Crc16_X25_Unaligned`, Bpv7Crc.cpp:69-73. -/
def crc16 (data : Bytes) : Nat := process poly16 0xffff data ^^^ 0xffff

/-- `Crc32C_Unaligned_Software`, Bpv7Crc.cpp:63-67. -/
def crc32 (data : Bytes) : Nat := process poly32 0xffffffff data ^^^ 0xffffffff

/-- Little-endian value of eight bytes: a 64-bit load. -/
def leValue : Bytes → Nat
  | [] => 0
  | b :: bs => b.toNat + 256 * leValue bs

/-- `_mm_crc32_u64`: 64 data bits, least significant first, are divided through a 32-bit register. -/
def word64 (poly r w : Nat) : Nat := bits poly 64 (r ^^^ w)

/-- The loop over aligned words and the remaining bytes, Bpv7Crc.cpp:38-49. -/
def hwWords (r : Nat) (data : Bytes) : Nat :=
  if 8 ≤ data.length then hwWords (word64 poly32 r (leValue (data.take 8))) (data.drop 8)
  else process poly32 r data
termination_by data.length
decreasing_by simp; omega

/-- The loop up to an 8-byte boundary, Bpv7Crc.cpp:34-37, for an address `addr`. -/
def hwAlign (addr r : Nat) : Bytes → Nat
  | [] => hwWords r []
  | b :: rest =>
    if addr &&& 7 ≠ 0 then hwAlign (addr + 1) (byte poly32 r b) rest
    else hwWords r (b :: rest)

/-- `Crc32C_Unaligned_Hardware`, Bpv7Crc.cpp:27-52, for data at address `addr`. -/
def crc32Hardware (addr : Nat) (data : Bytes) : Nat := hwAlign addr 0xffffffff data ^^^ 0xffffffff

/-- `SerializeCrc16ForBpv7`, Bpv7Crc.cpp:86-91; with 0 it is `SerializeZeroedCrc16ForBpv7`,
:100-105. -/
def field16 (crc : Nat) : Bytes := 0x42 :: toBe 2 crc

/-- `SerializeCrc32ForBpv7`, Bpv7Crc.cpp:92-99; with 0 it is `SerializeZeroedCrc32ForBpv7`,
:106-113. -/
def field32 (crc : Nat) : Bytes := 0x44 :: toBe 4 crc

/-- `DeserializeCrc16ForBpv7`, Bpv7Crc.cpp:114-125, behind the callers' check of the buffer size. -/
def readField16 : Bytes → Option (Nat × Bytes)
  | i :: a :: b :: rest => if i ≠ 0x42 then none else some (beValue [a, b], rest)
  | _ => none

/-- `DeserializeCrc32ForBpv7`, Bpv7Crc.cpp:126-141, behind the callers' check of the buffer size. -/
def readField32 : Bytes → Option (Nat × Bytes)
  | i :: a :: b :: c :: d :: rest => if i ≠ 0x44 then none else some (beValue [a, b, c, d], rest)
  | _ => none

/-- The end of the serialisers, Bpv7CbhePrimaryBlock.cpp:211-246 and Bpv7CanonicalBlock.cpp:180-218:
the block completed by its CRC, and the two CRC members afterwards. `none`: an unknown CRC type, the
code returns 0. -/
def appendCrc (crcType : UInt8) (body : Bytes) : Option (Bytes × Nat × Nat) :=
  if crcType = 0 then some (body, 0, 0)
  else if crcType = 1 then
    let c := crc16 (body ++ field16 0)
    some (body ++ field16 c, c, 0)
  else if crcType = 2 then
    let c := crc32 (body ++ field32 0)
    some (body ++ field32 c, 0, c)
  else none

/-- The end of the deserialisers, Bpv7CbhePrimaryBlock.cpp:428-492 and
Bpv7CanonicalBlock.cpp:472-544: `body` has been read, `rest` is what follows; the two CRC members and
what is left. With `skip` the CRC is read but not compared (canonical blocks only). -/
def checkCrc (crcType : UInt8) (skip : Bool) (body rest : Bytes) : Option ((Nat × Nat) × Bytes) :=
  if crcType = 0 then some ((0, 0), rest)
  else if crcType = 1 then
    match readField16 rest with
    | none => none
    | some (c, rest) =>
      if skip then some ((c, 0), rest)
      else if crc16 (body ++ field16 0) = c then some ((c, 0), rest) else none
  else if crcType = 2 then
    match readField32 rest with
    | none => none
    | some (c, rest) =>
      if skip then some ((0, c), rest)
      else if crc32 (body ++ field32 0) = c then some ((0, c), rest) else none
  else none

/-- Table `CRC_TYPE_TO_SIZE[4]` indexed by the low two bits, Bpv7CbhePrimaryBlock.cpp:261-262,
Bpv7CanonicalBlock.cpp:231-232. -/
def crcSize (crcType : UInt8) : Option Nat := [0, 3, 5, 0][(crcType &&& 3).toNat]?

end Hdtn.Bpv7Crc
