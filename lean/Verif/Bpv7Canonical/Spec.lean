import Verif.Bpv7Canonical.Model
import Verif.Cbhe.Spec
import Verif.Bpv7Crc.Props

/-!
The BPv7 canonical block on the wire (RFC 9171, section 4.3.2), independent of the codec. Of the model
only the records and the two CRC functions (through `IsCrcField`) are used.
-/

namespace Hdtn.Bpv7Canonical.Spec

open Hdtn.HashMap16 Hdtn.Cbor.Spec Hdtn.Cbhe.Spec Hdtn.Bpv7Crc

/-- `p` is the head of a definite-length byte string (major type 2) of `n` bytes: an unsigned integer
head with 0x40 added to its first byte. -/
def IsStringHead (p : Bytes) (n : Nat) : Prop :=
  ∃ b rest, p = b :: rest ∧ ∃ b0 : UInt8, b0.toNat + 0x40 = b.toNat ∧ IsUint (b0 :: rest) n

/-- `body` is the block of `c` up to its CRC: the head of an array of 5 elements, or 6 with a CRC; the
type code, an integer of at most two bytes; number, flags and CRC type; the data, a byte string.
`tag` is what stands before the byte string. -/
def IsBody (tag body : Bytes) (c : Canonical) : Prop :=
  ∃ head : UInt8, ∃ typeCode number flags string : Bytes,
    body = head :: typeCode ++ number ++ flags ++ c.crcType :: tag ++ string ++ c.data ∧
    head.toNat = (if c.crcType = 0 then 0x85 else 0x86) ∧
    IsUint typeCode c.typeCode.toNat ∧ typeCode.length ≤ 2 ∧ IsUint number c.number ∧
    IsUint flags c.flags ∧ IsStringHead string c.data.length

/-- `bs` is the block of `c`, ending in its CRC. -/
def IsCanonical (tag bs : Bytes) (c : Canonical) : Prop :=
  ∃ body crc, bs = body ++ crc ∧ IsBody tag body c ∧ IsCrcField c.crcType body crc (c.crc16, c.crc32)

/-- The same with a CRC field holding anything. -/
def IsCanonicalUnchecked (tag bs : Bytes) (c : Canonical) : Prop :=
  ∃ body crc, bs = body ++ crc ∧ IsBody tag body c ∧
    ((c.crcType = 0 ∧ crc = [] ∧ c.crc16 = 0 ∧ c.crc32 = 0) ∨
     (c.crcType = 1 ∧ crc = 0x42 :: toBe 2 c.crc16 ∧ c.crc16 < 2 ^ 16 ∧ c.crc32 = 0) ∨
     (c.crcType = 2 ∧ crc = 0x44 :: toBe 4 c.crc32 ∧ c.crc32 < 2 ^ 32 ∧ c.crc16 = 0))

/-- The members fit their C++ types. -/
def InRange (c : Canonical) : Prop :=
  c.number < 2 ^ 64 ∧ c.flags < 2 ^ 64 ∧ c.data.length < 2 ^ 64

/-- `data` is the content of an extension block (RFC 9171 sections 4.4.1 to 4.4.3; the priority block is
HDTN's own). -/
def IsExt : Ext → Bytes → Prop
  | .previousNode e, data => IsEid7 data e
  | .bundleAge ms, data => IsUint data ms
  | .hopCount limit count, data => IsPair data limit count
  | .priority p, data => IsUint data p

/-- The numbers of an extension block fit their C++ types, and a dtn:none node has no service. -/
def Ext.InRange : Ext → Prop
  | .previousNode e => e.node < 2 ^ 64 ∧ e.service < 2 ^ 64 ∧ (e.node = 0 → e.service = 0)
  | .bundleAge ms => ms < 2 ^ 64
  | .hopCount limit count => limit < 2 ^ 64 ∧ count < 2 ^ 64
  | .priority p => p < 2 ^ 64

end Hdtn.Bpv7Canonical.Spec
