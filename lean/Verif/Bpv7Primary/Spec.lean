import Verif.Bpv7Primary.Model
import Verif.Cbhe.Spec
import Verif.Bpv7Crc.Props

/-!
The BPv7 primary block on the wire (RFC 9171, section 4.3.1), independent of the codec. Of the model
only the record `Primary` and the two CRC functions (through `IsCrcField`) are used.
-/

namespace Hdtn.Bpv7Primary.Spec

open Hdtn.HashMap16 Hdtn.Cbor.Spec Hdtn.Cbhe.Spec Hdtn.Bpv7Crc

/-- The number of array elements: 8, one more with a CRC, two more for a fragment (bit 0 of the
flags). -/
def elements (p : Primary) : Nat :=
  if p.flags % 2 = 1 then if p.crcType = 0 then 10 else 11 else if p.crcType = 0 then 8 else 9

/-- `bs` is the primary block of `p`: the array head, version 7, flags, CRC type, the three endpoints,
the creation timestamp, the lifetime, for a fragment its offset and the total length, and the CRC of
all that. -/
def IsPrimary (bs : Bytes) (p : Primary) : Prop :=
  ∃ head : UInt8, ∃ flags dest source reportTo creation lifetime frag crc : Bytes,
    bs = (head :: 7 :: flags ++ p.crcType :: dest ++ source ++ reportTo ++ creation ++ lifetime ++ frag)
      ++ crc ∧
    head.toNat = 0x80 + elements p ∧
    IsUint flags p.flags ∧ IsEid7 dest p.dest ∧ IsEid7 source p.source ∧ IsEid7 reportTo p.reportTo ∧
    IsPair creation p.creationMs p.creationSeq ∧ IsUint lifetime p.lifetime ∧
    (p.flags % 2 = 1 → IsUints frag [p.fragOffset, p.totalAdu]) ∧ (p.flags % 2 ≠ 1 → frag = []) ∧
    IsCrcField p.crcType
      (head :: 7 :: flags ++ p.crcType :: dest ++ source ++ reportTo ++ creation ++ lifetime ++ frag)
      crc (p.crc16, p.crc32)

/-- The members fit their C++ types, and a dtn:none endpoint has no service number. -/
def InRange (p : Primary) : Prop :=
  p.flags < 2 ^ 64 ∧ p.creationMs < 2 ^ 64 ∧ p.creationSeq < 2 ^ 64 ∧ p.lifetime < 2 ^ 64 ∧
  p.fragOffset < 2 ^ 64 ∧ p.totalAdu < 2 ^ 64 ∧
  ∀ e ∈ [p.dest, p.source, p.reportTo], e.node < 2 ^ 64 ∧ e.service < 2 ^ 64 ∧ (e.node = 0 → e.service = 0)

end Hdtn.Bpv7Primary.Spec
