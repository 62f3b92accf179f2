import Verif.Common.BigEndian

/-!
CBOR unsigned integers and arrays of them (RFC 8949, sections 3 and 3.2.2), as relations between
byte strings and values. Independent of the model.
-/

namespace Hdtn.Cbor.Spec

/-- `p` is a CBOR unsigned integer (major type 0) of value `v`: one byte below 24, or a byte
`24 + k` followed by `2^k` bytes, big endian. -/
def IsUint (p : Bytes) (v : Nat) : Prop :=
  ∃ b rest, p = b :: rest ∧
    ((b.toNat < 24 ∧ rest = [] ∧ v = b.toNat) ∨
     ∃ k, k < 4 ∧ b.toNat = 24 + k ∧ rest.length = 2 ^ k ∧ v = beValue rest)

/-- `p` is the concatenation of CBOR unsigned integers of values `vs`. -/
def IsUints : Bytes → List Nat → Prop
  | p, [] => p = []
  | p, v :: vs => ∃ p1 p2, p = p1 ++ p2 ∧ IsUint p1 v ∧ IsUints p2 vs

/-- `p` is the head of a definite-length array (major type 4) of `n` items: an unsigned integer head
with 0x80 added to its first byte. -/
def IsArrayHead (p : Bytes) (n : Nat) : Prop :=
  ∃ b rest, p = b :: rest ∧ ∃ b0 : UInt8, b0.toNat + 128 = b.toNat ∧ IsUint (b0 :: rest) n

/-- `p` is a definite-length array of the unsigned integers `vs`. -/
def IsDefiniteArray (p : Bytes) (vs : List Nat) : Prop :=
  ∃ h body, p = h ++ body ∧ IsArrayHead h vs.length ∧ IsUints body vs

/-- `p` is an indefinite-length array (0x9f ... 0xff) of the unsigned integers `vs`. -/
def IsIndefiniteArray (p : Bytes) (vs : List Nat) : Prop :=
  ∃ body, p = 0x9f :: body ++ [0xff] ∧ IsUints body vs

end Hdtn.Cbor.Spec
