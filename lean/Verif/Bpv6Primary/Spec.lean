import Verif.Cbhe.Spec
import Verif.Bpv6Primary.Model

/-!
A BPv6 primary block on the wire (RFC 5050 section 4.5.1 with the compressed endpoints of RFC 6260),
independent of the code: the version byte 6 and a row of SDNVs.
-/

namespace Hdtn.Bpv6Primary.Spec

open Hdtn.Sdnv.Spec

/-- Bit 0 of the bundle processing flags: the bundle is a fragment. -/
def IsFragment (b : Primary) : Prop := b.flags % 2 = 1

instance (b : Primary) : Decidable (IsFragment b) := inferInstanceAs (Decidable (_ = _))

/-- The numbers behind the block length, in order: four endpoints, creation time and sequence number,
lifetime, the length 0 of the dictionary and, in a fragment, offset and total length. -/
def tailFields (b : Primary) : List Nat :=
  [b.dest.node, b.dest.service, b.source.node, b.source.service, b.reportTo.node, b.reportTo.service,
    b.custodian.node, b.custodian.service, b.creationSeconds, b.creationSequence, b.lifetime, 0] ++
    (if IsFragment b then [b.fragmentOffset, b.totalAduLength] else [])

/-- `p` is the primary block `b`. A block that is not a fragment has no offset and total length:
they count as 0. -/
def IsPrimary (p : Bytes) (b : Primary) : Prop :=
  (∃ body, p = 6 :: body ∧ Split body (b.flags :: b.blockLength :: tailFields b) []) ∧
    (¬ IsFragment b → b.fragmentOffset = 0 ∧ b.totalAduLength = 0)

/-- Every field fits in 64 bits. -/
def InRange (b : Primary) : Prop :=
  b.flags < 2 ^ 64 ∧ ∀ v ∈ tailFields b, v < 2 ^ 64

end Hdtn.Bpv6Primary.Spec
