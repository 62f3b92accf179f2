import Verif.Sdnv.Spec
import Verif.Uri.Spec
import Verif.Bpv6Canonical.Model

/-!
BPv6 blocks on the wire (RFC 5050 section 4.5.2; RFC 6259, RFC 6258, CCSDS 734.2), independent of the
code.
-/

namespace Hdtn.Bpv6Canonical.Spec

open Hdtn.HashMap16 Hdtn.Sdnv.Spec Hdtn.Uri.Spec

/-- `p` is the block `b`: a type byte, SDNVs for flags and data length, the data. -/
def IsBlock (p : Bytes) (b : Block) : Prop :=
  ∃ q, p = b.typeCode :: q ++ b.data ∧ Split q [b.flags, b.data.length] []

/-- `p` is a list of null-terminated ipn URIs. -/
inductive IsUris : Bytes → List Eid → Prop
  | nil : IsUris [] []
  | cons {a b p : Bytes} {e : Eid} {es : List Eid} :
    IsSignedNumeral a e.node → IsSignedNumeral b e.service → IsUris p es →
      IsUris (ipn a b ++ [0] ++ p) (e :: es)

/-- `p` is the data of the extension block `x`. -/
def IsExtData (p : Bytes) : Ext → Prop
  | .cteb i s => ∃ q, p = q ++ s ∧ IsSdnv64 q i
  | .previousHop e => ∃ a b, p = [105, 112, 110, 0] ++ a ++ [46] ++ b ++ [0] ∧
      IsSignedNumeral a e.node ∧ IsSignedNumeral b e.service
  | .age t => IsSdnv64 p t
  | .metadata t .none => IsSdnv64 p t
  | .metadata t (.uris es) => ∃ q r, p = q ++ r ∧ IsSdnv64 q t ∧ IsUris r es
  | .metadata t (.raw bytes) => ∃ q, p = q ++ bytes ∧ IsSdnv64 q t

/-- What the reader wants beyond the format: custodian texts of at most 45 bytes, previous-hop data of
at most 45 bytes, at least one URI for type 1 and raw bytes for the other types. -/
def Readable (p : Bytes) : Ext → Prop
  | .cteb _ s => s.length ≤ 45
  | .previousHop _ => p.length ≤ 45
  | .age _ => True
  | .metadata _ .none => False
  | .metadata t (.uris es) => t = 1 ∧ es ≠ []
  | .metadata t (.raw _) => t ≠ 1

/-- Numbers fit in 64 bits. -/
def InRange : Ext → Prop
  | .cteb i _ => i < 2 ^ 64
  | .previousHop e => e.node < 2 ^ 64 ∧ e.service < 2 ^ 64
  | .age t => t < 2 ^ 64
  | .metadata t .none => t < 2 ^ 64
  | .metadata t (.uris es) => t < 2 ^ 64 ∧ ∀ e ∈ es, e.node < 2 ^ 64 ∧ e.service < 2 ^ 64
  | .metadata t (.raw _) => t < 2 ^ 64

end Hdtn.Bpv6Canonical.Spec
