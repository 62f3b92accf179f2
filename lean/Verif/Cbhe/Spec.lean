import Verif.Cbor.Spec
import Verif.Sdnv.Spec
import Verif.HashMap16.Model

/-!
Encoded endpoints, independent of the code: RFC 9171 section 4.2.5 (CBOR) and RFC 6260 (SDNVs).
-/

namespace Hdtn.Cbhe.Spec

open Hdtn.HashMap16 Hdtn.Cbor.Spec Hdtn.Sdnv.Spec

/-- `p` is a CBOR array of two unsigned integers, definite with a one-byte head or indefinite. -/
def IsPair (p : Bytes) (a b : Nat) : Prop :=
  ∃ body, (p = 0x82 :: body ∨ p = 0x9f :: body ++ [0xff]) ∧ IsUints body [a, b]

/-- The two items of an endpoint: scheme 1 (dtn) with 0 for "none", or scheme 2 (ipn) with a pair. -/
def IsItems (p : Bytes) (e : Eid) : Prop :=
  (p = [1, 0] ∧ e = ⟨0, 0⟩) ∨ ∃ q, p = 2 :: q ∧ IsPair q e.node e.service

/-- `p` is an endpoint in CBOR: an array, definite or indefinite, of these two items. -/
def IsEid7 (p : Bytes) (e : Eid) : Prop :=
  ∃ items, (p = 0x82 :: items ∨ p = 0x9f :: items ++ [0xff]) ∧ IsItems items e

/-- `p` is an endpoint in BPv6 compressed form: two SDNVs. -/
def IsEid6 (p : Bytes) (e : Eid) : Prop := Split p [e.node, e.service] []

end Hdtn.Cbhe.Spec
