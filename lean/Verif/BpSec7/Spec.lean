import Verif.BpSec7.Model
import Verif.AdminRecord7.Spec

/-!
The abstract security block on the wire (RFC 9172 section 3.6) with the parameters and results of the default
security contexts (RFC 9173), independent of the codec. Of the model only the records are used.
-/

namespace Hdtn.BpSec7.Spec

open Hdtn.HashMap16 Hdtn.Cbor.Spec Hdtn.Cbhe.Spec Hdtn.Bpv7Canonical.Spec Hdtn.AdminRecord7.Spec

/-- `p` encodes a value: an unsigned integer or a byte string. -/
def IsValue (p : Bytes) : Value → Prop
  | .uint v => IsUint p v
  | .bytes b => ∃ h, p = h ++ b ∧ IsStringHead h b.length

/-- `p` is an array of an identifier and a value. -/
def IsIdValue (p : Bytes) (x : Pair) : Prop :=
  ∃ id v, IsArray 2 p (id ++ v) ∧ IsUint id x.id ∧ IsValue v x.value

/-- What RFC 9173 assigns to the parameters (sections 3.3 and 4.3) and results (sections 3.4 and 4.4) of context 1,
BIB-HMAC-SHA2, and context 2, BCB-AES-GCM. -/
def Assigned (isParam : Bool) (context id : Nat) (v : Value) : Prop :=
  match isParam, context, v with
  | true, 1, .uint _ => id = 1 ∨ id = 3
  | true, 1, .bytes _ => id = 2
  | true, 2, .uint _ => id = 2 ∨ id = 4
  | true, 2, .bytes _ => id = 1 ∨ id = 3
  | false, 1, .bytes _ => id = 1
  | false, 2, .bytes _ => id = 1
  | _, _, _ => False

/-- `p` is a definite array of items. -/
def IsArrayOf {α : Type} (P : Bytes → α → Prop) (p : Bytes) (l : List α) : Prop :=
  ∃ h body, p = h ++ body ∧ IsArrayHead h l.length ∧ Each P body l

/-- The parameters are there exactly when bit 0 of the flags is set. -/
def IsOptional (flags : Nat) (IsParams : Bytes → List Pair → Prop) (p : Bytes) (l : List Pair) : Prop :=
  (flags % 2 = 1 ∧ IsParams p l) ∨ (flags % 2 = 0 ∧ p = [] ∧ l = [])

/-- The data of a security block as RFC 9172 section 3.6 describes them. `results` are the results of each target,
those of one target encoded by `IsResults`. -/
def IsAsbWith (IsResults : Bytes → List Pair → Prop) (p : Bytes) (a : Asb) (results : List (List Pair)) : Prop :=
  (∃ targets context flags source params res, p = targets ++ (context ++ (flags ++ (source ++ (params ++ res)))) ∧
    IsDefiniteArray targets a.targets ∧ IsUint context a.context ∧ IsUint flags a.flags ∧ IsEid7 source a.source ∧
    IsOptional a.flags (IsArrayOf IsIdValue) params a.params ∧
    IsArrayOf IsResults res results) ∧
  a.targets ≠ [] ∧ a.targets.Nodup ∧ results.length = a.targets.length ∧ a.results = results.flatten ∧
  (∀ x ∈ a.params, Assigned true a.context x.id x.value) ∧
  (∀ rs ∈ results, ∀ x ∈ rs, Assigned false a.context x.id x.value)

/-- A security block: the results of a target are an array. -/
def IsAsb (p : Bytes) (a : Asb) (results : List (List Pair)) : Prop := IsAsbWith (IsArrayOf IsIdValue) p a results

/-- The results of a target that has one, the head of the array in its shortest form. -/
def IsOneResult (p : Bytes) (rs : List Pair) : Prop := ∃ q r, p = 0x81 :: q ∧ rs = [r] ∧ IsIdValue q r

/-! ### What the reader takes for it -/

/-- Identifiers are told apart by their low 32 bits only. -/
def TakenForPair (isParam : Bool) (context : Nat) (p : Bytes) (x : Pair) : Prop :=
  IsIdValue p x ∧ Assigned isParam (context % 2 ^ 32) (x.id % 2 ^ 32) x.value

/-- At most 1000 items; an indefinite array must hold exactly 1000. -/
def TakenForArray {α : Type} (P : Bytes → α → Prop) (p : Bytes) (l : List α) : Prop :=
  (IsArrayOf P p l ∧ l.length ≤ 1000) ∨ (∃ body, p = 0x9f :: body ++ [0xff] ∧ Each P body l ∧ l.length = 1000)

/-- A result: the array of the results of a target must hold one. -/
def TakenForResult (context : Nat) (p : Bytes) (x : Pair) : Prop :=
  ∃ q, p = 0x81 :: q ∧ TakenForPair false context q x

/-- The fields before the source. -/
def TakenForFront (p : Bytes) (a : Asb) : Prop :=
  ∃ targets context flags, p = targets ++ (context ++ flags) ∧ TakenForArray IsUint targets a.targets ∧
    IsUint context a.context ∧ IsUint flags a.flags ∧ a.flags ≤ 0x1f

/-- The data of a security block as the reader takes them: reserved flags up to 0x1f may be set; nothing relates
the results to the targets. -/
def TakenForAsb (p : Bytes) (a : Asb) : Prop :=
  ∃ front source params res, p = front ++ (source ++ (params ++ res)) ∧ TakenForFront front a ∧
    IsEid7 source a.source ∧
    IsOptional a.flags (TakenForArray (TakenForPair true a.context)) params a.params ∧
    TakenForArray (TakenForResult a.context) res a.results

/-- The members fit their C++ types, and a dtn:none source has no service. -/
def InRange (a : Asb) : Prop :=
  (∀ t ∈ a.targets, t < 2 ^ 64) ∧ a.context < 2 ^ 64 ∧ a.flags < 2 ^ 8 ∧
    a.source.node < 2 ^ 64 ∧ a.source.service < 2 ^ 64 ∧ (a.source.node = 0 → a.source.service = 0)

/-- A pair fits its C++ types. -/
def PairInRange (x : Pair) : Prop :=
  x.id < 2 ^ 64 ∧ match x.value with
    | .uint v => v < 2 ^ 64
    | .bytes b => b.length < 2 ^ 64

/-- The content of a block: its parameters count only if they are declared present. -/
def content (a : Asb) : Asb := if a.flags % 2 = 1 then a else { a with params := [] }

end Hdtn.BpSec7.Spec
