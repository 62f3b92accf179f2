import Verif.AdminRecord7.Model
import Verif.Bpv7Canonical.Spec

/-!
Administrative records on the wire (RFC 9171 section 6.1, draft-ietf-dtn-bibect), independent of the codec. Of
the model only the records are used.
-/

namespace Hdtn.AdminRecord7.Spec

open Hdtn.HashMap16 Hdtn.Cbor.Spec Hdtn.Cbhe.Spec Hdtn.Bpv7Canonical.Spec

/-- `p` is a CBOR array of `k` items (fewer than 24), which are encoded by `items`: with a head that tells the
number, or of indefinite length and ended by a break. -/
def IsArray (k : Nat) (p items : Bytes) : Prop :=
  p = UInt8.ofNat (0x80 + k) :: items ∨ p = 0x9f :: items ++ [0xff]

/-- A status carries a time when it is asserted and times are reported. -/
def Stamped (timeFlag : Bool) (s : Status) : Prop := timeFlag = true ∧ s.asserted = true

/-- `items` encodes a status: true or false, and the time if there is one. -/
def IsStatusItems (timeFlag : Bool) (items : Bytes) (s : Status) : Prop :=
  (Stamped timeFlag s ∧ ∃ t, items = 0xf5 :: t ∧ IsUint t s.time) ∨
    (¬ Stamped timeFlag s ∧ s.time = 0 ∧ items = [if s.asserted then 0xf5 else 0xf4])

/-- `p` is a status: an array of two items if it carries a time, of one otherwise. -/
def IsStatus (timeFlag : Bool) (p : Bytes) (s : Status) : Prop :=
  ∃ items, IsStatusItems timeFlag items s ∧
    ((Stamped timeFlag s ∧ IsArray 2 p items) ∨ (¬ Stamped timeFlag s ∧ IsArray 1 p items))

/-- What is taken for a status: also an array of two items whose second one is missing, when the status is not
asserted. -/
def TakenForStatus (timeFlag : Bool) (p : Bytes) (s : Status) : Prop :=
  IsStatus timeFlag p s ∨ (s = ⟨false, 0⟩ ∧ p = [0x82, 0xf4])

/-- `p` is a concatenation of items, one for each element of `l`. -/
def Each {α : Type} (P : Bytes → α → Prop) : Bytes → List α → Prop
  | p, [] => p = []
  | p, a :: l => ∃ q r, p = q ++ r ∧ P q a ∧ Each P r l

/-- The numbers at the end of a report about a fragment; none, and zero in the report, for other bundles. -/
def IsFragmentItems (p : Bytes) (r : Report) : Prop :=
  (r.isFragment = true ∧ IsUints p [r.offset, r.length]) ∨
    (r.isFragment = false ∧ p = [] ∧ r.offset = 0 ∧ r.length = 0)

/-- The items of a report, the first of which is as `Info` says. -/
def IsReportItems (Info : Bytes → Prop) (p : Bytes) (r : Report) : Prop :=
  ∃ info reason source stamp frag, p = info ++ reason ++ source ++ stamp ++ frag ∧ Info info ∧
    IsUint reason r.reason ∧ IsEid7 source r.source ∧ IsPair stamp r.ms r.seq ∧ IsFragmentItems frag r

/-- `p` is a bundle status report. -/
def IsReport (p : Bytes) (r : Report) : Prop :=
  r.info.length = 4 ∧ ∃ items, IsArray (if r.isFragment then 6 else 4) p items ∧
    IsReportItems (fun info => ∃ ss, IsArray 4 info ss ∧ Each (IsStatus r.timeFlag) ss r.info) items r

/-- What is taken for a report: at least one status is asserted, and the array of the statuses is never ended by a
break, even when its head says that it is of indefinite length. -/
def TakenForReport (p : Bytes) (r : Report) : Prop :=
  r.info.length = 4 ∧ (∃ s ∈ r.info, s.asserted = true) ∧
  ∃ items, IsArray (if r.isFragment then 6 else 4) p items ∧
    IsReportItems (fun info => ∃ ss, (info = 0x84 :: ss ∨ info = 0x9f :: ss) ∧
      Each (TakenForStatus r.timeFlag) ss r.info) items r

/-- `p` is an encapsulated bundle: an array of two numbers and a byte string, in front of which stands `tag`. -/
def IsPdu (tag p : Bytes) (u : Pdu) : Prop :=
  ∃ i t head, IsArray 3 p (i ++ t ++ tag ++ head ++ u.bundle) ∧ IsUint i u.transmissionId ∧
    IsUint t u.retransmission ∧ IsStringHead head u.bundle.length

/-- `data` is a record with content that is supported; `Rep` tells what a report is. -/
def IsSupported (Rep : Bytes → Report → Prop) (tag data : Bytes) (r : Record) : Prop :=
  ∃ code content, IsArray 2 data (code ++ content) ∧ IsUint code r.code ∧
    ((∃ x, r.code = 1 ∧ r.content = some (.report x) ∧ Rep content x) ∨
     (∃ u, r.code = 3 ∧ r.content = some (.pdu u) ∧ IsPdu tag content u))

/-- `data` is a record whose content is supported. -/
def IsRecord (data : Bytes) (r : Record) : Prop := IsSupported IsReport [] data r

/-- `data` begins like a record with a code that is not supported; what follows is not looked at. -/
def IsUnsupported (data : Bytes) (r : Record) : Prop :=
  r.code ≠ 1 ∧ r.code ≠ 3 ∧ r.content = none ∧
    ∃ code rest, (data = 0x82 :: code ++ rest ∨ data = 0x9f :: code ++ rest) ∧ IsUint code r.code

/-- The numbers of a report fit their C++ types, and a dtn:none source has no service. -/
def ReportInRange (r : Report) : Prop :=
  r.info.length = 4 ∧ (∀ s ∈ r.info, s.time < 2 ^ 64) ∧ r.reason < 2 ^ 64 ∧ r.source.node < 2 ^ 64 ∧
    r.source.service < 2 ^ 64 ∧ (r.source.node = 0 → r.source.service = 0) ∧ r.ms < 2 ^ 64 ∧ r.seq < 2 ^ 64 ∧
    r.offset < 2 ^ 64 ∧ r.length < 2 ^ 64

/-- The numbers of an encapsulated bundle fit their C++ types. -/
def PduInRange (p : Pdu) : Prop :=
  p.transmissionId < 2 ^ 64 ∧ p.retransmission < 2 ^ 64 ∧ p.bundle.length < 2 ^ 63

/-- The record has content that fits its code. -/
def RecordInRange (r : Record) : Prop :=
  (∃ x, r.code = 1 ∧ r.content = some (.report x) ∧ ReportInRange x) ∨
    (∃ u, r.code = 3 ∧ r.content = some (.pdu u) ∧ PduInRange u)

/-- A status without the time that is not reported. -/
def carriedStatus (timeFlag : Bool) (s : Status) : Status :=
  if timeFlag = true ∧ s.asserted = true then s else { s with time := 0 }

/-- What a report carries: members that its flags exclude are zero. -/
def carried (r : Report) : Report :=
  { r with
    info := r.info.map (carriedStatus r.timeFlag)
    offset := if r.isFragment then r.offset else 0
    length := if r.isFragment then r.length else 0 }

/-- What a record carries. -/
def carriedRecord (r : Record) : Record :=
  { r with
    content := match r.content with
      | some (.report x) => some (.report (carried x))
      | c => c }

/-- At least one status is asserted, if the record is a report. -/
def Asserts (r : Record) : Prop :=
  ∀ x, r.content = some (.report x) → ∃ s ∈ x.info, s.asserted = true

end Hdtn.AdminRecord7.Spec
