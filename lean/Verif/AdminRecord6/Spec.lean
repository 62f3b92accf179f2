import Verif.Sdnv.Spec
import Verif.AdminRecord6.Model

/-!
BPv6 administrative records on the wire (RFC 5050 section 6.1, CCSDS 734.2 for the aggregate custody
signal), independent of the code.
-/

namespace Hdtn.AdminRecord6.Spec

open Hdtn.Sdnv.Spec Hdtn.FragmentSet

/-- `p` is the SDNV of a number of the given width. -/
def IsNum (p : Bytes) : Num → Prop
  | .u64 v => IsSdnv64 p v
  | .u32 v => IsSdnv32 p v

/-- `p` is a row of SDNVs with the given values. -/
inductive Row : Bytes → List Num → Prop
  | nil : Row [] []
  | cons {p q : Bytes} {x : Num} {xs : List Num} : IsNum p x → Row q xs → Row (p ++ q) (x :: xs)

/-- Status flag number `i` of a status report. -/
def Flag (f : UInt8) (i : Nat) : Prop := f.toNat / 2 ^ i % 2 = 1

instance (f : UInt8) (i : Nat) : Decidable (Flag f i) := inferInstanceAs (Decidable (_ = _))

/-- A DTN time: seconds and nanoseconds. -/
def time (t : DtnTime) : List Num := [.u64 t.seconds, .u32 t.nanoseconds]

/-- An optional stretch. -/
def opt (c : Prop) [Decidable c] (l : List Num) : List Num := if c then l else []

/-- The numbers of a status report: fragment offset and length for a fragment; the times of receipt,
custody acceptance, forwarding, delivery and deletion as far as their flags are set; creation time and
sequence number of the bundle. -/
def statusFields (r : StatusReport) : List Num :=
  opt r.isFragment [.u64 r.fragmentOffset, .u64 r.fragmentLength] ++
    opt (Flag r.flags 0) (time r.received) ++ opt (Flag r.flags 1) (time r.custody) ++
    opt (Flag r.flags 2) (time r.forwarded) ++ opt (Flag r.flags 3) (time r.delivered) ++
    opt (Flag r.flags 4) (time r.deleted) ++ [.u64 r.creationSeconds, .u64 r.creationSequence]

/-- The numbers of a custody signal: fragment offset and length for a fragment, time of the signal,
creation time and sequence number of the bundle. -/
def custodyFields (c : CustodySignal) : List Num :=
  opt c.isFragment [.u64 c.fragmentOffset, .u64 c.fragmentLength] ++ time c.time ++
    [.u64 c.creationSeconds, .u64 c.creationSequence]

/-- Fields that are not transmitted are 0. -/
def StatusNormal (r : StatusReport) : Prop :=
  (r.isFragment = false → r.fragmentOffset = 0 ∧ r.fragmentLength = 0) ∧
    (¬ Flag r.flags 0 → r.received = ⟨0, 0⟩) ∧ (¬ Flag r.flags 1 → r.custody = ⟨0, 0⟩) ∧
    (¬ Flag r.flags 2 → r.forwarded = ⟨0, 0⟩) ∧ (¬ Flag r.flags 3 → r.delivered = ⟨0, 0⟩) ∧
    (¬ Flag r.flags 4 → r.deleted = ⟨0, 0⟩)

/-- Fields that are not transmitted are 0. -/
def CustodyNormal (c : CustodySignal) : Prop :=
  c.isFragment = false → c.fragmentOffset = 0 ∧ c.fragmentLength = 0

/-- `p` is the length of the text `eid` and the text. -/
def IsEidText (p : Bytes) (eid : Bytes) : Prop :=
  ∃ len, p = len ++ eid ∧ IsSdnv32 len eid.length

/-- The lengths of endpoint texts that receivers accept. -/
def EidOk (eid : Bytes) : Prop := 5 ≤ eid.length ∧ eid.length ≤ 65535

/-- Status report: flags, reason, the numbers, the endpoint. -/
def IsStatusReport (p : Bytes) (r : StatusReport) : Prop :=
  ∃ nums eid, p = r.flags :: r.reason :: (nums ++ eid) ∧ Row nums (statusFields r) ∧
    IsEidText eid r.eid

/-- Custody signal: status byte, the numbers, the endpoint. -/
def IsCustodySignal (p : Bytes) (c : CustodySignal) : Prop :=
  ∃ nums eid, p = c.status :: (nums ++ eid) ∧ Row nums (custodyFields c) ∧ IsEidText eid c.eid

/-- The fills of an aggregate custody signal as pairs (distance of its left edge from the right edge
of the previous fill, length); the ranges of identifiers they stand for. -/
def ranges : Nat → List (Nat × Nat) → List Frag
  | _, [] => []
  | prev, (delta, len) :: ps => ⟨prev + delta, prev + delta + len - 1⟩ :: ranges (prev + delta + len - 1) ps

/-- The pairs as a row of numbers. -/
def pairNums : List (Nat × Nat) → List Num
  | [] => []
  | (delta, len) :: ps => .u64 delta :: .u64 len :: pairNums ps

/-- All numbers fit their types. -/
def InRange : List Num → Prop
  | [] => True
  | .u64 v :: xs => v < 2 ^ 64 ∧ InRange xs
  | .u32 v :: xs => v < 2 ^ 32 ∧ InRange xs

end Hdtn.AdminRecord6.Spec
