import Verif.Sink.Model
import Verif.Bpv6Fragment.Spec
import Verif.CustodyManager.Spec
import Verif.Ingress7.Spec

/-!
What a sink of bundles is expected to do, independent of the code.
-/

namespace Hdtn.Sink.Spec

open Hdtn.HashMap16

/-- The bundle has one destination (bit 4 of its flags) and asks for custody (bit 3). -/
def WantsCustody (p : Bpv6Primary.Primary) : Prop := p.flags.testBit 4 = true ∧ p.flags.testBit 3 = true

/-- The bundle is for the echo service, as its only destination. -/
def ForEcho (C : Cfg) (p : Bpv6Primary.Primary) : Prop := p.flags.testBit 4 = true ∧ p.dest = C.echo

/-- The bytes received. -/
def inputs (ops : List Op) : List Bytes :=
  ops.filterMap fun op => match op with
    | .bundle buf _ _ => some buf
    | .timer _ => none

/-- The bytes `out` are the bundle `v` as the echo service returns it: the source is the new destination, and the echo service the new source;
all else is as it was. -/
def Returned6 (echo : Eid) (v : BundleView6.View) (out : Bytes) : Prop :=
  ∃ w, BundleView6.load out = some w ∧ w.blocks = v.blocks ∧
    w.primary = { v.primary with dest := v.primary.source, source := echo, blockLength := w.primary.blockLength }

/-- What tells bundles apart (RFC 5050, section 4.5.1): source and creation timestamp. -/
def identity (p : Bpv6Primary.Primary) : Eid × Nat × Nat := (p.source, p.creationSeconds, p.creationSequence)

/-- At most one priority block, which is not encrypted, and has one of the three priorities. -/
def PriorityFine (v : BundleView7.View) : Prop :=
  (v.blocks.filter fun b => b.block.typeCode = 13).length ≤ 1 ∧
  ∀ b ∈ v.blocks, b.block.typeCode = 13 → b.block.number ∉ v.encrypted ∧ ∀ p, b.body = .ext (.priority p) → p ≤ 2

/-- An endpoint that can be written: a node has a number, and only `ipn:0.0` has none. -/
def Proper (e : Eid) : Prop := e.node < 2 ^ 64 ∧ e.service < 2 ^ 64 ∧ (e.node = 0 → e.service = 0)

/-- The bundles that are somewhere in the sender, or were. -/
def Sender.all (s : Sender) : List (Eid × Bytes) :=
  s.queue ++ ((s.failed ++ s.held.toList ++ s.duct ++ s.acked).map fun b => (b.dest, b.data)) ++ s.dropped

end Hdtn.Sink.Spec
