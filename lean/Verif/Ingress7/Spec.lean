import Verif.Ingress7.Model
import Verif.BundleView7.Spec

/-!
What a node does with a bundle that it forwards (RFC 9171, sections 4.4.1, 4.4.3 and 5.4): it puts its own number into the
previous node block, and adds one to the hop count. Independent of the code; of the model only the records are used.
-/

namespace Hdtn.Ingress7.Spec

open Hdtn.HashMap16 Hdtn.Bpv7Canonical Hdtn.BundleView7 Hdtn.BundleView7.Spec

/-- The same type, number, flags and kind of CRC. -/
def SameHeader (b w : BlockView) : Prop :=
  w.block.typeCode = b.block.typeCode ∧ w.block.number = b.block.number ∧ w.block.flags = b.block.flags ∧
  w.block.crcType = b.block.crcType

/-- What becomes of a block at a node that calls itself `me`. -/
def IsForwarded (me : Eid) (b w : BlockView) : Prop :=
  (b.block.typeCode = 6 → SameHeader b w ∧ w.body = .ext (.previousNode me)) ∧
  (b.block.typeCode = 10 → SameHeader b w ∧
    ∃ limit count, b.body = .ext (.hopCount limit count) ∧ w.body = .ext (.hopCount limit (count + 1))) ∧
  (b.block.typeCode ≠ 6 → b.block.typeCode ≠ 10 → w = b)

/-- A new previous node block. -/
def IsNewPrevious (me : Eid) (number : Nat) (w : BlockView) : Prop :=
  w.block.typeCode = 6 ∧ w.block.number = number ∧ w.block.flags = 16 ∧ w.block.crcType = 2 ∧
  w.body = .ext (.previousNode me)

/-- The bundle `w` is the bundle `v` as a node forwards it, apart from the primary block. -/
def BlocksForwarded (me : Eid) (v w : View) : Prop :=
  ((∃ b ∈ v.blocks, b.block.typeCode = 6) → List.Forall₂ (IsForwarded me) v.blocks w.blocks) ∧
  ((∀ b ∈ v.blocks, b.block.typeCode ≠ 6) → ∃ p bs number, w.blocks = p :: bs ∧ Unused v.blocks number ∧
    IsNewPrevious me number p ∧ List.Forall₂ (IsForwarded me) v.blocks bs)

/-- A bundle may be forwarded: it has at most one previous node block, at most one hop count block, and at this node the hop
count does not exceed its limit, nor 255. -/
def MayPass (v : View) : Prop :=
  (v.blocks.filter fun b => b.block.typeCode = 6).length ≤ 1 ∧
  (v.blocks.filter fun b => b.block.typeCode = 10).length ≤ 1 ∧
  ∀ b ∈ v.blocks, ∀ limit count, b.body = .ext (.hopCount limit count) → count + 1 ≤ limit ∧ count + 1 ≤ 255

/-- Nothing in a bundle keeps a node from changing the two blocks: they are not encrypted, all blocks that are said to be
encrypted are there, and there is a number for a new previous node block. -/
structure Open (v : View) : Prop where
  clear : ∀ b ∈ v.blocks, b.block.typeCode = 6 ∨ b.block.typeCode = 10 → b.block.number ∉ v.encrypted
  there : ∀ t ∈ v.encrypted, ∃ b ∈ v.blocks, b.block.number = t
  room : (∀ b ∈ v.blocks, b.block.typeCode ≠ 6) → ∀ b ∈ v.blocks, b.block.number + 1 < 2 ^ 64

/-- A node that passes bundles with this primary block on: it is not their destination (for ping, for echo, or for custody
signals), and it has no policy to protect them. -/
structure Transit (N : Node) (p : Bpv7Primary.Primary) : Prop where
  number : N.env.node < 2 ^ 64
  ping : p.dest ≠ ⟨N.env.node, N.ping⟩
  echo : p.dest ≠ ⟨N.env.node, N.echo⟩
  custody : ¬ (p.flags.testBit 1 = true ∧ p.dest = ⟨N.env.node, N.custody⟩)
  policy : N.env.manager.find ⟨⟨N.env.node, 1⟩, p.source, p.dest, BpSecPolicy.roleSource⟩ = none

/-- A bundle to the echo service of a node, whose source and report-to endpoints are proper, at a node that has no policy to
protect it. -/
structure ForEcho (N : Node) (p : Bpv7Primary.Primary) : Prop where
  number : N.env.node < 2 ^ 64 ∧ N.env.node ≠ 0 ∧ N.echo < 2 ^ 64
  services : N.echo ≠ N.ping ∧ N.echo ≠ N.custody
  dest : p.dest = ⟨N.env.node, N.echo⟩
  proper : (p.source.node = 0 → p.source.service = 0) ∧ (p.reportTo.node = 0 → p.reportTo.service = 0)
  policy : N.env.manager.find ⟨⟨N.env.node, 1⟩, p.source, p.dest, BpSecPolicy.roleSource⟩ = none

end Hdtn.Ingress7.Spec
