import Verif.BundleView6.Spec
import Verif.Bpv6Fragment.Model

/-!
Fragments of a BPv6 bundle (RFC 5050 section 5.8), independent of the code.
-/

namespace Hdtn.Bpv6Fragment.Spec

open Hdtn.BundleView6 Hdtn.BundleView6.Spec Hdtn.Bpv6Canonical.Spec Hdtn.Bpv6Primary

/-- `d` is the payload of the bundle: the data of its only block of type 1. -/
def Payload (v : View) (d : Bytes) : Prop :=
  ∃ pre b post, v.blocks = pre ++ b :: post ∧ b.block.typeCode = 1 ∧ b.block.data = d ∧
    ∀ c ∈ pre ++ post, c.block.typeCode ≠ 1

/-- The bundle is a fragment of the bundle with identity `id` and application data unit `adu`: it
carries some bytes of it, and their offset. -/
structure IsPiece (adu : Bytes) (id : Id) (v : View) : Prop where
  id : idOf v.primary = id
  flag : v.primary.flags.testBit 0 = true
  total : v.primary.totalAduLength = adu.length
  data : ∃ d, Payload v d ∧ d ≠ [] ∧
    ∃ front back, adu = front ++ d ++ back ∧ v.primary.fragmentOffset = front.length

/-- Byte `x` of the application data unit is carried by one of the fragments. -/
def Covered (fs : List View) (x : Nat) : Prop :=
  ∃ v ∈ fs, ∃ d, Payload v d ∧ v.primary.fragmentOffset ≤ x ∧ x < v.primary.fragmentOffset + d.length

/-- A bundle that may be fragmented: no administrative record, not forbidden, not a fragment itself;
one payload block, with data `adu`, between the blocks `pre` and `post`, which were read from their
bytes and can be written again. -/
structure Whole (v : View) (pre : List BlockView) (pb : BlockView) (post : List BlockView)
    (adu : Bytes) : Prop where
  blocks : v.blocks = pre ++ pb :: post
  payloadType : pb.block.typeCode = 1
  payloadBody : pb.body = .plain
  payloadFlags : pb.block.flags ≤ 127
  payload : pb.block.data = adu
  others : ∀ b ∈ pre ++ post, b.block.typeCode ≠ 1 ∧ IsBlock b.raw b.block ∧
    IsBody false b.block b.body ∧ Writable false b.block b.body ∧ b.block.flags ≤ 127
  notFragment : v.primary.flags.testBit 0 = false
  notAdmin : v.primary.flags.testBit 1 = false
  allowed : v.primary.flags.testBit 2 = false
  noOffset : v.primary.fragmentOffset = 0 ∧ v.primary.totalAduLength = 0
  fits : ∀ offset < adu.length, Hdtn.Bpv6Primary.Spec.InRange (copyPrimaryFragment v.primary offset adu.length) ∧
    (serialize (copyPrimaryFragment v.primary offset adu.length)).1.isSome = true

/-- The bytes of fragment `i`. -/
def slice (payload : Bytes) (sz i : Nat) : Bytes := (payload.drop (i * sz)).take sz

/-- A block must be copied to every fragment (bit 0 of its flags). -/
def Replicated (b : BlockView) : Bool := b.block.flags.testBit 0

/-- The blocks of fragment `i` of `k`, by type and content: those in front of the payload in the first
fragment, those behind it in the last one, replicated ones in all. -/
def contents (pre : List BlockView) (pb : BlockView) (post : List BlockView) (k i : Nat) :
    List (UInt8 × Body) :=
  ((pre.filter fun b => Replicated b || i = 0) ++ pb ::
    (post.filter fun b => Replicated b || i + 1 = k)).map fun b => (b.block.typeCode, b.body)

/-- `w` has the type, content and flags of `b`, except for the mark of the last block and flags that
are added when extension blocks are written; the same data if it is a block without content of its
own. -/
def Restored (b w : BlockView) : Prop :=
  w.block.typeCode = b.block.typeCode ∧ w.body = b.body ∧
    (∀ i, i ≠ 3 → b.block.flags.testBit i = true → w.block.flags.testBit i = true) ∧
    (b.body = .plain → w.block.data = b.block.data)

/-- `d` are the bytes of the bundle `v`. -/
def WrittenAs (v : View) (d : Bytes) : Prop := ∃ w, v.render = some (d, w)

/-- Two primary blocks belong to the same bundle or to fragments of it. -/
def SameBundle (p q : Primary) : Prop :=
  p.source = q.source ∧ p.creationSeconds = q.creationSeconds ∧ p.creationSequence = q.creationSequence

/-- The received bytes `d` do not begin with a primary block of the bundle with primary block `q`. -/
def Foreign (q : Primary) (d : Bytes) : Prop :=
  ∀ p rest, Bpv6Primary.read d = some (p, rest) → ¬ SameBundle p q

/-- The received bytes are a fragment with a payload that is not empty and ends below 2^64, of a
non-empty unit; all its blocks have their flags in one byte. -/
def Sound (d : Bytes) (w : View) : Prop :=
  load d = some w ∧ (∀ b ∈ w.blocks, OneByteFlags b.raw b.block) ∧ w.primary.flags.testBit 0 = true ∧
    0 < w.primary.totalAduLength ∧ w.primary.totalAduLength < 2 ^ 64 ∧
    ∃ data, Payload w data ∧ data ≠ [] ∧ w.primary.fragmentOffset + data.length < 2 ^ 64

/-- What the manager holds for `id`: fragments of that bundle; the ranges are those of the fragments
kept. -/
def Holds (m : Manager) (id : Id) : Prop :=
  (∀ g ∈ (m id).bundles, idOf g.primary = id) ∧ Hdtn.FragmentSet.Canonical (m id).set ∧
    ∀ x, Hdtn.FragmentSet.Covers (m id).set x ↔ Covered (m id).bundles x

/-- `w` is what arrives when the bundle `u` is fragmented and a fragment is written and loaded again. -/
def ArrivesFrom (u w : View) : Prop :=
  ∃ n sz fs f out w', fragment u n sz = some fs ∧ f ∈ fs ∧ f.1.render = some (out, w') ∧ load out = some w

/-- `w` is a fragment of `v`, or a fragment of a fragment of it, and so on. -/
inductive FragmentOf (v : View) : View → Prop
  | first {w : View} : ArrivesFrom v w → FragmentOf v w
  | again {u w : View} : FragmentOf v u → ArrivesFrom u w → FragmentOf v w

end Hdtn.Bpv6Fragment.Spec
