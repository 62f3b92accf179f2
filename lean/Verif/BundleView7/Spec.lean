import Verif.BundleView7.Model
import Verif.BpSec7.Spec
import Verif.Bpv7Primary.Spec

/-!
A BPv7 bundle on the wire (RFC 9171 section 4.1): an indefinite array of a primary block and canonical blocks, of which
the last, and only the last, is a payload block, and has number 1. Confidentiality blocks (RFC 9172 section 3.8) name
the encrypted blocks by their numbers. Independent of the code; of the model only the records are used.
-/

namespace Hdtn.BundleView7.Spec

open Hdtn.Bpv7Canonical Hdtn.Bpv7Canonical.Spec Hdtn.Bpv7Primary.Spec Hdtn.BpSec7 Hdtn.BpSec7.Spec
open Hdtn.AdminRecord7 Hdtn.AdminRecord7.Spec

/-- `raw` is the canonical block `c`, with the right CRC unless `skip`. -/
def IsBlock (skip : Bool) (raw : Bytes) (c : Canonical) : Prop :=
  ∃ tag, (tag = [] ∨ tag = [0xd8]) ∧ if skip then IsCanonicalUnchecked tag raw c else IsCanonical tag raw c

/-- The block types with members of their own: previous node, bundle age, hop count and priority. -/
def IsExtType (t : UInt8) : Prop := t = 6 ∨ t = 7 ∨ t = 10 ∨ t = 13

/-- Integrity and confidentiality blocks. -/
def IsSecType (t : UInt8) : Prop := t = 11 ∨ t = 12

/-- What the reader takes for an administrative record. -/
def TakenForRecord (data : Bytes) (r : Record) : Prop :=
  (∃ tag, (tag = [] ∨ tag = [0xd8]) ∧ IsSupported TakenForReport tag data r) ∨ IsUnsupported data r

/-- `body` is the content of the block `c`, which is not encrypted, in a bundle that carries an administrative record
or not. -/
def IsBody (admin : Bool) (c : Canonical) : Body → Prop
  | .admin r => admin = true ∧ c.typeCode = 1 ∧ TakenForRecord c.data r
  | .sec a => IsSecType c.typeCode ∧ TakenForAsb c.data a
  | .ext x => c.typeCode = x.typeCode ∧ IsExt x c.data
  | .plain => ¬ (admin = true ∧ c.typeCode = 1) ∧ ¬ IsExtType c.typeCode ∧ ¬ IsSecType c.typeCode
  | .hidden => False

/-- The blocks that a block says are encrypted. -/
def targetsOf (b : BlockView) : List Nat :=
  match b.body with
  | .sec a => if b.block.typeCode = 12 then a.targets else []
  | _ => []

/-- All the blocks said to be encrypted. -/
def allTargets (bs : List BlockView) : List Nat := (bs.map targetsOf).flatten

/-- A block is encrypted if a confidentiality block names it; a confidentiality block never is. -/
def IsEncrypted (enc : List Nat) (c : Canonical) : Prop := c.typeCode ≠ 12 ∧ c.number ∈ enc

/-- The last block, and only the last, is a payload block, and has number 1. -/
def PayloadLast (cs : List Canonical) : Prop :=
  ∃ init last, cs = init ++ [last] ∧ last.typeCode = 1 ∧ last.number = 1 ∧ ∀ c ∈ init, c.typeCode ≠ 1

/-- `n` may be given to a new block: it is neither that of the primary block (0) nor that of the payload block (1), nor
that of a block that is there. -/
def Unused (bs : List BlockView) (n : Nat) : Prop := 2 ≤ n ∧ ∀ b ∈ bs, b.block.number ≠ n

/-- The view `v` splits `buf` into its blocks, nothing is marked, and the free block numbers are those up to 63 that are
unused. -/
def IsViewOf (skip : Bool) (v : View) (buf : Bytes) : Prop :=
  buf = 0x9f :: v.primaryRaw ++ (v.blocks.map (·.raw)).flatten ++ [0xff] ∧
  IsPrimary v.primaryRaw v.primary ∧ v.primary.flags % 2 ≠ 1 ∧ v.primary.fragOffset = 0 ∧ v.primary.totalAdu = 0 ∧
  v.primaryDirty = false ∧
  PayloadLast (v.blocks.map (·.block)) ∧
  v.encrypted = allTargets v.blocks ∧ v.encrypted.Nodup ∧
  (∀ b ∈ v.blocks, IsBlock skip b.raw b.block ∧ b.dirty = false ∧ b.deleted = false ∧
    (IsEncrypted v.encrypted b.block → b.body = .hidden) ∧
    (¬ IsEncrypted v.encrypted b.block → IsBody (v.primary.flags.testBit 1) b.block b.body)) ∧
  (∀ n, v.free.testBit n = true ↔ n ≤ 63 ∧ Unused v.blocks n) ∧
  v.rendered = buf

/-- Two blocks differ at most in security parameters that are declared absent. -/
def SameContent : Body → Body → Prop
  | .sec a, .sec b => content a = content b
  | x, y => x = y

/-! ### Rendering -/

/-- A block object that can be written so that it reads back: its members fit their types, the type code belongs to
them, and they are within the limits of the readers. -/
def Writable (admin : Bool) (c : Canonical) : Body → Prop
  | .plain => c.data.length < 2 ^ 64 ∧ ¬ (admin = true ∧ c.typeCode = 1) ∧ ¬ IsExtType c.typeCode ∧ ¬ IsSecType c.typeCode
  | .hidden => c.data.length < 2 ^ 64
  | .ext x => c.typeCode = x.typeCode ∧ Ext.InRange x
  | .sec a => IsSecType c.typeCode ∧ BpSec7.Spec.InRange a ∧ (∀ x ∈ a.params, PairInRange x) ∧
      (∀ x ∈ a.results, PairInRange x) ∧ a.targets.length ≤ 1000 ∧ a.params.length ≤ 1000 ∧ a.results.length ≤ 1000 ∧
      a.flags ≤ 0x1f ∧ (∀ x ∈ a.params, Assigned true a.context x.id x.value) ∧
      (∀ x ∈ a.results, Assigned false a.context x.id x.value) ∧ (∀ n, a.size = some n → n < 2 ^ 64)
  | .admin r => admin = true ∧ c.typeCode = 1 ∧ RecordInRange r ∧ Asserts r

/-- What may be rendered, in a bundle whose encrypted blocks are `enc`: a block as it was read, or a changed or new block
that is `Writable`. -/
def Ready (skip admin : Bool) (enc : List Nat) (b : BlockView) : Prop :=
  (IsEncrypted enc b.block ↔ b.body = .hidden) ∧
  (b.dirty = false → IsBlock skip b.raw b.block ∧ (b.body ≠ .hidden → IsBody admin b.block b.body)) ∧
  (b.dirty = true → b.block.number < 2 ^ 64 ∧ b.block.flags < 2 ^ 64 ∧
    (b.block.crcType = 0 ∨ b.block.crcType = 1 ∨ b.block.crcType = 2) ∧ Writable admin b.block b.body)

/-- What the primary block needs: as it was read, or changed and within the limits of its types; no fragment. -/
def PrimaryReady (v : View) : Prop :=
  v.primary.flags % 2 ≠ 1 ∧ v.primary.fragOffset = 0 ∧ v.primary.totalAdu = 0 ∧
  (v.primaryDirty = false → IsPrimary v.primaryRaw v.primary) ∧
  (v.primaryDirty = true → Bpv7Primary.Spec.InRange v.primary ∧
    (v.primary.crcType = 0 ∨ v.primary.crcType = 1 ∨ v.primary.crcType = 2))

/-- The blocks that stay. -/
def staying (bs : List BlockView) : List BlockView := bs.filter fun b => b.deleted = false

/-- What may be rendered: the last block in the view is the payload block, with number 1 and not deleted, no other
staying block is a payload block, and the staying blocks are ready. -/
def ViewReady (skip : Bool) (v : View) : Prop :=
  PrimaryReady v ∧
  (∃ init last, v.blocks = init ++ [last] ∧ last.deleted = false) ∧
  PayloadLast ((staying v.blocks).map (·.block)) ∧
  (allTargets (staying v.blocks)).Nodup ∧
  ∀ b ∈ staying v.blocks, Ready skip (v.primary.flags.testBit 1) (allTargets (staying v.blocks)) b

/-- What a body carries on the wire. -/
def carriedBody : Body → Body
  | .sec a => .sec (content a)
  | .admin r => .admin (carriedRecord r)
  | x => x

/-- `w` is the block `b` after rendering and loading: the same block and bytes if it was unchanged, and otherwise the
same type, number, flags, kind of CRC and content. -/
def SameBlock (b w : BlockView) : Prop :=
  w.block.typeCode = b.block.typeCode ∧ w.block.number = b.block.number ∧ w.block.flags = b.block.flags ∧
  w.block.crcType = b.block.crcType ∧
  (b.dirty = false → w = b) ∧
  (b.dirty = true → w.body = carriedBody b.body) ∧
  (b.body = .plain ∨ b.body = .hidden → w.block.data = b.block.data)

/-- The same primary block up to its CRC, which is computed if the block was changed. -/
def SamePrimary (v : View) (p : Bpv7Primary.Primary) : Prop :=
  p = { v.primary with crc16 := p.crc16, crc32 := p.crc32 } ∧ (v.primaryDirty = false → p = v.primary)

end Hdtn.BundleView7.Spec
