import Verif.AdminRecord6.Spec
import Verif.Bpv6Canonical.Spec
import Verif.Bpv6Primary.Spec
import Verif.BundleView6.Model

/-!
A BPv6 bundle on the wire (RFC 5050 section 4): a primary block and at least one further block, of
which the last, and only the last, is marked as last. Independent of the code, except that an
administrative record is what `AdminRecord6.read` accepts (characterised there).
-/

namespace Hdtn.BundleView6.Spec

open Hdtn.Bpv6Canonical Hdtn.Bpv6Canonical.Spec Hdtn.Bpv6Primary.Spec

/-- Bit 3 of the block flags is set in the last block and in no other; there is a last block. -/
def LastMarked : List Block → Prop
  | [] => False
  | [b] => b.flags.testBit 3 = true
  | b :: c :: bs => b.flags.testBit 3 = false ∧ LastMarked (c :: bs)

/-- The block types with members of their own. -/
def IsExtType (t : UInt8) : Prop := t = 5 ∨ t = 8 ∨ t = 10 ∨ t = 20

/-- `body` is the content of the block `b`, in a bundle that carries an administrative record or not. -/
def IsBody (admin : Bool) (b : Block) : Body → Prop
  | .admin r => admin = true ∧ b.typeCode = 1 ∧ AdminRecord6.read b.data = some r
  | .ext x => x.typeCode = b.typeCode ∧ IsExtData b.data x ∧ Readable b.data x
  | .plain => ¬ (admin = true ∧ b.typeCode = 1) ∧ ¬ IsExtType b.typeCode

/-- The flags of the block are below 128 and are the second byte of `p`. -/
def OneByteFlags (p : Bytes) (b : Block) : Prop :=
  b.flags ≤ 127 ∧ p[1]? = some (UInt8.ofNat b.flags)

/-- The view `v` splits `buf` into its blocks, and nothing is marked. -/
def IsViewOf (v : View) (buf : Bytes) : Prop :=
  buf = v.primaryRaw ++ (v.blocks.map (·.raw)).flatten ∧ IsPrimary v.primaryRaw v.primary ∧
    v.primaryDirty = false ∧
    (∀ b ∈ v.blocks, IsBlock b.raw b.block ∧ IsBody (v.primary.flags.testBit 1) b.block b.body ∧
      b.dirty = false ∧ b.deleted = false) ∧
    LastMarked (v.blocks.map (·.block))

/-- A block object that can be written so that it reads back: its members fit their types, the type
code belongs to them, and they are within the limits of the reader. -/
def Writable (admin : Bool) (b : Block) : Body → Prop
  | .plain => b.flags < 2 ^ 64 ∧ b.data.length < 2 ^ 64 ∧ ¬ (admin = true ∧ b.typeCode = 1) ∧
      ¬ IsExtType b.typeCode
  | .ext x => b.flags < 2 ^ 64 ∧ x.typeCode = b.typeCode ∧ InRange x ∧
      ∀ d, x.size = some d.length → x.write d.length = some d → d.length < 2 ^ 64 ∧ Readable d x
  | .admin r => b.flags < 2 ^ 64 ∧ b.typeCode = 1 ∧ admin = true ∧
      ∃ d, r.data = some d ∧ r.size = some d.length ∧ d.length < 2 ^ 64 ∧
        AdminRecord6.read d = some r

/-- The flags of the block are 128 or more, it has no members of its own, and its bytes spell it with
numbers as short as possible. -/
def LongFlags (v : BlockView) : Prop :=
  127 < v.block.flags ∧ v.body = .plain ∧ v.raw = serialize v.block

/-- What may be rendered: a block as it was read, with its flags in one byte or with long flags, or a
changed or new block that is `Writable`. -/
def Ready (admin : Bool) (v : BlockView) : Prop :=
  if v.dirty = true then Writable admin v.block v.body
  else IsBlock v.raw v.block ∧ IsBody admin v.block v.body ∧
    (OneByteFlags v.raw v.block ∨ LongFlags v)

/-- What the primary block needs: as it was read, or changed and within the limits of the writer. -/
def PrimaryReady (v : View) : Prop :=
  if v.primaryDirty = true then
    InRange v.primary ∧ (Bpv6Primary.serialize v.primary).1.isSome = true ∧
      (¬ IsFragment v.primary → v.primary.fragmentOffset = 0 ∧ v.primary.totalAduLength = 0)
  else IsPrimary v.primaryRaw v.primary

/-- `v'` is the block `v` after rendering: same type and content; the mark for the last block is right,
other flags are kept, and flags added only to changed previous-hop (bit 4) and age blocks (bit 0);
the data is kept except that changed extension blocks and records are encoded anew; a changed block is
spelt as the block writer does. -/
def SameBlock (v v' : BlockView) : Prop :=
  v'.block.typeCode = v.block.typeCode ∧ v'.body = v.body ∧
    (∀ i, i ≠ 3 → v.block.flags.testBit i = true → v'.block.flags.testBit i = true) ∧
    (∀ i, i ≠ 3 → v'.block.flags.testBit i = true → v.block.flags.testBit i = true ∨
      v.dirty = true ∧ (v.block.typeCode = 5 ∧ i = 4 ∨ v.block.typeCode = 20 ∧ i = 0)) ∧
    ((v.dirty = false ∨ v.body = .plain) → v'.block.data = v.block.data) ∧
    (v.dirty = true → v'.raw = serialize v'.block)

end Hdtn.BundleView6.Spec
