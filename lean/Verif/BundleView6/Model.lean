import Verif.AdminRecord6.Model
import Verif.Bpv6Primary.Model

/-!
Model of `BundleViewV6`, `common/bpcodec/src/codec/BundleViewV6.cpp`: a bundle split into its blocks,
which can be changed, added and removed before the bundle is written again. A view holds the bytes it
was loaded from; the C++ object holds pointers to them. Recycling of block objects is not modelled.
-/

namespace Hdtn.BundleView6

open Hdtn.Bpv6Canonical Hdtn.Bpv6Primary

/-- What a block object holds beyond type, flags and data: nothing, the members of an extension block,
or an administrative record. -/
inductive Body
  | plain
  | ext (x : Ext)
  | admin (r : AdminRecord6.Record)
deriving DecidableEq, Repr

/-- `Bpv6CanonicalBlockView`, BundleViewV6.h: the block object, the bytes it was read from
(`actualSerializedBlockPtr`), and the two marks. -/
structure BlockView where
  block : Block
  body : Body
  raw : Bytes
  dirty : Bool
  deleted : Bool
deriving DecidableEq, Repr

/-- `BundleViewV6` with its `Bpv6PrimaryBlockView`. -/
structure View where
  primary : Primary
  primaryRaw : Bytes
  primaryDirty : Bool
  blocks : List BlockView
deriving DecidableEq, Repr

/-- The flag `ADMINRECORD` of the bundle, BundleViewV6.cpp:69. -/
def isAdmin (p : Primary) : Bool := p.flags.testBit 1

/-- The flag `IS_LAST_BLOCK` of a block, bpv6.h:174. -/
def isLast (b : Block) : Bool := b.flags.testBit 3

/-! ### Loading -/

/-- The choice of the object (Bpv6CanonicalBlock.cpp:166-208) and its
`Virtual_DeserializeExtensionBlockDataBpv6` (BundleViewV6.cpp:90). -/
def readBody (admin : Bool) (b : Block) : Option Body :=
  if admin = true ∧ b.typeCode = 1 then (AdminRecord6.read b.data).map .admin
  else
    match reader b.typeCode with
    | some r => (r b.data).map .ext
    | none => some .plain

/-- One round of the loop of `Load`, BundleViewV6.cpp:76-92: the block and the bytes behind it. -/
def readBlock (admin : Bool) (buf : Bytes) : Option (BlockView × Bytes) := do
  let (b, rest) ← Bpv6Canonical.read buf
  let body ← readBody admin b
  return (⟨b, body, buf.take (buf.length - rest.length), false, false⟩, rest)

/-- The loop of `Load`, BundleViewV6.cpp:75-102. The recursion is on a bound that the length of the
buffer always meets. -/
def readBlocks (admin : Bool) : Nat → Bytes → Option (List BlockView)
  | 0, _ => none
  | fuel + 1, buf =>
    match readBlock admin buf with
    | none => none
    | some (v, rest) =>
      if isLast v.block then (if rest.length = 0 then some [v] else none)
      else if rest.length = 0 then none
      else (readBlocks admin fuel rest).map (v :: ·)

/-- `Load(false)`, BundleViewV6.cpp:55-104. -/
def load (buf : Bytes) : Option View := do
  let (p, rest) ← Bpv6Primary.read buf
  let blocks ← readBlocks (isAdmin p) (rest.length + 1) rest
  return ⟨p, buf.take (buf.length - rest.length), false, blocks⟩

/-! ### Rendering -/

/-- The flags with `IS_LAST_BLOCK` set or cleared. -/
def lastFlag (last : Bool) (flags : Nat) : Nat :=
  if last then flags ||| 8 else flags ^^^ (flags &&& 8)

/-- `SetBlockProcessingControlFlagAndDirtyIfNecessary` and `ClearBlockProcessingControlFlagAndDirtyIf`-
`Necessary` for `IS_LAST_BLOCK`, BundleViewV6.cpp:26-47: flags of one byte are changed in the bytes
read, where the flags are taken to be the second byte. -/
def BlockView.withLast (last : Bool) (v : BlockView) : BlockView :=
  if v.block.flags ≤ 127 ∧ 2 ≤ v.raw.length then
    { v with
      block := { v.block with flags := lastFlag last v.block.flags }
      raw := v.raw.set 1 (UInt8.ofNat (lastFlag last v.block.flags)) }
  else
    { v with block := { v.block with flags := lastFlag last v.block.flags }, dirty := true }

/-- The virtual `SerializeBpv6` of the block object: the bytes, and the block with the members that the
call sets. -/
def serializeBody (b : Block) : Body → Option (Bytes × Block)
  | .plain => some (Bpv6Canonical.serialize b, b)
  | .ext x => x.serialize b.flags
  | .admin r => r.serialize b.flags

/-- The bytes of one block, BundleViewV6.cpp:160-180: written anew if the block was changed, copied
otherwise. `none` when `Render` returns false. -/
def BlockView.render (v : BlockView) : Option (Bytes × BlockView) :=
  if v.dirty then
    match serializeBody v.block v.body with
    | none => none
    | some (out, b) =>
      if out.length ≤ 2 then none else some (out, { v with block := b, raw := out, dirty := false })
  else some (v.raw, v)

/-- The loop of `Render`, BundleViewV6.cpp:152-181. -/
def renderBlocks : List BlockView → Option (Bytes × List BlockView)
  | [] => some ([], [])
  | v :: vs => do
    let (out, v') ← (v.withLast vs.isEmpty).render
    let (outs, vs') ← renderBlocks vs
    return (out ++ outs, v' :: vs')

/-- The primary block, BundleViewV6.cpp:121-135. -/
def renderPrimary (v : View) : Option (Bytes × Primary) :=
  if v.primaryDirty then
    match Bpv6Primary.serialize v.primary with
    | (some out, p) => some (out, p)
    | (none, _) => none
  else some (v.primaryRaw, v.primary)

/-- `Render` into memory that is large enough, BundleViewV6.cpp:119-184: the bytes and the view after
the call. -/
def View.render (v : View) : Option (Bytes × View) := do
  let (pOut, p) ← renderPrimary v
  let (out, blocks) ← renderBlocks (v.blocks.filter fun b => !b.deleted)
  return (pOut ++ out, ⟨p, pOut, false, blocks⟩)

/-- The outcome of `Render(maxBundleSizeBytes)`, BundleViewV6.cpp:106-117. The buffer has
`maxBundleSizeBytes` bytes and nothing checks the size of the output against it. -/
inductive Rendered
  | refused
  | overflow
  | done (out : Bytes) (v : View)
deriving DecidableEq, Repr

/-- `Render(maxBundleSizeBytes)`, BundleViewV6.cpp:106-117. -/
def View.renderMax (max : Nat) (v : View) : Rendered :=
  match v.render with
  | none => .refused
  | some (out, v') => if out.length > max then .overflow else .done out v'

/-- The size of a block that will be written anew (`GetSerializationSize` of the block object). -/
def bodySize (b : Block) : Body → Option Nat
  | .plain => serializationSize b.flags b.data.length
  | .ext x => do serializationSize b.flags (← x.size)
  | .admin r => do serializationSize b.flags (← r.size)

/-- The size of one block in `GetSerializationSize`, BundleViewV6.cpp:198-215. -/
def BlockView.size (v : BlockView) : Option Nat :=
  if v.deleted then some 0
  else if v.dirty then do
    let n ← bodySize v.block v.body
    if n ≤ 2 then none else return n
  else some v.raw.length

/-- The sum over the blocks, BundleViewV6.cpp:198-215. -/
def blocksSize : List BlockView → Option Nat
  | [] => some 0
  | v :: vs => do return (← v.size) + (← blocksSize vs)

/-- The primary block in `GetSerializationSize`, BundleViewV6.cpp:187-196. -/
def primarySize (v : View) : Option Nat :=
  if v.primaryDirty then
    match Bpv6Primary.serializationSize v.primary with
    | none => none
    | some n => if n = 0 then none else some n
  else some v.primaryRaw.length

/-- `GetSerializationSize`, BundleViewV6.cpp:185-217; `none` when it returns false. -/
def View.size (v : View) : Option Nat := do return (← primarySize v) + (← blocksSize v.blocks)

/-! ### Editing -/

/-- A new block object handed to `AppendMoveCanonicalBlock` or `PrependMoveCanonicalBlock`. -/
def newBlock (typeCode : UInt8) (flags : Nat) (data : Bytes) (body : Body) : BlockView :=
  ⟨⟨typeCode, flags, data⟩, body, [], true, false⟩

/-- `AppendMoveCanonicalBlock`, BundleViewV6.cpp:219-225. -/
def View.append (v : View) (b : BlockView) : View := { v with blocks := v.blocks ++ [b] }

/-- `PrependMoveCanonicalBlock`, BundleViewV6.cpp:226-232. -/
def View.prepend (v : View) (b : BlockView) : View := { v with blocks := b :: v.blocks }

/-- `GetCanonicalBlocksByType`, BundleViewV6.cpp:243-250. -/
def View.byType (v : View) (t : UInt8) : List BlockView :=
  v.blocks.filter fun b => b.block.typeCode = t

/-- `DeleteAllCanonicalBlocksByType`, BundleViewV6.cpp:251-270: the number of blocks removed and the
view. -/
def View.deleteByType (v : View) (t : UInt8) : Nat × View :=
  ((v.byType t).length, { v with blocks := v.blocks.filter fun b => b.block.typeCode ≠ t })

/-- `GetPayloadSize`, BundleViewV6.cpp:295-309. -/
def View.payloadSize (v : View) : Option Nat :=
  match v.byType 1 with
  | [b] => some b.block.data.length
  | _ => none

end Hdtn.BundleView6
