import Verif.BpSec7.Model
import Verif.Bpv7Primary.Model

/-!
Model of `BundleViewV7`, /repo/common/bpcodec/src/codec/BundleViewV7.cpp ("View.cpp" below): a BPv7 bundle split into
its blocks, which can be changed, added and removed before the bundle is written again. A view holds the bytes it was
loaded from; the C++ object holds pointers to them. What a call that returns false leaves behind is not modelled,
with one exception (`InPlace.dangling`).
-/

namespace Hdtn.BundleView7

open Hdtn.HashMap16 Hdtn.Bpv7Canonical Hdtn.Bpv7Primary Hdtn.BpSec7

/-- What a block object holds beyond the members of a canonical block: nothing, those of an extension block, of a
security block or of an administrative record. `hidden`: the block is encrypted (`isEncrypted`), such members are
not used. -/
inductive Body
  | plain
  | ext (x : Ext)
  | sec (a : Asb)
  | admin (r : AdminRecord7.Record)
  | hidden
deriving DecidableEq, Repr

/-- `Bpv7CanonicalBlockView`, BundleViewV7.h: the block object, the bytes it was read from
(`actualSerializedBlockPtr`), and the two marks. -/
structure BlockView where
  block : Canonical
  body : Body
  raw : Bytes
  dirty : Bool
  deleted : Bool
deriving DecidableEq, Repr

/-- `BundleViewV7` with its `Bpv7PrimaryBlockView`: `free` is `m_nextFreeCanonicalBlockNumberMask`, `encrypted` the
keys of `m_mapEncryptedBlockNumberToBcbPtr`, `rendered` the bytes of `m_renderedBundle`. -/
structure View where
  primary : Primary
  primaryRaw : Bytes
  primaryDirty : Bool
  blocks : List BlockView
  free : Nat
  encrypted : List Nat
  rendered : Bytes
deriving DecidableEq, Repr

/-! ### Block numbers -/

/-- `FREE_CANONICAL_BLOCK_INIT_MASK`, View.cpp:53. -/
def freeInit : Nat := 2 ^ 64 - 1 - 3

/-- `ReserveBlockNumber`, View.cpp:429-442. -/
def reserve (free number : Nat) : Nat :=
  if number ≤ 63 then free &&& (2 ^ 64 - 1 - 2 ^ number) else free

/-- `FreeBlockNumber`, View.cpp:443-452. -/
def release (free number : Nat) : Nat := if number ≤ 63 then free ||| 2 ^ number else free

/-- The loop of View.cpp:464-470. -/
def largest (blocks : List BlockView) : Nat := blocks.foldl (fun l b => if l < b.block.number then b.block.number else l) 63

/-- `GetNextFreeCanonicalBlockNumber`, View.cpp:453-473; `find_lsb` finds the lowest bit that is set. -/
def View.nextFree (v : View) : Nat :=
  if v.free ≠ 0 then
    match (List.range 64).find? fun i => v.free.testBit i with
    | some i => i
    | none => 64
  else (largest v.blocks + 1) % 2 ^ 64

/-! ### Loading -/

/-- The flag `ADMINRECORD` of the bundle, View.cpp:93. -/
def isAdmin (p : Primary) : Bool := p.flags.testBit 1

/-- The members of the object that `SetZero` has cleared, View.cpp:534. -/
def zeroPrimary : Primary := ⟨0, ⟨0, 0⟩, ⟨0, 0⟩, ⟨0, 0⟩, 0, 0, 0, 0, 0, 0, 0, 0⟩

/-- The recycled objects for integrity and confidentiality blocks
(`m_blockNumberToRecycledCanonicalBlockArray`): their parameters, which reading may leave in place. Reading sets all
members of the other classes. -/
structure Bin where
  bib : List Pair
  bcb : List Pair
deriving DecidableEq, Repr

/-- The parameters in the object that the next block of a type is read into, Bpv7CanonicalBlock.cpp:330-366. -/
def Bin.old (bin : Bin) (typeCode : UInt8) : List Pair :=
  if typeCode = 11 then bin.bib else if typeCode = 12 then bin.bcb else []

/-- A recycled object is used once. -/
def Bin.use (bin : Bin) (typeCode : UInt8) : Bin :=
  if typeCode = 11 then { bin with bib := [] } else if typeCode = 12 then { bin with bcb := [] } else bin

/-- A block that has been read, before its content is: the bytes it was read from, the memory behind its data, and
the parameters in its object. -/
structure Item where
  block : Canonical
  raw : Bytes
  after : Bytes
  old : List Pair
deriving DecidableEq, Repr

/-- An optional result. -/
def ofOption {α : Type} : Option α → Out α
  | none => .fail
  | some a => .ok a

/-- `Virtual_DeserializeExtensionBlockDataBpv7` of a security block. -/
def readSec (i : Item) : Out Asb := BpSec7.read { Asb.zero with params := i.old } i.block.data i.after

/-- The choice of the object (Bpv7CanonicalBlock.cpp:330-366) and its `Virtual_DeserializeExtensionBlockDataBpv7`
(View.cpp:123 and 170). -/
def readBody (admin : Bool) (i : Item) : Out Body :=
  let t := i.block.typeCode
  if admin = true ∧ t = 1 then (ofOption (AdminRecord7.Record.read i.block.data)).bind fun r => .ok (.admin r)
  else if t = 11 ∨ t = 12 then (readSec i).bind fun a => .ok (.sec a)
  else if t = 6 ∨ t = 7 ∨ t = 10 ∨ t = 13 then (ofOption (Ext.read t i.block.data)).bind fun x => .ok (.ext x)
  else .ok .plain

/-- The loop over the targets of a confidentiality block, View.cpp:128-132: `emplace` fails on a key that is there. -/
def addTargets : List Nat → List Nat → Option (List Nat)
  | enc, [] => some enc
  | enc, t :: ts => if t ∈ enc then none else addTargets (enc ++ [t]) ts

/-- What is done at once with a confidentiality block, View.cpp:121-137. -/
def readTargets (i : Item) (enc : List Nat) : Out (List Nat) :=
  if i.block.typeCode = 12 then (readSec i).bind fun a => ofOption (addTargets enc a.targets) else .ok enc

/-- One call of `DeserializeBpv7`, View.cpp:111-119: the block and the bytes behind it. `pad` is the memory behind
the bundle. -/
def readItem (skip : Bool) (bin : Bin) (pad buf : Bytes) : Option (Item × Bytes) := do
  let (c, rest) ← Bpv7Canonical.read skip buf
  let raw := buf.take (buf.length - rest.length)
  let crc ← Bpv7Crc.crcSize c.crcType
  return (⟨c, raw, raw.drop (raw.length - crc) ++ (rest ++ pad), bin.old c.typeCode⟩, rest)

/-- The loop of `Load`, View.cpp:104-164. The recursion is on a bound that the length of the buffer always meets. -/
def readItems (skip : Bool) (pad : Bytes) : Nat → Bin → List Nat → Bytes → Out (List Item × List Nat)
  | 0, _, _, _ => .fail
  | fuel + 1, bin, enc, buf =>
    match readItem skip bin pad buf with
    | none => .fail
    | some (i, rest) =>
      (readTargets i enc).bind fun enc =>
        if i.block.typeCode = 1 then
          if i.block.number ≠ 1 then .fail
          else if rest = [0xff] then .ok ([i], enc) else .fail
        else if rest.length = 0 then .fail
        else (readItems skip pad fuel (bin.use i.block.typeCode) enc rest).bind fun (is, enc) => .ok (i :: is, enc)

/-- One round of the second loop, View.cpp:166-174. A confidentiality block was read before. -/
def readContent (admin : Bool) (enc : List Nat) (i : Item) : Out BlockView :=
  if i.block.typeCode ≠ 12 ∧ i.block.number ∈ enc then .ok ⟨i.block, .hidden, i.raw, false, false⟩
  else (readBody admin i).bind fun b => .ok ⟨i.block, b, i.raw, false, false⟩

/-- The second loop. -/
def readContents (admin : Bool) (enc : List Nat) : List Item → Out (List BlockView)
  | [] => .ok []
  | i :: is => (readContent admin enc i).bind fun v => (readContents admin enc is).bind fun vs => .ok (v :: vs)

/-- The primary block, View.cpp:64-91: the block, its bytes and those behind it. -/
def readPrimary (buf : Bytes) : Option (Primary × Bytes × Bytes) :=
  match buf with
  | [] => none
  | h :: buf =>
    if h ≠ 0x9f then none
    else
      match Bpv7Primary.read zeroPrimary buf with
      | none => none
      | some (p, rest) => if isFragment p.flags then none else some (p, buf.take (buf.length - rest.length), rest)

/-- `Load(skip, true)`, View.cpp:57-97, on a view that was reset: the primary block only. -/
def loadPrimary (buf : Bytes) : Option View :=
  (readPrimary buf).map fun (p, raw, _) => ⟨p, raw, false, [], freeInit, [], buf⟩

/-- `LoadBundle`, View.cpp:57-176 and 495-511: `buf` is the bundle, `pad` the memory behind it, `bin` what the block
objects of the bundle loaded before have left. -/
def load (bin : Bin) (skip : Bool) (buf pad : Bytes) : Out View :=
  (ofOption (readPrimary buf)).bind fun (p, raw, rest) =>
    (readItems skip pad (rest.length + 1) bin [] rest).bind fun (items, enc) =>
      (readContents (isAdmin p) enc items).bind fun blocks =>
        .ok ⟨p, raw, false, blocks, (items.map (·.block.number)).foldl reserve freeInit, enc, buf⟩

/-! ### Rendering -/

/-- The bytes stored into memory that ends after `mem`. -/
def stored {α : Type} (mem : Bytes) (r : Option (Bytes × α)) : Out (Bytes × α) :=
  match r with
  | none => .fail
  | some (out, a) => if mem.length < out.length then .fault else .ok (out, a)

/-- `SerializeBpv7` of a class that first lays out a space of `n` bytes for its data. -/
def storedWith (mem : Bytes) (n : Option Nat) (r : Option (Bytes × Canonical)) : Out (Bytes × Canonical) :=
  match n with
  | none => .fail
  | some n => if mem.length < n then .fault else stored mem r

/-- The call of `SerializeBpv7`, View.cpp:295-300: of the class `Bpv7CanonicalBlock` for an encrypted block, of the
class of the object otherwise. `mem` is the output memory. -/
def writeBlock (mem : Bytes) (c : Canonical) : Body → Out (Bytes × Canonical)
  | .plain => stored mem (Bpv7Canonical.serialize c)
  | .hidden => stored mem (Bpv7Canonical.serialize c)
  | .ext x => storedWith mem x.size (x.serialize c.number c.flags c.crcType mem)
  | .sec a => storedWith mem a.size (a.serialize c.typeCode c.number c.flags c.crcType mem)
  | .admin r => storedWith mem r.size (r.serialize c.number c.flags c.crcType mem)

/-- One block, View.cpp:293-317: written anew if it was changed, copied otherwise. -/
def BlockView.render (mem : Bytes) (v : BlockView) : Out (Bytes × BlockView) :=
  if v.dirty then
    (writeBlock mem v.block v.body).bind fun (out, c) =>
      if out.length < 6 then .fail else .ok (out, { v with block := c, raw := out, dirty := false })
  else stored mem (some (v.raw, v))

/-- The tests of the last block, View.cpp:275-284. -/
def isPayload (c : Canonical) : Bool := c.typeCode = 1 ∧ c.number = 1

/-- The loop of `Render`, View.cpp:273-320, up to the break at the end. -/
def renderBlocks : Bytes → List BlockView → Out (Bytes × List BlockView)
  | mem, [] => if mem.length < 1 then .fault else .ok ([0xff], [])
  | mem, v :: vs =>
    if vs.isEmpty ∧ !isPayload v.block then .fail
    else
      (v.render mem).bind fun (out, v) =>
        (renderBlocks (mem.drop out.length) vs).bind fun (outs, vs) => .ok (out ++ outs, v :: vs)

/-- The same with `terminateBeforeLastBlock`, View.cpp:285-291: the last block must be unchanged and is left where it
is. Without any block the break is stored. -/
def renderFront : Bytes → List BlockView → Out (Bytes × List BlockView)
  | mem, [] => if mem.length < 1 then .fault else .ok ([0xff], [])
  | mem, v :: vs =>
    if vs.isEmpty then
      if !isPayload v.block ∨ v.dirty then .fail else .ok ([], [v])
    else
      (v.render mem).bind fun (out, v) =>
        (renderFront (mem.drop out.length) vs).bind fun (outs, vs) => .ok (out ++ outs, v :: vs)

/-- The head and the primary block, View.cpp:233-253. -/
def renderPrimary (mem : Bytes) (v : View) : Out (Bytes × Primary) :=
  if mem.length < 1 then .fault
  else
    (stored (mem.drop 1)
      (if v.primaryDirty then Bpv7Primary.serialize v.primary else some (v.primaryRaw, v.primary))).bind fun (out, p) =>
      if isFragment p.flags then .fail else .ok (out, p)

/-- The blocks that are not marked for deletion, View.cpp:255-271. -/
def kept (blocks : List BlockView) : List BlockView := blocks.filter fun b => !b.deleted

/-- The numbers of the others are freed, View.cpp:258. -/
def freed (free : Nat) (blocks : List BlockView) : Nat :=
  ((blocks.filter (·.deleted)).map (·.block.number)).foldl release free

/-- `Render`, View.cpp:231-322, into memory that holds `mem`: the bytes and the view afterwards. -/
def View.renderWith (loop : Bytes → List BlockView → Out (Bytes × List BlockView)) (mem : Bytes) (v : View) :
    Out (Bytes × View) :=
  (renderPrimary mem v).bind fun (pOut, p) =>
    (loop (mem.drop (1 + pOut.length)) (kept v.blocks)).bind fun (out, blocks) =>
      .ok (0x9f :: (pOut ++ out),
        ⟨p, pOut, false, blocks, freed v.free v.blocks, v.encrypted, v.rendered⟩)

/-- `Render(maxBundleSizeBytes)`, View.cpp:177-188: nothing compares the size of the bundle with that of the buffer,
which holds `mem`. The padding behind the buffer is not counted. -/
def View.render (mem : Bytes) (v : View) : Out View :=
  (v.renderWith renderBlocks mem).bind fun (out, v) => .ok { v with rendered := out }

/-- The data size returned by the virtual call, Bpv7CanonicalBlock.cpp:221-234. -/
def bodySize (c : Canonical) : Body → Option Nat
  | .plain => some c.data.length
  | .hidden => some c.data.length
  | .ext x => x.size
  | .sec a => a.size
  | .admin r => r.size

/-- The size of one block in `GetSerializationSize`, View.cpp:342-355. -/
def BlockView.size (v : BlockView) : Option Nat :=
  if v.deleted then some 0
  else if v.dirty then do
    let n ← bodySize v.block v.body
    let s ← serializationSize { v.block with data := List.replicate n 0 }
    if s < 6 then none else return s
  else some v.raw.length

/-- The loop, View.cpp:336-356: the last block must be a payload block, even if it is marked for deletion. -/
def blocksSize : List BlockView → Option Nat
  | [] => some 0
  | v :: vs =>
    if vs.isEmpty ∧ v.block.typeCode ≠ 1 then none
    else do
      let a ← v.size
      let b ← blocksSize vs
      return a + b

/-- The primary block, View.cpp:325-334. -/
def primarySize (v : View) : Option Nat :=
  if v.primaryDirty then
    match Bpv7Primary.serializationSize v.primary with
    | none => none
    | some n => if n = 0 then none else some n
  else some v.primaryRaw.length

/-- `GetSerializationSize`, View.cpp:323-358; `none` when it returns false. -/
def View.size (v : View) : Option Nat := do
  let a ← primarySize v
  let b ← blocksSize v.blocks
  return 2 + a + b

/-- How `RenderInPlace` ends: false; false with pointers to the temporary space left in the view; a store behind the
temporary space or behind the bundle; done. -/
inductive InPlace
  | refused
  | dangling
  | overflow
  | done (v : View)
deriving DecidableEq, Repr

/-- `RenderInPlace`, View.cpp:190-230. `paddingLeft` bytes in front of the bundle may be overwritten. The temporary
space is new and zero. The last block and the break are left where they are. -/
def View.renderInPlace (paddingLeft : Nat) (v : View) : InPlace :=
  match v.size with
  | none => .refused
  | some newSize =>
    match v.blocks.getLast? with
    | none => .refused
    | some last =>
      let oldSize := v.rendered.length
      if newSize > oldSize ∧ newSize - oldSize > paddingLeft then .refused
      else
        let space := (max newSize oldSize + 2 ^ 64 - last.raw.length + 10) % 2 ^ 64
        match v.renderWith renderFront (List.replicate space 0) with
        | .fault => .overflow
        | .fail => .dangling
        | .ok (out, v') =>
          if newSize < out.length then .overflow
          else .done { v' with rendered := out ++ v.rendered.drop (oldSize + out.length - newSize) }

/-! ### Editing -/

/-- A new block object, as handed to the functions below. -/
def newBlock (c : Canonical) (body : Body) : BlockView := ⟨c, body, [], true, false⟩

/-- `AppendMoveCanonicalBlock`, View.cpp:360-367. -/
def View.append (v : View) (b : BlockView) : View :=
  { v with blocks := v.blocks ++ [b], free := reserve v.free b.block.number }

/-- `PrependMoveCanonicalBlock`, View.cpp:368-375. -/
def View.prepend (v : View) (b : BlockView) : View :=
  { v with blocks := b :: v.blocks, free := reserve v.free b.block.number }

/-- The search for a block number and the insertion behind (`behind`) or before it, View.cpp:377-387 and 390-400. -/
def insertAt (behind : Bool) (number : Nat) (b : BlockView) : List BlockView → Option (List BlockView)
  | [] => none
  | x :: xs =>
    if x.block.number = number then some (if behind then x :: b :: xs else b :: x :: xs)
    else (insertAt behind number b xs).map (x :: ·)

/-- `InsertMoveCanonicalBlockAfterBlockNumber` and `InsertMoveCanonicalBlockBeforeBlockNumber`, View.cpp:376-401. -/
def View.insert (behind : Bool) (v : View) (number : Nat) (b : BlockView) : Option View :=
  (insertAt behind number b v.blocks).map fun blocks =>
    { v with blocks := blocks, free := reserve v.free b.block.number }

/-- `GetCanonicalBlocksByType`, View.cpp:413-420; its length is `GetCanonicalBlockCountByType`, View.cpp:403-409. -/
def View.byType (v : View) (t : UInt8) : List BlockView := v.blocks.filter fun b => b.block.typeCode = t

/-- `GetCanonicalBlockByBlockNumber`, View.cpp:421-428. -/
def View.byNumber (v : View) (number : Nat) : Option BlockView := v.blocks.find? fun b => b.block.number = number

/-- `DeleteAllCanonicalBlocksByType`, View.cpp:474-494: the number of blocks removed and the view. -/
def View.deleteByType (v : View) (t : UInt8) : Nat × View :=
  ((v.byType t).length,
    { v with blocks := v.blocks.filter fun b => b.block.typeCode ≠ t
             free := ((v.byType t).map (·.block.number)).foldl release v.free })

/-- Marking a block for deletion, BundleViewV7.h: the flag `markedForDeletion` of the block at a position. -/
def View.mark (v : View) (i : Nat) : View := { v with blocks := v.blocks.modify i fun b => { b with deleted := true } }

/-- `IsValid`, View.cpp:512-517. -/
def View.isValid (v : View) : Bool := (v.byType 1).length ≤ 1

/-- `GetPayloadSize`, View.cpp:519-531. -/
def View.payloadSize (v : View) : Option Nat :=
  match v.byType 1 with
  | [b] => some b.block.data.length
  | _ => none

end Hdtn.BundleView7
