import Verif.Cbhe.Model
import Verif.Uri.Model

/-!
Model of the BPv6 block codec, `common/bpcodec/src/codec/Bpv6CanonicalBlock.cpp`, and of the extension
blocks, `Bpv6ExtensionBlocks.cpp` and `Bpv6MetadataExtensionBlock.cpp`. A block holds its data; the
C++ object holds a pointer and a length. Recycling of block objects is not modelled.
-/

namespace Hdtn.Bpv6Canonical

open Hdtn.HashMap16 Hdtn.Sdnv Hdtn.Uri

/-- The members of `Bpv6CanonicalBlock`, include/codec/bpv6.h. -/
structure Block where
  typeCode : UInt8
  flags : Nat
  data : Bytes
deriving DecidableEq, Repr

/-- The flags as written, Bpv6CanonicalBlock.cpp:102-107. -/
def flagBytes (flags : Nat) : Bytes :=
  if flags ≤ 127 then [UInt8.ofNat flags] else encodeU64ClassicBufSize10 flags

/-- `Bpv6CanonicalBlock::SerializeBpv6`, Bpv6CanonicalBlock.cpp:85-134. -/
def serialize (b : Block) : Bytes :=
  b.typeCode :: flagBytes b.flags ++ encodeU64ClassicBufSize10 b.data.length ++ b.data

/-- `Bpv6CanonicalBlock::GetSerializationSize`, Bpv6CanonicalBlock.cpp:136-143, for a block whose data
will have `dataSize` bytes. -/
def serializationSize (flags dataSize : Nat) : Option Nat := do
  return 1 + (← numBytesRequired flags) + (← numBytesRequired dataSize) + dataSize

/-- The flags as read, Bpv6CanonicalBlock.cpp:218-231. -/
def readFlags (buf : Bytes) : Option (Nat × Bytes) :=
  match buf with
  | [] => none
  | f :: rest => if f.toNat ≤ 127 then some (f.toNat, rest) else readSdnv (f :: rest)

/-- `Bpv6CanonicalBlock::DeserializeBpv6`, Bpv6CanonicalBlock.cpp:149-258. -/
def read (buf : Bytes) : Option (Block × Bytes) :=
  if buf.length < 2 then none
  else
    match buf with
    | [] => none
    | typeCode :: buf => do
      let (flags, buf) ← readFlags buf
      let (n, buf) ← readSdnv buf
      if n > buf.length then none
      else return (⟨typeCode, flags, buf.take n⟩, buf.drop n)

/-! ### Extension blocks -/

/-- The content of a metadata block: nothing, a list of URIs, or raw bytes. -/
inductive Content
  | none
  | uris (es : List Eid)
  | raw (bytes : Bytes)
deriving DecidableEq, Repr

/-- The extension blocks of Bpv6ExtensionBlocks.cpp and Bpv6MetadataExtensionBlock.cpp with their own
members. -/
inductive Ext
  | cteb (custodyId : Nat) (eid : Bytes)
  | previousHop (e : Eid)
  | age (microseconds : Nat)
  | metadata (typeCode : Nat) (content : Content)
deriving DecidableEq, Repr

/-- The type codes set by `SerializeBpv6` and the constructors, bpv6.h:149-166. -/
def Ext.typeCode : Ext → UInt8
  | .cteb .. => 10
  | .previousHop _ => 5
  | .age _ => 20
  | .metadata .. => 8

/-- The flags that `SerializeBpv6` adds, Bpv6ExtensionBlocks.cpp:171 and :293. -/
def Ext.flags (flags : Nat) : Ext → Nat
  | .previousHop _ => flags ||| 16
  | .age _ => flags ||| 1
  | _ => flags

/-- `Bpv6MetadataContentUriList::GetSerializationSize`, Bpv6MetadataExtensionBlock.cpp:222-229. -/
def urisSize : List Eid → Option Nat
  | [] => some 0
  | e :: es => do return (← cstringLength e.node e.service) + (← urisSize es)

/-- The `GetSerializationSize` of the metadata content, Bpv6MetadataExtensionBlock.cpp:97-100. -/
def Content.size : Content → Option Nat
  | .none => some 0
  | .uris es => urisSize es
  | .raw bytes => some bytes.length

/-- The `GetCanonicalBlockTypeSpecificDataSerializationSize` of the extension blocks,
Bpv6ExtensionBlocks.cpp:94-96, 197-203, 310-312 and Bpv6MetadataExtensionBlock.cpp:97-100. -/
def Ext.size : Ext → Option Nat
  | .cteb i s => do return (← numBytesRequired i) + s.length
  | .previousHop e => do
    return 4 + (← getStringLengthOfUint e.node) + 1 + (← getStringLengthOfUint e.service) + 1
  | .age t => numBytesRequired t
  | .metadata t c => do return (← numBytesRequired t) + (← c.size)

/-- `Bpv6MetadataContentUriList::SerializeBpv6`, Bpv6MetadataExtensionBlock.cpp:187-221. -/
def writeUris : List Eid → Nat → Bytes
  | [], _ => []
  | e :: es, bufferSize =>
    let a := writeIpnUriCstring e.node e.service bufferSize
    a ++ writeUris es (bufferSize - a.length)

/-- The metadata content as written, Bpv6MetadataExtensionBlock.cpp:88-92 and 269-275. -/
def Content.write (c : Content) (bufferSize : Nat) : Bytes :=
  match c with
  | .none => []
  | .uris es => writeUris es bufferSize
  | .raw bytes => if bufferSize < bytes.length then [] else bytes

/-- The bytes that `SerializeBpv6` of the extension blocks stores in the `bufferSize` bytes set aside
for the data, Bpv6ExtensionBlocks.cpp:71-92, 173-195, 295-308, Bpv6MetadataExtensionBlock.cpp:54-95.
`none` when it returns 0. The text of the previous hop has its colon and the byte behind its end set
to the null character. -/
def Ext.write (x : Ext) (bufferSize : Nat) : Option Bytes :=
  match x with
  | .cteb i s =>
    let a := encodeU64Classic i bufferSize
    if bufferSize - a.length < s.length then none else some (a ++ s)
  | .previousHop e =>
    let text := getIpnUriString e.node e.service
    if bufferSize ≠ text.length + 1 then none else some (text.set 3 0 ++ [0])
  | .age t => some (encodeU64Classic t bufferSize)
  | .metadata t c =>
    let a := encodeU64Classic t bufferSize
    some (a ++ c.write (bufferSize - a.length))

/-- `SerializeBpv6` of an extension block with flags `flags`: the block that is laid out, as data
size the announced one. `none` also when fewer bytes are stored than set aside (their rest would be
whatever the output memory held). -/
def Ext.serialize (flags : Nat) (x : Ext) : Option (Bytes × Block) := do
  let n ← x.size
  let d ← x.write n
  if d.length ≠ n then none
  else
    let b : Block := ⟨x.typeCode, x.flags flags, d⟩
    return (Bpv6Canonical.serialize b, b)

/-- `Bpv6MetadataContentUriList::DeserializeBpv6`, Bpv6MetadataExtensionBlock.cpp:231-249. The
recursion is on a bound that the length of the data always meets. -/
def readUris : Nat → Bytes → Option (List Eid)
  | 0, _ => none
  | fuel + 1, buf =>
    match parseCstring false buf with
    | some ((n, some s), rest) =>
      if rest.length = 0 then some [⟨n, s⟩] else (readUris fuel rest).map (⟨n, s⟩ :: ·)
    | _ => none

/-- `Virtual_DeserializeExtensionBlockDataBpv6` of the custody block, Bpv6ExtensionBlocks.cpp:98-119. -/
def readCteb (data : Bytes) : Option Ext :=
  match readSdnv data with
  | none => none
  | some (i, s) => if s.length > 45 then none else some (.cteb i s)

/-- `Virtual_DeserializeExtensionBlockDataBpv6` of the previous hop, Bpv6ExtensionBlocks.cpp:205-219. -/
def readPreviousHop (data : Bytes) : Option Ext :=
  if data.length < 7 ∨ data.take 4 ≠ [105, 112, 110, 0] ∨ data.getLast? ≠ some 0 then none
  else if data.length > 45 then none
  else
    match parseSsp false ((data.drop 4).take (data.length - 5)) with
    | some (n, some s) => some (.previousHop ⟨n, s⟩)
    | _ => none

/-- `Virtual_DeserializeExtensionBlockDataBpv6` of the age block, Bpv6ExtensionBlocks.cpp:314-321. -/
def readAge (data : Bytes) : Option Ext :=
  match readSdnv data with
  | some (t, []) => some (.age t)
  | _ => none

/-- `Virtual_DeserializeExtensionBlockDataBpv6` of the metadata block,
Bpv6MetadataExtensionBlock.cpp:103-146. -/
def readMetadata (data : Bytes) : Option Ext :=
  match readSdnv data with
  | none => none
  | some (t, rest) =>
    if t = 1 then (readUris (rest.length + 1) rest).map fun es => .metadata t (.uris es)
    else some (.metadata t (.raw rest))

/-- The reader that belongs to a type code, Bpv6CanonicalBlock.cpp:192-208; `none` for a block
without members of its own. -/
def reader (typeCode : UInt8) : Option (Bytes → Option Ext) :=
  if typeCode = 5 then some readPreviousHop
  else if typeCode = 8 then some readMetadata
  else if typeCode = 10 then some readCteb
  else if typeCode = 20 then some readAge
  else none

/-- Reading a block and, for a known extension type, its members. -/
def Ext.read (buf : Bytes) : Option (Ext × Block × Bytes) := do
  let (b, rest) ← Bpv6Canonical.read buf
  let r ← reader b.typeCode
  let x ← r b.data
  return (x, b, rest)

end Hdtn.Bpv6Canonical
