import Verif.BundleView6.Model
import Verif.FragmentSet.Model

/-!
Model of BPv6 fragmentation and reassembly, `common/bpcodec/src/codec/Bpv6Fragment.cpp` and
`Bpv6FragmentManager.cpp`.

Copied blocks share the bytes of the original until they are rendered, and rendering a copy stores its
flags there. That changes the original only in the mark of the last block of blocks that spell their
flags in one byte; the mark is set anew in every copy. The model lets each copy have its own bytes.
Not modelled: originals with blocks that spell flags below 128 in several bytes, whose bytes are damaged
in this way (see `BundleView6.C56_long_flags_corrupted`).
-/

namespace Hdtn.Bpv6Fragment

open Hdtn.BundleView6 Hdtn.Bpv6Primary Hdtn.FragmentSet Hdtn.HashMap16

/-! ### Fragmenting -/

/-- `CopyPrimaryFragment`, Bpv6Fragment.cpp:29-40. -/
def copyPrimaryFragment (p : Primary) (offset aduLength : Nat) : Primary :=
  { p with flags := p.flags ||| 1, fragmentOffset := offset, totalAduLength := aduLength }

/-- A payload block with the type and flags of `b` and data `data`, as made by
`AppendFragmentPayloadBlock` and `CreatePayloadBlock`, Bpv6Fragment.cpp:61-95. -/
def payloadBlock (b : BlockView) (data : Bytes) : BlockView :=
  ⟨⟨b.block.typeCode, b.block.flags, data⟩, .plain, [], true, false⟩

/-- `AppendBlock`, Bpv6Fragment.cpp:98-125: the block is read again from its bytes, never as an
administrative record, and marked as changed. -/
def appendBlock (b : BlockView) : Option BlockView :=
  match readBlock false b.raw with
  | some (v, []) => some { v with dirty := true }
  | _ => none

/-- `MustReplicateInAll`, Bpv6Fragment.cpp:128-131. -/
def mustReplicate (b : BlockView) : Bool := b.block.flags.testBit 0

/-- The loop over the blocks, Bpv6Fragment.cpp:186-205. -/
def fragmentBlocks (isFirst isLast : Bool) (start stop : Nat) :
    Bool → List BlockView → Option (List BlockView)
  | _, [] => some []
  | beforePayload, b :: bs =>
    if b.block.typeCode = 1 then do
      let rest ← fragmentBlocks isFirst isLast start stop false bs
      return payloadBlock b ((b.block.data.drop start).take (stop - start)) :: rest
    else if mustReplicate b || (isFirst && beforePayload) || (isLast && !beforePayload) then do
      let c ← appendBlock b
      let rest ← fragmentBlocks isFirst isLast start stop beforePayload bs
      return c :: rest
    else fragmentBlocks isFirst isLast start stop beforePayload bs

/-- `CalcNumFragments`, Bpv6Fragment.cpp:133-135. -/
def calcNumFragments (payloadSize fragmentSize : Nat) : Nat :=
  (payloadSize + (fragmentSize - 1)) % 2 ^ 64 / fragmentSize

/-- Fragment `i`, Bpv6Fragment.cpp:168-205, before it is rendered. `base` and `total` are the offset of
the original's payload in the application data unit, and the length of that unit. -/
def fragmentAt (orig : View) (base total payloadSize sz numFragments i : Nat) : Option View := do
  let start := i * sz
  let stop := min ((start + sz) % 2 ^ 64) payloadSize
  let blocks ← fragmentBlocks (i = 0) (i = numFragments - 1) start stop true orig.blocks
  return ⟨copyPrimaryFragment orig.primary ((base + start) % 2 ^ 64) total, [], true, blocks⟩

/-- The loop over the fragments, Bpv6Fragment.cpp:167-209. -/
def fragmentLoop (orig : View) (base total payloadSize sz numFragments : Nat) :
    List Nat → Option (List View)
  | [] => some []
  | i :: is => do
    let f ← fragmentAt orig base total payloadSize sz numFragments i
    let fs ← fragmentLoop orig base total payloadSize sz numFragments is
    return f :: fs

/-- `Fragment`, Bpv6Fragment.cpp:137-212, for an original that was rendered in `renderedSize` bytes.
Each fragment is paired with the outcome of rendering it (:208), which the code ignores. -/
def fragment (orig : View) (renderedSize sz : Nat) : Option (List (View × Rendered)) :=
  if sz = 0 then none
  else if orig.primary.flags.testBit 2 then none
  else
    match orig.payloadSize with
    | none => none
    | some payloadSize =>
      if sz ≥ payloadSize then none
      else
        let base := if orig.primary.isFragment then orig.primary.fragmentOffset else 0
        let total := if orig.primary.isFragment then orig.primary.totalAduLength else payloadSize
        let n := calcNumFragments payloadSize sz
        (fragmentLoop orig base total payloadSize sz n (List.range n)).map fun fs =>
          fs.map fun f => (f, f.renderMax renderedSize)

/-! ### Reassembly -/

/-- The outcome of `AssemblePayload`: refused, a copy outside the buffer, or the data unit. -/
inductive Assembled
  | refused
  | undefined
  | done (adu : Bytes)
deriving DecidableEq, Repr

/-- The loop of `AssemblePayload`, Bpv6Fragment.cpp:226-253, and the check behind it (:255-259). The sum
of offset and size is compared modulo 2^64; a copy that does not lie in the buffer is undefined. -/
def assembleLoop (size : Nat) : List Frag → Bytes → List View → Assembled
  | set, adu, [] =>
    if set.length ≠ 1 ∨ (find set ⟨0, size⟩).isNone then .refused else .done adu
  | set, adu, f :: fs =>
    match f.byType 1 with
    | [b] =>
      let o := f.primary.fragmentOffset
      let s := b.block.data.length
      let set := (insertFragment set ⟨o, (o + s + 2 ^ 64 - 1) % 2 ^ 64⟩).1
      if (o + s) % 2 ^ 64 > size then .refused
      else if o + s > size then .undefined
      else assembleLoop size set (adu.take o ++ b.block.data ++ adu.drop (o + s)) fs
    | _ => .refused

/-- `AssemblePayload`, Bpv6Fragment.cpp:215-262. -/
def assemblePayload (fs : List View) : Assembled :=
  match fs with
  | [] => .refused
  | f :: _ =>
    assembleLoop f.primary.totalAduLength [] (List.replicate f.primary.totalAduLength 0) fs

/-- `std::minmax_element` with `CompareOffsets`, Bpv6Fragment.cpp:265-279: the first of the smallest. -/
def firstMin : View → List View → View
  | v, [] => v
  | v, w :: ws =>
    if w.primary.fragmentOffset < v.primary.fragmentOffset then firstMin w ws else firstMin v ws

/-- `std::minmax_element` with `CompareOffsets`, Bpv6Fragment.cpp:265-279: the last of the largest. -/
def lastMax : View → List View → View
  | v, [] => v
  | v, w :: ws =>
    if w.primary.fragmentOffset < v.primary.fragmentOffset then lastMax v ws else lastMax w ws

/-- The identity that `Validate` compares and `Bpv6FragmentManager` uses as key: source and creation
timestamp. -/
structure Id where
  source : Eid
  creationSeconds : Nat
  creationSequence : Nat
deriving DecidableEq, Repr

/-- The identity of a bundle, Bpv6FragmentManager.cpp:55. -/
def idOf (p : Primary) : Id := ⟨p.source, p.creationSeconds, p.creationSequence⟩

/-- `Validate`, Bpv6Fragment.cpp:282-308. -/
def validate (fs : List View) : Bool :=
  match fs with
  | [] => false
  | f :: _ => fs.all fun g => decide (idOf g.primary = idOf f.primary) && g.primary.flags.testBit 0

/-- `CopyPrimaryNoFragment`, Bpv6Fragment.cpp:44-55. -/
def copyPrimaryNoFragment (p : Primary) : Primary :=
  { p with flags := p.flags ^^^ (p.flags &&& 1), fragmentOffset := 0, totalAduLength := 0 }

/-- The blocks up to the payload, Bpv6Fragment.cpp:332-345. The result of `AppendBlock` is ignored; it
leaves a block without content, which is taken as undefined (`none`). -/
def startBlocks (adu : Bytes) : List BlockView → Option (List BlockView)
  | [] => some []
  | b :: bs =>
    if b.block.typeCode = 1 then some [payloadBlock b adu]
    else do
      let c ← appendBlock b
      let rest ← startBlocks adu bs
      return c :: rest

/-- The blocks behind the payload, Bpv6Fragment.cpp:348-359. -/
def endBlocks : Bool → List BlockView → Option (List BlockView)
  | _, [] => some []
  | false, b :: bs => endBlocks (b.block.typeCode = 1) bs
  | true, b :: bs => do
    let c ← appendBlock b
    let rest ← endBlocks true bs
    return c :: rest

/-- The outcome of `Assemble`: refused, undefined behaviour, or a bundle with the outcome of its
rendering, which the code ignores. -/
inductive Result
  | refused
  | undefined
  | bundle (v : View) (r : Rendered)
deriving DecidableEq, Repr

/-- `Assemble`, Bpv6Fragment.cpp:310-362. -/
def assemble (fs : List View) : Result :=
  if validate fs = false then .refused
  else
    match assemblePayload fs, fs with
    | .refused, _ => .refused
    | .undefined, _ => .undefined
    | .done _, [] => .refused
    | .done adu, f :: fs =>
      let first := firstMin f fs
      let last := lastMax f fs
      match startBlocks adu first.blocks, endBlocks false last.blocks with
      | some a, some b =>
        let v : View := ⟨copyPrimaryNoFragment first.primary, [], true, a ++ b⟩
        .bundle v (v.renderMax (adu.length + 1024))
      | _, _ => .undefined

/-! ### The fragment manager -/

/-- `FragmentInfo`, Bpv6FragmentManager.h. -/
structure Info where
  bundles : List View
  set : List Frag
deriving DecidableEq, Repr

/-- `m_idToFrags`. An identity that is not in the map counts as one without fragments. -/
abbrev Manager := Id → Info

/-- The manager without fragments. -/
def Manager.empty : Manager := fun _ => ⟨[], []⟩

/-- What `AddFragmentAndGetComplete` reports; `overflow` when rendering in `AddBundle` leaves its
buffer. -/
inductive Added
  | error
  | overflow
  | stored
  | complete (r : Result)
deriving DecidableEq, Repr

/-- The outcome of `AddBundle`. -/
inductive Loaded
  | bad
  | overflow
  | ok (v : View) (payloadSize : Nat)
deriving DecidableEq, Repr

/-- `AddBundle`, Bpv6FragmentManager.cpp:22-38: the view after rendering, and the payload size. -/
def addBundle (data : Bytes) : Loaded :=
  match load data with
  | none => .bad
  | some v =>
    match v.payloadSize with
    | none => .bad
    | some n =>
      match v.renderMax (data.length + 1024) with
      | .refused => .bad
      | .overflow => .overflow
      | .done _ v' => .ok v' n

/-- `AddFragmentAndGetComplete`, Bpv6FragmentManager.cpp:40-89. `complete r` stands for the call of
`Assemble`, whose result decides about the return values. -/
def Manager.add (m : Manager) (data : Bytes) : Added × Manager :=
  match Bpv6Primary.read data with
  | none => (.error, m)
  | some (p, _) =>
    if p.isFragment = false then (.error, m)
    else
      match addBundle data with
      | .bad => (.error, m)
      | .overflow => (.overflow, m)
      | .ok v n =>
        let info := m (idOf p)
        let bundles := info.bundles ++ [v]
        let set := (insertFragment info.set
          ⟨p.fragmentOffset, (p.fragmentOffset + n + 2 ^ 64 - 1) % 2 ^ 64⟩).1
        if containsEntirely set ⟨0, (p.totalAduLength + 2 ^ 64 - 1) % 2 ^ 64⟩ = false then
          (.stored, Function.update m (idOf p) ⟨bundles, set⟩)
        else (.complete (assemble bundles), Function.update m (idOf p) ⟨[], []⟩)

end Hdtn.Bpv6Fragment
