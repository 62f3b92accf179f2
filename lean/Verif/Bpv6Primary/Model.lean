import Verif.Cbhe.Props

/-!
Model of `common/bpcodec/src/codec/Bpv6CbhePrimaryBlock.cpp`.

The number of bytes taken by the deserialiser is the difference of the lengths of the buffers.
`SdnvDecodeArrayU64` is taken in its portable version (see Verif/Sdnv); that it writes straight into
the members, so that a failed call leaves some of them changed, is not modelled: a failed call has no
result.
-/

namespace Hdtn.Bpv6Primary

open Hdtn.HashMap16 Hdtn.Sdnv Hdtn.Cbhe

/-- The members of `Bpv6CbhePrimaryBlock`, common/bpcodec/include/codec/bpv6.h. -/
structure Primary where
  flags : Nat
  blockLength : Nat
  dest : Eid
  source : Eid
  reportTo : Eid
  custodian : Eid
  creationSeconds : Nat
  creationSequence : Nat
  lifetime : Nat
  fragmentOffset : Nat
  totalAduLength : Nat
deriving DecidableEq, Repr

/-- `m_bundleProcessingControlFlags & ISFRAGMENT`, bit 0. -/
def Primary.isFragment (b : Primary) : Bool := b.flags.testBit 0

/-- The two fields that only a fragment has, Bpv6CbhePrimaryBlock.cpp:209-212. -/
def fragmentPart (b : Primary) : Bytes :=
  if b.isFragment then
    encodeU64ClassicBufSize10 b.fragmentOffset ++ encodeU64ClassicBufSize10 b.totalAduLength
  else []

/-- `Bpv6CbhePrimaryBlock::SerializeBpv6`, Bpv6CbhePrimaryBlock.cpp:187-222: the bytes (`none` when
the function returns 0 for a block length over 127) and the block, whose length member is updated in
either case. -/
def serialize (b : Primary) : Option Bytes × Primary :=
  let tail := serialize6 b.dest ++ serialize6 b.source ++ serialize6 b.reportTo ++
    serialize6 b.custodian ++
    (encodeU64ClassicBufSize10 b.creationSeconds ++ encodeU64ClassicBufSize10 b.creationSequence) ++
    encodeU64ClassicBufSize10 b.lifetime ++ [0] ++ fragmentPart b
  let b' := { b with blockLength := tail.length }
  if tail.length > 127 then (none, b')
  else (some (6 :: encodeU64ClassicBufSize10 b.flags ++ [UInt8.ofNat tail.length] ++ tail), b')

/-- The size of the two fields that only a fragment has, Bpv6CbhePrimaryBlock.cpp:236-239. -/
def fragmentSize (b : Primary) : Option Nat :=
  if b.isFragment then do
    return (← numBytesRequired b.fragmentOffset) + (← numBytesRequired b.totalAduLength)
  else some 0

/-- `Bpv6CbhePrimaryBlock::GetSerializationSize`, Bpv6CbhePrimaryBlock.cpp:224-245 (`none` would be
undefined behaviour of `SdnvGetNumBytesRequiredToEncode`). -/
def serializationSize (b : Primary) : Option Nat := do
  let flagsSize ← numBytesRequired b.flags
  let size := 3 + flagsSize + (← size6 b.dest) + (← size6 b.source) + (← size6 b.reportTo) +
    (← size6 b.custodian) +
    ((← numBytesRequired b.creationSeconds) + (← numBytesRequired b.creationSequence)) +
    (← numBytesRequired b.lifetime) + (← fragmentSize b)
  return if size - (flagsSize + 2) > 127 then 0 else size

/-- The last part of `DeserializeBpv6`: offset and total length of a fragment, Bpv6CbhePrimaryBlock.cpp:
164-182. -/
def readFragment (b : Primary) (buf : Bytes) : Option (Primary × Bytes) :=
  if b.isFragment then
    match readN 2 buf with
    | some ([offset, total], rest) =>
      some ({ b with fragmentOffset := offset, totalAduLength := total }, rest)
    | _ => none
  else some ({ b with fragmentOffset := 0, totalAduLength := 0 }, buf)

/-- `Bpv6CbhePrimaryBlock::DeserializeBpv6`, Bpv6CbhePrimaryBlock.cpp:106-185. -/
def read (buf : Bytes) : Option (Primary × Bytes) :=
  match buf with
  | [] => none
  | version :: buf =>
    if version ≠ 6 then none
    else
      match readN 14 buf with
      | some ([flags, blockLength, dn, ds, sn, ss, rn, rs, cn, cs, secs, seq, lifetime, dictionary],
          rest) =>
        if dictionary ≠ 0 then none
        else
          readFragment ⟨flags, blockLength, ⟨dn, ds⟩, ⟨sn, ss⟩, ⟨rn, rs⟩, ⟨cn, cs⟩, secs, seq,
            lifetime, 0, 0⟩ rest
      | _ => none

end Hdtn.Bpv6Primary
