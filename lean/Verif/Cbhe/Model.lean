import Verif.Cbor.Props
import Verif.Sdnv.Read
import Verif.HashMap16.Model

/-!
Model of the endpoint codecs in `common/bpcodec/src/codec/Cbhe.cpp`.

A serialiser returns the bytes it stores (the C++ return value is their number). A deserialiser is
modelled by what it leaves of the buffer: `*numBytesTakenToDecode` is the difference of the lengths.
It is at most 23 for BPv7 and 20 for BPv6, so that the cast to `uint8_t` loses nothing
(`C34_bpv7_length`, `C34_bpv6_length`).
-/

namespace Hdtn.Cbhe

open Hdtn.HashMap16 Hdtn.Cbor Hdtn.Sdnv

/-- `cbhe_eid_t::SerializeBpv7` without buffer size, Cbhe.cpp:101-114. -/
def serialize7 (e : Eid) : Bytes :=
  0x82 :: if e.node = 0 then [1, 0] else 2 :: twoSerialize e.node e.service

/-- `cbhe_eid_t::SerializeBpv7` with buffer size, Cbhe.cpp:115-132. -/
def serialize7Bounded (e : Eid) (bufferSize : Nat) : Bytes :=
  if bufferSize < 3 then []
  else 0x82 :: if e.node = 0 then [1, 0] else 2 :: twoSerializeBounded e.node e.service (bufferSize - 2)

/-- `cbhe_eid_t::GetSerializationSizeBpv7`, Cbhe.cpp:133-138. -/
def size7 (e : Eid) : Option Nat :=
  if e.node ≠ 0 then (twoSerializationSize e.node e.service).map (2 + ·) else some 3

/-- The call of `CborTwoUint64ArrayDeserialize` and the advance behind it, Cbhe.cpp:187-192. -/
def readTwo (buf : Bytes) : Option ((Nat × Nat) × Bytes) :=
  match twoDeserialize buf with
  | none => none
  | some (a, b, n) => some ((a, b), buf.drop n)

/-- The part of `cbhe_eid_t::DeserializeBpv7` that depends on the scheme, Cbhe.cpp:167-194. -/
def readItems (uri ssp : UInt8) (rest : Bytes) : Option (Eid × Bytes) :=
  if uri = 1 then if ssp ≠ 0 then none else some (⟨0, 0⟩, rest)
  else if uri = 2 then
    match readTwo (ssp :: rest) with
    | none => none
    | some ((a, b), rest) => some (⟨a, b⟩, rest)
  else none

/-- `cbhe_eid_t::DeserializeBpv7`, Cbhe.cpp:139-212. -/
def read7 (buf : Bytes) : Option (Eid × Bytes) :=
  match buf with
  | initial :: uri :: ssp :: rest =>
    if initial ≠ 0x82 ∧ initial ≠ 0x9f then none
    else
      match readItems uri ssp rest with
      | none => none
      | some (e, rest) =>
        if initial = 0x9f then
          match rest with
          | [] => none
          | stop :: rest => if stop ≠ 0xff then none else some (e, rest)
        else some (e, rest)
  | _ => none

/-- `cbhe_eid_t::SerializeBpv6` without buffer size, Cbhe.cpp:215-220. -/
def serialize6 (e : Eid) : Bytes :=
  encodeU64ClassicBufSize10 e.node ++ encodeU64ClassicBufSize10 e.service

/-- `cbhe_eid_t::SerializeBpv6` with buffer size, Cbhe.cpp:221-234. -/
def serialize6Bounded (e : Eid) (bufferSize : Nat) : Bytes :=
  let a := Sdnv.encodeU64Classic e.node bufferSize
  a ++ Sdnv.encodeU64Classic e.service (bufferSize - a.length)

/-- `cbhe_eid_t::GetSerializationSizeBpv6`, Cbhe.cpp:235-237. -/
def size6 (e : Eid) : Option Nat := do
  return (← numBytesRequired e.node) + (← numBytesRequired e.service)

/-- `cbhe_eid_t::DeserializeBpv6`, Cbhe.cpp:238-257. -/
def read6 (buf : Bytes) : Option (Eid × Bytes) := do
  let (node, rest) ← readSdnv buf
  let (service, rest) ← readSdnv rest
  return (⟨node, service⟩, rest)

end Hdtn.Cbhe
