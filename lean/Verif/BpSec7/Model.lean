import Verif.AdminRecord7.Model
import Verif.Bpv7Canonical.Write

/-!
Model of the BPSec blocks of BPv7 bundles: /repo/common/bpcodec/src/codec/Bpv7BpSecExtensionBlocks.cpp ("Sec.cpp"
below), `Bpv7AbstractSecurityBlock` and its subclasses for integrity and confidentiality blocks. The value pointers
of parameters and results are never null in the model.

Reading is modelled with the memory behind the block's data, because the code does not keep to those data.
-/

namespace Hdtn.BpSec7

open Hdtn.HashMap16 Hdtn.Cbor Hdtn.Cbhe Hdtn.Bpv7Canonical

/-- `Bpv7AbstractSecurityBlockValueUint` and `...ValueByteString`, bpv7.h:491-508. -/
inductive Value
  | uint (n : Nat)
  | bytes (b : Bytes)
deriving DecidableEq, Repr

/-- `id_value_pair_t`, bpv7.h:518. -/
structure Pair where
  id : Nat
  value : Value
deriving DecidableEq, Repr

/-- The members of `Bpv7AbstractSecurityBlock`, bpv7.h:558-563. -/
structure Asb where
  targets : List Nat
  context : Nat
  flags : Nat
  source : Eid
  params : List Pair
  results : List Pair
deriving DecidableEq, Repr

/-- `IsSecurityContextParametersPresent`, Sec.cpp:99-101. -/
def Asb.hasParams (a : Asb) : Bool := a.flags % 2 = 1

/-- `SetSecurityContextParametersPresent`, Sec.cpp:102-104. -/
def Asb.setParams (a : Asb) : Asb := { a with flags := a.flags ||| 1 }

/-- `ClearSecurityContextParametersPresent`, Sec.cpp:105-107, on the eight bits of the flags. -/
def Asb.clearParams (a : Asb) : Asb := { a with flags := a.flags &&& 0xfe }

/-- `SetZero`, Sec.cpp:67-76. -/
def Asb.zero : Asb := ⟨[], 0, 0, ⟨0, 0⟩, [], []⟩

/-! ### Writing -/

/-- `SerializeBpv7` of the two kinds of value, Sec.cpp:831-833 and 853-867. `none`: the space runs out (the code then
returns a length that does not tell what it stored). -/
def Value.write : Value → Nat → Option Bytes
  | .uint v, n =>
    let s := encodeU64Classic v n
    if s = [] then none else some s
  | .bytes b, n =>
    let h := AdminRecord7.stringHeadBounded b.length n
    if h = [] ∨ n - h.length < b.length then none else some (h ++ b)

/-- `GetSerializationSize` of the two kinds, Sec.cpp:834-836 and 868-870. -/
def Value.size : Value → Option Nat
  | .uint v => encodingSize v
  | .bytes b => (encodingSize b.length).map (· + b.length)

/-- One round of the loop of `SerializeIdValuePairsVecBpv7`, Sec.cpp:339-359; `wrap` puts the pair into an array of
one. -/
def Pair.write (wrap : Bool) (p : Pair) (n : Nat) : Option Bytes :=
  let w : Bytes := if wrap then [0x81] else []
  if n < w.length + 1 then none
  else
    let id := encodeU64Classic p.id (n - w.length - 1)
    if id = [] then none
    else
      match p.value.write (n - w.length - 1 - id.length) with
      | none => none
      | some v => some (w ++ 0x82 :: (id ++ v))

/-- The loop. -/
def writePairs (wrap : Bool) : List Pair → Nat → Option Bytes
  | [], _ => some []
  | p :: ps, n =>
    match p.write wrap n with
    | none => none
    | some b => (writePairs wrap ps (n - b.length)).map (b ++ ·)

/-- `SerializeIdValuePairsVecBpv7`, Sec.cpp:328-362. -/
def writeVec (wrap : Bool) (ps : List Pair) (n : Nat) : Option Bytes :=
  let h := encodeU64Classic ps.length n
  if h = [] then none else (writePairs wrap ps (n - h.length)).map (markArray h ++ ·)

/-- The loop of `IdValuePairsVecBpv7SerializationSize`, Sec.cpp:366-371, the byte of Sec.cpp:365 included. -/
def pairsSize (wrap : Bool) : List Pair → Option Nat
  | [] => some 0
  | p :: ps => do
    let id ← encodingSize p.id
    let v ← p.value.size
    let r ← pairsSize wrap ps
    return 1 + wrap.toNat + id + v + r

/-- `IdValuePairsVecBpv7SerializationSize`, Sec.cpp:363-373. -/
def vecSize (wrap : Bool) (ps : List Pair) : Option Nat := do
  let h ← encodingSize ps.length
  let r ← pairsSize wrap ps
  return h + r

/-- `GetCanonicalBlockTypeSpecificDataSerializationSize`, Sec.cpp:249-260. -/
def Asb.size (a : Asb) : Option Nat := do
  let t ← arraySerializationSize a.targets
  let c ← encodingSize a.context
  let f ← encodingSize a.flags
  let s ← size7 a.source
  let p ← (if a.hasParams then vecSize false a.params else some 0 : Option Nat)
  let r ← vecSize true a.results
  return t + c + f + s + p + r

/-- The data of the block, Sec.cpp:118-243, into a space of `n` bytes. -/
def Asb.write (a : Asb) (n : Nat) : Option Bytes := do
  let t ← arraySerializeBounded a.targets n
  let n := n - t.length
  let h := AdminRecord7.writeAll [encodeU64Classic a.context, encodeU64Classic a.flags, serialize7Bounded a.source] n
  let n := n - h.length
  let p ← (if a.hasParams then writeVec false a.params n else some [] : Option Bytes)
  let r ← writeVec true a.results (n - p.length)
  return t ++ (h ++ (p ++ r))

/-- `SerializeBpv7`, Sec.cpp:109-248: the block of type `typeCode` in memory that held `mem`. -/
def Asb.serialize (a : Asb) (typeCode : UInt8) (number flags : Nat) (crcType : UInt8) (mem : Bytes) :
    Option (Bytes × Canonical) := do
  let n ← a.size
  let d ← a.write n
  serializeWith typeCode number flags crcType n d mem

/-! ### Reading -/

/-- How reading ends: with a read outside the memory there is (undefined behaviour), with `false`, or with a
result. -/
inductive Out (α : Type)
  | fault
  | fail
  | ok (a : α)
deriving DecidableEq, Repr

/-- Go on with the result. -/
def Out.bind {α β : Type} : Out α → (α → Out β) → Out β
  | .fault, _ => .fault
  | .fail, _ => .fail
  | .ok a, f => f a

instance : Monad Out where
  pure := .ok
  bind := .bind

/-- The variables `serialization` and `bufferSize`: the memory from the pointer on, up to the end of what can be
read, and the number of bytes that the code believes are left, a 64-bit number. -/
structure Cur where
  mem : Bytes
  size : Nat
deriving DecidableEq, Repr

/-- `serialization += k; bufferSize -= k;`, which wraps around. -/
def Cur.advance (c : Cur) (k : Nat) : Cur := ⟨c.mem.drop k, (c.size + 2 ^ 64 - k) % 2 ^ 64⟩

/-- `*serialization++` and `--bufferSize` without a look at `bufferSize`. -/
def byteR (c : Cur) : Out (UInt8 × Cur) :=
  match c.mem with
  | [] => .fault
  | b :: _ => .ok (b, c.advance 1)

/-- The same behind `if (bufferSize == 0) return false`. -/
def checkedR (c : Cur) : Out (UInt8 × Cur) := if c.size = 0 then .fail else byteR c

/-- The size of an unsigned integer that starts with `b`, 0 if none does, CborUint.cpp:227-284. -/
def need (b : UInt8) : Nat :=
  if b < 24 then 1 else if b = 24 then 2 else if b = 25 then 3 else if b = 26 then 5 else if b = 27 then 9 else 0

/-- `CborDecodeU64`, CborUint.cpp:64-75 and 227-284, with the test of the size taken and the advance. The bytes
are read only after the comparison with `bufferSize`; the accelerated build reads nine bytes whenever `bufferSize` is
at least nine, so it never reads less than the model. `initial` is the first byte, whose major type the callers
may have cleared. -/
def uintFrom (initial : UInt8) (c : Cur) : Out (Nat × Cur) :=
  let n := need initial
  if n = 0 ∨ c.size < n then .fail
  else if c.mem.length < n then .fault
  else .ok ((decodeU64Classic (initial :: c.mem.drop 1)).1, c.advance n)

/-- `CborDecodeU64` on the bytes as they are. -/
def uintR (c : Cur) : Out (Nat × Cur) :=
  if c.size = 0 then .fail
  else
    match c.mem with
    | [] => .fault
    | b :: _ => uintFrom b c

/-- The head of a definite array (`major` 4) or byte string (`major` 2): test of the major type, which is cleared
while the number is read, Sec.cpp:421-436 and 875-887. The caller has found `bufferSize` not 0. -/
def headR (major : UInt8) (c : Cur) : Out (Nat × Cur) :=
  match c.mem with
  | [] => .fault
  | b :: _ => if b >>> 5 ≠ major then .fail else uintFrom (b &&& 0x1f) c

/-- The break at the end of an indefinite array, Cbhe.cpp:199-207, Sec.cpp:411-417 and 551-561. -/
def breakR (c : Cur) : Out (Unit × Cur) := do
  let (b, c) ← checkedR c
  if b ≠ 0xff then .fail else .ok ((), c)

/-- `CborTwoUint64ArrayDeserialize`, CborUint.cpp:661-706. -/
def pairR (c : Cur) : Out ((Nat × Nat) × Cur) := do
  let (i, c) ← checkedR c
  if i ≠ 0x82 ∧ i ≠ 0x9f then .fail
  else do
    let (a, c) ← uintR c
    let (b, c) ← uintR c
    if i = 0x9f then do
      let (_, c) ← breakR c
      .ok ((a, b), c)
    else .ok ((a, b), c)

/-- The part of `cbhe_eid_t::DeserializeBpv7` that depends on the scheme, Cbhe.cpp:167-194. -/
def schemeR (uri : UInt8) (c : Cur) : Out (Eid × Cur) :=
  if uri = 1 then do
    let (s, c) ← byteR c
    if s ≠ 0 then .fail else .ok (⟨0, 0⟩, c)
  else if uri = 2 then do
    let ((a, b), c) ← pairR c
    .ok (⟨a, b⟩, c)
  else .fail

/-- `cbhe_eid_t::DeserializeBpv7`, Cbhe.cpp:139-212. -/
def eidR (c : Cur) : Out (Eid × Cur) :=
  if c.size < 3 then .fail
  else do
    let (i, c) ← byteR c
    if i ≠ 0x82 ∧ i ≠ 0x9f then .fail
    else do
      let (uri, c) ← byteR c
      let (e, c) ← schemeR uri c
      if i = 0x9f then do
        let (_, c) ← breakR c
        .ok (e, c)
      else .ok (e, c)

/-- Reading the source, Sec.cpp:299-303: the size handed over is `dataLength`, the size of all the data of the
block, not what is left of them. -/
def sourceR (dataLength : Nat) (c : Cur) : Out (Eid × Cur) := do
  let (e, c') ← eidR ⟨c.mem, dataLength⟩
  .ok (e, c.advance (c.mem.length - c'.mem.length))

/-- `DeserializeBpv7` of the byte string value, Sec.cpp:871-898. -/
def bytesR (c : Cur) : Out (Bytes × Cur) :=
  if c.size = 0 then .fail
  else do
    let (n, c) ← headR 2 c
    if c.size < n then .fail
    else if c.mem.length < n then .fault
    else .ok (c.mem.take n, c.advance n)

/-- The kind of a value. -/
inductive Kind
  | uint
  | bytes
deriving DecidableEq, Repr

/-- The kind by context and identifier, the `switch`es of Sec.cpp:486-543. The enumerations have underlying type
`int`: the casts keep 32 bits. -/
def kindOf (isParam : Bool) (context id : Nat) : Option Kind :=
  let context := context % 2 ^ 32
  let id := id % 2 ^ 32
  if isParam then
    if context = 1 then
      if id = 1 ∨ id = 3 then some .uint else if id = 2 then some .bytes else none
    else if context = 2 then
      if id = 2 ∨ id = 4 then some .uint else if id = 1 ∨ id = 3 then some .bytes else none
    else none
  else if context = 1 ∨ context = 2 then
    if id = 1 then some .bytes else none
  else none

/-- `DeserializeBpv7` of a value of a kind, Sec.cpp:837-842 and 871-898. -/
def valueR (k : Kind) (c : Cur) : Out (Value × Cur) :=
  match k with
  | .uint => do
    let (v, c) ← uintR c
    .ok (.uint v, c)
  | .bytes => do
    let (b, c) ← bytesR c
    .ok (.bytes b, c)

/-- `DeserializeIdValuePairBpv7`, Sec.cpp:463-567. -/
def idValueR (isParam : Bool) (context : Nat) (c : Cur) : Out (Pair × Cur) := do
  let (i, c) ← checkedR c
  if i ≠ 0x82 ∧ i ≠ 0x9f then .fail
  else do
    let (id, c) ← uintR c
    match kindOf isParam context id with
    | none => .fail
    | some k => do
      let (v, c) ← valueR k c
      if i = 0x9f then do
        let (_, c) ← breakR c
        .ok (⟨id, v⟩, c)
      else .ok (⟨id, v⟩, c)

/-- The byte 0x81 before a result, Sec.cpp:399-406 and 442-449: read without a look at `bufferSize`. -/
def wrapR (wrap : Bool) (c : Cur) : Out (Unit × Cur) :=
  if wrap then do
    let (b, c) ← byteR c
    if b ≠ 0x81 then .fail else .ok ((), c)
  else .ok ((), c)

/-- The loops over the pairs, Sec.cpp:398-410 and 441-457. -/
def pairsR (isParam : Bool) (context : Nat) (wrap : Bool) : Nat → Cur → Out (List Pair × Cur)
  | 0, c => .ok ([], c)
  | n + 1, c => do
    let (_, c) ← wrapR wrap c
    let (p, c) ← idValueR isParam context c
    let (ps, c) ← pairsR isParam context wrap n c
    .ok (p :: ps, c)

/-- `DeserializeIdValuePairsVecBpv7`, Sec.cpp:374-462. -/
def vecR (isParam : Bool) (context : Nat) (maxElements : Nat) (wrap : Bool) (c : Cur) : Out (List Pair × Cur) :=
  if c.size = 0 then .fail
  else do
    let (i, c') ← byteR c
    if i = 0x9f then do
      let (ps, c) ← pairsR isParam context wrap maxElements c'
      let (_, c) ← breakR c
      .ok (ps, c)
    else do
      let (n, c) ← headR 4 c
      if maxElements < n then .fail else pairsR isParam context wrap n c

/-- Reading the targets, Sec.cpp:272-276. They come first, where `bufferSize` is the size of the data. -/
def targetsR (maxElements : Nat) (c : Cur) : Out (List Nat × Cur) :=
  match arrayDeserialize (c.mem.take c.size) maxElements with
  | none => .fail
  | some (ts, k) => .ok (ts, c.advance k)

/-- `maxElements`, Sec.cpp:262. -/
def maxElements : Nat := 1000

/-- Reading the parameters, Sec.cpp:305-313: without them the member keeps what it held. -/
def paramsR (old : List Pair) (context flags : Nat) (c : Cur) : Out (List Pair × Cur) :=
  if flags % 2 = 1 then vecR true context maxElements false c else .ok (old, c)

/-- The source and the fields behind it, Sec.cpp:299-324; `n` is `m_dataLength`. -/
def tailR (old : List Pair) (n : Nat) (targets : List Nat) (context flags : Nat) (c : Cur) : Out (Asb × Cur) := do
  let (source, c) ← sourceR n c
  let (params, c) ← paramsR old context flags c
  let (results, c) ← vecR false context maxElements true c
  .ok (⟨targets, context, flags, source, params, results⟩, c)

/-- The fields one after the other, Sec.cpp:272-324. -/
def fieldsR (old : List Pair) (n : Nat) (c : Cur) : Out (Asb × Cur) := do
  let (targets, c) ← targetsR maxElements c
  let (context, c) ← uintR c
  let (flags, c) ← uintR c
  if flags > 0x1f then .fail else tailR old n targets context flags c

/-- `Virtual_DeserializeExtensionBlockDataBpv7`, Sec.cpp:261-327, on the block object `old`: a block with the data
`data`, followed in memory by `rest`. What a failed call leaves in the object is not modelled. -/
def read (old : Asb) (data rest : Bytes) : Out Asb := do
  let (a, c) ← fieldsR old.params data.length ⟨data ++ rest, data.length⟩
  if c.size ≠ 0 then .fail else .ok a

/-! ### Comparison -/

/-- `operator==`, Sec.cpp:46-62, on the members of the security block; the loops of `IsEqual`, Sec.cpp:568-591,
compare the pairs one by one. -/
def Asb.isEqual (a b : Asb) : Bool :=
  a.targets = b.targets && a.context = b.context && a.flags = b.flags && a.source = b.source &&
    (if a.hasParams then a.params = b.params else true) && a.results = b.results

/-! ### Access to parameters and results -/

/-- `Protected_GetUintSecurityParameter`, Sec.cpp:672-688; `none` for `success == false`. -/
def getUint (ps : List Pair) (id : Nat) : Option Nat :=
  match ps.find? (·.id = id) with
  | some ⟨_, .uint v⟩ => some v
  | _ => none

/-- `Protected_GetByteStringParamPtr`, Sec.cpp:636-650: the byte string, `none` for `NULL`. -/
def getBytes (ps : List Pair) (id : Nat) : Option Bytes :=
  match ps.find? (·.id = id) with
  | some ⟨_, .bytes b⟩ => some b
  | _ => none

/-- Replace the value of the first pair with an identifier. -/
def replace (id : Nat) (v : Value) : List Pair → List Pair
  | [] => []
  | p :: ps => if p.id = id then ⟨p.id, v⟩ :: ps else p :: replace id v ps

/-- `Protected_AddOrUpdateUintValueSecurityParameter`, Sec.cpp:651-671; `none` for `false`, which changes
nothing. -/
def setUint (ps : List Pair) (id v : Nat) : Option (List Pair) :=
  match ps.find? (·.id = id) with
  | some ⟨_, .uint _⟩ => some (replace id (.uint v) ps)
  | some ⟨_, .bytes _⟩ => none
  | none => some (ps ++ [⟨id, .uint v⟩])

/-- `Protected_AddAndGetByteStringParamPtr`, Sec.cpp:616-635, and the assignment of `b` through the pointer it
returns; `none` for `NULL`. -/
def setBytes (ps : List Pair) (id : Nat) (b : Bytes) : Option (List Pair) :=
  match ps.find? (·.id = id) with
  | some ⟨_, .bytes _⟩ => some (replace id (.bytes b) ps)
  | some ⟨_, .uint _⟩ => none
  | none => some (ps ++ [⟨id, .bytes b⟩])

/-- `Protected_AppendAndGetSecurityResultByteStringPtr`, Sec.cpp:595-603, and the assignment of `b`. -/
def appendResult (rs : List Pair) (id : Nat) (b : Bytes) : List Pair := rs ++ [⟨id, .bytes b⟩]

/-- `Protected_GetAllSecurityResultsByteStringPtrs`, Sec.cpp:604-615. -/
def allResults (rs : List Pair) (id : Nat) : List Bytes :=
  rs.filterMap fun p =>
    if p.id = id then
      match p.value with
      | .bytes b => some b
      | .uint _ => none
    else none

/-- `GetSecurityParameterScope` of the two blocks, Sec.cpp:722-735 and 791-804: `id` is 3 for an integrity block, 4
for a confidentiality block. -/
def getScope (ps : List Pair) (id : Nat) : Nat := (getUint ps id).getD 7

end Hdtn.BpSec7
