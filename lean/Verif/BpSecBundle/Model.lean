import Verif.BundleView7.Model

/-!
Model of `BpSecBundleProcessor`, /repo/common/bpsec/src/BpSecBundleProcessor.cpp ("Proc.cpp" below): encrypting,
decrypting, signing and verifying blocks of a bundle in place. The cryptographic functions are a parameter; how the
code calls OpenSSL, with which lengths, is modelled, for the build with OpenSSL 3. A bundle lies in memory with
room in front of it.
-/

namespace Hdtn.BpSecBundle

open Hdtn.HashMap16 Hdtn.Cbor Hdtn.Bpv7Canonical Hdtn.BpSec7 Hdtn.BundleView7

/-! ### Cryptography -/

/-- The cryptographic functions: HMAC with SHA-256, 384 or 512 (variant 5, 6, 7) of key and message; the stream that
AES-GCM adds to the data under a key and an initialization vector, and its tag of additional data and ciphertext; the
AES key wrap under a key encryption key and its inverse. -/
structure Crypto where
  hmac : Nat → Bytes → Bytes → Bytes
  ctr : Bytes → Bytes → Bytes → Bytes
  tag : Bytes → Bytes → Bytes → Bytes → Bytes
  wrap : Bytes → Bytes → Bytes
  unwrap : Bytes → Bytes → Option Bytes

/-- The lengths for which a cipher is chosen, Proc.cpp:238-246, 373-381, 466-475 and 535-544. -/
def isAesKey (k : Bytes) : Bool := k.length = 16 ∨ k.length = 32

/-- `AesGcmEncrypt`, Proc.cpp:212-325: ciphertext and tag; `none` when it returns false. OpenSSL refuses an empty
initialization vector. Lengths of 2^31 and more, which the casts to `int` break, are not modelled. -/
def gcmEncrypt (C : Crypto) (key iv aad data : Bytes) : Option (Bytes × Bytes) :=
  if isAesKey key ∧ iv ≠ [] then
    let text := C.ctr key iv data
    some (text, C.tag key iv aad text)
  else none

/-- `AesGcmDecrypt`, Proc.cpp:327-440: what the output holds afterwards, and the result. The output is written before
the tag is compared, and 16 bytes of the tag are read whatever its length. -/
def gcmDecrypt (C : Crypto) (key iv aad data tag : Bytes) : Out (Bytes × Bool) :=
  if isAesKey key ∧ iv ≠ [] then
    if tag.length < 16 then .fault
    else .ok (C.ctr key iv data, decide (tag.take 16 = C.tag key iv aad data))
  else .ok (data, false)

/-- `AesWrapKey`, Proc.cpp:444-513. The cipher is chosen by the length of the key that is wrapped, so as many bytes of
the key encryption key are read, and the length of the output is compared with that of the key encryption key. -/
def wrapKey (C : Crypto) (kek key : Bytes) : Out Bytes :=
  if !isAesKey key then .fail
  else if kek.length < key.length then .fault
  else
    let w := C.wrap (kek.take key.length) key
    if w.length = kek.length + 8 then .ok w else .fail

/-- `AesUnwrapKey`, Proc.cpp:515-582, into an array of 42 bytes (Proc.cpp:692 and 1189), which OpenSSL fills before it
finds out whether the key is right. -/
def unwrapKey (C : Crypto) (kek wrapped : Bytes) : Out Bytes :=
  if !isAesKey kek then .fail
  else if wrapped.length % 8 ≠ 0 ∨ wrapped.length < 24 then .fail
  else if 42 < wrapped.length - 8 then .fault
  else
    match C.unwrap kek wrapped with
    | none => .fail
    | some k => if k.length = kek.length then .ok k else .fail

/-! ### The bytes of a block -/

/-- The size of the CRC field of a block that was read. -/
def crcLength (crcType : UInt8) : Nat := if crcType = 1 then 3 else if crcType = 2 then 5 else 0

/-- Where the data of a block are in its bytes (`m_dataPtr`). -/
def dataAt (b : BlockView) : Nat := b.raw.length - (crcLength b.block.crcType + b.block.data.length)

/-- The size of the block type code, block number and block processing control flags,
`GetSerializationSizeOfAadPart`, Bpv7CanonicalBlock.cpp:235-248. -/
def aadSize (c : Canonical) : Option Nat := do
  let t ← encodingSize c.typeCode.toNat
  let n ← encodingSize c.number
  let f ← encodingSize c.flags
  return t + n + f

/-- That many bytes from the second byte of the block on, Proc.cpp:684-687, 791-793, 1015-1017 and elsewhere. -/
def headerOf (b : BlockView) : Out Bytes :=
  match aadSize b.block with
  | none => .fault
  | some n => if b.raw.length < 1 + n then .fault else .ok ((b.raw.drop 1).take n)

/-- `SerializeAadPart`, Bpv7CanonicalBlock.cpp:249-257, of a block that has no bytes yet. -/
def headerOfNew (c : Canonical) : Bytes := encodeU64 c.typeCode.toNat ++ (encodeU64 c.number ++ encodeU64 c.flags)

/-- Data and the head of the byte string, whose size is that of the shortest one, Proc.cpp:1551-1553. -/
def dataWithHead (b : BlockView) : Out Bytes :=
  match encodingSize b.block.data.length with
  | none => .fault
  | some n =>
    if dataAt b < n ∨ b.raw.length < dataAt b + b.block.data.length then .fault
    else .ok ((b.raw.drop (dataAt b - n)).take (n + b.block.data.length))

/-- Where the bytes of the `i`th block are in the bundle. A new block has none, and a block that is marked keeps its
bytes until the bundle is rendered. -/
def View.offset (v : View) (i : Nat) : Nat := 1 + v.primaryRaw.length + ((v.blocks.take i).map (·.raw.length)).sum

/-- The bytes of the `i`th block are overwritten where they are in the bundle. -/
def View.store (v : View) (i : Nat) (b : BlockView) : View :=
  { v with blocks := v.blocks.set i b, rendered := writeAt v.rendered (View.offset v i) b.raw }

/-- The data of a block are overwritten, by as many bytes. -/
def withData (b : BlockView) (d : Bytes) : BlockView :=
  { b with block := { b.block with data := d }, raw := writeAt b.raw (dataAt b) d }

/-- And its CRC is computed (`RecomputeCrcAfterDataModification`). -/
def withDataCrc (b : BlockView) (d : Bytes) : BlockView :=
  let x := withData b d
  let (raw, c) := recompute x.block x.raw
  { x with block := c, raw := raw }

/-- The index of the block that `GetCanonicalBlockByBlockNumber` finds, View.cpp:421-428. -/
def View.indexOf (v : View) (number : Nat) : Option Nat := v.blocks.findIdx? fun b => b.block.number = number

/-- Additional data, RFC 9173 section 4.7.2, Proc.cpp:673-688 and 960-975. -/
def aadOf (scope : Nat) (primary target security : Bytes) : Bytes :=
  UInt8.ofNat scope :: ((if scope.testBit 0 then primary else []) ++
    ((if scope.testBit 1 then target else []) ++ (if scope.testBit 2 then security else [])))

/-- A part that is read only if a bit of the scope is set. -/
def part (scope bit : Nat) (x : Out Bytes) : Out Bytes := if scope.testBit bit then x else .ok []

/-! ### Errors -/

/-- `BPSEC_ERROR_CODES`, BpSecBundleProcessor.h. -/
inductive Code
  | corrupted
  | misconfigured
deriving DecidableEq, Repr

/-- `BpSecError`: the index of the target, `none` (`UINT64_MAX`) for the whole block. -/
structure Err where
  code : Code
  target : Option Nat
deriving DecidableEq, Repr

/-- What a check returns: the code of an error, or a value. -/
inductive Check (α : Type)
  | bad (c : Code)
  | good (a : α)
deriving DecidableEq, Repr

/-! ### Decryption -/

/-- `ConfidentialityReceivedParameters`; a key is `none` for `NULL`. -/
structure OpenParams where
  variant : Nat
  ivLength : Nat
  scope : Nat
  mask : Nat
  kek : Option Bytes
  key : Option Bytes
deriving DecidableEq, Repr

/-- The variant in a security block, `dflt` if there is none. The type of `COSE_ALGORITHMS` is `int`, so 32 bits are
kept, Sec.cpp:695-708 and 764-777. -/
def variantOf (a : Asb) (id dflt : Nat) : Nat × Bool :=
  match getUint a.params id with
  | some n => (n % 2 ^ 32, true)
  | none => (dflt, false)

/-- The choice of the key, Proc.cpp:690-728 and 1187-1225. -/
def chooseKey (C : Crypto) (wrapped kek key : Option Bytes) : Out (Check Bytes) :=
  match wrapped with
  | some w =>
    match kek with
    | none => .ok (.bad .misconfigured)
    | some kek =>
      match unwrapKey C kek w with
      | .fault => .fault
      | .fail => .ok (.bad .corrupted)
      | .ok k => .ok (.good k)
  | none =>
    match key with
    | none => .ok (.bad .misconfigured)
    | some k => .ok (.good k)

/-- What the loop over the targets of a confidentiality block uses. -/
structure Opening where
  scope : Nat
  iv : Bytes
  key : Bytes
  header : Bytes
  work : List (Nat × Bytes)
deriving DecidableEq, Repr

/-- The checks before the loop, Proc.cpp:602-755. -/
def openingOf (C : Crypto) (P : OpenParams) (b : BlockView) : Out (Check Opening) :=
  match b.body with
  | .sec a =>
    let (variant, given) := variantOf a 2 3
    if given ∧ variant ≠ 1 ∧ variant ≠ 3 then .ok (.bad .corrupted)
    else if variant ≠ P.variant then .ok (.bad .misconfigured)
    else
      match getBytes a.params 1 with
      | none => .ok (.bad .corrupted)
      | some iv =>
        if iv.length ≠ P.ivLength then .ok (.bad .misconfigured)
        else
          let scope := getScope a.params 4
          if scope ≠ P.scope then .ok (.bad .misconfigured)
          else
            (part scope 2 (headerOf b)).bind fun header =>
              (chooseKey C (getBytes a.params 3) P.kek P.key).bind fun k =>
                match k with
                | .bad c => .ok (.bad c)
                | .good key =>
                  let tags := allResults a.results 1
                  if tags.length ≠ a.targets.length then .ok (.bad .corrupted)
                  else if a.targets = [] then .ok (.bad .corrupted)
                  else .ok (.good ⟨scope, iv, key, header, a.targets.zip tags⟩)
  | _ => .ok (.bad .corrupted)

/-- The state of the loop: the view, the errors, the latest in front, and `receivedBlockTypeCodesMask`. -/
structure Loop where
  view : View
  errors : List Err
  mask : Nat
deriving DecidableEq, Repr

/-- An error at a target. -/
def Loop.error (s : Loop) (c : Code) (i : Nat) : Loop := { s with errors := ⟨c, some i⟩ :: s.errors }

/-- The check of the type of a target, Proc.cpp:771-788 and 1304-1331; types above 63 are not checked. -/
def Loop.admit (s : Loop) (expected : Nat) (t : UInt8) : Option Loop :=
  if t.toNat ≤ 63 then
    if expected.testBit t.toNat then some { s with mask := s.mask ||| 2 ^ t.toNat } else none
  else some s

/-- The content of a block that was decrypted, Proc.cpp:866-872; the object held nothing. `pad` is the memory behind
the bundle. -/
def reread (pad : Bytes) (v : View) (i : Nat) (b : BlockView) : Out Body :=
  readBody (isAdmin v.primary) ⟨b.block, b.raw, v.rendered.drop (View.offset v i + dataAt b + b.block.data.length) ++ pad, []⟩

/-- One round of the loop, Proc.cpp:758-884. `self` is the index of the confidentiality block, `st` that of the target
in it. A confidentiality block that decrypts itself is read anew while the loop runs over its targets. -/
def openTarget (C : Crypto) (verifyOnly : Bool) (expected : Nat) (o : Opening) (pad : Bytes) (self st target : Nat)
    (tag : Bytes) (s : Loop) : Out Loop :=
  match View.indexOf s.view target with
  | none => .ok (s.error .corrupted st)
  | some i =>
    match s.view.blocks[i]? with
    | none => .fault
    | some b =>
      match s.admit expected b.block.typeCode with
      | none => .ok (s.error .misconfigured st)
      | some s =>
        (part o.scope 1 (headerOf b)).bind fun header =>
          (gcmDecrypt C o.key o.iv (aadOf o.scope s.view.primaryRaw header o.header) b.block.data tag).bind fun (text, ok) =>
            if verifyOnly then .ok (if ok then s else s.error .corrupted st)
            else if !ok then .ok ({ s with view := View.store s.view i (withData b text) }.error .corrupted st)
            else if i = self then .fault
            else
              let b := withDataCrc b text
              let v := View.store s.view i b
              match reread pad v i b with
              | .fault => .fault
              | .fail => .ok ({ s with view := View.store v i { b with body := .plain } }.error .corrupted st)
              | .ok body => .ok { s with view := View.store v i { b with body := body } }

/-- The loop. -/
def openLoop (C : Crypto) (verifyOnly : Bool) (expected : Nat) (o : Opening) (pad : Bytes) (self : Nat) :
    Nat → List (Nat × Bytes) → Loop → Out Loop
  | _, [], s => .ok s
  | st, (target, tag) :: rest, s =>
    (openTarget C verifyOnly expected o pad self st target tag s).bind fun s =>
      openLoop C verifyOnly expected o pad self (st + 1) rest s

/-- Marking a security block for deletion, or taking the mark away. -/
def View.setDeleted (v : View) (i : Nat) (d : Bool) : View :=
  { v with blocks := v.blocks.modify i fun b => { b with deleted := d } }

/-- What follows the loops, Proc.cpp:885-896 and 1411-1422. -/
def finish (expected self : Nat) (delete : Bool) (s : Loop) : List Err × View :=
  if s.errors = [] then
    if s.mask ≠ expected then ([⟨.misconfigured, none⟩], s.view)
    else ([], View.setDeleted s.view self delete)
  else (s.errors, s.view)

/-- `TryDecryptBundleByIndividualBcb`, Proc.cpp:594-897, on the block at index `self`. -/
def decrypt (C : Crypto) (verifyOnly : Bool) (P : OpenParams) (pad : Bytes) (self : Nat) (v : View) :
    Out (List Err × View) :=
  match v.blocks[self]? with
  | none => .fault
  | some b =>
    (openingOf C P b).bind fun o =>
      match o with
      | .bad c => .ok ([⟨c, none⟩], v)
      | .good o =>
        (openLoop C verifyOnly P.mask o pad self 0 o.work ⟨v, [], 0⟩).bind fun s =>
          .ok (finish P.mask self (!verifyOnly) s)

/-! ### Encryption -/

/-- `PADDING_ELEMENTS_BEFORE`, PaddedMallocator.h. -/
def paddingBefore : Nat := 256

/-- The bundle rendered in place, in memory with `room` bytes in front of it. `RenderInPlace` is always told that there
are `PADDING_ELEMENTS_BEFORE`, Proc.cpp:1104 and 1625. The result is the view and the room left. -/
def renderHere (room : Nat) (v : View) : Out (View × Nat) :=
  match v.renderInPlace paddingBefore with
  | .refused => .fail
  | .dangling => .fail
  | .overflow => .fault
  | .done v' =>
    if v.rendered.length + room < v'.rendered.length then .fault
    else .ok (v', v.rendered.length + room - v'.rendered.length)

/-- The arguments of `TryEncryptBundle`. -/
structure SealParams where
  scope : Nat
  variant : Nat
  crcType : UInt8
  source : Eid
  targets : List Nat
  iv : Bytes
  kek : Option Bytes
  key : Option Bytes
deriving DecidableEq, Repr

/-- The members of the confidentiality block that the data encryption uses, Proc.cpp:923-937. -/
def bcbOf (P : SealParams) (number : Nat) : Canonical :=
  ⟨12, number, if 1 ∈ P.targets then 1 else 0, P.crcType, [], 0, 0⟩

/-- The wrapped key, if there is a key encryption key, Proc.cpp:977-993 and 1483-1499. -/
def wrapIf (C : Crypto) (kek : Option Bytes) (key : Bytes) : Out (Option Bytes) :=
  match kek with
  | none => .ok none
  | some kek => (wrapKey C kek key).bind fun w => .ok (some w)

/-- The parameters of the block, Proc.cpp:940-998. -/
def bcbParams (iv : Bytes) (variant : Nat) (wrapped : Option Bytes) (scope : Nat) : Option (List Pair) := do
  let ps ← setBytes [] 1 iv
  let ps ← setUint ps 2 variant
  let ps ← (match wrapped with
    | none => some ps
    | some w => setBytes ps 3 w : Option (List Pair))
  setUint ps 4 scope

/-- One round of the loop, Proc.cpp:1004-1094: the view, in which the block is encrypted, and the tag. -/
def sealTarget (C : Crypto) (P : SealParams) (key header : Bytes) (target : Nat) (v : View) : Out (View × Bytes) :=
  match View.indexOf v target with
  | none => .fail
  | some i =>
    match v.blocks[i]? with
    | none => .fault
    | some b =>
      if b.dirty ∨ b.raw = [] then .fail
      else
        (part P.scope 1 (headerOf b)).bind fun h =>
          (ofOption (gcmEncrypt C key P.iv (aadOf P.scope v.primaryRaw h header) b.block.data)).bind fun (text, tag) =>
            .ok (View.store v i { withDataCrc b text with body := .hidden }, tag)

/-- The loop. -/
def sealLoop (C : Crypto) (P : SealParams) (key header : Bytes) : List Nat → View → Out (View × List Bytes)
  | [], v => .ok (v, [])
  | t :: ts, v =>
    (sealTarget C P key header t v).bind fun (v, tag) =>
      (sealLoop C P key header ts v).bind fun (v, tags) => .ok (v, tag :: tags)

/-- `TryEncryptBundle`, Proc.cpp:903-1107, with the block put in front and the bundle rendered; what is left behind when
it returns false is not modelled, as all callers drop the bundle. -/
def encrypt (C : Crypto) (P : SealParams) (v : View) (room : Nat) : Out (View × Nat) :=
  let c := bcbOf P v.nextFree
  match P.key with
  | none => .fail
  | some key =>
    (wrapIf C P.kek key).bind fun wrapped =>
      (ofOption (bcbParams P.iv P.variant wrapped P.scope)).bind fun params =>
        if P.targets = [] then .fail
        else
          (sealLoop C P key (headerOfNew c) P.targets v).bind fun (v, tags) =>
            renderHere room (v.prepend (newBlock c (.sec ⟨P.targets, 2, 1, P.source, params,
              tags.foldl (fun rs t => appendResult rs 1 t) []⟩)))

/-! ### Integrity -/

/-- `IntegrityReceivedParameters`. -/
structure VerifyParams where
  variant : Nat
  scope : Nat
  mask : Nat
  kek : Option Bytes
  key : Option Bytes
deriving DecidableEq, Repr

/-- The text that is signed for a canonical block, RFC 9173 section 3.7, Proc.cpp:1290-1344 and 1525-1554. -/
def ipptOf (scope : Nat) (primary target security data : Bytes) : Bytes := aadOf scope primary target security ++ data

/-- The same for a canonical block of a view. -/
def ipptBlock (scope : Nat) (primary security : Bytes) (b : BlockView) : Out Bytes :=
  (part scope 1 (headerOf b)).bind fun h =>
    (dataWithHead b).bind fun d => .ok (ipptOf scope primary h security d)

/-- The same for the primary block, Proc.cpp:1332-1336, 1345-1358 and 1544-1568: without the primary block and the header of the
target. -/
def ipptPrimary (scope : Nat) (primary security : Bytes) : Bytes :=
  UInt8.ofNat scope :: ((if scope.testBit 2 then security else []) ++ (byteStringHead primary.length ++ primary))

/-- What the loop over the targets of an integrity block uses. -/
structure Verifying where
  variant : Nat
  scope : Nat
  key : Bytes
  header : Bytes
  work : List (Nat × Bytes)
deriving DecidableEq, Repr

/-- The checks before the loop, Proc.cpp:1127-1253. -/
def verifyingOf (C : Crypto) (P : VerifyParams) (b : BlockView) : Out (Check Verifying) :=
  match b.body with
  | .hidden => .ok (.bad .misconfigured)
  | .sec a =>
    let (variant, given) := variantOf a 1 6
    if given ∧ variant ≠ 5 ∧ variant ≠ 6 ∧ variant ≠ 7 then .ok (.bad .corrupted)
    else if variant ≠ P.variant then .ok (.bad .misconfigured)
    else
      let scope := getScope a.params 3
      if scope ≠ P.scope then .ok (.bad .misconfigured)
      else
        (part scope 2 (headerOf b)).bind fun header =>
          (chooseKey C (getBytes a.params 2) P.kek P.key).bind fun k =>
            match k with
            | .bad c => .ok (.bad c)
            | .good key =>
              let hmacs := allResults a.results 1
              if hmacs.length ≠ a.targets.length then .ok (.bad .corrupted)
              else if a.targets = [] then .ok (.bad .corrupted)
              else .ok (.good ⟨variant, scope, key, header, a.targets.zip hmacs⟩)
  | _ => .ok (.bad .corrupted)

/-- The comparison at the end of a round, Proc.cpp:1400-1409. -/
def compareHmac (C : Crypto) (g : Verifying) (st : Nat) (ippt hmac : Bytes) (s : Loop) : Loop :=
  if C.hmac g.variant g.key ippt = hmac then s else s.error .corrupted st

/-- One round of the loop, Proc.cpp:1256-1410. -/
def verifyTarget (C : Crypto) (expected : Nat) (g : Verifying) (st target : Nat) (hmac : Bytes) (s : Loop) : Out Loop :=
  if target = 0 then
    match s.admit expected 0 with
    | none => .ok (s.error .misconfigured st)
    | some s => .ok (compareHmac C g st (ipptPrimary g.scope s.view.primaryRaw g.header) hmac s)
  else
    match s.view.byNumber target with
    | none => .ok (s.error .corrupted st)
    | some b =>
      if b.body = .hidden then .ok (s.error .misconfigured st)
      else
        (ipptBlock g.scope s.view.primaryRaw g.header b).bind fun ippt =>
          match s.admit expected b.block.typeCode with
          | none => .ok (s.error .misconfigured st)
          | some s => .ok (compareHmac C g st ippt hmac s)

/-- The loop. -/
def verifyLoop (C : Crypto) (expected : Nat) (g : Verifying) : Nat → List (Nat × Bytes) → Loop → Out Loop
  | _, [], s => .ok s
  | st, (target, hmac) :: rest, s =>
    (verifyTarget C expected g st target hmac s).bind fun s => verifyLoop C expected g (st + 1) rest s

/-- `TryVerifyBundleIntegrityByIndividualBib`, Proc.cpp:1118-1423, on the block at index `self`; `accept`: the block is
marked for deletion if all is right. -/
def verify (C : Crypto) (accept : Bool) (P : VerifyParams) (self : Nat) (v : View) : Out (List Err × View) :=
  match v.blocks[self]? with
  | none => .fault
  | some b =>
    (verifyingOf C P b).bind fun g =>
      match g with
      | .bad c => .ok ([⟨c, none⟩], v)
      | .good g =>
        (verifyLoop C P.mask g 0 g.work ⟨v, [], 0⟩).bind fun s => .ok (finish P.mask self accept s)

/-- The arguments of `TryAddBundleIntegrity`. -/
structure SignParams where
  scope : Nat
  variant : Nat
  crcType : UInt8
  source : Eid
  targets : List Nat
  kek : Option Bytes
  key : Option Bytes
deriving DecidableEq, Repr

/-- The members of the integrity block that are signed, Proc.cpp:1451-1456. -/
def bibOf (P : SignParams) (number : Nat) : Canonical := ⟨11, number, 0, P.crcType, [], 0, 0⟩

/-- The parameters of the block, Proc.cpp:1464-1504. -/
def bibParams (variant : Nat) (wrapped : Option Bytes) (scope : Nat) : Option (List Pair) := do
  let ps ← setUint [] 1 variant
  let ps ← (match wrapped with
    | none => some ps
    | some w => setBytes ps 2 w : Option (List Pair))
  setUint ps 3 scope

/-- One round of the loop, Proc.cpp:1510-1615: the HMAC. A block without bytes has no data pointer. -/
def signTarget (C : Crypto) (P : SignParams) (key header : Bytes) (v : View) (target : Nat) : Out Bytes :=
  if target = 0 then .ok (C.hmac P.variant key (ipptPrimary P.scope v.primaryRaw header))
  else
    match v.byNumber target with
    | none => .fail
    | some b =>
      if b.body = .hidden then .fail
      else (ipptBlock P.scope v.primaryRaw header b).bind fun ippt => .ok (C.hmac P.variant key ippt)

/-- The loop. -/
def signLoop (C : Crypto) (P : SignParams) (key header : Bytes) (v : View) : List Nat → Out (List Bytes)
  | [] => .ok []
  | t :: ts =>
    (signTarget C P key header v t).bind fun m =>
      (signLoop C P key header v ts).bind fun ms => .ok (m :: ms)

/-- `TryAddBundleIntegrity`, Proc.cpp:1425-1628, with the block put in front and the bundle rendered. The
variant is one of the enumerators. -/
def sign (C : Crypto) (P : SignParams) (v : View) (room : Nat) : Out (View × Nat) :=
  if P.variant ≠ 5 ∧ P.variant ≠ 6 ∧ P.variant ≠ 7 then .fail
  else
    let c := bibOf P v.nextFree
    match P.key with
    | none => .fail
    | some key =>
      (wrapIf C P.kek key).bind fun wrapped =>
        (ofOption (bibParams P.variant wrapped P.scope)).bind fun params =>
          if P.targets = [] then .fail
          else
            (signLoop C P key (headerOfNew c) v P.targets).bind fun hmacs =>
              renderHere room (v.prepend (newBlock c (.sec ⟨P.targets, 1, 1, P.source, params,
                hmacs.foldl (fun rs m => appendResult rs 1 m) []⟩)))

end Hdtn.BpSecBundle
