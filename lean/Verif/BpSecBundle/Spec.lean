import Verif.BpSecBundle.Model
import Verif.BundleView7.Spec

/-!
What RFC 9172 and RFC 9173 say about integrity and confidentiality blocks, and what is assumed of the cryptographic
functions. Independent of the code; of the model only the records and the encoding of unsigned integers are used.
-/

namespace Hdtn.BpSecBundle.Spec

open Hdtn.HashMap16 Hdtn.Cbor Hdtn.Bpv7Canonical Hdtn.Bpv7Canonical.Spec Hdtn.BpSec7 Hdtn.BundleView7 Hdtn.BundleView7.Spec

/-- The cryptographic functions invert each other and have the lengths of AES-GCM, AES key wrap and HMAC-SHA2. That is
all that is assumed of them; the statements hold for any such functions. -/
structure Lawful (C : Crypto) : Prop where
  ctr_length : ∀ key iv data, (C.ctr key iv data).length = data.length
  ctr_ctr : ∀ key iv data, C.ctr key iv (C.ctr key iv data) = data
  tag_length : ∀ key iv aad text, (C.tag key iv aad text).length = 16
  wrap_length : ∀ kek key, (C.wrap kek key).length = key.length + 8
  unwrap_wrap : ∀ kek key, C.unwrap kek (C.wrap kek key) = some key
  hmac_length : ∀ variant key text, (C.hmac variant key text).length ≤ 64

/-- The header of a block: type code, number and processing control flags, RFC 9173 sections 3.7 and 4.7.2, in their
shortest encoding. -/
def header (c : Canonical) : Bytes := encodeU64 c.typeCode.toNat ++ encodeU64 c.number ++ encodeU64 c.flags

/-- The bytes of a block have its header in the shortest encoding. -/
def ShortHeader (raw : Bytes) (c : Canonical) : Prop := ∃ first rest, raw = first :: (header c ++ rest)

/-- The additional data, RFC 9173 section 4.7.2: the scope flags, the primary block if bit 0 of them is set, the header
of the target if bit 1 is, that of the security block if bit 2 is. -/
def IsAad (scope : Nat) (primary target security aad : Bytes) : Prop :=
  ∃ p t s, aad = [UInt8.ofNat scope] ++ p ++ t ++ s ∧
    (if scope % 2 = 1 then p = primary else p = []) ∧ (if scope / 2 % 2 = 1 then t = target else t = []) ∧
    (if scope / 4 % 2 = 1 then s = security else s = [])

/-- The block `s` is the block `b` with encrypted data. -/
def IsSealed (C : Crypto) (key iv : Bytes) (b s : BlockView) : Prop :=
  s.block.typeCode = b.block.typeCode ∧ s.block.number = b.block.number ∧ s.block.flags = b.block.flags ∧
  s.block.crcType = b.block.crcType ∧ s.block.data = C.ctr key iv b.block.data

/-- A source that fits its type; dtn:none has no service. -/
def IsSource (e : Eid) : Prop := e.node < 2 ^ 64 ∧ e.service < 2 ^ 64 ∧ (e.node = 0 → e.service = 0)

/-- What may be asked for: a key for AES-128 or AES-256 and, if the key is to be wrapped, a key encryption key of the same
length; an initialization vector; at least one and at most 1000 different targets, all of them in the bundle, not
encrypted, and no confidentiality blocks. -/
structure Sealable (v : View) (P : SealParams) (key : Bytes) : Prop where
  hasKey : P.key = some key
  size : key.length = 16 ∨ key.length = 32
  kek : ∀ k, P.kek = some k → k.length = key.length
  iv : P.iv ≠ [] ∧ P.iv.length ≤ 2 ^ 32
  variant : P.variant = 1 ∨ P.variant = 3
  scope : P.scope ≤ 7
  crc : P.crcType = 0 ∨ P.crcType = 1 ∨ P.crcType = 2
  source : IsSource P.source
  targets : P.targets ≠ [] ∧ P.targets.Nodup ∧ P.targets.length ≤ 1000
  there : ∀ t ∈ P.targets, t < 2 ^ 64 ∧ t ∉ v.encrypted ∧ ∃ b ∈ v.blocks, b.block.number = t ∧ b.block.typeCode ≠ 12

/-- The receiver expects what the sender does and has the key: the types of the targets are those up to 63 in the mask. -/
structure Opens (v : View) (P : SealParams) (Q : OpenParams) : Prop where
  variant : Q.variant = P.variant
  iv : Q.ivLength = P.iv.length
  scope : Q.scope = P.scope
  mask : ∀ n, Q.mask.testBit n = true ↔ n ≤ 63 ∧ ∃ b ∈ v.blocks, b.block.number ∈ P.targets ∧ b.block.typeCode.toNat = n
  key : P.kek = none → Q.key = P.key
  kek : ∀ k, P.kek = some k → Q.kek = some k

/-! ### Integrity -/

/-- A byte string on the wire, the head in its shortest form. -/
def IsString (data s : Bytes) : Prop :=
  ∃ head, s = head ++ data ∧ IsStringHead head data.length ∧ ∀ other, IsStringHead other data.length → head.length ≤ other.length

/-- The bytes of a block have its data as such a byte string, before the CRC. -/
def ShortData (raw : Bytes) (c : Canonical) : Prop :=
  ∃ front s crc, raw = front ++ s ++ crc ∧ IsString c.data s ∧ crc.length = (if c.crcType = 1 then 3 else if c.crcType = 2 then 5 else 0)

/-- The integrity-protected plaintext of a canonical block, RFC 9173 section 3.7: scope flags and headers as above, then
the data. -/
def IsIppt (scope : Nat) (primary security : Bytes) (target : Canonical) (ippt : Bytes) : Prop :=
  ∃ aad s, ippt = aad ++ s ∧ IsAad scope primary (header target) security aad ∧ IsString target.data s

/-- That of the primary block: neither it nor its header is put in front of it. -/
def IsIpptPrimary (scope : Nat) (primary security ippt : Bytes) : Prop :=
  ∃ aad s, ippt = aad ++ s ∧ IsAad scope [] [] security aad ∧ IsString primary s

/-- What may be asked for: a key, which if it is to be wrapped is one for AES-128 or AES-256, with a key encryption key of
the same length; at most 1000 targets, the primary block or blocks that are not encrypted; no confidentiality block names
a block that is not there. -/
structure Signable (v : View) (P : SignParams) (key : Bytes) : Prop where
  hasKey : P.key = some key
  kek : ∀ k, P.kek = some k → (key.length = 16 ∨ key.length = 32) ∧ k.length = key.length
  variant : P.variant = 5 ∨ P.variant = 6 ∨ P.variant = 7
  scope : P.scope ≤ 7
  crc : P.crcType = 0 ∨ P.crcType = 1 ∨ P.crcType = 2
  source : IsSource P.source
  targets : P.targets ≠ [] ∧ P.targets.length ≤ 1000
  there : ∀ t ∈ P.targets, t = 0 ∨ (t < 2 ^ 64 ∧ t ∉ v.encrypted ∧ ∃ b ∈ v.blocks, b.block.number = t)
  named : ∀ t ∈ v.encrypted, ∃ b ∈ v.blocks, b.block.number = t

/-- The receiver expects what the sender does and has the key; the primary block has type 0 in the mask. -/
structure Verifies (v : View) (P : SignParams) (Q : VerifyParams) : Prop where
  variant : Q.variant = P.variant
  scope : Q.scope = P.scope
  mask : ∀ n, Q.mask.testBit n = true ↔ n ≤ 63 ∧ ((n = 0 ∧ 0 ∈ P.targets) ∨
    ∃ b ∈ v.blocks, b.block.number ≠ 0 ∧ b.block.number ∈ P.targets ∧ b.block.typeCode.toNat = n)
  key : P.kek = none → Q.key = P.key
  kek : ∀ k, P.kek = some k → Q.kek = some k

end Hdtn.BpSecBundle.Spec
