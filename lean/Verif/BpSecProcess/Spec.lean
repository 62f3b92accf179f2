import Verif.BpSecProcess.Model
import Verif.BpSecBundle.Spec

/-!
What a security policy says about operations that fail. Independent of the code; of the model only the records are used.
-/

namespace Hdtn.BpSecProcess.Spec

open Hdtn.HashMap16 Hdtn.Bpv7Canonical Hdtn.BpSec7 Hdtn.BundleView7 Hdtn.BpSecBundle

/-- The actions as bits of a mask: remove the operation, remove its target block, do not pass the bundle on. -/
def RemovesOperation (mask : Nat) : Prop := mask % 2 = 1

/-- See `RemovesOperation`. -/
def RemovesBlock (mask : Nat) : Prop := mask / 2 % 2 = 1

/-- See `RemovesOperation`. -/
def StopsBundle (mask : Nat) : Prop := mask / 8 % 2 = 1

/-- The actions that an event set has for an error. -/
def actionsFor (s : EventSet) (acceptor : Bool) : Code → Option Nat
  | .corrupted => if acceptor then s.corruptedAcceptor else s.corruptedVerifier
  | .misconfigured => if acceptor then s.misconfiguredAcceptor else s.misconfiguredVerifier

/-- The operation is taken out of the security block: always by an acceptor, by a verifier if the policy says so. -/
def TakenOut (s : EventSet) (acceptor : Bool) (c : Code) : Prop :=
  acceptor = true ∨ ∃ m, actionsFor s acceptor c = some m ∧ RemovesOperation m

/-- The target block is removed: if the policy says so, and by an acceptor if it cannot be decrypted. -/
def TargetRemoved (s : EventSet) (acceptor integrity : Bool) (c : Code) : Prop :=
  (acceptor = true ∧ integrity = false) ∨ ∃ m, actionsFor s acceptor c = some m ∧ RemovesBlock m

/-- The bundle is dropped because of an error at a target with a block number: an acceptor cannot decrypt the payload;
nothing is said about the event; the policy says so; or the block to be removed is the payload block. The number
2^64 - 1 is taken for the whole bundle. -/
def Dropped (s : EventSet) (acceptor integrity : Bool) (number : Nat) (c : Code) : Prop :=
  (acceptor = true ∧ integrity = false ∧ (number = 1 ∨ number = 2 ^ 64 - 1)) ∨
  actionsFor s acceptor c = none ∨
  ∃ m, actionsFor s acceptor c = some m ∧ (StopsBundle m ∨ (RemovesBlock m ∧ (number = 1 ∨ number = 2 ^ 64 - 1)))

/-- The elements at the positions that are not in the list. -/
def without {α : Type} (ks : List Nat) (l : List α) : List α :=
  (l.zipIdx.filter fun p => decide (p.2 ∉ ks)).map (·.1)

/-- The security block without the operations at these positions. -/
def withoutOps (ks : List Nat) (a : Asb) : Asb :=
  { a with targets := without ks a.targets, results := without ks a.results }

/-- The block is the first one with one of these numbers. -/
def IsFirst (bs : List BlockView) (numbers : List Nat) (i : Nat) : Prop :=
  ∃ b, bs[i]? = some b ∧ b.block.number ∈ numbers ∧ ∀ j < i, ∀ c, bs[j]? = some c → c.block.number ≠ b.block.number

/-! ### Bundles that are sent -/

/-- A bundle without security blocks. Its blocks have different numbers other than 0, there is room for two more numbers,
and there are less than 1000 blocks. -/
structure Unprotected (v : View) : Prop where
  without : ∀ b ∈ v.blocks, b.block.typeCode ≠ 11 ∧ b.block.typeCode ≠ 12
  different : (v.blocks.map (·.block.number)).Nodup
  nonzero : ∀ b ∈ v.blocks, b.block.number ≠ 0
  room : ∀ b ∈ v.blocks, b.block.number + 2 < 2 ^ 64
  few : v.blocks.length < 1000

/-- What the integrity part of a policy may ask for: a key, which if it is to be wrapped is one for AES-128 or AES-256, with
a key encryption key of the same length; a known algorithm; and types up to 63, one of them at least the type of a block. -/
structure MaySign (source : Eid) (v : View) (c : BpSecPolicy.Bib) : Prop where
  key : c.key ≠ []
  kek : c.kek ≠ [] → (c.key.length = 16 ∨ c.key.length = 32) ∧ c.kek.length = c.key.length
  variant : c.variant = 5 ∨ c.variant = 6 ∨ c.variant = 7
  scope : c.scope ≤ 7
  crc : c.crc = 0 ∨ c.crc = 1 ∨ c.crc = 2
  source : BpSecBundle.Spec.IsSource source
  different : c.targets.Nodup
  small : ∀ t ∈ c.targets, t ≤ 63
  some : ∃ b ∈ v.blocks, b.block.typeCode.toNat ∈ c.targets

/-- The same for the confidentiality part; type 11 may be asked for if the bundle is signed. -/
structure MaySeal (source : Eid) (v : View) (signed : Bool) (c : BpSecPolicy.Bcb) : Prop where
  key : c.key.length = 16 ∨ c.key.length = 32
  kek : c.kek ≠ [] → c.kek.length = c.key.length
  variant : c.variant = 1 ∨ c.variant = 3
  scope : c.scope ≤ 7
  crc : c.crc = 0 ∨ c.crc = 1 ∨ c.crc = 2
  source : BpSecBundle.Spec.IsSource source
  different : c.targets.Nodup
  small : ∀ t ∈ c.targets, t ≤ 63
  integrity : 11 ∈ c.targets → signed = true
  some : 11 ∈ c.targets ∨ ∃ b ∈ v.blocks, b.block.typeCode.toNat ∈ c.targets

/-- Every one of the types is the type of a block; type 11 is if the bundle is signed. -/
def AllThere (v : View) (signed : Bool) (types : List Nat) : Prop :=
  ∀ t ∈ types, (t = 11 ∧ signed = true) ∨ ∃ b ∈ v.blocks, b.block.typeCode.toNat = t

/-- Two policies for the same operations: the same algorithms, scopes and types, and the same key or key encryption key. -/
structure Agree (p q : BpSecPolicy.Policy) : Prop where
  doBib : q.doBib = p.doBib
  doBcb : q.doBcb = p.doBcb
  bib : p.doBib = true → q.bib.variant = p.bib.variant ∧ q.bib.scope = p.bib.scope ∧ (∀ t, t ∈ q.bib.targets ↔ t ∈ p.bib.targets) ∧
    (p.bib.kek = [] → q.bib.key = p.bib.key) ∧ (p.bib.kek ≠ [] → q.bib.kek = p.bib.kek)
  bcb : p.doBcb = true → q.bcb.variant = p.bcb.variant ∧ q.bcb.short = p.bcb.short ∧ q.bcb.scope = p.bcb.scope ∧
    (∀ t, t ∈ q.bcb.targets ↔ t ∈ p.bcb.targets) ∧ (p.bcb.kek = [] → q.bcb.key = p.bcb.key) ∧ (p.bcb.kek ≠ [] → q.bcb.kek = p.bcb.kek)

/-- The block is a security block of this type, with a CRC of this kind, and of this source, whose targets are the blocks
in the list with one of these types. -/
def Covers (type : UInt8) (crc : Nat) (source : Eid) (types : List Nat) (bs : List BlockView) (sec : BlockView) (a : Asb) : Prop :=
  sec.block.typeCode = type ∧ sec.block.crcType.toNat = crc ∧ sec.body = .sec a ∧ a.source = source ∧
  ∀ n, n ∈ a.targets ↔ ∃ b ∈ bs, b.block.number = n ∧ b.block.typeCode.toNat ∈ types

/-- The bundle `w` is the bundle `v` as the policy wants it: with an integrity block for the blocks of certain types, then
with the blocks of certain types, the new one included, encrypted, and a confidentiality block for these. -/
def IsProtected (C : Crypto) (p : BpSecPolicy.Policy) (source : Eid) (iv : Bytes) (v w : View) : Prop :=
  w.primary = v.primary ∧ w.primaryRaw = v.primaryRaw ∧
  ∃ made bcbs others, w.blocks = bcbs ++ others ∧
    (if p.doBib then ∃ bib a, made = [bib] ∧ Covers 11 p.bib.crc source p.bib.targets v.blocks bib a else made = []) ∧
    (if p.doBcb then ∃ bcb a, bcbs = [bcb] ∧ Covers 12 p.bcb.crc source p.bcb.targets (made ++ v.blocks) bcb a ∧
        ⟨1, .bytes iv⟩ ∈ a.params else bcbs = []) ∧
    List.Forall₂ (fun b s => if p.doBcb = true ∧ b.block.typeCode.toNat ∈ p.bcb.targets then
        BpSecBundle.Spec.IsSealed C p.bcb.key iv b s else s = b) (made ++ v.blocks) others

end Hdtn.BpSecProcess.Spec
