import Verif.Catalog.Inv

/-!
Model of the times and classes computed from primary blocks: `Bpv6CbhePrimaryBlock.cpp`,
`Bpv7CbhePrimaryBlock.cpp`, and their use by `catalog_entry_t::Init` (`Verif.Catalog.Model`).
-/

namespace Hdtn.Expiration

open Hdtn.HashMap16 Hdtn.Catalog

/-- The fields of a BPv6 primary block used here (bpv6.h:96-108); the flag word is 64 bits. -/
structure V6 where
  flags : Nat
  dest : Eid
  src : Eid
  seconds : Nat
  sequence : Nat
  lifetimeSeconds : Nat
  fragmentOffset : Nat
deriving DecidableEq, Repr

/-- The fields of a BPv7 primary block used here. -/
structure V7 where
  fragment : Bool
  dest : Eid
  src : Eid
  milliseconds : Nat
  sequence : Nat
  lifetimeMilliseconds : Nat
  fragmentOffset : Nat
deriving DecidableEq, Repr

/-- `GetPriorityFromFlags`, bpv6.h:86-88, and `GetPriority`, Bpv6CbhePrimaryBlock.cpp:329-331. -/
def V6.priority (b : V6) : Nat := (b.flags >>> 7) &&& 3

/-- `GetExpirationSeconds`, Bpv6CbhePrimaryBlock.cpp:332-334. -/
def V6.expirationSeconds (b : V6) : Nat := (b.seconds + b.lifetimeSeconds) % U64

/-- `GetExpirationMilliseconds`, Bpv6CbhePrimaryBlock.cpp:338-340. -/
def V6.expirationMilliseconds (b : V6) : Nat := (b.seconds + b.lifetimeSeconds) % U64 * 1000 % U64

/-- `GetPriority`, Bpv7CbhePrimaryBlock.cpp:526-528. -/
def V7.priority (_ : V7) : Nat := 2

/-- `GetExpirationSeconds`, Bpv7CbhePrimaryBlock.cpp:529-531. -/
def V7.expirationSeconds (b : V7) : Nat := (b.milliseconds + b.lifetimeMilliseconds) % U64 / 1000

/-- `GetExpirationMilliseconds`, Bpv7CbhePrimaryBlock.cpp:536-538. -/
def V7.expirationMilliseconds (b : V7) : Nat := (b.milliseconds + b.lifetimeMilliseconds) % U64

/-- `GetSequenceForSecondsScale`, Bpv7CbhePrimaryBlock.cpp:532-535. -/
def V7.sequenceScale (b : V7) : Nat := (b.milliseconds % 1000) <<< 50 % U64 ||| b.sequence

/-- What the storage catalog sees of a BPv6 bundle: bit 3 of the flags asks for custody, bit 0 marks
a fragment (`HasCustodyFlagSet`, `HasFragmentationFlagSet`, Bpv6CbhePrimaryBlock.cpp:299-304). -/
def V6.toPrimary (b : V6) : Primary :=
  { custody := b.flags.testBit 3
    fragment := b.flags.testBit 0
    creation := b.seconds
    sequence := b.sequence
    src := b.src
    fragmentOffset := b.fragmentOffset
    dest := b.dest
    priority := b.priority
    expiration := b.expirationSeconds
    sequenceScale := b.sequence }

/-- What the storage catalog sees of a BPv7 bundle; there is no custody in BPv7
(`HasCustodyFlagSet`, Bpv7CbhePrimaryBlock.cpp:495-497). -/
def V7.toPrimary (b : V7) : Primary :=
  { custody := false
    fragment := b.fragment
    creation := b.milliseconds
    sequence := b.sequence
    src := b.src
    fragmentOffset := b.fragmentOffset
    dest := b.dest
    priority := b.priority
    expiration := b.expirationSeconds
    sequenceScale := b.sequenceScale }

/-- The expiration under which the bundle is filed by the catalog, `GetAbsExpiration`,
CatalogEntry.cpp:87-89, :108. -/
def filedExpiration (p : Primary) : Nat := (Entry.init p 0 0 [] none).expiration

end Hdtn.Expiration
