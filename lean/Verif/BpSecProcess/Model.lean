import Verif.BpSecBundle.Model
import Verif.BpSecPolicy.Model
import Verif.Iv.Model

/-!
Model of the processing of bundles in `BpSecPolicyManager`, /repo/common/bpsec/src/BpSecPolicyManager.cpp ("Pol.cpp"
below): what is done with the security blocks of a received bundle and which ones are added to a bundle that is sent.
-/

namespace Hdtn.BpSecProcess

open Hdtn.HashMap16 Hdtn.Bpv7Canonical Hdtn.Bpv7Primary Hdtn.BpSec7 Hdtn.BundleView7 Hdtn.BpSecBundle
open Hdtn.BpSecPolicy (Policy Manager roleSource roleVerifier roleAcceptor typeBib)

/-! ### Failure events -/

/-- `security_failure_event_sets_t`, BpSecConfig.h:84-98: the mask of the actions of the events that are looked up;
`none` for an event that is not in the set. -/
structure EventSet where
  corruptedAcceptor : Option Nat
  misconfiguredAcceptor : Option Nat
  corruptedVerifier : Option Nat
  misconfiguredVerifier : Option Nat
deriving DecidableEq, Repr

/-- The choice of the event, Pol.cpp:431-440 and 497-507. -/
def EventSet.actions (s : EventSet) (acceptor : Bool) : Code → Option Nat
  | .corrupted => if acceptor then s.corruptedAcceptor else s.corruptedVerifier
  | .misconfigured => if acceptor then s.misconfiguredAcceptor else s.misconfiguredVerifier

/-- `BPSEC_SECURITY_FAILURE_PROCESSING_ACTION_MASKS`, BpSecConfig.h:50-61: the bits of the masks. -/
def bitRemoveSop : Nat := 0

/-- See `bitRemoveSop`. -/
def bitRemoveTarget : Nat := 1

/-- See `bitRemoveSop`. -/
def bitFail : Nat := 3

/-- `UINT64_MAX`, which stands for all targets. -/
def allOfThem : Nat := 2 ^ 64 - 1

/-- What is done with a bundle: it is dropped (the call returns false) or goes on. -/
inductive Verdict
  | drop
  | keep (v : View)
deriving DecidableEq, Repr

/-- `RemoveSopByGreatestToLeastIndex`, Pol.cpp:258-285; `none` when it returns false. An error at a single target comes
only from a block whose members could be read. -/
def removeSop (v : View) (self : Nat) : Option Nat → Option View
  | none => some (View.setDeleted v self true)
  | some k =>
    match v.blocks[self]? with
    | none => none
    | some b =>
      match b.body with
      | .sec a =>
        if a.targets.length ≠ a.results.length then none
        else if a.targets.length ≤ k then none
        else
          let a := { a with targets := a.targets.eraseIdx k, results := a.results.eraseIdx k }
          some { v with blocks := v.blocks.set self
                          { b with body := .sec a, dirty := true, deleted := b.deleted || a.targets.isEmpty } }
      | _ => none

/-- `RemoveSopTargetBlock`, Pol.cpp:288-306, for one block number. -/
def removeTarget (v : View) (number : Nat) : View :=
  match View.indexOf v number with
  | none => v
  | some i => View.setDeleted v i true

/-- The block number of the target of an error, Pol.cpp:391-392. -/
def numberOf (v : View) (self : Nat) : Option Nat → Out Nat
  | none => .ok allOfThem
  | some k =>
    match v.blocks[self]? with
    | none => .fault
    | some b =>
      match b.body with
      | .sec a =>
        match a.targets[k]? with
        | none => .fault
        | some t => .ok t
      | _ => .fault

/-- `errorTargetsPayloadBlock`, Pol.cpp:393. -/
def meansPayload (number : Nat) : Bool := number = 1 ∨ number = allOfThem

/-- One round of the loop of `DoFailureEvent` at an acceptor, Pol.cpp:396-496. -/
def failAcceptor (integrity : Bool) (s : EventSet) (self : Nat) (e : Err) (v : View) : Out Verdict :=
  (numberOf v self e.target).bind fun number =>
    if !integrity && meansPayload number then .ok .drop
    else
      match if integrity then some v else (removeSop v self e.target).map fun v => removeTarget v number with
      | none => .ok .drop
      | some v =>
        match s.actions true e.code with
        | none => .ok .drop
        | some mask =>
          match if integrity then removeSop v self e.target else some v with
          | none => .ok .drop
          | some v =>
            if mask.testBit bitFail then .ok .drop
            else if mask.testBit bitRemoveTarget then
              if meansPayload number then .ok .drop
              else .ok (.keep (if integrity then removeTarget v number else v))
            else .ok (.keep v)

/-- The same at a verifier, Pol.cpp:497-564. -/
def failVerifier (s : EventSet) (self : Nat) (e : Err) (v : View) : Out Verdict :=
  (numberOf v self e.target).bind fun number =>
    match s.actions false e.code with
    | none => .ok .drop
    | some mask =>
      match if mask.testBit bitRemoveSop then removeSop v self e.target else some v with
      | none => .ok .drop
      | some v =>
        if mask.testBit bitFail then .ok .drop
        else if mask.testBit bitRemoveTarget then
          if meansPayload number then .ok .drop else .ok (.keep (removeTarget v number))
        else .ok (.keep v)

/-- `DoFailureEvent`, Pol.cpp:377-568. -/
def fail (acceptor integrity : Bool) (s : EventSet) (self : Nat) : List Err → View → Out Verdict
  | [], v => .ok (.keep v)
  | e :: es, v =>
    (if acceptor then failAcceptor integrity s self e v else failVerifier s self e v).bind fun r =>
      match r with
      | .drop => .ok .drop
      | .keep v => fail acceptor integrity s self es v

/-- `DoFailureEventSopMissingAtAcceptor`, Pol.cpp:308-375. -/
def failMissing (integrity : Bool) (mask : Nat) (a : Asb) (v : View) : Verdict :=
  if !integrity && a.targets.contains 1 then .drop
  else if mask.testBit bitFail then .drop
  else if mask.testBit bitRemoveTarget then
    if a.targets.contains 1 then .drop else .keep (a.targets.foldl removeTarget v)
  else .keep v

/-! ### Received bundles -/

/-- What the processing depends on: the cryptographic functions, the policies, the event sets they refer to (`none` for
`NULL`), the actions when there is no policy at the destination (`m_actionMaskSopMissingAtAcceptor`), and the node.
Searching with the caches finds what searching without them does (C90). -/
structure Env where
  crypto : Crypto
  manager : Manager
  events : Nat → Option EventSet
  missing : Nat
  node : Nat

/-- What the searches find, Pol.cpp:584-620 and 691-727. -/
inductive Found
  | acceptor (p : Policy)
  | verifier (p : Policy)
  | missing
  | nothing
deriving DecidableEq, Repr

/-- The policy for a security block with this source. -/
def Env.search (E : Env) (p : Primary) (source : Eid) : Found :=
  match E.manager.find ⟨source, p.source, p.dest, roleAcceptor⟩ with
  | some q => .acceptor q
  | none =>
    if p.dest.node = E.node then .missing
    else
      match E.manager.find ⟨source, p.source, p.dest, roleVerifier⟩ with
      | some q => .verifier q
      | none => .nothing

/-- An empty key is `NULL`. -/
def keyOf (k : Bytes) : Option Bytes := if k = [] then none else some k

/-- `expectedTargetBlockTypesMask`, Pol.cpp:634-642 and 741-749. A shift by 64 or more is undefined; such types are not
in use. -/
def maskOf (types : List Nat) : Nat := types.foldl (fun m t => m ||| 2 ^ t) 0

/-- `ConfidentialityReceivedParameters`, Pol.cpp:625-642. -/
def openParams (p : Policy) : OpenParams :=
  ⟨p.bcb.variant, if p.bcb.short then 12 else 16, p.bcb.scope, maskOf p.bcb.targets, keyOf p.bcb.kek, keyOf p.bcb.key⟩

/-- `IntegrityReceivedParameters`, Pol.cpp:732-749. -/
def verifyParams (p : Policy) : VerifyParams :=
  ⟨p.bib.variant, p.bib.scope, maskOf p.bib.targets, keyOf p.bib.kek, keyOf p.bib.key⟩

/-- The members of a security block. `ghost` is what is in the object of a block that is encrypted, left by a bundle
loaded before, or of one whose content could not be read after it was decrypted. -/
def asbOf (ghost : Nat → Asb) (i : Nat) (b : BlockView) : Asb :=
  match b.body with
  | .sec a => a
  | _ => ghost i

/-- A block whose content could not be read after it was decrypted is used nevertheless. -/
def settle (ghost : Nat → Asb) (i : Nat) (v : View) : View :=
  { v with blocks := v.blocks.modify i fun b => if b.body = .plain then { b with body := .sec (ghost i) } else b }

/-- With the policy for a confidentiality block, Pol.cpp:621-684. -/
def openBy (E : Env) (pad : Bytes) (acceptor : Bool) (p : Policy) (i : Nat) (v : View) : Out Verdict :=
  if !p.doBcb then .ok (.keep v)
  else
    (decrypt E.crypto (!acceptor) (openParams p) pad i v).bind fun (errors, v) =>
      if errors = [] then .ok (.keep v)
      else
        match E.events p.bcb.events with
        | none => .fault
        | some s => fail acceptor false s i errors v

/-- One round of the loop over the confidentiality blocks, Pol.cpp:577-684. -/
def stepBcb (E : Env) (ghost : Nat → Asb) (pad : Bytes) (i : Nat) (v : View) : Out Verdict :=
  let v := settle ghost i v
  match v.blocks[i]? with
  | none => .fault
  | some b =>
    let a := asbOf ghost i b
    match E.search v.primary a.source with
    | .missing => .ok (failMissing false E.missing a v)
    | .nothing => .ok (.keep v)
    | .acceptor p => openBy E pad true p i v
    | .verifier p => openBy E pad false p i v

/-- With the policy for an integrity block, Pol.cpp:728-791. -/
def verifyBy (E : Env) (acceptor : Bool) (p : Policy) (i : Nat) (v : View) : Out Verdict :=
  if !p.doBib then .ok (.keep v)
  else
    (verify E.crypto acceptor (verifyParams p) i v).bind fun (errors, v) =>
      if errors = [] then .ok (.keep v)
      else
        match E.events p.bib.events with
        | none => .fault
        | some s => fail acceptor true s i errors v

/-- One round of the loop over the integrity blocks, Pol.cpp:690-791. -/
def stepBib (E : Env) (ghost : Nat → Asb) (i : Nat) (v : View) : Out Verdict :=
  let v := settle ghost i v
  match v.blocks[i]? with
  | none => .fault
  | some b =>
    let a := asbOf ghost i b
    match E.search v.primary a.source with
    | .missing => .ok (failMissing true E.missing a v)
    | .nothing => .ok (.keep v)
    | .acceptor p => verifyBy E true p i v
    | .verifier p => verifyBy E false p i v

/-- The loops: the blocks are those of the list, found before. -/
def steps (f : Nat → View → Out Verdict) : List Nat → View → Out Verdict
  | [], v => .ok (.keep v)
  | i :: is, v =>
    (f i v).bind fun r =>
      match r with
      | .drop => .ok .drop
      | .keep v => steps f is v

/-- `GetCanonicalBlocksByType`, View.cpp:413-420: the positions of the blocks of a type, also of those that are marked
for deletion. -/
def positions (v : View) (t : UInt8) : List Nat :=
  (List.range v.blocks.length).filter fun i => match v.blocks[i]? with | some b => b.block.typeCode = t | none => false

/-- `ProcessReceivedBundle`, Pol.cpp:570-795: first the confidentiality blocks, then the integrity blocks. -/
def receive (E : Env) (ghost : Nat → Asb) (pad : Bytes) (v : View) : Out Verdict :=
  (steps (stepBcb E ghost pad) (positions v 12) v).bind fun r =>
    match r with
    | .drop => .ok .drop
    | .keep v => steps (stepBib E ghost) (positions v 11) v

/-! ### Bundles that are sent -/

/-- The numbers of the blocks of these types, Pol.cpp:807-823 and 833-853. The type is cast to one byte. -/
def numbersOf (v : View) (types : List Nat) : List Nat :=
  types.flatMap fun t => (v.byType (UInt8.ofNat t)).map (·.block.number)

/-- The targets of the confidentiality block: `none` holds the place of the new integrity block, Pol.cpp:826-856. -/
def sealTargets (v : View) (types : List Nat) : List (Option Nat) :=
  types.flatMap fun t => if t = typeBib then [none] else (v.byType (UInt8.ofNat t)).map fun b => some b.block.number

/-- The arguments of `TryAddBundleIntegrity`, Pol.cpp:913-930. -/
def signParams (p : Policy) (source : Eid) (targets : List Nat) : SignParams :=
  ⟨p.bib.scope, p.bib.variant, UInt8.ofNat p.bib.crc, source, targets, keyOf p.bib.kek, keyOf p.bib.key⟩

/-- The arguments of `TryEncryptBundle`, Pol.cpp:938-955. -/
def sealParams (p : Policy) (source : Eid) (targets : List Nat) (iv : Bytes) : SealParams :=
  ⟨p.bcb.scope, p.bcb.variant, UInt8.ofNat p.bcb.crc, source, targets, iv, keyOf p.bcb.kek, keyOf p.bcb.key⟩

/-- The integrity block, Pol.cpp:912-934, and its number, 0 without one (the place holder, Pol.cpp:838). -/
def signStep (C : Crypto) (p : Policy) (source : Eid) (v : View) (room : Nat) : Out (View × Nat × Nat) :=
  if p.doBib then
    (sign C (signParams p source (numbersOf v p.bib.targets)) v room).bind fun (v, room) =>
      match v.blocks with
      | [] => .fault
      | b :: _ => .ok (v, room, b.block.number)
  else .ok (v, room, 0)

/-- `PopulateTargetArraysForSecuritySource` (Pol.cpp:797-861) and `ProcessOutgoingBundle` (Pol.cpp:908-961) with the
policy found: the view, the room left, and the initialization vectors. -/
def send (C : Crypto) (p : Policy) (source : Eid) (g : Iv.Gen) (v : View) (room : Nat) : Out (View × Nat × Iv.Gen) :=
  let targets := if p.doBcb then sealTargets v p.bcb.targets else []
  (signStep C p source v room).bind fun (v, room, number) =>
    if p.doBcb then
      let (g, iv) := g.next p.bcb.short
      (encrypt C (sealParams p source (targets.map fun t => t.getD number) iv) v room).bind fun (v, room) => .ok (v, room, g)
    else .ok (v, room, g)

/-- `FindPolicyAndProcessOutgoingBundle`, Pol.cpp:963-979. -/
def findAndSend (E : Env) (source : Eid) (g : Iv.Gen) (v : View) (room : Nat) : Out (View × Nat × Iv.Gen) :=
  match E.manager.find ⟨source, v.primary.source, v.primary.dest, roleSource⟩ with
  | none => .ok (v, room, g)
  | some p => send E.crypto p source g v room

end Hdtn.BpSecProcess
