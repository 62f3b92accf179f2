import Verif.CustodyManager.Model
import Verif.BundleView7.Model
import Verif.Bpv6Fragment.Model

/-!
Model of `BpSourcePattern`, /repo/common/bpcodec/src/app_patterns/BpSourcePattern.cpp ("Source.cpp" below): the thread that makes
bundles of payloads and gives them to an outduct, the callbacks of the outduct that run in other threads, and the bundles that come back.

Bundles are sent by an outduct; sending through an induct is not modelled. What a bundle holds is the business of `BundleView6` and
`BundleView7`; here it is bytes. A refused `Forward` leaves the bundle where it is. The order in which the memory accesses of different
threads are seen is sequential.
-/

namespace Hdtn.Source

open Hdtn.HashMap16

/-! ### Creation timestamps -/

/-- `lastTimeRfc5050` or `lastMillisecondsSinceStartOfYear2000`, and `seq`: local variables of `BpSourcePatternThreadFunc`,
Source.cpp:374-377. -/
structure Clock where
  last : Nat
  seq : Nat
deriving DecidableEq, Repr

/-- Source.cpp:374-377. -/
def Clock.start : Clock := ⟨0, 0⟩

/-- The timestamp of a bundle that is made when the clock shows `now`, Source.cpp:475-483 and 632-640: milliseconds in version 7, seconds in
version 6. -/
def Clock.stamp (c : Clock) (now : Nat) : (Nat × Nat) × Clock :=
  let seq := if now = c.last then (c.seq + 1) % U64 else 0
  ((now, seq), ⟨now, seq⟩)

/-- The timestamps of the bundles of one run, made at these times. -/
def Clock.stamps (c : Clock) : List Nat → List (Nat × Nat)
  | [] => []
  | now :: later => (c.stamp now).1 :: (c.stamp now).2.stamps later

/-! ### Sending -/

/-- A bundle with its `bundleId`. -/
structure Bundle where
  id : Nat
  data : Bytes
deriving DecidableEq, Repr

/-- What is fixed when the thread starts: `outductMaxBundlesInPipeline`, `m_requireRxBundleBeforeNextTx`, and whether bundles are rendered in
place, because a BPSec policy is applied, Source.cpp:587-612. -/
structure Cfg where
  max : Nat
  requireRx : Bool
  inPlace : Bool
deriving DecidableEq, Repr

/-- Where the thread is in its loop. -/
inductive Pc
  /-- At the head of the loop, Source.cpp:413. -/
  | top
  /-- The queue of failed bundles was found empty, Source.cpp:427. -/
  | checked
  /-- Waits for bundles that are being sent, Source.cpp:736-742. -/
  | wait
  /-- With a bundle, before a look at the link, Source.cpp:751. -/
  | hand (b : Bundle)
  /-- Waits for room in the pipeline, Source.cpp:768. -/
  | room (b : Bundle)
  /-- Calls `Forward`, Source.cpp:792-809. -/
  | forward (b : Bundle)
  /-- The attempt has failed, Source.cpp:840. -/
  | retry (b : Bundle)
  /-- The bundle was taken by the outduct; perhaps a bundle must be received first, Source.cpp:831-836. -/
  | sent
  /-- Out of the loop. -/
  | done
deriving DecidableEq, Repr

/-- The bundle that the thread has. -/
def Pc.held : Pc → List Bundle
  | .hand b | .room b | .forward b | .retry b => [b]
  | _ => []

/-- The state. `duct` are the bundles that the outduct has; the members behind it are not in the program, and tell what has happened. -/
structure Src where
  running : Bool
  generating : Bool
  waitingNew : Bool
  next : Nat
  failed : List Bundle
  sending : List Nat
  linkDown : Bool
  awaiting : Bool
  count : Nat
  pc : Pc
  duct : List Bundle
  /-- The bundles that were made. -/
  made : List Bundle
  /-- The outduct has reported success. -/
  acked : List Bundle
  /-- The outduct has reported failure after success. -/
  late : List Bundle
  /-- The outduct has failed and had no callback to call. -/
  vanished : List Bundle
  /-- The thread has ended with this bundle in its hands. -/
  abandoned : List Bundle
  /-- "all bundles generated and fully sent" was logged. -/
  saidAll : Bool
  /-- How many bundles were received and processed. -/
  received : Nat
deriving DecidableEq, Repr

/-- The thread has started, Source.cpp:366-402. -/
def start : Src := ⟨true, true, false, 0, [], [], false, false, 0, .top, [], [], [], [], [], [], false, 0⟩

/-- What `GetNextPayloadLength_Step1` and `CopyPayload_Step2` answer: nothing more will come; nothing now; a payload, and so a bundle; a
payload that cannot be copied, or a bundle that a security policy rejects. -/
inductive Next
  | finished
  | later
  | bundle (data : Bytes)
  | broken
deriving DecidableEq, Repr

/-- What the thread is told by others in one step: about payloads, by `TryWaitForDataAvailable`, by the clock, and by `Forward`. -/
structure Answer where
  next : Next
  ready : Bool
  timeout : Bool
  accepted : Bool
deriving DecidableEq, Repr

/-- `m_currentlySendingBundleIdSet.insert`. -/
def insertId (ids : List Nat) (id : Nat) : List Nat := if id ∈ ids then ids else id :: ids

/-- A step of the thread, Source.cpp:413-840. -/
def Src.main (C : Cfg) (s : Src) (a : Answer) : Src :=
  match s.pc with
  | .top =>
    if !s.running then { s with pc := .done }
    else
      match s.failed with
      | b :: rest => { s with pc := .hand b, failed := rest }
      | [] => { s with pc := .checked }
  | .checked =>
    if s.waitingNew then { s with waitingNew := !a.ready, pc := .top }
    else if s.generating then
      match a.next with
      | .finished => { s with generating := false, waitingNew := false, pc := .top }
      | .later => { s with waitingNew := true, pc := .top }
      | .bundle data =>
        { s with next := s.next + 1, pc := .hand ⟨s.next, data⟩, made := s.made ++ [⟨s.next, data⟩] }
      | .broken => { s with next := s.next + 1, running := false, pc := .top }
    else if s.sending = [] then { s with running := false, pc := .top, saidAll := true }
    else { s with pc := .wait }
  | .wait => { s with pc := .top }
  | .hand b =>
    if s.linkDown then { s with pc := .retry b }
    else { s with pc := .room b, awaiting := if C.requireRx then true else s.awaiting }
  | .room b =>
    if s.sending.length < C.max then { s with pc := .forward b, sending := insertId s.sending b.id }
    else if a.timeout then { s with pc := .retry b }
    else s
  | .forward b =>
    if a.accepted then { s with pc := .sent, count := s.count + 1, duct := s.duct ++ [b] }
    else { s with pc := .retry b }
  | .retry b =>
    if s.running then { s with pc := .hand b }
    else { s with pc := .top, abandoned := s.abandoned ++ [b] }
  | .sent => if C.requireRx ∧ s.running ∧ s.awaiting then s else { s with pc := .top }
  | .done => s

/-- What can happen. -/
inductive Ev
  /-- The thread goes on. -/
  | main (a : Answer)
  /-- The outduct reports success for a bundle that it has. -/
  | ok (id : Nat)
  /-- The outduct fails to send a bundle that it has. -/
  | fail (id : Nat)
  /-- The outduct reports that a bundle failed that was reported as sent. -/
  | failLate (id : Nat)
  /-- The outduct reports that the link is down or up. -/
  | link (down : Bool)
  /-- A bundle was received and processed. -/
  | rx
  /-- `Stop`. -/
  | stop
deriving DecidableEq, Repr

/-- The bundle with this identifier. -/
def named (id : Nat) (bs : List Bundle) : Option Bundle := bs.find? fun b => b.id = id

/-- What happens when it happens. `OnSuccessfulBundleSendCallback`, Source.cpp:1207-1224; `OnFailedBundleVecSendCallback`, Source.cpp:1180-1206,
which is not called for a bundle that was rendered in place, since that is a ZeroMQ message and no callback is given for those (Source.cpp:242);
`OnOutductLinkStatusChangedCallback`, Source.cpp:1225-1235; the end of `WholeRxBundleReadyCallback`; `Stop`, Source.cpp:106-107. -/
def Src.step (C : Cfg) (s : Src) : Ev → Src
  | .main a => s.main C a
  | .ok id =>
    match named id s.duct with
    | none => s
    | some b =>
      { s with duct := s.duct.erase b, sending := s.sending.erase id, acked := s.acked ++ [b], linkDown := false }
  | .fail id =>
    match named id s.duct with
    | none => s
    | some b =>
      if C.inPlace then { s with duct := s.duct.erase b, vanished := s.vanished ++ [b] }
      else
        { s with duct := s.duct.erase b, sending := s.sending.erase id, failed := s.failed ++ [b], linkDown := true }
  | .failLate id =>
    match named id s.acked with
    | none => s
    | some b => { s with acked := s.acked.erase b, late := s.late ++ [b] }
  | .link down => { s with linkDown := down }
  | .rx => { s with awaiting := false, received := s.received + 1 }
  | .stop => { s with running := false }

/-- A history. -/
def run (C : Cfg) (s : Src) : List Ev → Src
  | [] => s
  | e :: es => run C (s.step C e) es

/-! ### Receiving -/

/-- The identity of a bundle, `cbhe_bundle_uuid_nofragment_t`. -/
abbrev Id := Bpv6Fragment.Id

/-- Who the source is, and what it counts: `m_myEid`, `m_myCustodianEid`, `m_detectedNextCustodianSupportsCteb`, `m_cbheBundleUuidSet`,
`m_numRfc5050CustodyTransfers`, `m_numAcsCustodyTransfers`, `m_bundleCount`. What is in `m_outstandingCtebCustodyIdsFragmentSet` is never
looked at, and not modelled. -/
structure Acct where
  me : Eid
  custodian : Eid
  cteb : Bool
  uuids : List Id
  signals : Nat
  acs : Nat
  count : Nat
deriving DecidableEq, Repr

/-- The start, Source.cpp:366-371. -/
def Acct.start (me custodian : Eid) : Acct := ⟨me, custodian, false, [], 0, 0, 0⟩

/-- What is made of a bundle of version 6 or 7 that came in. -/
inductive Made
  | nothing
  /-- The payload is processed, and is an answer. -/
  | answer (payload : Bytes)
deriving DecidableEq, Repr

/-- A bundle is made, with a request for custody, and sent, Source.cpp:648-686 and 828; `none` when the thread ends, since a bundle of this
identity is waiting for its signal. -/
def Acct.send (s : Acct) (id : Id) : Option Acct :=
  if s.cteb then some { s with count := s.count + 1 }
  else if id ∈ s.uuids then none
  else some { s with uuids := id :: s.uuids, count := s.count + 1 }

/-- How many identifiers are in these ranges, in 64 bits, added to a count, Source.cpp:995-998. -/
def addFills (n : Nat) (fills : List FragmentSet.Frag) : Nat :=
  fills.foldl (fun n f => (n + (f.e + 1) + (U64 - f.b)) % U64) n

/-- `WholeRxBundleReadyCallback` for a bundle of version 6 that was loaded, Source.cpp:915-1055. -/
def Acct.receive6 (s : Acct) (v : BundleView6.View) : Acct × Made :=
  if v.primary.isFragment then (s, .nothing)
  else if !BundleView6.isAdmin v.primary then
    if v.primary.dest ≠ s.me then (s, .nothing)
    else
      match v.byType 1 with
      | [b] => (s, .answer b.block.data)
      | _ => (s, .nothing)
  else if v.primary.dest ≠ s.custodian then (s, .nothing)
  else
    match v.byType 1 with
    | [b] =>
      match b.body with
      | .admin ⟨_, _, some (.aggregate status fills)⟩ =>
        if !AdminRecord6.custodySucceeded status then ({ s with cteb := true }, .nothing)
        else ({ s with cteb := true, acs := addFills s.acs fills }, .nothing)
      | .admin ⟨_, _, some (.custody c)⟩ =>
        if !AdminRecord6.custodySucceeded c.status then (s, .nothing)
        else if c.isFragment then (s, .nothing)
        else
          match Uri.parseUri false c.eid with
          | some (n, some e) =>
            let id : Id := ⟨⟨n, e⟩, c.creationSeconds, c.creationSequence⟩
            if id ∈ s.uuids then ({ s with uuids := s.uuids.erase id, signals := s.signals + 1 }, .nothing)
            else (s, .nothing)
          | _ => (s, .nothing)
      | _ => (s, .nothing)
    | _ => (s, .nothing)

/-- "Received all custody transfers", Source.cpp:865-868. -/
def Acct.saysAll (s : Acct) : Bool := max s.signals s.acs = s.count

/-- What happens to a source that asks for custody. -/
inductive Op
  | send (id : Id)
  | bundle (v : BundleView6.View)

/-- A history of it, as long as the thread runs. -/
def Acct.run (s : Acct) : List Op → Option Acct
  | [] => some s
  | .send id :: ops => do (← s.send id).run ops
  | .bundle v :: ops => (s.receive6 v).1.run ops

/-- The hop count of a bundle of version 7, Source.cpp:1089-1117: whether it goes on. `ghost` is what is in the object of a block whose content was
not read. -/
def hopOk (ghost : Nat × Nat) (v : BundleView7.View) : Bool :=
  match v.byType 10 with
  | [] => true
  | [b] =>
    let (limit, count) := match b.body with
      | .ext (.hopCount l c) => (l, c)
      | _ => ghost
    decide ((count + 1) % 2 ^ 64 ≤ limit ∧ (count + 1) % 2 ^ 64 ≤ 255)
  | _ => false

/-- `WholeRxBundleReadyCallback` for a bundle of version 7 that was loaded, Source.cpp:1056-1140. -/
def receive7 (ghost : Nat × Nat) (v : BundleView7.View) : Made :=
  if (v.byType 6).length > 1 then .nothing
  else if !hopOk ghost v then .nothing
  else
    match v.byType 1 with
    | [b] => .answer b.block.data
    | _ => .nothing

end Hdtn.Source
