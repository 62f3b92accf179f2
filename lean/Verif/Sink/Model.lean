import Verif.CustodyManager.Model
import Verif.Bpv6Fragment.Model
import Verif.Ingress7.Model
import Verif.Source.Model

/-!
Model of `BpSinkPattern`, /repo/common/bpcodec/src/app_patterns/BpSinkPattern.cpp ("Sink.cpp" below): what becomes of a received bundle, and
the thread that sends the answers.

Bundles are received one after the other; several inducts, whose threads share the custody signal, are in the last part. The answers are sent
by an outduct; sending through an induct is not modelled. `ProcessPayload`, which is the business of the application, is where a payload goes;
what it returns changes nothing but a log message.
-/

namespace Hdtn.Sink

open Hdtn.HashMap16

/-- `m_myEid`, `m_myEidEcho` and `m_hasSendCapability`, Sink.cpp:114-225. -/
structure Cfg where
  me : Eid
  echo : Eid
  canSend : Bool
deriving DecidableEq, Repr

/-- The members that received bundles change: the custody manager, `m_nextCtebCustodyId`, the fragment manager and `m_bundleToSendQueue`. -/
structure Sink where
  custody : CustodyManager.Mgr
  nextId : Nat
  frags : Bpv6Fragment.Manager
  queue : List (Eid × Bytes)

/-- After `Init`, Sink.cpp:135 and 210. -/
def Sink.start (aware : Bool) (me : Eid) : Sink := ⟨CustodyManager.init aware me, 0, Bpv6Fragment.Manager.empty, []⟩

/-- What becomes of a bundle: `Process` returns false; an answer was given to the sender; the fragment is kept; the application gets the payload;
memory outside of a buffer is written. -/
inductive Outcome
  | refused
  | echoed
  | kept
  | payload (data : Bytes)
  | undefined
deriving DecidableEq, Repr

/-- `Forward_ThreadSafe`, Sink.cpp:676-685. Its result is never looked at. -/
def Sink.forward (s : Sink) (dest : Eid) (bundle : Bytes) : Sink :=
  if s.queue.length > 2000 then s else { s with queue := s.queue ++ [(dest, bundle)] }

/-! ### Version 6 -/

/-- `isEcho`, Sink.cpp:252-253; bit 4 is SINGLETON. -/
def isEcho6 (C : Cfg) (p : Bpv6Primary.Primary) : Bool := p.flags.testBit 4 && decide (p.dest = C.echo)

/-- Sink.cpp:269-271. -/
def turnBack6 (echo : Eid) (v : BundleView6.View) : BundleView6.View :=
  { v with primary := { v.primary with dest := v.primary.source, source := echo }, primaryDirty := true }

/-- Whether SINGLETON and CUSTODY_REQUESTED (bit 3) are set, Sink.cpp:266 and 279. -/
def asksCustody (p : Bpv6Primary.Primary) : Bool := p.flags.testBit 4 && p.flags.testBit 3

/-- Custody is taken, Sink.cpp:264-301: an outcome, if this is the end, or the bundle with its new custodian. A signal is sent at once if one was
rendered; otherwise it is part of an aggregate, which is sent later. -/
def Sink.takeCustody (C : Cfg) (s : Sink) (v : BundleView6.View) (now : Nat) (time : AdminRecord6.DtnTime) :
    Sink × Except Outcome BundleView6.View :=
  if C.canSend && asksCustody v.primary then
    let s' := { s with nextId := (s.nextId + 1) % U64 }
    match CustodyManager.process s.custody v true s.nextId 0 now time with
    | none => (s', .error .refused)
    | some (v', none, m) => ({ s' with custody := m }, .ok v')
    | some (_, some .refused, m) => ({ s' with custody := m }, .error .refused)
    | some (_, some .overflow, m) => ({ s' with custody := m }, .error .undefined)
    | some (v', some (.done out w), m) => (({ s' with custody := m } : Sink).forward w.primary.dest out, .ok v')
  else (s, .ok v)

/-- The payload goes to the application, Sink.cpp:329-340. -/
def payloadOf (v : BundleView6.View) : Outcome :=
  match v.byType 1 with
  | [b] => .payload b.block.data
  | _ => .refused

/-- Sink.cpp:303-340. The fragment manager gets the bytes as they were received. The payload of an assembled bundle that was not rendered is in
memory that was freed. -/
def Sink.deliver (s : Sink) (buf : Bytes) (v : BundleView6.View) : Sink × Outcome :=
  if v.primary.isFragment then
    let r := s.frags.add buf
    let s := { s with frags := r.2 }
    match r.1 with
    | .error => (s, .refused)
    | .overflow => (s, .undefined)
    | .stored => (s, .kept)
    | .complete .refused => (s, .refused)
    | .complete (.bundle _ (.done _ w)) => (s, payloadOf w)
    | .complete _ => (s, .undefined)
  else (s, payloadOf v)

/-- `Process` for a bundle of version 6 that was loaded, Sink.cpp:246-340; the clocks show `now` and `time`. -/
def Sink.view6 (C : Cfg) (s : Sink) (buf : Bytes) (v : BundleView6.View) (now : Nat) (time : AdminRecord6.DtnTime) : Sink × Outcome :=
  if isEcho6 C v.primary then
    if !C.canSend then (s, .refused)
    else
      match (turnBack6 C.echo v).renderMax (buf.length + 500) with
      | .refused => (s, .refused)
      | .overflow => (s, .undefined)
      | .done out _ => (s.forward v.primary.source out, .echoed)
  else if v.primary.dest ≠ C.me then (s, .refused)
  else
    match s.takeCustody C v now time with
    | (s, .error o) => (s, o)
    | (s, .ok v) => s.deliver buf v

/-- `Process`, Sink.cpp:240-341, for what may be a bundle of version 6. -/
def Sink.receive6 (C : Cfg) (s : Sink) (buf : Bytes) (now : Nat) (time : AdminRecord6.DtnTime) : Sink × Outcome :=
  match BundleView6.load buf with
  | none => (s, .refused)
  | some v => s.view6 C buf v now time

/-- One aggregate, Sink.cpp:621-627. -/
def Sink.sendOne (s : Sink) (x : Eid × Fin 7 × BundleView6.Rendered) : Sink :=
  match x.2.2 with
  | .done out w => s.forward w.primary.dest out
  | _ => s

/-- `SendAcsFromTimerThread`, Sink.cpp:616-628. -/
def Sink.sendAcs (s : Sink) (clock : Nat → Nat) : Sink :=
  let r := CustodyManager.generateAll s.custody clock
  let s := { s with custody := r.2.2 }
  if r.1 then r.2.1.foldl Sink.sendOne s else s

/-- Several received bundles and expirations of the timer for aggregates. -/
inductive Op
  | bundle (buf : Bytes) (now : Nat) (time : AdminRecord6.DtnTime)
  | timer (clock : Nat → Nat)

/-- One of them. -/
def Sink.step (C : Cfg) (s : Sink) : Op → Sink
  | .bundle buf now time => (s.receive6 C buf now time).1
  | .timer clock => s.sendAcs clock

/-- All of them. -/
def Sink.run (C : Cfg) (s : Sink) (ops : List Op) : Sink := ops.foldl (Sink.step C) s

/-! ### Version 7 -/

open Hdtn.BundleView7 (View)

/-- What becomes of a bundle of version 7. -/
inductive Outcome7
  | refused
  | echo (dest : Eid) (bundle : Bytes)
  | payload (data : Bytes)
deriving DecidableEq, Repr

/-- The previous node block, Sink.cpp:384-415; `none` when the bundle is dropped. -/
def previous (C : Cfg) (v : View) : Option View :=
  match v.byType 6 with
  | [] => if v.primary.dest = C.echo then Ingress7.setPrevious C.echo v else some v
  | _ => Ingress7.setPrevious C.echo v

/-- The priority block, Sink.cpp:447-470; `ghost` is what is in the object of a block whose content was not read. -/
def priorityOk (ghost : Nat) (v : View) : Bool :=
  match v.byType 13 with
  | [] => true
  | [b] =>
    match b.body with
    | .ext (.priority p) => decide (p ≤ 2)
    | _ => decide (ghost ≤ 2)
  | _ => false

/-- `Process` after the security blocks were processed, Sink.cpp:371-503. The hop count is treated as in the ingress, Sink.cpp:417-445. `mem` is
the buffer for the answer, of the size of the bundle and 500 bytes. -/
def view7 (C : Cfg) (hop : Nat × Nat) (prio : Nat) (mem : Bytes) (v : View) : BpSec7.Out Outcome7 :=
  if v.primary.dest = C.echo ∧ C.canSend = false then .ok .refused
  else if v.primary.dest ≠ C.echo ∧ v.primary.dest ≠ C.me then .ok .refused
  else
    match previous C v with
    | none => .ok .refused
    | some u =>
      match Ingress7.countHop hop u with
      | none => .ok .refused
      | some u =>
        if !priorityOk prio u then .ok .refused
        else if v.primary.dest = C.echo then
          match (Ingress7.turnBack C.echo u).render mem with
          | .ok w => .ok (.echo v.primary.source w.rendered)
          | .fail => .ok .refused
          | .fault => .fault
        else
          match u.byType 1 with
          | [b] => .ok (.payload b.block.data)
          | _ => .ok .refused

/-- `Process` for a bundle of version 7 that was loaded, Sink.cpp:348-503; `pad` is the memory behind the bundle. -/
def receive7 (C : Cfg) (E : BpSecProcess.Env) (asb : Nat → BpSec7.Asb) (hop : Nat × Nat) (prio : Nat) (pad mem : Bytes) (v : View) :
    BpSec7.Out Outcome7 :=
  (BpSecProcess.receive E asb pad v).bind fun r =>
    match r with
    | .drop => .ok .refused
    | .keep v => view7 C hop prio mem v

/-! ### The sender -/

/-- A bundle with its destination and the number that the thread gives it. -/
structure Bundle where
  id : Nat
  dest : Eid
  data : Bytes
deriving DecidableEq, Repr

/-- Where the thread is. -/
inductive Pc
  /-- At the head of the loop, Sink.cpp:706. -/
  | top
  /-- Waits for a bundle to send, Sink.cpp:736. -/
  | sleep
  /-- With a bundle, before a look at the link, Sink.cpp:742. -/
  | link
  /-- Waits for room in the pipeline, Sink.cpp:780. -/
  | room
  /-- Calls `Forward`, Sink.cpp:808. -/
  | forward
  /-- Out of the loop. -/
  | done
deriving DecidableEq, Repr

/-- The state. `duct` are the bundles that the outduct has; the members behind it are not in the program, and tell what has happened. -/
structure Sender where
  running : Bool
  queue : List (Eid × Bytes)
  failed : List Bundle
  held : Option Bundle
  next : Nat
  sending : List Nat
  linkDown : Bool
  pc : Pc
  duct : List Bundle
  /-- What `Forward_ThreadSafe` was called with. -/
  asked : List (Eid × Bytes)
  /-- What it did not take. -/
  dropped : List (Eid × Bytes)
  /-- The outduct has reported success. -/
  acked : List Bundle
deriving DecidableEq, Repr

/-- The thread has started, Sink.cpp:687-705. -/
def Sender.start : Sender := ⟨true, [], [], none, 0, [], false, .top, [], [], [], []⟩

/-- A step of the thread, Sink.cpp:706-811. `max` is `outductMaxBundlesInPipeline`, `timeout` what the clock says, `accepted` what `Forward` returns.
The look at the queue and the wait are one step: in the program the look is repeated with the lock. -/
def Sender.main (max : Nat) (s : Sender) (timeout accepted : Bool) : Sender :=
  match s.pc with
  | .top =>
    if !s.running then { s with pc := .done }
    else
      match s.held, s.failed, s.queue with
      | some _, _, _ => { s with pc := .link }
      | none, b :: rest, _ => { s with held := some b, failed := rest, pc := .link }
      | none, [], (dest, data) :: rest =>
        { s with held := some ⟨s.next, dest, data⟩, queue := rest, next := s.next + 1, pc := .link }
      | none, [], [] => { s with pc := .sleep }
  | .sleep => s
  | .link => if s.linkDown then { s with pc := .top } else { s with pc := .room }
  | .room =>
    if s.running && decide (s.sending.length ≥ max) then (if timeout then { s with pc := .top } else s)
    else if !s.running then { s with pc := .top }
    else
      match s.held with
      | some b => { s with sending := Source.insertId s.sending b.id, pc := .forward }
      | none => s
  | .forward =>
    match s.held with
    | some b => if accepted then { s with held := none, duct := s.duct ++ [b], pc := .top } else { s with pc := .top }
    | none => s
  | .done => s

/-- What happens: a step of the thread; `Forward_ThreadSafe` is called; the outduct reports success or failure of a bundle that it has, or
that the link is up or down; the thread wakes although nobody has called it; the sink is stopped. -/
inductive Ev
  | main (timeout accepted : Bool)
  | ask (dest : Eid) (data : Bytes)
  | ok (id : Nat)
  | fail (id : Nat)
  | link (down : Bool)
  | wake
  | stop
deriving DecidableEq, Repr

/-- The thread leaves `m_conditionVariableSenderReader.wait`. -/
def Pc.wake : Pc → Pc
  | .sleep => .top
  | pc => pc

/-- `Forward_ThreadSafe`, Sink.cpp:676-685; the callbacks, Sink.cpp:819-866; `Stop`, Sink.cpp:56-105. -/
def Sender.step (max : Nat) (s : Sender) : Ev → Sender
  | .main timeout accepted => s.main max timeout accepted
  | .ask dest data =>
    if s.queue.length > 2000 then { s with asked := s.asked ++ [(dest, data)], dropped := s.dropped ++ [(dest, data)] }
    else { s with asked := s.asked ++ [(dest, data)], queue := s.queue ++ [(dest, data)], pc := s.pc.wake }
  | .ok id =>
    match s.duct.find? fun b => b.id = id with
    | none => s
    | some b => { s with duct := s.duct.erase b, sending := s.sending.erase id, linkDown := false, acked := s.acked ++ [b] }
  | .fail id =>
    match s.duct.find? fun b => b.id = id with
    | none => s
    | some b => { s with duct := s.duct.erase b, sending := s.sending.erase id, linkDown := true, failed := s.failed ++ [b] }
  | .link down => { s with linkDown := down }
  | .wake => { s with pc := s.pc.wake }
  | .stop => { s with running := false, pc := s.pc.wake }

/-- A history. -/
def Sender.run (max : Nat) (s : Sender) (es : List Ev) : Sender := es.foldl (Sender.step max) s

/-! ### Several inducts -/

/-- What two threads that receive bundles do with the one `m_custodySignalRfc5050RenderedBundleView`: a signal is rendered there with the lock,
Sink.cpp:281-285 (`ProcessCustodyOfBundle` empties the view first), and moved to the queue without it, Sink.cpp:291-294. -/
inductive SharedEv
  | rendered (signal : Eid × Bytes)
  | moved
deriving DecidableEq, Repr

/-- The destination and the bytes in the view, and the queue. `size` is that of `m_renderedBundle`, which stays as it was when the bytes are moved. -/
structure Shared where
  dest : Eid
  buffer : Bytes
  size : Nat
  queue : List (Eid × Bytes)
deriving DecidableEq, Repr

/-- Sink.cpp:281-295. -/
def Shared.step (s : Shared) : SharedEv → Shared
  | .rendered x => { s with dest := x.1, buffer := x.2, size := x.2.length }
  | .moved => if s.size = 0 then s else { s with buffer := [], queue := s.queue ++ [(s.dest, s.buffer)] }

/-- A history of the view. -/
def Shared.run (s : Shared) (es : List SharedEv) : Shared := es.foldl Shared.step s

end Hdtn.Sink
