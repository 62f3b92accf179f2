import Verif.Encap.Model

/-!
Model of bundles over encapsulation packets on a local stream: `BpOverEncapLocalStreamOutduct.cpp` (in /repo/common/outduct_manager/src) and
`BpOverEncapLocalStreamInduct.cpp` with the queue of `Induct.cpp` (in /repo/common/induct_manager/src). The stream and its reading side are those of Encap.

Simplifications: an asynchronous write ends with success, having written everything, or with an error, having written some of it (so that the comparison of the
number of bytes in `HandleSend` never fails); bundles are given as vectors or as messages, which makes no difference. Connecting (EncapAsyncDuplexLocalStream.h:374-380) and
the end of a connection (:498-537) are events.
-/

namespace Hdtn.EncapDuct

open Hdtn.Encap

/-- A place of the ring: `TcpAsyncSenderElement` with user data, header and bundle. -/
structure Entry where
  user : Nat
  header : Bytes
  bundle : Bytes
deriving DecidableEq, Repr

/-- What an entry looks like on the stream. -/
def Entry.bytes (e : Entry) : Bytes := e.header ++ e.bundle

/-- `BpOverEncapLocalStreamOutduct`: the configured number of bundles; the ring; the write that is in progress, with the number of the connection it was started on;
`m_sendErrorOccurred`; whether there is a connection (`ReadyToSend`) and how many there were; how many calls of `TrySendDataIfAvailable` are posted; what was written, with the
number of the connection; what `Forward` returned; the callbacks for successes, with user data, and for failures, with user data and bundle; counts. -/
structure Out where
  limit : Nat
  ring : List Entry := []
  writing : Option Nat := none
  error : Bool := false
  ready : Bool := false
  conn : Nat := 0
  posts : Nat := 0
  wire : List (Nat × Bytes) := []
  results : List (Nat × Bytes × Bool) := []
  done : List Nat := []
  back : List (Nat × Bytes) := []
  sent : Nat := 0
  acked : Nat := 0
  failed : Nat := 0
  bytesSent : Nat := 0
  bytesAcked : Nat := 0
deriving DecidableEq, Repr

/-- `Forward`, BpOverEncapLocalStreamOutduct.cpp:286-344 and :346-405. The ring has `limit + 5` places (:36-37) and holds one bundle less. -/
def Out.forward (s : Out) (user : Nat) (bundle : Bytes) : Out :=
  let no : Out := { s with results := s.results ++ [(user, bundle, false)] }
  if s.ready = false then no
  else if s.limit + 5 ≤ s.ring.length + 1 then no
  else match encode .bp (bundle.length % U32) with
    | none => no
    | some header =>
      { s with
        ring := s.ring ++ [⟨user, header, bundle⟩]
        posts := s.posts + 1
        results := s.results ++ [(user, bundle, true)]
        sent := s.sent + 1
        bytesSent := s.bytesSent + bundle.length }

/-- `TrySendDataIfAvailable_NotThreadSafe`, BpOverEncapLocalStreamOutduct.cpp:229-251, with `DoFailedBundleCallback`, :219-227. -/
def Out.trySend (s : Out) : Out :=
  match s.ring with
  | [] => s
  | e :: rest =>
    if s.error then
      { s with ring := rest, back := s.back ++ [(e.user, e.bundle)], failed := s.failed + 1, posts := s.posts + 1 }
    else if s.writing.isSome then s
    else { s with writing := some s.conn }

/-- A posted call runs. -/
def Out.post (s : Out) : Out :=
  if s.posts = 0 then s else Out.trySend { s with posts := s.posts - 1 }

/-- `HandleSend`, BpOverEncapLocalStreamOutduct.cpp:257-282: the write has succeeded. -/
def Out.written (s : Out) : Out :=
  match s.writing, s.ring with
  | some c, e :: rest =>
    Out.trySend { s with
      writing := none
      ring := rest
      wire := s.wire ++ [(c, e.bytes)]
      done := s.done ++ [e.user]
      acked := s.acked + 1
      bytesAcked := s.bytesAcked + e.bundle.length }
  | _, _ => s

/-- The same: the write has failed after `k` bytes. -/
def Out.broken (s : Out) (k : Nat) : Out :=
  match s.writing, s.ring with
  | some c, e :: _ => Out.trySend { s with writing := none, error := true, wire := s.wire ++ [(c, e.bytes.take k)] }
  | _, _ => s

/-- What happens to the outduct. -/
inductive Ev
  | forward (user : Nat) (bundle : Bytes)
  | post
  | written
  | broken (k : Nat)
  | up
  | down
deriving DecidableEq, Repr

def Out.step (s : Out) : Ev → Out
  | .forward user bundle => s.forward user bundle
  | .post => s.post
  | .written => s.written
  | .broken k => s.broken k
  | .up => { s with ready := true, conn := s.conn + 1 }
  | .down => { s with ready := false }

def Out.run (s : Out) (evs : List Ev) : Out := evs.foldl Out.step s

/-- `GetTotalBundlesUnacked`, BpOverEncapLocalStreamOutduct.cpp:65-67. -/
def Out.unacked (s : Out) : Nat := s.sent - s.acked

/-- `OnFullEncapPacketReceived` of the induct, BpOverEncapLocalStreamInduct.cpp:222-246: which of the packets become bundles. -/
def deliver (max : Nat) (ps : List Packet) : List Bytes := (ps.map Packet.buffer).filter fun b => b.length ≤ max

/-- The way back, from the induct: `BpOverEncapLocalStreamInduct` with its queue for the remote node; `m_writeInProgress` with the bundle; `m_sendErrorOccurred`; whether
there is a connection; posted notifications; what was written; what `ForwardOnOpportunisticLink` returned; counts. -/
structure Opp where
  node : Nat
  queue : List Bytes := []
  writing : Option (Bytes × Bytes) := none
  error : Bool := false
  ready : Bool := false
  posts : Nat := 0
  wire : List Bytes := []
  results : List (Bytes × Bool) := []
  sent : Nat := 0
  acked : Nat := 0
  failed : Nat := 0
deriving DecidableEq, Repr

/-- `ForwardOnOpportunisticLink` without a timeout, Induct.cpp:85-125; `maxTxBundlesInFlight` is 5. -/
def Opp.forward (s : Opp) (node : Nat) (bundle : Bytes) : Opp :=
  if node ≠ s.node then { s with results := s.results ++ [(bundle, false)] }
  else if 5 ≤ s.queue.length then { s with results := s.results ++ [(bundle, false)] }
  else { s with queue := s.queue ++ [bundle], posts := s.posts + 1, results := s.results ++ [(bundle, true)] }

/-- `TrySendBundleIfAvailable_NotThreadSafe`, BpOverEncapLocalStreamInduct.cpp:128-173. -/
def Opp.trySend (s : Opp) : Opp :=
  if s.writing.isSome then s
  else if s.error then s
  else match s.queue with
    | [] => s
    | b :: rest =>
      match encode .bp (b.length % U32) with
      | none => { s with queue := rest }
      | some header => { s with queue := rest, writing := some (header, b), sent := s.sent + 1 }

/-- `NotifyBundleReadyToSend_FromIoServiceThread`, BpOverEncapLocalStreamInduct.cpp:203-214. -/
def Opp.post (s : Opp) : Opp :=
  if s.posts = 0 then s
  else
    let s : Opp := { s with posts := s.posts - 1 }
    if s.ready then s.trySend else s

/-- `HandleSend`, BpOverEncapLocalStreamInduct.cpp:175-197. -/
def Opp.written (s : Opp) : Opp :=
  match s.writing with
  | none => s
  | some (header, b) => Opp.trySend { s with writing := none, acked := s.acked + 1, wire := s.wire ++ [header ++ b] }

def Opp.broken (s : Opp) (k : Nat) : Opp :=
  match s.writing with
  | none => s
  | some (header, b) => { s with writing := none, error := true, failed := s.failed + 1, wire := s.wire ++ [(header ++ b).take k] }

inductive OEv
  | forward (node : Nat) (bundle : Bytes)
  | post
  | written
  | broken (k : Nat)
  | up
  | down
deriving DecidableEq, Repr

/-- Connections change what is ready, and nothing else: `OnLocalStreamConnectionStatusChanged`, BpOverEncapLocalStreamInduct.cpp:113-125. -/
def Opp.step (s : Opp) : OEv → Opp
  | .forward node bundle => s.forward node bundle
  | .post => s.post
  | .written => s.written
  | .broken k => s.broken k
  | .up => { s with ready := true }
  | .down => { s with ready := false }

def Opp.run (s : Opp) (evs : List OEv) : Opp := evs.foldl Opp.step s

end Hdtn.EncapDuct
