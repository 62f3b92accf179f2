import Verif.Encap.Model

/-!
Model of the sending side of LTP over encapsulation packets on a local stream.

 - LtpEncapLocalStreamEngine.cpp and LtpEngine.cpp are in /repo/common/ltp/src.

Simplifications: an element of the ring is the packets of one call of `SendPacket` or `SendPackets` (the ring itself is C76); the handler of a write that a lost
stream cuts off runs before the stream is connected again; receiving is C120 and C164.
-/

namespace Hdtn.LtpEncap

/-- The bytes of an element: each packet with its header, LtpEncapLocalStreamEngine.cpp:329-343 and 362-385. None if a header cannot be made. -/
def encodeAll : List Bytes → Option Bytes
  | [] => some []
  | p :: ps => match Encap.frame .ltp p, encodeAll ps with
    | some x, some y => some (x ++ y)
    | _, _ => none

/-- `m_txCb` with `m_txCbVec`, `m_writeInProgress` (with the connection), `m_sendErrorOccurred`, the connections up to now, and of the engine
`m_numQueuedSendSystemCallsAtomic`; for the statements: the elements that were written whole, the writes on each connection, and the elements for which there
was no room or no header. -/
structure Tx where
  queue : List Bytes
  writing : Option Nat
  err : Bool
  conn : Nat
  queued : Nat
  done : List Bytes
  wire : List (Nat × Bytes)
  dropped : Nat
deriving DecidableEq, Repr

/-- As constructed, LtpEncapLocalStreamEngine.cpp:39-43. -/
def Tx.init : Tx := ⟨[], none, false, 0, 0, [], [], 0⟩

/-- `TrySendOperationIfAvailable_NotThreadSafe`, LtpEncapLocalStreamEngine.cpp:171-192. -/
def Tx.trySend (s : Tx) : Tx :=
  if s.writing.isNone && !s.err && !s.queue.isEmpty then { s with writing := some s.conn } else s

/-- `LtpEngine::TrySendPacketIfAvailable` (LtpEngine.cpp:453-578) with packets to send: nothing if `MAX_QUEUED_SEND_SYSTEM_CALLS` operations are queued; else
`SendPacket` or `SendPackets`, LtpEncapLocalStreamEngine.cpp:305-392 (the ring has one place more than it can hold). -/
def Tx.send (s : Tx) (packets : List Bytes) : Tx :=
  if s.queued < 5 then
    let s : Tx := { s with queued := s.queued + 1 }
    if s.queue.length < 6 - 1 then
      match encodeAll packets with
      | some b => Tx.trySend { s with queue := s.queue ++ [b] }
      | none => { s with dropped := s.dropped + 1 }
    else { s with dropped := s.dropped + 1 }
  else s

/-- `HandleSendOperationCompleted`, LtpEncapLocalStreamEngine.cpp:193-229: the write ended whole, or with an error after some bytes. -/
def Tx.handleSend (s : Tx) (error : Option Nat) : Tx :=
  match s.writing, s.queue with
  | some c, b :: queue =>
    match error with
    | some k => { s with writing := none, err := true, wire := s.wire ++ [(c, b.take k)] }
    | none => Tx.trySend { s with writing := none, err := false, queue := queue, queued := s.queued - 1, done := s.done ++ [b], wire := s.wire ++ [(c, b)] }
  | _, _ => s

/-- `OnLocalStreamConnectionStatusChanged`, LtpEncapLocalStreamEngine.cpp:154-169. -/
def Tx.connection (s : Tx) (up : Bool) : Tx :=
  if up then (if s.writing.isNone then { s with err := false, conn := s.conn + 1 } else s) else { s with err := true }

/-- Things that happen: the engine has packets to send; a write ends; the stream is connected or lost. -/
inductive Ev
  | send (packets : List Bytes)
  | written (error : Option Nat)
  | connection (up : Bool)
deriving DecidableEq, Repr

def Tx.step (s : Tx) : Ev → Tx
  | .send p => s.send p
  | .written e => s.handleSend e
  | .connection up => s.connection up

def Tx.run (s : Tx) (evs : List Ev) : Tx := evs.foldl Tx.step s

end Hdtn.LtpEncap
