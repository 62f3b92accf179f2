import Verif.Base

/-!
Model of the sender for many UDP packets per system call.

 - UdpBatchSender.cpp is in /repo/common/util/src (the parts for Linux).

Simplifications: everything runs on the thread of the io_service; each call of the operating system with its result is an event;
the callback does not call back into the sender (that of LtpUdpEngine posts).
-/

namespace Hdtn.UdpBatch

/-- A packet is its buffers; a batch is what one call hands over. -/
abbrev Batch := List (List Bytes)

/-- `AppendConstBufferVecToTransmissionElements` for the packets of a batch, UdpBatchSender.cpp:436-496 and 514-516: packets without buffers are skipped. -/
def elements (b : Batch) : List Bytes := (b.filter fun p => !p.isEmpty).map List.flatten

/-- `sendmmsg_op`, UdpBatchSender.cpp:40-45: the messages, and `m_totalPacketsTransferred`. -/
structure Op where
  elements : List Bytes
  total : Nat
deriving DecidableEq, Repr

/-- `m_udpSendPacketInfoQueue`, `m_sendInProgress`, the operation in progress; for the statements: the messages that the operating system took, and the calls
of the callback (the batch, success, and the number of packets). -/
structure Tx where
  queue : List Batch
  busy : Bool
  op : Option Op
  sent : List Bytes
  answers : List (Batch × Bool × Nat)
deriving DecidableEq, Repr

/-- As constructed, UdpBatchSender.cpp:216-226. -/
def Tx.init : Tx := ⟨[], false, none, [], []⟩

/-- `TrySendQueued`, UdpBatchSender.cpp:504-565. -/
def Tx.trySend (s : Tx) : Tx :=
  match s.queue with
  | [] => s
  | b :: _ => if s.busy then s else
    { s with busy := true, op := if (elements b).isEmpty then none else some ⟨elements b, 0⟩ }

/-- `QueueAndTryPerformSendPacketsOperation_NotThreadSafe`, UdpBatchSender.cpp:499-503. -/
def Tx.send (s : Tx) (b : Batch) : Tx := Tx.trySend { s with queue := s.queue ++ [b] }

/-- `OnAsyncSendCompleted`, UdpBatchSender.cpp:566-592. -/
def Tx.completed (s : Tx) (error : Bool) (packets : Nat) : Tx :=
  match s.queue with
  | [] => s
  | b :: queue =>
    Tx.trySend { s with queue := queue, busy := false, op := none, answers := s.answers ++ [(b, !error && packets == b.length, packets)] }

/-- The result of a call of `sendmmsg`, or of waiting for the socket: so many messages, try again later, interrupted, another error. -/
inductive Result
  | messages (n : Nat)
  | again
  | interrupted
  | error
deriving DecidableEq, Repr

/-- `sendmmsg_op::operator()`, UdpBatchSender.cpp:49-107; the operating system takes no more messages than there are. -/
def Tx.sys (s : Tx) (r : Result) : Tx :=
  match s.op with
  | none => s
  | some o => match r with
    | .messages n =>
      let m := min n (o.elements.length - o.total)
      let s : Tx := { s with sent := s.sent ++ (o.elements.drop o.total).take m, op := some ⟨o.elements, o.total + m⟩ }
      if o.total + m = o.elements.length then s.completed false (o.total + m) else s
    | .again => s
    | .interrupted => s
    | .error => s.completed true o.total

/-- Things that happen. -/
inductive Ev
  | send (b : Batch)
  | sys (r : Result)
deriving DecidableEq, Repr

def Tx.step (s : Tx) : Ev → Tx
  | .send b => s.send b
  | .sys r => s.sys r

def Tx.run (s : Tx) (evs : List Ev) : Tx := evs.foldl Tx.step s

end Hdtn.UdpBatch
