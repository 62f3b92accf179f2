import Verif.Base

/-!
Model of the queue of writes of a TCPCLv4 connection that can be upgraded to TLS: class `TcpAsyncSenderSsl` in /repo/common/util/src/TcpAsyncSender.cpp. Class `TcpAsyncSender` is the same
with one layer only.

Simplifications: all calls run in the thread of the io_service (the calls with `ThreadSafe` in their names only post the others); a call made by a callback of an
element is taken as made just before the write ends, when it has the same effect, because the queue is not empty then; a write ends with all bytes, or with an
error after some of them.
-/

namespace Hdtn.TlsSender

/-- `*m_sslStreamSharedPtr`, or `m_sslStreamSharedPtr->next_layer()`. -/
inductive Layer
  | secure
  | plain
deriving DecidableEq, Repr

/-- `TcpAsyncSenderElement` (TcpAsyncSender.h:50-64), with the layer for which it is sent: whether it has a callback for the end of the write, whether
`m_underlyingDataVecBundle` is not empty, and whether there is a `m_underlyingDataZmqBundle`. -/
structure El where
  tag : Nat
  layer : Layer
  bytes : Bytes
  callback : Bool
  vec : Bool
  zmq : Bool
deriving DecidableEq, Repr

/-- What the user is told: the callback of an element, with or without error, and a bundle that failed. -/
inductive Note
  | sent (tag : Nat)
  | error (tag : Nat)
  | failedVec (tag : Nat)
  | failedZmq (tag : Nat)
deriving DecidableEq, Repr

/-- Which callbacks for failed bundles are set (TcpAsyncSender.cpp:232-237). -/
structure Cfg where
  vec : Bool
  zmq : Bool
deriving DecidableEq, Repr

/-- `m_queueTcpAsyncSenderElements`, the write that was started, `m_writeInProgress`, `m_sendErrorOccurred`; what was written to which layer, what the user was told, and
whether a write was started during another, or an empty queue was read. -/
structure Tx where
  queue : List El
  writing : Option (El × Layer)
  inProgress : Bool
  err : Bool
  wire : List (Layer × Bytes)
  notes : List Note
  undef : Bool
deriving DecidableEq, Repr

/-- The constructor, TcpAsyncSender.cpp:119-127. -/
def Tx.init : Tx := ⟨[], none, false, false, [], [], false⟩

/-- `DoFailedBundleCallback`, TcpAsyncSender.cpp:241-248. -/
def failed (c : Cfg) (e : El) : List Note :=
  if e.vec && c.vec then [.failedVec e.tag] else if e.zmq && c.zmq then [.failedZmq e.tag] else []

/-- `async_write` to a layer. -/
def Tx.start (s : Tx) (e : El) (l : Layer) : Tx := { s with writing := some (e, l), undef := s.undef || s.writing.isSome }

/-- `AsyncSendSecure_NotThreadSafe` and `AsyncSendUnsecure_NotThreadSafe`, TcpAsyncSender.cpp:133-149 and 182-199. -/
def Tx.send (c : Cfg) (s : Tx) (e : El) : Tx :=
  if s.err then { s with notes := s.notes ++ failed c e }
  else
    let queue := s.queue ++ [e]
    let t : Tx := { s with queue := queue, inProgress := true }
    if s.inProgress then t
    else match queue with
      | [] => { t with undef := true }
      | f :: _ => t.start f e.layer

/-- `DoCallback` of an element, TcpAsyncSender.cpp:24-28. -/
def report (e : El) (ok : Bool) : List Note := if e.callback then [if ok then .sent e.tag else .error e.tag] else []

/-- `HandleTcpSendSecure` and `HandleTcpSendUnsecure` without error, TcpAsyncSender.cpp:156-180 and 206-230: the next element is written to the same layer. -/
def Tx.done (s : Tx) : Tx :=
  match s.writing with
  | none => s
  | some (e, l) =>
    let s : Tx := { s with writing := none, wire := s.wire ++ [(l, e.bytes)] }
    match s.queue with
    | [] => { s with undef := true }
    | f :: rest =>
      let s : Tx := { s with queue := rest, notes := s.notes ++ report f true }
      match rest with
      | [] => { s with inProgress := false }
      | g :: _ => s.start g l

/-- The same with an error, after `k` bytes. -/
def Tx.broke (c : Cfg) (s : Tx) (k : Nat) : Tx :=
  match s.writing with
  | none => s
  | some (e, l) =>
    let s : Tx := { s with writing := none, wire := s.wire ++ [(l, e.bytes.take k)] }
    match s.queue with
    | [] => { s with undef := true }
    | f :: rest => { s with queue := [], err := true, notes := s.notes ++ report f false ++ failed c f ++ rest.flatMap (failed c) }

/-- Things that happen. -/
inductive Ev
  | send (e : El)
  | done
  | broke (k : Nat)
deriving DecidableEq, Repr

def Tx.step (c : Cfg) (s : Tx) : Ev → Tx
  | .send e => s.send c e
  | .done => s.done
  | .broke k => s.broke c k

def Tx.run (c : Cfg) (s : Tx) (evs : List Ev) : Tx := evs.foldl (Tx.step c) s

end Hdtn.TlsSender
